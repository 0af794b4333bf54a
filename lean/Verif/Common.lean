/-!
# Shared vocabulary of all component models

A hardware component is a Mealy machine. `Machine.trace` unrolls it over a list of per-cycle
inputs. All property statements are about such traces, i.e. about what can be observed on the
ports of the component in each clock cycle.
-/
namespace Verif

universe u v w x

/-- A synchronous machine: combinational outputs `out` and register update `next`. -/
structure Machine (S : Type u) (I : Type v) (O : Type w) where
  out : S → I → O
  next : S → I → S

namespace Machine
variable {S : Type u} {I : Type v} {O : Type w}

/-- Per cycle record `(input, output)` of a run from state `s`. -/
def trace (m : Machine S I O) : S → List I → List (I × O)
  | _, [] => []
  | s, i :: is => (i, m.out s i) :: m.trace (m.next s i) is

/-- State after a run. -/
def final (m : Machine S I O) : S → List I → S
  | s, [] => s
  | s, i :: is => m.final (m.next s i) is

@[simp] theorem trace_nil (m : Machine S I O) (s : S) : m.trace s [] = [] := rfl
@[simp] theorem trace_cons (m : Machine S I O) (s : S) (i : I) (is : List I) :
    m.trace s (i :: is) = (i, m.out s i) :: m.trace (m.next s i) is := rfl
@[simp] theorem final_nil (m : Machine S I O) (s : S) : m.final s [] = s := rfl
@[simp] theorem final_cons (m : Machine S I O) (s : S) (i : I) (is : List I) :
    m.final s (i :: is) = m.final (m.next s i) is := rfl

theorem trace_append (m : Machine S I O) (s : S) (a b : List I) :
    m.trace s (a ++ b) = m.trace s a ++ m.trace (m.final s a) b := by
  induction a generalizing s with
  | nil => rfl
  | cons i is ih => simp [ih]

theorem final_append (m : Machine S I O) (s : S) (a b : List I) :
    m.final s (a ++ b) = m.final (m.final s a) b := by
  induction a generalizing s with
  | nil => rfl
  | cons i is ih => simp [ih]

@[simp] theorem trace_length (m : Machine S I O) (s : S) (is : List I) :
    (m.trace s is).length = is.length := by
  induction is generalizing s with
  | nil => rfl
  | cons i is ih => simp [ih]

/-- Output in the cycle which follows the history `is` (started in `s`), under input `i`. -/
def outAfter (m : Machine S I O) (s : S) (is : List I) (i : I) : O := m.out (m.final s is) i

/-- The output "after history `is` under input `i`" is the last entry of the longer trace. -/
theorem trace_snoc (m : Machine S I O) (s : S) (is : List I) (i : I) :
    m.trace s (is ++ [i]) = m.trace s is ++ [(i, m.outAfter s is i)] := by
  rw [trace_append]; rfl

/-- State in cycle `t` of an infinite run. -/
def stateAt (m : Machine S I O) (s : S) (stim : Nat → I) : Nat → S
  | 0 => s
  | t + 1 => m.next (m.stateAt s stim t) (stim t)

/-- Output in cycle `t` of an infinite run. -/
def outAt (m : Machine S I O) (s : S) (stim : Nat → I) (t : Nat) : O :=
  m.out (m.stateAt s stim t) (stim t)

/-- Invariant rule: an invariant preserved by every step whose trace entry satisfies the
environment assumption `ok` holds after every run all of whose entries satisfy `ok`. -/
theorem inv_final (m : Machine S I O) (Inv : S → Prop) (ok : I × O → Prop)
    (step : ∀ s i, Inv s → ok (i, m.out s i) → Inv (m.next s i)) :
    ∀ (is : List I) (s : S), Inv s → (∀ e ∈ m.trace s is, ok e) → Inv (m.final s is) := by
  intro is
  induction is with
  | nil => intro s h _; exact h
  | cons i is ih =>
    intro s h hok
    simp only [trace_cons, List.mem_cons, forall_eq_or_imp] at hok
    exact ih _ (step s i h hok.1) hok.2

/-- Conservation rule: if in every step "stored ++ taken in = given out ++ stored afterwards"
then the same holds for whole runs. -/
theorem conserve {α : Type x} (m : Machine S I O) (Inv : S → Prop) (ok : I × O → Prop)
    (q : S → List α) (fin fout : I × O → Option α)
    (step : ∀ s i, Inv s → ok (i, m.out s i) → Inv (m.next s i) ∧
      q s ++ (fin (i, m.out s i)).toList = (fout (i, m.out s i)).toList ++ q (m.next s i)) :
    ∀ (is : List I) (s : S), Inv s → (∀ e ∈ m.trace s is, ok e) →
      Inv (m.final s is) ∧
      q s ++ (m.trace s is).filterMap fin = (m.trace s is).filterMap fout ++ q (m.final s is) := by
  intro is
  induction is with
  | nil => intro s h _; exact ⟨h, by simp⟩
  | cons i is ih =>
    intro s h hok
    simp only [trace_cons, List.mem_cons, forall_eq_or_imp] at hok
    obtain ⟨hi, hq⟩ := step s i h hok.1
    obtain ⟨hf, hq'⟩ := ih _ hi hok.2
    refine ⟨hf, ?_⟩
    have e1 : ∀ (f : I × O → Option α), (m.trace s (i :: is)).filterMap f
        = (f (i, m.out s i)).toList ++ (m.trace (m.next s i) is).filterMap f := by
      intro f
      simp only [trace_cons, List.filterMap_cons]
      cases f (i, m.out s i) <;> simp
    rw [e1, e1, ← List.append_assoc, hq, List.append_assoc, hq', List.append_assoc]
    rfl

/-- Conservation rule where one cycle may take in or give out several items. -/
theorem conserveL {α : Type x} (m : Machine S I O) (Inv : S → Prop) (ok : I × O → Prop)
    (q : S → List α) (fin fout : I × O → List α)
    (step : ∀ s i, Inv s → ok (i, m.out s i) → Inv (m.next s i) ∧
      q s ++ fin (i, m.out s i) = fout (i, m.out s i) ++ q (m.next s i)) :
    ∀ (is : List I) (s : S), Inv s → (∀ e ∈ m.trace s is, ok e) →
      Inv (m.final s is) ∧
      q s ++ (m.trace s is).flatMap fin = (m.trace s is).flatMap fout ++ q (m.final s is) := by
  intro is
  induction is with
  | nil => intro s h _; exact ⟨h, by simp⟩
  | cons i is ih =>
    intro s h hok
    simp only [trace_cons, List.mem_cons, forall_eq_or_imp] at hok
    obtain ⟨hi, hq⟩ := step s i h hok.1
    obtain ⟨hf, hq'⟩ := ih _ hi hok.2
    refine ⟨hf, ?_⟩
    rw [trace_cons, List.flatMap_cons, List.flatMap_cons, ← List.append_assoc, hq,
      List.append_assoc, hq', List.append_assoc]
    rfl

end Machine

/-- `log2ceil` of hwt.math: number of bits used for an index/counter type
(`log2ceil(0) = log2ceil(1) = 1`). -/
def log2ceil (n : Nat) : Nat := if n ≤ 1 then 1 else Nat.log2 (n - 1) + 1

theorem le_two_pow_log2ceil (n : Nat) : n ≤ 2 ^ log2ceil n := by
  unfold log2ceil
  split
  · simp; omega
  · have := @Nat.lt_log2_self (n - 1)
    omega

theorem log2ceil_pos (n : Nat) : 0 < log2ceil n := by
  unfold log2ceil; split <;> omega

/-- Point update of a memory. -/
def upd {α : Type u} (f : Nat → α) (i : Nat) (v : α) : Nat → α := fun j => if j = i then v else f j

@[simp] theorem upd_same {α : Type u} (f : Nat → α) (i : Nat) (v : α) : upd f i v i = v := by
  simp [upd]
theorem upd_ne {α : Type u} (f : Nat → α) (i : Nat) (v : α) (j : Nat) (h : j ≠ i) :
    upd f i v j = f j := by simp [upd, h]

/-- `[x]` if `b`, else `[]` (used in proofs). -/
def given {α : Type u} (b : Bool) (x : α) : List α := match b with | true => [x] | false => []

@[simp] theorem given_true {α : Type u} (x : α) : given true x = [x] := rfl
@[simp] theorem given_false {α : Type u} (x : α) : given false x = [] := rfl
theorem given_eq {α : Type u} (b : Bool) (x : α) : given b x = if b then [x] else [] := by
  cases b <;> rfl
theorem toList_ite {α : Type u} (b : Bool) (x : α) :
    (if b then some x else none).toList = given b x := by
  cases b <;> rfl

theorem filterMap_cons_ite {β : Type v} {α : Type u} (c : β → Bool) (f : β → α) (a : β) (l : List β) :
    (a :: l).filterMap (fun e => if c e then some (f e) else none)
      = given (c a) (f a) ++ l.filterMap (fun e => if c e then some (f e) else none) := by
  rw [List.filterMap_cons]
  cases c a <;> rfl

end Verif
