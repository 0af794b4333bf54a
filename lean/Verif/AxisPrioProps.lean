import Verif.AxisPrio
import Verif.SplitJoinProps
/-! Properties of `Axi4SJoinPrioritized` (C411, C412) -/
namespace Verif.AxisPrio
open Verif.SplitJoin

variable {α : Type}

/-- words transferred by the inputs in a cycle, with the number of the input -/
def takenIn (n : Nat) (e : JoinIn (α × Bool) × JoinOut (α × Bool)) : List (Nat × α × Bool) :=
  ((List.range n).filter fun k => e.1.vld k && e.2.rd k).map fun k => (k, e.1.data k)

/-- words transferred by the output in a cycle (`none` = undefined data) -/
def sentIn (e : JoinIn (α × Bool) × JoinOut (α × Bool)) : List (Option (α × Bool)) :=
  if e.2.vld && e.1.rd then [e.2.data] else []

/-- each frame is without words of other inputs; `o` is the input of the frame which is not finished -/
def Whole : Option Nat → List (Nat × α × Bool) → Prop
  | _, [] => True
  | o, (k, _, last) :: r => (∀ q, o = some q → k = q) ∧ Whole (if last then none else some k) r

/-- input of the unfinished frame after words `l` -/
def openFrame (o : Option Nat) (l : List (Nat × α × Bool)) : Option Nat :=
  match l.getLast? with
  | none => o
  | some (k, _, last) => if last then none else some k

theorem filter_one (n k : Nat) (hk : k < n) (p : Nat → Bool) (h : ∀ j, j < n → (p j = true ↔ j = k)) :
    (List.range n).filter p = [k] := by
  induction n with
  | zero => omega
  | succ n ih =>
    rw [List.range_succ, List.filter_append]
    by_cases hkn : k = n
    · subst hkn
      have h1 : (List.range k).filter p = [] := by
        rw [List.filter_eq_nil_iff]
        intro j hj hp
        have hj := List.mem_range.1 hj
        have := (h j (by omega)).1 hp
        omega
      rw [h1, List.filter_cons, if_pos ((h k (by omega)).2 rfl)]
      rfl
    · rw [ih (by omega) fun j hj => h j (by omega), List.filter_cons, if_neg]
      · rfl
      · intro hp
        exact hkn ((h n (by omega)).1 hp).symm

/-- registers of the frame of input `o` -/
def Inv (n : Nat) (ens : Nat → Bool) (o : Option Nat) : Prop :=
  match o with
  | none => ∀ k, k < n → ens k = false
  | some q => q < n ∧ ∀ k, k < n → ens k = (k == q)

theorem en_none (n : Nat) (ens : Nat → Bool) (h : Inv n ens none) (k : Nat) : en n ens k = true := by
  unfold en
  rw [(anyN_false n ens).2 h]; rfl

theorem en_some (n q : Nat) (ens : Nat → Bool) (h : Inv n ens (some q)) (k : Nat) (hk : k < n) : en n ens k = (k == q) := by
  unfold en
  rw [(anyN_iff n ens).2 ⟨q, h.1, by rw [h.2 q h.1]; simp⟩, h.2 k hk]
  rfl

/-- one cycle -/
theorem cycle (n : Nat) (ens : Nat → Bool) (o : Option Nat) (h : Inv n ens o) (i : JoinIn (α × Bool)) :
    (takenIn n (i, (join n).out ens i) = [] ∧ sentIn (i, (join n).out ens i) = [] ∧ Inv n ((join n).next ens i) o) ∨
    ∃ k, k < n ∧ takenIn n (i, (join n).out ens i) = [(k, i.data k)] ∧ sentIn (i, (join n).out ens i) = [some (i.data k)] ∧
      (∀ q, o = some q → k = q) ∧ (o = none → ∀ j, j < k → i.vld j = false) ∧
      Inv n ((join n).next ens i) (if (i.data k).2 then none else some k) := by
  obtain ⟨h1, h2⟩ := joinPrioritized_lowest n (inner n ens i)
  -- handshake of an input of the component is the handshake of the input of the inner join
  have hs : ∀ j, (i.vld j && ready n ens i j) = ((inner n ens i).vld j && (joinPrioritized n (inner n ens i)).rd j) := by
    intro j
    simp only [ready, inner]
    cases i.vld j <;> cases en n ens j <;> simp
  have hs' : ∀ j, (ready n ens i j && (inner n ens i).vld j) = (i.vld j && ready n ens i j) := by
    intro j
    simp only [ready, inner]
    cases i.vld j <;> cases en n ens j <;> simp
  by_cases hc : (joinPrioritized n (inner n ens i)).vld = true ∧ (inner n ens i).rd = true
  · obtain ⟨k, hk, hv, hlow, hd, huniq⟩ := h1 hc
    right
    have hall : ∀ j, j < n → ((i.vld j && ready n ens i j) = true ↔ j = k) := by
      intro j hj
      rw [hs j, Bool.and_eq_true]
      exact huniq j hj
    have hek : en n ens k = true := by
      simp only [inner, Bool.and_eq_true] at hv
      exact hv.1
    refine ⟨k, hk, ?_, ?_, ?_, ?_, ?_⟩
    · have : (List.range n).filter (fun j => i.vld j && ready n ens i j) = [k] := filter_one n k hk _ hall
      show ((List.range n).filter (fun j => i.vld j && ready n ens i j)).map _ = _
      rw [this]; rfl
    · have hc' : ((joinPrioritized n (inner n ens i)).vld && i.rd) = true := by
        rw [Bool.and_eq_true]; exact hc
      show (if ((joinPrioritized n (inner n ens i)).vld && i.rd) = true then [(joinPrioritized n (inner n ens i)).data] else []) = _
      rw [if_pos hc', hd]; rfl
    · intro q hq
      subst hq
      rw [en_some n q ens h k hk] at hek
      simpa using hek
    · intro ho j hj
      subst ho
      have := hlow j hj
      simp only [inner, en_none n ens h] at this
      simpa using this
    · have hnext : ∀ j, j < n → (join n).next ens i j = if j = k then !(i.data j).2 else ens j := by
        intro j hj
        simp only [join]
        rw [hs' j]
        by_cases hjk : j = k
        · rw [if_pos ((hall j hj).2 hjk), if_pos hjk]
        · rw [if_neg (fun hx => hjk ((hall j hj).1 hx)), if_neg hjk]
      have hother : ∀ j, j < n → j ≠ k → ens j = false := by
        intro j hj hjk
        cases o with
        | none => exact h j hj
        | some q =>
          rw [en_some n q ens h k hk] at hek
          rw [h.2 j hj]
          simp only [beq_iff_eq] at hek
          subst hek
          simpa using hjk
      cases hl : (i.data k).2 with
      | true =>
        rw [if_pos rfl]
        intro j hj
        rw [hnext j hj]
        by_cases hjk : j = k
        · rw [if_pos hjk, hjk, hl]; rfl
        · rw [if_neg hjk, hother j hj hjk]
      | false =>
        rw [if_neg (by simp)]
        refine ⟨hk, fun j hj => ?_⟩
        rw [hnext j hj]
        by_cases hjk : j = k
        · rw [if_pos hjk, hjk, hl]; simp
        · rw [if_neg hjk, hother j hj hjk]; simp [hjk]
  · left
    have hno := h2 hc
    have hall : ∀ j, j < n → (i.vld j && ready n ens i j) = false := by
      intro j hj
      rw [hs j]
      cases hx : ((inner n ens i).vld j && (joinPrioritized n (inner n ens i)).rd j) with
      | false => rfl
      | true =>
        rw [Bool.and_eq_true] at hx
        exact absurd hx (hno j hj)
    refine ⟨?_, ?_, ?_⟩
    · show ((List.range n).filter (fun j => i.vld j && ready n ens i j)).map _ = _
      rw [List.filter_eq_nil_iff.2 (fun j hj => by rw [hall j (List.mem_range.1 hj)]; simp)]
      rfl
    · have hc' : ¬ ((joinPrioritized n (inner n ens i)).vld && i.rd) = true := by
        rw [Bool.and_eq_true]; exact hc
      show (if ((joinPrioritized n (inner n ens i)).vld && i.rd) = true then [(joinPrioritized n (inner n ens i)).data] else []) = _
      rw [if_neg hc']
    · have hnext : ∀ j, j < n → (join n).next ens i j = ens j := by
        intro j hj
        simp only [join]
        rw [hs' j, hall j hj]; rfl
      cases o with
      | none => exact fun j hj => by rw [hnext j hj]; exact h j hj
      | some q => exact ⟨h.1, fun j hj => by rw [hnext j hj]; exact h.2 j hj⟩

theorem run_inv (n : Nat) : ∀ (is : List (JoinIn (α × Bool))) (ens : Nat → Bool) (o : Option Nat), Inv n ens o →
    ((join n).trace ens is).flatMap sentIn = (((join n).trace ens is).flatMap (takenIn n)).map (fun p => some p.2) ∧
    Whole o (((join n).trace ens is).flatMap (takenIn n)) ∧
    Inv n ((join n).final ens is) (openFrame o (((join n).trace ens is).flatMap (takenIn n))) := by
  intro is
  induction is with
  | nil => intro ens o h; exact ⟨rfl, trivial, h⟩
  | cons i is ih =>
    intro ens o h
    rcases cycle n ens o h i with ⟨h1, h2, h3⟩ | ⟨k, hk, h1, h2, h3, _, h4⟩
    · obtain ⟨r1, r2, r3⟩ := ih _ o h3
      simp only [Machine.trace_cons, Machine.final_cons, List.flatMap_cons, h1, h2, List.nil_append]
      exact ⟨r1, r2, r3⟩
    · obtain ⟨r1, r2, r3⟩ := ih _ _ h4
      simp only [Machine.trace_cons, Machine.final_cons, List.flatMap_cons, h1, h2, List.singleton_append, List.map_cons]
      refine ⟨by rw [r1], ⟨h3, r2⟩, ?_⟩
      have : openFrame o ((k, i.data k) :: ((join n).trace ((join n).next ens i) is).flatMap (takenIn n)) =
          openFrame (if (i.data k).2 then none else some k) (((join n).trace ((join n).next ens i) is).flatMap (takenIn n)) := by
        unfold openFrame
        rw [List.getLast?_cons]
        cases (((join n).trace ((join n).next ens i) is).flatMap (takenIn n)).getLast? <;> rfl
      rw [this]
      exact r3

/-- C411: from reset, for all inputs: the output sends exactly the words taken from the inputs, in the same order and in the
cycle in which they are taken, the words of a frame are not mixed with words of other inputs, and a frame begins only on the
input with the lowest number of those with data. -/
theorem frames (n : Nat) (is : List (JoinIn (α × Bool))) :
    ((join n).trace init is).flatMap sentIn = (((join n).trace init is).flatMap (takenIn n)).map (fun p => some p.2) ∧
    Whole none (((join n).trace init is).flatMap (takenIn n)) ∧
    ∀ i k w, openFrame none (((join n).trace init is).flatMap (takenIn n)) = none →
      (k, w) ∈ takenIn n (i, (join n).outAfter init is i) → ∀ j, j < k → i.vld j = false := by
  obtain ⟨h1, h2, h3⟩ := run_inv n is init none (fun _ _ => rfl)
  refine ⟨h1, h2, fun i k w ho hm => ?_⟩
  rw [ho] at h3
  unfold Machine.outAfter at hm
  rcases cycle n _ none h3 i with ⟨c1, _, _⟩ | ⟨k', _, c1, _, _, c5, _⟩
  · rw [c1] at hm; cases hm
  · rw [c1] at hm
    simp only [List.mem_singleton, Prod.mk.injEq] at hm
    obtain ⟨rfl, _⟩ := hm
    exact c5 rfl

/-- one frame of two words on each of two inputs -/
def demo : List (JoinIn (Nat × Bool)) :=
  [⟨fun k => k == 1, fun _ => (10, false), true⟩, ⟨fun _ => true, fun k => if k = 1 then (11, true) else (1, false), false⟩,
   ⟨fun _ => true, fun k => if k = 1 then (11, true) else (1, false), true⟩, ⟨fun k => k == 0, fun _ => (1, false), true⟩,
   ⟨fun k => k == 0, fun _ => (2, true), true⟩]

example : ((join 2).trace init demo).flatMap (takenIn 2) = [(1, 10, false), (1, 11, true), (0, 1, false), (0, 2, true)] := by
  decide +kernel

/-! ## C412: stability of the output -/

/-- an input keeps its word until it is taken -/
def Stable (n : Nat) (i i' : JoinIn (α × Bool)) (o : JoinOut (α × Bool)) : Prop :=
  ∀ k, k < n → i.vld k = true → o.rd k = false → i'.vld k = true ∧ i'.data k = i.data k

/-- C412: full statement (AXI4-Stream): if the inputs keep their words until they are taken, the output does too -/
def stableSpec : Prop :=
  ∀ (n : Nat) (is : List (JoinIn (Nat × Bool))) (i i' : JoinIn (Nat × Bool)),
    Stable n i i' ((join n).outAfter init is i) → ((join n).outAfter init is i).vld = true → i.rd = false →
    ((join n).outAfter init (is ++ [i]) i').vld = true ∧
      ((join n).outAfter init (is ++ [i]) i').data = ((join n).outAfter init is i).data

/-- C412: the first word of a frame waits for ready and is replaced by the one of a higher priority input -/
theorem stable_violated : ¬ stableSpec := by
  intro h
  have := h 2 [] ⟨fun k => k == 1, fun k => (k, false), false⟩ ⟨fun _ => true, fun k => (k, false), false⟩
    (by intro k _ _ _; exact ⟨rfl, rfl⟩) (by decide +kernel) rfl
  exact absurd this.2 (by decide +kernel)

/-- C412: holds for all words of a frame except the first one; missing: the first word if an input with higher priority
gets data -/
theorem stable_partial (n : Nat) (is : List (JoinIn (α × Bool))) (i i' : JoinIn (α × Bool)) (q : Nat)
    (hq : openFrame none (((join n).trace init is).flatMap (takenIn n)) = some q)
    (hst : Stable n i i' ((join n).outAfter init is i)) (hv : ((join n).outAfter init is i).vld = true) (hr : i.rd = false) :
    ((join n).outAfter init (is ++ [i]) i').vld = true ∧
      ((join n).outAfter init (is ++ [i]) i').data = ((join n).outAfter init is i).data := by
  obtain ⟨_, _, h3⟩ := run_inv n is init none (fun _ _ => rfl)
  rw [hq] at h3
  unfold Machine.outAfter at hst hv ⊢
  rw [Machine.final_append]
  generalize (join n).final init is = ens at *
  -- the frame remains open
  have h4 : Inv n ((join n).next ens i) (some q) := by
    rcases cycle n ens _ h3 i with ⟨_, _, h⟩ | ⟨k, _, _, c, _, _, _⟩
    · exact h
    · simp only [sentIn, hr, Bool.and_false] at c
      simp at c
  -- the output is the word of the input of the frame
  have key : ∀ (e : Nat → Bool) (x : JoinIn (α × Bool)), Inv n e (some q) →
      (((join n).out e x).vld = true ↔ x.vld q = true) ∧ (x.vld q = true → ((join n).out e x).data = some (x.data q)) := by
    intro e x hi
    have hvld : ∀ k, k < n → (inner n e x).vld k = (k == q && x.vld k) := by
      intro k hk
      simp only [inner]
      rw [en_some n q e hi k hk]
    constructor
    · show anyN n (inner n e x).vld = true ↔ _
      rw [anyN_iff]
      constructor
      · rintro ⟨k, hk, hx⟩
        rw [hvld k hk, Bool.and_eq_true, beq_iff_eq] at hx
        rw [← hx.1]; exact hx.2
      · intro hx
        exact ⟨q, hi.1, by rw [hvld q hi.1, hx]; simp⟩
    · intro hx
      show firstCase n (inner n e x).vld (inner n e x).data = _
      unfold firstCase
      have : (List.range n).find? (inner n e x).vld = some q := by
        rw [List.find?_range_eq_some]
        refine ⟨by rw [hvld q hi.1, hx]; simp, List.mem_range.2 hi.1, ?_⟩
        intro j hj
        have hq := hi.1
        rw [hvld j (by omega)]
        have : ¬ j = q := by omega
        simp [this]
      rw [this]; rfl
  have hx : i.vld q = true := ((key ens i h3).1).1 hv
  have hrd : ((join n).out ens i).rd q = false := by
    show ready n ens i q = false
    simp only [ready, joinPrioritized, inner, hr, Bool.false_and, Bool.and_false]
  obtain ⟨s1, s2⟩ := hst q h3.1 hx hrd
  simp only [Machine.final_cons, Machine.final_nil]
  refine ⟨((key _ i' h4).1).2 s1, ?_⟩
  rw [(key _ i' h4).2 s1, (key ens i h3).2 hx, s2]

example : openFrame none (((join 2).trace init (demo.take 1)).flatMap (takenIn 2)) = some 1 := by decide +kernel

end Verif.AxisPrio
