import Verif.ForLoop
/-!
# Properties of the examples of statements
-/
namespace Verif.ForLoop

/-! ## C445: the loop -/

/-- what an observer sees in a cycle -/
inductive Ev where
  /-- a transaction on `cntrl` -/
  | start
  /-- a transaction on `body`, with the index and `bodyBreak` -/
  | body (i : Nat) (brk : Bool)
deriving DecidableEq

def ev (x : In × Out) : List Ev :=
  (if x.1.vld && x.2.rd then [.start] else []) ++ (if x.2.vld && x.1.rd then [.body x.2.index x.1.brk] else [])

/-- The transactions of a loop of `n` iterations which ends with the index `last`: `e` is the index of
the next iteration, `none` waits for the next start. -/
def Loop (n last : Nat) : Option Nat → List Ev → Prop
  | _, [] => True
  | none, .start :: r => Loop n last (some (n - 1)) r
  | none, .body .. :: _ => False
  | some _, .start :: _ => False
  | some e, .body i b :: r => i = e ∧ Loop n last (if b || e == last then none else some (e - 1)) r

/-- C445, full statement (docstring :37-41): the body is executed for every index from ITERATIONS - 1 to 0. -/
def LoopFull : Prop := ∀ (n : Nat), 0 < n → ∀ xs : List In,
  Loop n 0 (some (n - 1)) (((loop n).trace (n - 1) xs).flatMap ev)

/-- C445: with two iterations the body is executed for index 1 only, then the next start is accepted. -/
theorem loop_wrong : ((loop 2).trace 1 [⟨true, true, false⟩, ⟨true, true, false⟩, ⟨true, true, false⟩]).flatMap ev =
    [.body 1 false, .start, .body 1 false] := by decide

theorem loop_violated : ¬ LoopFull := by
  intro h
  have := h 2 (by decide) [⟨true, true, false⟩, ⟨true, true, false⟩, ⟨true, true, false⟩]
  rw [loop_wrong] at this
  exact this.2

theorem loop_inv (n : Nat) (hn : 1 < n) : ∀ (xs : List In) (c : Nat),
    Loop n 1 (if c = 0 then none else some c) (((loop n).trace c xs).flatMap ev)
  | [], c => by cases c <;> trivial
  | x :: xs, c => by
      have ih := loop_inv n hn xs ((loop n).next c x)
      rw [Machine.trace_cons, List.flatMap_cons]
      by_cases h0 : c = 0
      · subst h0
        rw [if_pos rfl]
        cases hv : x.vld with
        | true =>
          rw [show ev (x, (loop n).out 0 x) = [.start] by simp [ev, loop, hv]]
          rw [show (loop n).next 0 x = n - 1 by simp [loop, hv], if_neg (by omega)] at ih
          rw [show (loop n).next 0 x = n - 1 by simp [loop, hv]]
          exact ih
        | false =>
          rw [show ev (x, (loop n).out 0 x) = [] by simp [ev, loop, hv]]
          rw [show (loop n).next 0 x = 0 by simp [loop, hv], if_pos rfl] at ih
          rw [show (loop n).next 0 x = 0 by simp [loop, hv]]
          exact ih
      · rw [if_neg h0]
        cases hr : x.rd with
        | true =>
          rw [show ev (x, (loop n).out c x) = [.body c x.brk] by simp [ev, loop, h0, hr]]
          have e : (loop n).next c x = if x.brk then 0 else c - 1 := by simp [loop, h0, hr]
          rw [e] at ih ⊢
          refine ⟨rfl, ?_⟩
          cases hb : x.brk with
          | true => rw [hb] at ih; exact ih
          | false =>
            rw [hb] at ih
            by_cases h1 : c = 1
            · subst h1; exact ih
            · have hc : ¬ (c - 1 = 0) := by omega
              simp only [Bool.false_eq_true, if_false, if_neg hc] at ih
              simpa [h1] using ih
        | false =>
          rw [show ev (x, (loop n).out c x) = [] by simp [ev, loop, h0, hr]]
          rw [show (loop n).next c x = c by simp [loop, h0, hr], if_neg h0] at ih
          rw [show (loop n).next c x = c by simp [loop, h0, hr]]
          exact ih

/-- C445: from reset the body is executed for the indexes ITERATIONS - 1 to 1 in this order, once per
start and once after reset without a start; a break ends the loop; missing: the iteration 0. -/
theorem loop_partial (n : Nat) (hn : 1 < n) (xs : List In) :
    Loop n 1 (some (n - 1)) (((loop n).trace (n - 1) xs).flatMap ev) := by
  have := loop_inv n hn xs (n - 1)
  rwa [if_neg (by omega)] at this

example : Loop 3 1 (some 2) [.body 2 false, .body 1 false, .start, .body 2 true, .start] := by
  simp [Loop]

/-- C445: with one iteration the body is never executed. -/
theorem loop_one (xs : List In) : ∀ e ∈ ((loop 1).trace 0 xs).flatMap ev, e = .start := by
  induction xs with
  | nil => simp
  | cons x xs ih =>
    rw [Machine.trace_cons, List.flatMap_cons, show (loop 1).next 0 x = 0 by simp [loop]]
    intro e he
    rcases List.mem_append.1 he with he | he
    · cases hv : x.vld <;> simp [ev, loop, hv] at he
      exact he
    · exact ih e he

/-- C445: the loop never waits for something else than the body: without a break it ends after as many
transactions of the body as its counter is. -/
theorem loop_ends (n : Nat) : ∀ (c : Nat) (xs : List In), (∀ x ∈ xs, x.rd = true) → xs.length = c →
    (loop n).final c xs = 0 ∨ ∃ x ∈ xs, x.brk = true
  | 0, [], _, _ => Or.inl rfl
  | 0, x :: xs, _, h => by simp at h
  | c + 1, [], _, h => by simp at h
  | c + 1, x :: xs, hr, hl => by
      cases hb : x.brk with
      | true => exact Or.inr ⟨x, List.mem_cons_self .., hb⟩
      | false =>
        have e : (loop n).next (c + 1) x = c := by simp [loop, hr x (List.mem_cons_self ..), hb]
        rw [Machine.final_cons, e]
        rcases loop_ends n c xs (fun y hy => hr y (List.mem_cons_of_mem _ hy)) (by simpa using hl) with h | ⟨y, hy, h⟩
        · exact Or.inl h
        · exact Or.inr ⟨y, List.mem_cons_of_mem _ hy, h⟩

example : (loop 4).final 3 [⟨false, true, false⟩, ⟨true, true, false⟩, ⟨false, true, false⟩] = 0 := by decide

/-! ## C446: state machines -/

/-- the last input with a bit set, newest first: 1 for `a`, 2 for `b`, 3 for both; 1 without any -/
def lastSet : List (Bool × Bool) → Nat
  | [] => 1
  | (false, false) :: r => lastSet r
  | (true, false) :: _ => 1
  | (false, true) :: _ => 2
  | (true, true) :: _ => 3

theorem lastSet_range (h : List (Bool × Bool)) : lastSet h = 1 ∨ lastSet h = 2 ∨ lastSet h = 3 := by
  induction h with
  | nil => exact Or.inl rfl
  | cons x r ih => rcases x with ⟨_ | _, _ | _⟩ <;> simp [lastSet, ih]

def enc : St → Nat
  | .a => 1
  | .b => 2
  | .aAndB => 3

theorem fsm_inv : ∀ (xs : List (Bool × Bool)) (h : List (Bool × Bool)) (s : St), enc s = lastSet h →
    enc (fsm.final s xs) = lastSet (xs.reverse ++ h)
  | [], h, s, e => e
  | x :: xs, h, s, e => by
      have := fsm_inv xs (x :: h) (fsm.next s x) (by
        rcases x with ⟨_ | _, _ | _⟩ <;> cases s <;> simp [fsm, lastSet, enc] <;> simpa [enc] using e)
      rw [Machine.final_cons, this]
      simp

theorem hard_inv : ∀ (xs : List (Bool × Bool)) (h : List (Bool × Bool)) (s : Fin 8), s.val = lastSet h →
    (hard.final s xs).val = lastSet (xs.reverse ++ h)
  | [], h, s, e => e
  | x :: xs, h, s, e => by
      have := hard_inv xs (x :: h) (hard.next s x) (by
        have hs : s = 1 ∨ s = 2 ∨ s = 3 := by
          rcases lastSet_range h with q | q | q
          · exact Or.inl (Fin.ext (by rw [e, q]; rfl))
          · exact Or.inr (Or.inl (Fin.ext (by rw [e, q]; rfl)))
          · exact Or.inr (Or.inr (Fin.ext (by rw [e, q]; rfl)))
        rcases hs with rfl | rfl | rfl <;> rcases x with ⟨_ | _, _ | _⟩ <;>
          first | rfl | exact e)
      rw [Machine.final_cons, this]
      simp

/-- C446: after any inputs from reset both machines show which of the inputs was set last; so they can not
be told apart, and the output of the second one is always defined. -/
theorem fsm_spec (xs : List (Bool × Bool)) (i : Bool × Bool) :
    fsm.outAfter .a xs i = lastSet xs.reverse ∧ hard.outAfter 1 xs i = some (lastSet xs.reverse) := by
  constructor
  · have := fsm_inv xs [] .a rfl
    rw [List.append_nil] at this
    rw [← this]
    unfold Machine.outAfter
    cases fsm.final .a xs <;> rfl
  · have := hard_inv xs [] 1 rfl
    rw [List.append_nil] at this
    unfold Machine.outAfter
    rcases lastSet_range xs.reverse with q | q | q
    · rw [q] at this ⊢
      rw [show hard.final 1 xs = 1 from Fin.ext this]; rfl
    · rw [q] at this ⊢
      rw [show hard.final 1 xs = 2 from Fin.ext this]; rfl
    · rw [q] at this ⊢
      rw [show hard.final 1 xs = 3 from Fin.ext this]; rfl

/-- C446: from every one of the eight states the output of the second machine is defined after one clock. -/
theorem hard_recovers (s : Fin 8) (x : Bool × Bool) (xs : List (Bool × Bool)) (i : Bool × Bool) :
    ∃ k, 1 ≤ k ∧ k ≤ 3 ∧ hard.outAfter s (x :: xs) i = some k := by
  have h0 : ∀ (s : Fin 8) (a b : Bool), hard.next s (a, b) = 1 ∨ hard.next s (a, b) = 2 ∨ hard.next s (a, b) = 3 := by
    decide
  have h1 : ∀ (s : Fin 8) (x : Bool × Bool), hard.next s x = 1 ∨ hard.next s x = 2 ∨ hard.next s x = 3 :=
    fun s x => h0 s x.1 x.2
  have h2 : ∀ (xs : List (Bool × Bool)) (s : Fin 8), (s = 1 ∨ s = 2 ∨ s = 3) →
      (hard.final s xs = 1 ∨ hard.final s xs = 2 ∨ hard.final s xs = 3) := by
    intro xs
    induction xs with
    | nil => intro s h; exact h
    | cons y ys ih => intro s _; exact ih _ (h1 s y)
  unfold Machine.outAfter
  rw [Machine.final_cons]
  rcases h2 xs _ (h1 s x) with h | h | h <;> rw [h]
  · exact ⟨1, by decide, by decide, rfl⟩
  · exact ⟨2, by decide, by decide, rfl⟩
  · exact ⟨3, by decide, by decide, rfl⟩

example : fsm.outAfter .a [(true, true), (false, true), (false, false)] (true, false) = 2 ∧
    hard.outAfter 1 [(true, true), (false, true), (false, false)] (true, false) = some 2 := by decide

/-! ## C447: two counters -/

theorem two_state : ∀ (xs : List (Bool × Bool)) (s : Nat × Nat), s.1 < 256 → s.2 < 256 →
    two.final s xs = ((s.1 + xs.countP (·.1)) % 256, (s.2 + xs.countP (·.2)) % 256)
  | [], s, h1, h2 => by
      simp only [Machine.final_nil, List.countP_nil, Nat.add_zero]
      rw [Nat.mod_eq_of_lt h1, Nat.mod_eq_of_lt h2]
  | x :: xs, s, h1, h2 => by
      rw [Machine.final_cons, two_state xs]
      · rcases x with ⟨_ | _, _ | _⟩ <;> simp [two] <;> omega
      · rcases x with ⟨_ | _, _ | _⟩ <;> simp [two] <;> omega
      · rcases x with ⟨_ | _, _ | _⟩ <;> simp [two] <;> omega

/-- C447: the flags are those of the numbers of enabled clocks modulo 256. -/
theorem two_mod (xs : List (Bool × Bool)) (i : Bool × Bool) :
    two.outAfter (0, 0) xs i =
    { eq := xs.countP (·.1) % 256 == xs.countP (·.2) % 256, ne := xs.countP (·.1) % 256 != xs.countP (·.2) % 256,
      lt := decide (xs.countP (·.1) % 256 < xs.countP (·.2) % 256),
      gt := decide (xs.countP (·.2) % 256 < xs.countP (·.1) % 256) } := by
  unfold Machine.outAfter
  rw [two_state xs (0, 0) (by decide) (by decide)]
  simp [two]

/-- C447: so the flags compare the numbers themselves while both are below 256. -/
theorem two_small (xs : List (Bool × Bool)) (i : Bool × Bool) (h1 : xs.countP (·.1) < 256)
    (h2 : xs.countP (·.2) < 256) :
    ((two.outAfter (0, 0) xs i).eq = true ↔ xs.countP (·.1) = xs.countP (·.2)) ∧
    ((two.outAfter (0, 0) xs i).ne = true ↔ xs.countP (·.1) ≠ xs.countP (·.2)) ∧
    ((two.outAfter (0, 0) xs i).lt = true ↔ xs.countP (·.1) < xs.countP (·.2)) ∧
    ((two.outAfter (0, 0) xs i).gt = true ↔ xs.countP (·.2) < xs.countP (·.1)) := by
  rw [two_mod, Nat.mod_eq_of_lt h1, Nat.mod_eq_of_lt h2]
  simp

/-- C447: after 256 clocks with `a_en` only the counters are reported as equal. -/
theorem two_wrap (i : Bool × Bool) :
    two.outAfter (0, 0) (List.replicate 256 (true, false)) i = ⟨true, false, false, false⟩ := by
  have e1 : (List.replicate 256 (true, false)).countP (·.1) = 256 := by rw [List.countP_replicate]; rfl
  have e2 : (List.replicate 256 (true, false)).countP (·.2) = 0 := by rw [List.countP_replicate]; rfl
  rw [two_mod, e1, e2]
  rfl

/-- C447: exactly one of eq, lt and gt is set and ne is the negation of eq, in every state. -/
theorem two_flags (s : Nat × Nat) (i : Bool × Bool) :
    (two.out s i).eq.toNat + (two.out s i).lt.toNat + (two.out s i).gt.toNat = 1 ∧
    (two.out s i).ne = !(two.out s i).eq := by
  rcases s with ⟨a, b⟩
  simp only [two]
  refine ⟨?_, rfl⟩
  rcases Nat.lt_trichotomy a b with h | h | h
  · have h1 : ¬ b < a := by omega
    have h2 : (a == b) = false := by simp; omega
    simp [h, h1, h2]
  · subst h; simp
  · have h1 : ¬ a < b := by omega
    have h2 : (a == b) = false := by simp; omega
    simp [h, h1, h2]

example : two.outAfter (0, 0) [(true, false), (true, true)] (true, true) = ⟨false, true, false, true⟩ := by decide

end Verif.ForLoop
