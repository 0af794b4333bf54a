import Verif.SplitJoin
/-!
# Properties C15 - C22 of the handshaked splits and joins
-/
namespace Verif.SplitJoin

universe u
variable {α : Type u}

/-! ## C15 HsSplitCopy -/

/-- Words accepted from `dataIn` over a schedule (the component is combinational). -/
def splitAccepted (f : SplitIn α → SplitOut α) (is : List (SplitIn α)) : List α :=
  is.filterMap fun i => if i.vld && (f i).rd then some i.data else none
/-- Words delivered on `dataOut[k]`. -/
def splitDelivered (f : SplitIn α → SplitOut α) (k : Nat) (is : List (SplitIn α)) : List α :=
  is.filterMap fun i => if (f i).vld k && i.rd k then some ((f i).data k) else none

/-- **C15** In each cycle `dataIn` and all outputs transfer or none of them; over every schedule each
output receives exactly the accepted words. -/
theorem splitCopy_all (n : Nat) (k : Nat) (hk : k < n) (is : List (SplitIn α)) :
    (∀ i ∈ is, ((splitCopy n i).vld k = true ∧ i.rd k = true) ↔
      (i.vld = true ∧ (splitCopy n i).rd = true)) ∧
    splitDelivered (splitCopy n) k is = splitAccepted (splitCopy n) is := by
  have h : ∀ i : SplitIn α, ((splitCopy n i).vld k && i.rd k) = (i.vld && (splitCopy n i).rd) := by
    intro i
    rw [Bool.eq_iff_iff]
    simp only [splitCopy, Bool.and_eq_true, allN_iff, Bool.or_eq_true, beq_iff_eq]
    constructor
    · rintro ⟨⟨a, b⟩, c⟩
      refine ⟨a, fun j hj => ?_⟩
      rcases b j hj with rfl | h
      · exact c
      · exact h
    · rintro ⟨a, b⟩
      exact ⟨⟨a, fun j hj => Or.inr (b j hj)⟩, b k hk⟩
  constructor
  · intro i _
    have := h i
    rw [Bool.eq_iff_iff, Bool.and_eq_true, Bool.and_eq_true] at this
    exact this
  · unfold splitDelivered splitAccepted
    congr 1
    funext i
    rw [h i]
    rfl

example : splitDelivered (splitCopy 3) 1
    [⟨true, 5, fun _ => true, true⟩, ⟨true, 6, fun k => k == 1, true⟩] = [5] := by decide

/-! ## C16 HsJoinPrioritized -/

/-- **C16** A transfer on `dataOut` is the transfer of exactly one input, the valid one of lowest
index, with its data; without a transfer on `dataOut` no input transfers. -/
theorem joinPrioritized_lowest (n : Nat) (i : JoinIn α) :
    ((joinPrioritized n i).vld = true ∧ i.rd = true →
      ∃ k, k < n ∧ i.vld k = true ∧ (∀ j, j < k → i.vld j = false) ∧
        (joinPrioritized n i).data = some (i.data k) ∧
        ∀ j, j < n → ((i.vld j = true ∧ (joinPrioritized n i).rd j = true) ↔ j = k)) ∧
    (¬ ((joinPrioritized n i).vld = true ∧ i.rd = true) →
      ∀ j, j < n → ¬ (i.vld j = true ∧ (joinPrioritized n i).rd j = true)) := by
  constructor
  · rintro ⟨hv, hr⟩
    obtain ⟨k, hk, hvk, hl⟩ := exists_least i.vld n ((anyN_iff n i.vld).1 hv)
    refine ⟨k, hk, hvk, hl, ?_, fun j hj => ?_⟩
    · simp only [joinPrioritized, firstCase]
      rw [find_range hk hvk hl]; rfl
    · simp only [joinPrioritized, Bool.and_eq_true, allN_iff, hr, true_and]
      constructor
      · rintro ⟨a, b⟩
        rcases Nat.lt_trichotomy j k with h | h | h
        · have := hl j h; simp [a] at this
        · exact h
        · have := b k h; simp [hvk] at this
      · rintro rfl
        exact ⟨hvk, fun x hx => by simp [hl x hx]⟩
  · intro hn j hj ⟨a, b⟩
    apply hn
    simp only [joinPrioritized, Bool.and_eq_true] at b
    exact ⟨(anyN_iff n i.vld).2 ⟨j, hj, a⟩, b.1⟩

example : (joinPrioritized 3 ⟨fun k => k == 1 || k == 2, fun k => 10 + k, true⟩).data = some 11 ∧
    (joinPrioritized 3 ⟨fun k => k == 1 || k == 2, fun k => 10 + k, true⟩).vld = true := by decide

/-! ## C17 HsJoinFairShare -/

/-- Output of `HsJoinFairShare` after a history. -/
abbrev joinAfter (n : Nat) (is : List (JoinIn α)) (i : JoinIn α) : JoinOut α :=
  (joinFair n).outAfter prioInit is i

theorem isSelected_unique {n q : Nat} {p v : Nat → Bool} (hq : q < n) (hp : OneHot n p q)
    (hv : ∃ k, k < n ∧ v k = true) :
    ExactlyOne n (fun i => isSelected n p v i = true ∧ v i = true) := by
  unfold isSelected
  by_cases h1 : n = 1
  · subst h1
    simp only [if_true]
    obtain ⟨k, hk, h⟩ := hv
    have : k = 0 := by omega
    subst this
    exact ⟨0, hk, by simp [h], fun j hj _ => by omega⟩
  · simp only [h1, if_false]
    exact ack_unique hq hp hv

/-- **C17** After every history: when `dataOut` transfers, exactly one input `k` transfers,
`dataOut` carries its data, `selectedOneHot` is transferred and is the one-hot code of `k`;
`k` is the input with the rotating priority if that is valid, else the lowest valid one. When
`dataOut` does not transfer, no input transfers. -/
theorem joinFair_one (n : Nat) (hn : 0 < n) (is : List (JoinIn α)) (i : JoinIn α) :
    ((joinAfter n is i).vld = true ∧ i.rd = true →
      ∃ k, k < n ∧ i.vld k = true ∧ (joinAfter n is i).data = some (i.data k) ∧
        (∀ j, j < n → ((i.vld j = true ∧ (joinAfter n is i).rd j = true) ↔ j = k)) ∧
        (joinAfter n is i).selVld = true ∧
        (∀ j, j < n → (joinAfter n is i).selData j = (j == k))) ∧
    (¬ ((joinAfter n is i).vld = true ∧ i.rd = true) →
      (joinAfter n is i).selVld = false ∧
      ∀ j, j < n → ¬ (i.vld j = true ∧ (joinAfter n is i).rd j = true)) := by
  have hp : OneHot n ((joinFair n (α := α)).final prioInit is) (is.length % n) :=
    prio_at _ n hn (fun _ _ => rfl) is
  have hq : is.length % n < n := Nat.mod_lt _ hn
  simp only [joinAfter, Machine.outAfter]
  generalize (joinFair n).final prioInit is = p at *
  generalize is.length % n = q at *
  simp only [joinFair, joinFairOut]
  constructor
  · rintro ⟨hv, hr⟩
    obtain ⟨k, hk, ⟨hs, hvk⟩, hu⟩ := isSelected_unique hq hp ((anyN_iff n i.vld).1 hv)
    refine ⟨k, hk, hvk, ?_, fun j hj => ?_, by simp [hv, hr], fun j hj => ?_⟩
    · unfold firstCase
      rw [find_range hk (by simp [hs, hvk])]
      · rfl
      · intro j hj
        cases h : (i.vld j && isSelected n p i.vld j)
        · rfl
        · rw [Bool.and_eq_true] at h
          have := hu j (by omega) ⟨h.2, h.1⟩
          omega
    · rw [hr, Bool.and_true]
      constructor
      · rintro ⟨a, b⟩; exact hu j hj ⟨b, a⟩
      · rintro rfl; exact ⟨hvk, hs⟩
    · by_cases h1 : n = 1
      · simp only [h1, if_true]; symm; simp; omega
      · simp only [h1, if_false]
        rw [Bool.eq_iff_iff]; simp only [Bool.and_eq_true, beq_iff_eq]
        constructor
        · intro h; exact hu j hj h
        · rintro rfl; exact ⟨hs, hvk⟩
  · intro hn
    have : (anyN n i.vld && i.rd) = false := by
      cases h : (anyN n i.vld && i.rd)
      · rfl
      · rw [Bool.and_eq_true] at h; exact absurd h hn
    refine ⟨this, fun j hj ⟨a, b⟩ => ?_⟩
    rw [Bool.and_eq_true] at b
    exact hn ⟨(anyN_iff n i.vld).2 ⟨j, hj, a⟩, b.2⟩

example : (joinAfter 3 [⟨fun _ => false, fun k => k, true⟩]
      ⟨fun _ => true, fun k => k, true⟩).data = some 1 ∧
    (joinAfter 3 [⟨fun _ => false, fun k => k, true⟩]
      ⟨fun _ => true, fun k => k, true⟩).vld = true := by decide

/-! ## C18 fairness of HsJoinFairShare -/

/-- Input `k` transfers in cycle `t` of the infinite run `stim`. -/
def Served (n : Nat) (stim : Nat → JoinIn α) (k t : Nat) : Prop :=
  (stim t).vld k = true ∧ ((joinFair n).outAt prioInit stim t).rd k = true

/-- Full statement of **C18**. -/
def NoStarvation (n : Nat) : Prop :=
  ∀ (stim : Nat → JoinIn Nat) (k : Nat), k < n → ∀ t0, (∀ t, t0 ≤ t → (stim t).vld k = true) →
    (∀ t, ∃ t', t ≤ t' ∧ (stim t').rd = true) → ∃ t, t0 ≤ t ∧ Served n stim k t

/-- **C18** is violated by a consumer which is ready every second cycle: both inputs always valid,
input 1 is never served. -/
theorem joinFair_starves : ¬ NoStarvation 2 := by
  intro h
  obtain ⟨t, _, hs⟩ := h (fun t => ⟨fun _ => true, fun _ => 0, t % 2 == 0⟩) 1 (by decide) 0
    (fun _ _ => rfl) (fun t => ⟨2 * t, by omega, by simp⟩)
  obtain ⟨_, hr⟩ := hs
  have hp := prio_stateAt (joinFair 2 (α := Nat)) 2 (by decide) (fun _ _ => rfl)
    (fun t => (⟨fun _ => true, fun _ => 0, t % 2 == 0⟩ : JoinIn Nat)) t
  simp only [Machine.outAt] at hr
  generalize (joinFair 2).stateAt prioInit _ t = p at hp hr
  simp only [joinFair, joinFairOut, Bool.and_eq_true, beq_iff_eq] at hr
  rw [hr.2] at hp
  have h0 := hp 0 (by decide)
  have h1 := hp 1 (by decide)
  have := hr.1
  simp [isSelected, priorityAck, anyN, List.range, List.range.loop, h1] at this

/-- **C18** for a consumer which is ready in `n` consecutive cycles (in particular: always ready):
a valid input is served within these `n` cycles.
Missing: consumers which are ready infinitely often only; false for them, see
`joinFair_starves`. -/
theorem joinFair_served_partial (n : Nat) (stim : Nat → JoinIn α) (k : Nat) (hk : k < n) (t0 : Nat)
    (hv : ∀ t, t0 ≤ t → t < t0 + n → (stim t).vld k = true)
    (hr : ∀ t, t0 ≤ t → t < t0 + n → (stim t).rd = true) :
    ∃ t, t0 ≤ t ∧ t < t0 + n ∧ Served n stim k t := by
  have hn : 0 < n := by omega
  -- the cycle of the window in which `k` has the priority
  obtain ⟨t, h1, h2, h3⟩ : ∃ t, t0 ≤ t ∧ t < t0 + n ∧ t % n = k := by
    have hm := Nat.mod_lt t0 hn
    have hd := Nat.div_add_mod t0 n
    by_cases h : t0 % n ≤ k
    · refine ⟨t0 + (k - t0 % n), by omega, by omega, ?_⟩
      have : t0 + (k - t0 % n) = k + n * (t0 / n) := by omega
      rw [this, Nat.add_mul_mod_self_left, Nat.mod_eq_of_lt hk]
    · refine ⟨t0 + (n + k - t0 % n), by omega, by omega, ?_⟩
      have : t0 + (n + k - t0 % n) = k + n * (t0 / n + 1) := by rw [Nat.mul_add]; omega
      rw [this, Nat.add_mul_mod_self_left, Nat.mod_eq_of_lt hk]
  refine ⟨t, h1, h2, hv t h1 h2, ?_⟩
  have hp := prio_stateAt (joinFair n (α := α)) n hn (fun _ _ => rfl) stim t
  rw [h3] at hp
  simp only [Machine.outAt]
  generalize (joinFair n).stateAt prioInit stim t = p at hp
  simp only [joinFair, joinFairOut, hr t h1 h2, Bool.and_true, isSelected]
  split
  · rfl
  · exact ((ack_valid hk hp (hv t h1 h2) k hk).2 rfl).1

example : ∀ t, 3 ≤ t → t < 3 + 2 →
    ((fun _ => (⟨fun _ => true, fun _ => 0, true⟩ : JoinIn Nat)) t).rd = true := fun _ _ _ => rfl

/-! ## C19, C20 HsSplitFair -/

abbrev splitFairAfter (n : Nat) (exp : Bool) (is : List (SplitIn α)) (i : SplitIn α) : SplitOut α :=
  (splitFair n exp).outAfter prioInit is i

/-- **C19** After every history: if `dataIn` transfers, exactly one output transfers (carrying the
word); otherwise none. -/
theorem splitFair_one (n : Nat) (hn : 0 < n) (exp : Bool) (is : List (SplitIn α)) (i : SplitIn α) :
    (i.vld = true ∧ (splitFairAfter n exp is i).rd = true →
      ExactlyOne n (fun k => (splitFairAfter n exp is i).vld k = true ∧ i.rd k = true)) ∧
    (¬ (i.vld = true ∧ (splitFairAfter n exp is i).rd = true) →
      ∀ k, k < n → ¬ ((splitFairAfter n exp is i).vld k = true ∧ i.rd k = true)) ∧
    (∀ k, (splitFairAfter n exp is i).data k = i.data) := by
  have hp : OneHot n ((splitFair n exp (α := α)).final prioInit is) (is.length % n) :=
    prio_at _ n hn (fun _ _ => rfl) is
  have hq : is.length % n < n := Nat.mod_lt _ hn
  simp only [splitFairAfter, Machine.outAfter]
  generalize (splitFair n exp).final prioInit is = p at *
  generalize is.length % n = q at *
  refine ⟨?_, ?_, fun _ => rfl⟩
  · rintro ⟨hv, hr⟩
    have hany : ∃ k, k < n ∧ i.rd k = true := by
      apply (anyN_iff n i.rd).1
      simp only [splitFair, splitFairOut] at hr
      cases exp <;> simp_all
    obtain ⟨k, hk, ⟨hs, hvk⟩, hu⟩ := ack_unique hq hp hany
    refine ⟨k, hk, ⟨?_, hvk⟩, ?_⟩
    · simp only [splitFair, splitFairOut] at hr ⊢
      cases exp <;> simp_all
    · rintro j hj ⟨a, b⟩
      refine hu j hj ⟨?_, b⟩
      simp only [splitFair, splitFairOut] at a
      cases exp <;> simp_all
  · rintro hn k hk ⟨a, b⟩
    apply hn
    have hany : anyN n i.rd = true := (anyN_iff n i.rd).2 ⟨k, hk, b⟩
    simp only [splitFair, splitFairOut] at a ⊢
    cases exp <;> simp_all

example : (⟨true, 0, fun _ => true, true⟩ : SplitIn Nat).vld = true ∧
    (splitFairAfter 2 true [] (⟨true, 0, fun _ => true, true⟩ : SplitIn Nat)).rd = true := by decide

/-- Full statement of **C20**: a transferred `selectedOneHot` is the one-hot code of the output
which transfers. -/
def SelectedNamesOutput (n : Nat) : Prop :=
  ∀ (is : List (SplitIn Nat)) (i : SplitIn Nat),
    (splitFairAfter n true is i).selVld = true → i.selRd = true →
    ∃ k, k < n ∧ ((splitFairAfter n true is i).vld k = true ∧ i.rd k = true) ∧
      ∀ j, j < n → (splitFairAfter n true is i).selData j = (j == k)

/-- **C20** is violated: with the priority on output 0 and only output 1 ready,
`selectedOneHot = 0b11`. -/
theorem splitFair_selected_broken : ¬ SelectedNamesOutput 2 := by
  intro h
  obtain ⟨k, hk, _, hs⟩ := h [] ⟨true, 0, fun k => k == 1, true⟩ (by decide) rfl
  have h0 := hs 0 (by decide)
  have h1 := hs 1 (by decide)
  have e0 : (splitFairAfter 2 true [] (⟨true, 0, fun k => k == 1, true⟩ : SplitIn Nat)).selData 0
    = true := by decide
  have e1 : (splitFairAfter 2 true [] (⟨true, 0, fun k => k == 1, true⟩ : SplitIn Nat)).selData 1
    = true := by decide
  rw [e0] at h0; rw [e1] at h1
  simp at h0 h1
  omega

/-- **C20** in the cycles in which the output having the priority (cycle number modulo `n`) is
ready. Missing: all other cycles, where the code sets also the bit of the prioritised output. -/
theorem splitFair_selected_partial (n : Nat) (hn : 0 < n) (is : List (SplitIn α)) (i : SplitIn α)
    (hprio : i.rd (is.length % n) = true)
    (hv : (splitFairAfter n true is i).selVld = true) (hr : i.selRd = true) :
    ∃ k, k < n ∧ ((splitFairAfter n true is i).vld k = true ∧ i.rd k = true) ∧
      ∀ j, j < n → (splitFairAfter n true is i).selData j = (j == k) := by
  have hp : OneHot n ((splitFair n true (α := α)).final prioInit is) (is.length % n) :=
    prio_at _ n hn (fun _ _ => rfl) is
  have hq : is.length % n < n := Nat.mod_lt _ hn
  simp only [splitFairAfter, Machine.outAfter] at *
  generalize (splitFair n true).final prioInit is = p at *
  generalize is.length % n = q at *
  simp only [splitFair, splitFairOut] at *
  rw [Bool.and_eq_true] at hv
  have ha := (ack_valid hq hp hprio q hq).2 rfl
  refine ⟨q, hq, ⟨by simp [ha.1, hv.2, hr], hprio⟩, fun j hj => ?_⟩
  rw [hv.2, Bool.and_true, Bool.eq_iff_iff, beq_iff_eq]
  constructor
  · intro h
    rcases Decidable.em (j = q) with e | e
    · exact e
    · exfalso
      have hpj : p j = false := by rw [hp j hj]; simpa using e
      unfold priorityAck at h
      rw [hpj, Bool.or_false] at h
      rcases Nat.lt_or_gt_of_ne e with hlt | hgt
      · have : anyN n (fun k => decide (k > j) && (p k && i.rd k)) = true := by
          rw [anyN_iff]; exact ⟨q, hq, by simp [hlt, hp q hq, hprio]⟩
        simp [this] at h
      · have : anyN j i.rd = true := by rw [anyN_iff]; exact ⟨q, hgt, hprio⟩
        simp [this] at h
  · rintro rfl; exact ha.1

example : (⟨true, 0, fun k => k == 0, true⟩ : SplitIn Nat).rd (([] : List (SplitIn Nat)).length % 2)
    = true ∧
    (splitFairAfter 2 true [] (⟨true, 0, fun k => k == 0, true⟩ : SplitIn Nat)).selVld = true := by
  decide

/-! ## C21 HsSplitPrioritized -/

/-- **C21** -/
theorem splitPrioritized_lowest (n : Nat) (i : SplitIn α) :
    (i.vld = true ∧ (splitPrioritized n i).rd = true →
      ∃ k, k < n ∧ i.rd k = true ∧ (∀ j, j < k → i.rd j = false) ∧
        (splitPrioritized n i).data k = i.data ∧
        ∀ j, j < n → (((splitPrioritized n i).vld j = true ∧ i.rd j = true) ↔ j = k)) ∧
    (¬ (i.vld = true ∧ (splitPrioritized n i).rd = true) →
      ∀ j, j < n → ¬ ((splitPrioritized n i).vld j = true ∧ i.rd j = true)) := by
  simp only [splitPrioritized]
  constructor
  · rintro ⟨hv, hr⟩
    obtain ⟨k, hk, hvk, hl⟩ := exists_least i.rd n ((anyN_iff n i.rd).1 hr)
    refine ⟨k, hk, hvk, hl, trivial, fun j hj => ?_⟩
    simp only [hv, Bool.true_and, allN_iff]
    constructor
    · rintro ⟨a, b⟩
      rcases Nat.lt_trichotomy j k with h | h | h
      · have := hl j h; simp [b] at this
      · exact h
      · have := a k h; simp [hvk] at this
    · rintro rfl
      exact ⟨fun x hx => by simp [hl x hx], hvk⟩
  · rintro hn j hj ⟨a, b⟩
    rw [Bool.and_eq_true] at a
    exact hn ⟨a.1, (anyN_iff n i.rd).2 ⟨j, hj, b⟩⟩

example : (splitPrioritized 3 (⟨true, 0, fun k => k == 2, true⟩ : SplitIn Nat)).rd = true := by decide

/-! ## C22 HsSplitSelect -/

/-- Selections transferred on `selectOneHot`. -/
def selections (tr : List (SelIn α × SelOut α)) : List Nat :=
  tr.filterMap fun e => if e.1.selVld && e.2.selRd then some e.1.sel else none
/-- Words transferred on `dataIn`. -/
def selAccepted (tr : List (SelIn α × SelOut α)) : List α :=
  tr.filterMap fun e => if e.1.vld && e.2.rd then some e.1.data else none
/-- All transfers on the outputs `(output number, word)` in time order. -/
def routed (n : Nat) (tr : List (SelIn α × SelOut α)) : List (Nat × α) :=
  tr.flatMap fun e => (List.range n).filterMap fun k =>
    if e.2.vld k && e.1.rd k then some (k, e.2.data k) else none

theorem splitSelect_core (n : Nat) : ∀ (is : List (SelIn α)) (s : SelSt),
    (s.occ = true → s.reg < n) → (∀ i ∈ is, i.selVld = true → i.sel < n) →
    (routed n ((splitSelect n).trace s is)).map Prod.snd = selAccepted ((splitSelect n).trace s is) ∧
    (routed n ((splitSelect n).trace s is)).map Prod.fst
      <+: given s.occ s.reg ++ selections ((splitSelect n).trace s is) := by
  intro is
  induction is with
  | nil => intro s _ _; simp [routed, selAccepted, selections]
  | cons i is ih =>
    intro s hs hi
    have hinv : ((splitSelect n).next s i).occ = true → ((splitSelect n).next s i).reg < n := by
      intro ho
      have hsel := hi i (by simp)
      have e : (splitSelect n).next s i
        = HsReg.stageNext s i.selVld i.sel (selCases n s i).1 := rfl
      rw [e] at ho ⊢
      generalize (selCases n s i).1 = r at *
      obtain ⟨o, g⟩ := s
      cases o <;> cases h2 : i.selVld <;> cases r <;>
        simp_all [HsReg.stageNext, HsReg.stageWe]
    obtain ⟨ih1, ih2⟩ := ih _ hinv (fun j hj => hi j (by simp [hj]))
    have e1 : routed n ((splitSelect n).trace s (i :: is)) =
        (List.range n).filterMap (fun k => if (s.occ && i.vld && (k == s.reg)) && i.rd k
          then some (k, i.data) else none)
        ++ routed n ((splitSelect n).trace ((splitSelect n).next s i) is) := rfl
    have e2 : selAccepted ((splitSelect n).trace s (i :: is)) =
        given (i.vld && (selCases n s i).2) i.data
        ++ selAccepted ((splitSelect n).trace ((splitSelect n).next s i) is) := by
      exact filterMap_cons_ite (fun e : SelIn α × SelOut α => e.1.vld && e.2.rd) (fun e => e.1.data) _ _
    have e3 : selections ((splitSelect n).trace s (i :: is)) =
        given (i.selVld && HsReg.stageRd s (selCases n s i).1) i.sel
        ++ selections ((splitSelect n).trace ((splitSelect n).next s i) is) := by
      exact filterMap_cons_ite (fun e : SelIn α × SelOut α => e.1.selVld && e.2.selRd)
        (fun e => e.1.sel) _ _
    -- transfers of this cycle
    have e4 : (List.range n).filterMap (fun k => if (s.occ && i.vld && (k == s.reg)) && i.rd k
          then some (k, i.data) else none) = given (s.occ && i.vld && i.rd s.reg) (s.reg, i.data) := by
      cases ht : (s.occ && i.vld && i.rd s.reg)
      · refine filterMap_range_none (fun k => (k, i.data)) _ n (fun j hj => ?_)
        by_cases e : j = s.reg
        · subst e; simpa using ht
        · have : (j == s.reg) = false := by simpa using e
          simp [this]
      · simp only [Bool.and_eq_true] at ht
        refine filterMap_range_one (fun k => (k, i.data)) _ n s.reg (hs ht.1.1) ?_ (fun j hj hne => ?_)
        · simp [ht.1.1, ht.1.2, ht.2]
        · have : (j == s.reg) = false := by simpa using hne
          simp [this]
    have e5 : selCases n s i = if s.occ then (i.rd s.reg && i.vld, i.rd s.reg) else (false, false) := by
      unfold selCases
      cases ho : s.occ
      · simp
      · simp [find_range_eq n s.reg (hs ho)]
    rw [e1, e2, e3, e4]
    constructor
    · rw [List.map_append, ih1]
      congr 1
      rw [e5]
      cases ho : s.occ <;> cases hv : i.vld <;> cases hr : i.rd s.reg <;> simp
    · rw [List.map_append]
      have key : given s.occ s.reg ++ given (i.selVld && HsReg.stageRd s (selCases n s i).1) i.sel
          = (given (s.occ && i.vld && i.rd s.reg) (s.reg, i.data)).map Prod.fst ++
            given ((splitSelect n).next s i).occ ((splitSelect n).next s i).reg := by
        have : (splitSelect n).next s i = HsReg.stageNext s i.selVld i.sel (selCases n s i).1 := rfl
        rw [this, e5]
        obtain ⟨o, g⟩ := s
        cases o <;> cases h1 : i.vld <;> cases h2 : i.rd g <;> cases h3 : i.selVld <;>
          simp [HsReg.stageRd, HsReg.stageNext, HsReg.stageWe]
      rw [← List.append_assoc, key, List.append_assoc]
      exact (List.prefix_append_right_inj _).2 ih2

/-- **C22** For every stall schedule and one-hot selections: the words routed to the outputs are
exactly the accepted words in order, and the k-th of them goes to the output named by the k-th
accepted selection. -/
theorem splitSelect_routes (n : Nat) (is : List (SelIn α)) (g : Nat)
    (hsel : ∀ i ∈ is, i.selVld = true → i.sel < n) :
    (routed n ((splitSelect n).trace ⟨false, g⟩ is)).map Prod.snd
      = selAccepted ((splitSelect n).trace ⟨false, g⟩ is) ∧
    (routed n ((splitSelect n).trace ⟨false, g⟩ is)).map Prod.fst
      <+: selections ((splitSelect n).trace ⟨false, g⟩ is) := by
  simpa using splitSelect_core n is ⟨false, g⟩ (by simp) hsel

def exSel : List (SelIn Nat) :=
  [⟨true, 2, true, 10, fun _ => true, true⟩, ⟨true, 0, true, 10, fun k => k == 2, true⟩,
   ⟨false, 0, true, 11, fun k => k == 2, true⟩, ⟨true, 1, true, 11, fun k => k == 0, true⟩]
example : routed 3 ((splitSelect 3).trace ⟨false, 0⟩ exSel) = [(2, 10), (0, 11)] ∧
    selections ((splitSelect 3).trace ⟨false, 0⟩ exSel) = [2, 0, 1] := by decide
example : ∀ i ∈ exSel, i.selVld = true → i.sel < 3 := by decide

end Verif.SplitJoin
