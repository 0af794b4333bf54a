import Verif.SlaveTimeout
import Verif.AddrDecode
import Mathlib.Data.List.Induction
/-!
# Properties C102 - C104 of `Axi4SlaveTimeout`
-/
namespace Verif.SlaveTimeout

universe u v
variable {ι : Type u} {α : Type v}

/-- Full statement of **C102**: never more responses than requests (the slave answers each request at most once). -/
def NoSpurious : Prop := ∀ (T : Nat), 2 ≤ T → ∀ (s0 : St Nat), s0.pending = false → ∀ is : List (In Nat Nat),
  (∀ n, (answers ((machine T).trace s0 (is.take n))).length ≤ (requests ((machine T).trace s0 (is.take n))).length) →
  (responses ((machine T).trace s0 is)).length ≤ (requests ((machine T).trace s0 is)).length

/-- One read which is answered in the next cycle. -/
def answered : List (In Nat Nat) :=
  [⟨true, 3, true, false, 0, 0, true⟩, ⟨false, 0, true, true, 3, 42, true⟩] ++
  List.replicate 4 ⟨false, 0, true, false, 0, 0, true⟩

/-- **C102** is false: an answered read gets a second response, SLVERR, when the timer ends. -/
theorem slaveTimeout_spurious : ¬ NoSpurious := by
  intro h
  have := h 4 (by decide) ⟨false, 0, 0⟩ rfl answered (by
    intro n
    by_cases hn : n ≤ 6
    · have : ∀ n, n ≤ 6 → (answers ((machine 4).trace ⟨false, 0, 0⟩ (answered.take n))).length ≤
          (requests ((machine 4).trace ⟨false, 0, 0⟩ (answered.take n))).length := by decide
      exact this n hn
    · rw [List.take_of_length_le (by show 6 ≤ n; omega)]; decide)
  revert this
  decide

example : responses ((machine 4).trace ⟨false, 0, 0⟩ answered) = [(3, some 42), (3, none)] := by decide

/-- Full statement of **C103**: a read of a silent slave is answered with SLVERR. -/
def Answered : Prop := ∀ (T : Nat), 2 ≤ T → ∀ (s0 : St Nat), s0.pending = false → ∀ (i : In Nat Nat) (is : List (In Nat Nat)),
  i.arValid = true → i.arReady = true → i.rValid = false → (∀ j ∈ is, j.rValid = false ∧ j.arValid = false) →
  T ≤ (is.countP fun j => j.rReady) → (responses ((machine T).trace s0 (i :: is))).length = 1

/-- **C103** is false: the error response is offered for one cycle only, it is lost if the master is not ready in it. -/
theorem slaveTimeout_lost : ¬ Answered := by
  intro h
  have := h 2 (by decide) ⟨false, 0, 0⟩ rfl ⟨true, 3, true, false, 0, 0, true⟩
    ([⟨false, 0, true, false, 0, 0, true⟩, ⟨false, 0, true, false, 0, 0, false⟩] ++
      List.replicate 5 ⟨false, 0, true, false, 0, 0, true⟩) rfl rfl rfl (by decide) (by decide)
  revert this
  decide

/-- All values of the timer fit to its register. -/
def Fits (T : Nat) : Prop := T - 1 < 2 ^ timerBits T

/-- **C104** The timer register is wide enough exactly if `TIMEOUT` is not `2^k + 1`. -/
theorem slaveTimeout_width_partial (T : Nat) (hT : 2 ≤ T) : Fits T ↔ ∀ k, 1 ≤ k → T ≠ 2 ^ k + 1 := by
  unfold Fits timerBits
  constructor
  · intro h k hk hTk
    rw [hTk, Nat.add_sub_cancel] at h
    have : log2ceil (2 ^ k) = k := by
      have h2 : 2 ^ k = 2 * 2 ^ (k - 1) := by rw [← Nat.pow_succ']; congr 1; omega
      have := Nat.two_pow_pos (k - 1)
      exact AddrDecode.log2ceil_eq hk (by omega) (Nat.le_refl _)
    rw [this] at h
    omega
  · intro h
    have h1 := le_two_pow_log2ceil (T - 1)
    have h2 := log2ceil_pos (T - 1)
    have h3 := h (log2ceil (T - 1)) h2
    omega

/-- Full statement of **C104**. -/
def AllFit : Prop := ∀ T, 2 ≤ T → Fits T
theorem slaveTimeout_width_wrong : ¬ AllFit := by
  intro h
  have : ¬ Fits 5 := by unfold Fits; decide
  exact this (h 5 (by decide))

private theorem countdown (T : Nat) (hT : 2 ≤ T) (hw : Fits T) (x : ι) : ∀ (is : List (In ι α)) (s : St ι),
    s.pending = true → s.timer < T → s.id = x → is.length ≤ s.timer →
    (machine T).final s is = ⟨true, s.timer - is.length, x⟩ := by
  intro is
  induction is with
  | nil => intro s h1 _ h3 _; cases s; simp_all
  | cons i is ih =>
    intro s h1 h2 h3 h4
    rw [Machine.final_cons]
    have hl : (i :: is).length = is.length + 1 := rfl
    have hn : (machine T).next s i = ⟨true, s.timer - 1, x⟩ := by
      show next T s i = _
      unfold next Fits at *
      rw [if_pos h1, if_neg (by omega), h1, h3]
      congr 1
      rw [show s.timer + 2 ^ timerBits T - 1 = (s.timer - 1) + 2 ^ timerBits T by omega, Nat.add_mod_right,
        Nat.mod_eq_of_lt (by omega)]
    rw [hn, ih ⟨true, s.timer - 1, x⟩ rfl (by show s.timer - 1 < T; omega) rfl (by show is.length ≤ s.timer - 1; omega)]
    show (⟨true, s.timer - 1 - is.length, x⟩ : St ι) = _
    congr 1
    omega

/-- **C103**, what holds: after an accepted read of a slave which does not answer, the component offers nothing for
`TIMEOUT - 1` cycles and SLVERR with the id of the read in the next one, whatever else happens meanwhile. Missing: the
response is kept until it is taken. -/
theorem slaveTimeout_silent_partial (T : Nat) (hT : 2 ≤ T) (hw : Fits T) (s0 : St ι) (h0 : s0.pending = false)
    (i : In ι α) (h1 : i.arValid = true) (h2 : i.arReady = true) (h3 : i.rValid = false)
    (is : List (In ι α)) (j : In ι α) (hj : j.rValid = false) (hl : is.length < T) :
    (((machine T).outAfter s0 (i :: is) j).rValid = true ↔ is.length = T - 1) ∧
    (is.length = T - 1 → ((machine T).outAfter s0 (i :: is) j).rId = i.arId ∧
      ((machine T).outAfter s0 (i :: is) j).rData = none) := by
  have hs : (machine T).next s0 i = ⟨true, T - 1, i.arId⟩ := by
    show next T s0 i = _
    unfold next
    have ht : timeout s0 = false := by unfold timeout; rw [h0]; rfl
    rw [if_neg (by rw [h0]; decide), h1, h2]
    show (⟨!(if timeout s0 = true then true else i.rValid), T - 1, i.arId⟩ : St ι) = _
    rw [ht, h3]; rfl
  have hf : (machine T).final s0 (i :: is) = ⟨true, T - 1 - is.length, i.arId⟩ := by
    rw [Machine.final_cons, hs]
    exact countdown T hT hw i.arId is ⟨true, T - 1, i.arId⟩ rfl (by show T - 1 < T; omega) rfl (by show is.length ≤ T - 1; omega)
  unfold Machine.outAfter
  rw [hf]
  show ((if timeout (⟨true, T - 1 - is.length, i.arId⟩ : St ι) = true then true else j.rValid) = true ↔ _) ∧
    (_ → (if timeout (⟨true, T - 1 - is.length, i.arId⟩ : St ι) = true then i.arId else j.rId) = i.arId ∧
      (if timeout (⟨true, T - 1 - is.length, i.arId⟩ : St ι) = true then none else some j.rData) = none)
  have ht : timeout (⟨true, T - 1 - is.length, i.arId⟩ : St ι) = decide (is.length = T - 1) := by
    unfold timeout
    rw [Bool.true_and, Bool.eq_iff_iff, beq_iff_eq, decide_eq_true_iff]
    show T - 1 - is.length = 0 ↔ _
    omega
  rw [ht, hj]
  by_cases hc : is.length = T - 1
  · simp [hc]
  · simp [hc]

example : Fits 4 ∧ responses ((machine 4).trace ⟨false, 0, 0⟩ (⟨true, 3, true, false, 0, 0, true⟩ ::
    List.replicate 9 (⟨false, 0, true, false, 0, 0, true⟩ : In Nat Nat))) = [(3, none)] := by
  refine ⟨by unfold Fits; decide, by decide⟩

/-- **C102**, what holds: the component gives an error response only exactly `TIMEOUT` cycles after an accepted request with
this id, in all other cycles the response channel is connected directly to the slave. Missing: that the request was not
answered meanwhile. -/
theorem slaveTimeout_error_partial (T : Nat) (hw : Fits T) (s0 : St ι) (h0 : s0.pending = false)
    (is : List (In ι α)) (j : In ι α) :
    (((machine T).outAfter s0 is j).rData = none → ∃ pre i mid, is = pre ++ i :: mid ∧ mid.length = T - 1 ∧
      i.arValid = true ∧ i.arReady = true ∧ i.arId = ((machine T).outAfter s0 is j).rId) ∧
    (((machine T).outAfter s0 is j).rData ≠ none →
      ((machine T).outAfter s0 is j).rValid = j.rValid ∧ ((machine T).outAfter s0 is j).rId = j.rId ∧
      ((machine T).outAfter s0 is j).rData = some j.rData ∧ ((machine T).outAfter s0 is j).rReady = j.rReady) := by
  have key : ∀ (is : List (In ι α)), ((machine T).final s0 is).pending = true →
      ∃ pre i mid, is = pre ++ i :: mid ∧ mid.length + ((machine T).final s0 is).timer = T - 1 ∧
        i.arValid = true ∧ i.arReady = true ∧ i.arId = ((machine T).final s0 is).id := by
    intro is
    induction is using List.reverseRecOn with
    | nil => intro h; rw [Machine.final_nil, h0] at h; cases h
    | append_singleton is i ih =>
      rw [Machine.final_append]
      show (next T ((machine T).final s0 is) i).pending = true → ∃ (pre : List (In ι α)) (j : In ι α) (mid : List (In ι α)), is ++ [i] = pre ++ j :: mid ∧
        mid.length + (next T ((machine T).final s0 is) i).timer = T - 1 ∧ _ ∧ _ ∧
          j.arId = (next T ((machine T).final s0 is) i).id
      generalize (machine T).final s0 is = s at ih
      unfold next
      by_cases hp : s.pending = true
      · rw [if_pos hp]
        intro h
        have h : (if s.timer = 0 then false else s.pending) = true := h
        by_cases ht : s.timer = 0
        · rw [if_pos ht] at h; cases h
        · obtain ⟨pre, k, mid, e1, e2, e3, e4, e5⟩ := ih hp
          refine ⟨pre, k, mid ++ [i], by rw [e1]; simp, ?_, e3, e4, e5⟩
          show (mid ++ [i]).length + (s.timer + 2 ^ timerBits T - 1) % 2 ^ timerBits T = T - 1
          unfold Fits at hw
          rw [show s.timer + 2 ^ timerBits T - 1 = (s.timer - 1) + 2 ^ timerBits T by omega, Nat.add_mod_right,
            Nat.mod_eq_of_lt (by omega), List.length_append, List.length_singleton]
          omega
      · rw [if_neg hp]
        split
        · next ha =>
          rw [Bool.and_eq_true] at ha
          intro _
          exact ⟨is, i, [], rfl, Nat.zero_add _, ha.1, ha.2, rfl⟩
        · intro h; exact absurd h hp
  unfold Machine.outAfter
  have hk := key is
  generalize (machine T).final s0 is = s at hk
  show ((if timeout s = true then none else some j.rData) = none → ∃ (pre : List (In ι α)) (i : In ι α) (mid : List (In ι α)), is = pre ++ i :: mid ∧ mid.length = T - 1 ∧ _ ∧ _ ∧
      i.arId = if timeout s = true then s.id else j.rId) ∧
    ((if timeout s = true then none else some j.rData) ≠ none → (if timeout s = true then true else j.rValid) = _ ∧
      (if timeout s = true then s.id else j.rId) = _ ∧ (if timeout s = true then none else some j.rData) = _ ∧
      (if timeout s = true then true else j.rReady) = _)
  cases ht : timeout s
  · exact ⟨fun h => by simp at h, fun _ => by simp⟩
  · refine ⟨fun _ => ?_, fun h => absurd (if_pos rfl) h⟩
    unfold timeout at ht
    rw [Bool.and_eq_true, beq_iff_eq] at ht
    obtain ⟨pre, k, mid, e1, e2, e3, e4, e5⟩ := hk ht.1
    rw [ht.2] at e2
    exact ⟨pre, k, mid, e1, e2, e3, e4, by simpa using e5⟩

end Verif.SlaveTimeout
