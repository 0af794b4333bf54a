import Verif.Mmcm
/-!
# Properties of the checks of parameters of MMCME2_ADV
-/
namespace Verif.Mmcm

/-! ## what the parameters mean -/

/-- An output with the divider `d` and the duty cycle `u` (thousandths) can be made by counters: it is high for at most 64.5 and
low for at most 64 cycles of the oscillator, and high for at least one, unless it is the oscillator itself.
`u * d` is the time of the high level in millionths of a cycle, `1000 * d` the whole period. -/
def DutyOk (d u : Int) : Prop := 1 ≤ u ∧ u ≤ 999 ∧ u * d ≤ 64500000 ∧ 1000 * d - u * d ≤ 64000000 ∧ (d = 1000 ∨ 1000000 ≤ u * d)

/-- frequency of the oscillator for an input of the period `p` fs is between 600 and 1600 MHz: `1000000 * mult / (p * divclk)` -/
def VcoOk (c : Cfg) (p : Int) : Prop := 600 * (p * c.divclk) ≤ 1000000 * c.mult ∧ 1000000 * c.mult ≤ 1600 * (p * c.divclk)

/-- frequency of an input, `1000000000 / p` MHz, is between 10 and 1066 MHz -/
def FreqOk (p : Int) : Prop := 0 < p ∧ 10 * p ≤ 1000000000 ∧ 1000000000 ≤ 1066 * p

def Phase (p : Int) : Prop := -360000 ≤ p ∧ p ≤ 360000

structure Legal (c : Cfg) : Prop where
  bandwidth : c.bandwidth = "OPTIMIZED" ∨ c.bandwidth = "HIGH" ∨ c.bandwidth = "LOW"
  compensation : c.compensation = "ZHOLD" ∨ c.compensation = "BUF_IN" ∨ c.compensation = "EXTERNAL" ∨ c.compensation = "INTERNAL"
  ssMode : c.ssMode = "CENTER_HIGH" ∨ c.ssMode = "CENTER_LOW" ∨ c.ssMode = "DOWN_HIGH" ∨ c.ssMode = "DOWN_LOW"
  ssModPeriod : 4000 ≤ c.ssModPeriod ∧ c.ssModPeriod ≤ 40000
  mult : 2000 ≤ c.mult ∧ c.mult ≤ 64000
  fbPhase : Phase c.fbPhase
  divclk : 1 ≤ c.divclk ∧ c.divclk ≤ 106
  jitter : (0 ≤ c.jitter1 ∧ c.jitter1 ≤ 999) ∧ 0 ≤ c.jitter2 ∧ c.jitter2 ≤ 999
  out0 : (c.out0.divide = 1000 ∨ 2000 ≤ c.out0.divide ∧ c.out0.divide ≤ 128000) ∧ Phase c.out0.phase ∧
    (if c.out0.divide % 1000 = 0 then DutyOk c.out0.divide c.out0.duty else c.out0.duty = 500)
  outs : ∀ o ∈ c.outs, 1 ≤ o.divide ∧ o.divide ≤ 128 ∧ Phase o.phase ∧ DutyOk (1000 * o.divide) o.duty
  /-- at least one input is used; period 0 is an unused one -/
  used : c.period1 ≠ 0 ∨ c.period2 ≠ 0
  freq : (c.period1 = 0 ∨ FreqOk c.period1) ∧ (c.period2 = 0 ∨ FreqOk c.period2)
  vco : (c.period1 = 0 ∨ VcoOk c c.period1) ∧ (c.period2 = 0 ∨ VcoOk c c.period2)

/-! ## lemmas -/

theorem range_iff (v lo hi : Int) : rangeChk v lo hi = true ↔ lo ≤ v ∧ v ≤ hi := by
  unfold rangeChk
  rw [Bool.not_eq_true', Bool.or_eq_false_iff, decide_eq_false_iff_not, decide_eq_false_iff_not]
  omega

/-- for whole dividers the two limits of the code are those of the counters -/
theorem duty_iff (k u : Int) (h1 : 1 ≤ k) (hu : 1 ≤ u ∧ u ≤ 999) : dutyChk (1000 * k) u = true ↔ DutyOk (1000 * k) u := by
  have e : u * (1000 * k) = 1000 * (u * k) := by rw [Int.mul_left_comm]
  have b1 : k ≤ u * k := by
    have := Int.mul_le_mul_of_nonneg_right hu.1 (show (0:Int) ≤ k by omega); omega
  have b2 : u * k ≤ 999 * k := Int.mul_le_mul_of_nonneg_right hu.2 (by omega)
  unfold dutyChk DutyOk
  rw [e]
  generalize u * k = x at b1 b2 ⊢
  by_cases h64 : 1000 * k > 64000
  · rw [if_pos h64, Bool.not_eq_true', Bool.or_eq_false_iff, decide_eq_false_iff_not, decide_eq_false_iff_not]
    omega
  · rw [if_neg h64]
    by_cases hk : 1000 * k = 1000
    · rw [if_pos hk, Bool.not_eq_true', Bool.or_eq_false_iff, decide_eq_false_iff_not, decide_eq_false_iff_not]
      omega
    · rw [if_neg hk, Bool.not_eq_true', Bool.or_eq_false_iff, decide_eq_false_iff_not, decide_eq_false_iff_not]
      omega

theorem out_iff (o : Out) : outChk o = true ↔ 1 ≤ o.divide ∧ o.divide ≤ 128 ∧ Phase o.phase ∧ DutyOk (1000 * o.divide) o.duty := by
  unfold outChk Phase
  rw [Bool.and_eq_true, Bool.and_eq_true, Bool.and_eq_true, range_iff, range_iff, range_iff]
  constructor
  · rintro ⟨⟨⟨h1, h2⟩, h3⟩, h4⟩
    exact ⟨h1.1, h1.2, h2, (duty_iff _ _ h1.1 h3).1 h4⟩
  · rintro ⟨h1, h2, h3, h4⟩
    exact ⟨⟨⟨⟨h1, h2⟩, h3⟩, h4.1, h4.2.1⟩, (duty_iff _ _ h1 ⟨h4.1, h4.2.1⟩).2 h4⟩

theorem out0_iff (o : Out) : out0Chk o = true ↔ (o.divide = 1000 ∨ 2000 ≤ o.divide ∧ o.divide ≤ 128000) ∧ Phase o.phase ∧
    (if o.divide % 1000 = 0 then DutyOk o.divide o.duty else o.duty = 500) := by
  unfold out0Chk Phase
  rw [Bool.and_eq_true, Bool.and_eq_true, Bool.and_eq_true, range_iff, range_iff, Bool.not_eq_true', Bool.and_eq_false_iff,
    decide_eq_false_iff_not, decide_eq_false_iff_not]
  have hr : ((1000 ≤ o.divide ∧ o.divide ≤ 128000) ∧ (¬ o.divide > 1000 ∨ ¬ o.divide < 2000)) ↔
      (o.divide = 1000 ∨ 2000 ≤ o.divide ∧ o.divide ≤ 128000) := by omega
  rw [hr, and_assoc]
  refine and_congr_right fun hd => and_congr_right fun _ => ?_
  by_cases hf : o.divide % 1000 = 0
  · have h0 : frac0 o.divide = false := by
      unfold frac0
      rw [Bool.and_eq_false_iff, decide_eq_false_iff_not]
      omega
    rw [if_pos hf, h0, if_neg (by decide), Bool.and_eq_true, range_iff]
    have hk : o.divide = 1000 * (o.divide / 1000) := by omega
    rw [hk]
    constructor
    · rintro ⟨h1, h2⟩
      exact (duty_iff _ _ (by omega) h1).1 h2
    · intro h
      exact ⟨⟨h.1, h.2.1⟩, (duty_iff _ _ (by omega) ⟨h.1, h.2.1⟩).2 h⟩
  · have h0 : frac0 o.divide = true := by
      unfold frac0
      rw [Bool.and_eq_true, decide_eq_true_eq, decide_eq_true_eq]
      omega
    rw [if_neg hf, h0, if_pos rfl, decide_eq_true_eq]

theorem period_iff (p : Int) : periodChk p = true ↔ 938000 ≤ p ∧ p ≤ 100000000 := by
  have h1 : chkT 10 = 100000000 := by decide
  have h2 : chkT 1066 = 938000 := by decide
  unfold periodChk
  rw [h1, h2, Bool.not_eq_true', Bool.or_eq_false_iff, decide_eq_false_iff_not, decide_eq_false_iff_not]
  omega

theorem vco_iff (c : Cfg) (p : Int) : vcoChk c p = true ↔ p = 0 ∨ VcoOk c p := by
  unfold vcoChk VcoOk
  rw [Bool.or_eq_true, Bool.not_eq_true', Bool.or_eq_false_iff, decide_eq_true_eq, decide_eq_false_iff_not, decide_eq_false_iff_not]
  omega

/-- what the code accepts: the legal configurations, with other limits of the periods -/
theorem accepted_iff (c : Cfg) : accepted c = true ↔
    (c.bandwidth = "OPTIMIZED" ∨ c.bandwidth = "HIGH" ∨ c.bandwidth = "LOW") ∧
    (c.compensation = "ZHOLD" ∨ c.compensation = "BUF_IN" ∨ c.compensation = "EXTERNAL" ∨ c.compensation = "INTERNAL") ∧
    (c.ssMode = "CENTER_HIGH" ∨ c.ssMode = "CENTER_LOW" ∨ c.ssMode = "DOWN_HIGH" ∨ c.ssMode = "DOWN_LOW") ∧
    (4000 ≤ c.ssModPeriod ∧ c.ssModPeriod ≤ 40000) ∧
    ((c.out0.divide = 1000 ∨ 2000 ≤ c.out0.divide ∧ c.out0.divide ≤ 128000) ∧ Phase c.out0.phase ∧
      (if c.out0.divide % 1000 = 0 then DutyOk c.out0.divide c.out0.duty else c.out0.duty = 500)) ∧
    (∀ o ∈ c.outs, 1 ≤ o.divide ∧ o.divide ≤ 128 ∧ Phase o.phase ∧ DutyOk (1000 * o.divide) o.duty) ∧
    (2000 ≤ c.mult ∧ c.mult ≤ 64000) ∧ Phase c.fbPhase ∧ (1 ≤ c.divclk ∧ c.divclk ≤ 106) ∧
    (0 ≤ c.jitter1 ∧ c.jitter1 ≤ 999) ∧ (0 ≤ c.jitter2 ∧ c.jitter2 ≤ 999) ∧
    (938000 ≤ c.period1 ∧ c.period1 ≤ 100000000) ∧ (c.period2 = 0 ∨ 938000 ≤ c.period2 ∧ c.period2 ≤ 100000000) ∧
    VcoOk c c.period1 ∧ (c.period2 = 0 ∨ VcoOk c c.period2) := by
  unfold accepted
  simp only [Bool.and_eq_true, range_iff, period_iff, vco_iff, out0_iff, List.all_eq_true, out_iff, Bool.or_eq_true,
    Bool.not_eq_true', Bool.and_eq_false_iff, decide_eq_true_eq, decide_eq_false_iff_not, List.contains_iff_mem, List.mem_cons,
    List.not_mem_nil, or_false]
  unfold Phase
  constructor
  · rintro ⟨⟨⟨⟨⟨⟨⟨⟨⟨⟨⟨⟨⟨⟨⟨a1, a2⟩, a3⟩, a4⟩, a5⟩, a6⟩, a7⟩, a8⟩, a9⟩, a10⟩, a11⟩, a12⟩, a13⟩, a14⟩, a15⟩, a16⟩
    exact ⟨a1, a2, a3, a4, a5, a6, a7, a8, a9, a10, a11, a12, a13, a15.resolve_left (by omega), a16⟩
  · rintro ⟨a1, a2, a3, a4, a5, a6, a7, a8, a9, a10, a11, a12, a13, a15, a16⟩
    exact ⟨⟨⟨⟨⟨⟨⟨⟨⟨⟨⟨⟨⟨⟨⟨a1, a2⟩, a3⟩, a4⟩, a5⟩, a6⟩, a7⟩, a8⟩, a9⟩, a10⟩, a11⟩, a12⟩, a13⟩, Or.inl (by omega)⟩, Or.inr a15⟩, a16⟩

/-! ## C470: what is accepted is legal -/

/-- C470, full statement -/
def SoundFull : Prop := ∀ c, accepted c = true → Legal c

/-- an input of 938.05 ps, which is 1066.04 MHz -/
def exFast : Cfg := { defaults with mult := 2000, divclk := 2, period1 := 938050 }

/-- C470: the limit of the period is rounded down to whole ps, so a slightly faster clock is accepted. -/
theorem sound_violated : accepted exFast = true ∧ ¬ FreqOk exFast.period1 ∧ ¬ SoundFull := by
  have h : accepted exFast = true := by decide +kernel
  have h2 : ¬ FreqOk exFast.period1 := by unfold FreqOk; decide
  refine ⟨h, h2, fun q => ?_⟩
  rcases (q _ h).freq.1 with h3 | h3
  · revert h3; decide
  · exact h2 h3

/-- C470: if no used input is faster than 1066 MHz, an accepted configuration is legal. -/
theorem sound_partial (c : Cfg) (h : accepted c = true) (h1 : 1000000000 ≤ 1066 * c.period1)
    (h2 : c.period2 = 0 ∨ 1000000000 ≤ 1066 * c.period2) : Legal c := by
  obtain ⟨a1, a2, a3, a4, a5, a6, a7, a8, a9, a10, a11, a12, a13, a15, a16⟩ := (accepted_iff c).1 h
  exact { bandwidth := a1, compensation := a2, ssMode := a3, ssModPeriod := a4, mult := a7, fbPhase := a8, divclk := a9,
          jitter := ⟨a10, a11⟩, out0 := a5, outs := a6, used := Or.inl (by omega),
          freq := ⟨Or.inr (by unfold FreqOk; omega), by unfold FreqOk; omega⟩, vco := ⟨Or.inr a15, a16⟩ }

/-- C470: and no accepted input is faster than 1066.1 MHz or slower than 10 MHz. -/
theorem sound_freq (c : Cfg) (h : accepted c = true) (p : Int) (hp : p = c.period1 ∨ p = c.period2 ∧ p ≠ 0) :
    10 * (10 * p) ≤ 10 * 1000000000 ∧ 10 * 1000000000 ≤ 10661 * p := by
  obtain ⟨_, _, _, _, _, _, _, _, _, _, _, a12, a13, _, _⟩ := (accepted_iff c).1 h
  omega

/-- C470: frequencies of accepted outputs 1 to 6, `1000000 * mult / (period * divclk * divide)`, are between 4.6875 and 1600 MHz. -/
theorem sound_out (c : Cfg) (h : accepted c = true) (o : Out) (ho : o ∈ c.outs) :
    46875 * (c.period1 * c.divclk * o.divide) ≤ 10000 * (1000000 * c.mult) ∧
    1000000 * c.mult ≤ 1600 * (c.period1 * c.divclk * o.divide) := by
  obtain ⟨_, _, _, _, _, a6, a7, _, a9, _, _, a12, _, a15, _⟩ := (accepted_iff c).1 h
  obtain ⟨h1, h2, _⟩ := a6 o ho
  unfold VcoOk at a15
  have hx : 0 ≤ c.period1 * c.divclk := Int.mul_nonneg (by omega) (by omega)
  generalize c.period1 * c.divclk = x at a15 hx ⊢
  have b1 : x * o.divide ≤ x * 128 := Int.mul_le_mul_of_nonneg_left h2 hx
  have b2 : x * 1 ≤ x * o.divide := Int.mul_le_mul_of_nonneg_left h1 hx
  omega

/-! ## C471: what is legal is accepted -/

/-- C471, full statement -/
def CompleteFull : Prop := ∀ c, Legal c → accepted c = true

/-- only the second input is used -/
def exSecond : Cfg := { exMain with period1 := 0, period2 := 10000000 }

theorem main_accepted : accepted exMain = true := by decide +kernel

theorem main_legal : Legal exMain := sound_partial exMain main_accepted (by decide) (by decide)

/-- C471: the first input has to be used: line 261 refuses the period 0, before line 266 checks that one of them is not 0. -/
theorem complete_violated : (∀ c, accepted c = true → c.period1 ≠ 0) ∧ Legal exSecond ∧ ¬ CompleteFull := by
  have h1 : ∀ c, accepted c = true → c.period1 ≠ 0 := by
    intro c h
    obtain ⟨_, _, _, _, _, _, _, _, _, _, _, a12, _⟩ := (accepted_iff c).1 h
    omega
  have h2 : Legal exSecond :=
    { bandwidth := main_legal.bandwidth, compensation := main_legal.compensation, ssMode := main_legal.ssMode,
      ssModPeriod := main_legal.ssModPeriod, mult := main_legal.mult, fbPhase := main_legal.fbPhase, divclk := main_legal.divclk,
      jitter := main_legal.jitter, out0 := main_legal.out0, outs := main_legal.outs, used := Or.inr (by decide),
      freq := ⟨Or.inl rfl, main_legal.freq.1⟩, vco := ⟨Or.inl rfl, main_legal.vco.1⟩ }
  exact ⟨h1, h2, fun q => h1 exSecond (q _ h2) rfl⟩

/-- C471: each legal configuration with the first input used is accepted. -/
theorem complete_partial (c : Cfg) (h : Legal c) (h1 : c.period1 ≠ 0) : accepted c = true := by
  rw [accepted_iff]
  have f1 := h.freq.1.resolve_left h1
  have f2 := h.freq.2
  unfold FreqOk at f1 f2
  exact ⟨h.bandwidth, h.compensation, h.ssMode, h.ssModPeriod, h.out0, h.outs, h.mult, h.fbPhase, h.divclk, h.jitter.1, h.jitter.2,
    by omega, by omega, h.vco.1.resolve_left h1, h.vco.2⟩

/-- C471: the default values are refused, since they have no input; those of the example in the file are accepted. -/
theorem defaults_refused : accepted defaults = false ∧ ¬ Legal defaults ∧ accepted exMain = true :=
  ⟨by decide +kernel, fun h => h.used.elim (fun q => q rfl) (fun q => q rfl), main_accepted⟩

example : Legal exMain ∧ exMain.period1 ≠ 0 := ⟨main_legal, by decide⟩

end Verif.Mmcm
