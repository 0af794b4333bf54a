import Verif.FifoCfg
/-!
# Properties of the configuration of HandshakedFifo and HsFifoAsync
-/
namespace Verif.FifoCfg

/-! ## C481 -/

/-- documented parameters of HandshakedFifo are accepted -/
def Usable : Prop := ∀ p : Par, 2 ≤ p.depth → p.init ≤ p.depth → ∃ b, hsFifo p = .ok b

/-- C481: without EXPORT_SPACE, or with EXPORT_SIZE also, each depth from 2 is accepted. The inner fifo and the output register
together have place for DEPTH words, the initial words are kept, and all numbers of words fit in the signals. -/
theorem usable_partial (p : Par) (hd : 2 ≤ p.depth) (he : p.space = true → p.size = true) :
    ∃ b, hsFifo p = .ok b ∧ b.depth + 1 = p.depth ∧ b.init + b.outVld.toNat = p.init ∧ b.first = b.outVld ∧
      (p.init ≤ p.depth → b.init ≤ b.depth) ∧ (b.size, b.space) = (p.size, p.space) ∧ p.depth < 2 ^ b.sizeW := by
  obtain ⟨d, s, sp, i⟩ := p
  simp only at hd he
  have hw : d < 2 ^ log2ceil (d + 1 + 1) := by
    unfold log2ceil
    rw [if_neg (by omega)]
    have := @Nat.lt_log2_self (d + 1 + 1 - 1)
    omega
  have hx : (sp && !s) = false := by
    cases sp <;> cases s <;> simp_all
  simp only [hsFifo, hsDeclr, hsImpl, gt_iff_lt, Nat.le_refl, not_true, if_false, hx, Bool.false_eq_true,
    if_neg (show ¬ ¬ 0 < d by omega), if_neg (show ¬ ¬ 1 < d by omega)]
  refine ⟨_, rfl, by simp only; omega, ?_, rfl, ?_, rfl, hw⟩
  · simp only
    by_cases h : i = d
    · simp only [h, if_true, decide_true, Bool.toNat_true]; omega
    · simp [h]
  · intro hi
    simp only
    split <;> omega

/-- C481 violated: EXPORT_SPACE without EXPORT_SIZE raises, for every depth -/
theorem usable_violated : ¬ Usable ∧ ∀ p : Par, 2 ≤ p.depth → p.space = true → p.size = false → hsFifo p = .error .attribute := by
  have key : ∀ p : Par, 2 ≤ p.depth → p.space = true → p.size = false → hsFifo p = .error .attribute := by
    rintro ⟨d, s, sp, i⟩ hd hs hz
    simp only at hd hs hz
    subst hs hz
    simp [hsFifo, hsDeclr, hsImpl, show 0 < d by omega, show 1 < d by omega]
  refine ⟨fun h => ?_, key⟩
  obtain ⟨b, hb⟩ := h ⟨2, false, true, 0⟩ (by decide) (by decide)
  rw [key ⟨2, false, true, 0⟩ (by decide) rfl rfl] at hb
  cases hb

/-- C481: depths 0 and 1 are rejected -/
theorem small_rejected (p : Par) (hd : p.depth < 2) : hsFifo p = .error .assertion := by
  unfold hsFifo hsDeclr
  by_cases h : p.depth > 0
  · simp [h, show ¬ 1 < p.depth by omega]
  · simp [h]

/-! ## C482 -/

/-- initial data longer than the fifo is rejected with an assertion -/
def LongRejected : Prop := ∀ p : Par, p.depth < p.init → hsFifo p = .error .assertion

/-- C482 violated: the assertion of the length compares the length with itself, data of any length pass it -/
theorem long_violated : ¬ LongRejected ∧
    ∀ d n, 2 ≤ d → d < n → ∃ b, hsFifo ⟨d, false, false, n⟩ = .ok b ∧ b.depth < b.init := by
  have key : ∀ d n, 2 ≤ d → d < n → ∃ b, hsFifo ⟨d, false, false, n⟩ = .ok b ∧ b.depth < b.init := by
    intro d n hd hn
    simp only [hsFifo, hsDeclr, hsImpl, gt_iff_lt, Nat.le_refl, not_true, if_false, Bool.false_and, Bool.false_eq_true,
      if_neg (show ¬ ¬ 0 < d by omega), if_neg (show ¬ ¬ 1 < d by omega)]
    refine ⟨_, rfl, ?_⟩
    simp only
    split <;> omega
  refine ⟨fun h => ?_, key⟩
  obtain ⟨b, hb, _⟩ := key 2 3 (by decide) (by decide)
  rw [h ⟨2, false, false, 3⟩ (by decide)] at hb
  cases hb

/-- C482: data up to DEPTH are split so that they fit -/
theorem fits_partial (p : Par) (b : Built) (h : hsFifo p = .ok b) : (b.init ≤ b.depth ↔ p.init ≤ p.depth) := by
  have hd : 2 ≤ p.depth := by
    rcases Nat.lt_or_ge p.depth 2 with h' | h'
    · rw [small_rejected p h'] at h; cases h
    · exact h'
  have he : p.space = true → p.size = true := by
    intro hs
    cases hz : p.size with
    | true => rfl
    | false => rw [usable_violated.2 p hd hs hz] at h; cases h
  obtain ⟨b', hb', h1, h2, _, _, _, _⟩ := usable_partial p hd he
  rw [h] at hb'
  cases hb'
  have h3 : b.outVld = decide (p.init = p.depth) := by
    unfold hsFifo hsDeclr at h
    rw [if_neg (by omega), if_neg (by omega), if_neg (by omega)] at h
    simp only [hsImpl] at h
    split at h
    · cases h
    · cases h; rfl
  rw [h3] at h2
  by_cases e : p.init = p.depth
  · rw [decide_eq_true e] at h2
    simp only [Bool.toNat_true] at h2
    omega
  · rw [decide_eq_false e] at h2
    simp only [Bool.toNat_false] at h2
    omega

/-! ## C483 -/

theorem isPow2_iff (n : Nat) : isPow2 n = true ↔ ∃ k, n = 2 ^ k := by
  unfold isPow2
  constructor
  · intro h
    simp only [Bool.and_eq_true, beq_iff_eq] at h
    exact ⟨_, h.2.symm⟩
  · rintro ⟨k, rfl⟩
    simp [Nat.log2_two_pow]

/-- the parameters EXPORT_SIZE and EXPORT_SPACE of HsFifoAsync can be used -/
def AsyncExports : Prop := ∃ p : Par, (p.size = true ∨ p.space = true) ∧ ∃ b, hsFifoAsync p = .ok b

/-- C483: HsFifoAsync is accepted exactly for depths 2^k + 1 without the exports -/
theorem async_partial (p : Par) :
    (∃ b, hsFifoAsync p = .ok b) ↔ (∃ k, p.depth = 2 ^ k + 1) ∧ p.size = false ∧ p.space = false := by
  obtain ⟨d, s, sp, i⟩ := p
  unfold hsFifoAsync asyncDeclr hsImpl
  simp only
  by_cases h : isPow2 (d - 1) = true
  · obtain ⟨k, hk⟩ := (isPow2_iff _).1 h
    have hpos := Nat.two_pow_pos k
    have hd : ∃ k, d = 2 ^ k + 1 := ⟨k, by omega⟩
    rw [if_neg (by simp [h]), if_neg (by omega), if_neg (by simp [h])]
    cases s <;> cases sp <;> simp [hd]
  · rw [if_pos h]
    constructor
    · rintro ⟨b, hb⟩; cases hb
    · rintro ⟨⟨k, rfl⟩, _⟩
      exact absurd ((isPow2_iff _).2 ⟨k, by simp⟩) h

/-- C483 violated: the exports can not be used -/
theorem async_violated : ¬ AsyncExports := by
  rintro ⟨p, h, hb⟩
  have := ((async_partial p).1 hb).2
  rcases h with h | h
  · rw [this.1] at h; cases h
  · rw [this.2] at h; cases h

/-- C483 violated: initial data are not stored; with DEPTH words of them the output is valid after reset, the fifo has no word -/
theorem async_init_violated : ∃ p b, hsFifoAsync p = .ok b ∧ p.init = p.depth ∧ b.init = 0 ∧ b.first = false ∧ b.outVld = true :=
  ⟨⟨5, false, false, 5⟩, _, rfl, rfl, rfl, rfl, rfl⟩

example : hsFifo ⟨8, true, true, 8⟩ = .ok ⟨7, true, true, 7, true, true, 4⟩ := by rfl
example : hsFifoAsync ⟨5, false, false, 0⟩ = .ok ⟨4, false, false, 0, false, false, 3⟩ := by rfl

end Verif.FifoCfg
