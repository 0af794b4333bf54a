import Verif.Gray
/-!
# Property C41: gray code
-/
namespace Verif.Gray

/-- `a` and `b` differ in exactly one bit, its index is below `w`. -/
def OneBitApart (w a b : Nat) : Prop :=
  ∃ k, k < w ∧ a.testBit k ≠ b.testBit k ∧ ∀ j, j ≠ k → a.testBit j = b.testBit j

/-- **C41** The codes of `n` and `n+1` (modulo `2^w`) differ in exactly one bit. -/
theorem gray_step (w n : Nat) (hw : 0 < w) (hn : n < 2 ^ w) :
    OneBitApart w (binToGray n) (binToGray ((n + 1) % 2 ^ w)) := by
  obtain ⟨k, hk, h⟩ := binToGray_succ hw hn
  refine ⟨k, hk, ?_, ?_⟩
  · rw [h, Nat.testBit_xor, Nat.testBit_two_pow_self]
    cases (binToGray n).testBit k <;> simp
  · intro j hj
    rw [h, Nat.testBit_xor, Nat.testBit_two_pow_of_ne (Ne.symm hj)]
    simp

/-- **C41** Different values have different codes, and codes fit into the same width. -/
theorem gray_injective (a b : Nat) : binToGray a = binToGray b ↔ a = b :=
  ⟨binToGray_inj, fun h => by rw [h]⟩

theorem gray_width (w n : Nat) (hn : n < 2 ^ w) : binToGray n < 2 ^ w := binToGray_lt hn

/-- **C41** Every code word of `w` bits is the code of some value of `w` bits. -/
theorem gray_surjective (w c : Nat) (hc : c < 2 ^ w) : ∃ n, n < 2 ^ w ∧ binToGray n = c := by
  induction w generalizing c with
  | zero => exact ⟨0, by simp, by simp at hc; simp [hc, binToGray]⟩
  | succ w ih =>
    rcases Nat.lt_or_ge c (2 ^ w) with h | h
    · obtain ⟨n, h1, h2⟩ := ih c h
      exact ⟨n, by rw [Nat.pow_succ]; omega, h2⟩
    · -- strip the top bit: code of `2^(w+1)-1` is `2^w`
      have hlt : c ^^^ 2 ^ w < 2 ^ w := by
        apply Nat.lt_pow_two_of_testBit
        intro i hi
        rw [Nat.testBit_xor, Nat.testBit_two_pow]
        rcases Nat.lt_or_ge i (w + 1) with h1 | h1
        · have : i = w := by omega
          subst this
          have : c.testBit i = true := by
            rw [Nat.testBit_eq_decide_div_mod_eq]
            rw [Nat.pow_succ] at hc
            have : c / 2 ^ i = 1 := by
              rw [Nat.div_eq_iff (Nat.two_pow_pos _)]; omega
            simp [this]
          simp [this]
        · rw [Nat.testBit_lt_two_pow (Nat.lt_of_lt_of_le hc (Nat.pow_le_pow_right (by omega) h1))]
          simp; omega
      obtain ⟨n, h1, h2⟩ := ih _ hlt
      refine ⟨n ^^^ (2 ^ (w + 1) - 1), ?_, ?_⟩
      · apply Nat.xor_lt_two_pow
        · rw [Nat.pow_succ]; omega
        · have := Nat.two_pow_pos (w + 1); omega
      · rw [binToGray_xor, h2, binToGray_ones, Nat.xor_assoc, Nat.xor_self, Nat.xor_zero]

/-- **C41** `GrayCntr`: from every state an enabled cycle changes exactly one output bit, a disabled
one changes none. -/
theorem grayCntr_one_bit (w : Nat) (hw : 0 < w) (n0 : Nat) (hn : n0 < 2 ^ w) (ens : List Bool)
    (en x : Bool) :
    let o := (cntr w).outAfter n0 ens x
    let o' := (cntr w).outAfter n0 (ens ++ [en]) x
    if en then OneBitApart w o o' else o' = o := by
  have hinv : (cntr w).final n0 ens < 2 ^ w := by
    refine Machine.inv_final (cntr w) (fun s => s < 2 ^ w) (fun _ => True) ?_ ens n0 hn (by simp)
    intro s i hs _
    show (if i then (s + 1) % 2 ^ w else s) < 2 ^ w
    cases i
    · exact hs
    · exact Nat.mod_lt _ (Nat.two_pow_pos w)
  intro o o'
  have e : (cntr w).final n0 (ens ++ [en]) = (cntr w).next ((cntr w).final n0 ens) en := by
    rw [Machine.final_append]; rfl
  cases en
  · show binToGray ((cntr w).final n0 (ens ++ [false])) = binToGray ((cntr w).final n0 ens)
    rw [e]; rfl
  · show OneBitApart w (binToGray ((cntr w).final n0 ens)) (binToGray ((cntr w).final n0 (ens ++ [true])))
    rw [e]
    exact gray_step w _ hw hinv

/-- **C41** The counter is periodic with period exactly `2^w` enabled cycles: after `k` enabled cycles
(among any number of disabled ones) the output is the code of `n0 + k` modulo `2^w`; so two outputs are
equal iff the numbers of enabled cycles are congruent. -/
theorem grayCntr_period (w n0 : Nat) (hn : n0 < 2 ^ w) (ens ens' : List Bool) (x : Bool) :
    (cntr w).outAfter n0 ens x = (cntr w).outAfter n0 ens' x ↔
      (ens.count true) % 2 ^ w = (ens'.count true) % 2 ^ w := by
  have key : ∀ (ens : List Bool) (s : Nat), s < 2 ^ w →
      (cntr w).final s ens = (s + ens.count true) % 2 ^ w := by
    intro ens
    induction ens with
    | nil => intro s hs; simp [Nat.mod_eq_of_lt hs]
    | cons e ens ih =>
      intro s hs
      rw [Machine.final_cons]
      cases e
      · show (cntr w).final s ens = _
        rw [ih s hs]; simp
      · show (cntr w).final ((s + 1) % 2 ^ w) ens = _
        rw [ih _ (Nat.mod_lt _ (Nat.two_pow_pos w))]
        simp [Nat.add_comm, Nat.add_left_comm]
  show binToGray ((cntr w).final n0 ens) = binToGray ((cntr w).final n0 ens') ↔ _
  rw [gray_injective, key ens n0 hn, key ens' n0 hn]
  constructor
  · intro h
    have h2 := congrArg (fun z => (z + (2 ^ w - n0)) % 2 ^ w) h
    simp only [Nat.mod_add_mod] at h2
    rw [show n0 + List.count true ens + (2 ^ w - n0) = List.count true ens + 2 ^ w by omega,
      show n0 + List.count true ens' + (2 ^ w - n0) = List.count true ens' + 2 ^ w by omega,
      Nat.add_mod_right, Nat.add_mod_right] at h2
    exact h2
  · intro h
    rw [Nat.add_mod, h, ← Nat.add_mod]

example : OneBitApart 4 (binToGray 7) (binToGray 8) := gray_step 4 7 (by decide) (by decide)
example : OneBitApart 4 (binToGray 15) (binToGray 0) := gray_step 4 15 (by decide) (by decide)
example : (cntr 4).outAfter 0 [true, false, true, true] true = 0b0010 := by decide

end Verif.Gray
