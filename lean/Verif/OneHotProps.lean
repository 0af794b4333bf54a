import Verif.OneHot
/-!
# Property C44: one-hot encoders/decoders
-/
namespace Verif.OneHot

/-- **C44** If any bit is set, the result is the index of the lowest set bit, it fits into the result
type of `log2ceil(n)` bits, and `vld` is set iff any bit is set. -/
theorem oneHotToBin_lowest (n : Nat) (hn : 0 < n) (b : Nat → Bool) :
    ((∃ i, i < n ∧ b i = true) → b (oneHotToBin n b) = true ∧
      ∀ j, b j = true → oneHotToBin n b ≤ j) ∧
    oneHotToBin n b < n ∧ oneHotToBin n b < 2 ^ log2ceil n ∧
    (oneHotVld n b = true ↔ ∃ i, i < n ∧ b i = true) := by
  refine ⟨?_, oneHotToBin_lt hn b, Nat.lt_of_lt_of_le (oneHotToBin_lt hn b) (le_two_pow_log2ceil n), ?_⟩
  · intro h
    obtain ⟨h1, h2⟩ := oneHotToBin_spec hn b h
    refine ⟨h1, ?_⟩
    intro j hj
    rcases Nat.lt_or_ge j (oneHotToBin n b) with h3 | h3
    · rw [h2 j h3] at hj; cases hj
    · exact h3
  · simp [oneHotVld, List.any_eq_true]

/-- **C44** `binToOneHot` sets exactly the addressed bit, and no bit when disabled. -/
theorem binToOneHot_exact (a i : Nat) :
    (binToOneHot a true i = true ↔ i = a) ∧ binToOneHot a false i = false := by
  refine ⟨?_, rfl⟩
  simp only [binToOneHot, if_true, beq_iff_eq]
  exact eq_comm

/-- **C44** Round trip from binary. -/
theorem oneHot_roundtrip (w a : Nat) (ha : a < 2 ^ w) : oneHotToBin (2 ^ w) (binToOneHot a true) = a := by
  have h := oneHotToBin_spec (Nat.two_pow_pos w) (binToOneHot a true)
    ⟨a, ha, (binToOneHot_exact a a).1.2 rfl⟩
  exact (binToOneHot_exact a _).1.1 h.1

/-- **C44** Round trip from a vector with exactly one bit set. -/
theorem oneHot_roundtrip' (w : Nat) (b : Nat → Bool) (a : Nat) (ha : a < 2 ^ w)
    (hb : ∀ i, i < 2 ^ w → (b i = true ↔ i = a)) (i : Nat) (hi : i < 2 ^ w) :
    binToOneHot (oneHotToBin (2 ^ w) b) true i = b i := by
  have hp := Nat.two_pow_pos w
  have h := oneHotToBin_spec hp b ⟨a, ha, (hb a ha).2 rfl⟩
  have e : oneHotToBin (2 ^ w) b = a := (hb _ (oneHotToBin_lt hp b)).1 h.1
  rw [e, Bool.eq_iff_iff, (binToOneHot_exact a i).1, hb i hi]

example : oneHotToBin 8 (fun i => i == 3 || i == 5) = 3 := by decide
example : ∃ i, i < 8 ∧ (fun i => i == 3 || i == 5) i = true := ⟨3, by decide⟩
example : ∀ i, i < 2 ^ 3 → ((fun j => j == 6) i = true ↔ i = 6) := by simp

end Verif.OneHot
