import Verif.CountLeading
/-!
# Property C45 of `CountLeadingZeros` / `CountLeadingOnes`
-/
namespace Verif.CountLeading

/-- `L` is the number of leading (from MSB) bits of value `b` in the `w` bit vector `d`. -/
def IsLeadingCount (b : Bool) (w : Nat) (d : Nat → Bool) (L : Nat) : Prop :=
  L ≤ w ∧ (∀ j, j < L → d (w - 1 - j) = b) ∧ (L < w → d (w - 1 - L) ≠ b)

/-- The number is unique, so the specification determines the output. -/
theorem leadingCount_unique {b : Bool} {w : Nat} {d : Nat → Bool} {L L' : Nat}
    (h : IsLeadingCount b w d L) (h' : IsLeadingCount b w d L') : L = L' := by
  rcases Nat.lt_trichotomy L L' with e | e | e
  · exact absurd (h'.2.1 L e) (h.2.2 (by have := h'.1; omega))
  · exact e
  · exact absurd (h.2.1 L' e) (h'.2.2 (by have := h.1; omega))

/-- **C45** for `DATA_WIDTH = 2^(k+1)`; `b = false` is `CountLeadingZeros`, `b = true` is
`CountLeadingOnes`. -/
theorem countLeading_exact (b : Bool) (k : Nat) (d : Nat → Bool) :
    IsLeadingCount b (2 ^ (k + 1)) d (countLeading b k d) := by
  unfold countLeading
  cases hf : full b (2 ^ (k + 1)) d
  · obtain ⟨h1, h2, h3⟩ := recurse_spec b k d hf
    exact ⟨by simp only [Bool.false_eq_true, if_false]; omega, by simpa using h2, fun _ => by simpa using h3⟩
  · simp only [if_true]
    refine ⟨Nat.le_refl _, ?_, fun h => absurd h (Nat.lt_irrefl _)⟩
    intro j hj
    exact full_iff.1 hf _ (by omega)

/-- **C45** The result fits to the output port of `log2ceil(DATA_WIDTH + 1)` bits. -/
theorem countLeading_fits (b : Bool) (k : Nat) (d : Nat → Bool) :
    countLeading b k d < 2 ^ log2ceil (2 ^ (k + 1) + 1) := by
  have h1 := (countLeading_exact b k d).1
  have h2 := le_two_pow_log2ceil (2 ^ (k + 1) + 1)
  omega

-- non-vacuity / sanity
example : countLeading false 2 (Nat.testBit 0b00010110) = 3 := by decide
example : countLeading true 2 (Nat.testBit 0b11111110) = 7 := by decide
example : countLeading false 2 (Nat.testBit 0) = 8 := by decide

end Verif.CountLeading
