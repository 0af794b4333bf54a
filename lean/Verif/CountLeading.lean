import Verif.Common
/-!
# Model of `CountLeadingZeros` / `CountLeadingOnes` (hwtLib/logic/countLeading.py)

A vector is a function from bit index; `b` is the counted bit value.
-/
namespace Verif.CountLeading

/-- `x._eq(0)` resp. `x._eq(mask(w))` on `w` bits. -/
def full (b : Bool) (w : Nat) (d : Nat → Bool) : Bool := (List.range w).all fun j => d j == b

/-- logic/countLeading.py:33-57 for `in_width = 2^(k+1)`; the result has `k+1` bits, so `Concat(left_full,
half_count)` has `left_full` at weight `2^k`. -/
def recurse (b : Bool) : Nat → (Nat → Bool) → Nat
  | 0, d => if d 1 == b then 1 else 0
  | k + 1, d =>
    let h := 2 ^ (k + 1)
    let lhs := fun j => d (h + j)
    let left_full := full b h lhs
    (if left_full then h else 0) + recurse b k (if left_full then d else lhs)

/-- logic/countLeading.py:59-74, `data_out` for `DATA_WIDTH = 2^(k+1)` -/
def countLeading (b : Bool) (k : Nat) (d : Nat → Bool) : Nat :=
  if full b (2 ^ (k + 1)) d then 2 ^ (k + 1) else recurse b k d

theorem full_iff {b : Bool} {w : Nat} {d : Nat → Bool} :
    full b w d = true ↔ ∀ j, j < w → d j = b := by
  simp [full]

theorem full_false {b : Bool} {w : Nat} {d : Nat → Bool} (h : full b w d = false) :
    ∃ j, j < w ∧ d j ≠ b := by
  simpa [full] using h

theorem recurse_spec (b : Bool) : ∀ (k : Nat) (d : Nat → Bool), full b (2 ^ (k + 1)) d = false →
    recurse b k d < 2 ^ (k + 1) ∧
    (∀ j, j < recurse b k d → d (2 ^ (k + 1) - 1 - j) = b) ∧
    d (2 ^ (k + 1) - 1 - recurse b k d) ≠ b := by
  intro k
  induction k with
  | zero =>
    intro d h
    obtain ⟨j, hj, hd⟩ := full_false h
    unfold recurse
    cases h1 : d 1 == b
    · simp only [Bool.false_eq_true, if_false]
      refine ⟨by decide, by intro j hj; omega, ?_⟩
      show d 1 ≠ b
      simpa using h1
    · simp only [if_true]
      have h1' : d 1 = b := by simpa using h1
      refine ⟨by decide, ?_, ?_⟩
      · intro i hi
        have : i = 0 := by omega
        subst this; exact h1'
      · show d 0 ≠ b
        have : j = 0 ∨ j = 1 := by omega
        rcases this with rfl | rfl
        · exact hd
        · exact absurd h1' hd
  | succ k ih =>
    intro d h
    have e2 : 2 ^ (k + 1 + 1) = 2 ^ (k + 1) + 2 ^ (k + 1) := by rw [Nat.pow_succ]; omega
    have hpos := Nat.two_pow_pos (k + 1)
    unfold recurse
    simp only
    cases hl : full b (2 ^ (k + 1)) fun j => d (2 ^ (k + 1) + j)
    · simp only [Bool.false_eq_true, if_false, Nat.zero_add]
      obtain ⟨h1, h2, h3⟩ := ih _ hl
      generalize recurse b k (fun j => d (2 ^ (k + 1) + j)) = L at h1 h2 h3
      generalize 2 ^ (k + 1) = h at *
      rw [e2]
      refine ⟨by omega, ?_, ?_⟩
      · intro j hj
        have := h2 j hj
        rw [show h + h - 1 - j = h + (h - 1 - j) by omega]
        exact this
      · rw [show h + h - 1 - L = h + (h - 1 - L) by omega]
        exact h3
    · simp only [if_true]
      have hl' := full_iff.1 hl
      have hr : full b (2 ^ (k + 1)) d = false := by
        cases hr : full b (2 ^ (k + 1)) d
        · rfl
        · exfalso
          obtain ⟨j, hj, hd⟩ := full_false h
          rcases Nat.lt_or_ge j (2 ^ (k + 1)) with h1 | h1
          · exact hd (full_iff.1 hr j h1)
          · apply hd
            have := hl' (j - 2 ^ (k + 1)) (by omega)
            rwa [show 2 ^ (k + 1) + (j - 2 ^ (k + 1)) = j by omega] at this
      obtain ⟨h1, h2, h3⟩ := ih _ hr
      generalize recurse b k d = L at h1 h2 h3
      generalize 2 ^ (k + 1) = h at *
      rw [e2]
      refine ⟨by omega, ?_, ?_⟩
      · intro j hj
        rcases Nat.lt_or_ge j h with hjh | hjh
        · have := hl' (h - 1 - j) (by omega)
          rwa [show h + (h - 1 - j) = h + h - 1 - j by omega] at this
        · have := h2 (j - h) (by omega)
          rwa [show h - 1 - (j - h) = h + h - 1 - j by omega] at this
      · rwa [show h + h - 1 - (h + L) = h - 1 - L by omega]

end Verif.CountLeading
