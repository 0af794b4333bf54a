import Verif.CrcProps
import Mathlib.Algebra.Polynomial.Div
import Mathlib.Algebra.Polynomial.Degree.Lemmas
import Mathlib.Data.ZMod.Basic
import Mathlib.Algebra.CharP.Two
import Mathlib.Tactic.Ring
import Mathlib.Tactic.LinearCombination
/-!
# C38: the CRC state is the remainder of polynomial division over GF(2)
-/
namespace Verif.Crc
open Polynomial

noncomputable section

/-- GF(2) value of a bit -/
def b2z (b : Bool) : ZMod 2 := if b then 1 else 0

theorem b2z_xor (a b : Bool) : b2z (a ^^ b) = b2z a + b2z b := by cases a <;> cases b <;> decide
theorem b2z_and (a b : Bool) : b2z (a && b) = b2z a * b2z b := by cases a <;> cases b <;> decide

/-- polynomial with the coefficients `f 0 .. f (n-1)` -/
def toPoly (n : ℕ) (f : Bits) : (ZMod 2)[X] := ∑ j ∈ Finset.range n, C (b2z (f j)) * X ^ j

/-- polynomial of a message: the first bit is the highest coefficient -/
def msgPoly (bits : List Bool) : (ZMod 2)[X] := bits.foldl (fun a b => X * a + C (b2z b)) 0

/-- the generator polynomial: the term `x^PW` is implicit -/
def genPoly (PW : ℕ) (poly : Bits) : (ZMod 2)[X] := X ^ PW + toPoly PW poly

theorem toPoly_degree (n : ℕ) (f : Bits) : (toPoly n f).degree < n := by
  unfold toPoly
  refine (degree_sum_le _ _).trans_lt ?_
  rw [Finset.sup_lt_iff (by exact_mod_cast WithBot.bot_lt_coe n)]
  intro j hj
  refine (degree_C_mul_X_pow_le j _).trans_lt ?_
  exact_mod_cast Finset.mem_range.1 hj

theorem genPoly_monic (PW : ℕ) (poly : Bits) : (genPoly PW poly).Monic :=
  monic_X_pow_add (toPoly_degree PW poly)

theorem genPoly_degree (PW : ℕ) (poly : Bits) : (genPoly PW poly).degree = PW := by
  unfold genPoly
  rw [degree_add_eq_left_of_degree_lt]
  · exact degree_X_pow PW
  · rw [degree_X_pow]; exact toPoly_degree PW poly

theorem two_eq_zero : (2 : (ZMod 2)[X]) = 0 := by
  have : (2 : (ZMod 2)[X]) = C (2 : ZMod 2) := rfl
  rw [this, show (2 : ZMod 2) = 0 by decide, C_0]

/-- one register step is multiplication by `x` and reduction -/
theorem serStep_poly (poly : Bits) (n : ℕ) (s : Bits) (b : Bool) :
    toPoly (n + 1) (serStep poly (n + 1) s b) + genPoly (n + 1) poly * C (b2z (s n ^^ b))
      = X * toPoly (n + 1) s + C (b2z b) * X ^ (n + 1) := by
  have h1 : toPoly (n + 1) (serStep poly (n + 1) s b)
      = X * toPoly n s + C (b2z (s n ^^ b)) * toPoly (n + 1) poly := by
    unfold toPoly
    rw [Finset.sum_range_succ', Finset.sum_range_succ' (fun j => C (b2z (poly j)) * X ^ j), Finset.mul_sum, mul_add,
      Finset.mul_sum, ← add_assoc, ← Finset.sum_add_distrib]
    congr 1
    · apply Finset.sum_congr rfl
      intro j _
      have : serStep poly (n + 1) s b (j + 1) = (s j ^^ (poly (j + 1) && (s n ^^ b))) := rfl
      rw [this, b2z_xor, b2z_and, C_add, C_mul]
      ring
    · have : serStep poly (n + 1) s b 0 = (poly 0 && (s n ^^ b)) := rfl
      rw [this, b2z_and, C_mul]
      ring
  have h2 : toPoly (n + 1) s = toPoly n s + C (b2z (s n)) * X ^ n := by
    unfold toPoly
    rw [Finset.sum_range_succ]
  rw [h1, h2]
  unfold genPoly
  rw [b2z_xor, C_add]
  linear_combination ((C (b2z (s n)) + C (b2z b)) * toPoly (n + 1) poly) * two_eq_zero

theorem msgPoly_append (a b : List Bool) : msgPoly (a ++ b) = X ^ b.length * msgPoly a + msgPoly b := by
  induction b using List.reverseRecOn with
  | nil => simp [msgPoly]
  | append_singleton b x ih =>
    rw [← List.append_assoc]
    have e : ∀ l : List Bool, msgPoly (l ++ [x]) = X * msgPoly l + C (b2z x) := by
      intro l; unfold msgPoly; rw [List.foldl_append]; rfl
    rw [e, e, ih, List.length_append, List.length_singleton]
    ring

theorem serial_poly (poly : Bits) (n : ℕ) (bits : List Bool) : ∀ (s : Bits),
    ∃ q, toPoly (n + 1) (serial poly (n + 1) s bits) + genPoly (n + 1) poly * q
      = X ^ bits.length * toPoly (n + 1) s + X ^ (n + 1) * msgPoly bits := by
  induction bits with
  | nil => intro s; exact ⟨0, by simp [serial, msgPoly]⟩
  | cons b bs ih =>
    intro s
    obtain ⟨q, hq⟩ := ih (serStep poly (n + 1) s b)
    have hs := serStep_poly poly n s b
    refine ⟨q + X ^ bs.length * C (b2z (s n ^^ b)), ?_⟩
    have e : serial poly (n + 1) s (b :: bs) = serial poly (n + 1) (serStep poly (n + 1) s b) bs := rfl
    have em : msgPoly (b :: bs) = X ^ bs.length * C (b2z b) + msgPoly bs := by
      have := msgPoly_append [b] bs
      simpa [msgPoly] using this
    rw [e, em, List.length_cons]
    linear_combination hq + X ^ bs.length * hs

/-- **C38** The CRC computed by the matrix is the remainder of the division: for the data bits `m` (most significant
first) and the state `s` it is `(s·x^DW + m·x^PW) mod (x^PW + poly)` over GF(2). -/
theorem crc_is_remainder (poly : Bits) (PW DW : ℕ) (hPW : 0 < PW) (hp : poly 0 = true) (s d : Bits) :
    toPoly PW (crcPar poly PW DW s d)
      = (X ^ DW * toPoly PW s + X ^ PW * msgPoly ((List.range DW).reverse.map d)) %ₘ genPoly PW poly := by
  obtain ⟨n, rfl⟩ : ∃ n, PW = n + 1 := ⟨PW - 1, by omega⟩
  obtain ⟨q, hq⟩ := serial_poly poly n ((List.range DW).reverse.map d) s
  have hlen : ((List.range DW).reverse.map d).length = DW := by simp
  rw [hlen] at hq
  have e : toPoly (n + 1) (crcPar poly (n + 1) DW s d)
      = toPoly (n + 1) (serial poly (n + 1) s ((List.range DW).reverse.map d)) := by
    unfold toPoly
    apply Finset.sum_congr rfl
    intro j hj
    rw [crc_matrix_eq_serial_partial poly (n + 1) DW s d hPW hp j (Finset.mem_range.1 hj)]
  rw [e]
  exact ((div_modByMonic_unique q _ (genPoly_monic (n + 1) poly)
    ⟨hq, by rw [genPoly_degree]; exact toPoly_degree _ _⟩).2).symm

/-- distinct states are distinct remainders: the equation determines the output -/
theorem toPoly_injective (n : ℕ) (f g : Bits) (h : toPoly n f = toPoly n g) : ∀ j, j < n → f j = g j := by
  intro j hj
  have hc : ∀ f : Bits, (toPoly n f).coeff j = b2z (f j) := by
    intro f
    unfold toPoly
    rw [finsetSum_coeff]
    simp only [coeff_C_mul, coeff_X_pow]
    simp [hj]
  have := congrArg (fun p => p.coeff j) h
  simp only [hc] at this
  revert this
  cases f j <;> cases g j <;> simp [b2z]

example : (fun j => j == 0 || j == 1 : Bits) 0 = true ∧ 0 < 8 := by decide

end
end Verif.Crc
