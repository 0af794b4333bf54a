import Verif.Common
/-!
# Model of `binToGray` and `GrayCntr` (hwtLib/logic/cntrGray.py)
-/
namespace Verif.Gray

/-- logic/cntrGray.py:20 `(x >> 1) ^ x`, on the unsigned value of the vector. -/
def binToGray (x : Nat) : Nat := (x >>> 1) ^^^ x

theorem binToGray_lt {x w : Nat} (h : x < 2 ^ w) : binToGray x < 2 ^ w := by
  unfold binToGray
  apply Nat.xor_lt_two_pow _ h
  exact Nat.lt_of_le_of_lt (Nat.shiftRight_le x 1) h

theorem binToGray_zero : binToGray 0 = 0 := rfl

theorem binToGray_xor (a b : Nat) : binToGray (a ^^^ b) = binToGray a ^^^ binToGray b := by
  unfold binToGray
  rw [Nat.shiftRight_xor_distrib]
  apply Nat.eq_of_testBit_eq
  intro i
  simp only [Nat.testBit_xor]
  cases (a >>> 1).testBit i <;> cases (b >>> 1).testBit i <;> cases a.testBit i <;>
    cases b.testBit i <;> rfl

theorem xor_eq_zero {a b : Nat} : a ^^^ b = 0 ↔ a = b := by
  constructor
  · intro h
    apply Nat.eq_of_testBit_eq
    intro i
    have := congrArg (fun n => Nat.testBit n i) h
    simp only [Nat.testBit_xor, Nat.zero_testBit] at this
    revert this
    cases a.testBit i <;> cases b.testBit i <;> simp
  · intro h; rw [h, Nat.xor_self]

theorem binToGray_eq_zero {x : Nat} (h : binToGray x = 0) : x = 0 := by
  unfold binToGray at h
  have := xor_eq_zero.1 h
  rw [Nat.shiftRight_eq_div_pow] at this
  omega

theorem binToGray_inj {a b : Nat} (h : binToGray a = binToGray b) : a = b := by
  apply xor_eq_zero.1
  apply binToGray_eq_zero
  rw [binToGray_xor, h, Nat.xor_self]

theorem two_mul_xor (a b : Nat) : 2 * a ^^^ 2 * b = 2 * (a ^^^ b) := by
  apply Nat.eq_of_testBit_eq
  intro i
  cases i with
  | zero => simp [Nat.testBit_zero]
  | succ i => simp [Nat.testBit_succ, Nat.xor_div_two]

theorem two_mul_xor_one (a b : Nat) : (2 * a + 1) ^^^ 2 * b = 2 * (a ^^^ b) + 1 := by
  apply Nat.eq_of_testBit_eq
  intro i
  cases i with
  | zero => simp [Nat.testBit_zero]
  | succ i =>
    rw [Nat.testBit_succ, Nat.testBit_succ, Nat.xor_div_two, show (2 * a + 1) / 2 = a by omega,
      show 2 * b / 2 = b by omega, show (2 * (a ^^^ b) + 1) / 2 = a ^^^ b by omega]

/-- `n` and its (wrapping) successor differ in a block of low bits. -/
theorem xor_succ : ∀ (w n : Nat), 0 < w → n < 2 ^ w →
    ∃ k, k < w ∧ n ^^^ ((n + 1) % 2 ^ w) = 2 ^ (k + 1) - 1 := by
  intro w
  induction w with
  | zero => intro n h; omega
  | succ w ih =>
    intro n _ hn
    rw [Nat.pow_succ] at hn
    rcases Nat.mod_two_eq_zero_or_one n with h | h
    · refine ⟨0, by omega, ?_⟩
      obtain ⟨m, rfl⟩ : ∃ m, n = 2 * m := ⟨n / 2, by omega⟩
      rw [Nat.pow_succ, Nat.mod_eq_of_lt (by omega), Nat.xor_comm, two_mul_xor_one, Nat.xor_self]
    · obtain ⟨m, rfl⟩ : ∃ m, n = 2 * m + 1 := ⟨n / 2, by omega⟩
      have e : (2 * m + 1 + 1) % 2 ^ (w + 1) = 2 * ((m + 1) % 2 ^ w) := by
        rw [show 2 * m + 1 + 1 = 2 * (m + 1) by omega, Nat.pow_succ, Nat.mul_comm (2 ^ w) 2,
          Nat.mul_mod_mul_left]
      rw [e, two_mul_xor_one]
      rcases Nat.eq_zero_or_pos w with rfl | hw
      · refine ⟨0, by omega, ?_⟩
        have : m = 0 := by omega
        subst this; rfl
      · obtain ⟨k, hk, hx⟩ := ih m hw (by omega)
        refine ⟨k + 1, by omega, ?_⟩
        rw [hx, Nat.pow_succ 2 (k + 1)]
        have := Nat.two_pow_pos (k + 1)
        omega

theorem binToGray_ones (k : Nat) : binToGray (2 ^ (k + 1) - 1) = 2 ^ k := by
  unfold binToGray
  apply Nat.eq_of_testBit_eq
  intro i
  rw [Nat.testBit_xor, Nat.testBit_shiftRight, Nat.testBit_two_pow_sub_one, Nat.testBit_two_pow_sub_one,
    Nat.testBit_two_pow]
  by_cases h1 : i = k
  · subst h1; simp; omega
  · by_cases h2 : i < k
    · have : i < k + 1 := by omega
      have : 1 + i < k + 1 := by omega
      simp [*]; omega
    · have : ¬ i < k + 1 := by omega
      have : ¬ 1 + i < k + 1 := by omega
      simp [*]; omega

/-- Successive codes differ in exactly one bit. -/
theorem binToGray_succ {w n : Nat} (hw : 0 < w) (hn : n < 2 ^ w) :
    ∃ k, k < w ∧ binToGray ((n + 1) % 2 ^ w) = binToGray n ^^^ 2 ^ k := by
  obtain ⟨k, hk, hx⟩ := xor_succ w n hw hn
  refine ⟨k, hk, ?_⟩
  rw [← binToGray_ones k, ← hx, binToGray_xor, ← Nat.xor_assoc, Nat.xor_self, Nat.zero_xor]

/-! ## `GrayCntr` -/

/-- logic/cntrGray.py:46-54: a `DATA_WIDTH = w` bits wide binary counter with enable; output is its
gray code. -/
def cntr (w : Nat) : Machine Nat Bool Nat where
  out s _ := binToGray s
  next s en := if en then (s + 1) % 2 ^ w else s

end Verif.Gray
