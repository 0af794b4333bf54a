import Verif.Pid

/-! # Properties C308, C309 -/

namespace Verif.Pid

/-- input `d` cycles ago, zero before the start -/
def past (f : Nat → In) (k d : Nat) : Int := if d ≤ k then (f (k - d)).input else 0

/-- increment of the output in the step `k` with the given error -/
def term (err : In → Int) (f : Nat → In) (k : Nat) : Int :=
  (f k).a0 * err (f k) + (f k).a1 * (f k).input + (f k).a2 * past f k 1 + (f k).a3 * past f k 2

def total (err : In → Int) (f : Nat → In) : Nat → Int
  | 0 => 0
  | n + 1 => total err f n + term err f n

/-- C308: u(k) = u(k-1) + a0*e(k) + a1*y(k) + a2*y(k-1) + a3*y(k-2), e(k) = target value - input -/
def C308 : Prop := ∀ (W : Nat) (f : Nat → In) (n : Nat), (run W f n).u = wrap W (total (fun i => i.target - i.input) f n)

theorem wrap_add_left (W : Nat) (a b : Int) : wrap W (wrap W a + b) = wrap W (a + b) := by
  simp [wrap]
theorem wrap_add_right (W : Nat) (a b : Int) : wrap W (a + wrap W b) = wrap W (a + b) := by
  simp [wrap]
theorem wrap_mul_right (W : Nat) (a b : Int) : wrap W (a * wrap W b) = wrap W (a * b) := by
  simp [wrap]

theorem pipe (W : Nat) (f : Nat → In) (n : Nat) : (run W f n).y0 = past f n 1 ∧ (run W f n).y1 = past f n 2 := by
  match n with
  | 0 => exact ⟨rfl, rfl⟩
  | 1 => exact ⟨rfl, rfl⟩
  | n + 2 =>
    refine ⟨?_, ?_⟩
    · show (f (n + 1)).input = _
      simp [past]
    · show (f n).input = _
      simp [past]

/-- **C308** (partial) the recurrence with the opposite sign of the error -/
theorem pid_partial (W : Nat) (f : Nat → In) (n : Nat) :
    (run W f n).u = wrap W (total (fun i => i.input - i.target) f n) := by
  induction n with
  | zero => simp [run, init, total, wrap]
  | succ n ih =>
    obtain ⟨h0, h1⟩ := pipe W f n
    show wrap W (wrap W (wrap W (wrap W ((run W f n).u + wrap W ((f n).a0 * wrap W ((f n).input - (f n).target)))
      + wrap W ((f n).a1 * (f n).input)) + wrap W ((f n).a2 * (run W f n).y0)) + wrap W ((f n).a3 * (run W f n).y1)) = _
    rw [h0, h1, ih]
    simp only [wrap_add_left, wrap_add_right, wrap_mul_right]
    congr 1
    simp only [total, term]
    simp only [Int.add_assoc]

/-- the controller of the documentation is that with negated coefficient a0 -/
theorem pid_negated (W : Nat) (f : Nat → In) (n : Nat) :
    (run W f n).u = wrap W (total (fun i => i.target - i.input) (fun k => { f k with a0 := -(f k).a0 }) n) := by
  rw [pid_partial]
  congr 1
  induction n with
  | zero => rfl
  | succ n ih =>
    simp only [total, ih, term, past]
    have : (f n).a0 * ((f n).input - (f n).target) = -(f n).a0 * ((f n).target - (f n).input) := by
      rw [Int.neg_mul, ← Int.mul_neg, Int.neg_sub]
    rw [this]

/-- **C308** (violated) input 0, target 1, a0 = 1 -/
theorem pid_fails : ¬ C308 := by
  intro h
  have := h 16 (fun _ => ⟨0, 1, 1, 0, 0, 0⟩) 1
  exact absurd this (by decide)

set_option maxRecDepth 20000 in
example : (run 16 (fun k => ⟨k, 100, 2, -1, 3, 1⟩) 4).u = -784 := by decide

end Verif.Pid

namespace Verif.Ripple

/-- number of the lower `n` bits -/
def val (f : Nat → Bool) : Nat → Nat
  | 0 => 0
  | n + 1 => val f n + (f n).toNat * 2 ^ n

theorem val_testBit (x n : Nat) : val x.testBit n = x % 2 ^ n := by
  induction n with
  | zero => simp [val, Nat.mod_one]
  | succ n ih =>
    rw [val, ih, Nat.pow_succ, Nat.mod_mul, Nat.testBit_eq_decide_div_mod_eq]
    have : x / 2 ^ n % 2 < 2 := Nat.mod_lt _ (by decide)
    have h : (decide (x / 2 ^ n % 2 = 1)).toNat = x / 2 ^ n % 2 := by
      obtain h | h : x / 2 ^ n % 2 = 0 ∨ x / 2 ^ n % 2 = 1 := by omega
      · rw [h]; rfl
      · rw [h]; rfl
    rw [h, Nat.mul_comm]

theorem fa (a b c : Bool) : (faS a b c).toNat + 2 * (faCo a b c).toNat = a.toNat + b.toNat + c.toNat := by
  cases a <;> cases b <;> cases c <;> rfl

theorem chain (ci : Bool) (a b : Nat → Bool) (n : Nat) :
    val (sum ci a b) n + (carry ci a b n).toNat * 2 ^ n = val a n + val b n + ci.toNat := by
  induction n with
  | zero => simp [val, carry]
  | succ n ih =>
    have h := congrArg (· * 2 ^ n) (fa (a n) (b n) (carry ci a b n))
    simp only [Nat.add_mul] at h
    simp only [val, carry, sum]
    rw [Nat.pow_succ]
    have e : (faCo (a n) (b n) (carry ci a b n)).toNat * (2 ^ n * 2) = 2 * (faCo (a n) (b n) (carry ci a b n)).toNat * 2 ^ n := by
      rw [Nat.mul_comm (2 ^ n), ← Nat.mul_assoc, Nat.mul_comm _ 2]
    rw [e]
    omega

theorem val_lt (f : Nat → Bool) (n : Nat) : val f n < 2 ^ n := by
  induction n with
  | zero => simp [val]
  | succ n ih =>
    rw [val, Nat.pow_succ]
    cases f n <;> simp <;> omega

/-- **C309** `RippleAdder1`, `2`, `3` of any width add: `s` is the sum modulo `2^n` and `co` is the carry. -/
theorem ripple_add (n x y : Nat) (ci : Bool) (hx : x < 2 ^ n) (hy : y < 2 ^ n) :
    val (sum ci x.testBit y.testBit) n = (x + y + ci.toNat) % 2 ^ n ∧
    (carry ci x.testBit y.testBit n).toNat = (x + y + ci.toNat) / 2 ^ n := by
  have h := chain ci x.testBit y.testBit n
  rw [val_testBit, val_testBit, Nat.mod_eq_of_lt hx, Nat.mod_eq_of_lt hy] at h
  have hv := val_lt (sum ci x.testBit y.testBit) n
  rw [← h, Nat.mul_comm]
  refine ⟨?_, ?_⟩
  · rw [Nat.add_mul_mod_self_left, Nat.mod_eq_of_lt hv]
  · rw [Nat.add_mul_div_left _ _ (Nat.two_pow_pos n), Nat.div_eq_of_lt hv, Nat.zero_add]

example : val (sum true (11).testBit (9).testBit) 4 = 5 ∧ carry true (11).testBit (9).testBit 4 = true := by decide

/-- `RippleAdder0` (marked as wrong in the source) is not an adder -/
theorem ripple0_fails : ¬ ∀ x y : Nat, x < 16 → y < 16 → val (sum0 false x.testBit) 4 = (x + y) % 16 := by
  intro h
  exact absurd (h 0 1 (by decide) (by decide)) (by decide)

end Verif.Ripple
