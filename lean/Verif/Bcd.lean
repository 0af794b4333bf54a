import Verif.Common
/-!
# Models of `BinToBcd` and `BcdToBin` (hwtLib/logic/binToBcd.py, hwtLib/logic/bcdToBin.py)

A BCD word of `D` digits is a function from the digit index (0 = least significant nibble) to the value
of the nibble.
-/
namespace Verif.Bcd

/-- Number denoted by `D` decimal digits. -/
def val (f : Nat → Nat) : Nat → Nat
  | 0 => 0
  | D + 1 => val f D + f D * 10 ^ D

/-- The word with the nibbles `f 0 .. f (D-1)`: `Concat(*reversed(digits))`. -/
def packed (f : Nat → Nat) : Nat → Nat
  | 0 => 0
  | D + 1 => packed f D + f D * 16 ^ D

/-- Specification: decimal digit `g` of `x`. -/
def digit (x g : Nat) : Nat := x / 10 ^ g % 10

theorem val_lt {f : Nat → Nat} : ∀ {D : Nat}, (∀ g, g < D → f g ≤ 9) → val f D < 10 ^ D := by
  intro D
  induction D with
  | zero => intro _; simp [val]
  | succ D ih =>
    intro h
    have h1 := ih fun g hg => h g (by omega)
    have h2 := Nat.mul_le_mul_right (10 ^ D) (h D (by omega))
    simp only [val]
    rw [Nat.pow_succ]
    omega

theorem digit_val {f : Nat → Nat} : ∀ {D : Nat}, (∀ g, g < D → f g ≤ 9) → ∀ g, g < D →
    digit (val f D) g = f g := by
  intro D
  induction D with
  | zero => intro _ g hg; omega
  | succ D ih =>
    intro h g hg
    have hlow : ∀ g, g < D → f g ≤ 9 := fun g hg => h g (by omega)
    unfold digit
    simp only [val]
    by_cases e : g = D
    · subst e
      rw [Nat.add_mul_div_right _ _ (Nat.pow_pos (by decide)), Nat.div_eq_of_lt (val_lt hlow),
        Nat.zero_add, Nat.mod_eq_of_lt (by have := h g hg; omega)]
    · have hlt : g < D := by omega
      obtain ⟨m, rfl⟩ : ∃ m, D = g + (m + 1) := ⟨D - g - 1, by omega⟩
      have e1 : f (g + (m + 1)) * 10 ^ (g + (m + 1))
          = (f (g + (m + 1)) * 10 ^ m * 10) * 10 ^ g := by
        rw [Nat.pow_add, Nat.pow_succ, Nat.mul_comm (10 ^ g), Nat.mul_assoc, Nat.mul_assoc,
          Nat.mul_assoc, Nat.mul_comm 10]
      rw [e1, Nat.add_mul_div_right _ _ (Nat.pow_pos (by decide)), Nat.add_mul_mod_self_right]
      exact ih hlow g hlt

theorem val_congr {f g : Nat → Nat} : ∀ {D : Nat}, (∀ k, k < D → f k = g k) → val f D = val g D := by
  intro D
  induction D with
  | zero => intro _; rfl
  | succ D ih => intro h; simp only [val]; rw [ih fun k hk => h k (by omega), h D (by omega)]

theorem packed_congr {f g : Nat → Nat} : ∀ {D : Nat}, (∀ k, k < D → f k = g k) →
    packed f D = packed g D := by
  intro D
  induction D with
  | zero => intro _; rfl
  | succ D ih => intro h; simp only [packed]; rw [ih fun k hk => h k (by omega), h D (by omega)]

theorem val_zero (D : Nat) : val (fun _ => 0) D = 0 := by
  induction D with
  | zero => rfl
  | succ D ih => simp [val, ih]

/-! ## BinToBcd -/

inductive BSt where
  | idle | busy | fin
deriving DecidableEq

structure B where
  st : BSt
  bin : Nat
  cnt : Nat
  bcd : Nat → Nat

structure BIn where
  vld : Bool
  data : Nat
  rd : Bool

structure BOut where
  rd : Bool
  vld : Bool
  data : Nat

/-- logic/binToBcd.py:93 -/
def bcdp (d : Nat) : Nat := if d ≥ 5 then (d + 3) % 16 else d

/-- logic/binToBcd.py:94-98: top bit of the previous nibble -/
def carry (W : Nat) (s : B) : Nat → Nat
  | 0 => s.bin / 2 ^ (W - 1) % 2
  | g + 1 => bcdp (s.bcd g) / 8

/-- logic/binToBcd.py:100-101 `bcdp[g] << 1 | prev >> 3` on 4 bits -/
def shifted (W : Nat) (s : B) (g : Nat) : Nat := (bcdp (s.bcd g) * 2) % 16 ||| carry W s g

/-- logic/binToBcd.py:56-58, :109; `W = INPUT_WIDTH`, `D = DECIMAL_DIGITS` -/
def bout (D : Nat) (s : B) : BOut where
  rd := s.st == .idle
  vld := s.st == .fin
  data := packed s.bcd D

/-- logic/binToBcd.py:60-107 -/
def bnext (W : Nat) (s : B) (i : BIn) : B :=
  match s.st with
  | .idle =>
    { st := if i.vld then .busy else .idle
      bin := if i.vld then i.data else s.bin
      cnt := 0
      bcd := fun _ => 0 }
  | .busy =>
    { st := if s.cnt == W - 1 then .fin else .busy
      bin := s.bin * 2 % 2 ^ W
      cnt := (s.cnt + 1) % 2 ^ log2ceil W
      bcd := shifted W s }
  | .fin => { s with st := if i.rd then .idle else .fin, cnt := 0 }

def bmachine (W D : Nat) : Machine B BIn BOut := ⟨fun s _ => bout D s, bnext W⟩

/-- Reset; `bin_r` has no reset value. -/
def binit (bin0 : Nat) : B := ⟨.idle, bin0, 0, fun _ => 0⟩

theorem carry_le (W : Nat) (s : B) (g : Nat) (h : ∀ k, k < g → s.bcd k ≤ 9) : carry W s g ≤ 1 := by
  cases g with
  | zero => simp only [carry]; omega
  | succ g =>
    have := h g (by omega)
    simp only [carry, bcdp]
    split <;> omega

/-- one digit step: doubling with carry in and out -/
theorem shifted_eq (W : Nat) (s : B) (g : Nat) (h : ∀ k, k ≤ g → s.bcd k ≤ 9) :
    shifted W s g + 10 * carry W s (g + 1) = 2 * s.bcd g + carry W s g ∧ shifted W s g ≤ 9 := by
  have hc := carry_le W s g fun k hk => h k (by omega)
  have hd := h g (Nat.le_refl _)
  have hor : ∀ y, (y * 2) % 16 ||| carry W s g = (y * 2) % 16 + carry W s g := by
    intro y
    have e : (y * 2) % 16 = 2 ^ 1 * (y % 8) := by omega
    rw [e]
    exact (Nat.two_pow_add_eq_or_of_lt (by omega) _).symm
  have hs : carry W s (g + 1) = bcdp (s.bcd g) / 8 := rfl
  unfold shifted
  rw [hor, hs]
  generalize carry W s g = c at hc ⊢
  unfold bcdp
  split <;> constructor <;> omega

theorem shifted_val (W : Nat) (s : B) : ∀ D, (∀ k, k < D → s.bcd k ≤ 9) →
    val (shifted W s) D + carry W s D * 10 ^ D = 2 * val s.bcd D + carry W s 0 := by
  intro D
  induction D with
  | zero => intro _; simp [val]
  | succ D ih =>
    intro h
    have h1 := ih fun k hk => h k (by omega)
    have h2 := (shifted_eq W s D fun k hk => h k (by omega)).1
    have h3 := congrArg (· * 10 ^ D) h2
    simp only [Nat.add_mul] at h3
    simp only [val]
    rw [Nat.pow_succ]
    have e1 : carry W s (D + 1) * (10 ^ D * 10) = 10 * carry W s (D + 1) * 10 ^ D := by
      rw [Nat.mul_comm (10 ^ D) 10, ← Nat.mul_assoc, Nat.mul_comm (carry W s (D + 1)) 10]
    rw [e1]
    have e2 : 2 * (val s.bcd D + s.bcd D * 10 ^ D) = 2 * val s.bcd D + 2 * s.bcd D * 10 ^ D := by
      rw [Nat.mul_add, Nat.mul_assoc]
    omega

/-- The number in work: accepted and not delivered yet. -/
def bpending (W D : Nat) (s : B) : List Nat :=
  match s.st with
  | .idle => []
  | .busy => [val s.bcd D * 2 ^ (W - s.cnt) + s.bin / 2 ^ s.cnt]
  | .fin => [val s.bcd D]

structure BInv (W D : Nat) (s : B) : Prop where
  dig : ∀ g, g < D → s.bcd g ≤ 9
  busy : s.st = .busy → s.cnt < W ∧ ∃ r, s.bin = 2 ^ s.cnt * r ∧ r < 2 ^ (W - s.cnt) ∧
    val s.bcd D * 2 ^ (W - s.cnt) + r < 2 ^ W
  fin : s.st = .fin → val s.bcd D < 2 ^ W

theorem binit_inv (W D bin0 : Nat) : BInv W D (binit bin0) where
  dig := by intro g _; exact Nat.zero_le _
  busy := by intro h; cases h
  fin := by intro h; cases h

/-- one busy cycle -/
theorem busy_step {W D : Nat} (hD : 2 ^ W ≤ 10 ^ D) {s : B} (h : BInv W D s) (hs : s.st = .busy) (i : BIn) :
    BInv W D (bnext W s i) ∧ bpending W D (bnext W s i) = bpending W D s ∧
    ((bnext W s i).st = .fin ↔ s.cnt = W - 1) ∧ ((bnext W s i).st = .fin ∨ (bnext W s i).st = .busy ∧
      (bnext W s i).cnt = s.cnt + 1) := by
  obtain ⟨hc, r, hbin, hr, hx⟩ := h.busy hs
  obtain ⟨n, hn⟩ : ∃ n, W = s.cnt + (n + 1) := ⟨W - s.cnt - 1, by omega⟩
  have ew : W - s.cnt = n + 1 := by omega
  have ew1 : W - 1 = s.cnt + n := by omega
  have hCpos := Nat.two_pow_pos s.cnt
  have hPpos := Nat.two_pow_pos n
  rw [ew, Nat.pow_succ] at hr hx
  -- carry in
  have hmsb : carry W s 0 = r / 2 ^ n := by
    simp only [carry]
    rw [hbin, ew1, Nat.pow_add, Nat.mul_div_mul_left _ _ hCpos]
    have : r / 2 ^ n < 2 := by rw [Nat.div_lt_iff_lt_mul hPpos]; omega
    exact Nat.mod_eq_of_lt this
  have hbin' : s.bin * 2 % 2 ^ W = 2 ^ (s.cnt + 1) * (r % 2 ^ n) := by
    rw [hbin, hn, show s.cnt + (n + 1) = (s.cnt + 1) + n by omega, Nat.pow_add 2 (s.cnt + 1),
      Nat.mul_assoc, Nat.mul_comm r 2, ← Nat.mul_assoc, ← Nat.pow_succ, Nat.mul_mod_mul_left]
  have hdm := Nat.div_add_mod r (2 ^ n)
  have hval := shifted_val W s D h.dig
  rw [hmsb] at hval
  -- the number is unchanged
  have hx2 : (2 * val s.bcd D + r / 2 ^ n) * 2 ^ n + r % 2 ^ n = val s.bcd D * (2 ^ n * 2) + r := by
    rw [Nat.add_mul, Nat.mul_comm (r / 2 ^ n), Nat.mul_assoc, Nat.mul_comm 2, Nat.mul_assoc]
    omega
  have hsmall : 2 * val s.bcd D + r / 2 ^ n < 10 ^ D := by
    have h1 : 2 * val s.bcd D + r / 2 ^ n ≤ (2 * val s.bcd D + r / 2 ^ n) * 2 ^ n :=
      Nat.le_mul_of_pos_right _ hPpos
    omega
  have hc0 : carry W s D = 0 := by
    rcases Nat.eq_zero_or_pos (carry W s D) with h0 | h0
    · exact h0
    · have := Nat.mul_le_mul_right (10 ^ D) h0
      omega
  rw [hc0, Nat.zero_mul, Nat.add_zero] at hval
  have hdig : ∀ g, g < D → shifted W s g ≤ 9 :=
    fun g hg => (shifted_eq W s g fun k hk => h.dig k (by omega)).2
  have hlog := le_two_pow_log2ceil W
  have enext : bnext W s i = { st := if s.cnt == W - 1 then .fin else .busy
                               bin := s.bin * 2 % 2 ^ W
                               cnt := (s.cnt + 1) % 2 ^ log2ceil W
                               bcd := shifted W s } := by
    unfold bnext; rw [hs]
  rw [enext]
  have epend : bpending W D s = [val s.bcd D * (2 ^ n * 2) + r] := by
    unfold bpending
    rw [hs]
    simp only
    rw [hbin, Nat.mul_div_cancel_left _ hCpos, ew, Nat.pow_succ]
  rw [epend]
  by_cases hlast : s.cnt = W - 1
  · have hn0 : n = 0 := by omega
    subst hn0
    have hb : (s.cnt == W - 1) = true := by simpa using hlast
    rw [hb]
    simp only [Nat.pow_zero, Nat.mul_one, Nat.mod_one, Nat.add_zero] at hx2
    refine ⟨⟨hdig, ?_, ?_⟩, ?_, ?_, Or.inl rfl⟩
    · intro h; cases h
    · intro _
      show val (shifted W s) D < 2 ^ W
      rw [hval]
      simp only [Nat.pow_zero] at hx2 ⊢
      omega
    · show [val (shifted W s) D] = _
      rw [hval]
      simp only [Nat.pow_zero] at hx2 ⊢
      rw [hx2]
    · exact ⟨fun _ => hlast, fun _ => rfl⟩
  · have hb : (s.cnt == W - 1) = false := by simpa using hlast
    rw [hb]
    have ecnt : (s.cnt + 1) % 2 ^ log2ceil W = s.cnt + 1 := Nat.mod_eq_of_lt (by omega)
    have en : W - (s.cnt + 1) = n := by omega
    refine ⟨⟨hdig, ?_, ?_⟩, ?_, ?_, Or.inr ⟨rfl, ecnt⟩⟩
    · intro _
      show (s.cnt + 1) % 2 ^ log2ceil W < W ∧ _
      rw [ecnt]
      refine ⟨by omega, r % 2 ^ n, hbin', ?_, ?_⟩
      · rw [en]; exact Nat.mod_lt _ hPpos
      · rw [en]
        show val (shifted W s) D * 2 ^ n + _ < _
        rw [hval, hx2]; exact hx
    · intro h; cases h
    · show [val (shifted W s) D * 2 ^ (W - (s.cnt + 1) % 2 ^ log2ceil W)
        + s.bin * 2 % 2 ^ W / 2 ^ ((s.cnt + 1) % 2 ^ log2ceil W)] = _
      rw [ecnt, hbin', Nat.mul_div_cancel_left _ (Nat.two_pow_pos _), en, hval, hx2]
    · constructor
      · intro h; cases h
      · intro h; exact absurd h hlast

/-! ## BcdToBin -/

inductive DSt where
  | idle | load | conv | done
deriving DecidableEq

/-- `N = BCD_DIGITS`; `sr` are nibbles of `bcd_sr`, `bin` is `binary_sr`. -/
structure D where
  st : DSt
  sr : Nat → Nat
  bin : Nat
  cnt : Nat

structure DIn where
  vld : Bool
  data : Nat → Nat
  rd : Bool

structure DOut where
  rd : Bool
  vld : Bool
  data : Nat

/-- logic/bcdToBin.py:38, :52 width of the result -/
def binWidth (N : Nat) : Nat := log2ceil (10 ^ N - 1)

/-- logic/bcdToBin.py:77-98 `st.next` -/
def stNext (s : D) (i : DIn) : DSt :=
  match s.st with
  | .idle => if i.vld then .load else .idle
  | .load => .conv
  | .conv => if s.cnt == 0 then .done else .conv
  | .done => if i.vld && i.rd then .load else if i.rd then .idle else .done

/-- logic/bcdToBin.py:50, :60-64: nibble `g` of `bcd_sr >> 1`, dabbled (`N` digits, zero above). -/
def dabble (N : Nat) (sr : Nat → Nat) (g : Nat) : Nat :=
  let d := sr g / 2 + (if g + 1 < N then sr (g + 1) else 0) % 2 * 8
  if d < 7 then d else d - 3

/-- logic/bcdToBin.py:44-75; the counter has `log2ceil(MAX_COUNT)` bits. -/
def dnext (N : Nat) (s : D) (i : DIn) : D where
  st := stNext s i
  sr := if stNext s i = .load then i.data else if stNext s i = .conv then dabble N s.sr else s.sr
  bin := if stNext s i = .load then 0
    else if stNext s i = .conv then (s.sr 0 % 2) * 2 ^ (binWidth N - 1) + s.bin / 2 else s.bin
  cnt :=
    let m := 2 ^ log2ceil (binWidth N)
    if stNext s i = .conv then (s.cnt + m - 1) % m else binWidth N % m

/-- logic/bcdToBin.py:75, :99-100 -/
def dout (s : D) (i : DIn) : DOut where
  rd := s.st == .idle || (s.st == .done && i.rd)
  vld := s.st == .done
  data := s.bin

def dmachine (N : Nat) : Machine D DIn DOut := ⟨dout, dnext N⟩

/-- Reset values, logic/bcdToBin.py:43-53. -/
def dinit (N : Nat) : D := ⟨.idle, fun _ => 0, 0, binWidth N % 2 ^ log2ceil (binWidth N)⟩

theorem dabble_eq (N : Nat) (sr : Nat → Nat) (g : Nat) (h : ∀ k, k < N → sr k ≤ 9) (hg : g < N) :
    dabble N sr g = sr g / 2 + 5 * ((if g + 1 < N then sr (g + 1) else 0) % 2) ∧ dabble N sr g ≤ 9 := by
  have h1 := h g hg
  unfold dabble
  simp only
  generalize (if g + 1 < N then sr (g + 1) else 0) = b
  split <;> constructor <;> omega

/-- the word shifted right by one is half of the number; `t` digits seen from below -/
theorem dabble_val (N : Nat) (sr : Nat → Nat) (h : ∀ k, k < N → sr k ≤ 9) : ∀ t, t ≤ N →
    2 * val (dabble N sr) t + sr 0 % 2 =
      val sr t + ((if t < N then sr t else 0) % 2) * 10 ^ t ∨ t = 0 := by
  intro t
  induction t with
  | zero => intro _; right; rfl
  | succ t ih =>
    intro ht
    left
    have hd := (dabble_eq N sr t h (by omega)).1
    have e : 2 * dabble N sr t + sr t % 2 = sr t + 10 * ((if t + 1 < N then sr (t + 1) else 0) % 2) := by
      rw [hd]; omega
    have e' := congrArg (· * 10 ^ t) e
    simp only [Nat.add_mul] at e'
    simp only [val]
    rw [Nat.pow_succ]
    have r1 : (if t + 1 < N then sr (t + 1) else 0) % 2 * (10 ^ t * 10)
        = 10 * ((if t + 1 < N then sr (t + 1) else 0) % 2) * 10 ^ t := by
      rw [Nat.mul_comm (10 ^ t) 10, ← Nat.mul_assoc, Nat.mul_comm _ 10]
    have r2 : 2 * (val (dabble N sr) t + dabble N sr t * 10 ^ t)
        = 2 * val (dabble N sr) t + 2 * dabble N sr t * 10 ^ t := by
      rw [Nat.mul_add, Nat.mul_assoc]
    rw [r1, r2]
    rcases ih (by omega) with h1 | h1
    · rw [if_pos (by omega)] at h1
      omega
    · subst h1
      simp only [val, Nat.pow_zero, Nat.mul_one] at e' ⊢
      omega

theorem dabble_half (N : Nat) (hN : 0 < N) (sr : Nat → Nat) (h : ∀ k, k < N → sr k ≤ 9) :
    2 * val (dabble N sr) N + sr 0 % 2 = val sr N := by
  rcases dabble_val N sr h N (Nat.le_refl _) with h1 | h1
  · simpa using h1
  · omega

theorem pow_le_binWidth (N : Nat) (hN : 0 < N) : 10 ^ N ≤ 2 ^ binWidth N := by
  unfold binWidth
  have h1 := le_two_pow_log2ceil (10 ^ N - 1)
  have h2 := log2ceil_pos (10 ^ N - 1)
  have h3 : 10 ^ N % 2 = 0 := by
    obtain ⟨m, rfl⟩ : ∃ m, N = m + 1 := ⟨N - 1, by omega⟩
    rw [Nat.pow_succ]; omega
  have h4 : 2 ^ log2ceil (10 ^ N - 1) % 2 = 0 := by
    obtain ⟨m, hm⟩ : ∃ m, log2ceil (10 ^ N - 1) = m + 1 := ⟨log2ceil (10 ^ N - 1) - 1, by omega⟩
    rw [hm, Nat.pow_succ]; omega
  omega

def dpending (N : Nat) (s : D) : List Nat :=
  match s.st with
  | .idle => []
  | .load => [val s.sr N]
  | .conv => [val s.sr N * 2 ^ (binWidth N - s.cnt) + s.bin / 2 ^ s.cnt]
  | .done => [s.bin]

structure DInv (N : Nat) (s : D) : Prop where
  load : s.st = .load → (∀ g, g < N → s.sr g ≤ 9) ∧ s.bin = 0 ∧
    s.cnt = binWidth N % 2 ^ log2ceil (binWidth N)
  conv : s.st = .conv → (∀ g, g < N → s.sr g ≤ 9) ∧ s.cnt < binWidth N ∧
    ∃ r, s.bin = r * 2 ^ s.cnt ∧ r < 2 ^ (binWidth N - s.cnt) ∧
      val s.sr N * 2 ^ (binWidth N - s.cnt) + r < 10 ^ N

theorem dinit_inv (N : Nat) : DInv N (dinit N) where
  load := by intro h; cases h
  conv := by intro h; cases h

/-- one shift: `c` = value of the counter after the shift, `r` = bits collected so far -/
theorem shift_step {N : Nat} (hN : 0 < N) (sr : Nat → Nat) (h : ∀ k, k < N → sr k ≤ 9) {M c bin r : Nat}
    (hM : c < M) (hbin : bin = r * 2 ^ (c + 1)) (hr : r < 2 ^ (M - (c + 1))) :
    ∃ r', (sr 0 % 2) * 2 ^ (M - 1) + bin / 2 = r' * 2 ^ c ∧ r' < 2 ^ (M - c) ∧
      val (dabble N sr) N * 2 ^ (M - c) + r' = val sr N * 2 ^ (M - (c + 1)) + r := by
  have hh := dabble_half N hN sr h
  obtain ⟨n, hn⟩ : ∃ n, M = c + (n + 1) := ⟨M - c - 1, by omega⟩
  have e1 : M - (c + 1) = n := by omega
  have e2 : M - c = n + 1 := by omega
  have e3 : M - 1 = n + c := by omega
  rw [e1] at hr ⊢
  rw [e2, e3]
  have hb : sr 0 % 2 < 2 := Nat.mod_lt _ (by decide)
  generalize sr 0 % 2 = b at hh hb ⊢
  refine ⟨b * 2 ^ n + r, ?_, ?_, ?_⟩
  · rw [hbin, Nat.pow_succ, ← Nat.mul_assoc, Nat.mul_div_cancel _ (by decide), Nat.pow_add,
      ← Nat.mul_assoc, Nat.add_mul]
  · rw [Nat.pow_succ]
    have : b * 2 ^ n ≤ 1 * 2 ^ n := Nat.mul_le_mul_right _ (by omega)
    omega
  · rw [← hh, Nat.pow_succ, Nat.add_mul, Nat.mul_comm (2 ^ n) 2, ← Nat.mul_assoc,
      Nat.mul_comm 2 (val _ _)]
    omega

end Verif.Bcd
