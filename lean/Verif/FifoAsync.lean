import Verif.Gray
import Verif.FifoCopy
/-!
# Model of `FifoAsync` (hwtLib/mem/fifoAsync.py)

Two clocks: an event carries a rising edge of the write clock, of the read clock, or of both at once.
If both clocks tick at once, the first register of a synchroniser samples a signal which is changing
at the same moment; each sampled bit may independently be the old or the new one (mask chosen by the
environment). This covers skew between the bits of the crossing signal.
-/
namespace Verif.FifoAsync

open Gray

universe u
variable {α : Type u}

/-- mem/fifoAsync.py:65-66 `w_bin`, `w_gray`, `r_bin`, `r_gray`; :72-75 two synchroniser registers per
direction (`rs1`, `rs2` in the write domain, `ws1`, `ws2` in the read domain; clocking/cdc.py:77-92);
:96 `w_full`, :115 `r_empty`, :108 memory, :124 `r_reg`. -/
structure St (α : Type u) where
  wbin : Nat
  wgray : Nat
  rs1 : Nat
  rs2 : Nat
  full : Bool
  rbin : Nat
  rgray : Nat
  ws1 : Nat
  ws2 : Nat
  empty : Bool
  mem : Nat → α
  rreg : α

/-- An event: which clocks have a rising edge, port values, and the masks of bits which the
synchronisers already sample new when both clocks tick at once (`mr` for the read pointer sampled by
the write clock, `mw` for the write pointer sampled by the read clock). -/
structure In (α : Type u) where
  wclk : Bool
  rclk : Bool
  wen : Bool
  data : α
  ren : Bool
  mr : Nat
  mw : Nat

structure Out (α : Type u) where
  wwait : Bool
  rwait : Bool
  data : α

/-- Value sampled by the first synchroniser register: `old`, with the bits of `m` taken from `new`. -/
def sample (old new m : Nat) : Nat := old ^^^ ((old ^^^ new) &&& m)

/-- mem/fifoAsync.py:99-100 `Concat(~g[AW+1:AW-1], g[AW-1:])` of an `AW+1` bit vector. -/
def fullPat (AW g : Nat) : Nat := (3 - g / 2 ^ (AW - 1)) * 2 ^ (AW - 1) + g % 2 ^ (AW - 1)

/-- mem/fifoAsync.py:102 -/
def wEn (s : St α) (i : In α) : Bool := i.wen && !s.full
/-- mem/fifoAsync.py:118 -/
def rEn (s : St α) (i : In α) : Bool := i.ren && !s.empty

/-- `w_bin.next` (mem/fifoAsync.py:103-105), a counter of `AW+1` bits. -/
def wbinNext (AW : Nat) (s : St α) (i : In α) : Nat :=
  if wEn s i then (s.wbin + 1) % 2 ^ (AW + 1) else s.wbin
/-- `r_bin.next` (mem/fifoAsync.py:119-121) -/
def rbinNext (AW : Nat) (s : St α) (i : In α) : Nat :=
  if rEn s i then (s.rbin + 1) % 2 ^ (AW + 1) else s.rbin

/-- One event; registers of a domain change only on an edge of its clock.
mem/fifoAsync.py:74 (`reg_gray(binToGray(reg_bin.next))`), :99, :109-113, :116, :127-129.
The memory has `2^AW` cells, address `w_bin[AW:]`. -/
def next (AW : Nat) (s : St α) (i : In α) : St α where
  wbin := if i.wclk then wbinNext AW s i else s.wbin
  wgray := if i.wclk then binToGray (wbinNext AW s i) else s.wgray
  rs1 := if i.wclk then
      (if i.rclk then sample s.rgray (binToGray (rbinNext AW s i)) i.mr else s.rgray) else s.rs1
  rs2 := if i.wclk then s.rs1 else s.rs2
  full := if i.wclk then binToGray (wbinNext AW s i) == fullPat AW s.rs2 else s.full
  rbin := if i.rclk then rbinNext AW s i else s.rbin
  rgray := if i.rclk then binToGray (rbinNext AW s i) else s.rgray
  ws1 := if i.rclk then
      (if i.wclk then sample s.wgray (binToGray (wbinNext AW s i)) i.mw else s.wgray) else s.ws1
  ws2 := if i.rclk then s.ws1 else s.ws2
  empty := if i.rclk then binToGray (rbinNext AW s i) == s.ws2 else s.empty
  mem := if i.wclk && wEn s i then upd s.mem (s.wbin % 2 ^ AW) i.data else s.mem
  rreg := if i.rclk && rEn s i then s.mem (s.rbin % 2 ^ AW) else s.rreg

/-- mem/fifoAsync.py:101, :117, :130 -/
def out (s : St α) : Out α := ⟨s.full, s.empty, s.rreg⟩

def machine (AW : Nat) : Machine (St α) (In α) (Out α) where
  out s _ := out s
  next := next AW

/-- Both domains after reset (mem/fifoAsync.py:65-71, :96, :115). -/
def init (mem0 : Nat → α) (d0 : α) : St α :=
  ⟨0, 0, 0, 0, false, 0, 0, 0, 0, true, mem0, d0⟩

/-! ## Observables -/

/-- Words accepted: on an edge of the write clock with `en` and without `wait`. -/
def accepted (tr : List (In α × Out α)) : List α :=
  tr.flatMap fun e => given (e.1.wclk && e.1.wen && !e.2.wwait) e.1.data

/-- A word is requested: edge of the read clock with `en` and without `wait`. -/
def pops (e : In α × Out α) : Bool := e.1.rclk && e.1.ren && !e.2.rwait

/-- Words obtained: `dataOut.data` visible after an edge of the read clock with a request. -/
def delivered : List (In α × Out α) → List α
  | [] => []
  | [_] => []
  | e :: e' :: t => given (pops e) e'.2.data ++ delivered (e' :: t)

/-- Number of requests. -/
def popCount (tr : List (In α × Out α)) : Nat := tr.countP pops

/-! ## Bit level lemmas -/

theorem testBit_of_lt {x n k : Nat} (h : x < 2 ^ n) (hk : n ≤ k) : x.testBit k = false :=
  Nat.testBit_lt_two_pow (Nat.lt_of_lt_of_le h (Nat.pow_le_pow_right (by omega) hk))

theorem fullPat_eq (k x : Nat) (hx : x < 2 ^ (k + 2)) : fullPat (k + 1) x = x ^^^ (3 * 2 ^ k) := by
  unfold fullPat
  rw [Nat.add_sub_cancel]
  have hq : x / 2 ^ k < 4 := by
    rw [Nat.div_lt_iff_lt_mul (Nat.two_pow_pos k)]
    rw [Nat.pow_add] at hx; omega
  have hd := Nat.div_add_mod x (2 ^ k)
  have hm := Nat.mod_lt x (Nat.two_pow_pos k)
  -- compare quotient and remainder
  have e1 : (x ^^^ 3 * 2 ^ k) / 2 ^ k = (x / 2 ^ k) ^^^ 3 := by
    rw [Nat.xor_div_two_pow, Nat.mul_div_cancel _ (Nat.two_pow_pos k)]
  have e2 : (x ^^^ 3 * 2 ^ k) % 2 ^ k = x % 2 ^ k := by
    rw [Nat.xor_mod_two_pow, Nat.mul_mod_left, Nat.xor_zero]
  have e3 : ∀ q, q < 4 → q ^^^ 3 = 3 - q := by decide
  rw [← Nat.div_add_mod (x ^^^ 3 * 2 ^ k) (2 ^ k), e1, e2, e3 _ hq, Nat.mul_comm]

theorem xor_top (k x : Nat) (hx : x < 2 ^ (k + 2)) :
    x ^^^ 2 ^ (k + 1) = (x + 2 ^ (k + 1)) % 2 ^ (k + 2) := by
  have hp : 2 ^ (k + 2) = 2 * 2 ^ (k + 1) := by rw [Nat.pow_succ 2 (k + 1)]; omega
  rw [hp] at hx
  have e1 : (x ^^^ 2 ^ (k + 1)) / 2 ^ (k + 1) = (x / 2 ^ (k + 1)) ^^^ 1 := by
    rw [Nat.xor_div_two_pow, Nat.div_self (Nat.two_pow_pos _)]
  have e2 : (x ^^^ 2 ^ (k + 1)) % 2 ^ (k + 1) = x % 2 ^ (k + 1) := by
    rw [Nat.xor_mod_two_pow, Nat.mod_self, Nat.xor_zero]
  rw [← Nat.div_add_mod (x ^^^ 2 ^ (k + 1)) (2 ^ (k + 1)), e1, e2, hp]
  generalize hP : 2 ^ (k + 1) = P at *
  have hPos : 0 < P := by rw [← hP]; exact Nat.two_pow_pos _
  rcases Nat.lt_or_ge x P with h | h
  · rw [Nat.div_eq_of_lt h, Nat.mod_eq_of_lt h, Nat.mod_eq_of_lt (by omega)]
    show P * 1 + x = x + P
    omega
  · obtain ⟨y, rfl⟩ : ∃ y, x = y + P := ⟨x - P, by omega⟩
    rw [Nat.add_div_right _ hPos, Nat.add_mod_right, Nat.div_eq_of_lt (show y < P by omega),
      show y + P + P = y + 2 * P by omega, Nat.add_mod_right, Nat.mod_eq_of_lt (show y < P by omega),
      Nat.mod_eq_of_lt (show y < 2 * P by omega)]
    show P * 0 + y = y
    omega

/-- The full comparison compares binary pointers. -/
theorem full_iff (AW : Nat) (hA : 0 < AW) (a r : Nat) (ha : a < 2 ^ (AW + 1)) (hr : r < 2 ^ (AW + 1)) :
    (binToGray a == fullPat AW (binToGray r)) = true ↔ a = (r + 2 ^ AW) % 2 ^ (AW + 1) := by
  obtain ⟨k, rfl⟩ : ∃ k, AW = k + 1 := ⟨AW - 1, by omega⟩
  rw [beq_iff_eq, fullPat_eq k _ (binToGray_lt hr), ← xor_top k r hr]
  have e : binToGray (2 ^ (k + 1)) = 3 * 2 ^ k := by
    unfold binToGray
    rw [Nat.shiftRight_eq_div_pow, Nat.pow_succ, Nat.pow_one, Nat.mul_div_cancel _ (by omega)]
    have e1 : ((2 ^ k) ^^^ (2 ^ k * 2)) / 2 ^ k = 3 := by
      rw [Nat.xor_div_two_pow, Nat.div_self (Nat.two_pow_pos k),
        Nat.mul_div_cancel_left _ (Nat.two_pow_pos k)]
      rfl
    have e2 : ((2 ^ k) ^^^ (2 ^ k * 2)) % 2 ^ k = 0 := by
      rw [Nat.xor_mod_two_pow, Nat.mod_self, Nat.mul_mod_right]; rfl
    rw [← Nat.div_add_mod ((2 ^ k) ^^^ (2 ^ k * 2)) (2 ^ k), e1, e2]; omega
  rw [← e, ← binToGray_xor]
  exact ⟨binToGray_inj, fun h => by rw [h]⟩

/-- A sampled gray code of a counter which moves by at most one is the old or the new code. -/
theorem sample_gray (AW c m : Nat) (b : Bool) :
    ∃ b', (b' = true → b = true) ∧
      sample (binToGray (c % 2 ^ (AW + 1))) (binToGray ((c + b.toNat) % 2 ^ (AW + 1))) m
      = binToGray ((c + b'.toNat) % 2 ^ (AW + 1)) := by
  unfold sample
  cases b with
  | false => exact ⟨false, by simp, by simp⟩
  | true =>
    obtain ⟨k, _, hk⟩ := binToGray_succ (w := AW + 1) (n := c % 2 ^ (AW + 1)) (by omega)
      (Nat.mod_lt _ (Nat.two_pow_pos _))
    rw [Nat.mod_add_mod] at hk
    simp only [Bool.toNat_true]
    rw [hk, ← Nat.xor_assoc, Nat.xor_self, Nat.zero_xor]
    cases hb : m.testBit k
    · refine ⟨false, by simp, ?_⟩
      have : 2 ^ k &&& m = 0 := by
        apply Nat.eq_of_testBit_eq
        intro j
        rw [Nat.testBit_and, Nat.testBit_two_pow, Nat.zero_testBit]
        by_cases h : k = j
        · subst h; simp [hb]
        · simp [h]
      rw [this]; simp
    · refine ⟨true, by simp, ?_⟩
      have : 2 ^ k &&& m = 2 ^ k := by
        apply Nat.eq_of_testBit_eq
        intro j
        rw [Nat.testBit_and, Nat.testBit_two_pow]
        by_cases h : k = j
        · subst h; simp [hb]
        · simp [h]
      rw [this, Bool.toNat_true, hk]

/-! ## Invariant -/

/-- Ghost counters: number of words written `W.length`, read `r`; `r1,r2,r3` are earlier values of `r`
known to the writer (first, second register, value behind the full flag), `w1,w2,w3` earlier values of
the number of written words known to the reader. -/
structure Gh (α : Type u) where
  W : List α
  r : Nat
  r1 : Nat
  r2 : Nat
  r3 : Nat
  w1 : Nat
  w2 : Nat
  w3 : Nat

/-- Gray code of a counter. -/
def gc (AW n : Nat) : Nat := binToGray (n % 2 ^ (AW + 1))

structure Inv (AW : Nat) (s : St α) (g : Gh α) : Prop where
  wbin_eq : s.wbin = g.W.length % 2 ^ (AW + 1)
  wgray_eq : s.wgray = gc AW g.W.length
  rbin_eq : s.rbin = g.r % 2 ^ (AW + 1)
  rgray_eq : s.rgray = gc AW g.r
  rs1_eq : s.rs1 = gc AW g.r1
  rs2_eq : s.rs2 = gc AW g.r2
  ws1_eq : s.ws1 = gc AW g.w1
  ws2_eq : s.ws2 = gc AW g.w2
  full_eq : s.full = decide (g.W.length = g.r3 + 2 ^ AW)
  empty_eq : s.empty = decide (g.r = g.w3)
  h1 : g.r3 ≤ g.r2
  h2 : g.r2 ≤ g.r1
  h3 : g.r1 ≤ g.r
  h4 : g.r ≤ g.w3
  h5 : g.w3 ≤ g.w2
  h6 : g.w2 ≤ g.w1
  h7 : g.w1 ≤ g.W.length
  h8 : g.W.length ≤ g.r3 + 2 ^ AW
  mem_eq : ∀ k, g.r ≤ k → k < g.W.length → g.W[k]? = some (s.mem (k % 2 ^ AW))

theorem inc_mod (AW n : Nat) (b : Bool) :
    (if b then (n % 2 ^ (AW + 1) + 1) % 2 ^ (AW + 1) else n % 2 ^ (AW + 1))
      = (n + b.toNat) % 2 ^ (AW + 1) := by
  cases b
  · simp
  · simp

theorem init_inv (AW : Nat) (mem0 : Nat → α) (d0 : α) :
    Inv AW (init mem0 d0) ⟨[], 0, 0, 0, 0, 0, 0, 0⟩ := by
  have := Nat.two_pow_pos AW
  constructor <;> simp [init, gc, binToGray]
  omega

theorem step_inv {AW : Nat} (hA : 0 < AW) {s : St α} {g : Gh α} (h : Inv AW s g) (i : In α) :
    ∃ g', Inv AW (next AW s i) g' ∧
      g'.W = g.W ++ given (i.wclk && wEn s i) i.data ∧
      g'.r = g.r + (i.rclk && rEn s i).toNat ∧
      (if i.wclk then g'.r3 = g.r2 ∧ g'.r2 = g.r1 ∧ g.r ≤ g'.r1
        else g'.r3 = g.r3 ∧ g'.r2 = g.r2 ∧ g'.r1 = g.r1) ∧
      (if i.rclk then g'.w3 = g.w2 ∧ g'.w2 = g.w1 ∧ g.W.length ≤ g'.w1
        else g'.w3 = g.w3 ∧ g'.w2 = g.w2 ∧ g'.w1 = g.w1) ∧
      ((i.rclk && rEn s i) = true → g.W[g.r]? = some (next AW s i).rreg) := by
  obtain ⟨W, r, r1, r2, r3, w1, w2, w3⟩ := g
  obtain ⟨a1, a2, a3, a4, a5, a6, a7, a8, a9, a10, b1, b2, b3, b4, b5, b6, b7, b8, a11⟩ := h
  simp only at *
  have hD := Nat.two_pow_pos AW
  have hM : 2 ^ (AW + 1) = 2 * 2 ^ AW := by rw [Nat.pow_succ]; omega
  -- enables
  have hwn : wbinNext AW s i = (W.length + (wEn s i).toNat) % 2 ^ (AW + 1) := by
    unfold wbinNext; rw [a1]; exact inc_mod AW _ _
  have hrn : rbinNext AW s i = (r + (rEn s i).toNat) % 2 ^ (AW + 1) := by
    unfold rbinNext; rw [a3]; exact inc_mod AW _ _
  have hwlt : (wEn s i) = true → W.length < r3 + 2 ^ AW := by
    unfold wEn; rw [a9]; intro hh
    simp at hh; omega
  have hrlt : (rEn s i) = true → r < w3 := by
    unfold rEn; rw [a10]; intro hh
    simp at hh; omega
  have hw1 : W.length + (wEn s i).toNat ≤ r3 + 2 ^ AW := by
    cases hh : wEn s i
    · simpa using b8
    · have := hwlt hh; simp; omega
  have hr1 : r + (rEn s i).toNat ≤ w3 := by
    cases hh : rEn s i
    · simpa using b4
    · have := hrlt hh; simp; omega
  obtain ⟨br, hbr, hsr⟩ := sample_gray AW r i.mr (rEn s i)
  obtain ⟨bw, hbw, hsw⟩ := sample_gray AW W.length i.mw (wEn s i)
  have hbr1 : br.toNat ≤ (rEn s i).toNat := by
    cases br
    · simp
    · rw [hbr rfl]; exact Nat.le_refl _
  have hbw1 : bw.toNat ≤ (wEn s i).toNat := by
    cases bw
    · simp
    · rw [hbw rfl]; exact Nat.le_refl _
  -- ghost update
  let W' := W ++ given (i.wclk && wEn s i) i.data
  have hW' : W'.length = W.length + (i.wclk && wEn s i).toNat := by
    show (W ++ given _ _).length = _
    cases (i.wclk && wEn s i) <;> simp
  refine ⟨⟨W', r + (i.rclk && rEn s i).toNat,
    if i.wclk then (if i.rclk then r + br.toNat else r) else r1,
    if i.wclk then r1 else r2, if i.wclk then r2 else r3,
    if i.rclk then (if i.wclk then W.length + bw.toNat else W.length) else w1,
    if i.rclk then w1 else w2, if i.rclk then w2 else w3⟩, ?_, rfl, rfl, ?_, ?_, ?_⟩
  · have hfull : (binToGray (wbinNext AW s i) == fullPat AW s.rs2)
        = decide (W.length + (wEn s i).toNat = r2 + 2 ^ AW) := by
      rw [Bool.eq_iff_iff, hwn, a6]
      unfold gc
      rw [full_iff AW hA _ _ (Nat.mod_lt _ (Nat.two_pow_pos _)) (Nat.mod_lt _ (Nat.two_pow_pos _)),
        Nat.mod_add_mod, decide_eq_true_iff]
      have e := Nat.le_add_right W.length (wEn s i).toNat
      constructor
      · intro he
        have := (FifoCopy.mod_eq_iff (D := 2 ^ (AW + 1)) (a := W.length + (wEn s i).toNat)
          (x := r2 + 2 ^ AW) (by omega) (by omega)).1 he.symm
        omega
      · intro he; rw [he]
    have hempty : (binToGray (rbinNext AW s i) == s.ws2)
        = decide (r + (rEn s i).toNat = w2) := by
      rw [Bool.eq_iff_iff, hrn, a8, beq_iff_eq, decide_eq_true_iff]
      unfold gc
      have e := Nat.le_add_right r (rEn s i).toNat
      constructor
      · intro he
        have he := binToGray_inj he
        have := (FifoCopy.mod_eq_iff (D := 2 ^ (AW + 1)) (a := r + (rEn s i).toNat)
          (x := w2) (by omega) (by omega)).1 he.symm
        omega
      · intro he; rw [he]
    constructor
    · show (if i.wclk then wbinNext AW s i else s.wbin) = W'.length % _
      rw [hW', hwn, a1]; cases i.wclk <;> simp
    · show (if i.wclk then binToGray (wbinNext AW s i) else s.wgray) = gc AW W'.length
      rw [hW', hwn, a2]; cases i.wclk <;> simp [gc]
    · show (if i.rclk then rbinNext AW s i else s.rbin) = _
      rw [hrn, a3]; cases i.rclk <;> simp
    · show (if i.rclk then binToGray (rbinNext AW s i) else s.rgray) = _
      rw [hrn, a4]; cases i.rclk <;> simp [gc]
    · show (if i.wclk then (if i.rclk then sample s.rgray (binToGray (rbinNext AW s i)) i.mr
        else s.rgray) else s.rs1) = _
      rw [hrn, a4, a5]
      cases i.wclk
      · rfl
      · cases i.rclk
        · rfl
        · exact hsr
    · show (if i.wclk then s.rs1 else s.rs2) = _
      rw [a5, a6]; cases i.wclk <;> rfl
    · show (if i.rclk then (if i.wclk then sample s.wgray (binToGray (wbinNext AW s i)) i.mw
        else s.wgray) else s.ws1) = _
      rw [hwn, a2, a7]
      cases i.rclk
      · rfl
      · cases i.wclk
        · rfl
        · exact hsw
    · show (if i.rclk then s.ws1 else s.ws2) = _
      rw [a7, a8]; cases i.rclk <;> rfl
    · show (if i.wclk then binToGray (wbinNext AW s i) == fullPat AW s.rs2 else s.full)
        = decide (W'.length = _)
      rw [hW', hfull, a9]; cases i.wclk <;> simp
    · show (if i.rclk then binToGray (rbinNext AW s i) == s.ws2 else s.empty) = _
      rw [hempty, a10]; cases i.rclk <;> simp
    · show (if i.wclk then r2 else r3) ≤ (if i.wclk then r1 else r2)
      cases i.wclk <;> assumption
    · show (if i.wclk then r1 else r2) ≤ (if i.wclk then (if i.rclk then r + br.toNat else r) else r1)
      cases i.wclk <;> cases i.rclk <;> simp <;> omega
    · show (if i.wclk then (if i.rclk then r + br.toNat else r) else r1) ≤ _
      cases i.wclk <;> cases i.rclk <;> simp <;> omega
    · show r + (i.rclk && rEn s i).toNat ≤ (if i.rclk then w2 else w3)
      cases i.rclk <;> simp <;> omega
    · show (if i.rclk then w2 else w3) ≤ (if i.rclk then w1 else w2)
      cases i.rclk <;> assumption
    · show (if i.rclk then w1 else w2) ≤ (if i.rclk then (if i.wclk then W.length + bw.toNat
        else W.length) else w1)
      cases i.rclk <;> cases i.wclk <;> simp <;> omega
    · show (if i.rclk then (if i.wclk then W.length + bw.toNat else W.length) else w1) ≤ W'.length
      rw [hW']
      cases i.rclk <;> cases i.wclk <;> simp <;> omega
    · show W'.length ≤ (if i.wclk then r2 else r3) + 2 ^ AW
      rw [hW']
      cases i.wclk <;> simp <;> omega
    · intro k hk1 hk2
      change r + (i.rclk && rEn s i).toNat ≤ k at hk1
      change k < W'.length at hk2
      show W'[k]? = some ((if i.wclk && wEn s i then upd s.mem (s.wbin % 2 ^ AW) i.data else s.mem)
        (k % 2 ^ AW))
      rw [hW'] at hk2
      show (W ++ given (i.wclk && wEn s i) i.data)[k]? = _
      cases hw : (i.wclk && wEn s i)
      · rw [hw] at hk2
        simp at hk2
        simp only [given_false, List.append_nil, Bool.false_eq_true, if_false]
        exact a11 k (by omega) hk2
      · rw [hw] at hk2
        simp at hk2
        have hwe : wEn s i = true := by
          revert hw; cases i.wclk <;> simp
        have hlt := hwlt hwe
        have hmod : s.wbin % 2 ^ AW = W.length % 2 ^ AW := by
          rw [a1, hM, Nat.mul_comm, Nat.mod_mul_right_mod]
        simp only [given_true, if_true]
        rw [hmod]
        rcases Nat.lt_or_ge k W.length with hk | hk
        · rw [List.getElem?_append_left hk, upd_ne, a11 k (by omega) hk]
          intro e
          have := (FifoCopy.mod_eq_iff (D := 2 ^ AW) (a := k) (x := W.length) (by omega)
            (by omega)).1 e.symm
          omega
        · have : k = W.length := by omega
          subst this
          rw [upd_same]; simp
  · cases i.wclk
    · simp
    · simp; cases i.rclk <;> simp
  · cases i.rclk
    · simp
    · simp; cases i.wclk <;> simp
  · intro hh
    have hre : rEn s i = true := by revert hh; cases i.rclk <;> simp
    have hlt := hrlt hre
    have hmod : s.rbin % 2 ^ AW = r % 2 ^ AW := by
      rw [a3, hM, Nat.mul_comm, Nat.mod_mul_right_mod]
    show W[r]? = some (if i.rclk && rEn s i then s.mem (s.rbin % 2 ^ AW) else s.rreg)
    rw [hh, hmod, a11 r (Nat.le_refl _) (by omega)]; rfl

theorem pops_eq (s : St α) (i : In α) : pops (i, out s) = (i.rclk && rEn s i) := by
  simp only [pops, rEn, out, Bool.and_assoc]

theorem acc_eq (s : St α) (i : In α) :
    (i.wclk && i.wen && !(out s).wwait) = (i.wclk && wEn s i) := by
  simp only [wEn, out, Bool.and_assoc]

/-- The reader knows of the first `N` written words up to stage `j`. -/
def Lvl (g : Gh α) (N j : Nat) : Prop :=
  N ≤ g.W.length ∧ (1 ≤ j → N ≤ g.w1) ∧ (2 ≤ j → N ≤ g.w2) ∧ (3 ≤ j → N ≤ g.w3)

/-- The writer knows of the first `N` reads up to stage `j`. -/
def LvlR (g : Gh α) (N j : Nat) : Prop :=
  N ≤ g.r ∧ (1 ≤ j → N ≤ g.r1) ∧ (2 ≤ j → N ≤ g.r2) ∧ (3 ≤ j → N ≤ g.r3)

/-- Main lemma over runs. -/
theorem trace_spec {AW : Nat} (hA : 0 < AW) : ∀ (is : List (In α)) (s : St α) (g : Gh α), Inv AW s g →
    ∃ g', Inv AW ((machine AW).final s is) g' ∧
      g'.W = g.W ++ accepted ((machine AW).trace s is) ∧
      g'.r = g.r + popCount ((machine AW).trace s is) ∧
      (∀ N j, Lvl g N j → Lvl g' N (j + is.countP (fun i => i.rclk))) ∧
      (∀ N j, LvlR g N j → LvlR g' N (j + is.countP (fun i => i.wclk))) ∧
      ∃ del, (∀ e, delivered ((machine AW).trace s is ++ [(e, out ((machine AW).final s is))]) = del) ∧
        del.map some = (List.range' g.r (popCount ((machine AW).trace s is))).map (fun k => g'.W[k]?) := by
  intro is
  induction is with
  | nil =>
    intro s g h
    exact ⟨g, h, by simp [accepted], by simp [popCount], fun _ _ h => h, fun _ _ h => h,
      [], by simp [delivered, popCount]⟩
  | cons i is ih =>
    intro s g h
    obtain ⟨g1, hi, hW, hr, hl1, hl2, hd⟩ := step_inv hA h i
    obtain ⟨g2, hf, hW2, hr2, hq1, hq2, del, hdel, hmap⟩ := ih _ _ hi
    have hpop : popCount ((machine AW).trace s (i :: is))
        = (i.rclk && rEn s i).toNat + popCount ((machine AW).trace (next AW s i) is) := by
      have := pops_eq s i
      simp only [popCount, Machine.trace_cons, List.countP_cons]
      show _ + (if pops (i, out s) = true then 1 else 0) = _
      rw [this]
      cases (i.rclk && rEn s i)
      · simp; rfl
      · simp only [if_true, Bool.toNat_true]; rw [Nat.add_comm]; rfl
    have hacc : accepted ((machine AW).trace s (i :: is))
        = given (i.wclk && wEn s i) i.data ++ accepted ((machine AW).trace (next AW s i) is) := by
      simp only [accepted, Machine.trace_cons, List.flatMap_cons]
      rw [← acc_eq s i]; rfl
    refine ⟨g2, hf, ?_, ?_, ?_, ?_, given (i.rclk && rEn s i) (next AW s i).rreg ++ del, ?_, ?_⟩
    · rw [hacc, ← List.append_assoc, ← hW]; exact hW2
    · rw [hpop, ← Nat.add_assoc, ← hr]; exact hr2
    · intro N j hN
      have hlen : g.W.length ≤ g1.W.length := by rw [hW]; simp
      have e1 := hi.h7
      have : Lvl g1 N (j + (if i.rclk then 1 else 0)) := by
        obtain ⟨n1, n2, n3, n4⟩ := hN
        revert hl2
        cases i.rclk
        · simp only [Bool.false_eq_true, if_false]
          rintro ⟨p1, p2, p3⟩
          refine ⟨by omega, ?_, ?_, ?_⟩ <;> intro hj
          · have := n2 hj; omega
          · have := n3 hj; omega
          · have := n4 hj; omega
        · simp only [if_true]
          rintro ⟨p1, p2, p3⟩
          refine ⟨by omega, ?_, ?_, ?_⟩ <;> intro hj
          · omega
          · have := n2 (by omega); omega
          · have := n3 (by omega); omega
      have := hq1 N _ this
      rw [List.countP_cons]
      rwa [show j + (is.countP (fun i => i.rclk) + if i.rclk = true then 1 else 0)
        = j + (if i.rclk then 1 else 0) + is.countP (fun i => i.rclk) by omega]
    · intro N j hN
      have hlen : g.r ≤ g1.r := by rw [hr]; omega
      have e1 := hi.h3
      have : LvlR g1 N (j + (if i.wclk then 1 else 0)) := by
        obtain ⟨n1, n2, n3, n4⟩ := hN
        revert hl1
        cases i.wclk
        · simp only [Bool.false_eq_true, if_false]
          rintro ⟨p1, p2, p3⟩
          refine ⟨by omega, ?_, ?_, ?_⟩ <;> intro hj
          · have := n2 hj; omega
          · have := n3 hj; omega
          · have := n4 hj; omega
        · simp only [if_true]
          rintro ⟨p1, p2, p3⟩
          refine ⟨by omega, ?_, ?_, ?_⟩ <;> intro hj
          · omega
          · have := n2 (by omega); omega
          · have := n3 (by omega); omega
      have := hq2 N _ this
      rw [List.countP_cons]
      rwa [show j + (is.countP (fun i => i.wclk) + if i.wclk = true then 1 else 0)
        = j + (if i.wclk then 1 else 0) + is.countP (fun i => i.wclk) by omega]
    · intro e
      have h1 := hdel e
      have hp := pops_eq s i
      cases is with
      | nil =>
        simp only [Machine.trace_nil, Machine.trace_cons, Machine.final_nil, Machine.final_cons,
          List.nil_append, List.cons_append, delivered] at h1 ⊢
        subst h1
        rw [← hp]; rfl
      | cons j js =>
        simp only [Machine.trace_cons, List.cons_append, delivered, Machine.final_cons] at h1 ⊢
        rw [← h1, ← hp]; rfl
    · rw [hpop, List.map_append, hmap]
      revert hd hr
      cases (i.rclk && rEn s i)
      · intro hr _
        simp only [Bool.toNat_false, Nat.add_zero] at hr
        simp [hr]
      · intro hr hd
        have hd := hd rfl
        simp only [Bool.toNat_true] at hr
        simp only [given_true, List.map_cons, List.map_nil, Bool.toNat_true]
        rw [Nat.add_comm 1, List.range'_succ, hr]
        simp only [List.map_cons, List.singleton_append, List.cons.injEq, and_true]
        rw [← hd, hW2, hW, List.append_assoc]
        have := (List.getElem?_eq_some_iff.1 hd).1
        rw [List.getElem?_append_left this]

end Verif.FifoAsync
