import Verif.Timers
import Verif.AddrDecode
/-!
# Model of `SpiMaster` (hwtLib/peripheral/spi/master.py) with `SPI_DATA_WIDTH = 1`

Words are MSB first lists of 8 bits. The three timers are the shared timers of `Verif.Timers`, the model contains
their registers and the sharing chosen by `TimerInfo.resolveSharing`. The reset of the timers is a combinational
function of the tick of one of them, which itself is gated by the reset for some ways of sharing: `rstEq r` is the
value the logic computes for the reset if the reset is `r`, the logic settles if some `r` is a solution.
-/
namespace Verif.Spi

/-- master.py:137-145: `H = SPI_FREQ_PESCALER // 2`, `S = SS_WAIT_CLK_TICKS` -/
def periods (H S : Nat) : List Nat := [H, H * S * 2, H * 8 * 2]

structure St where
  cnt : Nat → Nat
  /-- `slaveSelectWaitRequired` -/
  req : Bool
  /-- `endOfWordDelayed` -/
  eowD : Bool
  clkI : Bool
  clkO : Bool
  /-- register of the edge detector, clkBuilder.py:145-147 -/
  last : Bool
  txInit : Bool
  tx : List Bool
  rx : List Bool

structure In where
  vld : Bool
  dout : List Bool
  last : Bool
  miso : Bool

structure Out where
  rd : Bool
  din : List Bool
  clk : Bool
  mosi : Bool
  /-- the decoder of slave select is enabled -/
  cs : Bool
  /-- the next value of `clk` -/
  clkNext : Bool

/-- master.py:179 -/
def en (s : St) (i : In) : Bool := !s.eowD && i.vld

/-- tick of timer `t` (0 half period, 1 initial wait, 2 end of word) -/
def tick (ps : List Nat) (s : St) (e r : Bool) (t : Nat) : Bool :=
  Timers.tick (fun t => ps.getD t 0) (Timers.parent ps) s.cnt ⟨e, r⟩ (Timers.depth ps) t

/-- master.py:147 -/
def rstEq (ps : List Nat) (s : St) (i : In) (r : Bool) : Bool := !en s i || (s.req && tick ps s (en s i) r 1)

/-- The combinational logic of the cycle has a stable state. -/
def Settles (ps : List Nat) (s : St) (i : In) : Prop := ∃ r, rstEq ps s i r = r

/-- The stable value of `timersRst` if there is one. -/
def rst (ps : List Nat) (s : St) (i : In) : Bool := !(rstEq ps s i false == false)

def half (ps : List Nat) (s : St) (i : In) : Bool := tick ps s (en s i) (rst ps s i) 0
def waitDone (ps : List Nat) (s : St) (i : In) : Bool := tick ps s (en s i) (rst ps s i) 1
def eow (ps : List Nat) (s : St) (i : In) : Bool := tick ps s (en s i) (rst ps s i) 2

/-- master.py:151-153 -/
def clkINext (ps : List Nat) (s : St) (i : In) : Bool := if half ps s i then !s.clkI else s.clkI
/-- master.py:155-157 -/
def clkONext (ps : List Nat) (s : St) (i : In) : Bool := if !s.req && half ps s i then !s.clkO else s.clkO
/-- master.py:161-167 -/
def rdEn (ps : List Nat) (s : St) (i : In) : Bool := (clkINext ps s i && !s.last) && !s.req
def wrEn (ps : List Nat) (s : St) (i : In) : Bool := (!clkINext ps s i && s.last) && !s.req

/-- master.py:100-115 writePart, 118-124 readPart, 151-167, 181-195 -/
def next (ps : List Nat) (s : St) (i : In) : St where
  cnt := Timers.nextCnt (fun t => ps.getD t 0) (Timers.parent ps) (Timers.depth ps) s.cnt ⟨en s i, rst ps s i⟩
  req := if eow ps s i then i.last else if waitDone ps s i then false else s.req
  eowD := eow ps s i
  clkI := clkINext ps s i
  clkO := clkONext ps s i
  last := clkINext ps s i
  txInit := if wrEn ps s i then (if s.txInit then (if s.eowD then false else s.txInit) else true)
            else if s.eowD then false else s.txInit
  tx := if wrEn ps s i then (if s.txInit then s.tx.tail ++ [false] else i.dout) else s.tx
  rx := if rdEn ps s i then s.rx.tail ++ [i.miso] else s.rx

/-- master.py:116, 159, 184, 197-202 -/
def out (ps : List Nat) (s : St) (i : In) : Out where
  rd := s.eowD
  din := s.rx
  clk := s.clkO
  mosi := s.tx.headD false
  cs := i.vld
  clkNext := clkONext ps s i

def machine (ps : List Nat) : Machine St In Out where
  out := out ps
  next := next ps

/-- Power-up: `txReg` and `rxReg` are not reset. -/
def IsInit (ps : List Nat) (s : St) : Prop :=
  s.cnt = Timers.init ps ∧ s.req = true ∧ s.eowD = false ∧ s.clkI = true ∧ s.clkO = true ∧ s.last = true ∧
  s.txInit = false ∧ s.rx.length = 8

/-! ### Observations -/

/-- SPI clk rises at the end of this cycle. -/
def rises (e : In × Out) : Bool := e.2.clkNext && !e.2.clk
def mosi (tr : List (In × Out)) : List Bool := tr.filterMap fun e => if rises e then some e.2.mosi else none
def miso (tr : List (In × Out)) : List Bool := tr.filterMap fun e => if rises e then some e.1.miso else none
/-- Completed words. -/
def sent (tr : List (In × Out)) : List (List Bool) := tr.filterMap fun e => if e.1.vld && e.2.rd then some e.1.dout else none
def got (tr : List (In × Out)) : List (List Bool) := tr.filterMap fun e => if e.1.vld && e.2.rd then some e.2.din else none

/-- The word which has to be held after a cycle. -/
def held (e : In × Out) : Option (List Bool × Bool) := if e.1.vld && !e.2.rd then some (e.1.dout, e.1.last) else none

/-- The user keeps a valid word (and its `last`) until it is taken by `rd`. -/
def Holds : Option (List Bool × Bool) → List (In × Out) → Prop
  | _, [] => True
  | g, e :: tr => (∀ x, g = some x → e.1.vld = true ∧ (e.1.dout, e.1.last) = x) ∧ (e.1.vld = true → e.1.dout.length = 8) ∧
    Holds (held e) tr

/-! ### Sharing of the timers for which the logic settles -/

/-- The half period is a power of 2 and the initial wait is 1, 2 or 4 periods. -/
def Supported (H S : Nat) : Prop := (∃ a, H = 2 ^ a) ∧ (S = 1 ∨ S = 2 ∨ S = 4)

theorem isPow2_two_pow (a : Nat) : BusMap.isPow2 (2 ^ a) = true := by
  unfold BusMap.isPow2; rw [AddrDecode.bitLength_pred_pow]; simp

theorem log2ceil_two_pow {a : Nat} (h : 1 ≤ a) : log2ceil (2 ^ a) = a := by
  have h2 : 2 ^ a = 2 * 2 ^ (a - 1) := by rw [← Nat.pow_succ']; congr 1; omega
  have := Nat.two_pow_pos (a - 1)
  exact AddrDecode.log2ceil_eq h (by omega) (Nat.le_refl _)

theorem supported_pow {H S : Nat} (h : Supported H S) : ∃ a b, H = 2 ^ a ∧ S = 2 ^ b ∧ b < 3 := by
  obtain ⟨⟨a, ha⟩, hs⟩ := h
  rcases hs with h | h | h
  · exact ⟨a, 0, ha, h, by omega⟩
  · exact ⟨a, 1, ha, h, by omega⟩
  · exact ⟨a, 2, ha, h, by omega⟩

/-- The counter of the end of word is the only one, the other timers use its low bits. -/
theorem parents {H S : Nat} (h : Supported H S) :
    Timers.parent (periods H S) 2 = none ∧ Timers.parent (periods H S) 1 = some 2 ∧
    (H = 1 ∧ Timers.parent (periods H S) 0 = none ∨ H ≠ 1 ∧ Timers.parent (periods H S) 0 = some 2) := by
  have hH : 0 < H := by obtain ⟨⟨a, ha⟩, _⟩ := h; rw [ha]; exact Nat.two_pow_pos a
  have hp0 : BusMap.isPow2 H = true := by obtain ⟨⟨a, ha⟩, _⟩ := h; rw [ha]; exact isPow2_two_pow a
  have hp1 : BusMap.isPow2 (H * S * 2) = true := by
    obtain ⟨a, b, ha, hb, _⟩ := supported_pow h
    rw [ha, hb, ← Nat.pow_add, ← Nat.pow_succ]; exact isPow2_two_pow _
  have hp2 : BusMap.isPow2 (H * 8 * 2) = true := by
    obtain ⟨a, b, ha, hb, _⟩ := supported_pow h
    rw [ha, Nat.mul_assoc, show 8 * 2 = 2 ^ 4 from rfl, ← Nat.pow_add]; exact isPow2_two_pow _
  have hS := h.2
  have l1 : H * S * 2 < H * 8 * 2 := by rcases hS with h | h | h <;> subst h <;> omega
  have l2 : H < H * S * 2 := by rcases hS with h | h | h <;> subst h <;> omega
  have d1 : H * 8 * 2 % (H * S * 2) = 0 := by
    rcases hS with h | h | h <;> subst h
    · rw [show H * 8 * 2 = H * 1 * 2 * 8 by omega, Nat.mul_mod_right]
    · rw [show H * 8 * 2 = H * 2 * 2 * 4 by omega, Nat.mul_mod_right]
    · rw [show H * 8 * 2 = H * 4 * 2 * 2 by omega, Nat.mul_mod_right]
  have d0 : H * 8 * 2 % H = 0 := by rw [Nat.mul_assoc, Nat.mul_mod_right]
  have g0 : (periods H S).getD 0 0 = H := rfl
  have g1 : (periods H S).getD 1 0 = H * S * 2 := rfl
  have g2 : (periods H S).getD 2 0 = H * 8 * 2 := rfl
  have g2' : (periods H S)[2]?.getD 0 = H * 8 * 2 := rfl
  have n1 : (H * S * 2 != 1) = true := by simp; omega
  have n2 : (H * 8 * 2 != 1) = true := by simp; omega
  have q1 : ¬ H * 8 * 2 ≤ H * S * 2 := by omega
  have q2 : ¬ H * S * 2 ≤ H := by omega
  have q3 : ¬ H * 8 * 2 ≤ H := by omega
  by_cases h1 : H = 1
  · have ho : Timers.order (periods H S) = [2, 1] := by
      have n0 : (H != 1) = false := by simp [h1]
      show Timers.sortDesc _ (List.filter _ [0, 1, 2]) = _
      simp only [List.filter_cons, g0, g1, g2, n0, n1, n2, if_true, Bool.false_eq_true, if_false, List.filter_nil]
      simp only [Timers.sortDesc, Timers.insertDesc, g1, g2, q1, if_false]
    unfold Timers.parent
    rw [ho]
    simp only [Timers.resolveGo, g1, g2, hp1, hp2, if_true, List.find?_nil, List.nil_append]
    refine ⟨by simp [upd], by simp [upd, g2', d1], Or.inl ⟨h1, by simp [upd]⟩⟩
  · have ho : Timers.order (periods H S) = [2, 1, 0] := by
      have n0 : (H != 1) = true := by simp [h1]
      show Timers.sortDesc _ (List.filter _ [0, 1, 2]) = _
      simp only [List.filter_cons, g0, g1, g2, n0, n1, n2, if_true, List.filter_nil]
      simp only [Timers.sortDesc, Timers.insertDesc, g0, g1, g2, q1, q2, q3, if_false]
    unfold Timers.parent
    rw [ho]
    simp only [Timers.resolveGo, g0, g1, g2, hp0, hp1, hp2, if_true, List.find?_nil, List.nil_append]
    refine ⟨by simp [upd], by simp [upd, g2', d1], Or.inr ⟨h1, by simp [upd, g2', d0]⟩⟩

/-- The ticks and the counter for the supported parameters. -/
theorem tick_eq {H S : Nat} (h : Supported H S) (s : St) (e r : Bool) :
    tick (periods H S) s e r 0 = (decide (s.cnt 2 % H = 0) && e) ∧
    tick (periods H S) s e r 1 = (decide (s.cnt 2 % (H * S * 2) = 0) && e) ∧
    tick (periods H S) s e r 2 = (decide (s.cnt 2 = 0) && e && !r) := by
  obtain ⟨p2, p1, p0⟩ := parents h
  obtain ⟨a, b, ha, hb, hb3⟩ := supported_pow h
  have hH : 0 < H := by rw [ha]; exact Nat.two_pow_pos a
  have hS : 0 < S := by rw [hb]; exact Nat.two_pow_pos b
  have l1 : H * S * 2 < H * 8 * 2 := by rcases h.2 with h | h | h <;> subst h <;> omega
  have l2 : H < H * S * 2 := by rcases h.2 with h | h | h <;> subst h <;> omega
  have g0 : (periods H S).getD 0 0 = H := rfl
  have g1 : (periods H S).getD 1 0 = H * S * 2 := rfl
  have g2 : (periods H S).getD 2 0 = H * 8 * 2 := rfl
  have hd : Timers.depth (periods H S) = 5 := rfl
  have c1 : 2 ^ log2ceil (H * S * 2) = H * S * 2 := by
    have : H * S * 2 = 2 ^ (a + b + 1) := by rw [ha, hb, ← Nat.pow_add, ← Nat.pow_succ]
    rw [this, log2ceil_two_pow (by omega)]
  unfold tick
  rw [hd]
  refine ⟨?_, ?_, ?_⟩
  · rcases p0 with ⟨h1, p0⟩ | ⟨h1, p0⟩
    · rw [Timers.tick]
      simp only [p0, g0]
      rw [if_pos h1, h1, Nat.mod_one]
      simp
    · have c0 : 2 ^ log2ceil H = H := by
        have : 1 ≤ a := by
          rcases Nat.eq_zero_or_pos a with h | h
          · rw [h] at ha; exact absurd ha h1
          · exact h
        rw [ha, log2ceil_two_pow this]
      have x1 : ¬ H * 8 * 2 = H := by omega
      have x2 : ¬ H * 8 * 2 < H := by omega
      have hr : Timers.regOf (fun t => (periods H S).getD t 0) (Timers.parent (periods H S)) 4 2 = 2 := by
        rw [Timers.regOf]; simp only [p2]
      rw [Timers.tick]
      simp only [p0, g0, g2, x1, x2, if_false, c0, hr]
      rfl
  · have x1 : ¬ H * 8 * 2 = H * S * 2 := by omega
    have x2 : ¬ H * 8 * 2 < H * S * 2 := by omega
    have hr : Timers.regOf (fun t => (periods H S).getD t 0) (Timers.parent (periods H S)) 4 2 = 2 := by
      rw [Timers.regOf]; simp only [p2]
    rw [Timers.tick]
    simp only [p1, g1, g2, x1, x2, if_false, c1, hr]
    rfl
  · have x1 : ¬ H * 8 * 2 = 1 := by omega
    rw [Timers.tick]
    simp only [p2, g2, x1, if_false]
    rfl

theorem nextCnt_eq {H S : Nat} (h : Supported H S) (cnt : Nat → Nat) (e r : Bool) :
    Timers.nextCnt (fun t => (periods H S).getD t 0) (Timers.parent (periods H S)) (Timers.depth (periods H S)) cnt ⟨e, r⟩ 2 =
      if r || (e && decide (cnt 2 = 0)) then H * 16 - 1 else if e then cnt 2 - 1 else cnt 2 := by
  obtain ⟨p2, _⟩ := parents h
  have g2 : (periods H S).getD 2 0 = H * 16 := by show H * 8 * 2 = _; omega
  simp only [Timers.nextCnt, Timers.cntEn, Timers.top, p2, g2]
  rfl

theorem init_eq {H S : Nat} (h : Supported H S) : Timers.init (periods H S) 2 = H * 16 - 1 := by
  obtain ⟨p2, _⟩ := parents h
  have g2 : (periods H S).getD 2 0 = H * 16 := by show H * 8 * 2 = _; omega
  simp only [Timers.init, Timers.top, p2, g2]

/-- The logic settles, and the reset is as follows. -/
theorem settle {H S : Nat} (h : Supported H S) (s : St) (i : In) :
    rstEq (periods H S) s i (rst (periods H S) s i) = rst (periods H S) s i ∧
    rst (periods H S) s i = (!en s i || (s.req && decide (s.cnt 2 % (H * S * 2) = 0))) := by
  have e : ∀ r, rstEq (periods H S) s i r = (!en s i || (s.req && decide (s.cnt 2 % (H * S * 2) = 0))) := by
    intro r
    unfold rstEq
    rw [(tick_eq h s _ r).2.1]
    cases en s i <;> simp
  have er : rst (periods H S) s i = (!en s i || (s.req && decide (s.cnt 2 % (H * S * 2) = 0))) := by
    unfold rst; rw [e]; cases (!en s i || (s.req && decide (s.cnt 2 % (H * S * 2) = 0))) <;> rfl
  exact ⟨by rw [e, er], er⟩

/-! ### Position in a word -/

/-- The counter in clk cycle `k` of half period `m`. -/
def cpos (H m k : Nat) : Nat := (15 - m) * H + (H - 1 - k)

theorem cpos_mod {H m k : Nat} (hk : k < H) : cpos H m k % H = H - 1 - k := by
  unfold cpos; rw [Nat.mul_comm, Nat.mul_add_mod]; exact Nat.mod_eq_of_lt (by omega)

theorem cpos_half {H m k : Nat} (hk : k < H) : decide (cpos H m k % H = 0) = decide (k = H - 1) := by
  rw [cpos_mod hk]; exact decide_eq_decide.2 (by omega)

theorem mul_add_mod_mul {x y H r : Nat} (hr : r < H) (hy : 0 < y) : (x * H + r) % (y * H) = x % y * H + r := by
  have e : x * H + r = (x % y * H + r) + (y * H) * (x / y) := by
    have h1 : x * H = (y * (x / y) + x % y) * H := by rw [Nat.div_add_mod]
    rw [h1, Nat.add_mul, Nat.mul_right_comm]; omega
  rw [e, Nat.add_mul_mod_self_left]
  apply Nat.mod_eq_of_lt
  have h2 : x % y + 1 ≤ y := Nat.mod_lt x hy
  have h3 := Nat.mul_le_mul_right H h2
  rw [Nat.add_mul] at h3
  omega

theorem cpos_wait {H S m k : Nat} (hS : S = 1 ∨ S = 2 ∨ S = 4) (hm : m < 2 * S) (hk : k < H) :
    decide (cpos H m k % (H * S * 2) = 0) = (decide (m = 2 * S - 1) && decide (k = H - 1)) := by
  have e : H * S * 2 = (S * 2) * H := by rw [Nat.mul_assoc, Nat.mul_comm]
  unfold cpos
  rw [e, mul_add_mod_mul (by omega) (by omega), ← Bool.decide_and]
  apply decide_eq_decide.2
  have hx : (15 - m) % (S * 2) = 2 * S - 1 - m := by
    rcases hS with h | h | h <;> subst h <;> omega
  rw [hx]
  constructor
  · intro h0
    have h1 : (2 * S - 1 - m) * H = 0 := by omega
    rcases Nat.mul_eq_zero.1 h1 with h | h
    · omega
    · omega
  · rintro ⟨h1, h2⟩
    rw [h1, h2]; simp

theorem cpos_zero {H m k : Nat} (hm : m < 16) (hk : k < H) :
    decide (cpos H m k = 0) = (decide (m = 15) && decide (k = H - 1)) := by
  rw [← Bool.decide_and]
  apply decide_eq_decide.2
  unfold cpos
  constructor
  · intro h0
    have h1 : (15 - m) * H = 0 := by omega
    rcases Nat.mul_eq_zero.1 h1 with h | h
    · omega
    · omega
  · rintro ⟨h1, h2⟩
    rw [h1, h2]; simp

theorem cpos_k {H m k : Nat} (hk : k + 1 < H) : cpos H m k - 1 = cpos H m (k + 1) := by
  unfold cpos; omega

theorem cpos_m {H m : Nat} (hH : 0 < H) (hm : m < 15) : cpos H m (H - 1) - 1 = cpos H (m + 1) 0 := by
  unfold cpos
  have : (15 - m) * H = (15 - (m + 1)) * H + H := by
    rw [show 15 - m = 15 - (m + 1) + 1 by omega, Nat.add_mul]; omega
  omega

theorem cpos_top {H : Nat} (hH : 0 < H) : H * 16 - 1 = cpos H 0 0 := by unfold cpos; omega

/-! ### Phases -/

/-- Ready for a word. -/
structure Start (H : Nat) (s : St) : Prop where
  eowD : s.eowD = false
  cnt : s.cnt 2 = H * 16 - 1
  clkI : s.clkI = true
  clkO : s.clkO = true
  last : s.last = true
  txInit : s.txInit = false
  rx : s.rx.length = 8

/-- Initial wait. -/
structure Wait (H S : Nat) (s : St) (m k : Nat) : Prop where
  m_lt : m < 2 * S
  k_lt : k < H
  req : s.req = true
  eowD : s.eowD = false
  cnt : s.cnt 2 = cpos H m k
  clkI : s.clkI = decide (m % 2 = 0)
  clkO : s.clkO = true
  last : s.last = decide (m % 2 = 0)
  txInit : s.txInit = false
  rx : s.rx.length = 8

/-- Transfer of word `w`, the bits `ms` were received. -/
structure Data (H : Nat) (s : St) (w : List Bool) (m k : Nat) (ms : List Bool) : Prop where
  m_lt : m < 16
  k_lt : k < H
  req : s.req = false
  eowD : s.eowD = false
  cnt : s.cnt 2 = cpos H m k
  clkI : s.clkI = decide (m % 2 = 0)
  clkO : s.clkO = decide (m % 2 = 0)
  last : s.last = decide (m % 2 = 0)
  txInit : s.txInit = decide (m ≠ 0)
  tx : m ≠ 0 → s.tx = w.drop ((m - 1) / 2) ++ List.replicate ((m - 1) / 2) false
  len : ms.length = m / 2
  rx : ∃ r, s.rx = r ++ ms ∧ r.length = 8 - m / 2

/-- The cycle of the handshake. -/
structure Done (s : St) (ms : List Bool) : Prop where
  eowD : s.eowD = true
  clkI : s.clkI = true
  clkO : s.clkO = true
  last : s.last = true
  rx : s.rx = ms
  len : ms.length = 8

/-- A word is being processed: `p` are the bits already sent, `ms` the bits received and `d` the cycles to the
handshake. -/
inductive Busy (H S : Nat) (s : St) (w : List Bool) (l : Bool) : List Bool → List Bool → Nat → Prop where
  | wait {m k : Nat} (h : Wait H S s m k) : Busy H S s w l [] [] (16 * H + (2 * S - m) * H - k)
  | data {m k : Nat} {ms : List Bool} (h : Data H s w m k ms) : Busy H S s w l (w.take (m / 2)) ms ((16 - m) * H - k)
  | done {ms : List Bool} (h : Done s ms) (hr : s.req = l) : Busy H S s w l w ms 0

section
variable {H S : Nat} (hc : Supported H S)
include hc

theorem half_eq (s : St) (i : In) : half (periods H S) s i = (decide (s.cnt 2 % H = 0) && en s i) := (tick_eq hc s _ _).1
theorem wait_eq (s : St) (i : In) : waitDone (periods H S) s i = (decide (s.cnt 2 % (H * S * 2) = 0) && en s i) :=
  (tick_eq hc s _ _).2.1
theorem eow_eq (s : St) (i : In) : eow (periods H S) s i = (decide (s.cnt 2 = 0) && en s i && !rst (periods H S) s i) :=
  (tick_eq hc s _ _).2.2
theorem cnt_eq (s : St) (i : In) : (next (periods H S) s i).cnt 2 =
    if rst (periods H S) s i || (en s i && decide (s.cnt 2 = 0)) then H * 16 - 1 else if en s i then s.cnt 2 - 1 else s.cnt 2 :=
  nextCnt_eq hc _ _ _

theorem H_pos : 0 < H := by obtain ⟨⟨a, ha⟩, _⟩ := hc; rw [ha]; exact Nat.two_pow_pos a

/-- A cycle without enable in which the clocks are high. -/
theorem next_off {s : St} {i : In} (he : en s i = false) (h1 : s.clkI = true) (h2 : s.clkO = true) (h3 : s.last = true)
    (hr : s.rx.length = 8) (ht : s.eowD = true ∨ s.txInit = false) :
    Start H (next (periods H S) s i) ∧ (next (periods H S) s i).req = s.req ∧ rises (i, out (periods H S) s i) = false := by
  have a1 := half_eq hc s i
  have a2 := wait_eq hc s i
  have a3 := eow_eq hc s i
  have a4 := cnt_eq hc s i
  have a5 := (settle hc s i).2
  rw [he] at a1 a2 a3 a4 a5
  simp only [Bool.and_false, Bool.false_and, Bool.not_false, Bool.true_or] at a1 a2 a3 a4 a5
  rw [a5] at a4
  have b1 : clkINext (periods H S) s i = true := by unfold clkINext; rw [a1, h1]; rfl
  have b2 : clkONext (periods H S) s i = true := by unfold clkONext; rw [a1, h2]; simp
  have b3 : wrEn (periods H S) s i = false := by unfold wrEn; rw [b1]; simp
  have b4 : rdEn (periods H S) s i = false := by unfold rdEn; rw [h3]; simp
  refine ⟨⟨a3, by simpa using a4, b1, b2, b1, ?_, ?_⟩, ?_, ?_⟩
  · simp only [next, b3]; rcases ht with h | h <;> simp [h]
  · simp [next, b4, hr]
  · simp [next, a3, a2]
  · simp [rises, out, b2, h2]

/-- The initial wait. -/
theorem wait_next {s : St} {i : In} {m k : Nat} (h : Wait H S s m k) (hv : i.vld = true) (w : List Bool) :
    (if k + 1 < H then Wait H S (next (periods H S) s i) m (k + 1)
     else if m + 1 < 2 * S then Wait H S (next (periods H S) s i) (m + 1) 0
     else Data H (next (periods H S) s i) w 0 0 []) ∧ rises (i, out (periods H S) s i) = false := by
  have he : en s i = true := by simp [en, h.eowD, hv]
  have hH := H_pos hc
  have hS := hc.2
  have hm := h.m_lt
  have hk := h.k_lt
  have hm16 : m < 15 := by omega
  have a1 := half_eq hc s i
  have a2 := wait_eq hc s i
  have a3 := eow_eq hc s i
  have a4 := cnt_eq hc s i
  have a5 := (settle hc s i).2
  rw [he, h.cnt] at a1 a2 a3 a4 a5
  rw [cpos_half hk] at a1
  rw [cpos_wait hS hm hk] at a2 a5
  rw [cpos_zero (by omega) hk] at a3 a4
  have hm15 : decide (m = 15) = false := by simp; omega
  rw [hm15] at a3 a4
  rw [h.req] at a5
  simp only [Bool.and_true, Bool.false_and, Bool.and_false, Bool.not_true, Bool.false_or, Bool.true_and, Bool.or_false, if_true] at a1 a2 a3 a4 a5
  have b2 : clkONext (periods H S) s i = true := by unfold clkONext; rw [h.req, h.clkO]; simp
  have b3 : wrEn (periods H S) s i = false := by unfold wrEn; rw [h.req]; simp
  have b4 : rdEn (periods H S) s i = false := by unfold rdEn; rw [h.req]; simp
  have c1 : (next (periods H S) s i).eowD = false := a3
  have c2 : (next (periods H S) s i).clkO = true := b2
  have c3 : (next (periods H S) s i).txInit = false := by simp [next, b3, h.eowD, h.txInit]
  have c4 : (next (periods H S) s i).rx.length = 8 := by simp [next, b4, h.rx]
  refine ⟨?_, by simp [rises, out, b2, h.clkO]⟩
  by_cases hk1 : k + 1 < H
  · rw [if_pos hk1]
    have hk' : decide (k = H - 1) = false := by simp; omega
    rw [hk'] at a1 a2 a5
    rw [Bool.and_false] at a2 a5
    have b1 : clkINext (periods H S) s i = decide (m % 2 = 0) := by unfold clkINext; rw [a1, h.clkI]; simp
    refine ⟨hm, hk1, ?_, c1, ?_, b1, c2, b1, c3, c4⟩
    · simp [next, a3, a2, h.req]
    · rw [a4, a5]; exact cpos_k hk1
  · rw [if_neg hk1]
    have hkH : k = H - 1 := by omega
    rw [hkH] at a1 a2 a4 a5
    simp only [decide_true, Bool.and_true] at a1 a2 a5
    have b1 : clkINext (periods H S) s i = !decide (m % 2 = 0) := by unfold clkINext; rw [a1, h.clkI]; simp
    have b1' : (!decide (m % 2 = 0)) = decide ((m + 1) % 2 = 0) := by
      rw [← decide_not]; exact decide_eq_decide.2 (by omega)
    rw [b1'] at b1
    by_cases hm1 : m + 1 < 2 * S
    · rw [if_pos hm1]
      have hm' : decide (m = 2 * S - 1) = false := by simp; omega
      rw [hm'] at a2 a5
      refine ⟨hm1, hH, ?_, c1, ?_, b1, c2, b1, c3, c4⟩
      · simp [next, a3, a2, h.req]
      · rw [a4, a5]; exact cpos_m hH hm16
    · rw [if_neg hm1]
      have hm' : decide (m = 2 * S - 1) = true := by simp; omega
      rw [hm'] at a2 a5
      have b5 : decide ((m + 1) % 2 = 0) = true := by simp; omega
      rw [b5] at b1
      refine ⟨by omega, hH, ?_, c1, ?_, b1, c2, b1, c3, fun h => absurd rfl h, rfl, ⟨_, (List.append_nil _).symm, by rw [c4]⟩⟩
      · simp [next, a3, a2]
      · rw [a4, a5]; exact cpos_top hH

omit hc in
theorem shift_drop (l : List Bool) (k : Nat) (h : k < l.length) :
    (l.drop k ++ List.replicate k false).tail ++ [false] = l.drop (k + 1) ++ List.replicate (k + 1) false := by
  rw [List.drop_eq_getElem_cons h, List.cons_append, List.tail_cons, List.append_assoc, List.replicate_succ']

/-- The transfer. -/
theorem data_next {s : St} {i : In} {w : List Bool} {m k : Nat} {ms : List Bool} (h : Data H s w m k ms) (hv : i.vld = true)
    (hw : i.dout = w) (h8 : w.length = 8) :
    if k + 1 < H then Data H (next (periods H S) s i) w m (k + 1) ms ∧ rises (i, out (periods H S) s i) = false
    else if m % 2 = 0 then Data H (next (periods H S) s i) w (m + 1) 0 ms ∧ rises (i, out (periods H S) s i) = false
    else rises (i, out (periods H S) s i) = true ∧ w[m / 2]? = some (out (periods H S) s i).mosi ∧
      if m + 1 < 16 then Data H (next (periods H S) s i) w (m + 1) 0 (ms ++ [i.miso])
      else Done (next (periods H S) s i) (ms ++ [i.miso]) ∧ (next (periods H S) s i).req = i.last := by
  have he : en s i = true := by simp [en, h.eowD, hv]
  have hH := H_pos hc
  have hm := h.m_lt
  have hk := h.k_lt
  have a1 := half_eq hc s i
  have a3 := eow_eq hc s i
  have a4 := cnt_eq hc s i
  have a5 := (settle hc s i).2
  rw [h.req, he] at a5
  simp only [Bool.not_true, Bool.false_and, Bool.or_false] at a5
  rw [he, h.cnt, a5] at a3 a4
  rw [he, h.cnt, cpos_half hk] at a1
  rw [cpos_zero hm hk] at a3 a4
  simp only [Bool.and_true, Bool.not_false, Bool.false_or, Bool.true_and, if_true] at a1 a3 a4
  have c0 : (next (periods H S) s i).eowD = eow (periods H S) s i := rfl
  by_cases hk1 : k + 1 < H
  · rw [if_pos hk1]
    have hk' : decide (k = H - 1) = false := by simp; omega
    rw [hk', Bool.and_false] at a3 a4
    rw [hk'] at a1
    have b1 : clkINext (periods H S) s i = decide (m % 2 = 0) := by unfold clkINext; rw [a1, h.clkI]; simp
    have b2 : clkONext (periods H S) s i = decide (m % 2 = 0) := by unfold clkONext; rw [a1, h.clkO]; simp
    have b3 : wrEn (periods H S) s i = false := by unfold wrEn; rw [b1, h.last]; simp
    have b4 : rdEn (periods H S) s i = false := by unfold rdEn; rw [b1, h.last]; simp
    refine ⟨⟨hm, hk1, ?_, a3, ?_, b1, b2, b1, ?_, ?_, h.len, ?_⟩, ?_⟩
    · simp [next, a3, h.req]
    · rw [a4]; simp only [Bool.false_eq_true, if_false]; exact cpos_k hk1
    · simp [next, b3, h.eowD, h.txInit]
    · intro h0; simpa [next, b3] using h.tx h0
    · simpa [next, b4] using h.rx
    · simp [rises, out, b2, h.clkO]
  · rw [if_neg hk1]
    have hkH : k = H - 1 := by omega
    rw [hkH] at a1 a3 a4
    simp only [decide_true, Bool.and_true] at a1 a3 a4
    have b1 : clkINext (periods H S) s i = !decide (m % 2 = 0) := by unfold clkINext; rw [a1, h.clkI]; simp
    have b2 : clkONext (periods H S) s i = !decide (m % 2 = 0) := by unfold clkONext; rw [a1, h.clkO, h.req]; simp
    have b1' : (!decide (m % 2 = 0)) = decide ((m + 1) % 2 = 0) := by
      rw [← decide_not]; exact decide_eq_decide.2 (by omega)
    have b3 : wrEn (periods H S) s i = decide (m % 2 = 0) := by unfold wrEn; rw [b1, h.last, h.req]; simp
    have b4 : rdEn (periods H S) s i = !decide (m % 2 = 0) := by unfold rdEn; rw [b1, h.last, h.req]; simp
    rw [b1'] at b1 b2
    have hm1 : m < 15 → (next (periods H S) s i).cnt 2 = cpos H (m + 1) 0 := by
      intro hlt
      have : decide (m = 15) = false := by simp; omega
      rw [a4, this]; simp only [Bool.false_eq_true, if_false]; exact cpos_m hH hlt
    by_cases hp : m % 2 = 0
    · rw [if_pos hp]
      have hd : decide (m % 2 = 0) = true := by simp [hp]
      rw [hd] at b3 b4
      have hlt : m < 15 := by omega
      have e15 : decide (m = 15) = false := by simp; omega
      rw [e15] at a3
      refine ⟨⟨by omega, hH, ?_, a3, hm1 hlt, b1, b2, b1, ?_, ?_, ?_, ?_⟩, ?_⟩
      · simp [next, a3, h.req]
      · simp only [next, b3, h.eowD, h.txInit]; simp
      · intro _
        simp only [next, b3, if_true, h.txInit]
        by_cases h0 : m = 0
        · subst h0; simp [hw]
        · have : decide (m ≠ 0) = true := by simp [h0]
          rw [this, if_pos rfl, h.tx h0, shift_drop _ _ (by omega)]
          have : (m - 1) / 2 + 1 = (m + 1 - 1) / 2 := by omega
          rw [this]
      · rw [h.len]; omega
      · obtain ⟨r, h1, h2⟩ := h.rx
        refine ⟨r, by simpa [next, b4] using h1, by omega⟩
      · simp [rises, out, h.clkO, hd]
    · rw [if_neg hp]
      have hd : decide (m % 2 = 0) = false := by simp [hp]
      have hd' : decide ((m + 1) % 2 = 0) = true := by rw [← b1', hd]; rfl
      rw [hd] at b3 b4
      rw [hd'] at b1 b2
      have hrx : ∃ r, (next (periods H S) s i).rx = r ++ (ms ++ [i.miso]) ∧ r.length = 8 - m / 2 - 1 := by
        obtain ⟨r, h1, h2⟩ := h.rx
        refine ⟨r.tail, ?_, by simp [h2]⟩
        simp only [next, b4, h1, Bool.not_false, if_true]
        match r, h2 with
        | [], h2 => simp at h2; omega
        | x :: r, _ => simp
      refine ⟨by simp [rises, out, b2, h.clkO, hd], ?_, ?_⟩
      · have h0 : m ≠ 0 := by omega
        have e : (m - 1) / 2 = m / 2 := by omega
        show w[m / 2]? = some (s.tx.headD false)
        rw [h.tx h0, e, List.drop_eq_getElem_cons (by omega : m / 2 < w.length)]
        exact List.getElem?_eq_getElem _
      · by_cases hm15 : m + 1 < 16
        · rw [if_pos hm15]
          have e15 : decide (m = 15) = false := by simp; omega
          rw [e15] at a3
          refine ⟨hm15, hH, ?_, a3, hm1 (by omega), by rw [hd']; exact b1, by rw [hd']; exact b2, by rw [hd']; exact b1, ?_, ?_, ?_, ?_⟩
          · simp [next, a3, h.req]
          · simp only [next, b3, h.eowD, h.txInit]; simp; omega
          · intro _
            have h0 : m ≠ 0 := by omega
            have e : (m + 1 - 1) / 2 = (m - 1) / 2 := by omega
            rw [e]
            simpa [next, b3] using h.tx h0
          · rw [List.length_append, h.len]; simp; omega
          · obtain ⟨r, h1, h2⟩ := hrx
            exact ⟨r, h1, by omega⟩
        · rw [if_neg hm15]
          have e15 : decide (m = 15) = true := by simp; omega
          rw [e15] at a3
          refine ⟨⟨a3, b1, b2, b1, ?_, ?_⟩, by simp [next, a3]⟩
          · obtain ⟨r, h1, h2⟩ := hrx
            have : r = [] := List.eq_nil_of_length_eq_zero (by omega)
            rw [h1, this]; rfl
          · rw [List.length_append, h.len]; simp; omega

theorem busy_zero {s : St} {i : In} {w : List Bool} {l : Bool} {p ms : List Bool} (h : Busy H S s w l p ms 0) :
    s.eowD = true ∧ p = w ∧ s.rx = ms ∧ ms.length = 8 ∧ rises (i, out (periods H S) s i) = false ∧
    Start H (next (periods H S) s i) ∧ (next (periods H S) s i).req = l := by
  have hH := H_pos hc
  generalize hd : 0 = d at h
  cases h with
  | wait h => have := h.k_lt; exfalso; omega
  | @data m k _ h =>
    have h1 := h.k_lt
    have h2 : H ≤ (16 - m) * H := Nat.le_mul_of_pos_left _ (by have := h.m_lt; omega)
    exfalso; omega
  | done h hr =>
    have he : en s i = false := by simp [en, h.eowD]
    obtain ⟨a, b, c⟩ := next_off hc he h.clkI h.clkO h.last (by rw [h.rx, h.len]) (Or.inl h.eowD)
    exact ⟨h.eowD, rfl, h.rx, h.len, c, a, by rw [b, hr]⟩

theorem busy_succ {s : St} {i : In} {w : List Bool} {l : Bool} {p ms : List Bool} {d : Nat} (h : Busy H S s w l p ms (d + 1))
    (hv : i.vld = true) (hw : i.dout = w) (hl : i.last = l) (h8 : w.length = 8) :
    s.eowD = false ∧ Busy H S (next (periods H S) s i) w l
      (p ++ given (rises (i, out (periods H S) s i)) (out (periods H S) s i).mosi)
      (ms ++ given (rises (i, out (periods H S) s i)) i.miso) d := by
  have hH := H_pos hc
  generalize hd : d + 1 = d' at h
  cases h with
  | @wait m k h =>
    refine ⟨h.eowD, ?_⟩
    have hm := h.m_lt
    have hk := h.k_lt
    obtain ⟨a, b⟩ := wait_next hc h hv w
    rw [b]
    have e0 : (2 * S - m) * H = (2 * S - (m + 1)) * H + H := by
      rw [show 2 * S - m = 2 * S - (m + 1) + 1 by omega, Nat.add_mul]; omega
    by_cases h1 : k + 1 < H
    · rw [if_pos h1] at a
      have : d = 16 * H + (2 * S - m) * H - (k + 1) := by omega
      rw [this]; exact Busy.wait a
    · rw [if_neg h1] at a
      by_cases h2 : m + 1 < 2 * S
      · rw [if_pos h2] at a
        have : d = 16 * H + (2 * S - (m + 1)) * H - 0 := by omega
        rw [this]; exact Busy.wait a
      · rw [if_neg h2] at a
        have e1 : (2 * S - (m + 1)) * H = 0 := by rw [show 2 * S - (m + 1) = 0 by omega, Nat.zero_mul]
        have : d = (16 - 0) * H - 0 := by omega
        rw [this]; exact Busy.data a
  | @data m k ms h =>
    refine ⟨h.eowD, ?_⟩
    have hm := h.m_lt
    have hk := h.k_lt
    have a := data_next hc h hv hw h8
    have e0 : (16 - m) * H = (16 - (m + 1)) * H + H := by
      rw [show 16 - m = 16 - (m + 1) + 1 by omega, Nat.add_mul]; omega
    by_cases h1 : k + 1 < H
    · rw [if_pos h1] at a
      rw [a.2]
      have : d = (16 - m) * H - (k + 1) := by omega
      rw [this]
      simp only [given_false, List.append_nil]
      exact Busy.data a.1
    · rw [if_neg h1] at a
      by_cases hp : m % 2 = 0
      · rw [if_pos hp] at a
        rw [a.2]
        have : d = (16 - (m + 1)) * H - 0 := by omega
        rw [this]
        have e2 : m / 2 = (m + 1) / 2 := by omega
        simp only [given_false, List.append_nil]
        rw [e2]
        exact Busy.data a.1
      · rw [if_neg hp] at a
        obtain ⟨a1, a2, a3⟩ := a
        rw [a1]
        simp only [given_true]
        have e3 : w.take (m / 2) ++ [(out (periods H S) s i).mosi] = w.take (m / 2 + 1) := by
          rw [List.take_add_one, a2]; rfl
        rw [e3]
        by_cases h2 : m + 1 < 16
        · rw [if_pos h2] at a3
          have : d = (16 - (m + 1)) * H - 0 := by omega
          rw [this]
          have e2 : m / 2 + 1 = (m + 1) / 2 := by omega
          rw [e2]
          exact Busy.data a3
        · rw [if_neg h2] at a3
          have e1 : (16 - (m + 1)) * H = 0 := by rw [show 16 - (m + 1) = 0 by omega, Nat.zero_mul]
          have : d = 0 := by omega
          rw [this]
          have e2 : w.take (m / 2 + 1) = w := List.take_of_length_le (by omega)
          rw [e2]
          exact Busy.done a3.1 (by rw [a3.2, hl])
  | done h hr => exfalso; omega

theorem start_busy {s : St} (h : Start H s) (w : List Bool) (l : Bool) :
    Busy H S s w l [] [] (16 * H + if s.req then 2 * S * H else 0) := by
  have hH := H_pos hc
  have hS := hc.2
  cases hr : s.req
  · have hd : Data H s w 0 0 [] := ⟨by omega, hH, hr, h.eowD, by rw [h.cnt, cpos_top hH], h.clkI, h.clkO, h.last, h.txInit,
      fun h => absurd rfl h, rfl, _, (List.append_nil _).symm, h.rx⟩
    have := Busy.data (S := S) (l := l) hd
    simpa using this
  · have hd : Wait H S s 0 0 := ⟨by omega, hH, hr, h.eowD, by rw [h.cnt, cpos_top hH], h.clkI, h.clkO, h.last, h.txInit, h.rx⟩
    exact Busy.wait (w := w) (l := l) hd

/-- The last of the last completed word. -/
def prevLast : Bool → List (In × Out) → Bool
  | r, [] => r
  | r, e :: tr => prevLast (if e.1.vld && e.2.rd then e.1.last else r) tr

/-- The state, given the word to be held, the last of the previous word and the bits of the current word. -/
def State (H S : Nat) (s : St) (r : Bool) (p ms : List Bool) : Option (List Bool × Bool) → Prop
  | none => Start H s ∧ s.req = r ∧ p = [] ∧ ms = []
  | some (w, l) => w.length = 8 ∧ ∃ d, Busy H S s w l p ms d

/-- The word to be held after a trace. -/
def heldAfter : Option (List Bool × Bool) → List (In × Out) → Option (List Bool × Bool)
  | g, [] => g
  | _, e :: tr => heldAfter (held e) tr

theorem run : ∀ (is : List In) (s : St) (g : Option (List Bool × Bool)) (r : Bool) (p ms : List Bool),
    State H S s r p ms g → Holds g ((machine (periods H S)).trace s is) → ∃ p' ms',
    State H S ((machine (periods H S)).final s is) (prevLast r ((machine (periods H S)).trace s is)) p' ms'
      (heldAfter g ((machine (periods H S)).trace s is)) ∧
    p ++ mosi ((machine (periods H S)).trace s is) = (sent ((machine (periods H S)).trace s is)).flatten ++ p' ∧
    ms ++ miso ((machine (periods H S)).trace s is) = (got ((machine (periods H S)).trace s is)).flatten ++ ms' ∧
    (∀ x ∈ sent ((machine (periods H S)).trace s is), x.length = 8) ∧
    (∀ x ∈ got ((machine (periods H S)).trace s is), x.length = 8) := by
  intro is
  induction is with
  | nil => intro s g r p ms h _; exact ⟨p, ms, h, by simp [mosi, sent], by simp [miso, got], by simp [sent], by simp [got]⟩
  | cons i is ih =>
    intro s g r p ms h hh
    have e : (machine (periods H S)).trace s (i :: is) =
      (i, out (periods H S) s i) :: (machine (periods H S)).trace (next (periods H S) s i) is := rfl
    rw [e] at hh ⊢
    obtain ⟨h1, h2, h3⟩ := hh
    rw [Machine.final_cons, show (machine (periods H S)).next s i = next (periods H S) s i from rfl]
    -- one cycle
    have key : ∃ p1 ms1, State H S (next (periods H S) s i) (if i.vld && s.eowD then i.last else r) p1 ms1
          (held (i, out (periods H S) s i)) ∧
        p ++ given (rises (i, out (periods H S) s i)) (out (periods H S) s i).mosi =
          (given (i.vld && s.eowD) i.dout).flatten ++ p1 ∧
        ms ++ given (rises (i, out (periods H S) s i)) i.miso = (given (i.vld && s.eowD) s.rx).flatten ++ ms1 ∧
        ((i.vld && s.eowD) = true → s.rx.length = 8) := by
      have busy : ∀ (w : List Bool) (l : Bool) (d : Nat), i.vld = true → i.dout = w → i.last = l → w.length = 8 →
          Busy H S s w l p ms d → ∃ p1 ms1, State H S (next (periods H S) s i) (if i.vld && s.eowD then i.last else r) p1 ms1
          (held (i, out (periods H S) s i)) ∧
        p ++ given (rises (i, out (periods H S) s i)) (out (periods H S) s i).mosi =
          (given (i.vld && s.eowD) i.dout).flatten ++ p1 ∧
        ms ++ given (rises (i, out (periods H S) s i)) i.miso = (given (i.vld && s.eowD) s.rx).flatten ++ ms1 ∧
        ((i.vld && s.eowD) = true → s.rx.length = 8) := by
        intro w l d hv hw hl h8 hb
        cases d with
        | zero =>
          obtain ⟨b1, b2, b3, b4, b5, b6, b7⟩ := busy_zero hc (i := i) hb
          refine ⟨[], [], ?_, ?_, ?_, ?_⟩
          · have : held (i, out (periods H S) s i) = none := by simp [held, out, b1]
            rw [this]
            exact ⟨b6, by rw [b7, hv, b1, hl]; rfl, rfl, rfl⟩
          · rw [b5, hv, b1, b2, hw]; simp [given]
          · rw [b5, hv, b1, b3]; simp [given]
          · intro _; rw [b3, b4]
        | succ d =>
          obtain ⟨b1, b2⟩ := busy_succ hc hb hv hw hl h8
          refine ⟨p ++ given (rises (i, out (periods H S) s i)) (out (periods H S) s i).mosi,
            ms ++ given (rises (i, out (periods H S) s i)) i.miso, ?_, ?_, ?_, ?_⟩
          · have : held (i, out (periods H S) s i) = some (w, l) := by simp [held, out, b1, hv, hw, hl]
            rw [this]
            exact ⟨h8, d, b2⟩
          · rw [b1]; simp [given]
          · rw [b1]; simp [given]
          · rw [b1]; simp
      cases g with
      | none =>
        obtain ⟨c1, c2, c3, c4⟩ := h
        cases hv : i.vld
        · have he : en s i = false := by simp [en, hv]
          obtain ⟨d1, d2, d3⟩ := next_off hc he c1.clkI c1.clkO c1.last c1.rx (Or.inr c1.txInit)
          refine ⟨[], [], ?_, ?_, ?_, by simp⟩
          · have : held (i, out (periods H S) s i) = none := by simp [held, hv]
            rw [this]
            exact ⟨d1, by rw [d2, c2]; rfl, rfl, rfl⟩
          · rw [d3, c3]; simp [given]
          · rw [d3, c4]; simp [given]
        · subst c3; subst c4
          have := busy i.dout i.last _ hv rfl rfl (h2 hv) (start_busy hc c1 i.dout i.last)
          rw [hv] at this
          exact this
      | some x =>
        obtain ⟨w, l⟩ := x
        obtain ⟨c1, d, c2⟩ := h
        obtain ⟨hv, hx⟩ := h1 _ rfl
        exact busy w l d hv (congrArg Prod.fst hx) (congrArg Prod.snd hx) c1 c2
    obtain ⟨p1, ms1, k1, k2, k3, k4⟩ := key
    obtain ⟨p', ms', j1, j2, j3, j4, j5⟩ := ih _ _ _ _ _ k1 h3
    refine ⟨p', ms', j1, ?_, ?_, ?_, ?_⟩
    · unfold mosi sent at j2 ⊢
      rw [filterMap_cons_ite, filterMap_cons_ite, ← List.append_assoc, List.flatten_append]
      show (p ++ given (rises (i, out (periods H S) s i)) (out (periods H S) s i).mosi) ++ _ =
        ((given (i.vld && s.eowD) i.dout).flatten ++ _) ++ p'
      rw [k2, List.append_assoc, j2, List.append_assoc]
    · unfold miso got at j3 ⊢
      rw [filterMap_cons_ite, filterMap_cons_ite, ← List.append_assoc, List.flatten_append]
      show (ms ++ given (rises (i, out (periods H S) s i)) i.miso) ++ _ =
        ((given (i.vld && s.eowD) s.rx).flatten ++ _) ++ ms'
      rw [k3, List.append_assoc, j3, List.append_assoc]
    · unfold sent at j4 ⊢
      rw [filterMap_cons_ite]
      intro x hx
      rcases List.mem_append.1 hx with hx | hx
      · revert hx
        show x ∈ given (i.vld && s.eowD) i.dout → _
        cases hv : i.vld <;> cases he : s.eowD <;> simp [given]
        intro hx; rw [hx]; exact h2 hv
      · exact j4 x hx
    · unfold got at j5 ⊢
      rw [filterMap_cons_ite]
      intro x hx
      rcases List.mem_append.1 hx with hx | hx
      · revert hx
        show x ∈ given (i.vld && s.eowD) s.rx → _
        cases hv : i.vld && s.eowD <;> simp [given]
        intro hx; rw [hx]; exact k4 (by simpa using hv)
      · exact j5 x hx

theorem init_state {s : St} (h : IsInit (periods H S) s) : State H S s true [] [] none := by
  obtain ⟨h1, h2, h3, h4, h5, h6, h7, h8⟩ := h
  exact ⟨⟨h3, by rw [h1, init_eq hc], h4, h5, h6, h7, h8⟩, h2, rfl, rfl⟩

/-- A run with a held word. -/
theorem busy_run : ∀ (is : List In) (s : St) (w : List Bool) (l : Bool) (p ms : List Bool) (d : Nat),
    Busy H S s w l p ms d → w.length = 8 → (∀ i ∈ is, i.vld = true ∧ i.dout = w ∧ i.last = l) → is.length ≤ d →
    ∃ p' ms', Busy H S ((machine (periods H S)).final s is) w l p' ms' (d - is.length) := by
  intro is
  induction is with
  | nil => intro s w l p ms d h _ _ _; exact ⟨p, ms, h⟩
  | cons i is ih =>
    intro s w l p ms d h h8 hi hd
    obtain ⟨a, b, c⟩ := hi i List.mem_cons_self
    match d, hd with
    | d + 1, hd =>
      have := (busy_succ hc h a b c h8).2
      obtain ⟨p', ms', hb⟩ := ih _ w l _ _ d this h8 (fun j hj => hi j (List.mem_cons_of_mem _ hj)) (by simpa using hd)
      refine ⟨p', ms', ?_⟩
      rw [List.length_cons, Nat.add_sub_add_right]
      exact hb

end

end Verif.Spi
