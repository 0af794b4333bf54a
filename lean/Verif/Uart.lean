import Verif.TimersProps
/-!
# Models of `UartTx` and `UartRx` (hwtLib/peripheral/uart/tx.py, rx.py)
-/
namespace Verif.Uart

/-! ## UartTx -/

/-- tx.py:50 `data` (bit `j` of the 10 bit register), :51 `en`, :68 `reg_txd`; `cnt` are the registers of
the timers (:52-54). -/
structure Tx where
  data : Nat → Bool
  en : Bool
  txd : Bool
  cnt : Nat → Nat

structure TxIn where
  vld : Bool
  data : Nat

structure TxOut where
  rd : Bool
  txd : Bool

/-- tx.py:52-54: `timers([BIT_RATE, BIT_RATE * BITS_TO_SEND], en)` -/
def txPeriods (B : Nat) : List Nat := [B, B * 10]

def txTimers (B : Nat) (s : Tx) : List Bool := (Timers.machine (txPeriods B)).out s.cnt ⟨s.en, false⟩
def txTick (B : Nat) (s : Tx) : Bool := (txTimers B s).getD 0 false
def txLast (B : Nat) (s : Tx) : Bool := (txTimers B s).getD 1 false

/-- tx.py:57 `Concat(STOP_BIT, din.data, START_BIT)` -/
def txLoad (d : Nat) : Nat → Bool := fun j => if j = 0 then false else if j < 9 then d.testBit (j - 1) else true

/-- tx.py:61 shift right, 1 is shifted in from the left -/
def txShift (x : Nat → Bool) : Nat → Bool := fun j => if j = 9 then true else x (j + 1)

/-- tx.py:56-65, :69-71 -/
def txNext (B : Nat) (s : Tx) (i : TxIn) : Tx where
  data := if !s.en && i.vld then txLoad i.data else if txTick B s && s.en then txShift s.data else s.data
  en := if !s.en && i.vld then true else if txTick B s && s.en then (if txLast B s then false else s.en)
    else s.en
  txd := if txTick B s && s.en then s.data 0 else s.txd
  cnt := (Timers.machine (txPeriods B)).next s.cnt ⟨s.en, false⟩

/-- tx.py:66, :72; `B` is `FREQ // BAUD` (:44) -/
def tx (B : Nat) : Machine Tx TxIn TxOut where
  out s _ := ⟨!s.en, s.txd⟩
  next := txNext B

/-- After reset; `data` has no reset value. -/
def txInit (B : Nat) (d0 : Nat → Bool) : Tx := ⟨d0, false, true, Timers.init (txPeriods B)⟩

/-! ### Lemmas -/

theorem txPeriods_pos {B : Nat} (hB : 0 < B) : ∀ p ∈ txPeriods B, 0 < p := by
  intro p hp
  simp only [txPeriods, List.mem_cons, List.not_mem_nil, or_false] at hp
  omega

theorem txTick_eq {B : Nat} (hB : 0 < B) {k : Nat} (s : Tx) (hr : Timers.Reg (txPeriods B) k s.cnt) :
    txTick B s = (s.en && ((k + 1) % B == 0)) := by
  unfold txTick txTimers
  rw [List.getD_eq_getElem?_getD, Timers.out_getElem _ _ _ 0 (by simp [txPeriods]),
    Timers.tick_eq _ (txPeriods_pos hB) hr _ rfl 0 (by simp [txPeriods])]
  rfl

theorem txLast_eq {B : Nat} (hB : 0 < B) {k : Nat} (s : Tx) (hr : Timers.Reg (txPeriods B) k s.cnt) :
    txLast B s = (s.en && ((k + 1) % (B * 10) == 0)) := by
  unfold txLast txTimers
  rw [List.getD_eq_getElem?_getD, Timers.out_getElem _ _ _ 1 (by simp [txPeriods]),
    Timers.tick_eq _ (txPeriods_pos hB) hr _ rfl 1 (by simp [txPeriods])]
  rfl

/-- Bit `j` of the frame of byte `d`: start bit 0, data from the least significant bit, stop bit 1. -/
def frame (d j : Nat) : Bool := if j = 0 then false else if j < 9 then d.testBit (j - 1) else true

structure Idle (B : Nat) (s : Tx) : Prop where
  en : s.en = false
  txd : s.txd = true
  reg : ∃ q, Timers.Reg (txPeriods B) (B * 10 * q) s.cnt

/-- `n` enabled cycles after a byte `d` was accepted. -/
structure Sending (B d n : Nat) (s : Tx) : Prop where
  lt : n < B * 10
  en : s.en = true
  data : ∀ j, j < 10 → s.data j = frame d (j + n / B)
  txd : s.txd = if n / B = 0 then true else frame d (n / B - 1)
  reg : ∃ q, Timers.Reg (txPeriods B) (B * 10 * q + n) s.cnt

theorem idle_wait {B : Nat} (hB : 0 < B) {s : Tx} (h : Idle B s) (i : TxIn) (hv : i.vld = false) :
    Idle B (txNext B s i) := by
  obtain ⟨he, ht, q, hq⟩ := h
  refine ⟨by simp [txNext, he, hv], by simp [txNext, he, ht], q, ?_⟩
  have := Timers.reg_next _ (txPeriods_pos hB) hq ⟨s.en, false⟩
  simpa [Timers.kNext, he, txNext] using this

theorem idle_accept {B : Nat} (hB : 0 < B) {s : Tx} (h : Idle B s) (i : TxIn) (hv : i.vld = true) :
    Sending B i.data 0 (txNext B s i) := by
  obtain ⟨he, ht, q, hq⟩ := h
  refine ⟨by omega, by simp [txNext, he, hv], ?_, by simp [txNext, he, ht], q, ?_⟩
  · intro j _
    simp [txNext, he, hv, txLoad, frame]
  · have := Timers.reg_next _ (txPeriods_pos hB) hq ⟨s.en, false⟩
    simpa [Timers.kNext, he, txNext] using this

theorem mod10 {B q n : Nat} : (B * 10 * q + n + 1) % B = (n + 1) % B := by
  rw [show B * 10 * q + n + 1 = (n + 1) + B * (10 * q) by rw [Nat.mul_assoc]; omega, Nat.add_mul_mod_self_left]

theorem mod10' {B q n : Nat} : (B * 10 * q + n + 1) % (B * 10) = (n + 1) % (B * 10) := by
  rw [show B * 10 * q + n + 1 = (n + 1) + B * 10 * q by omega, Nat.add_mul_mod_self_left]

theorem sending_step {B : Nat} (hB : 0 < B) {d n : Nat} {s : Tx} (h : Sending B d n s) (i : TxIn) :
    (n + 1 < B * 10 → Sending B d (n + 1) (txNext B s i)) ∧
    (n + 1 = B * 10 → Idle B (txNext B s i)) := by
  obtain ⟨hn, he, hd, ht, q, hq⟩ := h
  have e1 := txTick_eq hB s hq
  have e2 := txLast_eq hB s hq
  rw [mod10, he, Bool.true_and] at e1
  rw [mod10', he, Bool.true_and] at e2
  have hreg := Timers.reg_next _ (txPeriods_pos hB) hq ⟨s.en, false⟩
  simp only [Timers.kNext, he] at hreg
  have hcnt : (txNext B s i).cnt = (Timers.machine (txPeriods B)).next s.cnt ⟨true, false⟩ := by
    simp [txNext, he]
  rw [← hcnt] at hreg
  simp only [Bool.false_eq_true, if_false, if_true] at hreg
  have hbit : (n + 1) % B = 0 → (n + 1) / B = n / B + 1 := Timers.succ_div_of_dvd hB
  have hbit' : (n + 1) % B ≠ 0 → (n + 1) / B = n / B := Timers.succ_div_of_not_dvd hB
  have hm10 : n / B < 10 := (Nat.div_lt_iff_lt_mul hB).2 (by rw [Nat.mul_comm]; exact hn)
  generalize n / B = m at *
  have hnt : (txNext B s i).txd = if (n + 1) / B = 0 then true else frame d ((n + 1) / B - 1) := by
    unfold txNext
    simp only [he, e1, Bool.and_true, beq_iff_eq]
    by_cases hz : (n + 1) % B = 0
    · rw [if_pos hz, hbit hz, if_neg (by omega), hd 0 (by omega)]
      congr 1; omega
    · rw [if_neg hz, hbit' hz]; exact ht
  constructor
  · intro h1
    have hl : txLast B s = false := by
      rw [e2, Nat.mod_eq_of_lt h1]; simp
    refine ⟨h1, ?_, ?_, hnt, q, by rw [Nat.add_assoc] at hreg; exact hreg⟩
    · simp [txNext, he, hl]
    · intro j hj
      simp only [txNext, he, e1, Bool.not_true, Bool.false_and, Bool.false_eq_true, if_false,
        Bool.and_true, beq_iff_eq]
      by_cases hz : (n + 1) % B = 0
      · rw [if_pos hz, hbit hz]
        unfold txShift
        by_cases h9 : j = 9
        · rw [if_pos h9]; unfold frame; rw [if_neg (by omega), if_neg (by omega)]
        · rw [if_neg h9, hd (j + 1) (by omega)]; congr 1; omega
      · rw [if_neg hz, hbit' hz]; exact hd j hj
  · intro h1
    have hl : txLast B s = true := by rw [e2, h1, Nat.mod_self]; rfl
    have hz : (n + 1) % B = 0 := by rw [h1, Nat.mul_mod_right]
    refine ⟨?_, ?_, q + 1, ?_⟩
    · simp [txNext, he, hl, e1, hz]
    · rw [hnt, h1, Nat.mul_div_cancel_left _ hB]; rfl
    · rw [show B * 10 * (q + 1) = B * 10 * q + n + 1 by rw [Nat.mul_succ]; omega]
      exact hreg

/-! ## UartRx -/

/-- rx.py:50-52 `en`, `first`, `RxD_data` (9 bits), :60 `RxD_sync`; registers of the timers `sampleTick`
(:55-57), `oversampleDoneTick` (clkBuilder.py:111-113), `isLastBitTick` (rx.py:68-70), and `oversample_cntr`
(clkBuilder.py:114-116). -/
structure Rx where
  en : Bool
  first : Bool
  data : Nat → Bool
  sync : Bool
  sCnt : Nat → Nat
  oCnt : Nat → Nat
  lCnt : Nat → Nat
  ones : Nat

structure RxOut where
  vld : Bool
  data : Nat → Bool

section
/- `OS` = OVERSAMPLING, `S` = FREQ // BAUD // OVERSAMPLING -/
variable (OS S : Nat)

/-- rx.py:55-57: timer with `enableSig=en, rstSig=~en` -/
def sampleTick (s : Rx) : Bool := ((Timers.machine [S]).out s.sCnt ⟨s.en, !s.en⟩).getD 0 false
/-- clkBuilder.py:111-113: `enableSig=sampleTick, rstSig=~en` -/
def rxdVld (s : Rx) : Bool := ((Timers.machine [OS]).out s.oCnt ⟨sampleTick S s, !s.en⟩).getD 0 false
/-- rx.py:68-70: `enableSig=rxd_vld, rstSig=~en` -/
def isLast (s : Rx) : Bool := ((Timers.machine [10]).out s.lCnt ⟨rxdVld OS S s, !s.en⟩).getD 0 false
/-- clkBuilder.py:130 `oversampleCntr > (sampleCount // 2 - 1)` -/
def rxd (s : Rx) : Bool := decide (OS / 2 - 1 < s.ones)
/-- rx.py:86 -/
def notStart (s : Rx) : Bool := s.first && rxdVld OS S s && rxd OS s

/-- rx.py:61, :71-85; clkBuilder.py:123-127. Input: `rxd`. -/
def rxNext (s : Rx) (line : Bool) : Rx where
  en := if s.en then (if rxdVld OS S s then (if notStart OS S s then false else !isLast OS S s) else s.en)
    else (if !s.sync then true else s.en)
  first := if s.en then (if rxdVld OS S s then (if notStart OS S s then true else isLast OS S s) else s.first)
    else s.first
  data := if s.en && rxdVld OS S s then fun j => if j = 8 then rxd OS s else s.data (j + 1) else s.data
  sync := line
  sCnt := (Timers.machine [S]).next s.sCnt ⟨s.en, !s.en⟩
  oCnt := (Timers.machine [OS]).next s.oCnt ⟨sampleTick S s, !s.en⟩
  lCnt := (Timers.machine [10]).next s.lCnt ⟨rxdVld OS S s, !s.en⟩
  ones := if rxdVld OS S s then 0 else if sampleTick S s && s.sync then (s.ones + 1) % 2 ^ (log2ceil OS + 1)
    else s.ones

/-- rx.py:87-89 -/
def rxOut (s : Rx) : RxOut := ⟨isLast OS S s && !s.data 0 && rxd OS s, fun j => s.data (j + 1)⟩

def rx : Machine Rx Bool RxOut where
  out s _ := rxOut OS S s
  next := rxNext OS S

/-- After reset; `RxD_data` has no reset value. -/
def rxInit (d0 : Nat → Bool) : Rx :=
  ⟨false, true, d0, true, Timers.init [S], Timers.init [OS], Timers.init [10], 0⟩

end

/-! ### Lemmas -/

theorem single_tick {p : Nat} (hp : 0 < p) {k : Nat} {cnt : Nat → Nat} (hr : Timers.Reg [p] k cnt) (e : Bool) :
    ((Timers.machine [p]).out cnt ⟨e, false⟩).getD 0 false = (e && ((k + 1) % p == 0)) := by
  rw [List.getD_eq_getElem?_getD, Timers.out_getElem _ _ _ 0 (by simp),
    Timers.tick_eq _ (by simpa using hp) hr _ rfl 0 (by simp)]
  rfl

theorem single_off {p : Nat} (cnt : Nat → Nat) (r : Bool) :
    ((Timers.machine [p]).out cnt ⟨false, r⟩).getD 0 false = false := by
  rw [List.getD_eq_getElem?_getD, Timers.out_getElem _ _ _ 0 (by simp)]
  rw [Option.getD_some, show Timers.depth [p] = 3 from rfl]
  unfold Timers.tick
  rw [Timers.parent_single]
  simp only
  split <;> simp

theorem single_next {p : Nat} (hp : 0 < p) {k : Nat} {cnt : Nat → Nat} (hr : Timers.Reg [p] k cnt) (e : Bool) :
    Timers.Reg [p] (if e then k + 1 else k) ((Timers.machine [p]).next cnt ⟨e, false⟩) := by
  have := Timers.reg_next [p] (by simpa using hp) hr ⟨e, false⟩
  simpa [Timers.kNext] using this

theorem single_rst {p : Nat} (cnt : Nat → Nat) (e : Bool) :
    Timers.Reg [p] 0 ((Timers.machine [p]).next cnt ⟨e, true⟩) := by
  intro t _ _
  simp [Timers.machine, Timers.nextCnt]

theorem divided_mod {d m : Nat} (hd : 0 < d) (hm : 0 < m) (k : Nat) :
    ((k + 1) % d = 0 ∧ (k / d + 1) % m = 0) ↔ (k + 1) % (d * m) = 0 := by
  rw [← Timers.divided_iff hd hm, Timers.zero_iff hm]

/-- Number of ones among the first `n` samples of bit `j`. -/
def onesCnt (OS : Nat) (smp : Nat → Bool) (j n : Nat) : Nat := (List.range n).countP fun i => smp (j * OS + i)

/-- Bit `j` decided from all samples of the bit but the last one. -/
def bitOf (OS : Nat) (smp : Nat → Bool) (j : Nat) : Bool := decide (OS / 2 - 1 < onesCnt OS smp j (OS - 1))

theorem onesCnt_succ (OS : Nat) (smp : Nat → Bool) (j n : Nat) :
    onesCnt OS smp j (n + 1) = if smp (j * OS + n) then onesCnt OS smp j n + 1 else onesCnt OS smp j n := by
  unfold onesCnt
  rw [List.range_succ, List.countP_append, List.countP_singleton]
  split <;> rfl

theorem onesCnt_le (OS : Nat) (smp : Nat → Bool) (j n : Nat) : onesCnt OS smp j n ≤ n := by
  unfold onesCnt
  exact Nat.le_trans List.countP_le_length (by simp)

structure RIdle (s : Rx) : Prop where
  en : s.en = false
  first : s.first = true
  ones : s.ones = 0

/-- `k` cycles after reception started; `smp m` is the value of the `m`-th sample. -/
structure Recv (OS S : Nat) (smp : Nat → Bool) (k : Nat) (s : Rx) : Prop where
  lt : k < S * OS * 10
  en : s.en = true
  first : s.first = decide (k / (S * OS) = 0)
  start : k / (S * OS) ≠ 0 → bitOf OS smp 0 = false
  ones : s.ones = onesCnt OS smp (k / (S * OS)) (k / S % OS)
  data : ∀ l, l < k / (S * OS) → s.data (9 - k / (S * OS) + l) = bitOf OS smp l
  regS : Timers.Reg [S] k s.sCnt
  regO : Timers.Reg [OS] (k / S) s.oCnt
  regL : Timers.Reg [10] (k / (S * OS)) s.lCnt

section
variable {OS S : Nat}

theorem idle_ticks {s : Rx} (he : s.en = false) :
    sampleTick S s = false ∧ rxdVld OS S s = false ∧ isLast OS S s = false := by
  have h1 : sampleTick S s = false := by unfold sampleTick; rw [he]; exact single_off _ _
  have h2 : rxdVld OS S s = false := by unfold rxdVld; rw [h1]; exact single_off _ _
  have h3 : isLast OS S s = false := by unfold isLast; rw [h2]; exact single_off _ _
  exact ⟨h1, h2, h3⟩

theorem ridle_out {s : Rx} (h : RIdle s) : (rxOut OS S s).vld = false := by
  unfold rxOut; simp [(idle_ticks (OS := OS) (S := S) h.en).2.2]

theorem ridle_wait {s : Rx} (h : RIdle s) (hs : s.sync = true) (line : Bool) : RIdle (rxNext OS S s line) := by
  obtain ⟨h1, h2, h3⟩ := idle_ticks (OS := OS) (S := S) h.en
  exact ⟨by simp [rxNext, h.en, hs], by simp [rxNext, h.en, h.first], by simp [rxNext, h1, h2, h.ones]⟩

theorem ridle_start (hS : 0 < S) (hO : 0 < OS) (smp : Nat → Bool) {s : Rx} (h : RIdle s) (hs : s.sync = false)
    (line : Bool) : Recv OS S smp 0 (rxNext OS S s line) := by
  obtain ⟨h1, h2, h3⟩ := idle_ticks (OS := OS) (S := S) h.en
  have hB : 0 < S * OS := Nat.mul_pos hS hO
  refine ⟨by omega, by simp [rxNext, h.en, hs], by simp [rxNext, h.en, h.first], by simp, ?_, by simp, ?_, ?_, ?_⟩
  · simp [rxNext, h1, h2, h.ones, onesCnt]
  · have := single_rst (p := S) s.sCnt s.en
    simpa [rxNext, h.en] using this
  · have := single_rst (p := OS) s.oCnt (sampleTick S s)
    simpa [rxNext, h.en] using this
  · have := single_rst (p := 10) s.lCnt (rxdVld OS S s)
    simpa [rxNext, h.en] using this

theorem recv_ticks (hS : 0 < S) (hO : 0 < OS) {smp : Nat → Bool} {k : Nat} {s : Rx} (h : Recv OS S smp k s) :
    sampleTick S s = decide ((k + 1) % S = 0) ∧
    rxdVld OS S s = decide ((k + 1) % (S * OS) = 0) ∧
    isLast OS S s = decide (k + 1 = S * OS * 10) := by
  have hB : 0 < S * OS := Nat.mul_pos hS hO
  have h1 : sampleTick S s = decide ((k + 1) % S = 0) := by
    unfold sampleTick
    rw [h.en, Bool.not_true, single_tick hS h.regS, Bool.true_and]
    rw [Bool.eq_iff_iff]; simp
  have h2 : rxdVld OS S s = decide ((k + 1) % (S * OS) = 0) := by
    unfold rxdVld
    rw [h.en, Bool.not_true, single_tick hO h.regO, h1, Bool.eq_iff_iff, decide_eq_true_iff,
      ← divided_mod hS hO]
    simp
  refine ⟨h1, h2, ?_⟩
  unfold isLast
  rw [h.en, Bool.not_true, single_tick (by omega) h.regL, h2, Bool.eq_iff_iff, decide_eq_true_iff]
  have := divided_mod hB (show 0 < 10 by omega) k
  simp only [Bool.and_eq_true, decide_eq_true_iff, beq_iff_eq]
  rw [this]
  have hlt := h.lt
  constructor
  · intro hm
    rcases Nat.lt_or_ge (k + 1) (S * OS * 10) with h' | h'
    · rw [Nat.mod_eq_of_lt h'] at hm; omega
    · omega
  · intro hm; rw [hm, Nat.mod_self]

theorem recv_rxd {smp : Nat → Bool} (hS : 0 < S) (hO : 0 < OS) {k : Nat} {s : Rx} (h : Recv OS S smp k s)
    (hk : (k + 1) % (S * OS) = 0) : rxd OS s = bitOf OS smp (k / (S * OS)) := by
  unfold rxd bitOf
  rw [h.ones]
  have := ((divided_mod hS hO k).2 hk).2
  have h2 := (Timers.zero_iff hO (k / S)).2 this
  have h3 := Nat.mod_lt (k / S) hO
  rw [show k / S % OS = OS - 1 by omega]

theorem recv_out (hS : 0 < S) (hO : 0 < OS) {smp : Nat → Bool} {k : Nat} {s : Rx} (h : Recv OS S smp k s) :
    ((rxOut OS S s).vld = (decide (k + 1 = S * OS * 10) && bitOf OS smp 9)) ∧
    (k + 1 = S * OS * 10 → ∀ l, l < 8 → (rxOut OS S s).data l = bitOf OS smp (l + 1)) := by
  have hB : 0 < S * OS := Nat.mul_pos hS hO
  obtain ⟨h1, h2, h3⟩ := recv_ticks hS hO h
  by_cases hk : k + 1 = S * OS * 10
  · have hm : (k + 1) % (S * OS) = 0 := by rw [hk, Nat.mul_mod_right]
    have hd : k / (S * OS) = 9 := by
      have := Timers.succ_div_of_dvd hB hm
      rw [hk, Nat.mul_div_cancel_left _ hB] at this
      omega
    have hr := recv_rxd hS hO h hm
    have hdata := h.data
    rw [hd] at hr hdata
    constructor
    · unfold rxOut
      simp only [h3, hk, hr, decide_true, Bool.true_and]
      have := hdata 0 (by omega)
      rw [show 9 - 9 + 0 = 0 from rfl] at this
      rw [this, h.start (by omega)]; rfl
    · intro _ l hl
      have := hdata (l + 1) (by omega)
      rw [show 9 - 9 + (l + 1) = l + 1 by omega] at this
      exact this
  · refine ⟨?_, fun h => absurd h hk⟩
    unfold rxOut
    simp [h3, hk]

/-- Not the last cycle of a bit. -/
theorem recv_mid (hS : 0 < S) (hO : 0 < OS) {smp : Nat → Bool} {k : Nat} {s : Rx} (h : Recv OS S smp k s)
    (hs : (k + 1) % S = 0 → s.sync = smp (k / S)) (line : Bool) (hk : (k + 1) % (S * OS) ≠ 0) :
    Recv OS S smp (k + 1) (rxNext OS S s line) := by
  have hB : 0 < S * OS := Nat.mul_pos hS hO
  obtain ⟨h1, h2, h3⟩ := recv_ticks hS hO h
  have h2' : rxdVld OS S s = false := by rw [h2]; exact decide_eq_false hk
  have eB : (k + 1) / (S * OS) = k / (S * OS) := Timers.succ_div_of_not_dvd hB hk
  have hlt : k + 1 < S * OS * 10 := by
    have := h.lt
    rcases Nat.lt_or_ge (k + 1) (S * OS * 10) with h' | h'
    · exact h'
    · exfalso; apply hk
      rw [show k + 1 = S * OS * 10 by omega, Nat.mul_mod_right]
  have rS := single_next hS h.regS true
  have rO := single_next hO h.regO (sampleTick S s)
  have rL := single_next (show 0 < 10 by omega) h.regL (rxdVld OS S s)
  have base : (rxNext OS S s line).en = true ∧ (rxNext OS S s line).first = s.first ∧
      (rxNext OS S s line).data = s.data := by
    refine ⟨?_, ?_, ?_⟩ <;> simp [rxNext, h.en, h2']
  refine ⟨hlt, base.1, ?_, ?_, ?_, ?_, ?_, ?_, ?_⟩
  · rw [base.2.1, eB]; exact h.first
  · rw [eB]; exact h.start
  · rw [eB]
    unfold rxNext
    simp only [h2', Bool.false_eq_true, if_false, h1]
    by_cases ht : (k + 1) % S = 0
    · have eS := Timers.succ_div_of_dvd hS ht
      have hno : (k / S + 1) % OS ≠ 0 := fun hz => hk ((divided_mod hS hO k).1 ⟨ht, hz⟩)
      have em : (k / S + 1) % OS = k / S % OS + 1 := by
        have hz := mt (Timers.zero_iff hO (k / S)).1 hno
        have hl := Nat.mod_lt (k / S) hO
        rw [Nat.add_mod, Nat.mod_eq_of_lt (show 1 < OS by omega), Nat.mod_eq_of_lt (by omega)]
      have ej : k / (S * OS) * OS + k / S % OS = k / S := by
        rw [← Nat.div_div_eq_div_mul, Nat.mul_comm]
        exact Nat.div_add_mod _ _
      rw [eS, em, onesCnt_succ, ej, h.ones, hs ht]
      simp only [ht, decide_true, Bool.true_and]
      have hle := onesCnt_le OS smp (k / (S * OS)) (k / S % OS)
      have hl := Nat.mod_lt (k / S) hO
      have hp := le_two_pow_log2ceil OS
      rw [Nat.mod_eq_of_lt (by rw [Nat.pow_succ]; omega)]
    · rw [Timers.succ_div_of_not_dvd hS ht]
      simp only [ht, decide_false, Bool.false_and, Bool.false_eq_true, if_false]
      exact h.ones
  · rw [eB, base.2.2]; exact h.data
  · simpa [rxNext, h.en] using rS
  · rw [h1] at rO
    have e : (rxNext OS S s line).oCnt
        = (Timers.machine [OS]).next s.oCnt ⟨decide ((k + 1) % S = 0), false⟩ := by simp [rxNext, h1, h.en]
    rw [e]
    by_cases ht : (k + 1) % S = 0
    · rw [Timers.succ_div_of_dvd hS ht]; simpa [ht] using rO
    · rw [Timers.succ_div_of_not_dvd hS ht]; simpa [ht] using rO
  · rw [eB]
    simpa [rxNext, h.en, h2'] using rL

/-- The last cycle of a bit. -/
theorem recv_done (hS : 0 < S) (hO : 0 < OS) {smp : Nat → Bool} {k : Nat} {s : Rx} (h : Recv OS S smp k s)
    (line : Bool) (hk : (k + 1) % (S * OS) = 0) :
    (k + 1 < S * OS * 10 → bitOf OS smp 0 = false → Recv OS S smp (k + 1) (rxNext OS S s line)) ∧
    (k + 1 = S * OS * 10 ∨ (k + 1 = S * OS ∧ bitOf OS smp 0 = true) → RIdle (rxNext OS S s line)) := by
  have hB : 0 < S * OS := Nat.mul_pos hS hO
  obtain ⟨h1, h2, h3⟩ := recv_ticks hS hO h
  have h2' : rxdVld OS S s = true := by rw [h2]; exact decide_eq_true hk
  have hd := (divided_mod hS hO k).2 hk
  have h1' : sampleTick S s = true := by rw [h1]; exact decide_eq_true hd.1
  have eB := Timers.succ_div_of_dvd hB hk
  have eS := Timers.succ_div_of_dvd hS hd.1
  have hr := recv_rxd hS hO h hk
  have hns : notStart OS S s = (decide (k / (S * OS) = 0) && bitOf OS smp (k / (S * OS))) := by
    unfold notStart; rw [h.first, h2', hr, Bool.and_true]
  constructor
  · intro hlt hb
    have hl : isLast OS S s = false := by rw [h3]; exact decide_eq_false (by omega)
    have hn : notStart OS S s = false := by
      rw [hns]
      by_cases hz : k / (S * OS) = 0
      · rw [hz, hb]; simp
      · simp [hz]
    have rS := single_next hS h.regS true
    have rO := single_next hO h.regO true
    have rL := single_next (show 0 < 10 by omega) h.regL true
    have hj : k / (S * OS) < 9 := by
      have : (k + 1) / (S * OS) < 10 := (Nat.div_lt_iff_lt_mul hB).2 (by rw [Nat.mul_comm]; exact hlt)
      omega
    refine ⟨hlt, ?_, ?_, fun _ => hb, ?_, ?_, ?_, ?_, ?_⟩
    · simp [rxNext, h.en, h2', hn, hl]
    · rw [eB]; simp [rxNext, h.en, h2', hn, hl]
    · rw [eS, hd.2]
      simp [rxNext, h2', onesCnt]
    · rw [eB]
      intro l hl'
      have e : (rxNext OS S s line).data = fun j => if j = 8 then rxd OS s else s.data (j + 1) := by
        simp [rxNext, h.en, h2']
      rw [e, hr]
      simp only
      have hdata := h.data
      generalize k / (S * OS) = j at *
      by_cases hlast : l = j
      · subst hlast
        rw [if_pos (by omega)]
      · rw [if_neg (by omega), ← hdata l (by omega)]
        congr 1; omega
    · simpa [rxNext, h.en] using rS
    · rw [eS]; simpa [rxNext, h.en, h1'] using rO
    · rw [eB]; simpa [rxNext, h.en, h2'] using rL
  · intro hend
    have hfin : notStart OS S s = true ∨ (notStart OS S s = false ∧ isLast OS S s = true) := by
      cases hn : notStart OS S s with
      | true => exact Or.inl rfl
      | false =>
        refine Or.inr ⟨rfl, ?_⟩
        rcases hend with he | ⟨he, hb⟩
        · rw [h3]; exact decide_eq_true he
        · have hz : k / (S * OS) = 0 := Nat.div_eq_of_lt (by omega)
          rw [hns, hz, hb] at hn
          simp at hn
    refine ⟨?_, ?_, by simp [rxNext, h2']⟩
    · rcases hfin with hf | ⟨hf, hl⟩
      · simp [rxNext, h.en, h2', hf]
      · simp [rxNext, h.en, h2', hf, hl]
    · rcases hfin with hf | ⟨hf, hl⟩
      · simp [rxNext, h.en, h2', hf]
      · simp [rxNext, h.en, h2', hf, hl]

end

end Verif.Uart
