import Verif.Common
import Mathlib.Data.List.Forall2
import Mathlib.Data.List.Induction
/-!
# Model of the address part of the AXI datapumps (hwtLib/amba/datapump/base.py)

`AxiDatapumpBase.addrHandler` translates the requests of the driver to AXI bursts. The transaction info which is stored for each
burst (`transInfo`) goes to a `HandshakedFifo` whose ready is an input here.
-/
namespace Verif.Datapump

/-- Parameters (base.py:44-62), widths in bits; `lenWidth` is `LEN_WIDTH` of the AXI class; `maxLen` is the largest value of
`req.len` (intf.py:39, 122). -/
structure Params where
  dataW : Nat
  alignas : Nat
  chunkW : Nat
  maxChunks : Nat
  addrW : Nat
  lenWidth : Nat
  maxLen : Nat

namespace Params
variable (p : Params)

/-- bytes in a word -/
def W : Nat := p.dataW / 8
/-- `getAxiLenMax() + 1` (base.py:123-124) -/
def L : Nat := 2 ^ p.lenWidth
def A : Nat := 2 ^ p.addrW
/-- `2 ** getSizeAlignBits()` (base.py:80-81) -/
def sz : Nat := 2 ^ log2ceil p.W
/-- base.py:89-90 -/
def aligned : Bool := decide (p.alignas = p.dataW)
/-- base.py:109-117; `offset` runs over `range(0, DATA_WIDTH, ALIGNAS)`. -/
def crossing : Bool := (p.alignas != p.dataW && decide (p.dataW ≤ p.chunkW)) ||
  (List.range p.dataW).any fun k => decide (k * p.alignas < p.dataW) && decide (p.dataW < k * p.alignas + p.chunkW)
/-- `useTransSplitting` (base.py:106-120) -/
def split : Bool := if p.L < p.maxLen + 1 then true else if p.maxLen + 1 = p.L then p.crossing else false
/-- divisor of `hasAlignmentError` (base.py:148-152) -/
def chunkAl : Nat := if p.alignas = 8 then 1 else 2 ^ log2ceil (p.chunkW / 8)
/-- `MAX_LEN` of the read datapump (r.py:86, intf.py:122) -/
def readMaxLen (maxChunks chunkW dataW : Nat) : Nat := (maxChunks * (chunkW / 8) + (dataW / 8) - 1) / (dataW / 8) - 1
/-- `MAX_LEN` of the write datapump: the default of `AddrSizeHs`, `MAX_BYTES` is not used (intf.py:28, 182-186). -/
def writeMaxLen : Nat := 511

end Params

/-- Request of the driver: `len` words - 1, `rem` bytes in the last word, 0 means all (intf.py:36-42). -/
structure Req where
  addr : Nat
  len : Nat
  rem : Nat
deriving DecidableEq

/-- An AXI burst with the stored transaction info (`rem` and `propagateLast`, r.py:96-110). -/
structure Burst where
  addr : Nat
  len : Nat
  rem : Nat
  last : Bool
deriving DecidableEq

section
variable (p : Params)

/-- base.py:83-84 -/
def addrAlign (a : Nat) : Nat := a - a % p.sz
/-- base.py:154-160 -/
def crosses (q : Req) : Bool := decide ((if q.rem = 0 then p.W else q.rem) > p.W - q.addr % p.sz)
/-- base.py:217-229 -/
def len0 (q : Req) : Nat := if !p.aligned && (q.addr % p.sz != 0 && crosses p q) then q.len + 1 else q.len
/-- base.py:148-152 -/
def alErr (q : Req) : Bool := decide (q.addr % p.chunkAl ≠ 0)

/-- Registers of `addrHandler` (base.py:180-181, 200). -/
structure ASt where
  pend : Bool
  tmp : Nat
  rmd : Nat

structure AIn where
  vld : Bool
  q : Req
  arRd : Bool
  tiRd : Bool
  err : Bool

/-- base.py:235-245 -/
def reqLen (s : ASt) (i : AIn) : Nat := if s.pend then s.rmd else len0 p i.q
/-- `reqLen > LEN_MAX` -/
def more (s : ASt) (i : AIn) : Bool := decide (p.L ≤ reqLen p s i)
/-- base.py:212-213 -/
def ack0 (i : AIn) : Bool := i.vld && i.arRd && i.tiRd && !i.err
/-- `transPartPending.next` -/
def pendNext (s : ASt) (i : AIn) : Bool := if ack0 i then more p s i else s.pend

/-- base.py:183-195, 259-269 -/
def reqRd (s : ASt) (i : AIn) : Bool :=
  if p.split then (i.arRd && i.tiRd && !pendNext p s i) && !pendNext p s i && !i.err else i.arRd && i.tiRd && !i.err
def arVld (s : ASt) (i : AIn) : Bool :=
  if p.split then (i.vld || pendNext p s i) && i.tiRd && (i.vld && !alErr p i.q) && !i.err
  else i.vld && i.tiRd && !alErr p i.q && !i.err
def tiVld (s : ASt) (i : AIn) : Bool :=
  if p.split then (i.vld || pendNext p s i) && i.arRd && (i.vld && !alErr p i.q) && !i.err
  else i.vld && i.arRd && !alErr p i.q && !i.err
/-- `ar_ack`, base.py:194-195 -/
def ack (s : ASt) (i : AIn) : Bool :=
  ((i.vld && !pendNext p s i) || pendNext p s i) && (i.arRd && (i.vld && !alErr p i.q)) && (i.tiRd && (i.vld && !alErr p i.q)) && !i.err

/-- Address, length and transaction info, base.py:202-208, 235-245, 246-258. -/
def burst (s : ASt) (i : AIn) : Burst :=
  if p.split then
    if more p s i then ⟨addrAlign p (if s.pend then s.tmp else i.q.addr), p.L - 1, 0, false⟩
    else ⟨addrAlign p (if s.pend then s.tmp else i.q.addr), reqLen p s i % p.L, i.q.rem, true⟩
  else ⟨addrAlign p i.q.addr,
    if p.maxLen = 0 then 0
    else if !p.aligned && (i.q.addr % p.sz != 0 && crosses p i.q) then (i.q.len % p.L + 1) % p.L else i.q.len,
    i.q.rem, true⟩

def aNext (s : ASt) (i : AIn) : ASt :=
  if p.split then
    { pend := pendNext p s i
      rmd := if ack0 i && more p s i then reqLen p s i - p.L else s.rmd
      tmp := if s.pend then (if ack p s i then (s.tmp + p.L * p.sz) % p.A else s.tmp) else (i.q.addr + p.L * p.sz) % p.A }
  else s

end

/-! ### Specification -/

/-- Number of words which contain a byte of the request: the bytes `addr .. addr + size - 1`. -/
def wordCnt (W : Nat) (q : Req) : Nat := (q.addr % W + (q.len * W + if q.rem = 0 then W else q.rem) + (W - 1)) / W

/-- Word `k` of the request with the mark of the last word of the request. -/
def wantAt (p : Params) (q : Req) (k : Nat) : Nat × Option Nat :=
  ((q.addr - q.addr % p.W + k * p.W) % p.A, if k + 1 = wordCnt p.W q then some q.rem else none)

/-- The words of a request: address, `some rem` for the last one. -/
def want (p : Params) (q : Req) : List (Nat × Option Nat) := (List.range (wordCnt p.W q)).map (wantAt p q)

/-- A word on the AXI bus: address, last of the burst, transaction info of the burst. -/
structure Beat where
  addr : Nat
  fin : Bool
  rem : Nat
  last : Bool
deriving DecidableEq

/-- The words of an AXI INCR burst. -/
def expand (p : Params) (b : Burst) : List Beat :=
  (List.range (b.len + 1)).map fun k => ⟨(b.addr + k * p.W) % p.A, decide (k = b.len), b.rem, b.last⟩

/-- What a beat means for the request. -/
def Beat.norm (b : Beat) : Nat × Option Nat := (b.addr, if b.fin && b.last then some b.rem else none)

/-! ### Configurations in which the length of the bursts is right -/

/-- The words are as wide as the address alignment assumes (`DATA_WIDTH` is a power of 2 and not 8). -/
structure Ok (p : Params) : Prop where
  sz : p.sz = p.W
  pos : 0 < p.W
  dvd : p.W ∣ p.A
  /-- the length fits to the AXI burst if the requests are not split -/
  len : p.split = false → p.aligned = false → 0 < p.maxLen ∧ p.maxLen + 1 < p.L

/-- A request which the datapump supports. -/
structure ReqOk (p : Params) (q : Req) : Prop where
  rem : q.rem < p.W
  len : q.len ≤ p.maxLen
  al : q.addr % p.chunkAl = 0
  addr : q.addr < p.A
  word : p.aligned = true → q.addr % p.W = 0

section
variable {p : Params}

theorem L_pos (p : Params) : 0 < p.L := Nat.two_pow_pos _

theorem len0_eq (h : Ok p) {q : Req} (hq : ReqOk p q) : len0 p q + 1 = wordCnt p.W q := by
  have hW := h.pos
  obtain ⟨h1, h2, h3, h4, h5⟩ := hq
  unfold len0 wordCnt crosses
  rw [h.sz]
  have ho := Nat.mod_lt q.addr hW
  generalize ho' : q.addr % p.W = o at *
  generalize hb : (if q.rem = 0 then p.W else q.rem) = b
  have hb1 : 0 < b ∧ b ≤ p.W := by split at hb <;> omega
  have key : (o + (q.len * p.W + b) + (p.W - 1)) / p.W = q.len + (o + b + (p.W - 1)) / p.W := by
    rw [show o + (q.len * p.W + b) + (p.W - 1) = p.W * q.len + (o + b + (p.W - 1)) by rw [Nat.mul_comm p.W]; omega, Nat.mul_add_div hW]
  rw [key]
  by_cases hc : (!p.aligned && (o != 0 && decide (b > p.W - o))) = true
  · rw [if_pos hc]
    simp only [Bool.and_eq_true, decide_eq_true_eq] at hc
    have : (o + b + (p.W - 1)) / p.W = 2 := by
      rw [Nat.div_eq_iff (by omega)]; omega
    omega
  · rw [if_neg hc]
    have hle : o + b ≤ p.W := by
      cases ha : p.aligned
      · simp [ha] at hc
        by_cases h0 : o = 0
        · omega
        · have := hc h0; omega
      · have := h5 ha; omega
    have : (o + b + (p.W - 1)) / p.W = 1 := by
      rw [Nat.div_eq_iff (by omega)]; omega
    omega

theorem align_mod (h : Ok p) (x : Nat) : addrAlign p (x % p.A) = (x - x % p.W) % p.A := by
  unfold addrAlign
  rw [h.sz, Nat.mod_mod_of_dvd _ h.dvd]
  have hA : 0 < p.A := Nat.two_pow_pos _
  have h1 : x % p.W ≤ x % p.A := by
    rw [← Nat.mod_mod_of_dvd x h.dvd]; exact Nat.mod_le _ _
  have h2 := Nat.mod_lt x hA
  have h3 := Nat.div_add_mod x p.A
  have : x - x % p.W = p.A * (x / p.A) + (x % p.A - x % p.W) := by omega
  rw [this, Nat.mul_add_mod, Nat.mod_eq_of_lt (a := x % p.A - x % p.W) (by omega)]

/-- Beats of a burst of `n` words which starts with word `k0` of the request. -/
theorem expand_slice (q : Req) (k0 n : Nat) (b : Burst) (ha : b.addr = (q.addr - q.addr % p.W + k0 * p.W) % p.A)
    (hl : b.len + 1 = n) (hle : k0 + n ≤ wordCnt p.W q) (hr : b.last = true → b.rem = q.rem)
    (hlast : b.last = decide (k0 + n = wordCnt p.W q)) :
    (expand p b).map Beat.norm = (List.range n).map fun k => wantAt p q (k0 + k) := by
  unfold expand
  rw [hl, List.map_map]
  apply List.map_congr_left
  intro k hk
  have hk := List.mem_range.1 hk
  simp only [Function.comp, Beat.norm, wantAt]
  have e1 : (b.addr + k * p.W) % p.A = (q.addr - q.addr % p.W + (k0 + k) * p.W) % p.A := by
    rw [ha, Nat.mod_add_mod, Nat.add_mul]; congr 1; omega
  rw [e1]
  by_cases hf : k0 + k + 1 = wordCnt p.W q
  · have e2 : k = b.len := by omega
    have e3 : b.last = true := by rw [hlast]; simp; omega
    simp [e2, e3, hr e3]
    omega
  · have e2 : (decide (k = b.len) && b.last) = false := by
      rw [hlast]
      by_cases hx : k = b.len
      · have : ¬ (k0 + n = wordCnt p.W q) := by omega
        simp [this]
      · simp [hx]
    simp [e2, hf]

/-- Progress of the requests: `k` requests of the plan are finished, `P` are the bursts. -/
def AInv (p : Params) (plan : List Req) (s : ASt) (k : Nat) (P : List Burst) : Prop :=
  k ≤ plan.length ∧
  (s.pend = false → (P.flatMap (expand p)).map Beat.norm = (plan.take k).flatMap (want p)) ∧
  (s.pend = true → ∃ q n, plan[k]? = some q ∧ 0 < n ∧ n + s.rmd + 1 = wordCnt p.W q ∧ s.tmp = (q.addr + n * p.W) % p.A ∧
    (P.flatMap (expand p)).map Beat.norm = (plan.take k).flatMap (want p) ++ (List.range n).map (wantAt p q))

/-- Cycle of the address part: the driver follows its plan. -/
theorem ainv_next (h : Ok p) {plan : List Req} (hp : ∀ q ∈ plan, ReqOk p q) {s : ASt} {i : AIn} {k : Nat} {P : List Burst}
    (hI : AInv p plan s k P) (hi : i.vld = true → plan[k]? = some i.q) (hh : s.pend = true → i.vld = true)
    (hns : p.split = false → s.pend = false) :
    AInv p plan (aNext p s i) (if i.vld && reqRd p s i then k + 1 else k) (P ++ given (arVld p s i && i.arRd) (burst p s i)) ∧
    (tiVld p s i && i.tiRd) = (arVld p s i && i.arRd) ∧
    ((aNext p s i).pend = true → i.vld = true ∧ reqRd p s i = false) ∧
    (p.split = false → (aNext p s i).pend = false) ∧
    (i.vld = true → (burst p s i).len + 1 ≤ p.L) ∧
    (i.vld = true → (burst p s i).last = false → (burst p s i).len + 1 = p.L ∧ p.split = true) := by
  obtain ⟨hk, hI0, hI1⟩ := hI
  have hL := L_pos p
  cases hv : i.vld
  · -- nothing is requested
    have hpd : s.pend = false := by
      cases hx : s.pend
      · rfl
      · have := hh hx; simp [hv] at this
    have e1 : arVld p s i = false := by simp [arVld, hv]
    have e2 : tiVld p s i = false := by simp [tiVld, hv]
    have e3 : (aNext p s i).pend = false := by
      unfold aNext; split
      · simp [pendNext, ack0, hv, hpd]
      · exact hpd
    rw [e1, e2]
    refine ⟨⟨by simpa using hk, fun _ => by simpa [given] using hI0 hpd, fun h => by simp [e3] at h⟩, rfl, by simp [e3], fun _ => e3, by simp, by simp⟩
  · have hq := hi hv
    have hmem : i.q ∈ plan := List.mem_of_getElem? hq
    have hok := hp _ hmem
    have hal : alErr p i.q = false := by simp [alErr, hok.al]
    have hlt : k < plan.length := (List.getElem?_eq_some_iff.1 hq).1
    have htk : plan.take (k + 1) = plan.take k ++ [i.q] := by
      rw [List.take_add_one, hq]; rfl
    have hcnt := len0_eq h hok
    cases hsp : p.split
    · -- one burst for a request
      have hpd := hns hsp
      have hlen : (burst p s i).len + 1 = wordCnt p.W i.q ∧ (burst p s i).len + 1 ≤ p.L := by
        have hmx : p.maxLen + 1 ≤ p.L := by
          have := hsp; unfold Params.split at this; split at this
          · simp at this
          · omega
        have hl := hok.len
        have h0 := h.len hsp
        unfold burst
        rw [hsp]
        simp only [Bool.false_eq_true, if_false]
        unfold len0 at hcnt
        cases ha : p.aligned
        · obtain ⟨m1, m2⟩ := h0 ha
          rw [if_neg (by omega : ¬ p.maxLen = 0)]
          by_cases hc : (i.q.addr % p.sz != 0 && crosses p i.q) = true
          · simp only [hc, ha, Bool.not_false, Bool.and_self, if_true] at hcnt ⊢
            rw [Nat.mod_eq_of_lt (by omega : i.q.len < p.L), Nat.mod_eq_of_lt (by omega : i.q.len + 1 < p.L)]
            omega
          · simp only [hc, Bool.and_false, Bool.false_eq_true, if_false] at hcnt ⊢
            omega
        · simp only [ha, Bool.not_true, Bool.false_and, Bool.false_eq_true, if_false] at hcnt ⊢
          split <;> omega
      have hbl : (burst p s i).last = true := by simp [burst, hsp]
      have hbr : (burst p s i).rem = i.q.rem := by simp [burst, hsp]
      have hba : (burst p s i).addr = (i.q.addr - i.q.addr % p.W + 0 * p.W) % p.A := by
        have := align_mod h i.q.addr
        rw [Nat.mod_eq_of_lt hok.addr] at this
        simp [burst, hsp, this]
      have e0 : aNext p s i = s := by simp [aNext, hsp]
      have e1 : (arVld p s i && i.arRd) = (i.arRd && i.tiRd && !i.err) := by
        simp only [arVld, hsp, hv, hal]; cases i.arRd <;> cases i.tiRd <;> cases i.err <;> rfl
      have e2 : (tiVld p s i && i.tiRd) = (i.arRd && i.tiRd && !i.err) := by
        simp only [tiVld, hsp, hv, hal]; cases i.arRd <;> cases i.tiRd <;> cases i.err <;> rfl
      have e3 : reqRd p s i = (i.arRd && i.tiRd && !i.err) := by simp [reqRd, hsp]
      rw [e0, e1, e2, e3, Bool.true_and]
      have hslice := expand_slice i.q 0 (wordCnt p.W i.q) (burst p s i) hba hlen.1 (by omega) (fun _ => hbr) (by simp [hbl])
      have hw : (expand p (burst p s i)).map Beat.norm = want p i.q := by
        rw [hslice, want]; simp
      refine ⟨?_, rfl, by simp [hpd], fun _ => hpd, fun _ => hlen.2, by simp [hbl]⟩
      cases hg : (i.arRd && i.tiRd && !i.err)
      · exact ⟨hk, fun _ => by simpa [given] using hI0 hpd, by simp [hpd]⟩
      · refine ⟨hlt, fun _ => ?_, by simp [hpd]⟩
        rw [given_true, List.flatMap_append, List.map_append, hI0 hpd, if_pos rfl, htk, List.flatMap_append]
        simp [hw]
    · -- the request may be split
      have e1 : (arVld p s i && i.arRd) = ack0 i := by
        simp only [arVld, ack0, hsp, hv, hal]; cases i.arRd <;> cases i.tiRd <;> cases i.err <;> simp
      have e2 : (tiVld p s i && i.tiRd) = ack0 i := by
        simp only [tiVld, ack0, hsp, hv, hal]; cases i.arRd <;> cases i.tiRd <;> cases i.err <;> simp
      have e3 : reqRd p s i = (ack0 i && !more p s i || !ack0 i && (i.arRd && i.tiRd && !s.pend && !i.err)) := by
        simp only [reqRd, hsp, if_true, pendNext]
        cases hg : ack0 i
        · cases i.arRd <;> cases i.tiRd <;> cases i.err <;> cases s.pend <;> rfl
        · simp only [ack0, hv, Bool.true_and, Bool.and_eq_true, Bool.not_eq_true'] at hg
          cases more p s i <;> simp [hg]
      have e3' : ack0 i = false → reqRd p s i = false := by
        intro hg
        rw [e3, hg]
        simp only [ack0, hv] at hg
        cases h1 : i.arRd <;> cases h2 : i.tiRd <;> cases h3 : i.err <;> simp_all
      have e4 : ack p s i = ack0 i := by
        simp only [ack, ack0, hv, hal]
        cases i.arRd <;> cases i.tiRd <;> cases i.err <;> cases pendNext p s i <;> rfl
      have e5 : (aNext p s i).pend = pendNext p s i := by simp [aNext, hsp]
      -- progress of the current request
      obtain ⟨n, hn0, hn1, hn2, hn3⟩ : ∃ n, (s.pend = true → 0 < n) ∧ n + reqLen p s i + 1 = wordCnt p.W i.q ∧
          (if s.pend then s.tmp else i.q.addr) = (i.q.addr + n * p.W) % p.A ∧
          (P.flatMap (expand p)).map Beat.norm = (plan.take k).flatMap (want p) ++ (List.range n).map (wantAt p i.q) := by
        cases hpd : s.pend
        · refine ⟨0, by simp, ?_, ?_, ?_⟩
          · simp [reqLen, hpd]; omega
          · simp [Nat.mod_eq_of_lt hok.addr]
          · simp [hI0 hpd]
        · obtain ⟨q, n, a1, a2, a3, a4, a5⟩ := hI1 hpd
          rw [hq] at a1; cases a1
          exact ⟨n, fun _ => a2, by simp [reqLen, hpd]; omega, by simp [a4], a5⟩
      have hba : (burst p s i).addr = (i.q.addr - i.q.addr % p.W + n * p.W) % p.A := by
        have : addrAlign p (if s.pend then s.tmp else i.q.addr) = (i.q.addr - i.q.addr % p.W + n * p.W) % p.A := by
          rw [hn2, align_mod h, Nat.add_mul_mod_self_right]
          congr 1
          have := Nat.mod_le i.q.addr p.W
          omega
        unfold burst
        rw [hsp, if_pos rfl]
        split <;> exact this
      have hbl : (burst p s i).last = !more p s i := by
        unfold burst; rw [hsp, if_pos rfl]; split <;> simp_all
      have hbr : (burst p s i).last = true → (burst p s i).rem = i.q.rem := by
        intro hb
        rw [hbl] at hb
        have hb : more p s i = false := by simpa using hb
        unfold burst; rw [hsp, if_pos rfl, hb]; rfl
      have hblen : (burst p s i).len + 1 = if more p s i then p.L else reqLen p s i + 1 := by
        unfold burst; rw [hsp, if_pos rfl]
        split
        · show p.L - 1 + 1 = p.L; omega
        · rename_i hm
          have hm : more p s i = false := by simpa using hm
          simp only [more, decide_eq_false_iff_not] at hm
          simp [Nat.mod_eq_of_lt (by omega : reqLen p s i < p.L)]
      have hble : (burst p s i).len + 1 ≤ p.L := by
        rw [hblen]; split
        · exact Nat.le_refl _
        · rename_i hm
          simp only [more, decide_eq_true_eq] at hm; omega
      refine ⟨?_, by rw [e1, e2], ?_, by simp, fun _ => hble, ?_⟩
      · rw [e1]
        cases hg : ack0 i
        · rw [e3' hg]
          have hpn : pendNext p s i = s.pend := by simp [pendNext, hg]
          rw [given_false, List.append_nil]
          refine ⟨hk, fun h' => ?_, fun h' => ?_⟩
          · rw [e5, hpn] at h'; exact hI0 h'
          · rw [e5, hpn] at h'
            obtain ⟨q, n, a1, a2, a3, a4, a5⟩ := hI1 h'
            refine ⟨q, n, a1, a2, ?_, ?_, a5⟩
            · simp [aNext, hsp, hg, a3]
            · simp [aNext, hsp, h', e4, hg, a4]
        · have hpn : pendNext p s i = more p s i := by simp [pendNext, hg]
          cases hm : more p s i
          · have hr : reqRd p s i = true := by rw [e3, hg, hm]; rfl
            rw [hr, Bool.and_self, if_pos rfl, given_true]
            rw [hm, if_neg (by simp)] at hblen
            refine ⟨hlt, fun _ => ?_, fun h' => by rw [e5, hpn, hm] at h'; simp at h'⟩
            have hslice := expand_slice i.q n (reqLen p s i + 1) (burst p s i) hba hblen (by omega) hbr (by
              rw [hbl, hm]; symm; simp; omega)
            rw [List.flatMap_append, List.map_append, hn3, htk, List.flatMap_append, List.append_assoc]
            congr 1
            simp only [List.flatMap_cons, List.flatMap_nil, List.append_nil]
            rw [hslice, want, ← hn1, Nat.add_assoc, List.range_add (n := n), List.map_append, List.map_map]
            rfl
          · have hr : reqRd p s i = false := by rw [e3, hg, hm]; rfl
            rw [hr, Bool.and_false, if_neg (by simp), given_true]
            rw [hm, if_pos rfl] at hblen
            have hLe : p.L ≤ reqLen p s i := by simpa [more] using hm
            refine ⟨hk, fun h' => by rw [e5, hpn, hm] at h'; simp at h', fun _ => ⟨i.q, n + p.L, hq, by omega, ?_, ?_, ?_⟩⟩
            · simp [aNext, hsp, hg, hm]; omega
            · have ht : (aNext p s i).tmp = ((if s.pend then s.tmp else i.q.addr) + p.L * p.sz) % p.A := by
                simp only [aNext, hsp, if_true, e4, hg]
                cases s.pend <;> simp
              rw [ht, hn2, h.sz, Nat.mod_add_mod, Nat.add_mul, Nat.add_assoc]
            · have hslice := expand_slice i.q n p.L (burst p s i) hba hblen (by omega) hbr (by
                rw [hbl, hm]; symm; simp; omega)
              rw [List.flatMap_append, List.map_append, hn3, List.append_assoc]
              congr 1
              simp only [List.flatMap_cons, List.flatMap_nil, List.append_nil]
              rw [hslice, List.range_add, List.map_append, List.map_map]
              rfl
      · intro h'
        rw [e5] at h'
        refine ⟨rfl, ?_⟩
        cases hg : ack0 i
        · exact e3' hg
        · have hpn : pendNext p s i = more p s i := by simp [pendNext, hg]
          rw [hpn] at h'
          rw [e3, hg, h']; rfl
      · intro _ hb
        rw [hbl] at hb
        have hb : more p s i = true := by simpa using hb
        rw [hb, if_pos rfl] at hblen
        exact ⟨hblen, rfl⟩

end

end Verif.Datapump
