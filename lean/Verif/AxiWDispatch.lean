import Verif.Common
/-!
# Model of `AxiWriteAggregatorWriteDispatcher`
(hwtLib/amba/axi_comp/lsu/write_aggregator_write_dispatcher.py, "wd.py" below)

`α` is the word with its strobe, `κ` the key (cache line address). `N` is `BUS_WORDS_IN_CACHE_LINE`.
Simplifications: constant AXI fields (burst, prot, size, lock, cache, qos) are left out; the forward of
the B channel to `read_confirm` (wd.py:236-238) is purely combinational and left out.
-/
namespace Verif.AxiWDispatch

universe u v
variable {α : Type u} {κ : Type v}

/-- wd.py:186-192: one stage of read data; `valid`, `data` (with strobe), `last`. -/
structure Slot (α : Type u) where
  valid : Bool
  data : α
  last : Bool

/-- Registers: `ar_tmp` (wd.py:106-114), `pop_offset` (:161), `read_pending`, `item_last_delayed`, `read_data`,
`read_data_backup` (:184-195). -/
structure St (α : Type u) (κ : Type v) where
  awVld : Bool
  awId : Nat
  awKey : κ
  off : Nat
  pending : Bool
  lastD : Bool
  rd : Slot α
  bk : Slot α

/-- `read_execute.vld/index/key`, `data.en.rd`, `data.dout` with its mask, `m.aw.ready`, `m.w.ready`. -/
structure In (α : Type u) (κ : Type v) where
  xvld : Bool
  xidx : Nat
  xkey : κ
  enRd : Bool
  dout : α
  awReady : Bool
  wReady : Bool

/-- `read_execute.rd`, `data.en.vld`, `data.addr` (item, word), `m.aw`, `m.w`. -/
structure Out (α : Type u) (κ : Type v) where
  xrd : Bool
  enVld : Bool
  addrItem : Nat
  addrWord : Nat
  awVld : Bool
  awId : Nat
  awKey : κ
  awLen : Nat
  wVld : Bool
  wData : α
  wLast : Bool

/-- wd.py:54-59 `WORD_OFFSET_MAX` = `mask(log2ceil(N))`; without counter (`N = 1`) there is only word 0 (:155-158). -/
def maxOff (N : Nat) : Nat := if N = 1 then 0 else 2 ^ log2ceil N - 1

/-- wd.py:197 `r_ack` -/
def rAck (s : St α κ) (i : In α κ) : Bool := !s.rd.valid || i.wReady
/-- wd.py:156,169 `bus_w_first` -/
def first (s : St α κ) : Bool := s.off == 0
/-- wd.py:157,170 `bus_w_last` -/
def last (N : Nat) (s : St α κ) : Bool := s.off == maxOff N
/-- wd.py:150 `bus_ack` -/
def busAck (s : St α κ) (i : In α κ) : Bool := rAck s i && (i.awReady || !first s)
/-- wd.py:151 `aw_ld` -/
def awLd (s : St α κ) (i : In α κ) : Bool := busAck s i && first s && i.enRd && i.xvld
/-- wd.py:152 `pop_req` (= `read_execute.rd`) -/
def popReq (N : Nat) (s : St α κ) (i : In α κ) : Bool := busAck s i && i.enRd && i.xvld && last N s
/-- wd.py:153 `items.en.vld` -/
def enVld (s : St α κ) (i : In α κ) : Bool := busAck s i && i.xvld

/-- wd.py:162-168 -/
def nextOff (N : Nat) (s : St α κ) (i : In α κ) : Nat :=
  if busAck s i && i.enRd && i.xvld then (if s.off ≠ maxOff N then s.off + 1 else 0) else s.off

/-- wd.py:209-220 -/
def nextRd (s : St α κ) (i : In α κ) : Slot α :=
  if rAck s i then (if s.pending then ⟨true, i.dout, s.lastD⟩ else ⟨s.bk.valid, s.bk.data, s.bk.last⟩) else s.rd

/-- wd.py:203-207 (data) and :223-227 (valid). -/
def nextBk (s : St α κ) (i : In α κ) : Slot α where
  valid := if i.wReady || !s.rd.valid then false else if s.pending then s.rd.valid else s.bk.valid
  data := if s.pending then i.dout else s.bk.data
  last := if s.pending then s.lastD else s.bk.last

def next (N : Nat) (s : St α κ) (i : In α κ) : St α κ where
  awVld := if awLd s i then true else s.awVld && !i.awReady
  awId := if awLd s i then i.xidx else s.awId
  awKey := if awLd s i then i.xkey else s.awKey
  off := nextOff N s i
  pending := enVld s i && rAck s i && i.enRd
  lastD := if enVld s i && i.enRd then last N s else s.lastD
  rd := nextRd s i
  bk := nextBk s i

def out (N : Nat) (s : St α κ) (i : In α κ) : Out α κ where
  xrd := popReq N s i
  enVld := enVld s i
  addrItem := i.xidx
  addrWord := s.off
  awVld := s.awVld
  awId := s.awId
  awKey := s.awKey
  awLen := N - 1
  wVld := s.rd.valid
  wData := s.rd.data
  wLast := s.rd.last

def machine (N : Nat) : Machine (St α κ) (In α κ) (Out α κ) where
  out := out N
  next := next N

/-- Reset: valid flags and counter cleared, everything else arbitrary. -/
def IsInit (s : St α κ) : Prop :=
  s.awVld = false ∧ s.off = 0 ∧ s.pending = false ∧ s.rd.valid = false ∧ s.bk.valid = false

/-! ## Observables -/

/-- A read request is accepted by the memory. -/
def req (e : In α κ × Out α κ) : Bool := e.2.enVld && e.1.enRd
def reqs (tr : List (In α κ × Out α κ)) : Nat := tr.countP req
/-- `read_execute` handshakes. -/
def exe (e : In α κ × Out α κ) : Bool := e.1.xvld && e.2.xrd
def execs (tr : List (In α κ × Out α κ)) : Nat := tr.countP exe
/-- Accepted write addresses: id, line address, length field. -/
def aws (tr : List (In α κ × Out α κ)) : List (Nat × κ × Nat) :=
  tr.filterMap fun e => if e.2.awVld && e.1.awReady then some (e.2.awId, e.2.awKey, e.2.awLen) else none
/-- Accepted write data: word, last flag. -/
def beats (tr : List (In α κ × Out α κ)) : List (α × Bool) :=
  tr.filterMap fun e => if e.2.wVld && e.1.wReady then some (e.2.wData, e.2.wLast) else none
/-- Addresses of accepted read requests: item, word. -/
def reads (tr : List (In α κ × Out α κ)) : List (Nat × Nat) :=
  tr.filterMap fun e => if req e then some (e.2.addrItem, e.2.addrWord) else none

/-- The fifo offers `item n` until `n + 1` items were taken. -/
def Feeds (item : Nat → Nat × κ) (tr : List (In α κ × Out α κ)) : Prop :=
  ∀ pre e post, tr = pre ++ e :: post → e.1.xvld = true → (e.1.xidx, e.1.xkey) = item (execs pre)

/-- The memory answers read request `n` with `ram n` in the next cycle. -/
def Answers (ram : Nat → α) (tr : List (In α κ × Out α κ)) : Prop :=
  ∀ pre e e' post, tr = pre ++ e :: e' :: post → req e = true → e'.1.dout = ram (reqs pre)

end Verif.AxiWDispatch
