import Verif.Common
import Mathlib.Data.List.Induction
import Mathlib.Data.List.Basic
/-!
# Model of `ArrayBuff_writer` (hwtLib/structManipulators/arrayBuff_writer.py)

Items are numbers. The buffer is a `HandshakedFifo` (C05-C08): a list of at most `BUFF_DEPTH` items whose length is exported as
`size` (C08); it may show its head later (`fv`) and refuse a write at any time (`fRd`). `rem`, `strb` are constants and left out.
-/
namespace Verif.ArrayBuffWriter

/-- `HwParam`s (arrayBuff_writer.py:41-48). -/
structure Cfg where
  ITEMS : Nat
  BUFF_DEPTH : Nat
  TIMEOUT : Nat
  DATA_WIDTH : Nat
  ADDR_WIDTH : Nat
  ID : Nat

/-- :83 -/
def Cfg.ALIGN_BITS (c : Cfg) : Nat := log2ceil (c.DATA_WIDTH / 8 - 1)
/-- width of `buff.size` (handshaked/fifo.py:45) -/
def Cfg.sizeWidth (c : Cfg) : Nat := log2ceil (c.BUFF_DEPTH + 2)
/-- width of `req.len`, by the assertion :119-121 -/
def Cfg.lenWidth (c : Cfg) : Nat := c.sizeWidth - 1
/-- width of `offset`, `remaining` (:102-105) -/
def Cfg.remWidth (c : Cfg) : Nat := log2ceil (c.ITEMS + 1)
/-- width of `baseAddr` (:96) -/
def Cfg.idxWidth (c : Cfg) : Nat := c.ADDR_WIDTH - c.ALIGN_BITS

/-- Parameters with which the component can be built. -/
structure Cfg.Ok (c : Cfg) : Prop where
  items : 1 ≤ c.ITEMS
  depth : 2 ≤ c.BUFF_DEPTH
  timeout : 1 ≤ c.TIMEOUT
  data : ∃ k, c.DATA_WIDTH = 8 * 2 ^ k
  addr : c.ALIGN_BITS < c.ADDR_WIDTH

inductive Fsm | input | tx | ack
deriving DecidableEq

structure Req where
  addr : Nat
  len : Nat
deriving DecidableEq

structure In where
  baseSet : Option Nat
  /-- `items` -/
  vld : Bool
  data : Nat
  reqRd : Bool
  wRd : Bool
  ackVld : Bool
  ackId : Nat
  fRd : Bool
  fv : Bool
  fj : Nat

structure Out where
  /-- `items.rd` -/
  rd : Bool
  reqVld : Bool
  req : Req
  wVld : Bool
  wData : Nat
  wLast : Bool
  ackRd : Bool
  uploaded : Nat
  remain : Nat

structure St where
  st : Fsm
  sizeOf : Nat
  base : Nat
  offset : Nat
  remaining : Nat
  lastCntr : Nat
  tmo : Nat
  uploaded : Nat
  f : List Nat

/-- :127 -/
def endOfLenBlock (c : Cfg) (s : St) : Bool :=
  decide ((s.remaining + 2 ^ c.remWidth - 1) % 2 ^ c.remWidth < s.f.length % 2 ^ c.remWidth)
/-- `req.len` (:132-138) -/
def reqLen (c : Cfg) (s : St) : Nat :=
  if endOfLenBlock c s then (s.remaining + 2 ^ c.remWidth - 1) % 2 ^ c.remWidth % 2 ^ c.lenWidth
  else (s.f.length + 2 ^ c.sizeWidth - 1) % 2 ^ c.sizeWidth % 2 ^ c.lenWidth
/-- :132-138 -/
def sizeTmp (c : Cfg) (s : St) : Nat :=
  if endOfLenBlock c s then s.remaining % 2 ^ c.sizeWidth else s.f.length
/-- :148 -/
def beginReq (c : Cfg) (s : St) : Bool := s.f.length == c.BUFF_DEPTH || s.tmo == 0
/-- :150 -/
def reqAckHasCome (c : Cfg) (x : In) : Bool := x.ackVld && x.ackId == c.ID
def fVld (s : St) (x : In) : Bool := x.fv && !s.f.isEmpty
/-- :142 -/
def wAck (s : St) (x : In) : Bool := x.wRd && fVld s x
/-- :187 -/
def start (c : Cfg) (s : St) (x : In) : Bool := decide (s.st = .input) && beginReq c s && x.reqRd

/-- :98-117, 160-163, 181, 193-202 -/
def out (c : Cfg) (s : St) (x : In) : Out where
  rd := x.fRd && decide (s.f.length < c.BUFF_DEPTH)
  reqVld := decide (s.st = .input) && beginReq c s
  req := ⟨(s.base + s.offset) % 2 ^ c.idxWidth * 2 ^ c.ALIGN_BITS, reqLen c s⟩
  wVld := fVld s x && decide (s.st = .tx)
  wData := if fVld s x then s.f.headD 0 else x.fj
  wLast := s.lastCntr == 1
  ackRd := decide (s.st = .ack)
  uploaded := s.uploaded
  remain := s.remaining

/-- :70-78, 92-98, 151-192 -/
def next (c : Cfg) (s : St) (x : In) : St where
  st := match s.st with
    | .input => if beginReq c s && x.reqRd then .tx else .input
    | .tx => if s.lastCntr == 1 && wAck s x then .ack else .tx
    | .ack => if reqAckHasCome c x then .input else .ack
  sizeOf := if start c s x then sizeTmp c s else s.sizeOf
  base := match x.baseSet with
    | some a => a / 2 ^ c.ALIGN_BITS % 2 ^ c.idxWidth
    | none => s.base
  offset := if start c s x then (if endOfLenBlock c s then 0 else (s.offset + s.f.length) % 2 ^ c.remWidth) else s.offset
  remaining := if start c s x then (if endOfLenBlock c s then c.ITEMS
      else (s.remaining + 2 ^ c.remWidth - s.f.length % 2 ^ c.remWidth) % 2 ^ c.remWidth) else s.remaining
  lastCntr := if start c s x then sizeTmp c s
    else if s.lastCntr != 0 && wAck s x then s.lastCntr - 1 else s.lastCntr
  tmo := if decide (s.st = .input) && beginReq c s then (if x.reqRd then c.TIMEOUT - 1 else s.tmo)
    else if fVld s x && decide (s.st = .input) && s.tmo != 0 then s.tmo - 1 else s.tmo
  uploaded := if decide (s.st = .ack) && reqAckHasCome c x then (s.uploaded + s.sizeOf) % 2 ^ 16 else s.uploaded
  f := (if wAck s x && decide (s.st = .tx) then s.f.tail else s.f) ++
    given (x.vld && (x.fRd && decide (s.f.length < c.BUFF_DEPTH))) x.data

def machine (c : Cfg) : Machine St In Out := ⟨out c, next c⟩

/-- State after reset with the base address already set. -/
structure IsInit (c : Cfg) (s : St) : Prop where
  st : s.st = .input
  base : s.base < 2 ^ c.idxWidth
  offset : s.offset = 0
  remaining : s.remaining = c.ITEMS
  lastCntr : s.lastCntr = 0
  tmo : s.tmo = c.TIMEOUT - 1
  uploaded : s.uploaded = 0
  f : s.f = []

/-! ## Observations -/

/-- requests accepted by the datapump -/
def requests (tr : List (In × Out)) : List Req := tr.flatMap fun e => given (e.2.reqVld && e.1.reqRd) e.2.req
/-- words given to the datapump -/
def written (tr : List (In × Out)) : List (Nat × Bool) := tr.flatMap fun e => given (e.2.wVld && e.1.wRd) (e.2.wData, e.2.wLast)
/-- items taken -/
def accepted (tr : List (In × Out)) : List Nat := tr.flatMap fun e => given (e.1.vld && e.2.rd) e.1.data
/-- acknowledges taken, of this component -/
def acks (c : Cfg) (tr : List (In × Out)) : List Nat :=
  tr.flatMap fun e => given (e.1.ackVld && e.2.ackRd && e.1.ackId == c.ID) e.1.ackId

/-- byte addresses to which the words of the requests are written -/
def places (c : Cfg) (tr : List (In × Out)) : List Nat :=
  (requests tr).flatMap fun q => (List.range (q.len + 1)).map fun t => (q.addr + t * (c.DATA_WIDTH / 8)) % 2 ^ c.ADDR_WIDTH

/-- number of words of requests -/
def total (qs : List Req) : Nat := (qs.map fun q => q.len + 1).sum
/-- `last` flags of the words of a burst: only the final one has it -/
def lasts (q : Req) : List Bool := List.replicate q.len false ++ [true]

/-- The base address is not changed. -/
def Running (is : List In) : Prop := ∀ x ∈ is, x.baseSet = none

end Verif.ArrayBuffWriter
