import Verif.Common
import Mathlib.Data.List.Induction
import Mathlib.Data.List.Basic
/-!
# Model of `CLinkedListReader` (hwtLib/structManipulators/cLinkedListReader.py)

Data are numbers. The output fifo is a `HandshakedFifo` (C05-C08): a list which may show its head later (`fv`), refuse a write at any
time (`fRd`) and report any size (`size`).
-/
namespace Verif.LinkedListReader

/-- `HwParam`s (cLinkedListReader.py:39-50). -/
structure Cfg where
  ITEMS_IN_BLOCK : Nat
  /-- `BURST_LEN = BUFFER_CAPACITY // 2` (:96) -/
  BURST_LEN : Nat
  PTR_WIDTH : Nat
  /-- width of `baseIndex`, `ADDR_WIDTH - ALIGN_BITS` (:106) -/
  INDEX_WIDTH : Nat
  ALIGN_BITS : Nat
  ID : Nat
  ID_LAST : Nat

/-- the width of `inBlockRemain` (:101) -/
def Cfg.inBlockWidth (c : Cfg) : Nat := log2ceil (c.ITEMS_IN_BLOCK + 1)
/-- the width of `req.len` (datapump/intf.py:39, 107) -/
def Cfg.lenWidth (c : Cfg) : Nat := log2ceil c.BURST_LEN

/-- Parameters for which the component can be built (the constants fit in the types they are compared with, `req.len` exists) and
the two ids are different. -/
structure Cfg.Ok (c : Cfg) : Prop where
  burst : 2 ≤ c.BURST_LEN
  fit1 : c.BURST_LEN < 2 ^ c.inBlockWidth
  fit2 : c.BURST_LEN < 2 ^ c.PTR_WIDTH
  ids : c.ID ≠ c.ID_LAST

/-- a word of `rDatapump.r` -/
structure Word where
  id : Nat
  data : Nat
  last : Bool
deriving DecidableEq

/-- `rDatapump.req` -/
structure Req where
  id : Nat
  addr : Nat
  len : Nat
deriving DecidableEq

structure In where
  /-- `baseAddr.dout`, `rdPtr.dout`, `wrPtr.dout` -/
  baseSet : Option Nat
  rdSet : Option Nat
  wrSet : Option Nat
  reqRd : Bool
  rVld : Bool
  r : Word
  /-- `dataOut.rd` -/
  rd : Bool
  fRd : Bool
  fv : Bool
  /-- `f.size` -/
  size : Nat

structure Out where
  reqVld : Bool
  req : Req
  rRd : Bool
  /-- `dataOut` -/
  vld : Bool
  data : Nat
  /-- `rdPtr.din`, `wrPtr.din`, `baseAddr.din`, `inBlockRemain` -/
  rdPtr : Nat
  wrPtr : Nat
  base : Nat
  inBlockRemain : Nat

structure St where
  pend : Bool
  base : Nat
  rem : Nat
  rd : Nat
  wr : Nat
  f : List Nat

def bufferHasSpace (c : Cfg) (x : In) : Bool := decide (x.size < c.BURST_LEN + 1)
def hasSpace (s : St) : Bool := s.wr != s.rd
/-- `sizeByPtrs` (:151) -/
def sizeByPtrs (c : Cfg) (s : St) : Nat := (s.wr + 2 ^ c.PTR_WIDTH - s.rd) % 2 ^ c.PTR_WIDTH
/-- `constraingSpace` (:153-159) -/
def constraingSpace (c : Cfg) (s : St) : Nat :=
  if s.rem % 2 ^ c.PTR_WIDTH < sizeByPtrs c s then s.rem % 2 ^ c.PTR_WIDTH else sizeByPtrs c s
/-- `constrainedByInBlockRemain` (:162) -/
def constrained (c : Cfg) (s : St) : Bool := decide (s.rem ≤ sizeByPtrs c s % 2 ^ c.inBlockWidth)

/-- `req.id`, `req.len` and `inBlockRemain` after `doReq` (:164-188) -/
def reqSel (c : Cfg) (s : St) : Nat × Nat × Nat :=
  if c.BURST_LEN < constraingSpace c s then
    (c.ID, (c.BURST_LEN - 1) % 2 ^ c.lenWidth, (s.rem + 2 ^ c.inBlockWidth - c.BURST_LEN) % 2 ^ c.inBlockWidth)
  else if constrained c s && decide (s.rem < c.BURST_LEN) then
    (c.ID_LAST, constraingSpace c s % 2 ^ c.lenWidth, c.ITEMS_IN_BLOCK)
  else
    (c.ID, (constraingSpace c s + 2 ^ c.PTR_WIDTH - 1) % 2 ^ c.PTR_WIDTH % 2 ^ c.lenWidth,
      (s.rem + 2 ^ c.inBlockWidth - constraingSpace c s % 2 ^ c.inBlockWidth) % 2 ^ c.inBlockWidth)

/-- `doReq` (:127) -/
def doReq (c : Cfg) (s : St) (x : In) : Bool := bufferHasSpace c x && hasSpace s && !s.pend && x.reqRd
/-- `dataAck` (:135) -/
def dataAck (c : Cfg) (x : In) : Bool := x.rVld && (x.r.id == c.ID || x.r.id == c.ID_LAST) && x.fRd
/-- `isMyData` (:206) -/
def isMyData (c : Cfg) (x : In) : Bool := x.r.id == c.ID || (!x.r.last && x.r.id == c.ID_LAST)
/-- `dBuffIn.vld` (:215-222) -/
def pushVld (c : Cfg) (s : St) (x : In) : Bool :=
  x.rVld && ((x.r.id == c.ID || (x.r.id == c.ID_LAST && !x.r.last)) && s.pend)

def out (c : Cfg) (s : St) (x : In) : Out where
  reqVld := if s.pend then false else bufferHasSpace c x && hasSpace s
  req := ⟨(reqSel c s).1, s.base * 2 ^ c.ALIGN_BITS, (reqSel c s).2.1⟩
  rRd := x.fRd && s.pend
  vld := x.fv && !s.f.isEmpty
  data := s.f.headD 0
  rdPtr := s.rd
  wrPtr := s.wr
  base := s.base * 2 ^ c.ALIGN_BITS
  inBlockRemain := s.rem

def next (c : Cfg) (s : St) (x : In) : St where
  pend := if s.pend then !(dataAck c x && x.r.last) else x.reqRd && bufferHasSpace c x && hasSpace s
  base := match x.baseSet with
    | some a => a / 2 ^ c.ALIGN_BITS % 2 ^ c.INDEX_WIDTH
    | none => if dataAck c x && s.pend then
        if x.r.last && x.r.id == c.ID_LAST then x.r.data / 2 ^ c.ALIGN_BITS % 2 ^ c.INDEX_WIDTH
        else (s.base + 1) % 2 ^ c.INDEX_WIDTH
      else s.base
  rem := if doReq c s x then (reqSel c s).2.2 else s.rem
  rd := match x.rdSet with
    | some a => a % 2 ^ c.PTR_WIDTH
    | none => if x.rVld && s.pend && x.fRd && isMyData c x then (s.rd + 1) % 2 ^ c.PTR_WIDTH else s.rd
  wr := match x.wrSet with
    | some a => a % 2 ^ c.PTR_WIDTH
    | none => s.wr
  f := (if x.fv && !s.f.isEmpty && x.rd then s.f.tail else s.f) ++ given (pushVld c s x && x.fRd) x.r.data

def machine (c : Cfg) : Machine St In Out := ⟨out c, next c⟩

/-- After reset; `base` is the address of the first node, the pointers are the values set by the driver (reset values are 0). -/
structure IsInit (c : Cfg) (s : St) : Prop where
  pend : s.pend = false
  base : s.base < 2 ^ c.INDEX_WIDTH
  rem : s.rem = c.ITEMS_IN_BLOCK
  rd : s.rd < 2 ^ c.PTR_WIDTH
  wr : s.wr < 2 ^ c.PTR_WIDTH
  f : s.f = []

/-! ## Observations -/

/-- requests accepted by the datapump -/
def requests (tr : List (In × Out)) : List Req := tr.flatMap fun e => given (e.2.reqVld && e.1.reqRd) e.2.req
/-- words taken from the datapump -/
def taken (tr : List (In × Out)) : List Word := tr.flatMap fun e => given (e.1.rVld && e.2.rRd) e.1.r
/-- items given out on `dataOut` -/
def delivered (tr : List (In × Out)) : List Nat := tr.flatMap fun e => given (e.2.vld && e.1.rd) e.2.data

/-- The answer of the datapump: `len + 1` words of the memory, `last` with the final one. `mem` is indexed by words. -/
def answer (c : Cfg) (mem : Nat → Nat) (q : Req) : List Word :=
  (List.range (q.len + 1)).map fun t => ⟨q.id, mem ((q.addr / 2 ^ c.ALIGN_BITS + t) % 2 ^ c.INDEX_WIDTH), t == q.len⟩

/-- index of the m-th node: the address of the next node is the word after the items of the node -/
def node (c : Cfg) (mem : Nat → Nat) (b : Nat) : Nat → Nat
  | 0 => b
  | m + 1 => mem ((node c mem b m + c.ITEMS_IN_BLOCK) % 2 ^ c.INDEX_WIDTH) / 2 ^ c.ALIGN_BITS % 2 ^ c.INDEX_WIDTH

/-- the k-th item of the list which starts in the node at index `b` -/
def item (c : Cfg) (mem : Nat → Nat) (b k : Nat) : Nat :=
  mem ((node c mem b (k / c.ITEMS_IN_BLOCK) + k % c.ITEMS_IN_BLOCK) % 2 ^ c.INDEX_WIDTH)

/-- The driver does not move the read pointer and the address. -/
def Running (is : List In) : Prop := ∀ x ∈ is, x.baseSet = none ∧ x.rdSet = none

/-- distance in the ring -/
def dist (c : Cfg) (a b : Nat) : Nat := (a + 2 ^ c.PTR_WIDTH - b) % 2 ^ c.PTR_WIDTH

/-- How many items the driver has added by writes of `wrPtr`. -/
def produced (c : Cfg) (tr : List (In × Out)) : Nat :=
  (tr.map fun e => match e.1.wrSet with
    | some v => dist c (v % 2 ^ c.PTR_WIDTH) e.2.wrPtr
    | none => 0).sum

/-- The driver does not add more items than the ring can hold. -/
def NoOverrun (c : Cfg) (tr : List (In × Out)) : Prop :=
  ∀ e ∈ tr, ∀ v, e.1.wrSet = some v → dist c (v % 2 ^ c.PTR_WIDTH) e.2.wrPtr + dist c e.2.wrPtr e.2.rdPtr < 2 ^ c.PTR_WIDTH

/-- The datapump answers the requests in order from the memory. -/
def Answers (c : Cfg) (mem : Nat → Nat) (tr : List (In × Out)) : Prop := taken tr <+: (requests tr).flatMap (answer c mem)

/-- How many items are asked for by the requests; a request with `ID_LAST` also reads the address of the next node. -/
def itemsRequested (c : Cfg) (tr : List (In × Out)) : Nat :=
  ((requests tr).map fun q => if q.id = c.ID_LAST then q.len else q.len + 1).sum

end Verif.LinkedListReader
