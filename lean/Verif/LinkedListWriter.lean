import Verif.Common
import Mathlib.Data.List.Induction
import Mathlib.Data.List.Basic
/-!
# Model of `CLinkedListWriter` (hwtLib/structManipulators/cLinkedListWriter.py)

Data are numbers. The input fifo is a `HandshakedFifo` (C05-C08): a list which may show its head later (`fv`), refuse a write at any
time (`fRd`) and report any size (`size`). `rem`, `strb` of the datapump are constants and left out.
-/
namespace Verif.LinkedListWriter

/-- `HwParam`s (cLinkedListWriter.py:50-63). -/
structure Cfg where
  ITEMS_IN_BLOCK : Nat
  BUFFER_CAPACITY : Nat
  PTR_WIDTH : Nat
  /-- width of `baseIndex`, `ADDR_WIDTH - ALIGN_BITS` -/
  INDEX_WIDTH : Nat
  ALIGN_BITS : Nat
  /-- width of `req.len` -/
  LEN_WIDTH : Nat
  ID : Nat
  TIMEOUT : Nat

def Cfg.inBlockWidth (c : Cfg) : Nat := log2ceil (c.ITEMS_IN_BLOCK + 1)
/-- `BURST_LEN` of `wReqDriver` (:208), the greatest `req.len` -/
def Cfg.maxLen (c : Cfg) : Nat := c.BUFFER_CAPACITY / 2 - 1
/-- width of `dataCntr` (:274) -/
def Cfg.cntrWidth (c : Cfg) : Nat := log2ceil (c.BUFFER_CAPACITY / 2 + 1)

/-- The assertion of :79 and: the constant `BURST_LEN` fits in the types it is used with. -/
structure Cfg.Ok (c : Cfg) : Prop where
  burst : 2 ≤ c.BUFFER_CAPACITY
  cap : c.BUFFER_CAPACITY ≤ c.ITEMS_IN_BLOCK
  fit1 : c.maxLen < 2 ^ c.PTR_WIDTH
  fit2 : c.maxLen < 2 ^ c.LEN_WIDTH

inductive NextFsm | uninitialized | required | pending | prepared
deriving DecidableEq
inductive Fsm | idle | reqPending | prepare | send | waitForAck
deriving DecidableEq

structure Req where
  addr : Nat
  len : Nat
deriving DecidableEq

structure In where
  baseSet : Option Nat
  rdSet : Option Nat
  wrSet : Option Nat
  /-- `rDatapump` -/
  rReqRd : Bool
  rVld : Bool
  rId : Nat
  rData : Nat
  /-- `wDatapump` -/
  reqRd : Bool
  wRd : Bool
  ackVld : Bool
  ackId : Nat
  /-- `dataIn` -/
  vld : Bool
  data : Nat
  fRd : Bool
  fv : Bool
  fj : Nat
  size : Nat

structure Out where
  rReqVld : Bool
  rReqAddr : Nat
  reqVld : Bool
  req : Req
  wVld : Bool
  wData : Nat
  wLast : Bool
  ackRd : Bool
  /-- `dataIn.rd` -/
  rd : Bool
  rdPtr : Nat
  wrPtr : Nat

structure St where
  fsm : Fsm
  nb : NextFsm
  /-- `baseIndex_backup` -/
  baseB : Nat
  nextBase : Nat
  base : Nat
  dataCntr : Nat
  reqLenB : Nat
  rem : Nat
  rd : Nat
  wr : Nat
  tmo : Nat
  f : List Nat

/-- `queueHasSpace`, `lenByPtrs` (:198-202) -/
def queueHasSpace (c : Cfg) (s : St) : Bool := (s.wr + 1) % 2 ^ c.PTR_WIDTH != s.rd
def lenByPtrs (c : Cfg) (s : St) : Nat := (s.rd + 2 * 2 ^ c.PTR_WIDTH - s.wr - 2) % 2 ^ c.PTR_WIDTH

/-- `constraingLen` (:209-219) -/
def constraingLen (c : Cfg) (s : St) : Nat :=
  if s.rem % 2 ^ c.PTR_WIDTH < lenByPtrs c s then s.rem % 2 ^ c.PTR_WIDTH else lenByPtrs c s

/-- `reqLen` (:220-225) -/
def reqLen (c : Cfg) (s : St) : Nat :=
  if c.maxLen < constraingLen c s then c.maxLen else constraingLen c s % 2 ^ c.LEN_WIDTH

/-- `gotWriteAck` (:279) -/
def gotWriteAck (c : Cfg) (x : In) : Bool := x.ackVld && x.ackId == c.ID
/-- `nextBlockTransition` (:239-240, 259) -/
def transition (c : Cfg) (s : St) : Bool :=
  decide (s.rem ≤ (s.reqLenB + 1) % 2 ^ c.inBlockWidth) && decide (s.fsm = .prepare)
/-- (:138) -/
def isNextBaseAddr (c : Cfg) (x : In) : Bool := x.rVld && x.rId == c.ID
def fVld (s : St) (x : In) : Bool := x.fv && !s.f.isEmpty
/-- a word moves from the fifo to `w` (:250, 254) -/
def move (s : St) (x : In) : Bool := fVld s x && x.wRd && decide (s.fsm = .send)

/-- (:106-114, 227-231, 254-258, 332) -/
def out (c : Cfg) (s : St) (x : In) : Out where
  rReqVld := decide (s.nb = .required)
  rReqAddr := (s.baseB + c.ITEMS_IN_BLOCK) % 2 ^ c.INDEX_WIDTH * 2 ^ c.ALIGN_BITS
  reqVld := decide (s.fsm = .reqPending)
  req := ⟨s.base * 2 ^ c.ALIGN_BITS, reqLen c s⟩
  wVld := fVld s x && decide (s.fsm = .send)
  wData := if fVld s x then s.f.headD 0 else x.fj
  wLast := s.dataCntr == 0
  ackRd := decide (s.fsm = .waitForAck)
  rd := x.fRd
  rdPtr := s.rd
  wrPtr := s.wr

/-- (:291-304) -/
def nextFsm (c : Cfg) (s : St) (x : In) : Fsm :=
  match s.fsm with
  | .idle => if s.tmo == 0 || (decide (x.size > c.BUFFER_CAPACITY / 2 - 1) && queueHasSpace c s) then .reqPending else .idle
  | .reqPending => if x.reqRd then .prepare else .reqPending
  | .prepare => .send
  | .send => if (!transition c s || decide (s.nb = .prepared)) && s.dataCntr == 0 then .waitForAck else .send
  | .waitForAck => if gotWriteAck c x then .idle else .waitForAck

/-- registers: next node (:139-159), timeout (:167-176), pointers (:183-194), burst (:241-253, 310-330) -/
def next (c : Cfg) (s : St) (x : In) : St where
  fsm := nextFsm c s x
  nb := match s.nb with
    | .uninitialized => if x.baseSet.isSome then .required else .uninitialized
    | .required => if x.rReqRd then .pending else .required
    | .pending => if isNextBaseAddr c x then .prepared else .pending
    | .prepared => if transition c s then .required else .prepared
  baseB := match x.baseSet with
    | some a => a / 2 ^ c.ALIGN_BITS % 2 ^ c.INDEX_WIDTH
    | none => if transition c s then s.nextBase else s.baseB
  nextBase := if isNextBaseAddr c x then x.rData / 2 ^ c.ALIGN_BITS % 2 ^ c.INDEX_WIDTH else s.nextBase
  base := match x.baseSet with
    | some a => a / 2 ^ c.ALIGN_BITS % 2 ^ c.INDEX_WIDTH
    | none => if s.fsm = .prepare then (s.base + s.reqLenB + 1) % 2 ^ c.INDEX_WIDTH
      else if transition c s then s.nextBase else s.base
  dataCntr := if s.fsm = .prepare then s.reqLenB % 2 ^ c.cntrWidth
    else if move s x then (s.dataCntr + 2 ^ c.cntrWidth - 1) % 2 ^ c.cntrWidth else s.dataCntr
  reqLenB := if s.fsm = .reqPending ∧ x.reqRd = true then reqLen c s else s.reqLenB
  rem := if s.fsm = .prepare then
      if transition c s then c.ITEMS_IN_BLOCK
      else (s.rem + 2 ^ c.inBlockWidth - (s.reqLenB + 1) % 2 ^ c.inBlockWidth) % 2 ^ c.inBlockWidth
    else s.rem
  rd := match x.rdSet with
    | some a => a % 2 ^ c.PTR_WIDTH
    | none => s.rd
  wr := match x.wrSet with
    | some a => a % 2 ^ c.PTR_WIDTH
    | none => if gotWriteAck c x then (s.wr + s.reqLenB + 1) % 2 ^ c.PTR_WIDTH else s.wr
  tmo := if s.fsm ≠ .idle then c.TIMEOUT
    else if s.tmo ≠ 0 ∧ x.size ≠ 0 ∧ queueHasSpace c s = true then s.tmo - 1 else s.tmo
  f := (if move s x then s.f.tail else s.f) ++ given (x.vld && x.fRd) x.data

def machine (c : Cfg) : Machine St In Out := ⟨out c, next c⟩

/-- State after the address of the first node has been set (`baseAddr.dout`), the pointers are the values set by the driver. -/
structure IsInit (c : Cfg) (s : St) : Prop where
  fsm : s.fsm = .idle
  nb : s.nb = .required
  baseB : s.baseB = s.base
  base : s.base < 2 ^ c.INDEX_WIDTH
  rem : s.rem = c.ITEMS_IN_BLOCK
  rd : s.rd < 2 ^ c.PTR_WIDTH
  wr : s.wr < 2 ^ c.PTR_WIDTH
  tmo : s.tmo = c.TIMEOUT
  f : s.f = []

/-! ## Observations -/

/-- requests accepted by the write datapump -/
def requests (tr : List (In × Out)) : List Req := tr.flatMap fun e => given (e.2.reqVld && e.1.reqRd) e.2.req
/-- words given to the write datapump -/
def written (tr : List (In × Out)) : List (Nat × Bool) := tr.flatMap fun e => given (e.2.wVld && e.1.wRd) (e.2.wData, e.2.wLast)
/-- words taken on `dataIn` -/
def accepted (tr : List (In × Out)) : List Nat := tr.flatMap fun e => given (e.1.vld && e.2.rd) e.1.data
/-- requests for the address of the next node -/
def nextRequests (tr : List (In × Out)) : List Nat := tr.flatMap fun e => given (e.2.rReqVld && e.1.rReqRd) e.2.rReqAddr
/-- answers to them (`r.ready` is 1) -/
def nextAnswers (tr : List (In × Out)) : List (Nat × Nat) := tr.flatMap fun e => given e.1.rVld (e.1.rId, e.1.rData)
/-- acknowledges taken -/
def acks (tr : List (In × Out)) : List Nat := tr.flatMap fun e => given (e.1.ackVld && e.2.ackRd) e.1.ackId

/-- word indexes of the memory where the items are written to, by the requests -/
def places (c : Cfg) (tr : List (In × Out)) : List Nat :=
  (requests tr).flatMap fun q => (List.range (q.len + 1)).map fun t => (q.addr / 2 ^ c.ALIGN_BITS + t) % 2 ^ c.INDEX_WIDTH

/-- index of the m-th node -/
def node (c : Cfg) (mem : Nat → Nat) (b : Nat) : Nat → Nat
  | 0 => b
  | m + 1 => mem ((node c mem b m + c.ITEMS_IN_BLOCK) % 2 ^ c.INDEX_WIDTH) / 2 ^ c.ALIGN_BITS % 2 ^ c.INDEX_WIDTH

/-- where the k-th item of the list is -/
def place (c : Cfg) (mem : Nat → Nat) (b k : Nat) : Nat :=
  (node c mem b (k / c.ITEMS_IN_BLOCK) + k % c.ITEMS_IN_BLOCK) % 2 ^ c.INDEX_WIDTH

/-- The driver does not move the write pointer and the address. -/
def Running (is : List In) : Prop := ∀ x ∈ is, x.baseSet = none ∧ x.wrSet = none

/-- The read datapump answers the requests for the next node in order from the memory. -/
def Answers (c : Cfg) (mem : Nat → Nat) (tr : List (In × Out)) : Prop :=
  nextAnswers tr <+: (nextRequests tr).map fun a => (c.ID, mem (a / 2 ^ c.ALIGN_BITS))

/-- `last` flags of the words of a burst: only the final one has it -/
def lasts (q : Req) : List Bool := List.replicate q.len false ++ [true]

/-- The write datapump acknowledges a burst after its last word, with the right id. -/
def AcksOk (c : Cfg) (tr : List (In × Out)) : Prop :=
  ∀ pre e, pre ++ [e] <+: tr → e.1.ackVld = true →
    e.1.ackId = c.ID ∧ (acks pre).length < ((written pre).filter fun w => w.2).length

/-- the number of free places by the documentation (:44) for the pointers `r`, `w` -/
def space (c : Cfg) (r w : Nat) : Nat := (r + 2 * 2 ^ c.PTR_WIDTH - w - 1) % 2 ^ c.PTR_WIDTH

/-- distance in the ring -/
def dist (c : Cfg) (a b : Nat) : Nat := (a + 2 ^ c.PTR_WIDTH - b) % 2 ^ c.PTR_WIDTH

/-- How many free places the driver has added by writes of `rdPtr`. -/
def freed (c : Cfg) (tr : List (In × Out)) : Nat :=
  (tr.map fun e => match e.1.rdSet with
    | some v => dist c (v % 2 ^ c.PTR_WIDTH) e.2.rdPtr
    | none => 0).sum

/-- The driver never frees more places than the ring has. -/
def NoOverrun (c : Cfg) (tr : List (In × Out)) : Prop :=
  ∀ e ∈ tr, ∀ v, e.1.rdSet = some v →
    dist c (v % 2 ^ c.PTR_WIDTH) e.2.rdPtr + space c e.2.rdPtr e.2.wrPtr < 2 ^ c.PTR_WIDTH

/-- number of words of requests -/
def total (qs : List Req) : Nat := (qs.map fun q => q.len + 1).sum

end Verif.LinkedListWriter
