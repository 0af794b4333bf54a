import Verif.SplitJoin
import Verif.OneHot
import Verif.AddrDecode
/-!
# AXI interconnect matrix: hwtLib/amba/axi_comp/interconnect/{matrixAddrCrossbar,matrixCrossbar,matrixR,matrixW}.py

N masters and M slaves. The address crossbar gives each request to the slave of its address range and stores the index
of the slave in an order fifo of the master and the index of the master in an order fifo of the slave. The data crossbar
uses the heads of the order fifos to route the data.

Simplifications:
* the `buff(1)` registers (matrixAddrCrossbar.py:266, matrixW.py:112,119) are cut off, they keep order and
  data (C09); the model starts behind them,
* an order `HandshakedFifo` is a list (C05), when it accepts an item and when it shows its head is chosen by the
  environment (`rdM`, `rdS`, `av`, `bv`), what it shows if it has no valid data is arbitrary (`aj`, `bj`),
* `split_copy_to` (matrixW.py:138-139,160-161) writes both fifos at once (C14), the free space of both is one bit here.
-/
namespace Verif.AxiMatrix
open Verif.SplitJoin (anyN isSelected prioInit rol1)

universe u v

/-- A word of a data channel, `last` ends a burst. -/
structure Beat (β : Type v) where
  data : β
  last : Bool
deriving DecidableEq

/-! ## Data crossbar -/

/-- `INPUT_CNT`, `OUTPUTS` (matrixCrossbar.py:42-44): `con i o` iff `i in OUTPUTS[o]`. -/
structure XCfg where
  nI : Nat
  nO : Nat
  con : Nat → Nat → Bool

/-- `OUTS_FOR_IN[i]` (matrixCrossbar.py:32-37,53). -/
def outsOf (c : XCfg) (i : Nat) : List Nat := (List.range c.nO).filter (fun o => c.con i o)
/-- `OUTPUTS[o]`. -/
def insOf (c : XCfg) (o : Nat) : List Nat := (List.range c.nI).filter (fun i => c.con i o)
/-- `order_dout_index_for_din_in[i] is not None` (matrixCrossbar.py:68-74). -/
def hasA (c : XCfg) (i : Nat) : Bool := decide (1 < (outsOf c i).length)
/-- `order_din_index_for_dout_in[o] is not None` (matrixCrossbar.py:80-86). -/
def hasB (c : XCfg) (o : Nat) : Bool := decide (1 < (insOf c o).length)

structure XIn (β : Type v) where
  /-- the order fifo of the input shows its head (if there is one) -/
  av : Nat → Bool
  aj : Nat → Nat
  /-- the order fifo of the output shows its head (if there is one) -/
  bv : Nat → Bool
  bj : Nat → Nat
  vld : Nat → Bool
  beat : Nat → Beat β
  rd : Nat → Bool

/-- Contents of the order fifos: output indexes for each input, input indexes for each output. -/
structure XSt where
  A : Nat → List Nat
  B : Nat → List Nat

section
variable {β : Type v}

def aVld (s : XSt) (x : XIn β) (i : Nat) : Bool := x.av i && !(s.A i).isEmpty
def aData (s : XSt) (x : XIn β) (i : Nat) : Nat := if aVld s x i then (s.A i).headD 0 else x.aj i
def bVld (s : XSt) (x : XIn β) (o : Nat) : Bool := x.bv o && !(s.B o).isEmpty
def bData (s : XSt) (x : XIn β) (o : Nat) : Nat := if bVld s x o then (s.B o).headD 0 else x.bj o

/-- One term of `selected_dataOut_ready` (matrixCrossbar.py:99-109). -/
def xRdFrom (c : XCfg) (s : XSt) (x : XIn β) (i o : Nat) : Bool :=
  x.rd o && (!hasA c i || aData s x i == o) && (!hasB c o || (bData s x o == i && bVld s x o))
/-- `selected_dataOut_ready` (matrixCrossbar.py:114-116). -/
def xSelRd (c : XCfg) (s : XSt) (x : XIn β) (i : Nat) : Bool := (outsOf c i).any (fun o => xRdFrom c s x i o)
/-- `dataIn.ready` (matrixCrossbar.py:117-122). -/
def xRd (c : XCfg) (s : XSt) (x : XIn β) (i : Nat) : Bool := (!hasA c i || aVld s x i) && xSelRd c s x i
/-- The order fifo of the input is popped (matrixCrossbar.py:119-120). -/
def xPopA (c : XCfg) (s : XSt) (x : XIn β) (i : Nat) : Bool :=
  hasA c i && (aVld s x i && (x.vld i && (x.beat i).last && xSelRd c s x i))

/-- One term of `selected_dataIn_valid` (matrixCrossbar.py:131-141). -/
def xVldFrom (c : XCfg) (s : XSt) (x : XIn β) (o i : Nat) : Bool :=
  x.vld i && (!hasB c o || bData s x o == i) && (!hasA c i || (aVld s x i && aData s x i == o))
/-- `selected_dataIn_valid` (matrixCrossbar.py:144-146). -/
def xSelVld (c : XCfg) (s : XSt) (x : XIn β) (o : Nat) : Bool := (insOf c o).any (fun i => xVldFrom c s x o i)
/-- `dataOut.valid` (matrixCrossbar.py:148-151). -/
def xVld (c : XCfg) (s : XSt) (x : XIn β) (o : Nat) : Bool := xSelVld c s x o && (!hasB c o || bVld s x o)
/-- `selected_dataIn_last` (matrixCrossbar.py:153-166). -/
def xSelLast (c : XCfg) (s : XSt) (x : XIn β) (o : Nat) : Bool :=
  (insOf c o).any (fun i => x.vld i && (x.beat i).last && (!hasB c o || (bVld s x o && bData s x o == i)))
/-- The order fifo of the output is popped (matrixCrossbar.py:168-172). -/
def xPopB (c : XCfg) (s : XSt) (x : XIn β) (o : Nat) : Bool :=
  hasB c o && (bVld s x o && (xSelVld c s x o && xSelLast c s x o && x.rd o))
/-- Data of an output, `none` if undefined (matrixCrossbar.py:174-197). -/
def xBeat (c : XCfg) (s : XSt) (x : XIn β) (o : Nat) : Option (Beat β) :=
  if hasB c o then (if bData s x o < c.nI then some (x.beat (bData s x o)) else none)
  else (insOf c o).head?.map x.beat

/-- Order fifos in the next cycle; `pA i`, `pB o` are the indexes stored by the address crossbar in this cycle. -/
def xNext (c : XCfg) (s : XSt) (x : XIn β) (pA pB : Nat → Option Nat) : XSt where
  A i := (if xPopA c s x i then (s.A i).tail else s.A i) ++ (pA i).toList
  B o := (if xPopB c s x o then (s.B o).tail else s.B o) ++ (pB o).toList

end

/-! ## Address crossbar -/

/-- `MASTERS`, `SLAVES` and `ADDR_WIDTH`: `con m s` iff `s in MASTERS[m]`. -/
structure Cfg where
  nM : Nat
  nS : Nat
  con : Nat → Nat → Bool
  W : Nat
  base : Nat → Nat
  size : Nat → Nat

/-- `ADDR_WIDTH` of a slave (common.py:37). -/
def slaveAddrWidth (size : Nat) : Nat := log2ceil (size - 1)

structure Req (α : Type u) where
  addr : Nat
  info : α
deriving DecidableEq

structure AIn (α : Type u) where
  vld : Nat → Bool
  req : Nat → Req α
  rd : Nat → Bool
  /-- free space in the order fifo of the master -/
  rdM : Nat → Bool
  /-- free space in the order fifo of the slave -/
  rdS : Nat → Bool

section
variable {α : Type u}

def slavesOf (c : Cfg) (m : Nat) : List Nat := (List.range c.nS).filter (fun s => c.con m s)
def mastersOf (c : Cfg) (s : Nat) : List Nat := (List.range c.nM).filter (fun m => c.con m s)
/-- matrixAddrCrossbar.py:79. -/
def hasM (c : Cfg) (m : Nat) : Bool := decide (1 < (slavesOf c m).length)
/-- matrixAddrCrossbar.py:67. -/
def hasS (c : Cfg) (s : Nat) : Bool := decide (1 < (mastersOf c s).length)

def slaveArr (c : Cfg) (s : Nat) : AddrDecode.Arr := ⟨c.base s * 8, c.size s⟩
/-- `master_to_slave_en` (matrixAddrCrossbar.py:93-112). -/
def slvEn (c : Cfg) (x : AIn α) (m s : Nat) : Bool :=
  c.con m s && AddrDecode.isMine c.W 8 8 (slaveArr c s) (x.req m).addr
/-- `master_vld_slave` (matrixAddrCrossbar.py:160-180). -/
def aV (c : Cfg) (x : AIn α) (s m : Nat) : Bool :=
  (if c.con m s then x.vld m && slvEn c x m s else false) && (!hasM c m || x.rdM m)
/-- `isSelectedFlags` (matrixAddrCrossbar.py:184-185), `p` are the priority registers of the arbiters. -/
def sel (c : Cfg) (p : Nat → Nat → Bool) (x : AIn α) (s m : Nat) : Bool := isSelected c.nM (p s) (aV c x s) m
/-- `slv_addr.valid` (matrixAddrCrossbar.py:187-195). -/
def slvVld (c : Cfg) (p : Nat → Nat → Bool) (x : AIn α) (s : Nat) : Bool :=
  (mastersOf c s).any (fun m => sel c p x s m && aV c x s m) && (!hasS c s || x.rdS s)
/-- `m_rd_from_this_s` (matrixAddrCrossbar.py:202-208). -/
def rdFrom (c : Cfg) (p : Nat → Nat → Bool) (x : AIn α) (m s : Nat) : Bool :=
  sel c p x s m && aV c x s m && x.rd s && (!hasS c s || x.rdS s)
/-- `ready_for_master` (matrixAddrCrossbar.py:197-209). -/
def rdFor (c : Cfg) (p : Nat → Nat → Bool) (x : AIn α) (m : Nat) : Bool :=
  (slavesOf c m).any (fun s => rdFrom c p x m s)
/-- `master_addr.ready` (matrixAddrCrossbar.py:252-261). -/
def mRd (c : Cfg) (p : Nat → Nat → Bool) (x : AIn α) (m : Nat) : Bool :=
  rdFor c p x m && (!hasM c m || x.rdM m)
/-- `slave_{i}_master_arbitration_res` (matrixAddrCrossbar.py:211-225). -/
def arb (c : Cfg) (p : Nat → Nat → Bool) (x : AIn α) (s m : Nat) : Bool :=
  c.con m s && (sel c p x s m && aV c x s m)
/-- The master index stored to the order fifo of the slave (matrixAddrCrossbar.py:226-230). -/
def pushS (c : Cfg) (p : Nat → Nat → Bool) (x : AIn α) (s : Nat) : Option Nat :=
  if hasS c s && (anyN c.nM (arb c p x s) && x.rd s) && x.rdS s then
    some (OneHot.oneHotToBin c.nM (arb c p x s))
  else none
/-- The slave index stored to the order fifo of the master (matrixAddrCrossbar.py:252-257). -/
def pushM (c : Cfg) (p : Nat → Nat → Bool) (x : AIn α) (m : Nat) : Option Nat :=
  if hasM c m && (rdFor c p x m && x.vld m) && x.rdM m then
    some (OneHot.oneHotToBin c.nS (fun s => slvEn c x m s))
  else none
/-- Request given to the slave, `none` if undefined (matrixAddrCrossbar.py:114-139,232-244). -/
def slvReq (c : Cfg) (p : Nat → Nat → Bool) (x : AIn α) (s : Nat) : Option (Req α) :=
  ((List.range c.nM).find? (fun m => c.con m s && (x.vld m && (aV c x s m && sel c p x s m && x.rd s)))).map
    (fun m => ⟨AddrDecode.sub c.W 8 8 (slaveArr c s) (x.req m).addr, (x.req m).info⟩)

end

/-! ## Read matrix -/

/-- Ports of the address side. -/
structure AOut (α : Type u) where
  mRd : Nat → Bool
  slvVld : Nat → Bool
  slvReq : Nat → Option (Req α)
/-- Ports of a data crossbar. -/
structure XOut (β : Type v) where
  rd : Nat → Bool
  vld : Nat → Bool
  beat : Nat → Option (Beat β)

section
variable {α : Type u} {β : Type v} {γ : Type v}

def aOut (c : Cfg) (p : Nat → Nat → Bool) (x : AIn α) : AOut α := ⟨mRd c p x, slvVld c p x, slvReq c p x⟩
def xOut (c : XCfg) (s : XSt) (x : XIn β) : XOut β := ⟨xRd c s x, xVld c s x, xBeat c s x⟩

/-- Crossbar from slaves to masters (matrixR.py:66-69, matrixW.py:97-100). -/
def backCfg (c : Cfg) : XCfg := ⟨c.nS, c.nM, fun s m => c.con m s⟩
/-- Crossbar from masters to slaves (matrixW.py:87-94). -/
def fwdCfg (c : Cfg) : XCfg := ⟨c.nM, c.nS, c.con⟩

structure RSt where
  p : Nat → Nat → Bool
  x : XSt
structure RIn (α : Type u) (β : Type v) where
  a : AIn α
  r : XIn β
structure ROut (α : Type u) (β : Type v) where
  a : AOut α
  r : XOut β

def xInit : XSt := ⟨fun _ => [], fun _ => []⟩
def rInit : RSt := ⟨fun _ => prioInit, xInit⟩

/-- `AxiInterconnectMatrixR` (matrixR.py:72-96); the arbiter priority rotates in every clock (C17). -/
def readMatrix (c : Cfg) : Machine RSt (RIn α β) (ROut α β) where
  out s i := ⟨aOut c s.p i.a, xOut (backCfg c) s.x i.r⟩
  next s i := ⟨fun k => rol1 c.nM (s.p k), xNext (backCfg c) s.x i.r (pushS c s.p i.a) (pushM c s.p i.a)⟩

/-! ## Write matrix -/

structure WSt where
  p : Nat → Nat → Bool
  w : XSt
  b : XSt
structure WIn (α : Type u) (β : Type v) (γ : Type v) where
  a : AIn α
  w : XIn β
  b : XIn γ
structure WOut (α : Type u) (β : Type v) (γ : Type v) where
  a : AOut α
  w : XOut β
  b : XOut γ

/-- `get_last` of `AxiInterconnectMatrixCrossbarB`: each response ends (matrixW.py:19-23). -/
def allLast (x : XIn γ) : XIn γ := { x with beat := fun i => ⟨(x.beat i).data, true⟩ }

def wInit : WSt := ⟨fun _ => prioInit, xInit, xInit⟩

/-- `AxiInterconnectMatrixW` (matrixW.py:103-173). -/
def writeMatrix (c : Cfg) : Machine WSt (WIn α β γ) (WOut α β γ) where
  out s i := ⟨aOut c s.p i.a, xOut (fwdCfg c) s.w i.w, xOut (backCfg c) s.b (allLast i.b)⟩
  next s i := ⟨fun k => rol1 c.nM (s.p k), xNext (fwdCfg c) s.w i.w (pushM c s.p i.a) (pushS c s.p i.a),
    xNext (backCfg c) s.b (allLast i.b) (pushS c s.p i.a) (pushM c s.p i.a)⟩

end
end Verif.AxiMatrix
