import Verif.Common
/-
Model of the hardware exceptions:
* `hwtLib/abstract/hwExceptionCtx.py:100-147` (`HwExceptionCtx.hw_raise`),
* `hwtLib/examples/builders/hwException.py:27-97` (`HwExceptionRaise`) and `:100-166`
  (`HwExceptionCatch`), which use it,
* `hwtLib/handshaked/streamNode.py:276-340` (`rd`, `ackForMaster`, `ackForSlave`) for a node with
  one master and one slave, with `extraConds` of both and `skipWhen` of the slave.

Simplifications: values on `dataIn`/`dataOut` are natural numbers (only `== 0, 1, 2` is tested), the
undefined `dataOut.data` of a cycle without `valid` is not modelled, synchronous reset is the
initial state.
-/

namespace Verif.HwExc

/-- The `*_pending` register of `hw_raise` (`hwExceptionCtx.py:132-136`). -/
def pendNext (pending vld rd : Bool) : Bool := if pending then !rd else vld && !rd

/-- Ready of the master of the two-port node: the slave is ready or skipped, and `extraCond` of
the master (`streamNode.py:300-319`). -/
def nodeRd (slaveRd skip extraM : Bool) : Bool := (slaveRd || skip) && extraM

/-- Valid of the slave of the two-port node (`streamNode.py:321-340`). -/
def nodeVld (masterVld extraS skip : Bool) : Bool := (masterVld && extraS) && !skip

/-! ### `HwExceptionRaise` -/

structure St where
  p0 : Bool
  p1 : Bool
deriving DecidableEq, Repr

/-- `vld, data`: dataIn; `ordy`: dataOut.rd; `rd0, rd1`: rd of the two exception interfaces. -/
structure In where
  vld : Bool
  data : Nat
  ordy : Bool
  rd0 : Bool
  rd1 : Bool
deriving DecidableEq, Repr

structure Out where
  irdy : Bool
  ovld : Bool
  odata : Nat
  vld0 : Bool
  vld1 : Bool
deriving DecidableEq, Repr

/-- `If(din.vld, If(din.data._eq(0), raise).Elif(din.data._eq(1), raise))`
(`hwException.py:54-79`). -/
def det0 (vld : Bool) (data : Nat) : Bool := vld && data == 0
def det1 (vld : Bool) (data : Nat) : Bool := vld && data != 0 && data == 1

def raiseOut (s : St) (i : In) : Out :=
  let d0 := det0 i.vld i.data
  let d1 := det1 i.vld i.data
  { irdy := nodeRd i.ordy (d0 || d1) (!(s.p0 || s.p1))
    ovld := nodeVld i.vld (!(s.p0 || d0 || s.p1 || d1)) (d0 || d1)
    odata := i.data
    vld0 := d0
    vld1 := d1 }

def raiseNext (s : St) (i : In) : St :=
  { p0 := pendNext s.p0 (det0 i.vld i.data) i.rd0
    p1 := pendNext s.p1 (det1 i.vld i.data) i.rd1 }

/-- `HwExceptionRaise` (`hwException.py:46-97`). -/
def raiseM : Machine St In Out := ⟨raiseOut, raiseNext⟩

def init : St := ⟨false, false⟩

/-! ### `HwExceptionCatch` -/

structure CSt where
  e : Bool
  c : St
deriving DecidableEq, Repr

/-- `rd1`: rd of the propagated interface of `ExampleHwException1`. -/
structure CIn where
  vld : Bool
  data : Nat
  ordy : Bool
  rd1 : Bool
deriving DecidableEq, Repr

structure COut where
  irdy : Bool
  ovld : Bool
  odata : Nat
  vld1 : Bool
deriving DecidableEq, Repr

/-- Input of the child: `rd` of its `ExampleHwException0` is driven by 0 (`hwException.py:154-156`). -/
def childIn (s : CSt) (i : CIn) : In :=
  let det := i.vld && i.data == 2
  { vld := nodeVld i.vld (!(s.e || det)) det
    data := i.data
    ordy := i.ordy
    rd0 := false
    rd1 := i.rd1 }

def catchOut (s : CSt) (i : CIn) : COut :=
  let det := i.vld && i.data == 2
  let c := raiseOut s.c (childIn s i)
  { irdy := nodeRd c.irdy det (!s.e)
    ovld := c.ovld
    odata := c.odata
    vld1 := c.vld1 }

def catchNext (s : CSt) (i : CIn) : CSt :=
  { e := pendNext s.e (i.vld && i.data == 2) false
    c := raiseNext s.c (childIn s i) }

/-- `HwExceptionCatch` (`hwException.py:115-166`). -/
def catchM : Machine CSt CIn COut := ⟨catchOut, catchNext⟩

def cinit : CSt := ⟨false, init⟩

end Verif.HwExc
