import Verif.FifoDrop

/-!
# Model of `Axi4SFifoDrop` (hwtLib/amba/axis_comp/fifoDrop.py)

`FifoDrop` of depth `DEPTH - 1` (handshaked/fifo.py:61-64) with the output register of `HandshakedFifo`. A frame is committed by its last word.

Simplifications
* the signals of the word except `last` are one value of any type.
-/

namespace Verif.AxisFifoDrop

universe u
variable {α : Type u}

structure W (α : Type u) where
  d : α
  last : Bool
deriving DecidableEq

/-- Inner fifo and `out_vld` (handshaked/fifo.py:113). -/
structure St (α : Type u) where
  fifo : FifoDrop.St (W α)
  outVld : Bool

/-- `dataIn`, `dataIn_discard`, `dataOut.ready` -/
structure In (α : Type u) where
  vld : Bool
  w : W α
  discard : Bool
  rd : Bool
deriving DecidableEq

structure Out (α : Type u) where
  rd : Bool
  vld : Bool
  w : W α
  size : Nat

/-- Inputs of the inner fifo (axis_comp/fifoDrop.py:39-50; handshaked/fifo.py:120). -/
def fifoIn (s : St α) (i : In α) : FifoDrop.In (W α) where
  wen := i.vld && !FifoDrop.writeWait s.fifo
  data := i.w
  commit := i.vld && i.w.last
  discard := i.discard
  ren := (i.rd || !s.outVld) && !FifoDrop.readWait s.fifo

/-- handshaked/fifo.py:46 -/
def sizeMod (D : Nat) : Nat := 2 ^ log2ceil (D + 1 + 1)

/-- axis_comp/fifoDrop.py:46; handshaked/fifo.py:74-83, :114-119 -/
def out (D : Nat) (s : St α) : Out α where
  rd := !FifoDrop.writeWait s.fifo
  vld := s.outVld
  w := s.fifo.dout
  size :=
    let n := (FifoDrop.out (D - 1) s.fifo).size
    if s.outVld then (n + 1) % sizeMod D else n

/-- Clock edge; handshaked/fifo.py:121-123 for `out_vld`. -/
def next (D : Nat) (s : St α) (i : In α) : St α where
  fifo := FifoDrop.next (D - 1) s.fifo (fifoIn s i)
  outVld := if i.rd || !s.outVld then !FifoDrop.readWait s.fifo else s.outVld

def init (D : Nat) (mem0 : Nat → W α) (d0 : W α) : St α := ⟨FifoDrop.init (D - 1) mem0 d0, false⟩

end Verif.AxisFifoDrop
