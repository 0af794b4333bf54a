import Verif.FifoCopy

/-!
# Model of `Axi4SFifoCopy` and `Axi4SRegCopy` (hwtLib/amba/axis_comp/fifoCopy.py)

`FifoCopy` of depth `DEPTH - 1` with the output register of `HandshakedFifo` and with the replacement of the id of copied frames.

Simplifications
* the signals `data`, `strb`, `keep`, `user`, `dest` are one value of any type, `id` is a natural number.
-/

namespace Verif.AxisFifoCopy

universe u
variable {α : Type u}

/-- One word of the stream. -/
structure W (α : Type u) where
  d : α
  id : Nat
  last : Bool
deriving DecidableEq

/-- Inner fifo and the registers `out_vld`, `replace_id` (fifoCopy.py:114, :121). -/
structure St (α : Type u) where
  fifo : FifoCopy.St (W α)
  outVld : Bool
  repVld : Bool
  repVal : Nat

/-- `dataIn`, `dataOut.ready`, `dataOut_copy_frame`, `dataOut_replacement_id` -/
structure In (α : Type u) where
  vld : Bool
  w : W α
  rd : Bool
  copy : Bool
  rid : Nat
deriving DecidableEq

structure Out (α : Type u) where
  rd : Bool
  vld : Bool
  w : W α

/-- `out_vld & dout.last & rd(dout)` (fifoCopy.py:144) -/
def cpVld (s : St α) (i : In α) : Bool := s.outVld && s.fifo.dout.last && i.rd

/-- `fIn.wait` (mem/fifoCopy.py:129) -/
def wwait (D : Nat) (s : St α) : Bool := FifoCopy.wrNext (D - 1) s.fifo == s.fifo.rd

/-- `fOut.wait` (mem/fifoCopy.py:130-134) -/
def rwait (s : St α) (i : In α) : Bool := if cpVld s i && i.copy then false else s.fifo.wr == s.fifo.rdT

/-- Inputs of the inner fifo (fifoCopy.py:96-105, :140, :144-145). -/
def fifoIn (D : Nat) (s : St α) (i : In α) : FifoCopy.In (W α) where
  wen := i.vld && !wwait D s
  data := i.w
  ren := (i.rd || !s.outVld) && !rwait s i
  cpVld := cpVld s i
  cpData := i.copy

/-- fifoCopy.py:103, :115, :117-119, :130-134 -/
def out (D : Nat) (s : St α) : Out α where
  rd := !wwait D s
  vld := s.outVld
  w := if s.repVld then { s.fifo.dout with id := s.repVal } else s.fifo.dout

/-- Clock edge (fifoCopy.py:135-143). -/
def next (D : Nat) (s : St α) (i : In α) : St α where
  fifo := FifoCopy.next (D - 1) s.fifo (fifoIn D s i)
  outVld := if i.rd || !s.outVld then !rwait s i else s.outVld
  repVld := if cpVld s i then i.copy else s.repVld
  repVal := if cpVld s i then i.rid else s.repVal

def init (mem0 : Nat → W α) (d0 : W α) (r0 : Nat) : St α := ⟨FifoCopy.init mem0 d0, false, false, r0⟩

/-! ## `Axi4SRegCopy` -/

namespace Reg

/-- The register of `Axi4SReg` (`HandshakedReg` with LATENCY=1, DELAY=0). -/
abbrev St (α : Type u) := Option (W α)

/-- fifoCopy.py:39 -/
def copyEn (s : St α) (i : In α) : Bool := i.copy && s.isSome

/-- `reg.dataIn.ready` -/
def regRd (s : St α) (i : In α) : Bool := !s.isSome || i.rd

/-- fifoCopy.py:55 -/
def ready (s : St α) (i : In α) : Bool := regRd s i && !copyEn s i

/-- `reg.dataIn` without valid and ready (fifoCopy.py:41-52). -/
def regIn (s : St α) (i : In α) : W α :=
  let w := if copyEn s i then s.getD i.w else i.w
  { w with id := if i.copy then i.rid else i.w.id }

/-- Clock edge: the register takes `reg.dataIn` if it is ready (fifoCopy.py:54). -/
def next (s : St α) (i : In α) : St α :=
  if regRd s i then (if copyEn s i || i.vld then some (regIn s i) else none) else s

end Reg

end Verif.AxisFifoCopy
