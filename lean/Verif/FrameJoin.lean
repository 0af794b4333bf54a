import Verif.FrameJoinFsm

/-!
# `Axi4S_FrameJoin` (`hwtLib/amba/axis_comp/frame_join/_join.py`)

Input registers (`FrameJoinReg`) with the state machine of the generated table. The encoding of `out_byte*_sel` (index to the list of
values, lines 95-123 and 240-249) is not modelled, the selected source of a byte is a triple. Undefined values are the arbitrary
`junk`.
-/

namespace Verif.FrameJoin

open FrameJoinFsm

universe u
variable {β : Type u}

/-- word on `dataIn[i]` -/
structure Port (β : Type u) where
  valid : Bool
  data : Nat → β
  keep : Nat → Bool
  last : Bool

structure In (β : Type u) where
  port : Nat → Port β
  /-- `dataOut.ready` -/
  ready : Bool
  junk : β

structure St (β : Type u) where
  st : Nat
  regs : Nat → FrameJoinReg.St β

/-- configuration: bytes in the word, lookahead of inputs, transitions -/
structure Cfg where
  wb : Nat
  look : List Nat
  tt : List (List Trans)

/-- number of inputs -/
def Cfg.N (c : Cfg) : Nat := c.look.length

/-- numbers of registers, lines 296-300 -/
def Cfg.ns (c : Cfg) : List Nat := c.look.map (· + 1)

def Cfg.n (c : Cfg) (i : Nat) : Nat := c.ns.getD i 0

/-- values of registers seen by the state machine -/
def regVal (wb : Nat) (r : FrameJoinReg.Reg β) : RegVal := ⟨(List.range wb).map r.keep, r.relict, r.last⟩

def vals (c : Cfg) (s : St β) : List (List RegVal) :=
  (List.range c.N).map fun i => (List.range (c.n i)).map fun r => regVal c.wb (s.regs i r)

def comb (c : Cfg) (s : St β) : Out := outs c.wb c.ns (c.tt.getD s.st []) (vals c s)

/-- inputs of the registers, lines 276-287 -/
def regIn (o : Out) (i : In β) (k : Nat) : FrameJoinReg.In β where
  valid := (i.port k).valid
  data := (i.port k).data
  keep := (i.port k).keep
  last := (i.port k).last
  ready := i.ready && o.rd.getD k false
  masks := fun r b => ((o.masks.getD k []).getD r []).getD b false

def next (c : Cfg) (s : St β) (i : In β) : St β where
  st := nextState (c.tt.getD s.st []) (vals c s) i.ready s.st
  regs := fun k => FrameJoinReg.next (c.n k) c.wb (s.regs k) (regIn (comb c s) i k)

/-- `dataIn[k].ready` -/
def inReady (c : Cfg) (s : St β) (i : In β) (k : Nat) : Bool := FrameJoinReg.inReady (c.n k) c.wb (s.regs k) (regIn (comb c s) i k)

/-- byte `b` of `dataOut.data`, lines 84-125 -/
def outByte (o : Out) (s : St β) (junk : β) (b : Nat) : β :=
  match o.mux.getD b none with
  | some (some (i, r, k)) => (s.regs i r).data k
  | _ => junk

def init (d0 : Nat → Nat → Nat → β) : St β := ⟨0, fun i => FrameJoinReg.init (d0 i)⟩

/-- the component for the type `T` and `OUT_OFFSET`; `none` if the generation fails -/
def config (wb : Nat) (ts : List Stream) (offset : Nat) : Option Cfg := (table wb ts offset).map fun r => ⟨wb, r.1, r.2⟩

end Verif.FrameJoin
