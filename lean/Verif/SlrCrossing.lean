import Verif.Common
import Mathlib.Data.List.Induction
import Mathlib.Data.List.Basic
/-!
# Model of `HsSlrCrossing` (hwtLib/xilinx/slr_crossing.py)

A word with its valid flag is an `Option`. The shift registers (`LutAsShiftReg`, hwtLib/xilinx/primitive/lutAsShiftReg.py:38-49) have no reset: their
contents are arbitrary, only the newest valid flag is 0, because during the reset (two clock cycles at least) the shift registers take the reset value of the
register in the source part.
-/
namespace Verif.SlrCrossing

variable {α : Type}

/-- `DEPTH` (:66) -/
def DEPTH : Nat := 4

structure In (α : Type) where
  /-- `s.vld`, `s.data` -/
  s : Option α
  /-- `m.rd` -/
  rd : Bool

structure Out (α : Type) where
  /-- `s.rd` -/
  rd : Bool
  /-- `m.vld`, `m.data` -/
  m : Option α

structure St (α : Type) where
  /-- registers of the source: `reg.vld`, `reg.data`, `reg.rd` -/
  reg : Option α
  regRd : Bool
  /-- registers of the destination -/
  inReady : Bool
  crossIn : Bool
  cross : Bool
  addr : Nat
  mem : Nat → Option α
  o : Option α

/-- `out_ce` (:87) -/
def outCe (s : St α) (x : In α) : Bool := x.rd || s.o.isNone

/-- lutAsShiftReg.py:42-46 -/
def shift (r : Option α) (mem : Nat → Option α) : Nat → Option α := fun j =>
  if j = 0 then r else if j < DEPTH then mem (j - 1) else none

/-- :97-101 -/
def nextAddr (s : St α) (x : In α) : Nat :=
  if !outCe s x && s.cross then (s.addr + 1) % DEPTH
  else if outCe s x && !s.cross then (s.addr + DEPTH - 1) % DEPTH
  else s.addr

/-- :45-55, :110-118 -/
def out (s : St α) (_ : In α) : Out α := ⟨s.regRd, s.o⟩

/-- :45-55, :86-116 -/
def next (s : St α) (x : In α) : St α where
  reg := x.s
  regRd := s.inReady
  inReady := outCe s x
  crossIn := s.inReady
  cross := s.crossIn
  addr := nextAddr s x
  mem := if s.cross then shift s.reg s.mem else s.mem
  o := if outCe s x then s.mem s.addr else s.o

def machine : Machine (St α) (In α) (Out α) := ⟨out, next⟩

/-- state after reset -/
structure IsInit (s : St α) : Prop where
  reg : s.reg = none
  regRd : s.regRd = false
  inReady : s.inReady = true
  crossIn : s.crossIn = true
  cross : s.cross = true
  addr : s.addr = 0
  mem : s.mem 0 = none
  o : s.o = none

/-! ## Observations -/

def accepted (tr : List (In α × Out α)) : List α := tr.flatMap fun e => if e.2.rd then e.1.s.toList else []
def delivered (tr : List (In α × Out α)) : List α := tr.flatMap fun e => if e.1.rd then e.2.m.toList else []

end Verif.SlrCrossing
