import Verif.Common
import Mathlib.Data.List.Induction
import Mathlib.Data.List.Basic
/-!
# Model of `Axi4sFrameGen` (hwtLib/amba/axis_comp/frameGen.py)

The writes of the registers which the AxiLite endpoint delivers (`cEn.dout`, `cLen.dout`) are inputs.
-/
namespace Verif.FrameGen

structure Cfg where
  maxLen : Nat
  dataWidth : Nat

structure In where
  /-- write of `enable`, `len` -/
  en : Option Nat
  len : Option Nat
  /-- `axis_out.ready` -/
  rd : Bool

structure Out where
  vld : Bool
  data : Nat
  last : Bool

structure St where
  cntr : Nat
  en : Bool
  len : Nat

/-- width of the counter and of the length (:52-54) -/
def width (c : Cfg) : Nat := log2ceil c.maxLen

/-- :69-74 -/
def out (c : Cfg) (s : St) (_ : In) : Out := ⟨s.en, s.cntr % 2 ^ c.dataWidth, s.cntr == 0⟩

/-- :57-67, :76-86 -/
def next (c : Cfg) (s : St) (x : In) : St where
  en := match x.en with
    | some d => d % 2 == 1
    | none => s.en
  len := match x.len with
    | some d => d % 2 ^ width c
    | none => s.len
  cntr := match x.len with
    | some d => d % 2 ^ width c
    | none => if x.rd && s.en then (if s.cntr = 0 then s.len else s.cntr - 1) else s.cntr

def machine (c : Cfg) : Machine St In Out := ⟨out c, next c⟩

/-- words sent, with the flag `last` -/
def sent (tr : List (In × Out)) : List (Nat × Bool) := tr.flatMap fun e => given (e.2.vld && e.1.rd) (e.2.data, e.2.last)

/-- the word number `j` of the stream of frames of length `l`: the words of a frame are numbered down to 0 -/
def wordAt (l j : Nat) : Nat × Bool := (l - j % (l + 1), j % (l + 1) == l)

end Verif.FrameGen
