import Verif.Common
import Mathlib.Data.List.Induction
import Mathlib.Data.List.Basic
/-!
# Model of `Axi4SToLocalLink` and `LocalLinkToAxi4S` (hwtLib/xilinx/locallink/axis_conv.py)

`b` is the number of bytes in a word (`DATA_WIDTH // 8`). Both units pass valid and ready through (:62-68, :146-147), so the model is about the words transferred.
Undefined values (`None`) are `none`. The flags of LocalLink are active low, here they are given in positive logic.
-/
namespace Verif.LocalLink

variable {α : Type}

structure Axi (α : Type) where
  data : α
  strb : Nat
  last : Bool
  /-- `user[0]`: start of packet, `user[1]`: end of packet -/
  sop : Bool
  eop : Bool
deriving DecidableEq

structure LL (α : Type) where
  data : α
  rem : Option Nat
  sof : Bool
  eof : Bool
  sop : Bool
  eop : Bool
deriving DecidableEq

/-- width of `rem` (hIOLocallink.py:24) -/
def remBits (b : Nat) : Nat := log2ceil b

/-- cases of `strbToRem` (:14-18): number of bytes minus one -/
def remOf (b strb : Nat) : Option Nat := (List.range b).find? fun i => strb == 2 ^ (i + 1) - 1
def strbOf (b rem : Nat) : Option Nat := ((List.range b).find? fun i => rem == i).map fun i => 2 ^ (i + 1) - 1

/-- a word from `Axi4SToLocalLink` (:59-106); `first` is `lastSeenLast` -/
def toLL (b : Nat) (first : Bool) (w : Axi α) : LL α where
  data := w.data
  rem := if w.last || w.eop then remOf b w.strb else some (2 ^ remBits b - 1)
  sof := first
  eof := w.last
  sop := if first then true else w.sop
  eop := if w.last then true else w.eop

/-- words of a stream; `lastSeenLast` is 1 after the reset and it is the flag `last` of the previous word (:60, :65-67) -/
def toLLs (b : Nat) : Bool → List (Axi α) → List (LL α)
  | _, [] => []
  | first, w :: l => toLL b first w :: toLLs b w.last l

/-- a word from `LocalLinkToAxi4S` (:139-164); `strb` may be undefined -/
structure AxiX (α : Type) where
  data : α
  strb : Option Nat
  last : Bool
  sop : Bool
  eop : Bool
deriving DecidableEq

def toAxi (b : Nat) (w : LL α) : AxiX α where
  data := w.data
  strb := w.rem.bind (strbOf b)
  last := w.eof
  sop := w.sop
  eop := w.eop

/-! ## Specification -/

/-- The bytes of a word are packed from the lowest one, and a word which ends neither a packet nor a frame is full. -/
def Packed (b : Nat) (w : Axi α) : Prop := (∃ k, 1 ≤ k ∧ k ≤ b ∧ w.strb = 2 ^ k - 1) ∧ (w.last = false → w.eop = false → w.strb = 2 ^ b - 1)

/-- flags of the frames: the first word of a frame starts a packet, the last one ends it -/
def marked (first : Bool) : List (Axi α) → List (AxiX α)
  | [] => []
  | w :: l => ⟨w.data, some w.strb, w.last, first || w.sop, w.last || w.eop⟩ :: marked w.last l

end Verif.LocalLink
