import Verif.Common

/-!
# `Axi4S_fifoMeasuring` (`hwtLib/amba/axis_comp/fifoMeasuring.py`)

Simplifications: the input register (`Axi4SBuilder.buff`, line 68) is part of the environment, the word on
its output is the input here; both fifos are lists, whether they accept and when they deliver is
decided by inputs (`sbRd`, `dbRd`, `sPop`, `dPop`), so every depth and latency is covered;
`strb` is the list of lane enables; `useStrb = false` means that the interface has no mask.
-/

namespace Verif.FifoMeas

open Verif

structure Cfg where
  /-- `DATA_WIDTH // 8` -/
  n : Nat
  maxLen : Nat
  useStrb : Bool

structure Word (α : Type) where
  data : α
  strb : List Bool
  last : Bool
deriving DecidableEq, Repr

structure St (α : Type) where
  wordCntr : Nat
  errReg : Bool
  sb : List Nat
  db : List (Word α)
deriving DecidableEq, Repr

structure In (α : Type) where
  /-- output of the input register, `none` if not valid -/
  w : Option (Word α)
  sbRd : Bool
  dbRd : Bool
  sPop : Bool
  dPop : Bool

structure Out (α : Type) where
  /-- word consumed from the input -/
  acc : Option (Word α)
  /-- item delivered on `sizes` -/
  size : Option Nat
  /-- word delivered on `dataOut` -/
  dat : Option (Word α)
  err : Bool
deriving DecidableEq, Repr

def init : St α := ⟨0, false, [], []⟩

/-- lines 73-75: width of `wordCntr`. -/
def cntrMod (c : Cfg) : Nat := 2 ^ (log2ceil c.maxLen + 1)

/-- lines 77-78. -/
def lastOf (c : Cfg) (wc : Nat) (w : Word α) : Bool := w.last || decide (wc = c.maxLen)

/-- lines 93-100 (`SwitchLogic`, the highest lane first): position of the highest set lane. -/
def remOf (c : Cfg) (strb : List Bool) : Nat :=
  match (List.range c.n).reverse.find? (fun i => strb.getD i false) with
  | some i => if i = c.n - 1 then 0 else i + 1
  | none => 0

/-- `strb == mask(BYTE_CNT)` -/
def full (c : Cfg) (strb : List Bool) : Bool := (List.range c.n).all fun i => strb.getD i false

/-- lines 87-117: `Concat(length, rem)`. -/
def sizeOf (c : Cfg) (wc : Nat) (w : Word α) : Nat :=
  if c.useStrb then
    (if lastOf c wc w && !full c w.strb then wc else (wc + 1) % cntrMod c) * 2 ^ log2ceil c.n
      + remOf c w.strb
  else (wc + 1) % cntrMod c * 2 ^ log2ceil c.n

/-- lines 79-80 (`ack`) -/
def ack (i : In α) : Bool := i.w.isSome && i.sbRd && i.dbRd

def out (s : St α) (i : In α) : Out α where
  acc := if i.sbRd && i.dbRd then i.w else none
  size := if i.sPop then s.sb.head? else none
  dat := if i.dPop then s.db.head? else none
  err := s.errReg

/-- lines 119-127: the same ready is used for both fifos; `sb` is written only with the last word. -/
def pushS (c : Cfg) (s : St α) (i : In α) : List Nat :=
  match i.w with
  | some w => if i.sbRd && i.dbRd && lastOf c s.wordCntr w then [sizeOf c s.wordCntr w] else []
  | none => []

def pushD (c : Cfg) (s : St α) (i : In α) : List (Word α) :=
  match i.w with
  | some w => if i.sbRd && i.dbRd then [{ w with last := lastOf c s.wordCntr w }] else []
  | none => []

def next (c : Cfg) (s : St α) (i : In α) : St α where
  wordCntr :=
    match i.w with
    | some w => if i.sbRd && i.dbRd then
        (if lastOf c s.wordCntr w then 0 else (s.wordCntr + 1) % cntrMod c) else s.wordCntr
    | none => s.wordCntr
  -- lines 101-106
  errReg :=
    match i.w with
    | some w => s.errReg || (!full c w.strb && !w.last)
    | none => s.errReg
  sb := (if i.sPop then s.sb.tail else s.sb) ++ pushS c s i
  db := (if i.dPop then s.db.tail else s.db) ++ pushD c s i

def machine (c : Cfg) : Machine (St α) (In α) (Out α) := ⟨out, next c⟩

end Verif.FifoMeas
