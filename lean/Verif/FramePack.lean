import Verif.Common
import Mathlib.Data.List.Induction
import Mathlib.Data.List.Basic
/-!
# Model of `DataRdVldToAxi4Stream` (hwtLib/handshaked/dataRdVldToAxi4Stream.py)

The data of the word is generic. `HandshakedReg` on the input (the modes with a timeout) is a register which is ready if it is empty or if it is
just read (C01). The model covers positive parameters for which the constant `MAX_FRAME_WORDS - 1` fits into its counter (`Ok`).
-/
namespace Verif.FramePack

variable {α : Type}

structure Cfg where
  /-- `IN_TIMEOUT` -/
  timeout : Option Nat
  /-- `MAX_FRAME_WORDS` -/
  max : Option Nat

structure In (α : Type) where
  /-- `dataIn.vld`, `dataIn.data` -/
  vld : Bool
  data : α
  /-- `dataOut.ready` -/
  rd : Bool

structure Out (α : Type) where
  /-- `dataIn.rd` -/
  rd : Bool
  /-- `dataOut`: data and last if it is valid -/
  word : Option (α × Bool)

structure St (α : Type) where
  r : Option α
  cntr : Nat
  fw : Nat

/-- width of `frame_word`: :58 with a timeout, :107 without it -/
def fwWidth (c : Cfg) : Nat := match c.timeout, c.max with
  | some _, some m => log2ceil (m - 1)
  | none, some m => log2ceil m
  | _, none => 1

def lastT (c : Cfg) (s : St α) : Bool := c.timeout.isSome && s.cntr == 0
def lastS (c : Cfg) (s : St α) : Bool := match c.max with
  | some m => s.fw == m - 1
  | none => false
/-- :61, :44, :108 -/
def last (c : Cfg) (s : St α) : Bool := lastT c s || lastS c s
/-- the word to send: of the register or of the input -/
def src (c : Cfg) (s : St α) (x : In α) : Option α :=
  if c.timeout.isSome then s.r else if x.vld then some x.data else none
/-- extra condition of the stream node (:67-74, :99-102, :111) -/
def cond (c : Cfg) (s : St α) (x : In α) : Bool := if c.timeout.isSome then lastT c s || x.vld else true
def word (c : Cfg) (s : St α) (x : In α) : Option (α × Bool) :=
  if cond c s x then (src c s x).map fun d => (d, last c s) else none
def ack (c : Cfg) (s : St α) (x : In α) : Bool := (word c s x).isSome && x.rd

def out (c : Cfg) (s : St α) (x : In α) : Out α where
  rd := if c.timeout.isSome then s.r.isNone || (cond c s x && x.rd) else x.rd
  word := word c s x

/-- :62-66 with the limit of words, :93-97 without it -/
def nextCntr (c : Cfg) (s : St α) (x : In α) : Nat := match c.timeout with
  | none => s.cntr
  | some t =>
    if (c.max.isSome && s.r.isNone) || (last c s && x.rd) then t - 1
    else if !x.vld && s.r.isSome && !last c s then s.cntr - 1
    else s.cntr

/-- :78-84, :114-120 -/
def nextFw (c : Cfg) (s : St α) (x : In α) : Nat :=
  if ack c s x then (if last c s then 0 else (s.fw + 1) % 2 ^ fwWidth c) else s.fw

def next (c : Cfg) (s : St α) (x : In α) : St α where
  r := if c.timeout.isSome then (if (out c s x).rd then (if x.vld then some x.data else none) else s.r) else none
  cntr := nextCntr c s x
  fw := nextFw c s x

def machine (c : Cfg) : Machine (St α) (In α) (Out α) := ⟨out c, next c⟩

/-- state after reset -/
def init (c : Cfg) : St α := ⟨none, (c.timeout.getD 0) - 1, 0⟩

/-- configurations which can be built -/
def Ok (c : Cfg) : Prop := (c.timeout.isSome = true ∨ c.max.isSome = true) ∧ (∀ t ∈ c.timeout, 1 ≤ t) ∧ (∀ m ∈ c.max, 1 ≤ m ∧ m - 1 < 2 ^ fwWidth c)

/-! ## Observations -/

def accepted (tr : List (In α × Out α)) : List α := tr.flatMap fun e => given (e.1.vld && e.2.rd) e.1.data
/-- words sent, with the flag `last` -/
def sent (tr : List (In α × Out α)) : List (α × Bool) := tr.flatMap fun e => if e.1.rd then e.2.word.toList else []
/-- number of words of the frame which is not closed yet -/
def openLen (l : List (α × Bool)) : Nat := (l.reverse.takeWhile fun w => !w.2).length
/-- number of cycles without an input after the end of the last frame -/
def idleLen (tr : List (In α × Out α)) : Nat :=
  ((tr.reverse.takeWhile fun e => !(e.1.rd && e.2.word.any fun w => w.2)).filter fun e => !e.1.vld).length

end Verif.FramePack
