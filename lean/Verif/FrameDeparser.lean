import Verif.Common

/-!
# `Axi4S_frameDeparser` (`hwtLib/amba/axis_comp/frame_deparser/_deparser.py`), struct of fixed size

`_create_frame_build_logic` (lines 328-480), `connectPartsOfWord` (lines 227-243, a part of a field or a padding) and
`handshakeLogicForWord` (lines 245-259). The struct is given by the ranges of bits of its fields (without padding), it is sent as
a single frame. `HUnion` and `HStream` members, several frames and `IS_BIGENDIAN` are not modelled. A word is a function from the index of the
bit, `none` is an undefined bit (padding). A value of a field is a function from the index of the bit.
-/

namespace Verif.FrameDeparser

open Verif

structure Cfg where
  /-- `DATA_WIDTH` -/
  DW : Nat
  /-- `_structT.bit_length()` -/
  T : Nat
  /-- number of fields -/
  m : Nat
  /-- first bit of field and the bit after its end -/
  st : Nat → Nat
  en : Nat → Nat

structure Wf (c : Cfg) : Prop where
  dw : 0 < c.DW
  t : 0 < c.T
  lt : ∀ f < c.m, c.st f < c.en f
  le : ∀ f < c.m, c.en f ≤ c.T
  disj : ∀ f < c.m, ∀ g < c.m, f ≠ g → c.en f ≤ c.st g ∨ c.en g ≤ c.st f

/-- number of words -/
def n (c : Cfg) : Nat := (c.T + c.DW - 1) / c.DW
def firstw (c : Cfg) (f : Nat) : Nat := c.st f / c.DW
/-- the word with the last part of the field -/
def lastw (c : Cfg) (f : Nat) : Nat := (c.en f - 1) / c.DW

structure St where
  /-- `wordCntr_inversed` -/
  cnt : Nat

structure In where
  ready : Bool
  vld : Nat → Bool
  data : Nat → Nat → Bool

structure Out where
  valid : Bool
  word : Nat → Option Bool
  last : Bool
  rd : Nat → Bool

/-- `inPorts` of word `i` -/
def inPort (c : Cfg) (i f : Nat) : Bool := decide (firstw c f ≤ i) && decide (i ≤ lastw c f)
/-- `lastInPorts` of word `i` -/
def lastPort (c : Cfg) (i f : Nat) : Bool := lastw c f == i

/-- `handshakeLogicForWord`: `ack` of word `i` -/
def ack (c : Cfg) (i : Nat) (x : In) : Bool := (List.range c.m).all fun f => !inPort c i f || x.vld f

/-- index of the current word -/
def idx (c : Cfg) (s : St) : Nat := n c - 1 - s.cnt
/-- there is a case for the value of `wordCntr_inversed` -/
def known (c : Cfg) (s : St) : Bool := decide (s.cnt < n c)

/-- `word{i}` -/
def word (c : Cfg) (i : Nat) (d : Nat → Nat → Bool) (b : Nat) : Option Bool :=
  ((List.range c.m).find? fun f => decide (c.st f ≤ i * c.DW + b) && decide (i * c.DW + b < c.en f)).map
    fun f => d f (i * c.DW + b - c.st f)

/-- `StreamNode(masters=lastInPorts).sync(en)`, `en = dataOut.ready & wordCntr_inversed._eq(inversedIndx)` -/
def rd (c : Cfg) (s : St) (x : In) (f : Nat) : Bool :=
  known c s && lastPort c (idx c s) f && x.ready &&
    (List.range c.m).all fun g => g == f || !lastPort c (idx c s) g || x.vld g

def out (c : Cfg) (s : St) (x : In) : Out where
  valid := known c s && ack c (idx c s) x
  word := if known c s then word c (idx c s) x.data else fun _ => none
  last := s.cnt == 0
  rd := rd c s x

def next (c : Cfg) (s : St) (x : In) : St where
  cnt :=
    if known c s then
      if x.ready && ack c (idx c s) x then
        if idx c s == n c - 1 then n c - 1 else s.cnt - 1
      else s.cnt
    else n c - 1

def machine (c : Cfg) : Machine St In Out := ⟨out c, next c⟩

def init (c : Cfg) : St := ⟨n c - 1⟩

end Verif.FrameDeparser
