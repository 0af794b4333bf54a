import Verif.Common

/-!
# `Axi4S_frameParser` (`hwtLib/amba/axis_comp/frame_parser/_parser.py`), struct of fixed size

`parser_fsm` (lines 236-308), `Axi4S_frameParserFieldConnector.connectPart` (`field_connector.py` lines 232-293), `OutNodeInfo`
(`out_containers.py` lines 37-100) and `WordFactory` (`word_factory.py`). The struct is given by the ranges of bits of its
fields (without padding); `HUnion` and `HStream` members and `IS_BIGENDIAN`, `SHARED_READY` are not modelled. The struct
has at least one field which is not padding. A word is a function from the index of the bit, a value of a field is the list of its bits
(LSB first).
-/

namespace Verif.FrameParser

open Verif

abbrev Word := Nat → Bool

structure Cfg where
  /-- `DATA_WIDTH` -/
  DW : Nat
  /-- `_structT.bit_length()` -/
  T : Nat
  /-- number of fields -/
  m : Nat
  /-- first bit of field and the bit after its end -/
  st : Nat → Nat
  en : Nat → Nat
  /-- `OVERFLOW_SUPPORT` -/
  over : Bool
  /-- `UNDERFLOW_SUPPORT` -/
  under : Bool

structure Wf (c : Cfg) : Prop where
  dw : 0 < c.DW
  m : 0 < c.m
  lt : ∀ f < c.m, c.st f < c.en f
  le : ∀ f < c.m, c.en f ≤ c.T

/-- number of words -/
def n (c : Cfg) : Nat := (c.T + c.DW - 1) / c.DW
def aligned (c : Cfg) : Bool := c.T % c.DW == 0
/-- `word_index_max_val`, lines 240-242 -/
def wmax (c : Cfg) : Nat := if c.over then n c else n c - 1
def firstw (c : Cfg) (f : Nat) : Nat := c.st f / c.DW
/-- the word with the last part of the field -/
def lastw (c : Cfg) (f : Nat) : Nat := (c.en f - 1) / c.DW

structure St where
  idx : Nat
  /-- `{field}_part_{i}`, indexed by the word -/
  part : Nat → Nat → List Bool
  /-- `{field}_was_consumed_` -/
  consumed : Nat → Bool

structure In where
  valid : Bool
  word : Word
  last : Bool
  rd : Nat → Bool

structure Out where
  ready : Bool
  vld : Nat → Bool
  data : Nat → List Bool
  /-- `parsing_overflow`, `error_underflow` -/
  overflow : Bool
  underflow : Bool

/-- the part of the field in word `w` (`getInDataSignal`) -/
def partBits (c : Cfg) (f w : Nat) (x : Word) : List Bool :=
  let lo := max (c.st f) (w * c.DW) - w * c.DW
  let hi := min (c.en f) ((w + 1) * c.DW) - w * c.DW
  (List.range (hi - lo)).map fun j => x (lo + j)

/-- lines 292-298 -/
def overflow (c : Cfg) (s : St) : Bool :=
  c.over && (if aligned c then s.idx == wmax c else decide (n c - 1 ≤ s.idx))

/-- `OutNodeInfo._ack` -/
def ack (s : St) (x : In) (f : Nat) : Bool := x.rd f || s.consumed f
/-- `getAckOfOthers` -/
def ackOthers (c : Cfg) (s : St) (x : In) (f : Nat) : Bool :=
  (List.range c.m).all fun g => g == f || lastw c g != lastw c f || ack s x g
/-- `WordFactory.ack` -/
def outReady (c : Cfg) (s : St) (x : In) : Bool :=
  decide (s.idx < n c) && (List.range c.m).all fun g => lastw c g != s.idx || ack s x g
def ready (c : Cfg) (s : St) (x : In) : Bool := outReady c s x || overflow c s

def vld (c : Cfg) (s : St) (x : In) (f : Nat) : Bool :=
  !overflow c s && s.idx == lastw c f && !s.consumed f && x.valid

def data (c : Cfg) (s : St) (x : In) (f : Nat) : List Bool :=
  ((List.range (lastw c f - firstw c f)).flatMap fun k => s.part f (firstw c f + k)) ++ partBits c f (lastw c f) x.word

/-- `wordIndex` exists -/
def multi (c : Cfg) : Bool := decide (0 < wmax c)

def out (c : Cfg) (s : St) (x : In) : Out where
  ready := ready c s x
  vld := vld c s x
  data := data c s x
  overflow := overflow c s
  underflow := multi c && c.under && x.valid && ready c s x && x.last &&
    (if aligned c then s.idx != n c - 1 else decide (s.idx < n c - 1))

def next (c : Cfg) (s : St) (x : In) : St where
  idx :=
    if multi c && x.valid && ready c s x then
      if (if c.over || c.under then x.last else s.idx == n c - 1) then 0
      else if c.over then (if s.idx ≠ wmax c then s.idx + 1 else s.idx)
      else (s.idx + 1) % 2 ^ log2ceil (wmax c + 1)
    else s.idx
  part := fun f w =>
    if x.valid && s.idx == w && decide (w < lastw c f) then partBits c f w x.word else s.part f w
  consumed := fun f =>
    if !overflow c s && s.idx == lastw c f && x.valid then
      if s.consumed f && ackOthers c s x f then false
      else if !ackOthers c s x f && x.rd f then true
      else s.consumed f
    else s.consumed f

def machine (c : Cfg) : Machine St In Out := ⟨out c, next c⟩

structure IsInit (s : St) : Prop where
  idx : s.idx = 0
  consumed : ∀ f, s.consumed f = false

end Verif.FrameParser
