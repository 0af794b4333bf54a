import Verif.Common
/-!
# Examples of registers (hwtLib/examples/mem/reg.py) and of a search for a zero bit
(hwtLib/examples/rtlLvl/arithmetic/leadingZero.py)

The processes which are not clocked by one edge are evaluated on events: levels of the inputs, together with the edge of the
clock which happens in that moment. `none` is an undefined value.
-/
namespace Verif.ExReg

inductive Edge | rise | fall
  deriving DecidableEq, Repr

structure Ev where
  rst : Bool
  edge : Option Edge
  din : Bool
  deriving DecidableEq, Repr

/-- reg.py:72-76 and 165-169: the signal after an event -/
def asyncStep (r : Option Bool) (e : Ev) : Option Bool :=
  if e.rst then some false else if e.edge = some .rise then some e.din else r

/-- reg.py:69-77, AsyncResetReg: the signal has a default value -/
def asyncReset (es : List Ev) : Option Bool := es.foldl asyncStep (some false)

/-- reg.py:161-171, DReg_asyncRst: without a default value -/
def asyncRst (es : List Ev) : Option Bool := es.foldl asyncStep none

/-- reg.py:99-104, DDR_Reg -/
def ddrStep (r : Bool × Bool) (e : Ev) : Bool × Bool :=
  (if e.edge = some .rise then e.din else r.1, if e.edge = some .fall then e.din else r.2)

/-- reg.py:97, 105: two bits, the first register is the higher one -/
def ddr (es : List Ev) : Nat :=
  let r := es.foldl ddrStep (false, false)
  2 * r.1.toNat + r.2.toNat

/-- reg.py:147-149, LatchReg: (en, din) -/
def latchStep (r : Option Bool) (e : Bool × Bool) : Option Bool := if e.1 then some e.2 else r
def latch (es : List (Bool × Bool)) : Option Bool := es.foldl latchStep none

/-- reg.py:34-38, DReg with the synchronous reset of `addClkRst`: inputs (rst, din) at an edge of the clock -/
def dreg : Machine Bool (Bool × Bool) Bool where
  out s _ := s
  next _ i := if i.1 then false else i.2

/-- reg.py:49-61, DoubleDReg -/
def dreg2 : Machine (Bool × Bool) (Bool × Bool) Bool where
  out s i := dreg.out s.2 (i.1, dreg.out s.1 i)
  next s i := (dreg.next s.1 i, dreg.next s.2 (i.1, dreg.out s.1 i))

/-- leadingZero.py:19-29: the tree of conditions, evaluated for an input; `n` is the constant 8 -/
def zeroTree (s : Nat → Bool) (n : Nat) : Option Nat :=
  (List.range n).reverse.foldl (fun top i => match top with
    | none => some i
    | some t => some (if s i = false then i else t)) none

/-- the output of LeadingZero for the 64 bits of the input -/
def leadingZero (s : Nat → Bool) : Option Nat := zeroTree s 8

end Verif.ExReg
