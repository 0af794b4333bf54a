import Verif.Common
/-!
# Examples of statements: control of a loop, state machines, two counters
(hwtLib/examples/statements/forLoopCntrl.py, statements/fsm.py, arithmetic/twoCntrs.py)
-/
namespace Verif.ForLoop

/-! ## StaticForLoopCntrl -/

structure In where
  /-- `cntrl.vld` -/
  vld : Bool
  /-- `body.rd` -/
  rd : Bool
  /-- `bodyBreak` -/
  brk : Bool
deriving DecidableEq

structure Out where
  /-- `cntrl.rd` -/
  rd : Bool
  /-- `body.vld` -/
  vld : Bool
  index : Nat
deriving DecidableEq

/-- forLoopCntrl.py:43-61; the state is `counter` (reset to ITERATIONS - 1) -/
def loop (n : Nat) : Machine Nat In Out where
  out c _ := { rd := c == 0, vld := c != 0, index := c }
  next c i :=
    if c = 0 then (if i.vld then n - 1 else c)
    else if i.rd then (if i.brk then 0 else c - 1)
    else c

/-! ## FsmExample, HadrcodedFsmExample -/

inductive St where
  | a | b | aAndB
deriving DecidableEq

/-- fsm.py:28-53; `FsmBuilder` of hwt: the first condition which holds is taken, otherwise the state is kept,
the reset state is the first member of the type -/
def fsm : Machine St (Bool × Bool) Nat where
  out s _ := match s with
    | .a => 1
    | .b => 2
    | .aAndB => 3
  next s i := match s with
    | .a => if i.1 && i.2 then .aAndB else if i.2 then .b else .a
    | .b => if i.1 && i.2 then .aAndB else if i.1 then .a else .b
    | .aAndB => if i.1 && !i.2 then .a else if !i.1 && i.2 then .b else .aAndB

/-- fsm.py:66-99; the state is a number of 3 bits, `none` is an undefined output -/
def hard : Machine (Fin 8) (Bool × Bool) (Option Nat) where
  out s _ := if s = 1 then some 1 else if s = 2 then some 2 else if s = 3 then some 3 else none
  next s i :=
    if s = 1 then (if i.1 && i.2 then 3 else if i.2 then 2 else s)
    else if s = 2 then (if i.1 && i.2 then 3 else if i.1 then 1 else s)
    else if s = 3 then (if i.1 && !i.2 then 1 else if !i.1 && i.2 then 2 else s)
    else 1

/-! ## TwoCntrs -/

structure Cmp where
  eq : Bool
  ne : Bool
  lt : Bool
  gt : Bool
deriving DecidableEq

/-- twoCntrs.py:30-46: two registers of 8 bits, inputs `a_en`, `b_en` -/
def two : Machine (Nat × Nat) (Bool × Bool) Cmp where
  out s _ := { eq := s.1 == s.2, ne := s.1 != s.2, lt := decide (s.1 < s.2), gt := decide (s.2 < s.1) }
  next s i := (if i.1 then (s.1 + 1) % 256 else s.1, if i.2 then (s.2 + 1) % 256 else s.2)

end Verif.ForLoop
