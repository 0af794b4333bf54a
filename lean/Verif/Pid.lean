/-!
# `PidController` (`hwtLib/logic/pid.py`) and `RippleAdder1-3` (`hwtLib/examples/hierarchy/rippleadder.py`)

PID: `DATAIN_WIDTH = DATAOUT_WIDTH = COEF_WIDTH = W` (operands of hwt operators have the same width and so has the product),
signed numbers are integers wrapped to `W` bits after every operation.

Adder: vectors are functions from index to bit.
-/

namespace Verif.Pid

/-- value of `W` bit two's complement number -/
def wrap (W : Nat) (x : Int) : Int := Int.bmod x (2 ^ W)

structure In where
  input : Int
  target : Int
  a0 : Int
  a1 : Int
  a2 : Int
  a3 : Int

structure St where
  u : Int
  y0 : Int
  y1 : Int

/-- pid.py:63-82: registers `u`, `y0`, `y1`; `Add` is a left fold -/
def next (W : Nat) (s : St) (i : In) : St where
  u := wrap W (wrap W (wrap W (wrap W (s.u + wrap W (i.a0 * wrap W (i.input - i.target))) + wrap W (i.a1 * i.input))
    + wrap W (i.a2 * s.y0)) + wrap W (i.a3 * s.y1))
  y0 := i.input
  y1 := s.y0

def init : St := ⟨0, 0, 0⟩

/-- state after `n` cycles -/
def run (W : Nat) (f : Nat → In) : Nat → St
  | 0 => init
  | n + 1 => next W (run W f n) (f n)

end Verif.Pid

namespace Verif.Ripple

/-- `FullAdder`, rippleadder.py:33-34 -/
def faS (a b c : Bool) : Bool := (a ^^ b) ^^ c
def faCo (a b c : Bool) : Bool := a && b || a && c || b && c

/-- carries, rippleadder.py:136-142 (the same chain in lines 175-185 and 210-227) -/
def carry (ci : Bool) (a b : Nat → Bool) : Nat → Bool
  | 0 => ci
  | n + 1 => faCo (a n) (b n) (carry ci a b n)

/-- bit of the output `s` -/
def sum (ci : Bool) (a b : Nat → Bool) (n : Nat) : Bool := faS (a n) (b n) (carry ci a b n)

/-- `RippleAdder0`, rippleadder.py:79-107: operand `b` is not connected and all carries are that of the first adder -/
def carry0 (ci : Bool) (a : Nat → Bool) : Nat → Bool
  | 0 => ci
  | _ + 1 => faCo (a 0) (a 0) ci
def sum0 (ci : Bool) (a : Nat → Bool) (n : Nat) : Bool := faS (a n) (a n) (carry0 ci a n)

end Verif.Ripple
