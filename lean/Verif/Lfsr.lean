import Verif.Common
/-!
# Model of `Lfsr` (hwtLib/logic/lfsr.py)

`W = POLY_WIDTH`; the register is a vector of `W` bits, index 0 is the least significant bit.
-/
namespace Verif.Lfsr

abbrev St (W : Nat) := Fin W → Bool

/-- `Xor(*xorBits)` of the bits selected by `POLY`, logic/lfsr.py:42-48. -/
def nextBit {W : Nat} (poly : Nat) (s : St W) : Bool :=
  (List.finRange W).foldl (fun acc (i : Fin W) => if poly.testBit i then acc ^^ s i else acc) false

/-- logic/lfsr.py:49 `Concat(accumulator[W-1:], nextBit)`: the low `W-1` bits move up. -/
def next {W : Nat} (poly : Nat) (s : St W) : St W := fun j =>
  if h : j.val = 0 then nextBit poly s else s ⟨j.val - 1, by omega⟩

/-- State after `t` clock cycles from `INIT`. -/
def stateAt {W : Nat} (poly : Nat) (s : St W) : Nat → St W
  | 0 => s
  | t + 1 => next poly (stateAt poly s t)

/-- logic/lfsr.py:50 -/
def dataOut {W : Nat} (hW : 0 < W) (s : St W) : Bool := s ⟨0, hW⟩

end Verif.Lfsr
