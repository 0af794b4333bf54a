import Verif.Common
/-!
# Model of `Segment7` (hwtLib/peripheral/displays/segment7.py)
-/
namespace Verif.Segment7

/-- the table, segment7.py:42-64 -/
def dec : List Nat := [0b0000001, 0b1001111, 0b0010010, 0b0000110, 0b1001100, 0b0100100, 0b0100000, 0b0001111, 0b0000000, 0b0000100]

/-- `dataOut`, segment7.py:65-70 -/
def dataOut (d : Nat) : Nat := (dec[d]?).getD 0b1111111

end Verif.Segment7
