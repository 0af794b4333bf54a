import Verif.Resizer

/-!
# `Axi4SStoredBurst` (`hwtLib/amba/axis_comp/storedBurst.py`)

The word counter, its next value and `valid` are those of `HandshakedStoredBurst`
(axis_comp/storedBurst.py:44-54, 82-86, 96-108 against handshaked/storedBurst.py:43-83), so the machine is
`Resizer.burst` over the list of the words which the elaboration prepares.

Simplifications: a word is the list of its bytes (lane 0 first, `byte_list_to_be_int` puts the first item on
the lowest byte); `strb` (or `keep`) is the list of enables of the lanes; `DATA` is not empty (for an
empty one the elaboration raises an exception); `math.log2` is exact.
-/

namespace Verif.AxisBurst

open Verif Verif.Resizer

structure Word (β : Type) where
  data : List β
  strb : List Bool
  last : Bool
deriving DecidableEq, Repr

/-- `grouper(n, DATA, 0)` (storedBurst.py:71): groups of `n`, the last one filled up with `z`. -/
def grouper (n : Nat) (z : β) (D : List β) : List (List β) :=
  (List.range ((D.length + n - 1) / n)).map fun k =>
    (List.range n).map fun j => (D[k * n + j]?).getD z

/-- storedBurst.py:70-74: after the loop the word of the last round is added once more. -/
def byteWords (n : Nat) (z : β) (D : List β) : List (List β) :=
  grouper n z D ++ (grouper n z D).getLast?.toList

/-- `mask(k)` as lane enables. -/
def lanes (n k : Nat) : List Bool := (List.range n).map fun j => decide (j < k)

/-- storedBurst.py:66-68. -/
def lastMask (n size : Nat) : List Bool :=
  if size % n / 8 = 0 then lanes n n else lanes n (size % n / 8)

/-- storedBurst.py:84-102: data, mask and last of word `i` of the table. -/
def mkWords (n : Nat) (lm : List Bool) (ws : List (List β)) : List (Word β) :=
  ws.mapIdx fun i w =>
    { data := w
      strb := if i = ws.length - 1 then lm else lanes n n
      last := decide (i = ws.length - 1) }

/-- `DATA` is `bytes` (storedBurst.py:60-75). -/
def ofBytes (n : Nat) (z : β) (D : List β) : List (Word β) :=
  mkWords n (lastMask n D.length) (byteWords n z D)

/-- `DATA` is a tuple of words (storedBurst.py:76-77). -/
def ofTuple (n : Nat) (D : List (List β)) : List (Word β) :=
  mkWords n (lanes n n) D

end Verif.AxisBurst
