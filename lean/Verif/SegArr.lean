import Verif.Common
/-!
# `SegmentedArrayProxy` (`hwtLib/mem/sim/segmentedArrayProxy.py`)

A memory in a simulation which is stored in several arrays is used as a list of items.

Simplifications: values are fully defined integers (`Nat`), `val` and `def_val` of a memory have the same content; an access out
of the range of an array (`IndexError`) is not modelled, arrays are functions. Trusted (library): `Concat` of `n` values of the
same width; `int_to_int_list(v, w, n)` are the `n` slices of `w` bits from the lowest one; `from_py` raises if the value does not
fit.
-/
namespace Verif.SegArr

/-- content: memory, index -/
abbrev Mems := Nat → Nat → Nat

/-- width of an element, number of memories, `words_per_item` -/
structure Cfg where
  ew : Nat
  k : Nat
  words : Option Nat
deriving DecidableEq, Repr

/-- `ITEM_WIDTH` (segmentedArrayProxy.py:36) -/
def Cfg.itemWidth (g : Cfg) : Nat := g.ew * g.k

/-- slice of `w` bits from the bit `b`: `select_bit_range` (tools/debug_bus_monitor_ctl.py:19-26) -/
def slice (v b w : Nat) : Nat := (v >>> b) % 2 ^ w

/-- `Concat` of `n` values of `w` bits, `f 0` is the lowest. -/
def concat (w : Nat) (f : Nat → Nat) : Nat → Nat
  | 0 => 0
  | n + 1 => concat w f n + f n * 2 ^ (w * n)

/-- `_getitem` (:57-59) -/
def getRaw (g : Cfg) (m : Mems) (i : Nat) : Nat := concat g.ew (fun j => m j i) g.k

/-- `_setitem` (:61-70), `none` is an exception of `from_py` -/
def setRaw (g : Cfg) (m : Mems) (i v : Nat) : Option Mems :=
  if ∀ j, j < g.k → slice v (j * 8) 8 < 2 ^ g.ew then
    some fun j i' => if i' = i ∧ j < g.k then slice v (j * 8) 8 else m j i'
  else none

/-- `__getitem__` (:46-55), `items_per_index` is not used -/
def getItem (g : Cfg) (m : Mems) (i : Nat) : Nat :=
  match g.words with
  | none => getRaw g m i
  | some n =>
    if n = 0 ∨ n = 1 then getRaw g m i
    else concat g.itemWidth (fun t => getRaw g m (i * n + t)) n

/-- the loop of `__setitem__` (:78-79) for the words from `t`, `c` of them -/
def setWords (g : Cfg) (base v : Nat) : Mems → Nat → Nat → Option Mems
  | m, _, 0 => some m
  | m, t, c + 1 =>
    match setRaw g m (base + t) (slice v (t * g.itemWidth) g.itemWidth) with
    | none => none
    | some m' => setWords g base v m' (t + 1) c

/-- `__setitem__` (:72-82) -/
def setItem (g : Cfg) (m : Mems) (i v : Nat) : Option Mems :=
  match g.words with
  | none => setRaw g m i v
  | some n => if n = 0 ∨ n = 1 then setRaw g m i v else setWords g (i * n) v m 0 n

/-- number of words of an item -/
def Cfg.nWords (g : Cfg) : Nat := max 1 (g.words.getD 1)

/-- `__len__` (:84-85) for memories with `depth` elements, `none` is an exception (division by `None` or by 0) -/
def len (g : Cfg) (depth : Nat) : Option Nat :=
  match g.words with
  | none => none
  | some n => if n = 0 then none else some (depth / n)

end Verif.SegArr
