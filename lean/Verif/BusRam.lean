import Verif.SimRam

/-!
# `Axi4SimRam` (`hwtLib/amba/axi_comp/sim/ram.py`) and `AvalonMmSimRam` (`hwtLib/avalon/sim/ram.py`)

Memories which testbenches connect to the bus of the tested component. The methods `doRead`, `doWrite`, `_write_single_word` are same in both
classes up to the type of requests.

Simplifications
* The dictionary is a function, missing items are `Cell.inv` as in `SimRam` (`.get(..., None)`, axi ram.py:117, :119, :157).
* An error (ValueError, AssertionError) is a value.
* Values of bits which are not valid can not be observed, `word_t.from_py(val, mask)` keeps them.
* Unaligned accesses are modelled only for cells with python int (made by `calloc`) and for fully valid data.
-/

namespace Verif.BusRam

open Verif Verif.SimRam

abbrev Mem := Nat → Cell

/-- `set_bit_range(v, off, w, x)` of pyMathBitPrecise. -/
def setRange (v off w x : Nat) : Nat := (v ^^^ (((v >>> off) % 2 ^ w) <<< off)) ||| ((x % 2 ^ w) <<< off)

/-- `self.allMask = mask(self.cellSize)` (axi ram.py:77, avalon ram.py:31): one bit for each byte. -/
def allMask (cs : Nat) : Nat := 2 ^ cs - 1

/-- `cur_val, cur_mask` (axi ram.py:157-166, avalon ram.py:138-147). -/
def current (cs : Nat) : Cell → Nat × Nat
  | .inv => (0, 0)
  | .int v => (v, allMask cs)
  | .bits v m => (v, m)

/-- Loop over the bytes (axi ram.py:168-173, avalon ram.py:149-154). -/
def mergeBytes (n strb val vld : Nat) (cur : Nat × Nat) : Nat × Nat :=
  (List.range n).foldl (fun c i =>
    if strb.testBit i then (setRange c.1 (i * 8) 8 (bitRange val (i * 8) 8), setRange c.2 (i * 8) 8 (bitRange vld (i * 8) 8)) else c) cur

/-- `_write_single_word` (axi ram.py:153-179, avalon ram.py:133-160), result: new value of the cell. -/
def writeWord (cs : Nat) (cur : Cell) (val vld strb : Nat) : Cell :=
  if strb = 0 then cur
  else if strb ≠ allMask cs then
    let c := mergeBytes cs strb val vld (current cs cur)
    if c.2 = allMask cs then .int c.1 else .bits c.1 c.2
  else .bits val vld

structure Beat where
  val : Nat
  vld : Nat
  strb : Nat
  last : Bool
deriving DecidableEq

inductive Err where
  | notAligned
  | badLast
  | uninitialized
deriving DecidableEq

/-- Loop of `doWrite` (axi ram.py:188-197) for the aligned address. `AvalonMmSimRam` has no `last` (avalon ram.py:168-171), its beats are
those with a correct `last`. -/
def writeBeats (cs : Nat) : Mem → Nat → List Beat → Except Err Mem
  | m, _, [] => .ok m
  | m, i, b :: bs =>
    if b.last != bs.isEmpty then .error .badLast
    else writeBeats cs (upd m i (writeWord cs (m i) b.val b.vld b.strb)) (i + 1) bs

/-- `doWrite` with `allow_unaligned_addr=False` (axi ram.py:181-207, avalon ram.py:162-181), the beats are the words of this transaction
(it is called when all words of the transaction are there). -/
def doWrite (cs : Nat) (m : Mem) (addr : Nat) (bs : List Beat) : Except Err Mem :=
  if addr % cs ≠ 0 then .error .notAligned else writeBeats cs m (addr / cs) bs

/-- Loop of `doRead` (axi ram.py:115-142) for the aligned address: data and last. -/
def readBeats (m : Mem) : Nat → Nat → Except Err (List (Cell × Bool))
  | _, 0 => .ok []
  | i, n + 1 =>
    if m i = .inv then .error .uninitialized
    else match readBeats m (i + 1) n with
      | .ok r => .ok ((m i, n == 0) :: r)
      | .error e => .error e

/-- `doRead` with `allow_unaligned_addr=False` (axi ram.py:100-142, avalon ram.py:89-128). -/
def doRead (cs : Nat) (m : Mem) (addr size : Nat) : Except Err (List (Cell × Bool)) :=
  if addr % cs ≠ 0 then .error .notAligned else readBeats m (addr / cs) size

/-- A word read from an unaligned address with `allow_unaligned_addr=True`, `d0`, `d1` are the cells at the index of the address and after it
(axi ram.py:117-135, avalon ram.py:103-121), for python int values; `o` is the offset in bytes, `none` if it is not initialized. -/
def readUnaligned (cs o : Nat) (d0 d1 : Option Nat) : Option Nat :=
  match d0, d1 with
  | none, none => none
  | none, some b => some ((b <<< ((cs - o) * 8)) &&& (2 ^ ((cs - o) * 8) - 1))
  | some a, none => some (a >>> (o * 8))
  | some a, some b => some (((a >>> (o * 8)) &&& (2 ^ (8 * cs) - 1)) ||| ((b <<< ((cs - o) * 8)) &&& (2 ^ ((cs - o) * 8) - 1)))

/-- A word written to an unaligned address with `allow_unaligned_addr=True` (axi ram.py:198-206, avalon ram.py:172-180), fully valid data. -/
def writeUnaligned (cs o : Nat) (m : Mem) (i val strb : Nat) : Mem :=
  let full := 2 ^ (8 * cs) - 1
  let d0 := (val <<< (o * 8)) % 2 ^ (8 * cs)
  let d1 := (val >>> (o * 8)) &&& allMask cs
  let m := upd m i (writeWord cs (m i) d0 full (strb <<< o))
  upd m (i + 1) (writeWord cs (m (i + 1)) d1 full ((strb >>> o) &&& (2 ^ cs - 1)))

end Verif.BusRam
