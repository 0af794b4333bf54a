import Verif.Common
import Mathlib.Data.List.Induction
import Mathlib.Data.List.Basic
/-!
# Model of `ArrayItemGetter` (hwtLib/structManipulators/arrayItemGetter.py)

Data are numbers. The fifo of sub-indexes is a `HandshakedFifo` (C05-C07): a list which may show its head later (`fv`), refuse a
write at any time (`fRd`) and has arbitrary output data while not valid (`fj`).
-/
namespace Verif.ArrayItemGetter

/-- `HwParam`s (arrayItemGetter.py:25-32) -/
structure Cfg where
  ITEMS : Nat
  ITEM_WIDTH : Nat
  DATA_WIDTH : Nat
  ADDR_WIDTH : Nat

/-- `ITEMS_IN_DATA_WORD` (arrayItemGetter.py:48) -/
def Cfg.perWord (c : Cfg) : Nat := c.DATA_WIDTH / c.ITEM_WIDTH

/-- the number of bits of `itemSubIndexFifo` data (arrayItemGetter.py:58, 87) -/
def Cfg.subBits (c : Cfg) : Nat := log2ceil c.perWord

/-- `log2ceil(ITEM_WIDTH // 8)` (arrayItemGetter.py:77, 88) -/
def Cfg.alignBits (c : Cfg) : Nat := log2ceil (c.ITEM_WIDTH / 8)

/-- Parameters which pass the checks of the constructor (arrayItemGetter.py:55-56, 69-70); the slice `index.data[:subIndexBits]` of
line 87 needs an index wider than `subIndexBits`. -/
structure Cfg.Ok (c : Cfg) : Prop where
  item : c.ITEM_WIDTH % 8 = 0
  pos : 0 < c.ITEM_WIDTH
  word : c.DATA_WIDTH = c.perWord * c.ITEM_WIDTH
  per : ∃ k, c.perWord = 2 ^ k
  idx : c.perWord ≠ 1 → c.subBits < log2ceil c.ITEMS

structure In where
  base : Nat
  /-- `index` -/
  vld : Bool
  index : Nat
  /-- `rDatapump.req.rd` -/
  reqRd : Bool
  /-- `rDatapump.r` -/
  rVld : Bool
  rData : Nat
  /-- `item.rd` -/
  itemRd : Bool
  fRd : Bool
  fv : Bool
  fj : Nat

structure Out where
  /-- `index.rd` -/
  rd : Bool
  reqVld : Bool
  reqAddr : Nat
  rRd : Bool
  itemVld : Bool
  item : Nat

/-- `req.addr` (arrayItemGetter.py:77-78, 89-92); `Concat(hi, 0)` is a multiplication, `fitTo` and the addition cut to the width
of the address. -/
def addrOf (c : Cfg) (base index : Nat) : Nat :=
  if c.perWord = 1 then (base + index * 2 ^ c.alignBits % 2 ^ c.ADDR_WIDTH) % 2 ^ c.ADDR_WIDTH
  else (base + index / 2 ^ c.subBits * 2 ^ (c.alignBits + c.subBits) % 2 ^ c.ADDR_WIDTH) % 2 ^ c.ADDR_WIDTH

/-- the item of a word (arrayItemGetter.py:97-100) -/
def slice (c : Cfg) (word i : Nat) : Nat := word / 2 ^ (c.ITEM_WIDTH * i) % 2 ^ c.ITEM_WIDTH

def fVld (f : List Nat) (x : In) : Bool := x.fv && !f.isEmpty
def fData (f : List Nat) (x : In) : Nat := if fVld f x then f.headD 0 else x.fj

/-- Without the fifo: arrayItemGetter.py:77-82; with the fifo: arrayItemGetter.py:85-102. `Switch` over all values of the sub-index. -/
def out (c : Cfg) (f : List Nat) (x : In) : Out :=
  if c.perWord = 1 then ⟨x.reqRd, x.vld, addrOf c x.base x.index, x.itemRd, x.rVld, x.rData⟩
  else ⟨x.reqRd && x.fRd, x.vld && x.fRd, addrOf c x.base x.index, fVld f x && x.itemRd, x.rVld && fVld f x,
    slice c x.rData (fData f x)⟩

def next (c : Cfg) (f : List Nat) (x : In) : List Nat :=
  if c.perWord = 1 then [] else
  (if fVld f x && (x.rVld && x.itemRd) then f.tail else f) ++ given (x.vld && x.reqRd && x.fRd) (x.index % 2 ^ c.subBits)

def machine (c : Cfg) : Machine (List Nat) In Out := ⟨out c, next c⟩

/-! ## Observations -/

/-- indexes taken, each with the base address of the array at this time -/
def asked (tr : List (In × Out)) : List (Nat × Nat) := tr.flatMap fun e => given (e.1.vld && e.2.rd) (e.1.base, e.1.index)
/-- addresses of the requests given to the datapump -/
def requested (tr : List (In × Out)) : List Nat := tr.flatMap fun e => given (e.2.reqVld && e.1.reqRd) e.2.reqAddr
/-- words taken from the datapump -/
def words (tr : List (In × Out)) : List Nat := tr.flatMap fun e => given (e.1.rVld && e.2.rRd) e.1.rData
/-- items given out -/
def items (tr : List (In × Out)) : List Nat := tr.flatMap fun e => given (e.2.itemVld && e.1.itemRd) e.2.item

/-- `n` bytes at address `a` as a little endian number -/
def readLE (mem : Nat → Nat) : Nat → Nat → Nat
  | _, 0 => 0
  | a, n + 1 => mem a + 256 * readLE mem (a + 1) n

/-- The datapump answers the requests in order with the word of the memory at the address. -/
def Answers (c : Cfg) (mem : Nat → Nat) (tr : List (In × Out)) : Prop :=
  words tr <+: (requested tr).map fun a => readLE mem a (c.DATA_WIDTH / 8)

/-- The array is inside of the address space, its begin is aligned to the word and the index is in the array. -/
def Inside (c : Cfg) (tr : List (In × Out)) : Prop :=
  ∀ e ∈ asked tr, e.2 < c.ITEMS ∧ e.1 % (c.DATA_WIDTH / 8) = 0 ∧ e.1 + c.ITEMS * (c.ITEM_WIDTH / 8) ≤ 2 ^ c.ADDR_WIDTH

/-! ## Internals -/

theorem readLE_add (mem : Nat → Nat) (a m n : Nat) : readLE mem a (m + n) = readLE mem a m + 256 ^ m * readLE mem (a + m) n := by
  induction m generalizing a with
  | zero => simp [readLE]
  | succ m ih =>
    rw [show m + 1 + n = (m + n) + 1 by omega, readLE, ih, readLE, show a + 1 + m = a + (m + 1) by omega, Nat.pow_succ]
    rw [Nat.mul_add, ← Nat.add_assoc, ← Nat.mul_assoc, Nat.mul_comm 256 (256 ^ m)]

theorem readLE_lt {mem : Nat → Nat} (hm : ∀ a, mem a < 256) (a n : Nat) : readLE mem a n < 256 ^ n := by
  induction n generalizing a with
  | zero => simp [readLE]
  | succ n ih =>
    have := ih (a + 1)
    have := hm a
    rw [readLE, Nat.pow_succ]
    omega

/-- an item in the word -/
theorem slice_word {mem : Nat → Nat} (hm : ∀ a, mem a < 256) (a b n i : Nat) (hi : i < n) :
    readLE mem a (n * b) / 256 ^ (b * i) % 256 ^ b = readLE mem (a + b * i) b := by
  obtain ⟨r, rfl⟩ : ∃ r, n = i + (1 + r) := ⟨n - i - 1, by omega⟩
  rw [show (i + (1 + r)) * b = b * i + (b + r * b) by rw [Nat.add_mul, Nat.add_mul, Nat.mul_comm i b]; omega,
    readLE_add, readLE_add mem (a + b * i)]
  rw [Nat.add_mul_div_left _ _ (Nat.pow_pos (by omega)), Nat.div_eq_of_lt (readLE_lt hm _ _), Nat.zero_add,
    Nat.add_mul_mod_self_left, Nat.mod_eq_of_lt (readLE_lt hm _ _)]

/-- The log2ceil of a power of two. -/
theorem log2ceil_pow {k : Nat} (h : 1 ≤ k) : log2ceil (2 ^ k) = k := by
  have h2 : 2 ≤ 2 ^ k := by
    have := Nat.pow_le_pow_right (n := 2) (by omega) h
    simpa using this
  unfold log2ceil
  rw [if_neg (by omega)]
  have : Nat.log2 (2 ^ k - 1) = k - 1 := by
    rw [Nat.log2_eq_iff (by omega)]
    refine ⟨?_, ?_⟩
    · have : 2 ^ k = 2 ^ (k - 1) * 2 := by rw [← Nat.pow_succ]; congr 1; omega
      have := Nat.pow_pos (n := k - 1) (show 0 < 2 by omega)
      omega
    · rw [show k - 1 + 1 = k by omega]; omega
  omega

end Verif.ArrayItemGetter
