import Verif.Common
/-!
# Memory space of a simulated bus master (`hwtLib/sim/abstractMemSpaceMaster.py`)

`MemorySpaceItem`, `MemorySpaceItemStruct` and `MemorySpaceItemArr` translate a name in the register map to an address on the bus.

Trusted (library `hwt`): `TransTmpl`, here `load`: a child of a structure has the bit address in the whole template, the child of an
array starts at 0.
-/
namespace Verif.MemSpace

mutual
/-- Type of the register map -/
inductive Ty where
  | bits (w : Nat)
  | struct (fs : Fields)
  | arr (t : Ty) (n : Nat)
/-- Fields of a structure, `pad` is a field without name. -/
inductive Fields where
  | nil
  | cons (pad : Bool) (t : Ty) (fs : Fields)
end

mutual
/-- `bit_length()` of the type -/
def Ty.size : Ty → Nat
  | .bits w => w
  | .struct fs => fs.size
  | .arr t n => t.size * n
def Fields.size : Fields → Nat
  | .nil => 0
  | .cons _ t fs => t.size + fs.size
end

mutual
/-- `TransTmpl` -/
inductive Tmpl where
  | leaf (bitAddr bitAddrEnd : Nat)
  | struct (bitAddr bitAddrEnd : Nat) (cs : Tmpls)
  | arr (bitAddr bitAddrEnd : Nat) (itemCnt : Nat) (c : Tmpl)
inductive Tmpls where
  | nil
  | cons (c : Tmpl) (cs : Tmpls)
end

mutual
/-- `TransTmpl(t, bitAddr)` -/
def load : Ty → Nat → Tmpl
  | .bits w, b => .leaf b (b + w)
  | .struct fs, b => .struct b (b + fs.size) (loadFields fs b)
  | .arr t n, b => .arr b (b + t.size * n) n (load t 0)
def loadFields : Fields → Nat → Tmpls
  | .nil, _ => .nil
  | .cons pad t fs, b => if pad then loadFields fs (b + t.size) else .cons (load t b) (loadFields fs (b + t.size))
end

def Tmpl.bitAddr : Tmpl → Nat
  | .leaf b _ => b
  | .struct b _ _ => b
  | .arr b _ _ _ => b

def Tmpl.bitAddrEnd : Tmpl → Nat
  | .leaf _ e => e
  | .struct _ e _ => e
  | .arr _ e _ _ => e

/-- `bit_length` of the template -/
def Tmpl.bitLength (t : Tmpl) : Nat := t.bitAddrEnd - t.bitAddr

def Tmpls.get? : Tmpls → Nat → Option Tmpl
  | .nil, _ => none
  | .cons c _, 0 => some c
  | .cons _ cs, k + 1 => cs.get? k

/-- Step of an access: `k`-th named field, item of an array. -/
inductive Step where
  | field (k : Nat)
  | item (i : Nat)
deriving DecidableEq, Repr

/-- An item of the memory space: the bit address and the template (width) of a register; `none`: not a register or an exception.
`MemorySpaceItemStruct` (abstractMemSpaceMaster.py:48-79), `MemorySpaceItemArr` (:88-114), `MemorySpaceItem` (:14-18). -/
def lookup : Tmpl → Nat → List Step → Option (Nat × Tmpl)
  | .leaf b e, off, [] => some (b + off, .leaf b e)
  | .struct _ _ cs, off, .field k :: p =>
    match cs.get? k with
    | some c => lookup c off p
    | none => none
  | .arr b _ n c, off, .item i :: p =>
    if i < n then lookup c (b + off + c.bitLength * i) p else none
  | _, _, _ => none

/-- `myAddr` of the register (:17-18) -/
def myAddr (addrStep : Nat) (t : Ty) (p : List Step) : Option Nat :=
  (lookup (load t 0) 0 p).map fun r => r.1 / addrStep

/-- `mask(n)` of pyMathBitPrecise: `n` ones -/
def mask (n : Nat) : Nat := 2 ^ n - 1

/-- `self.mask` of the register (:20-22, `_mask` :138-139) -/
def itemMask (addrStep : Nat) (t : Tmpl) : Nat :=
  mask ((t.bitAddrEnd - t.bitAddr) / (addrStep * 8) / addrStep)

/-! ## Cache of the items of an array -/

/-- python list index of a list of length `n` -/
def pyIndex (n : Nat) (i : Int) : Option Nat :=
  if 0 ≤ i then (if i < n then some i.toNat else none)
  else if -(n : Int) ≤ i then some (i + n).toNat else none

/-- `MemorySpaceItemArr.__getitem__` (:104-114) for an array on the bit address `base` with items of `size` bits: the bit address of the
returned item and the cache after the access, `none` is an `IndexError`. -/
def getItem (base size : Nat) (cache : List (Option Int)) (i : Int) : Option (Int × List (Option Int)) :=
  match pyIndex cache.length i with
  | none => none
  | some k =>
    match cache[k]? with
    | some (some a) => some (a, cache)
    | _ =>
      let a := (base : Int) + size * i
      some (a, cache.set k (some a))

/-- A sequence of accesses, accesses which raise leave the cache as it is. -/
def runItems (base size : Nat) : List (Option Int) → List Int → List (Option Int)
  | cache, [] => cache
  | cache, i :: is =>
    match getItem base size cache i with
    | none => runItems base size cache is
    | some (_, c) => runItems base size c is

/-- `items_cache` at the begin (:93) -/
def emptyCache (n : Nat) : List (Option Int) := List.replicate n none

end Verif.MemSpace
