import Verif.Common
/-!
# Helpers of the AXI cache, amba/axi_comp/cache/utils.py, addrTypeConfig.py

A vector of bits is the list of its bits, the least significant first.  `concat` has the most significant part first as the
`Concat` of hwt.

Trusted: `apply_set_and_clear(v, s, c)` of pyMathBitPrecise is `(v & ~c) | s`; `mask(w)` is `2 ** w - 1`; a type `HBits` with a
negative width and a value which does not fit its width are errors (`none`).
-/
namespace Verif.CacheUtil

def concat (l : List (List Bool)) : List Bool := l.reverse.flatten

/-- `expand_byte_mask_to_bit_mask`, utils.py:12-21 -/
def expandMask (m : List Bool) : List Bool := concat (m.map fun b => concat (List.replicate 8 [b])).reverse

def bAnd (a b : List Bool) : List Bool := List.zipWith (fun x y => x && y) a b
def bOr (a b : List Bool) : List Bool := List.zipWith (fun x y => x || y) a b
def bNot (a : List Bool) : List Bool := a.map (!·)

/-- `apply_set_and_clear` -/
def setClear (v s c : List Bool) : List Bool := bOr (bAnd v (bNot c)) s

/-- `apply_write_with_mask`, utils.py:24-26 -/
def applyWrite (cur new m : List Bool) : List Bool := setClear cur (bAnd new (expandMask m)) (expandMask m)

/-- `ceil((w // 8) / 8) * 8`, utils.py:34 -/
def closest (w : Nat) : Nat := (w / 8 + 7) / 8 * 8

/-- `extend_to_width_multiple_of_8`, utils.py:29-38 -/
def extend8 (sig : List Bool) : Option (List Bool) :=
  if closest sig.length = sig.length then some sig
  else if closest sig.length < sig.length then none
  else some (concat [List.replicate (closest sig.length - sig.length) false, sig])

/-- width of the address of the read port of `CamWithReadPort`, utils.py:59 -/
def camAddrWidth (items : Nat) : Nat := log2ceil (items - 1)

/-- read port, utils.py:65: the address signal has `camAddrWidth` bits -/
def camRead (items : Nat) (mem : Nat → Nat) (addr : Fin (2 ^ camAddrWidth items)) : Nat := mem addr.val

structure Cfg where
  addrW : Nat
  lineSize : Nat
  lineCnt : Nat
  wayCnt : Nat

/-- addrTypeConfig.py:41-43 -/
def Cfg.offW (c : Cfg) : Nat := log2ceil c.lineSize
def Cfg.idxW (c : Cfg) : Nat := log2ceil (c.lineCnt / c.wayCnt)
def Cfg.tagW (c : Cfg) : Nat := c.addrW - c.idxW - c.offW
/-- `assert self.TAG_W > 0`, addrTypeConfig.py:44 -/
def Cfg.Ok (c : Cfg) : Prop := c.idxW + c.offW < c.addrW

/-- `parse_addr_int`, addrTypeConfig.py:47-51 -/
def parseInt (c : Cfg) (addr : Nat) : Nat × Nat × Nat :=
  (addr >>> (c.idxW + c.offW), (addr >>> c.offW) &&& (2 ^ c.idxW - 1), addr &&& (2 ^ c.offW - 1))

/-- bits `hi-1 .. lo` of a signal -/
def slice (hi lo v : Nat) : Nat := v % 2 ^ hi / 2 ^ lo

/-- `parse_addr`, addrTypeConfig.py:53-57, the signal has `addrW` bits -/
def parse (c : Cfg) (addr : Nat) : Nat × Nat × Nat :=
  (slice c.addrW (c.idxW + c.offW) addr, slice (c.idxW + c.offW) c.offW addr, slice c.offW 0 addr)

/-- `deparse_addr`, addrTypeConfig.py:62-78 -/
def deparse (c : Cfg) (tag index offset : Nat) : Option Nat :=
  if tag < 2 ^ c.tagW ∧ offset < 2 ^ c.offW ∧ index < 2 ^ c.idxW then some ((tag * 2 ^ c.idxW + index) * 2 ^ c.offW + offset)
  else none

/-- `addr_in_data_array`, addrTypeConfig.py:59-60 -/
def dataAddr (c : Cfg) (way index : Nat) : Nat := way * 2 ^ c.idxW + index

end Verif.CacheUtil
