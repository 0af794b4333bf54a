import Verif.Common
import Mathlib.Data.List.Induction
import Mathlib.Data.List.Basic
/-!
# Model of `RamCumulativeMask` (hwtLib/mem/ramCumulativeMask.py)

A word is a function from the index of a byte to its value and a function from the index of a byte to the bit of its mask; `w` is `MASK_W`.
The bits of the mask are stored in bytes of the memory, each byte of 8 bits of the mask has one write enable. The internal memory
(`RamSingleClock`, hwtLib/mem/ram.py:88-140) has one write port and any number of read ports with registered output which is held if the port is not enabled;
a read in the cycle of a write gives the old content.
-/
namespace Verif.CumMask

variable {α : Type}

structure Word (α : Type) where
  data : Nat → α
  mask : Nat → Bool

/-- the write port -/
structure W (α : Type) where
  vld : Bool
  addr : Nat
  din : Nat → α
  we : Nat → Bool
  accumulate : Bool
  overwrite : Bool

structure In (α : Type) where
  w : W α
  /-- the read ports: `en.vld`, `addr` -/
  rVld : Nat → Bool
  rAddr : Nat → Nat

structure Out (α : Type) where
  /-- `en.rd` of the write port -/
  wRd : Bool
  /-- `en.rd`, `dout`, `dout_mask` of the read ports -/
  rRd : Nat → Bool
  dout : Nat → Word α

structure St (α : Type) where
  mem : Nat → Word α
  preload : Bool
  dout : Nat → Word α

/-- an accumulating write (:158-159) -/
def acc (w : W α) : Bool := w.vld && w.accumulate && !w.overwrite

/-- write enable of the byte `j` of the mask (:123-136) -/
def weMask (n : Nat) (w : W α) (j : Nat) : Bool :=
  (List.range 8).any (fun b => decide (8 * j + b < n) && w.we (8 * j + b)) || !w.accumulate || w.overwrite

/-- `ram_w.en` (:144) -/
def write (s : St α) (w : W α) : Bool := w.vld && (w.overwrite || !w.accumulate || s.preload)

/-- the new word (:145-156) -/
def newWord (n : Nat) (s : St α) (w : W α) (old : Word α) : Word α where
  data i := if w.we i then w.din i else old.data i
  mask i := if weMask n w (i / 8) then (if s.preload then w.we i || (s.dout 0).mask i else w.we i) else old.mask i

/-- :142, :158-170 -/
def out (s : St α) (x : In α) : Out α where
  wRd := !x.w.accumulate || x.w.overwrite || s.preload
  rRd k := if k = 0 then !acc x.w || s.preload else true
  dout := s.dout

/-- :138-141, :143-170 -/
def next (n : Nat) (s : St α) (x : In α) : St α where
  mem := if write s x.w then upd s.mem x.w.addr (newWord n s x.w (s.mem x.w.addr)) else s.mem
  preload := if x.w.vld then !s.preload && x.w.accumulate && !x.w.overwrite else s.preload
  dout k := if k = 0 then
      (if acc x.w || x.rVld 0 then s.mem (if acc x.w then x.w.addr else x.rAddr 0) else s.dout 0)
    else if x.rVld k then s.mem (x.rAddr k) else s.dout k

def machine (n : Nat) : Machine (St α) (In α) (Out α) := ⟨out, next n⟩

/-! ## Observations -/

/-- writes accepted -/
def writes (tr : List (In α × Out α)) : List (W α) := tr.flatMap fun e => given (e.1.w.vld && e.2.wRd) e.1.w

/-- What a write does, by the documentation (:24-36): the bytes enabled are stored, the mask is replaced or accumulated. -/
def apply (m : Nat → Word α) (w : W α) : Nat → Word α := fun a =>
  if a = w.addr then
    { data := fun i => if w.we i then w.din i else (m a).data i
      mask := fun i => if w.accumulate && !w.overwrite then (m a).mask i || w.we i else w.we i }
  else m a

/-- content of the memory after the writes accepted -/
def content (m : Nat → Word α) (tr : List (In α × Out α)) : Nat → Word α := (writes tr).foldl apply m

/-- The environment keeps a write which was not accepted. -/
def Steady (tr : List (In α × Out α)) : Prop := ∀ pre e f post, tr = pre ++ e :: f :: post → e.1.w.vld = true → e.2.wRd = false → f.1.w = e.1.w

/-- There are `n` bytes in a word. -/
def Fits (n : Nat) (x : In α) : Prop := ∀ i, x.w.we i = true → i < n

end Verif.CumMask
