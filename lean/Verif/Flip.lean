import Verif.Common
/-!
# Model of `FlipRegister` and `FlipCntr` (hwtLib/mem/atomic/flipReg.py, flipCntr.py)
-/
namespace Verif.Flip

universe u
variable {α : Type u}

/-- Two ports (`first`, `second`: write valid + data) and the select. -/
structure In (α : Type u) where
  sel : Bool
  vld1 : Bool
  data1 : α
  vld2 : Bool
  data2 : α

/-- Registers `first_reg` (`r0`) and `second_reg` (`r1`), mem/atomic/flipReg.py:62-63. -/
structure St (α : Type u) where
  r0 : α
  r1 : α

/-- `first.din`, `second.din` -/
structure Out (α : Type u) where
  din1 : α
  din2 : α

/-- mem/atomic/flipReg.py:54-58, :65-71 -/
def out (s : St α) (i : In α) : Out α :=
  if i.sel then ⟨s.r1, s.r0⟩ else ⟨s.r0, s.r1⟩

/-- mem/atomic/flipReg.py:44-52, :65-71 -/
def next (s : St α) (i : In α) : St α :=
  if i.sel then
    { r1 := if i.vld1 then i.data1 else s.r1, r0 := if i.vld2 then i.data2 else s.r0 }
  else
    { r0 := if i.vld1 then i.data1 else s.r0, r1 := if i.vld2 then i.data2 else s.r1 }

def machine : Machine (St α) (In α) (Out α) := ⟨out, next⟩

/-! ## FlipCntr -/

structure CIn where
  incr : Bool
  flip : Bool
  vld : Bool
  data : Nat

structure CSt where
  flipSt : Bool
  regs : St Nat

/-- Inputs of the inner `FlipRegister`, mem/atomic/flipCntr.py:46-53 (`W = DATA_WIDTH`). The value
`first.din` does not depend on the write inputs. -/
def regIn (W : Nat) (s : CSt) (i : CIn) : In Nat where
  sel := s.flipSt
  vld1 := i.incr
  data1 := ((if s.flipSt then s.regs.r1 else s.regs.r0) + 1) % 2 ^ W
  vld2 := i.vld
  data2 := i.data

/-- `data.din` -/
def cout (W : Nat) (s : CSt) (i : CIn) : Nat := (out s.regs (regIn W s i)).din2

def cnext (W : Nat) (s : CSt) (i : CIn) : CSt where
  flipSt := if i.flip then !s.flipSt else s.flipSt
  regs := next s.regs (regIn W s i)

def cmachine (W : Nat) : Machine CSt CIn Nat := ⟨cout W, cnext W⟩

def cinit : CSt := ⟨false, ⟨0, 0⟩⟩

end Verif.Flip
