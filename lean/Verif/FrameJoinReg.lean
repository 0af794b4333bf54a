import Verif.Common

/-!
# `FrameJoinInputReg` (`hwtLib/amba/axis_comp/frame_join/input_reg.py`)

Pipeline of `n` = `REG_CNT` registers with `W` bytes of a generic type, `keep` and the masks are functions from the index of
the byte. Register 0 is the output, register `n - 1` is loaded from `dataIn`. `strb` is a part of the byte.
-/

namespace Verif.FrameJoinReg

universe u
variable {β : Type u}

/-- lines 73-78 -/
structure Reg (β : Type u) where
  data : Nat → β
  keep : Nat → Bool
  relict : Bool
  last : Bool

structure In (β : Type u) where
  valid : Bool
  data : Nat → β
  keep : Nat → Bool
  last : Bool
  /-- `ready`, `keep_masks` from the state machine -/
  ready : Bool
  masks : Nat → Nat → Bool

abbrev St (β : Type u) := Nat → Reg β

/-- `keep._eq(0)` -/
def zero (W : Nat) (k : Nat → Bool) : Bool := (List.range W).all fun i => !k i

/-- lines 108, 124, 160 -/
def empty (W : Nat) (r : Reg β) : Bool := zero W r.keep && !(r.last && r.relict)

/-- `r.keep & keep_masks[i]` -/
def rest (s : St β) (i : In β) (k : Nat) : Nat → Bool := fun b => (s k).keep b && i.masks k b

/-- `fully_consumed_flags`, lines 94-99 -/
def consumed (W : Nat) (s : St β) (i : In β) (k : Nat) : Bool := zero W (rest s i k) && (k != 0 || i.ready)

/-- `dataIn.ready`, lines 122-131 -/
def inReady (n W : Nat) (s : St β) (i : In β) : Bool :=
  empty W (s (n - 1)) || (i.ready && zero W (rest s i 0)) || (decide (1 < n) && empty W (s (n - 2)))

/-- condition of the load, lines 149 and 167 -/
def load (W : Nat) (s : St β) (i : In β) (k : Nat) : Bool :=
  if k = 0 then (i.ready && consumed W s i 0) || empty W (s 0)
  else (i.ready && consumed W s i (k - 1)) || empty W (s k) || empty W (s (k - 1))

/-- value loaded from `dataIn` (lines 110-121, 150-155, 168-172) or from the previous register (lines 132-141) -/
def prev (n W : Nat) (s : St β) (i : In β) (k : Nat) : Reg β :=
  if k = n - 1 then
    { data := i.data
      keep := fun b => i.keep b && i.valid
      last := i.last && i.valid
      relict := i.valid && zero W i.keep }
  else
    { data := (s (k + 1)).data
      keep := fun b => (s (k + 1)).keep b && (empty W (s k) || i.masks (k + 1) b)
      last := (s (k + 1)).last
      relict := (s (k + 1)).relict ||
        (if k = 0 then (s (k + 1)).last && (s (k + 1)).keep 0 && !i.masks (k + 1) 0 && !consumed W s i (k + 1)
         else !consumed W s i (k + 1)) }

/-- lines 101-173 -/
def next (n W : Nat) (s : St β) (i : In β) : St β := fun k =>
  if load W s i k then prev n W s i k
  else if k = 0 && i.ready then { s 0 with keep := rest s i 0, relict := true }
  else s k

/-- data have no reset -/
def init (d0 : Nat → Nat → β) : St β := fun k => ⟨d0 k, fun _ => false, false, false⟩

end Verif.FrameJoinReg
