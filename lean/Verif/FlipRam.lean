import Verif.Ram

/-!
# `FlipRam` (`hwtLib/mem/atomic/flipRam.py`)

Two memories (model `Verif.Ram`) with the same ports, `select` connects the first set of ports to `ram0` and the second set to
`ram1` or vice versa (lines 60-79). The outputs of memories are multiplexed by the same `select`.
-/

namespace Verif.FlipRam

open Verif

universe u
variable {β : Type u}

structure St (β : Type u) where
  r0 : Ram.St β
  r1 : Ram.St β

structure In (β : Type u) where
  sel : Bool
  first : Nat → Ram.Port β
  second : Nat → Ram.Port β

/-- flipRam.py:63-79 -/
def next (undef : β) (n : Nat) (cfg : Nat → Ram.Cfg) (s : St β) (i : In β) : St β where
  r0 := Ram.next undef n cfg s.r0 (if i.sel then i.first else i.second)
  r1 := Ram.next undef n cfg s.r1 (if i.sel then i.second else i.first)

/-- `dout` of the first and of the second set of ports -/
def outFirst (s : St β) (i : In β) : Nat → Nat → β := if i.sel then s.r0.dout else s.r1.dout
def outSecond (s : St β) (i : In β) : Nat → Nat → β := if i.sel then s.r1.dout else s.r0.dout

def run (undef : β) (n : Nat) (cfg : Nat → Ram.Cfg) (s : St β) (is : List (In β)) : St β := is.foldl (next undef n cfg) s

end Verif.FlipRam
