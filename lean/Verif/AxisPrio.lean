import Verif.SplitJoin
/-!
# Model of `Axi4SJoinPrioritized` (hwtLib/amba/axis_comp/joinPrioritized.py:10-47)

A word is its data and `last`. The state is the register `en{i}` of each input. `HsJoinPrioritized` is the model in
`Verif.SplitJoin`.
-/
namespace Verif.AxisPrio
open Verif.SplitJoin

variable {α : Type}

/-- `en = all_0 | en_flag`, joinPrioritized.py:34-36 -/
def en (n : Nat) (ens : Nat → Bool) (k : Nat) : Bool := !(anyN n ens) || ens k

/-- inputs of the inner join, :37-41 -/
def inner (n : Nat) (ens : Nat → Bool) (i : JoinIn (α × Bool)) : JoinIn (α × Bool) where
  vld k := en n ens k && i.vld k
  data := i.data
  rd := i.rd

/-- `dataIn[k].ready`, :39-40 -/
def ready (n : Nat) (ens : Nat → Bool) (i : JoinIn (α × Bool)) (k : Nat) : Bool :=
  en n ens k && (joinPrioritized n (inner n ens i)).rd k

/-- the component, :26-46 -/
def join (n : Nat) : Machine (Nat → Bool) (JoinIn (α × Bool)) (JoinOut (α × Bool)) where
  out ens i := { joinPrioritized n (inner n ens i) with rd := ready n ens i }
  next ens i k := if ready n ens i k && (inner n ens i).vld k then !(i.data k).2 else ens k

/-- registers after reset -/
def init : Nat → Bool := fun _ => false

end Verif.AxisPrio
