import Verif.Common
/-!
# Model of `RtlSignalBuilder` (hwtLib/logic/rtlSignalBuilder.py:6-94)

A signal is its identity (`a is b` is the equality of identities), its value is given by an environment. An operator applied on
`None` raises an exception.
-/
namespace Verif.SigBuilder

/-- result: exception, `None` or an expression with its value -/
inductive Res where
  | raise
  | none
  | val (v : Bool)
deriving DecidableEq

variable (env : Nat → Bool)

def ret : Option Nat → Res
  | .none => .none
  | .some x => .val (env x)

/-- `buildAndOptional`, rtlSignalBuilder.py:8-20 -/
def andOpt (a b : Option Nat) : Res :=
  match a, b with
  | .none, b => ret env b
  | .some a, .none => .val (env a)
  | .some a, .some b => if a = b then .val (env a) else .val (env b && env a)

/-- `buildOrOptional`, rtlSignalBuilder.py:22-34 -/
def orOpt (a b : Option Nat) : Res :=
  match a, b with
  | .none, b => ret env b
  | .some a, .none => .val (env a)
  | .some a, .some b => if a = b then .val (env a) else .val (env b || env a)

/-- `b & ~bMask` -/
def masked (b : Option Nat) (m : Nat) : Res :=
  match b with
  | .none => .raise
  | .some b => .val (env b && !env m)

/-- `buildOrWithNegatedMaskedOptional`, rtlSignalBuilder.py:49-71 -/
def orMasked (a b m : Option Nat) : Res :=
  match a with
  | .none =>
    match m with
    | .none => ret env b
    | .some m => masked env b m
  | .some a =>
    if some a = b then .val (env a)
    else match m with
      | .none => match b with
        | .none => .raise
        | .some b => .val (env a || env b)
      | .some m => match masked env b m with
        | .val v => .val (env a || v)
        | r => r

/-- `buildAndNegatedMaskedOptional`, rtlSignalBuilder.py:73-94 -/
def andMasked (a b m : Option Nat) : Res :=
  match a with
  | .none =>
    if m = .none ∨ b = m then ret env b
    else match b with
      | .none => .none
      | .some _ => masked env b (m.getD 0)
  | .some a =>
    match m with
    | .none => if b = .none ∨ b = some a then .val (env a) else .val (env a && env (b.getD 0))
    | .some m' =>
      if b = .none ∨ b = m then .val (env a && !env m') else .val (env a && (env (b.getD 0) && !env m'))

end Verif.SigBuilder
