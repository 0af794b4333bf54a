import Verif.Common
/-!
# Model of `HdlType_separate`, `separate_streams` (hwtLib/abstract/template_configured.py:65-119)

A type is a struct of named fields or a type without fields (`prim`, e.g. `HBits` or `HStream`). A generator is the list of
the yielded pairs. `t is f.dtype` (:80) is never true, because a struct does not contain itself. The names of structs are
not modelled.
-/
namespace Verif.TypeSep

mutual
inductive Ty where
  | prim (k : Nat)
  | struct (fs : Fs)
inductive Fs where
  | nil
  | cons (name : Nat) (t : Ty) (rest : Fs)
end

def Fs.append : Fs → Fs → Fs
  | .nil, b => b
  | .cons n t a, b => .cons n t (a.append b)

def Fs.isNil : Fs → Bool
  | .nil => true
  | .cons .. => false

/-- the inner loop over the pieces of the field `n`, template_configured.py:79-97; `l` are the `leftovers` -/
def stepPieces (n : Nat) : List (Bool × Ty) → Fs → List (Bool × Ty) × Fs
  | [], l => ([], l)
  | (true, t) :: ps, l =>
    let r := stepPieces n ps .nil
    ((if l.isNil then [] else [(false, .struct l)]) ++ (true, .struct (.cons n t .nil)) :: r.1, r.2)
  | (false, t) :: ps, l => stepPieces n ps (l.append (.cons n t .nil))

mutual
/-- `HdlType_separate`, template_configured.py:65-106 -/
def sep (q : Ty → Bool) : Ty → List (Bool × Ty)
  | .prim k => if q (.prim k) then [(true, .prim k)] else [(false, .prim k)]
  | .struct fs =>
    if q (.struct fs) then [(true, .struct fs)]
    else
      let r := sepFields q fs .nil
      if r.1.any Prod.fst then r.1 ++ (if r.2.isNil then [] else [(false, .struct r.2)])
      else [(false, .struct fs)]
/-- the loop over the fields, template_configured.py:78-97 -/
def sepFields (q : Ty → Bool) : Fs → Fs → List (Bool × Ty) × Fs
  | .nil, l => ([], l)
  | .cons n t fs, l =>
    let r := stepPieces n (sep q t) l
    let r2 := sepFields q fs r.2
    (r.1 ++ r2.1, r2.2)
end

/-! ## Terms of the statements -/

mutual
/-- the items of a type without fields with their paths of field names, in the order of the layout -/
def leaves : Ty → List Nat → List (List Nat × Nat)
  | .prim k, p => [(p, k)]
  | .struct fs, p => leavesF fs p
def leavesF : Fs → List Nat → List (List Nat × Nat)
  | .nil, _ => []
  | .cons n t fs, p => leaves t (p ++ [n]) ++ leavesF fs p
end

def Fs.names : Fs → List Nat
  | .nil => []
  | .cons n _ fs => n :: fs.names

mutual
/-- the names of fields of each struct are distinct (`HStruct` asserts it) -/
def WF : Ty → Prop
  | .prim _ => True
  | .struct fs => fs.names.Nodup ∧ WFF fs
def WFF : Fs → Prop
  | .nil => True
  | .cons _ t fs => WF t ∧ WFF fs
end

mutual
/-- no item satisfies the query -/
def NoSep (q : Ty → Bool) : Ty → Prop
  | .prim k => q (.prim k) = false
  | .struct fs => NoSepF q fs
def NoSepF (q : Ty → Bool) : Fs → Prop
  | .nil => True
  | .cons _ t fs => NoSep q t ∧ NoSepF q fs
end

/-- only a type which satisfies the query, wrapped by structs with a single field -/
inductive Single (q : Ty → Bool) : Ty → Prop
  | here {t : Ty} : q t = true → Single q t
  | field {n : Nat} {t : Ty} : Single q t → Single q (.struct (.cons n t .nil))

end Verif.TypeSep
