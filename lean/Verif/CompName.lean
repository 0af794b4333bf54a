import Verif.Common
/-!
# Names of the components made by a builder (hwtLib/abstract/componentBuilder.py)

Names are lists of characters, the parent is the list of its attribute names.  `while True` gets a bound
on the number of iterations which is shown to be large enough.
-/
namespace Verif.CompName

/-- the fields `name`, `compId` of `AbstractComponentBuilder`, componentBuilder.py:33-39 -/
structure Builder where
  name : List Char
  compId : Nat
deriving DecidableEq

/-- componentBuilder.py:87-90 -/
def Builder.pre (b : Builder) : List Char := if b.name = [] then [] else b.name ++ ['_']

/-- componentBuilder.py:100 -/
def numbered (p n : List Char) (k : Nat) : List Char := p ++ n ++ '_' :: Nat.toDigits 10 k

/-- the loop componentBuilder.py:99-106; the counter of the returned name stays in `compId` because the
increment :108 is behind the return -/
def loop (attrs : List (List Char)) (p n : List Char) : Nat → Nat → Option (List Char × Nat)
  | 0, _ => none
  | f + 1, k => if numbered p n k ∈ attrs then loop attrs p n f (k + 1) else some (numbered p n k, k)

/-- `_findSuitableName`, componentBuilder.py:81-108 -/
def find (attrs : List (List Char)) (b : Builder) (n : List Char) (first : Bool) :
    Option (List Char × Builder) :=
  if first = true ∧ b.pre ++ n ∉ attrs then some (b.pre ++ n, b)
  else match loop attrs b.pre n (attrs.length + 1) b.compId with
    | none => none
    | some (r, k) => some (r, { b with compId := k })

/-- A sequence of `setattr(parent, self._findSuitableName(name), u)` by one builder (for example
abstract/streamBuilder.py:65): the names of the components and the attributes of the parent. -/
def addAll (attrs : List (List Char)) (b : Builder) :
    List (List Char × Bool) → Option (List (List Char) × List (List Char))
  | [] => some ([], attrs)
  | (n, first) :: rest =>
    match find attrs b n first with
    | none => none
    | some (r, b') =>
      match addAll (r :: attrs) b' rest with
      | none => none
      | some (l, as) => some (r :: l, as)

end Verif.CompName
