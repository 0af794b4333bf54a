import Verif.GroupsProps
/-!
# Model of `AxiInterconnectMatrix` (hwtLib/amba/axi_comp/interconnect/matrix.py:44-146): split to sub interconnects

A sub interconnect (`AxiInterconnectMatrixR`, `AxiInterconnectMatrixW`) is given by its parameters `MASTERS` (a set of slave
indexes for each master), `SLAVES` (address, size) and by the connection of its ports to the ports of the interconnect
(:82-91, :151-170). A transaction of a sub interconnect goes from its master port to the slave port which is in the set of the
master and whose region contains the address. An assertion which fails is `none`.

The iteration order of a python set is the parameter `ord` (the list of the elements of the set). `pyOrd T` is the order of a
hash table of `T` slots for integers which do not collide (hash of an integer is the integer, cpython Objects/setobject.c; sets
up to 4 elements have 8 slots).

Simplification: the indexes are in range (asserted in abstract/busInterconnect.py:40), `sorted(set)` is the list of the
indexes from 0 which are in the set.
-/
namespace Verif.MatrixCfg

open Verif.Groups

/-- `sorted` of a set of indexes `< n` -/
def sorted (n : Nat) (l : List Nat) : List Nat := (List.range n).filter fun x => l.contains x

/-- the order of elements in a hash table of `T` slots (no collisions) -/
def pyOrd (T : Nat) (l : List Nat) : List Nat :=
  (List.range T).flatMap fun k => (List.range (l.foldr max 0 + 1)).filter fun x => l.contains x && x % T == k

structure Sub where
  /-- `MASTERS` -/
  masters : List (List Nat)
  /-- `SLAVES` -/
  slaves : List (Nat × Nat)
  /-- master port of the interconnect for each master port of the sub interconnect -/
  mIdx : List Nat
  /-- slave port of the interconnect for each slave port of the sub interconnect -/
  sIdx : List Nat
deriving DecidableEq

/-- `slvs`, matrix.py:60-63 -/
def visible (M : Masters) (ss : List Nat) (m : Nat) : List Nat :=
  ((M.getD m []).map Prod.fst).filter fun s => ss.contains s

/-- `configure_sub_interconnect`, matrix.py:44-91 -/
def configure (ord : List Nat → List Nat) (M : Masters) (S : List (Nat × Nat)) (ms ss : List Nat) : Option Sub :=
  let per := (ord ms).map (visible M ss)
  let used := sorted S.length per.flatten
  if ms.isEmpty || ss.isEmpty || used.isEmpty then none
  else some {
    masters := if used.length - 1 ≠ used.getLastD 0 then per.map (·.map (used.idxOf ·)) else per
    slaves := (ord ss).map fun s => S.getD s (0, 0)
    mIdx := sorted M.length ms
    sIdx := used }

/-- the sub interconnects of one access type, matrix.py:96-117 and :119-131 -/
def build (ord : List Nat → List Nat) (M : Masters) (S : List (Nat × Nat)) (t : Access) : Option (List Sub) :=
  (groups M t).mapM fun g => configure ord M S g.1 g.2

/-- `hwDeclr`, matrix.py:93-146 : the read and the write part -/
def buildAll (ord : List Nat → List Nat) (M : Masters) (S : List (Nat × Nat)) : Option (List Sub × List Sub) :=
  match build ord M S .read, build ord M S .write with
  | some r, some w =>
    if (List.range M.length).all (fun m => r.any (·.mIdx.contains m) || w.any (·.mIdx.contains m)) &&
        (List.range S.length).all (fun s => r.any (·.sIdx.contains s) || w.any (·.sIdx.contains s)) then some (r, w) else none
  | _, _ => none

/-- the address `a` is in the region `r` -/
def InRegion (r : Nat × Nat) (a : Nat) : Prop := r.1 ≤ a ∧ a < r.1 + r.2

/-- a transaction from the port `s[m]` with address `a` gets to the port `m[s]` through the sub interconnect -/
def Sub.Routes (c : Sub) (m a s : Nat) : Prop :=
  ∃ (m' s' : Nat) (l : List Nat) (r : Nat × Nat), c.mIdx[m']? = some m ∧ c.masters[m']? = some l ∧ s' ∈ l ∧ c.slaves[s']? = some r ∧ InRegion r a ∧
    c.sIdx[s']? = some s

/-- the configuration after normalisation (abstract/busInterconnect.py:22-47): the indexes are in range -/
def InRange (M : Masters) (S : List (Nat × Nat)) : Prop := ∀ l ∈ M, ∀ p ∈ l, p.1 < S.length

/-- each master and each slave has at least one access right -/
def Covered (M : Masters) (S : List (Nat × Nat)) : Prop :=
  (∀ m, m < M.length → ∃ t s, Conn M t m s) ∧ ∀ s, s < S.length → ∃ t m, Conn M t m s

end Verif.MatrixCfg
