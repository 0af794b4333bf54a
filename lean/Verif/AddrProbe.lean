import Verif.BusMap
/-!
# Discovery of an address space (hwtLib/abstract/discoverAddressSpace.py)

`AddressSpaceProbe` walks from the address signal of a bus interface to the endpoints.  The netlist is
given as the tree of what the walk meets.  Simplifications: every signal is reached by one path, so the
`seen` set (:86-96) cuts nothing; an interconnect is an address decoder which sends to a slave the
address relative to the beginning of its window; nested endpoints behind the array ports of an endpoint
(:71-76) are left out; the generator is a list, so an exception also drops what was yielded before it.
-/
namespace Verif.AddrProbe
open Verif.BusMap

mutual
/-- what an address signal leads to -/
inductive Net where
  /-- nothing which the walk knows -/
  | dead
  /-- `BusEndpoint` -/
  | ep (id : Nat)
  /-- `BusBridge` -/
  | bridge (n : Net)
  /-- an addition of a constant, one of the operators which `getEpSignal` (:25-34) follows -/
  | plus (k : Int) (n : Net)
  /-- `BusStaticRemap` -/
  | remap (m : List Region) (n : Net)
  /-- `BusInterconnect` with a number of masters -/
  | inter (masters : Nat) (sl : Slots)
/-- the slaves of an interconnect: offset and size of the window -/
inductive Slots where
  | nil
  | cons (off size : Nat) (n : Net) (rest : Slots)
end

inductive Err where
  /-- `NotImplementedError()` :110 -/
  | masters
  /-- `NotImplementedError("Hierarchical endpoints")` :142 -/
  | hierarchical
deriving DecidableEq

/-- `translate_addr_val`, abstract/busStaticRemap.py:37-41, for any python integer -/
def tv (m : List Region) (a : Int) : Int := if a < 0 then a else transVal m a.toNat

mutual
/-- `walkToConverter`, abstract/discoverAddressSpace.py:79-126 -/
def walk : Net → Int → Except Err (List (Int × Nat))
  | .dead, _ => .ok []
  | .ep id, o => .ok [(o, id)]
  | .bridge n, o => walk n o
  | .plus _ n, o => walk n o
  | .remap m n, o =>
    match walk n 0 with
    | .error e => .error e
    | .ok l => .ok (l.map fun p => (tv m p.1 + o, p.2))
  | .inter k sl, o => if k = 1 then walkS sl o else .error .masters
/-- the loop :111-114 -/
def walkS : Slots → Int → Except Err (List (Int × Nat))
  | .nil, _ => .ok []
  | .cons off _ n rest, o =>
    match walk n (o + off) with
    | .error e => .error e
    | .ok l =>
      match walkS rest o with
      | .error e => .error e
      | .ok r => .ok (l ++ r)
end

/-- `_discoverAddressSpace`, abstract/discoverAddressSpace.py:136-145: the template of the only endpoint -/
def discover (n : Net) (o : Int) : Except Err (Option Nat) :=
  match walk n o with
  | .error e => .error e
  | .ok [] => .ok none
  | .ok [p] => .ok (some p.2)
  | .ok (_ :: _ :: _) => .error .hierarchical

mutual
/-- The specification: the endpoint which an access to address `a` arrives at and the address it sees. -/
def route : Net → Int → Option (Nat × Int)
  | .dead, _ => none
  | .ep id, a => some (id, a)
  | .bridge n, a => route n a
  | .plus k n, a => route n (a + k)
  | .remap m n, a => route n (tv m a)
  | .inter _ sl, a => routeS sl a
def routeS : Slots → Int → Option (Nat × Int)
  | .nil, _ => none
  | .cons off size n rest, a =>
    if (off : Int) ≤ a ∧ a < (off : Int) + size then route n (a - off) else routeS rest a
end

end Verif.AddrProbe
