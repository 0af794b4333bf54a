import Verif.Common
/-!
# Monitors of interfaces (hwtLib/abstract/hwIOMonitor.py) and the RAM made of LUTs (hwtLib/mem/lutRam.py)

An interface is a tree: a signal with its type or named children. Directions are not modelled, the code ignores them.
-/
namespace Verif.IoMon

/-- type of a signal: its width and if it is signed -/
abbrev Ty := Nat × Bool

mutual
inductive Io
  | sig (ty : Ty)
  | grp (fs : Fields)
inductive Fields
  | nil
  | cons (name : String) (io : Io) (rest : Fields)
end

inductive Err | notImplemented | attribute | dtype
  deriving DecidableEq, Repr

/-- `getattr(io, name)` -/
def Fields.get : Fields → String → Option Io
  | .nil, _ => none
  | .cons n x r, f => if n = f then some x else r.get f

def Io.get : Io → String → Option Io
  | .sig _, _ => none
  | .grp fs, f => fs.get f

mutual
/-- hwIOMonitor.py:83-93, with the declaration of the created monitor (44-51) -/
def monitorOf : Io → Except Err Io
  | .sig t => .ok (.sig t)
  | .grp .nil => .error .notImplemented
  | .grp (.cons n x r) => match monitorFields (.cons n x r) with
    | .ok fs => .ok (.grp fs)
    | .error e => .error e

/-- hwIOMonitor.py:50-51 -/
def monitorFields : Fields → Except Err Fields
  | .nil => .ok .nil
  | .cons n x r => match monitorOf x with
    | .error e => .error e
    | .ok m => match monitorFields r with
      | .error e => .error e
      | .ok ms => .ok (.cons n m ms)
end

/-- an assignment: path of the destination, path of the source -/
abbrev Assign := List String × List String

mutual
/-- hwIOMonitor.py:121-127, for interfaces; the paths of the source and of the destination are collected. An assignment
`dst(src)` needs a signal of the same type. An interface without children can not be declared, it is an error here. -/
def connectTo (src dst : Io) (ps pd : List String) : Except Err (List Assign) := match dst with
  | .grp (.cons n d r) => connectToF src (.cons n d r) ps pd
  | .grp .nil => .error .dtype
  | .sig t => match src with
    | .sig t' => if t = t' then .ok [(pd, ps)] else .error .dtype
    | .grp _ => .error .dtype

/-- hwIOMonitor.py:123-125 -/
def connectToF (src : Io) (dst : Fields) (ps pd : List String) : Except Err (List Assign) := match dst with
  | .nil => .ok []
  | .cons n d r => match src.get n with
    | none => .error .attribute
    | some s => match connectTo s d (ps ++ [n]) (pd ++ [n]) with
      | .error e => .error e
      | .ok l => match connectToF src r ps pd with
        | .error e => .error e
        | .ok l' => .ok (l ++ l')
end

mutual
/-- hwIOMonitor.py:96-103; the source is cast to the type of the destination, the widths have to be the same -/
def connectFrom (src dst : Io) (ps pd : List String) : Except Err (List Assign) := match src with
  | .grp (.cons n s r) => connectFromF (.cons n s r) dst ps pd
  | .grp .nil => .error .dtype
  | .sig t => match dst with
    | .sig t' => if t.1 = t'.1 then .ok [(pd, ps)] else .error .dtype
    | .grp _ => .error .attribute

/-- hwIOMonitor.py:98-100 -/
def connectFromF (src : Fields) (dst : Io) (ps pd : List String) : Except Err (List Assign) := match src with
  | .nil => .ok []
  | .cons n s r => match dst.get n with
    | none => .error .attribute
    | some d => match connectFrom s d (ps ++ [n]) (pd ++ [n]) with
      | .error e => .error e
      | .ok l => match connectFromF r dst ps pd with
        | .error e => .error e
        | .ok l' => .ok (l ++ l')
end

mutual
/-- hwIOMonitor.py:115-120, 127: the destination is a value of a struct type, the children of the source are walked -/
def connectStruct (src dst : Io) (ps pd : List String) : Except Err (List Assign) := match src with
  | .grp (.cons n s r) => connectStructF (.cons n s r) dst ps pd
  | .grp .nil => .error .dtype
  | .sig t => match dst with
    | .sig t' => if t = t' then .ok [(pd, ps)] else .error .dtype
    | .grp _ => .error .dtype

/-- hwIOMonitor.py:117-119 -/
def connectStructF (src : Fields) (dst : Io) (ps pd : List String) : Except Err (List Assign) := match src with
  | .nil => .ok []
  | .cons n s r => match dst.get n with
    | none => .error .attribute
    | some d => match connectStruct s d (ps ++ [n]) (pd ++ [n]) with
      | .error e => .error e
      | .ok l => match connectStructF r dst ps pd with
        | .error e => .error e
        | .ok l' => .ok (l ++ l')
end

/-! ## RAM made of LUTs -/

structure RamEv where
  /-- level of `wclk` before and after the event -/
  before : Bool
  after : Bool
  we : Bool
  a : Nat
  d : Bool

/-- lutRam.py:47, 56: a rising edge of `wclk ^ IS_WCLK_INVERTED` -/
def rises (inv : Bool) (e : RamEv) : Bool := !(e.before ^^ inv) && (e.after ^^ inv)

/-- lutRam.py:56-58 -/
def ramStep (inv : Bool) (mem : Nat → Bool) (e : RamEv) : Nat → Bool :=
  if rises inv e && e.we then fun i => if i = e.a then e.d else mem i else mem

/-- lutRam.py:41-42, 53: the output for the address `a` after events -/
def ramOut (init : Nat) (inv : Bool) (es : List RamEv) (a : Nat) : Bool := (es.foldl (ramStep inv) init.testBit) a

/-- examples/mem/ram.py:45-48: memory and output of `SimpleSyncRam` after a rising edge of the clock; at the input: the
address to read, the address to write, the data -/
def syncStep {D : Type} (st : (Nat → D) × D) (i : Nat × Nat × D) : (Nat → D) × D :=
  (fun k => if k = i.2.1 then i.2.2 else st.1 k, st.1 i.1)

/-- lutRam.py:49 -/
def address (a5 a4 a3 a2 a1 a0 : Bool) : Nat :=
  ((((a5.toNat * 2 + a4.toNat) * 2 + a3.toNat) * 2 + a2.toNat) * 2 + a1.toNat) * 2 + a0.toNat

end Verif.IoMon
