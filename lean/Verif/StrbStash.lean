/-
Model of the strb/keep generation of `Axi4S_frameDeparser`:
`hwtLib/amba/axis_comp/frame_deparser/strb_keep_stash.py:12-115` (class `StrbKeepStash`,
`pop_mask_value`, `reduce_conditional_StrbKeepStashes`) and the part of
`hwtLib/amba/axis_comp/frame_deparser/_deparser.py:136-243` (`connectPartsOfWord`) and `:375-382`
(`_create_frame_build_logic`) which feeds it.

Conventions and simplifications
* A mask is the list of its bits, least significant bit (= byte 0 of the word) first.
  `Concat(*reversed(res))` is therefore the concatenation of `res` in order.
* A python assertion / `NotImplementedError` during elaboration is `none`.
* A constant HDL value is the list of its bits, a signal is a function of the selection, i.e. of
  the index of the selected member of every union in the frame (`Sel`).  The select of the union is
  taken to be valid: `dataOut.valid` is 0 otherwise and the mask is not observable.
* The members of a union hold plain parts (unions nested directly in a union are left out).
* Two constants of the same width are equal as dictionary keys iff they have the same value.
-/

namespace Verif.StrbStash

/-- Index of the selected member of each union of the frame. -/
abbrev Sel := Nat → Nat

/-- The second item of the tuples pushed to the stash: python `int` flag, `HBitsConst`
or `RtlSignal` (`strb_keep_stash.py:23-36`). -/
inductive Val where
  | flag (b : Bool)
  | const (l : List Bool)
  | sig (f : Sel → List Bool)

/-- `StrbKeepStash._push_mask_vec` (`strb_keep_stash.py:22-36`). -/
def pushMask (res : List (Sel → List Bool)) (len : Nat) (v : Val) :
    Option (List (Sel → List Bool)) :=
  if len % 8 = 0 ∧ 0 < len then
    match v with
    | .sig f => some (res ++ [f])
    | .flag b => some (res ++ [fun (_ : Sel) => List.replicate (len / 8) b])
    | .const l => some (res ++ [fun (_ : Sel) => List.replicate (len / 8) (l.any id)])
  else none

/-- `prev_val is s[1]` (`strb_keep_stash.py:51`): small ints are identical objects, constants and
signals are distinct objects. -/
def isSame : Val → Val → Bool
  | .flag a, .flag b => a == b
  | _, _ => false

/-- The loop of `StrbKeepStash._vec_to_signal` (`strb_keep_stash.py:43-62`). -/
def vecLoop : List (Nat × Val) → Option (Nat × Val) → List (Sel → List Bool) →
    Option (List (Sel → List Bool))
  | [], none, res => some res
  | [], some (l, v), res => pushMask res l v
  | (w, s) :: r, none, res => if 0 < w then vecLoop r (some (w, s)) res else none
  | (w, s) :: r, some (l, v), res =>
      if isSame v s then vecLoop r (some (l + w, v)) res
      else match pushMask res l v with
        | none => none
        | some res' => vecLoop r (some (w, s)) res'

/-- `StrbKeepStash._vec_to_signal` (`strb_keep_stash.py:38-63`). -/
def vecToSignal (xs : List (Nat × Val)) : Option (Sel → List Bool) :=
  match vecLoop xs none [] with
  | none => none
  | some res => some fun sel => (res.map (fun f => f sel)).flatten

/-- One part of a union member: width in bits, `not isPadding`, `not canBeRemoved`; a hole is
`(_w, 0), (_w, 0)` (`_deparser.py:189-213`). -/
structure Piece where
  w : Nat
  strb : Bool
  keep : Bool
deriving DecidableEq, Repr

/-- `dict.setdefault(k, []).append(en)`, `en` being the index of the member. -/
def insertD (k : List Bool) (en : Nat) : List (List Bool × List Nat) → List (List Bool × List Nat)
  | [] => [(k, [en])]
  | (k', ens) :: d => if k' = k then (k', ens ++ [en]) :: d else (k', ens) :: insertD k en d

/-- `strb_val_to_en` / `keep_val_to_en` for the masks of members `i, i+1, ..`
(`strb_keep_stash.py:104-110`). -/
def groupMasks : Nat → List (List Bool) → List (List Bool × List Nat) →
    List (List Bool × List Nat)
  | _, [], d => d
  | i, m :: ms, d => groupMasks (i + 1) ms (insertD m i d)

def bitsToNat : List Bool → Nat
  | [] => 0
  | b :: l => (if b then 1 else 0) + 2 * bitsToNat l

/-- `sorted(items, key=lambda x: x[0])`. -/
def sortIns (e : List Bool × List Nat) : List (List Bool × List Nat) → List (List Bool × List Nat)
  | [] => [e]
  | x :: l => if bitsToNat e.1 < bitsToNat x.1 then e :: x :: l else x :: sortIns e l

def sortMasks : List (List Bool × List Nat) → List (List Bool × List Nat)
  | [] => []
  | e :: l => sortIns e (sortMasks l)

/-- `pop_mask_value` (`strb_keep_stash.py:86-100`), `u` is the union the enables belong to. -/
def popMask (u : Nat) (d : List (List Bool × List Nat)) : Option Val :=
  match d with
  | [] => none
  | [(v, _)] => some (.const v)
  | (k, ens) :: d' =>
      let masks := sortMasks ((k, ens) :: d')
      some (.sig fun sel =>
        masks.foldl (fun m e => if sel u ∈ e.2 then e.1 else m)
          (List.replicate k.length false))

/-- Mask of a member from its flags; the value does not depend on a selection. -/
def memberMask (xs : List (Nat × Bool)) : Option (List Bool) :=
  match vecToSignal (xs.map fun x => (x.1, .flag x.2)) with
  | none => none
  | some f => some (f fun _ => 0)

def memberMasks (f : Piece → Bool) : List (List Piece) → Option (List (List Bool))
  | [] => some []
  | c :: cs =>
      match memberMask (c.map fun p => (p.w, f p)), memberMasks f cs with
      | some m, some ms => some (m :: ms)
      | _, _ => none

/-- `reduce_conditional_StrbKeepStashes` (`strb_keep_stash.py:103-115`): the second
`pop_mask_value` overwrites `strb`, and the returned `keep` is the one of the last member. -/
def reduceStashes (u : Nat) (choices : List (List Piece)) : Option (Val × Val) :=
  match memberMasks Piece.strb choices, memberMasks Piece.keep choices with
  | some strbs, some keeps =>
      match popMask u (groupMasks 0 strbs []), popMask u (groupMasks 0 keeps []),
          keeps.getLast? with
      | some _, some strb, some keep => some (strb, .const keep)
      | _, _, _ => none
  | _, _ => none

/-- A part of a word of the frame: a `TransPart` or `ChoicesOfFrameParts` of union `u`. -/
inductive Part where
  | plain (p : Piece)
  | union (u : Nat) (w : Nat) (choices : List (List Piece))

/-- Result of `connectPartsOfWord` (`_deparser.py:136-243`). -/
def partMasks : Part → Option ((Nat × Val) × (Nat × Val))
  | .plain p => some ((p.w, .flag p.strb), (p.w, .flag p.keep))
  | .union u w cs =>
      if w % 8 = 0 then
        match reduceStashes u cs with
        | some (s, k) => some ((w, s), (w, k))
        | none => none
      else none

def wordVals : List Part → Option (List ((Nat × Val) × (Nat × Val)))
  | [] => some []
  | p :: ps =>
      match partMasks p, wordVals ps with
      | some x, some xs => some (x :: xs)
      | _, _ => none

/-- `strb` driven for the word (`_deparser.py:375-382`, `StrbKeepStash.pop`
`strb_keep_stash.py:65-72`; a mask equal to all ones is the default of the switch, so the value
is the same). -/
def wordStrb (ps : List Part) : Option (Sel → List Bool) :=
  match wordVals ps with
  | none => none
  | some xs => vecToSignal (xs.map (·.1))

/-- `keep` driven for the word. -/
def wordKeep (ps : List Part) : Option (Sel → List Bool) :=
  match wordVals ps with
  | none => none
  | some xs => vecToSignal (xs.map (·.2))

end Verif.StrbStash
