/-!
# `packAxi4SFrame`, `axi4s_send_bytes`, `axi4s_recieve_bytes` (`hwtLib/amba/axi4s.py`)

Functions which testbenches use to convert between a list of bytes and words of the AXI stream agent.

Simplifications
* A word of data is a list of bytes (the first one is the lowest), a byte without a valid value (`vld_mask` is 0) is `none`. Partially valid
  bytes can not be made by `axi4s_send_bytes`.
* `keep` is a list of bits. Errors (AssertionError, ValueError) are values.
* `iterBits(..., fillup=True)` of the library hwt cuts the bytes to words and fills the last word with undefined bits.
-/

namespace Verif.Axi4sBytes

universe u

variable {B : Type u}

structure Word (B : Type u) where
  id : Nat
  data : List (Option B)
  keep : List Bool
  last : Bool
deriving DecidableEq

inductive Err where
  /-- "Empty word in the middle of the packet" -/
  | emptyMiddle
  /-- "Empty word at the beginning of the packet" -/
  | emptyFirst
  /-- "Data not valid but it should be" -/
  | undefined
  /-- "Does not support non-full words in the non-last word of the frame" -/
  | nonFull
  /-- "id changed in frame beats" -/
  | idChanged
  /-- "Unfinished frame" -/
  | unfinished
  /-- "No frame available" -/
  | noFrame
deriving DecidableEq

/-! ## Send -/

/-- `iterBits(structVal, bitsInOne=dataWidth, skipPadding=False, fillup=True)`, the first argument is a number of bytes in the word, the
second one is a bound for the recursion. -/
def chunk (w : Nat) : Nat → List (Option B) → List (List (Option B))
  | 0, _ => []
  | n + 1, bs =>
    if bs.length ≤ w then [bs ++ List.replicate (w - bs.length) none]
    else bs.take w :: chunk w n (bs.drop w)

/-- `packAxi4SFrame` (axi4s.py:114-145), for the non-empty value: the mask bit is set for each valid byte. -/
def pack : List (List (Option B)) → List (Word B)
  | [] => []
  | [d] => [⟨0, d, d.map Option.isSome, true⟩]
  | d :: ds => ⟨0, d, d.map Option.isSome, false⟩ :: pack ds

/-- `_axi4s_send_bytes` (axi4s.py:273-282) with `packAxi4SFrame` (axi4s.py:122-127 for the empty frame). -/
def send (w : Nat) (data : List B) (offset : Nat) : List (Word B) :=
  if data.isEmpty then [⟨0, List.replicate w none, List.replicate w false, true⟩]
  else
    let bs := List.replicate offset none ++ data.map some
    pack (chunk w bs.length bs)

/-! ## Receive -/

/-- Bytes marked by keep (axi4s.py:221-228), `none` if any of them is not valid. -/
def keptBytes : List (Option B) → List Bool → Option (List B)
  | d :: ds, k :: ks =>
    if k then
      match d with
      | some b => (keptBytes ds ks).map (b :: ·)
      | none => none
    else keptBytes ds ks
  | _, _ => some []

/-- Local variables of the loop. -/
structure Acc (B : Type u) where
  offset : Option Nat
  data : List B
  first : Bool
  id : Nat

/-- `_axi4s_recieve_bytes` (axi4s.py:169-251), result: offset, id, data and the rest of the words. -/
def recv (w : Nat) (useKeep : Bool) : Acc B → List (Word B) → Except Err (Nat × Nat × List B × List (Word B))
  | a, [] => .error (if a.data.isEmpty then .noFrame else .unfinished)
  | a, x :: xs =>
    -- :189-209
    let keep := if useKeep then x.keep else List.replicate w true
    let empty := !keep.any id
    if empty && !a.data.isEmpty then .error .emptyMiddle
    else if empty && !x.last then .error .emptyFirst
    else
      -- :211-220
      let offset := if empty then 0 else a.offset.getD (keep.findIdx id)
      -- :221-228
      match keptBytes x.data keep with
      | none => .error .undefined
      | some bs =>
        -- :230-241
        if !a.first && !x.last && !(keep == List.replicate w true) then .error .nonFull
        else if !a.first && !(x.id == a.id) then .error .idChanged
        else if x.last then .ok (offset, x.id, a.data ++ bs, xs)
        else recv w useKeep ⟨some offset, a.data ++ bs, false, x.id⟩ xs

/-- Call of the function on the data of the agent. -/
def receive (w : Nat) (useKeep : Bool) (ws : List (Word B)) : Except Err (Nat × Nat × List B × List (Word B)) :=
  recv w useKeep ⟨none, [], true, 0⟩ ws

end Verif.Axi4sBytes
