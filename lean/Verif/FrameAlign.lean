import Verif.Common

/-!
# Frame alignment (`hwtLib/abstract/frame_utils/alignment_utils.py`)

Failed assertions are `none`, `inf` is the `none` of `Option Nat`, sets are lists. Sizes of elements and of words are positive.
-/

namespace Verif.FrameAlign

/-- loop of `next_frame_offsets`, lines 25-32, at most `fuel` passes -/
def offLoop (ew dw : Nat) (lenMax : Option Nat) : Nat → Nat → List Nat → List Nat
  | 0, _, acc => acc
  | fuel + 1, i, acc =>
    if lenMax.any (· < i) then acc
    else if (i * ew) % dw ∈ acc then acc
    else offLoop ew dw lenMax fuel (i + 1) (acc ++ [(i * ew) % dw])

/-- `next_frame_offsets`, lines 21-34; `ew` is the width of the element, `dw` of the word -/
def nextFrameOffsets (ew dw lenMin : Nat) (lenMax : Option Nat) (fuel : Nat) : List Nat := offLoop ew dw lenMax fuel lenMin []

/-- `ByteSrcInfo` -/
structure Src where
  stream : Nat
  word : Nat
  byte : Nat
  last : Bool
deriving DecidableEq

abbrev Word := List (Option Src)

/-- the byte `i` of the frame, lines 108-114 -/
def srcOf (wb stream byteCnt offIn i : Nat) : Src where
  stream := stream
  word := (i + offIn) / wb
  byte := (i + offIn) % wb
  last := (i + offIn) / wb == (offIn + byteCnt - 1) / wb

/-- one pass, lines 116-121; `nxt` is `last_in_word_i + 1` -/
def addByte (st : Option (List Word × Nat)) (b : Src) : Option (List Word × Nat) :=
  match st with
  | none => none
  | some (fr, nxt) =>
    if b.word + 1 = nxt then some (fr.dropLast ++ [fr.getLastD [] ++ [some b]], nxt)
    else if nxt = b.word then some (fr ++ [[some b]], b.word + 1)
    else none

/-- `create_frame`, lines 82-127 -/
def createFrame (wb stream byteCnt offOut offIn : Nat) : Option (List Word) :=
  if byteCnt = 0 then some []
  else
    let st0 : List Word × Nat := if offOut ≠ 0 then ([List.replicate offOut none], 1) else ([], 0)
    match ((List.range byteCnt).map (srcOf wb stream byteCnt offIn)).foldl addByte (some st0) with
    | none => none
    | some (fr, _) => some (fr.dropLast ++ [fr.getLastD [] ++ List.replicate (wb - (fr.getLastD []).length) none])

/-- one item of `in_data_bytes`, lines 63-74 -/
def packStep (wb : Nat) (res : List Word) (d : Option Src) : List Word :=
  if res = [] ∨ (res.getLastD []).length = wb then res ++ [[d]]
  else res.dropLast ++ [res.getLastD [] ++ [d]]

/-- `join_streams`, lines 45-80 -/
def joinStreams (wb offset : Nat) (frames : List (List Word)) : List Word :=
  let bytes := List.replicate offset none ++ frames.flatten.flatten
  let kept := ((List.range bytes.length).zip bytes).filter fun p => !(decide (offset ≤ p.1) && p.2 == none)
  let res := (kept.map Prod.snd).foldl (packStep wb) []
  if res ≠ [] ∧ (res.getLastD []).length ≠ wb then
    res.dropLast ++ [res.getLastD [] ++ List.replicate (wb - (res.getLastD []).length) none]
  else res

/-- `get_bytes_in_frame_info`, lines 129-158: `has_body_words` and `min_representative_frame_size` -/
def frameInfo (wb offOut offIn chunk cnt : Nat) (already : Bool) : Bool × Nat :=
  let o := max offIn offOut
  let first := min (wb - o) (cnt * chunk)
  let lastB := (o + chunk * cnt) % wb
  let body := decide (2 * wb ≤ o + chunk * cnt)
  let single := decide (o + cnt * chunk ≤ wb)
  let size := first + (if body && (o != 0 || !already) then wb else 0) + (if !single && !(body && lastB == wb) then lastB else 0)
  (if first == wb && decide (wb < size) then true else body, size)

/-- loop of `get_important_byte_cnts`, lines 183-192: `n` passes from `cnt` -/
def sizeLoop (wb offOut offIn chunk : Nat) : Nat → Nat → Bool → List Nat
  | 0, _, _ => []
  | n + 1, cnt, already =>
    let r := frameInfo wb offOut offIn chunk cnt already
    r.2 :: sizeLoop wb offOut offIn chunk n (cnt + 1) (already || r.1)

/-- `get_important_byte_cnts`, lines 160-194 -/
def importantByteCnts (wb offOut offIn chunk cntMin : Nat) (cntMax : Option Nat) : List Nat :=
  if cntMax = some cntMin then [(frameInfo wb offOut offIn chunk cntMin false).2]
  else
    let n := match cntMax with
      | none => 2 * wb
      | some m => min (2 * wb) (m - cntMin)
    sizeLoop wb offOut offIn chunk (n + 1) (cntMin % (2 * wb)) false

end Verif.FrameAlign
