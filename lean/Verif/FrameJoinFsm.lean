import Verif.FrameAlign
import Verif.FrameJoinReg

/-!
# State machine of `Axi4S_FrameJoin`

`hwtLib/abstract/frame_utils/join/*.py`, `hwtLib/abstract/frame_utils/alignment_utils.py:196-311` and
`hwtLib/amba/axis_comp/frame_join/_join.py`.

`None` (do not care) is `none`. Sets are lists without duplicates, the order of frames and of transitions is that of the generation
(the code uses the order of a hash table and then sorts the transitions, the order is not observable: `FrameJoinFsm.drive_perm`).
A failed assertion is `none`.
-/

namespace Verif.FrameJoinFsm

open FrameAlign (Src Word createFrame joinStreams importantByteCnts)

/-- `InputRegInputVal`, `input_reg_val.py:4-19` -/
structure RegPat where
  keep : List (Option Bool)
  relict : Option Bool
  last : Option Bool
deriving DecidableEq

/-- `StateTransItem`, `state_trans_item.py:36-76` -/
structure Trans where
  state : Nat
  next : Nat
  input : List (List RegPat)
  keepMask : List (List (List Bool))
  rd : List Bool
  outKeep : List Bool
  mux : List (Option (Nat × Nat × Nat))
  last : Bool
deriving DecidableEq

/-! ## check of the table -/

/-- both bits are specified and different -/
def bitDiff : Option Bool → Option Bool → Bool
  | some a, some b => a != b
  | _, _ => false

/-- `is_exactly_different`, `input_reg_val.py:24-36` -/
def RegPat.differ (a b : RegPat) : Bool :=
  (a.keep.zip b.keep).any (fun p => bitDiff p.1 p.2) || bitDiff a.last b.last || bitDiff a.relict b.relict

/-- `inputs_exactly_different`, `state_trans_item.py:101-109` -/
def Trans.differ (a b : Trans) : Bool :=
  (a.input.zip b.input).any fun p => (p.1.zip p.2).any fun q => q.1.differ q.2

/-- the loops over pairs of transitions of a state, `state_trans_table.py:26-31` -/
def pairsDiffer : List Trans → Bool
  | [] => true
  | t :: ts => ts.all t.differ && pairsDiffer ts

/-- `assert_transitions_deterministic`, `state_trans_table.py:24-31` -/
def deterministic (tt : List (List Trans)) : Bool := tt.all pairsDiffer

/-! ## logic of the component -/

/-- outputs of an input register -/
structure RegVal where
  keep : List Bool
  relict : Bool
  last : Bool
deriving DecidableEq

/-- `add_cond_bit`, `_join.py:127-135` -/
def bitOk : Option Bool → Bool → Bool
  | none, _ => true
  | some p, b => p == b

def RegPat.ok (p : RegPat) (r : RegVal) : Bool :=
  (p.keep.zip r.keep).all (fun q => bitOk q.1 q.2) && bitOk p.relict r.relict && bitOk p.last r.last

/-- `state_trans_cond`, `_join.py:137-151` -/
def Trans.cond (t : Trans) (regs : List (List RegVal)) : Bool :=
  (t.input.zip regs).all fun p => (p.1.zip p.2).all fun q => q.1.ok q.2

/-- one step of the loop: `setdefault(k, []).append(cond)`, `_join.py:158-163` -/
def addCond {V : Type} [DecidableEq V] (k : V) (c : Bool) : List (V × List Bool) → List (V × List Bool)
  | [] => [(k, [c])]
  | (k', cs) :: l => if k' = k then (k', cs ++ [c]) :: l else (k', cs) :: addCond k c l

/-- `get_conds_for_unique_values`, `_join.py:153-164` -/
def valueConds {V : Type} [DecidableEq V] (key : Trans → V) (regs : List (List RegVal)) (ts : List Trans) : List (V × Bool) :=
  (ts.foldl (fun l t => addCond (key t) (t.cond regs) l) []).map fun p => (p.1, p.2.any id)

/-- `generate_driver_for_state_trans_dependent_out`, `_join.py:166-215`: the value of the first case which holds, `none` is the default -/
def drive {V : Type} [DecidableEq V] (key : Trans → V) (regs : List (List RegVal)) (ts : List Trans) : Option V :=
  ((valueConds key regs ts).find? Prod.snd).map Prod.fst

/-- signals driven by `generate_fsm`, `_join.py:217-287`; the values which are `None` in the default case are options -/
structure Out where
  valid : Bool
  keep : Option (List Bool)
  last : Option Bool
  mux : List (Option (Option (Nat × Nat × Nat)))
  rd : List Bool
  masks : List (List (List Bool))
deriving DecidableEq

/-- `wb` bytes of the word, `regCnt` numbers of registers of inputs -/
def outs (wb : Nat) (regCnt : List Nat) (ts : List Trans) (regs : List (List RegVal)) : Out where
  valid := (drive (fun t => t.mux.any Option.isSome || t.rd.all id) regs ts).getD false
  keep := drive Trans.outKeep regs ts
  last := drive Trans.last regs ts
  mux := (List.range wb).map fun b => drive (fun t => t.mux.getD b none) regs ts
  rd := (List.range regCnt.length).map fun i => (drive (fun t => t.rd.getD i false) regs ts).getD false
  masks := (List.range regCnt.length).map fun i => (List.range (regCnt.getD i 0)).map fun r =>
    (drive (fun t => (t.keepMask.getD i []).getD r []) regs ts).getD (List.replicate wb false)

/-- state register, `_join.py:223-234` -/
def nextState (ts : List Trans) (regs : List (List RegVal)) (outReady : Bool) (st : Nat) : Nat :=
  if outReady then (drive Trans.next regs ts).getD st else st

/-! ## generation of the table -/

/-- `HStream` -/
structure Stream where
  chunk : Nat
  lenMin : Nat
  lenMax : Option Nat
  starts : List Nat
deriving DecidableEq

def dedup {α : Type} [DecidableEq α] : List α → List α
  | [] => []
  | a :: l => if a ∈ l then dedup l else a :: dedup l

/-- `count_not_none`, `alignment_utils.py:14-18` -/
def countNotNone (w : Word) : Nat := if w.any Option.isSome then w.findIdx Option.isSome else 0

/-- `stream_to_all_possible_frame_formats`, lines 196-213 -/
def streamFrames (wb : Nat) (t : Stream) (i offOut : Nat) : Option (List (List Word)) :=
  (t.starts.flatMap fun offIn => (importantByteCnts wb offOut offIn t.chunk t.lenMin t.lenMax).map fun c =>
    createFrame wb i c offOut offIn).mapM id

/-- the loop over streams, lines 220-246 -/
def framesLoop (wb : Nat) : List Stream → Nat → List Nat → Option (List (List (List Word)))
  | [], _, _ => some []
  | t :: ts, i, ends =>
    match ends.mapM (streamFrames wb t i) with
    | none => none
    | some fs =>
      let fs := dedup fs.flatten
      match framesLoop wb ts (i + 1) (dedup (fs.map fun f => if f = [] then 0 else countNotNone (f.getLastD []))) with
      | none => none
      | some r => some (fs :: r)

def product {α : Type} : List (List α) → List (List α)
  | [] => [[]]
  | l :: ls => l.flatMap fun a => (product ls).map (a :: ·)

/-- `streams_to_all_possible_frame_formats`, lines 215-254 -/
def allFrames (wb : Nat) (ts : List Stream) (offset : Nat) : Option (List (List Word)) :=
  (framesLoop wb ts 0 [offset]).map fun fps => dedup ((product fps).map (joinStreams wb offset))

/-- source of an output byte: input, register, byte, last -/
abbrev Dst := Nat × Nat × Nat × Bool

/-- `min_word_i_per_input_in_this_out_word`, lines 288-297 -/
def minWord (w : Word) (s : Nat) : Nat :=
  (w.filterMap fun b => b.bind fun b => if b.stream = s then some b.word else none).min?.getD 0

/-- `outputs` of the sub-state of an output word, lines 281-309 and `fsm.py:47-62` -/
def subState (w : Word) : List (Option Dst) :=
  w.map fun b => b.map fun b => (b.stream, b.word - minWord w b.stream, b.byte, b.last)

/-- `is_from_different_input`, `fsm.py:11-16` -/
def fromDiff : Option Dst → Option Dst → Bool
  | some a, some b => a.1 != b.1
  | _, _ => true

/-- `is_next_byte_from_same_input`, `fsm.py:19-22` -/
def nextSame (a b : Option Dst) : Bool :=
  match a, b with
  | some x, some y => !fromDiff a b && x.2.2.1 + 1 == y.2.2.1
  | _, _ => false

def modPat (f : RegPat → RegPat) (i r : Nat) (t : Trans) : Trans := { t with input := t.input.modify i fun l => l.modify r f }

def setKeep (b : Nat) (v : Bool) (p : RegPat) : RegPat := { p with keep := p.keep.set b (some v) }

/-- input with a frame without bytes, `fsm.py:131-137` and 196-204 -/
def skipInput (wb : Nat) (t : Trans) (i : Nat) : Trans :=
  let t := modPat (fun p => { keep := p.keep.map fun _ => some false, last := some true, relict := some true }) i 0 t
  { t with rd := t.rd.set i true, keepMask := t.keepMask.modify i fun l => l.set 0 (List.replicate wb false) }

/-- new `StateTransItem` -/
def newTrans (wb : Nat) (look : List Nat) (st next : Nat) (last : Bool) : Trans where
  state := st
  next := next
  input := look.map fun n => List.replicate (n + 1) ⟨List.replicate wb none, none, none⟩
  keepMask := look.map fun n => List.replicate (n + 1) (List.replicate wb true)
  rd := look.map fun _ => false
  outKeep := List.replicate wb false
  mux := List.replicate wb none
  last := last

/-- body of the loop over outputs, `fsm.py:88-171`; `isLast` is the last byte of the word, `oNext` the next byte (of the next word) -/
def outByte (wb : Nat) (can0 : List Bool) (hasNext : Bool) (isLast : Bool) (outB : Nat) (oPrev o oNext : Option Dst)
    (t : Trans) : Option (Trans × Bool) :=
  match o with
  | none => some (t, false)
  | some (i, r, b, l) =>
    if (match oNext with | some n => decide (n.1 < i) | none => false) then none
    else
      let t := modPat (fun p => { setKeep b true p with last := some l }) i r t
      let t := { t with
        mux := t.mux.set outB (some (i, r, b))
        rd := t.rd.set i true
        keepMask := t.keepMask.modify i fun ms => ms.modify r fun m => m.set b false
        outKeep := t.outKeep.set outB true }
      let cont := isLast && hasNext && nextSame o oNext && b != wb - 1
      let lastB := fromDiff o oNext
      let t := if lastB then
          let nextI := match oNext with | some n => n.1 | none => can0.length
          let t := ((List.range nextI).filter (fun k => decide (i < k))).foldl (skipInput wb) t
          match oNext with
          | some (ni, nr, nb, _) => if !cont && can0.getD ni false then modPat (setKeep nb true) ni nr t else t
          | none => t
        else t
      let t := if fromDiff oPrev o then modPat (fun p => { p with keep := (List.range b).foldl (fun k j => k.set j (some false)) p.keep }) i r t
        else t
      let t := if (lastB || cont || isLast) && !(l && lastB && b == wb - 1) then
          modPat (setKeep ((b + 1) % wb) (!l || cont)) i (if b = wb - 1 then r + 1 else r) t
        else t
      some (t, cont)

/-- the loop over output bytes -/
def outLoop (wb : Nat) (can0 : List Bool) (next : Option (List (Option Dst))) : List (Option Dst) → Nat → Option Dst → Trans → Bool →
    Option (Trans × Bool)
  | [], _, _, t, rel => some (t, rel)
  | o :: os, k, oPrev, t, rel =>
    let oNext := match os, next with
      | [], some n => n.getD 0 none
      | [], none => none
      | o' :: _, _ => o'
    match outByte wb can0 next.isSome os.isEmpty k oPrev o oNext t with
    | none => none
    | some (t, r) => outLoop wb can0 next os (k + 1) o t (rel || r)

/-- `get_state_i`, `state_trans_info.py:18-22` -/
def stateI (os : List (Option Dst)) : Nat := ((os.filterMap id).map fun o => o.1).min?.getD 0

/-- masks of the unused bytes, `fsm.py:173-179` -/
def maskUnused (t : Trans) : Trans :=
  { t with keepMask := (t.keepMask.zip t.input).map fun p => (p.1.zip p.2).map fun q => (q.1.zip q.2.keep).map fun m =>
      if m.2 = some false then false else m.1 }

/-- flag of a partially consumed word, `fsm.py:181-196` -/
def markRelict (rel : Bool) (os : List (Option Dst)) (t : Trans) : Trans :=
  match os.find? Option.isSome with
  | some (some (i, r, _, _)) => modPat (fun p => if p.last = some true then { p with relict := some rel } else p) i r t
  | _ => t

/-- transitions of the words of a frame, `fsm.py:75-196`; `rel` tells that the previous word continues in this one -/
def frameTrans (wb : Nat) (look : List Nat) (can0 : List Bool) : List (List (Option Dst)) → Bool → Option (List Trans)
  | [], _ => some []
  | os :: ws, rel =>
    let next := ws.head?
    let t := newTrans wb look (stateI os) ((next.map stateI).getD 0) next.isNone
    match outLoop wb can0 next os 0 none t false with
    | none => none
    | some (t, r) =>
      match frameTrans wb look can0 ws r with
      | none => none
      | some l => some (markRelict rel os (maskUnused t) :: l)

/-- copies of transitions for empty frames on the first inputs, `fsm.py:198-232` -/
def zeroLen (wb : Nat) (look : List Nat) (can0 : List Bool) (tt : List (List Trans)) : List (List Trans) :=
  if can0.getD 0 false then
    let pre := (can0.takeWhile id).length
    let copies := ((List.range (min (pre + 1) can0.length)).filter (0 < ·)).flatMap fun st => (tt.getD st []).map fun t =>
      (List.range t.state).foldl (skipInput wb) { t with state := 0 }
    let allZero := if pre = can0.length then
        [(List.range can0.length).foldl (skipInput wb) (newTrans wb look 0 0 true)]
      else []
    tt.modify 0 fun l => l ++ copies ++ allZero
  else tt

/-- `input_B_dst_to_fsm`, `fsm.py:25-236`: numbers of registers - 1 and the table -/
def toFsm (wb : Nat) (frames : List (List Word)) (can0 : List Bool) : Option (List Nat × List (List Trans)) :=
  let subs := frames.map fun f => (f.map subState).filter fun os => os.any Option.isSome
  let look := (List.range can0.length).map fun i =>
    ((subs.flatten.flatten.filterMap fun o => o.bind fun o => if o.1 = i then some o.2.1 else none).max?).getD 0
  match subs.mapM fun f => frameTrans wb look can0 f false with
  | none => none
  | some ts =>
    let tt := (List.range can0.length).map fun st => ts.flatten.filter fun t => t.state = st
    let tt := (zeroLen wb look can0 tt).map dedup
    if deterministic tt then some (look, tt) else none

/-- `Axi4S_FrameJoin.hwDeclr`, `_join.py:62-78` -/
def table (wb : Nat) (ts : List Stream) (offset : Nat) : Option (List Nat × List (List Trans)) :=
  match allFrames wb ts offset with
  | none => none
  | some fs => toFsm wb fs (ts.map fun t => decide (t.lenMin = 0))

end Verif.FrameJoinFsm
