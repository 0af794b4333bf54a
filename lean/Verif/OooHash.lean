import Verif.OooOp
/-!
# `OooOpExampleCounterHashTable` (`hwtLib/examples/axi/oooOp/counterHashTable.py`)

The hash table of counters on the pipeline of `OutOfOrderCummulativeOp`: stages, their `ready`, address collisions and the forwarding
are those of `OooOp.lean`, with the simplifications written there except of `write_cancel`, which is here. Here is what the hash table
adds: the registers `key_matches`, the selection of the latest one, `main_op` and `write_cancel`.

Simplifications
* `data` of a stage is a pair: the item of the table and the fields of `transaction_state` which `main_op` changes (`original_data`
  and `key_match`). In stages before WRITE_BACK the second part is not used.
* Item of the input keeps the fields `operation` and `original_data` in `ts` for the whole time.
* `src_st.valid` in `do_swap_original_and_current_state` holds whenever the stage WRITE_BACK is loaded (the source is either
  the stage before it, or WRITE_BACK with a collision).
* Keys are numbers, counters have `W` bits.
-/
namespace Verif.OooHash
open Verif.OooOp

universe u
variable {A : Type u} [DecidableEq A]

/-- `MAIN_STATE_T`, counterHashTable.py:38-42 -/
structure Main where
  valid : Bool
  key : Nat
  value : Nat
deriving DecidableEq, Repr

/-- `operation` and `original_data` of `TRANSACTION_STATE_T`, counterHashTable.py:45-57 -/
structure Req where
  op : Nat
  orig : Main
deriving DecidableEq, Repr

/-- `original_data` and `key_match` after `main_op` -/
structure Res where
  orig : Main
  keyMatch : Bool
deriving DecidableEq, Repr

abbrev HItem (A : Type u) := Item A Req (Main × Res)
abbrev PSt (A : Type u) := St A Req (Main × Res)

/-- The pipeline and the registers `key_matches` of STATE_LOAD: for its own data, for WRITE_BACK and the stages behind. -/
structure HSt (A : Type u) where
  s : PSt A
  own : Bool
  km : List Bool

/-- `key_compare` of STATE_LOAD with a stage, counterHashTable.py:65-73 -/
def keyCompare (i j : Option (HItem A)) : Bool :=
  match i, j with
  | some i, some j => i.addr == j.addr && i.ts.orig.valid && j.data.1.valid && i.ts.orig.key == j.data.1.key
  | _, _ => false

/-- `SwitchLogic` of `get_latest_key_match`, counterHashTable.py:91-103: the match of the first stage which collides -/
def pick (a : A) : List (Option (HItem A)) → List Bool → Option Bool
  | x :: xs, k :: ks =>
    match x with
    | some j => if j.addr = a then some k else pick a xs ks
    | none => pick a xs ks
  | _, _ => none

/-- `get_latest_key_match`, counterHashTable.py:75-104 -/
def latest (h : HSt A) (a : A) : Bool := (pick a (h.s.wb :: h.s.mid ++ h.s.hist) h.km).getD h.own

/-- `main_op`, counterHashTable.py:191-264, `main_op_on_lookup_match_update`, :185-189 -/
def mainOp (W : Nat) (t : Req) (src : Main) (lk : Bool) : Main × Res :=
  let swap := t.op == 0 || (t.op == 1 && !lk)
  let found := (t.op == 2 || t.op == 1) && lk
  (if swap then t.orig else if found then { src with value := (src.value + 1) % 2 ^ W } else src,
    ⟨if swap then src else t.orig, lk⟩)

/-- The forwarding to STATE_LOAD changes only the data, outOfOrderCummulativeOp.py:250-280. -/
def forwardH (s : PSt A) (i : HItem A) : HItem A :=
  match fwd s i.addr with
  | some j => { i with data := (j.data.1, i.data.2) }
  | none => i

/-- `write_cancel`, counterHashTable.py:175-183 -/
def cancelled (i : HItem A) : Bool := !i.data.2.keyMatch && i.ts.op == 2

def cancel (o : Option (HItem A)) : Bool :=
  match o with
  | some i => cancelled i
  | none => false

structure HIn (A : Type u) where
  r : Option (HItem A)
  /-- `aw.ready`, `w.ready`, `b.valid` of the memory -/
  awr : Bool
  wr : Bool
  bv : Bool
  /-- `dataOut.rd & read_confirm.rd` -/
  rd : Bool

/-- The pipeline sees a canceled write as done at once (`w_channel_ack`, outOfOrderCummulativeOp.py:475-480) and a canceled item does not wait for
the write response (:552). -/
def eff (s : PSt A) (x : HIn A) : In A Req (Main × Res) :=
  ⟨x.r, x.awr || cancel s.wb, x.wr || cancel s.wb, (x.bv || cancel (wait s)) && x.rd⟩

structure HOut (A : Type u) where
  rRdy : Bool
  /-- item which leaves WRITE_BACK -/
  op : Option (HItem A)
  /-- item transferred on aw and w, outOfOrderCummulativeOp.py:477-491 -/
  write : Option (HItem A)
  /-- item transferred on dataOut -/
  dout : Option (HItem A)
  /-- write response taken, outOfOrderCummulativeOp.py:536-550 -/
  bTaken : Bool

def hout (s : PSt A) (x : HIn A) : HOut A where
  rRdy := rdy0 s (eff s x)
  op := if wbOut s (eff s x) then s.wb else none
  write := if midRdy s.mid (eff s x).ack && !cancel s.wb && (x.awr && x.wr) then s.wb else none
  dout := if (x.bv || cancel (wait s)) && x.rd then wait s else none
  bTaken := (wait s).isSome && !cancel (wait s) && x.bv && x.rd

/-- The pipeline after a clock cycle. `out_valid` of WAIT_FOR_WRITE_ACK to the history needs `b.valid`, outOfOrderCummulativeOp.py:553, :507-509. -/
def nextS (W : Nat) (h : HSt A) (x : HIn A) : PSt A :=
  let e := eff h.s x
  { s0 := if rdy0 h.s e then x.r else h.s.s0
    s1 := if rdy1 h.s e then h.s.s0 else h.s.s1
    s2 := (if rdy2 h.s e then h.s.s1 else h.s.s2).map (forwardH h.s)
    wb := if wbRdy h.s e then h.s.s2.map fun i => { i with data := mainOp W i.ts (opIn h.s i).1 (latest h i.addr) } else h.s.wb
    mid := midNext h.s.mid e.ack (if wbOut h.s e then h.s.wb else none)
    hist := if (wait h.s).isSome && x.bv && x.rd then (wait h.s :: h.s.hist).take h.s.hist.length else h.s.hist }

/-- `key_matches` are computed from the values which the stages will have, counterHashTable.py:154-162. -/
def next (W : Nat) (h : HSt A) (x : HIn A) : HSt A :=
  let s := nextS W h x
  ⟨s, keyCompare s.s2 s.s2, (s.wb :: s.mid ++ s.hist).map (keyCompare s.s2)⟩

def init (p H : Nat) : HSt A :=
  ⟨OooOp.init p H, false, List.replicate (1 + p + H) false⟩

end Verif.OooHash
