import Verif.Common

/-!
# `AxiReadAggregator` (`hwtLib/amba/axi_comp/lsu/read_aggregator.py`)

The variant with one bus word in the cache line (`BUS_WORDS_IN_CACHE_LINE = 1`, frame buffer `Axi4SRegCopy`).

Simplifications
* Addresses are numbers of the cache line (`addr[:CACHE_LINE_OFFSET_BITS]`, read_aggregator.py:158, :164), ids are natural numbers, only
  ids below `n = 2 ** ID_WIDTH` are matched.
* Registers of the request (`s_ar_tmp`) and of the CAM result (`addr_cam_out_reg`) are loaded and emptied in the same clock cycles
  (both are filled by the node :140-144 and taken by the node :150-156), they are one register here.
* Content of `waiting_transaction_id[i]` is used only if `waiting_transaction_vld[i]`, both are one `Option`.
* `s.r.last` is 1 (one word).
* In `apply_set_and_clear` the set has priority over the clear.
-/

namespace Verif.ReadAgg

universe u

variable {D : Type u}

/-- `s_ar_tmp` with `addr_cam_out_reg`. -/
structure Tmp where
  id : Nat
  addr : Nat
  /-- result of the CAM masked by `item_vld` -/
  cam : Nat → Bool

structure St (D : Type u) where
  tmp : Option Tmp
  /-- `last_cam_insert_match` -/
  lastIns : Option Nat
  itemVld : Nat → Bool
  /-- `waiting_transaction_vld`, `waiting_transaction_id` -/
  wait : Nat → Option Nat
  /-- memory of the CAM -/
  cam : Nat → Nat
  /-- frame buffer: id, data -/
  reg : Option (Nat × D)

structure In (D : Type u) where
  /-- `s.ar`: id, line -/
  sar : Option (Nat × Nat)
  marRdy : Bool
  /-- `m.r`: id, data -/
  mr : Option (Nat × D)
  srRdy : Bool

structure Out (D : Type u) where
  sarRdy : Bool
  mar : Option (Nat × Nat)
  mrRdy : Bool
  sr : Option (Nat × D)

/-- `match_res` (read_aggregator.py:126-131). -/
def matchRes (s : St D) (t : Tmp) (k : Nat) : Bool :=
  s.itemVld k && (t.cam k || s.lastIns == some k) && (s.wait k).isNone

/-- `parent_transaction_id` if `match_res != 0` (read_aggregator.py:148, oneHotToBin.py: the lowest index). -/
def parent (n : Nat) (s : St D) : Option Nat :=
  match s.tmp with
  | some t => (List.range n).find? (matchRes s t)
  | none => none

/-- `ar_ack` (read_aggregator.py:150-159): m.ar is skipped if there is a parent. -/
def arAck (n : Nat) (s : St D) (x : In D) : Bool := s.tmp.isSome && ((parent n s).isSome || x.marRdy)

/-- `blocking_access` (read_aggregator.py:132-139). -/
def blocking (s : St D) (i : Nat) : Bool :=
  s.itemVld i || (match s.tmp with | some t => t.id == i | none => false)

/-- Transfer on `s.ar` (read_aggregator.py:140-144). -/
def take (n : Nat) (s : St D) (x : In D) : Option (Nat × Nat) :=
  match x.sar with
  | some q => if !blocking s q.1 && (s.tmp.isNone || arAck n s x) then some q else none
  | none => none

/-- Id which ends on `s.r` in this clock cycle (`this_trans_end`, read_aggregator.py:182). -/
def ending (s : St D) (x : In D) : Option Nat := if x.srRdy then s.reg.map (·.1) else none

/-- `data_copy_override` (read_aggregator.py:211-217). -/
def copyOvr (n : Nat) (s : St D) (x : In D) : Option Nat :=
  match s.tmp, parent n s, ending s x with
  | some t, some p, some e => if e == p then some t.id else none
  | _, _, _ => none

/-- The frame is copied with this id (read_aggregator.py:83-91). -/
def copyId (n : Nat) (s : St D) (x : In D) : Option Nat :=
  match copyOvr n s x with
  | some i => some i
  | none => match s.reg with
    | some (i, _) => s.wait i
    | none => none

def out (n : Nat) (s : St D) (x : In D) : Out D where
  sarRdy := match x.sar with
    | some q => !blocking s q.1 && (s.tmp.isNone || arAck n s x)
    | none => s.tmp.isNone || arAck n s x
  mar := match s.tmp with
    | some t => if (parent n s).isNone then some (t.id, t.addr) else none
    | none => none
  -- Axi4SRegCopy (fifoCopy.py:34-57)
  mrRdy := (s.reg.isNone || x.srRdy) && (copyId n s x).isNone
  sr := s.reg

def next (n : Nat) (s : St D) (x : In D) : St D where
  tmp := match take n s x with
    | some q => some ⟨q.1, q.2, fun k => s.itemVld k && s.cam k == q.2⟩
    | none => if arAck n s x then none else s.tmp
  -- read_aggregator.py:167-173
  lastIns := match x.sar, s.tmp with
    | some q, some t => if !blocking s q.1 && t.addr == q.2 then some t.id else none
    | _, _ => none
  -- read_aggregator.py:178-184
  itemVld := fun k =>
    ((match s.tmp with | some t => t.id == k | none => false) && ((copyOvr n s x).isSome || arAck n s x))
      || (s.itemVld k && !(ending s x == some k))
  -- read_aggregator.py:186-206
  wait := fun k =>
    match s.tmp with
    | some t => if arAck n s x && parent n s == some k && !(ending s x == some k) then some t.id
                else if ending s x == some k then none else s.wait k
    | none => if ending s x == some k then none else s.wait k
  -- read_aggregator.py:162-165
  cam := match s.tmp with | some t => upd s.cam t.id t.addr | none => s.cam
  reg := if s.reg.isNone || x.srRdy then
      match copyId n s x, s.reg with
      | some i, some (_, d) => some (i, d)
      | _, _ => x.mr
    else s.reg

/-- Reset state, the CAM has an initial value (cam.py:89-92). -/
def init : St D := ⟨none, none, fun _ => false, fun _ => none, fun _ => 0, none⟩

def machine (n : Nat) : Machine (St D) (In D) (Out D) := ⟨out n, next n⟩

end Verif.ReadAgg
