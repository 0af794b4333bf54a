import Verif.WriteAgg
/-!
# `Axi4StoreQueueWritePropagating` (`hwtLib/amba/axi_comp/lsu/store_queue_write_propagating.py`)

The write aggregator (`WriteAgg.lean`) with a pipeline for speculative reads. A line has one bus word: with more words the address
of the data memory is wider than the index of the item and the assignment of line 152 is not possible.

* Addresses are line addresses (`addr[:CACHE_LINE_OFFSET_BITS]`).
* `speculative_read_data.last` is constant 1. The data which are not assigned (`None`) are modelled by an arbitrary value.
* The aggregator does not depend on the read pipeline: the CAM has a separate lookup port, the memory a separate read port.
-/
namespace Verif.StoreQueue

open WriteAgg

/-- lines 23-43 -/
structure Rec (α : Type) where
  key : Nat
  data : Nat → α
  valid : Bool
  reqKey : Nat
  reqId : Nat
  reqEq : Bool
  reqValid : Bool

structure St (α : Type) where
  agg : WriteAgg.St α
  /-- `w_in_reg_tmp[0]`, `w_in_reg_tmp[1]` -/
  t0 : HsReg.Stage (Rec α)
  t1 : HsReg.Stage (Rec α)
  /-- buffer of `read_lookup_res` (line 134) -/
  lr : HsReg.Stage (Nat → Bool)
  /-- `found_in_ram_flag` -/
  fram : Bool
  /-- output of the read port 2 of the data memory -/
  dout : CumMask.Word α

structure In (α : Type) where
  agg : WriteAgg.In α
  /-- `speculative_read_addr`: id and line address if valid -/
  rq : Option (Nat × Nat)
  /-- `speculative_read_data.ready` -/
  rdRdy : Bool

structure Out (α : Type) where
  agg : WriteAgg.Out α
  rqRd : Bool
  rVld : Bool
  rId : Nat
  /-- `RESP_OKAY`, otherwise `RESP_EXOKAY` -/
  rOk : Bool
  rData : Nat → α

variable {α : Type}

/-! ## Clock period 0 (lines 107-130) -/

/-- lines 119-125; with no request the address and the id are anything, 0 here -/
def recIn (s : St α) (x : In α) : Rec α where
  key := s.agg.tmp.reg.key
  data := s.agg.tmp.reg.w.din
  valid := s.agg.tmp.occ
  reqKey := (x.rq.map Prod.snd).getD 0
  reqId := (x.rq.map Prod.fst).getD 0
  reqEq := s.agg.tmp.reg.key == (x.rq.map Prod.snd).getD 0
  reqValid := x.rq.isSome
/-- fifo_oooread.py:205-207 -/
def lookupIn (s : St α) (x : In α) (k : Nat) : Bool :=
  s.agg.cam k == (x.rq.map Prod.snd).getD 0 && s.agg.fifo.valid k

/-! ## Clock period 2 (lines 156-165) -/

def t1Rd (s : St α) (x : In α) : Bool := x.rdRdy || !s.t1.reg.reqValid
def t1InRd (s : St α) (x : In α) : Bool := HsReg.stageRd s.t1 (t1Rd s x)

/-! ## Clock period 1 (lines 133-153) -/

def t0Rd (s : St α) (x : In α) : Bool := s.lr.occ && t1InRd s x
def lrRd (s : St α) (x : In α) : Bool := s.t0.occ && t1InRd s x
def t0InRd (s : St α) (x : In α) : Bool := HsReg.stageRd s.t0 (t0Rd s x)
def lrInRd (s : St α) (x : In α) : Bool := HsReg.stageRd s.lr (lrRd s x)
/-- line 146 -/
def inRam (s : St α) (k : Nat) : Bool := s.lr.reg k && s.agg.fifo.valid k
/-- lines 147-150 `found_in_ram_flag.next` -/
def framNext (g : Cfg) (s : St α) (x : In α) : Bool :=
  if s.lr.occ && lrRd s x then (List.range g.M).any (inRam s) else s.fram

/-! ## Answer (lines 167-211) -/

def recVld (s : St α) : Bool := s.t1.occ && s.t1.reg.reqValid && s.t1.reg.valid
def inActual (s : St α) : Bool := s.agg.tmp.occ && s.agg.tmp.reg.key == s.t1.reg.reqKey && recVld s
def inReg1 (s : St α) : Bool := s.t0.occ && s.t0.reg.valid && s.t0.reg.key == s.t1.reg.reqKey && recVld s
def inReg2 (s : St α) : Bool := recVld s && s.t1.reg.reqEq

def out (g : Cfg) (s : St α) (x : In α) : Out α where
  agg := WriteAgg.out g s.agg x.agg
  rqRd := x.rq.isSome && t0InRd s x && lrInRd s x
  rVld := s.t1.occ && s.t1.reg.reqValid
  rId := s.t1.reg.reqId
  rOk := inActual s || inReg1 s || inReg2 s || s.fram
  rData := if inActual s then s.agg.tmp.reg.w.din
    else if inReg1 s then s.t0.reg.data
    else if inReg2 s then s.t1.reg.data
    else s.dout.data

def next (g : Cfg) (s : St α) (x : In α) : St α where
  agg := WriteAgg.next g s.agg x.agg
  t0 := HsReg.stageNext s.t0 (lrInRd s x) (recIn s x) (t0Rd s x)
  t1 := HsReg.stageNext s.t1 (s.lr.occ && s.t0.occ) s.t0.reg (t1Rd s x)
  lr := HsReg.stageNext s.lr (t0InRd s x) (lookupIn s x) (lrRd s x)
  fram := framNext g s x
  dout := if framNext g s x then s.agg.ram.mem (OneHot.oneHotToBin g.M (inRam s)) else s.dout

def machine (g : Cfg) : Machine (St α) (In α) (Out α) := ⟨out g, next g⟩

structure IsInit (g : Cfg) (s : St α) : Prop where
  agg : WriteAgg.IsInit g s.agg
  t0 : s.t0.occ = false
  t1 : s.t1.occ = false
  lr : s.lr.occ = false
  fram : s.fram = false

/-! ## Observations -/

abbrev Tr (α : Type) := List (In α × Out α)

/-- The part of the run on the ports of the aggregator. -/
def aggTr (tr : Tr α) : WriteAgg.Tr α := tr.map fun e => (e.1.agg, e.2.agg)
/-- Ids of accepted speculative reads. -/
def reqs (tr : Tr α) : List Nat := 
  tr.filterMap fun e => if e.2.rqRd then some ((e.1.rq.map Prod.fst).getD 0) else none
/-- Ids of answers. -/
def answers (tr : Tr α) : List Nat := 
  tr.filterMap fun e => if e.2.rVld && e.1.rdRdy then some e.2.rId else none

end Verif.StoreQueue
