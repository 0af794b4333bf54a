import Verif.Common

/-!
# `OutOfOrderCummulativeOp` (`hwtLib/amba/axi_comp/oooOp/outOfOrderCummulativeOp.py`)

The main pipeline of the container of read-modify-write operations with the write forwarding.

Simplifications
* `BUS_WORD_CNT = 1` (one word of the bus per item), `write_cancel` is 0 (its default).
* The id of the transaction is replaced by what is stored under the id in `state_array` (address and transaction state): the id is
  written there with the read request (outOfOrderCummulativeOp.py:170-177) and it is not used again until it is confirmed (:560), thus
  the result of the read of `state_array` with the id (:418-422) are the values of the transaction. Items of the channel `r` come with them.
* The transaction state used by `main_op` is the one of the item which is loaded, as in counterHashTable.py (`prev_st`), also when the data
  are forwarded from WRITE_BACK.
* Channels aw and w transfer in the same clock cycle (:475-489). `ack` is `b.valid & dataOut.rd &
  read_confirm.rd` (:552).
* An invalid stage is `none`; data in an invalid stage are never used.
-/

namespace Verif.OooOp

universe u v w

variable {A : Type u} {T : Type v} {D : Type w}

/-- Content of a stage: address, transaction state, data. -/
structure Item (A : Type u) (T : Type v) (D : Type w) where
  addr : A
  ts : T
  data : D
  deriving DecidableEq

/-- Stages of the pipeline (utils.py:86-104). -/
structure St (A : Type u) (T : Type v) (D : Type w) where
  /-- READ_DATA_RECEIVE -/
  s0 : Option (Item A T D)
  s1 : Option (Item A T D)
  /-- STATE_LOAD -/
  s2 : Option (Item A T D)
  /-- WRITE_BACK -/
  wb : Option (Item A T D)
  /-- stages behind WRITE_BACK up to WAIT_FOR_WRITE_ACK (the last one) -/
  mid : List (Option (Item A T D))
  /-- write history -/
  hist : List (Option (Item A T D))
  deriving DecidableEq

structure In (A : Type u) (T : Type v) (D : Type w) where
  r : Option (Item A T D)
  awr : Bool
  wr : Bool
  ack : Bool
  deriving DecidableEq

structure Out (A : Type u) (T : Type v) (D : Type w) where
  rRdy : Bool
  awVld : Bool
  wVld : Bool
  /-- item transferred on aw and w -/
  write : Option (Item A T D)
  /-- item transferred on dataOut (and the id confirmed, write response taken) -/
  dout : Option (Item A T D)
  deriving DecidableEq

/-- `in_ready` of the stages behind WRITE_BACK (utils.py:50-61, outOfOrderCummulativeOp.py:516, :552). -/
def midRdy : List (Option (Item A T D)) → Bool → Bool
  | [], ack => ack
  | x :: xs, ack => x.isNone || midRdy xs ack

/-- The stages behind WRITE_BACK after the clock cycle, `i` is what comes from the previous stage. -/
def midNext : List (Option (Item A T D)) → Bool → Option (Item A T D) → List (Option (Item A T D))
  | [], _, _ => []
  | x :: xs, ack, i => (if x.isNone || midRdy xs ack then i else x) :: midNext xs ack x

/-- The stage WAIT_FOR_WRITE_ACK. -/
def wait (s : St A T D) : Option (Item A T D) := s.mid.getLast?.join

def wbOut (s : St A T D) (x : In A T D) : Bool := midRdy s.mid x.ack && (x.awr && x.wr)
/-- `in_ready` of WRITE_BACK, STATE_LOAD and the stages before. -/
def wbRdy (s : St A T D) (x : In A T D) : Bool := s.wb.isNone || wbOut s x
def rdy2 (s : St A T D) (x : In A T D) : Bool := s.s2.isNone || wbRdy s x
def rdy1 (s : St A T D) (x : In A T D) : Bool := s.s1.isNone || rdy2 s x
def rdy0 (s : St A T D) (x : In A T D) : Bool := s.s0.isNone || rdy1 s x

/-- The stage from which the address is forwarded: the first from WRITE_BACK to the end of history
(outOfOrderCummulativeOp.py:183-188, :263-281). -/
def fwd [DecidableEq A] (s : St A T D) (a : A) : Option (Item A T D) :=
  ((s.wb :: s.mid ++ s.hist).filterMap id).find? fun i => i.addr == a

/-- Data after the write forwarding. -/
def forward [DecidableEq A] (s : St A T D) (i : Item A T D) : Item A T D :=
  match fwd s i.addr with
  | some j => { i with data := j.data }
  | none => i

/-- Input of `main_op` (outOfOrderCummulativeOp.py:448-466). -/
def opIn [DecidableEq A] (s : St A T D) (i : Item A T D) : D :=
  match s.wb with
  | some j => if j.addr = i.addr then j.data else i.data
  | none => i.data

def out (s : St A T D) (x : In A T D) : Out A T D where
  rRdy := rdy0 s x
  awVld := s.wb.isSome && midRdy s.mid x.ack && x.wr
  wVld := s.wb.isSome && midRdy s.mid x.ack && x.awr
  write := if wbOut s x then s.wb else none
  dout := if x.ack then wait s else none

/-- `f` is `main_op`. -/
def next [DecidableEq A] (f : T → D → D) (s : St A T D) (x : In A T D) : St A T D where
  s0 := if rdy0 s x then x.r else s.s0
  s1 := if rdy1 s x then s.s0 else s.s1
  s2 := (if rdy2 s x then s.s1 else s.s2).map (forward s)
  wb := if wbRdy s x then s.s2.map fun i => { i with data := f i.ts (opIn s i) } else s.wb
  mid := midNext s.mid x.ack (if wbOut s x then s.wb else none)
  hist := if x.ack && (wait s).isSome then (wait s :: s.hist).take s.hist.length else s.hist

def machine [DecidableEq A] (f : T → D → D) : Machine (St A T D) (In A T D) (Out A T D) := ⟨out, next f⟩

/-- `p` is WRITE_TO_WRITE_ACK_LATENCY and `H` WRITE_HISTORY_SIZE. -/
def init (p H : Nat) : St A T D := ⟨none, none, none, none, List.replicate p none, List.replicate H none⟩

end Verif.OooOp
