import Verif.Common
/-!
# Model of `Axi_to_AxiLite` (hwtLib/amba/axi_comp/to_axiLite.py)

The bridge consists of an address splitter per direction (`gen_addr_logic`) and of a response grouper per direction
(`gen_b_or_r_logic`), connected by a fifo with id and length of the transactions. Both are modelled as machines; the fifo and
the registers on the channels are the components verified elsewhere (C01..). Addresses are `Nat` modulo `2 ^ AW`.
-/
namespace Verif.AxiToLite

universe u v

/-! ## Address splitter -/
namespace Split
variable {ι : Type u}

inductive Burst where
  | fixed | incr | wrap
  deriving DecidableEq, Repr

/-- to_axiLite.py:94-99 -/
structure St where
  rem : Nat
  vld : Bool
  addr : Nat

structure In (ι : Type u) where
  valid : Bool
  id : ι
  addr : Nat
  len : Nat
  burst : Burst
  /-- `2 ^ size` bytes per beat -/
  size : Nat
  outReady : Bool
  fifoRd : Bool

structure Out (ι : Type u) where
  ready : Bool
  outValid : Bool
  outAddr : Nat
  fifoVld : Bool
  fifoId : ι
  fifoLen : Nat

/-- to_axiLite.py:101-125. `step` is the number of bytes of a word; `len` is below `2 ^ LW`. -/
def next (AW LW step : Nat) (s : St) (i : In ι) : St :=
  if s.vld then
    if i.outReady then
      { addr := (s.addr + step) % 2 ^ AW, vld := if s.rem = 0 then false else true, rem := (s.rem + 2 ^ LW - 1) % 2 ^ LW }
    else s
  else
    { addr := (i.addr + step) % 2 ^ AW, rem := (i.len + 2 ^ LW - 1) % 2 ^ LW,
      vld := i.valid && i.len != 0 && i.outReady && i.fifoRd }

/-- to_axiLite.py:101-131 -/
def out (s : St) (i : In ι) : Out ι where
  ready := !s.vld && (i.outReady && i.fifoRd)
  outValid := s.vld || (i.valid && i.fifoRd)
  outAddr := if s.vld then s.addr else i.addr
  fifoVld := !s.vld && i.valid && i.outReady
  fifoId := i.id
  fifoLen := i.len

def machine (AW LW step : Nat) : Machine St (In ι) (Out ι) where
  out := out
  next := next AW LW step

/-- Accepted transactions. -/
def accepted (tr : List (In ι × Out ι)) : List (In ι) :=
  tr.filterMap fun e => if e.1.valid && e.2.ready then some e.1 else none
/-- Addresses sent to AxiLite. -/
def sent (tr : List (In ι × Out ι)) : List Nat :=
  tr.filterMap fun e => if e.2.outValid && e.1.outReady then some e.2.outAddr else none
/-- Transactions stored in the fifo. -/
def pushed (tr : List (In ι × Out ι)) : List (ι × Nat) :=
  tr.filterMap fun e => if e.2.fifoVld && e.1.fifoRd then some (e.2.fifoId, e.2.fifoLen) else none

/-- The address of beat `k` of a burst according to the AXI specification (A3.4.1). -/
def beatAddr (AW : Nat) (i : In ι) (k : Nat) : Nat :=
  let n := 2 ^ i.size
  match i.burst with
  | .fixed => i.addr
  | .incr => if k = 0 then i.addr else (i.addr / n * n + k * n) % 2 ^ AW
  | .wrap =>
    let total := n * (i.len + 1)
    let low := i.addr / total * total
    low + (i.addr + k * n) % total

/-- The addresses of a burst. -/
def beats (AW : Nat) (i : In ι) : List Nat := (List.range (i.len + 1)).map (beatAddr AW i)

end Split

/-! ## Response grouper -/
namespace Group
variable {ι : Type u} {ρ : Type v}

/-- to_axiLite.py:151-154 -/
structure St (ι : Type u) where
  rem : Nat
  vld : Bool
  id : ι

structure In (ι : Type u) (ρ : Type v) where
  inValid : Bool
  inData : ρ
  outReady : Bool
  fVld : Bool
  fId : ι
  fLen : Nat

structure Out (ι : Type u) (ρ : Type v) where
  inReady : Bool
  outValid : Bool
  outId : ι
  outData : ρ
  outLast : Bool
  fRd : Bool

/-- to_axiLite.py:165-187 -/
def next (s : St ι) (i : In ι ρ) : St ι :=
  if s.vld then
    if i.inValid && i.outReady then
      if s.rem ≠ 0 then { s with rem := s.rem - 1 }
      else if i.fVld then { s with rem := i.fLen, id := i.fId }
      else { s with vld := false }
    else s
  else { rem := i.fLen, id := i.fId, vld := i.fVld }

/-- to_axiLite.py:156-163, :165-166, :186-197; `only` is `propagete_only_on_last` (the b channel) -/
def out (only : Bool) (s : St ι) (i : In ι ρ) : Out ι ρ where
  inReady := i.outReady && s.vld
  outValid := i.inValid && (if only then s.vld && s.rem == 0 else s.vld)
  outId := s.id
  outData := i.inData
  outLast := (s.rem == 0) && s.vld
  fRd := if s.vld then i.inValid && i.outReady && s.rem == 0 else true

def machine (only : Bool) : Machine (St ι) (In ι ρ) (Out ι ρ) where
  out := out only
  next := next

/-- Transactions taken from the fifo. -/
def popped (tr : List (In ι ρ × Out ι ρ)) : List (ι × Nat) :=
  tr.filterMap fun e => if e.1.fVld && e.2.fRd then some (e.1.fId, e.1.fLen) else none
/-- Responses taken from AxiLite. -/
def taken (tr : List (In ι ρ × Out ι ρ)) : List ρ :=
  tr.filterMap fun e => if e.1.inValid && e.2.inReady then some e.1.inData else none
/-- Responses given to AXI: id, last, data. -/
def givenOut (tr : List (In ι ρ × Out ι ρ)) : List ((ι × Bool) × ρ) :=
  tr.filterMap fun e => if e.2.outValid && e.1.outReady then some ((e.2.outId, e.2.outLast), e.2.outData) else none

/-- A transaction of `len + 1` beats: id and last of each of them. -/
def tags (t : ι × Nat) : List (ι × Bool) := (List.range (t.2 + 1)).map fun k => (t.1, k == t.2)

end Group
end Verif.AxiToLite
