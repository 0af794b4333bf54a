import Verif.Common

/-!
# `AvalonMm_to_Axi4` (`hwtLib/avalon/mmToAxi.py`), `AvalonMM` (`hwtLib/avalon/mm.py`)

The Avalon interface is the one behind the buffer `avmm_buff` (`avmm` in the code). The data of a write contain the
`byteEnable`. The constant signals of the address channels are omitted.
-/

namespace Verif.AvmmToAxi

open Verif

structure Cfg where
  /-- `MAX_BURST > 1` -/
  multi : Bool
  /-- width of `burstCount` -/
  bcW : Nat

structure St where
  /-- `w_last_cntr` -/
  cnt : Nat
  /-- `w_last_cntr_vld` -/
  vld : Bool
deriving DecidableEq, Repr

structure In (α : Type) where
  read : Bool
  write : Bool
  addr : Nat
  bc : Nat
  wdata : α
  arR : Bool
  awR : Bool
  wR : Bool
  /-- data, resp -/
  r : Option (α × Nat)
  /-- resp -/
  b : Option Nat
deriving DecidableEq, Repr

structure Out (α : Type) where
  wait : Bool
  /-- addr, len -/
  ar : Option (Nat × Nat)
  aw : Option (Nat × Nat)
  /-- data, last -/
  w : Option (α × Bool)
  /-- `readDataValid`, `readData` -/
  rdata : Option α
  /-- `writeResponseValid` -/
  wrespV : Bool
  /-- `response`, none if undefined -/
  resp : Option Nat
deriving DecidableEq, Repr

variable {α : Type}

/-- lines 56-59 -/
def len (c : Cfg) (x : In α) : Nat := if c.multi then (x.bc + 2 ^ c.bcW - 1) % 2 ^ c.bcW else 0

/-- `RESP_*` of AXI to Avalon (lines 123-135) -/
def respOf : Nat → Option Nat
  | 0 => some 0
  | 1 => some 0
  | 2 => some 2
  | 3 => some 3
  | _ => none

/-- lines 69-83, 107-120 (`StreamNode.ackForSlave`, `ackForMaster`) and 98-135 -/
def out (c : Cfg) (s : St) (x : In α) : Out α :=
  let m := x.read || x.write
  let v := c.multi && s.vld
  let arS := x.arR || !x.read
  let awS := x.awR || (!x.write || v)
  let wS := x.wR || !x.write
  { wait := !(arS && awS && wS)
    ar := if m && awS && wS && x.read then some (x.addr, len c x) else none
    aw := if m && arS && wS && (x.write && x.wR && !v) && !(!x.write || v) then some (x.addr, len c x) else none
    w := if m && arS && awS && (if c.multi then x.write && ((x.awR && !v) || v) else x.write && x.wR) && x.write then
        some (x.wdata, if c.multi then (if s.vld then s.cnt == 0 else x.bc == 1) else true) else none
    rdata := x.r.map Prod.fst
    wrespV := x.b.isSome
    resp := x.b.bind respOf }

/-- lines 85-95 -/
def next (c : Cfg) (s : St) (x : In α) : St :=
  if !c.multi then s
  else if x.write && x.awR && x.wR && !s.vld then
    { cnt := (x.bc + 2 ^ c.bcW + 2 ^ c.bcW - 2) % 2 ^ c.bcW, vld := decide (1 < x.bc) }
  else if x.write && x.wR && (x.awR || s.vld) then
    if s.cnt != 0 then { s with cnt := s.cnt - 1 } else { s with vld := false }
  else s

def machine (c : Cfg) : Machine St (In α) (Out α) := ⟨out c, next c⟩

/-- power up state -/
def init : St := ⟨0, false⟩

/-! ## Observations -/

inductive Req (α : Type) where
  | rd (addr bc : Nat)
  | wr (addr bc : Nat) (d : α)
deriving DecidableEq, Repr

inductive Ev (α : Type) where
  | ar (addr len : Nat)
  | aw (addr len : Nat)
  | w (d : α) (last : Bool)
deriving DecidableEq, Repr

/-- the requests accepted on Avalon -/
def reqs (tr : List (In α × Out α)) : List (Req α) :=
  tr.flatMap fun e => given (e.1.read && !e.2.wait) (.rd e.1.addr e.1.bc) ++
    given (e.1.write && !e.2.wait) (.wr e.1.addr e.1.bc e.1.wdata)

/-- transfers of the channels AR, AW, W -/
def evOf (e : In α × Out α) : List (Ev α) :=
  (match e.2.ar with | some a => given e.1.arR (.ar a.1 a.2) | none => []) ++
  (match e.2.aw with | some a => given e.1.awR (.aw a.1 a.2) | none => []) ++
  (match e.2.w with | some a => given e.1.wR (.w a.1 a.2) | none => [])
def evs (tr : List (In α × Out α)) : List (Ev α) := tr.flatMap evOf

/-- `AvalonMM._declr`: width of `burstCount` (`mm.py:56-57`) -/
def burstCountWidth (maxBurst : Nat) : Nat := log2ceil maxBurst

end Verif.AvmmToAxi
