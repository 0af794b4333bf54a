import Verif.Common

/-!
# `Axi4streamToMem` (`hwtLib/amba/axi_comp/stream_to_mem.py`)

`AxiLiteEndpoint` is omitted: `ctlW`, `baseW` are the writes of the registers (`decoded.*.dout`), `ctl`, `base` are the
values which are read from the registers (`decoded.*.din`). `DATA_WIDTH` is 8 * `bytes`. Constant signals of AW are
omitted. The register `actualLenRem` and `aw.len` have 8 bits.
-/

namespace Verif.StreamToMem

open Verif

structure Cfg where
  /-- `DATA_LEN` -/
  n : Nat
  /-- `MAX_BUTST_LEN` -/
  max : Nat
  bytes : Nat
  /-- `ADDR_WIDTH` -/
  aw : Nat

inductive Ph where
  | fullIdle | writeAddr | writeData | writeDataLast
deriving DecidableEq, Repr

structure St where
  ph : Ph
  on : Bool
  base : Nat
  addr : Nat
  lenRem : Nat
  act : Nat
deriving DecidableEq, Repr

structure In (α : Type) where
  ctlW : Option Nat
  baseW : Option Nat
  awR : Bool
  wR : Bool
  din : Option α
  bV : Bool
deriving DecidableEq, Repr

structure Out (α : Type) where
  /-- value of the control register for the bus -/
  ctl : Nat
  base : Nat
  /-- addr, len -/
  aw : Option (Nat × Nat)
  /-- data, last -/
  w : Option (α × Bool)
  dinRd : Bool
deriving DecidableEq, Repr

variable {α : Type}

def wEn (s : St) : Bool := s.ph == .writeData || s.ph == .writeDataLast
/-- lines 168-174 -/
def wAck (s : St) (x : In α) : Bool := wEn s && x.din.isSome && x.wR

/-- lines 79-99, 119-123, 176-194 -/
def out (c : Cfg) (s : St) (x : In α) : Out α where
  -- Concat(onoff, idle, 0...)
  ctl := (if s.on then 2 ^ (8 * c.bytes - 1) else 0) + (if s.ph = .fullIdle then 2 ^ (8 * c.bytes - 2) else 0)
  base := s.base
  aw := if s.ph = .writeAddr then
      some (s.addr, if c.max < s.lenRem then (c.max - 1) % 256 else (s.lenRem + 255) % 256) else none
  w := if wEn s then x.din.map fun d => (d, s.ph == .writeDataLast) else none
  dinRd := wEn s && x.wR

def next (c : Cfg) (s : St) (x : In α) : St where
  -- lines 137-166
  ph := match s.ph with
    | .fullIdle => if s.on then .writeAddr else .fullIdle
    | .writeAddr => if x.awR then (if s.lenRem == 1 then .writeDataLast else .writeData) else .writeAddr
    | .writeData => if wAck s x && s.act == 2 then .writeDataLast else .writeData
    | .writeDataLast => if wAck s x then (if s.lenRem != 0 then .writeAddr else .fullIdle) else .writeDataLast
  -- lines 125-134
  on := match x.ctlW with | some v => v.testBit 0 | none => s.on
  base := match x.baseW with | some v => v % 2 ^ c.aw | none => s.base
  -- lines 101-117
  addr := match s.ph with
    | .fullIdle => s.base
    | .writeAddr => if x.awR then
        (if c.max < s.lenRem then (s.addr + c.max * c.bytes) % 2 ^ c.aw else (s.addr + s.lenRem) % 2 ^ c.aw)
        else s.addr
    | _ => s.addr
  lenRem := match s.ph with
    | .fullIdle => c.n
    | .writeAddr => if x.awR then (if c.max < s.lenRem then s.lenRem - c.max else 0) else s.lenRem
    | _ => s.lenRem
  -- lines 196-212
  act := match s.ph with
    | .writeData => if wAck s x then (s.act + 255) % 256 else s.act
    | .writeDataLast => if wAck s x then 0 else s.act
    | _ => if c.max < s.lenRem then c.max else s.lenRem % 256

def machine (c : Cfg) : Machine St (In α) (Out α) := ⟨out c, next c⟩

structure IsInit (c : Cfg) (s : St) : Prop where
  ph : s.ph = .fullIdle
  on : s.on = false
  base : s.base = 0
  lenRem : s.lenRem = c.n

/-! ## Observations -/

inductive Ev where
  | aw (addr len : Nat)
  | w (last : Bool)
deriving DecidableEq, Repr

/-- the transfers of AW and W -/
def evOf (e : In α × Out α) : List Ev :=
  (match e.2.aw with | some a => given e.1.awR (.aw a.1 a.2) | none => []) ++
  (match e.2.w with | some a => given e.1.wR (.w a.2) | none => [])
def evs (tr : List (In α × Out α)) : List Ev := tr.flatMap evOf
/-- data on W -/
def wData (tr : List (In α × Out α)) : List α :=
  tr.flatMap fun e => match e.2.w with | some a => given e.1.wR a.1 | none => []
/-- the input data -/
def dins (tr : List (In α × Out α)) : List α :=
  tr.flatMap fun e => match e.1.din with | some a => given e.2.dinRd a | none => []

end Verif.StreamToMem
