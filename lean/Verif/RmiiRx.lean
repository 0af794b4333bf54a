import Verif.Common

/-!
# Receiver of `RmiiAdapter` (`hwtLib/peripheral/ethernet/rmii_adapter.py` lines 141-223)

A byte is the list of its `K = 8 / RMII_W` symbols, the least significant first; symbols are `Nat`s.
`reg0`/`rx_actual_val` are such lists; `rx_cntr` (one hot) is the index of its 1. `rx.data` in the error
state is undefined and it is `none`. The default `FREQ=None` is modelled: all registers of the receiver
have the same clock and edge. The values of `rx_din` and `rx_preamble_cntr` at power-up are arbitrary.
-/

namespace Verif.RmiiRx

open Verif

structure Cfg where
  /-- symbols in byte -/
  K : Nat
  /-- `ETH.PREAMBLE_1B`, `ETH.SFD` as symbols -/
  pre : List Nat
  sfd : List Nat

inductive Mode
  | skip0 | preamble | data | error
deriving DecidableEq, Repr

structure St where
  din : Nat
  dinVld : Bool
  reg0 : List Nat
  reg1 : List Nat
  reg1Vld : Bool
  cntr : Nat
  /-- 3 bit counter -/
  preCnt : Nat
  st : Mode
deriving DecidableEq, Repr

structure In where
  d : Nat
  dv : Bool
deriving DecidableEq, Repr

structure Out where
  vld : Bool
  data : Option (List Nat)
  err : Bool
  last : Bool
deriving DecidableEq, Repr

/-- line 172 -/
def lastInB (c : Cfg) (s : St) : Bool := decide (s.cntr = c.K - 1) && s.dinVld
/-- lines 173-174: `Concat(din, reg0[:RMII_W])` -/
def actual (s : St) : List Nat := s.reg0.drop 1 ++ [s.din]

/-- lines 216-223 -/
def out (_c : Cfg) (s : St) (_x : In) : Out where
  vld := s.reg1Vld || s.st == .error
  data := if s.st == .error then none else some s.reg1
  err := s.st == .error
  last := !s.dinVld

/-- lines 176-203 -/
def nextMode (c : Cfg) (s : St) : Mode :=
  match s.st with
  | .skip0 => if s.dinVld && s.din != 0 then .preamble else .skip0
  | .preamble =>
    if lastInB c s then
      if s.preCnt = 0 then (if actual s != c.sfd then .error else .data)
      else if actual s != c.pre then .error else .preamble
    else .preamble
  | .error => if !s.dinVld then .skip0 else .error
  | .data => if decide (s.cntr = c.K - 1) && !s.dinVld then .skip0 else .data

def nextPreCnt (c : Cfg) (s : St) : Nat :=
  match s.st with
  | .skip0 => if s.dinVld && s.din != 0 then 7 else s.preCnt
  | .preamble => if lastInB c s then (s.preCnt + 7) % 8 else s.preCnt
  | _ => s.preCnt

def next (c : Cfg) (s : St) (x : In) : St where
  -- lines 151-152
  din := x.d
  dinVld := x.dv
  st := nextMode c s
  preCnt := nextPreCnt c s
  -- lines 205-213
  cntr := match s.st with
    | .skip0 => 1 % c.K
    | .preamble | .data => (s.cntr + 1) % c.K
    | .error => s.cntr
  reg0 := match s.st with
    | .skip0 => List.replicate (c.K - 1) 0 ++ [s.din]
    | .preamble | .data => actual s
    | .error => s.reg0
  -- lines 215-218
  reg1Vld := s.st == .data && lastInB c s
  reg1 := if s.st == .data && lastInB c s then actual s else s.reg1

def machine (c : Cfg) : Machine St In Out := ⟨out c, next c⟩

structure IsInit (c : Cfg) (s : St) : Prop where
  dinVld : s.dinVld = false
  reg0 : s.reg0 = List.replicate c.K 0
  reg1 : s.reg1 = List.replicate c.K 0
  reg1Vld : s.reg1Vld = false
  cntr : s.cntr = 0
  st : s.st = .skip0

/-- `RMII_W` is 1, 2 or 4: a byte has several symbols; the first symbol of `0x55` is not 0. -/
structure Ok (c : Cfg) : Prop where
  K : 2 ≤ c.K
  pre : c.pre.length = c.K
  sfd : c.sfd.length = c.K
  start : ∃ a l, c.pre = a :: l ∧ a ≠ 0

end Verif.RmiiRx
