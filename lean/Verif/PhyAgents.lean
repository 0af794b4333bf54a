import Verif.Common
/-!
# Model of the UTMI and RMII simulation agents (hwtLib/peripheral/usb/usb2/utmi_agent.py:15-225,
hwtLib/peripheral/ethernet/rmii_agent.py:30-115)

A clock cycle without reset is one step. The item of a packet is of any type `β` (byte or `USB_ERROR`). `actual_packet` of a driver
is a list, None and the empty deque are both false in all its conditions. A failed assertion or an exception is `none`. The test
appends the packets `new` to the queue of the driver before the clock edge.
-/
namespace Verif.PhyAgents

/-! ## UTMI rx -/

/-- driver, :26-30 -/
structure RxDrv (β : Type) where
  last : Bool
  data : List (List β)
  actual : List β

/-- monitor -/
structure RxMon (β : Type) where
  last : Bool
  data : List (List β)
  actual : Option (List β)

/-- `Utmi_8b_rxAgent.driver`, :88-116: state, active, data (valid if present) -/
def rxDrive {β : Type} (s : RxDrv β) (new : List (List β)) : RxDrv β × Bool × Option β :=
  match s.actual with
  | x :: r => ({ last := true, data := s.data ++ new, actual := r }, true, some x)
  | [] =>
    if s.last then ({ last := false, data := s.data ++ new, actual := [] }, false, none)
    else
      match s.data ++ new with
      | [] => ({ last := false, data := [], actual := [] }, false, none)
      | p :: q => ({ last := true, data := q, actual := p }, true, none)

/-- `Utmi_8b_rxAgent.monitor`, :60-86 -/
def rxMonitor {β : Type} (s : RxMon β) (active : Bool) (d : Option β) : Option (RxMon β) :=
  if active then
    if !s.last && s.actual.isSome then none
    else
      match (if s.last then s.actual else some []) with
      | none => if d.isSome then none else some { s with last := true, actual := none }
      | some a => some { s with last := true, actual := some (a ++ d.toList) }
  else if s.last then
    match s.actual with
    | none => none
    | some [] => none
    | some a => some { last := false, data := s.data ++ [a], actual := none }
  else some { s with last := false }

/-- driver and monitor on one interface -/
def rxStep {β : Type} (s : RxDrv β × RxMon β) (new : List (List β)) : Option (RxDrv β × RxMon β) :=
  let r := rxDrive s.1 new
  (rxMonitor s.2 r.2.1 r.2.2).map fun m => (r.1, m)

def rxRun {β : Type} : RxDrv β × RxMon β → List (List (List β)) → Option (RxDrv β × RxMon β)
  | s, [] => some s
  | s, n :: r => (rxStep s n).bind fun s => rxRun s r

def rxInit {β : Type} : RxDrv β × RxMon β := (⟨false, [], []⟩, ⟨false, [], none⟩)

/-! ## UTMI tx -/

structure TxDrv (β : Type) where
  data : List (List β)
  actual : List β
  lastReady : Bool
  lastValid : Bool

structure TxMon (β : Type) where
  data : List (List β)
  actual : List β
  lastValid : Bool

/-- the item selected by `Utmi_8b_txAgent.driver`, :140-154, `none` is the IndexError of :154 -/
def txPick {β : Type} (s : TxDrv β) (new : List (List β)) : Option (TxDrv β × Option β) :=
  match s.actual with
  | x :: _ => some ({ s with data := s.data ++ new }, some x)
  | [] =>
    if s.lastValid then some ({ s with data := s.data ++ new }, none)
    else
      match s.data ++ new with
      | [] => some ({ s with data := [] }, none)
      | p :: q =>
        if s.lastReady then some ({ s with data := p :: q }, none)
        else
          match p with
          | [] => none
          | x :: _ => some ({ s with data := q, actual := p }, some x)

/-- rest of the driver with `rd`, :156-184 -/
def txEnd {β : Type} (s : TxDrv β) (d : Option β) (rd : Bool) : Option (TxDrv β) :=
  if d.isNone && s.lastValid && !rd then none
  else some { s with actual := if rd then s.actual.tail else s.actual, lastReady := rd, lastValid := d.isSome }

/-- `Utmi_8b_txAgent.monitor`, :187-225: state and `rd`; `actual` has items only in a packet -/
def txMonitor {β : Type} (s : TxMon β) (d : Option β) : TxMon β × Bool :=
  match d with
  | none =>
    (if s.lastValid then { data := s.data ++ [s.actual], actual := [], lastValid := false } else { s with lastValid := false },
      s.lastValid)
  | some x => ({ s with actual := (if s.lastValid then s.actual else []) ++ [x], lastValid := true }, true)

/-- driver and monitor on one interface, the driver reads `rd` after the monitor has written it (WaitCombStable, :166) -/
def txStep {β : Type} (s : TxDrv β × TxMon β) (new : List (List β)) : Option (TxDrv β × TxMon β) :=
  match txPick s.1 new with
  | none => none
  | some (d, x) =>
    let m := txMonitor s.2 x
    (txEnd d x m.2).map fun d => (d, m.1)

def txRun {β : Type} : TxDrv β × TxMon β → List (List (List β)) → Option (TxDrv β × TxMon β)
  | s, [] => some s
  | s, n :: r => (txStep s n).bind fun s => txRun s r

def txInit {β : Type} : TxDrv β × TxMon β := (⟨[], [], false, false⟩, ⟨[], [], false⟩)

/-! ## RMII -/

/-- `_append_frame` of one byte, rmii_agent.py:95-100 -/
def dibits (b : Nat) : List Nat := [b % 4, b / 4 % 4, b / 16 % 4, b / 64 % 4]

/-- the preamble, rmii_agent.py:88-93 -/
def preamble : List Nat := 0 :: List.replicate 7 0x55 ++ [0xD5]

/-- `_append_frame`, rmii_agent.py:85-100 -/
def appendFrame (data : List Nat) (frame : List Nat) (pre : Bool) : List Nat :=
  data ++ (if pre then preamble ++ frame else frame).flatMap dibits

/-- `_pop_frame`, rmii_agent.py:45-52 -/
def popFrame : List Nat → Option (List Nat)
  | [] => some []
  | a :: b :: c :: d :: r => (popFrame r).map ((d * 64 ||| c * 16 ||| b * 4 ||| a) :: ·)
  | _ => none

/-- monitor: frames and the pairs of bits of the actual frame, rmii_agent.py:64-71 and the monitor of `HwIODataVldAgent` (the data is
stored if valid) -/
def rmiiMonitor (s : List (List Nat) × List Nat) (d : Option Nat) : Option (List (List Nat) × List Nat) :=
  match d with
  | some x => some (s.1, s.2 ++ [x])
  | none => if s.2 = [] then some s else (popFrame s.2).map fun f => (s.1 ++ [f], [])

def rmiiRun : List (List Nat) × List Nat → List (Option Nat) → Option (List (List Nat) × List Nat)
  | s, [] => some s
  | s, d :: r => (rmiiMonitor s d).bind fun s => rmiiRun s r

/-- the driver of `HwIODataVldAgent` sends the queue without gaps, one item in each cycle, and is idle after -/
def rmiiDrive (data : List Nat) (idle : Nat) : List (Option Nat) := data.map some ++ List.replicate idle none

end Verif.PhyAgents
