import Verif.Common
/-!
# Simulation agent of Ipif in the role of a memory (hwtLib/xilinx/ipif/hIOIpif.py:104-272)

A step is one call of `monitor` for a clock edge without reset, after the first one. Values of the bus are defined. Outputs keep their
value if they are not written. `none` as read data is an undefined value.
-/
namespace Verif.IpifMon

inductive Phase | idle | read | write
  deriving DecidableEq, Repr

inductive Err | unaligned | key | masked | unstable
  deriving DecidableEq, Repr

structure Cfg where
  rLat : Nat
  wLat : Nat
  /-- bytes of a word -/
  wb : Nat

structure In where
  cs : Bool
  rnw : Bool
  addr : Nat
  be : Nat
  data : Nat
  deriving DecidableEq, Repr

structure St where
  st : Phase := .idle
  rnw : Bool := false
  addr : Nat := 0
  be : Nat := 0
  wdata : Nat := 0
  cnt : Nat := 0
  mem : Nat → Option Nat := fun _ => none
  rdack : Bool := false
  wrack : Bool := false
  rdata : Option Nat := none

/-- hIOIpif.py:188-212 -/
def accept (s : St) (i : In) : St :=
  if s.st = .idle then
    if i.cs then
      if i.rnw then { s with st := .read, rnw := true, addr := i.addr }
      else { s with st := .write, rnw := false, addr := i.addr, be := i.be, wdata := i.data }
    else { s with rdack := false, wrack := false, rdata := none }
  else s

/-- hIOIpif.py:135-139 -/
def onRead (c : Cfg) (mem : Nat → Option Nat) (addr : Nat) : Except Err Nat :=
  if addr % c.wb ≠ 0 then .error .unaligned
  else match mem (addr / c.wb) with
    | some d => .ok d
    | none => .error .key

/-- hIOIpif.py:141-148, 132 -/
def onWrite (c : Cfg) (mem : Nat → Option Nat) (addr val be : Nat) : Except Err (Nat → Option Nat) :=
  if addr % c.wb ≠ 0 then .error .unaligned
  else if be = 2 ^ c.wb - 1 then .ok (fun k => if k = addr / c.wb then some val else mem k)
  else .error .masked

/-- hIOIpif.py:219-246 -/
def serve (c : Cfg) (s : St) : Except Err St := match s.st with
  | .idle => .ok s
  | .read =>
    if s.cnt = c.rLat then match onRead c s.mem s.addr with
      | .error e => .error e
      | .ok d => .ok { s with wrack := false, cnt := 0, rdata := some d, rdack := true, st := .idle }
    else .ok { s with wrack := false, rdata := none, cnt := s.cnt + 1 }
  | .write =>
    if s.cnt = c.wLat then match onWrite c s.mem s.addr s.wdata s.be with
      | .error e => .error e
      | .ok m => .ok { s with rdack := false, rdata := none, mem := m, wrack := true, cnt := 0, st := .idle }
    else .ok { s with rdack := false, rdata := none, cnt := s.cnt + 1 }

/-- hIOIpif.py:248-270: `was` is the phase before the step, the phase of `s` is that after it -/
def check (was : Phase) (s : St) (i : In) : Except Err St :=
  if was = .idle then .ok s
  else if !i.cs then .error .unstable
  else if i.rnw ≠ s.rnw then .error .unstable
  else if i.addr ≠ s.addr then .error .unstable
  else if s.st = .write ∧ (i.be ≠ s.be ∨ i.data ≠ s.wdata) then .error .unstable
  else .ok s

/-- hIOIpif.py:173-272 -/
def step (c : Cfg) (s : St) (i : In) : Except Err St := match serve c (accept s i) with
  | .error e => .error e
  | .ok s' => check s.st s' i

def runs (c : Cfg) : St → List In → Except Err St
  | s, [] => .ok s
  | s, i :: r => match step c s i with
    | .error e => .error e
    | .ok s' => runs c s' r

end Verif.IpifMon
