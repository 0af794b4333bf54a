import Verif.Common
/-!
# Simulation agents of ULPI, peripheral/usb/usb2/ulpi_agent.py

`UlpiAgent.driver` (PHY and host) and `UlpiAgent.monitor` (link and device) connected with wires, as `UlpiWire` in ulpi_agent_test.py
does, one step of the model is one clock cycle; and `build_RX_CMD`, `parse_RX_CMD`.

Simplifications: both agents are started by the same edge of the clock; within it the first write phase gives `dir`, in the second one
both of them write and then both of them read (the driver has write, read, write, read; the monitor has one empty write phase
before it reads `dir`). Reset is a clock cycle in which an agent is not enabled. A value which is not known (`None`) is `none`.
An exception is `none` of the whole state. `RX_CMD` sent by the driver is the one of the default content of its registers. Queues are
extended between clock cycles.
-/
namespace Verif.UlpiAg

/-! ## RX_CMD -/

/-- `~x` of an int -/
def pyNot (x : Int) : Int := -x - 1
/-- truth value of an int -/
def truthy (x : Int) : Bool := x != 0

structure Regs where
  sessEnd : Bool
  sessValid : Bool
  vbusValid : Bool
  /-- `RxEvent_RxActive`, `RxEvent_RxError`, `HostDisconnected`: ints 0, 1 -/
  rxActive : Bool
  rxError : Bool
  hostDisc : Bool
deriving DecidableEq, Repr

def bint (b : Bool) : Int := if b then 1 else 0

/-- `VbusSate` of `build_RX_CMD`, ulpi_agent.py:51-58 (values of the type BIT: `~` is the negation) -/
def vbusCode (r : Regs) : Nat :=
  if r.sessEnd && !r.sessValid && !r.vbusValid then 0
  else if !r.sessEnd && !r.sessValid && !r.vbusValid then 1
  else if r.sessValid && !r.vbusValid then 2
  else 3

/-- `RxEvent` of `build_RX_CMD`, ulpi_agent.py:59-69; `none` is `UnboundLocalError` -/
def rxEvent (r : Regs) : Option Nat :=
  let a := bint r.rxActive
  let e := bint r.rxError
  let h := bint r.hostDisc
  if truthy (pyNot a) && truthy (pyNot e) && truthy (pyNot h) then some 0
  else if truthy a && truthy (pyNot e) && truthy (pyNot h) then some 1
  else if truthy a && truthy e && truthy (pyNot h) then some 3
  else if truthy h then some 2
  else none

/-- `build_RX_CMD`, ulpi_agent.py:48-72, line state J -/
def buildRx (r : Regs) : Option Nat := (rxEvent r).map fun e => e * 16 + vbusCode r * 4 + 1

/-- `parse_RX_CMD`, ulpi_agent.py:74-116; `none` is an exception (`NotImplementedError`, or `rxactive` not assigned) -/
def parseRx (r : Regs) (d : Nat) : Option Regs :=
  if d % 4 ≠ 1 then none else
  let r := match d / 4 % 4 with
    | 0 => { r with sessEnd := true, sessValid := false, vbusValid := false }
    | 1 => { r with sessEnd := false, sessValid := false, vbusValid := false }
    | 2 => { r with sessValid := true, vbusValid := false }
    | _ => { r with vbusValid := true }
  match d / 16 % 4 with
  | 0 => if d / 64 = 0 then some { r with rxActive := false, rxError := false } else none
  | 1 => if d / 64 = 0 then some { r with rxActive := true, rxError := false } else none
  | 2 => none
  | _ => if d / 64 = 0 then some { r with rxActive := true, rxError := true } else none

/-- Reset values, ulpi.py:183-189, ulpi_agent.py:36-39 -/
def regs0 : Regs := ⟨false, false, false, false, false, false⟩

/-! ## Agents -/

/-- State of an agent. -/
structure Ag where
  /-- `dir == Ulpi.DIR.PHY` -/
  phy : Bool
  turn : Bool
  /-- packets to send -/
  q : List (List Nat)
  /-- the packet which is being sent -/
  cur : Option (List Nat)
  /-- the packet which is being received -/
  rx : Option (List Nat)
  /-- received packets -/
  got : List (List Nat)
deriving DecidableEq, Repr

structure Wires where
  nxt : Option Bool
  /-- `data.i`, from PHY -/
  di : Option Nat
  /-- `data.t`, `stp`, `data.o` from the link -/
  t : Option Nat
  stp : Option Bool
  dO : Option Nat
deriving DecidableEq, Repr

structure St where
  p : Ag
  l : Ag
  w : Wires
deriving DecidableEq, Repr

structure In where
  /-- `_enabled` and not reset -/
  enP : Bool
  enL : Bool
  /-- packets added to the queue of PHY and of the link -/
  toLink : List (List Nat)
  toPhy : List (List Nat)

/-- The packet to send, ulpi_agent.py:166-170 -/
def sel (p : Ag) : Option (List Nat) × List (List Nat) :=
  if p.cur.getD [] = [] then
    match p.q with
    | x :: q => (some x, q)
    | [] => (p.cur, p.q)
  else (p.cur, p.q)

/-- Writes of the driver, ulpi_agent.py:138-155, :164-182, :199-200 -/
def phyWrite (p : Ag) (w : Wires) : Option (Ag × Wires) :=
  if p.turn then
    some ({ p with turn := false }, { w with di := none, nxt := if p.phy then some (!p.q.isEmpty) else w.nxt })
  else if p.phy then
    match sel p with
    | (none, q) => (buildRx regs0).map fun d => ({ p with cur := none, q := q }, { w with di := some d, nxt := some false })
    | (some [], _) => none
    | (some (d :: r), q) => some ({ p with cur := some r, q := q }, { w with di := some d, nxt := some true })
  else some (p, { w with nxt := some true })

/-- Reads of the driver, ulpi_agent.py:157-160, :184-195, :202-245; `turn` is the clock cycle of turnaround -/
def phyRead (turn : Bool) (p : Ag) (w : Wires) : Option Ag :=
  if turn then (if w.t = some 0 then some p else none)
  else if p.phy then
    if w.t = some 0 ∧ w.stp = some false then
      if p.cur.getD [] = [] then some { p with phy := false, turn := true, cur := none } else some p
    else none
  else
    match w.t, w.stp, w.dO with
    | some t, some stp, some d =>
      if t ≠ 255 then none
      else if stp = true ∨ (p.rx = none ∧ d = 0) then
        if d ≠ 0 then none else
        match p.rx with
        | some [] => none
        | some r => some { p with got := p.got ++ [r], rx := none, phy := true, turn := true }
        | none => some { p with phy := true, turn := true }
      else
        match p.rx with
        | none => if d / 16 = 4 then some { p with rx := some [d] } else none
        | some r => some { p with rx := some (r ++ [d]) }
    | _, _, _ => none

/-- Writes of the monitor, ulpi_agent.py:270-308; the second result is the clock cycle of turnaround -/
def linkWrite (dir : Bool) (l : Ag) (w : Wires) : Option (Ag × Bool × Wires) :=
  if l.turn || dir != l.phy then
    let w := { w with dO := none, t := some 0 }
    let l := { l with phy := dir, turn := false }
    if dir then some (l, true, w)
    else match l.rx with
      | some [] => none
      | some r => some ({ l with got := l.got ++ [r], rx := none }, true, w)
      | none => some (l, true, w)
  else if dir then some (l, false, { w with stp := some false, t := some 0, dO := none })
  else some (l, false, { w with stp := some (l.cur = some []), t := some 255, dO := some ((l.cur.getD []).headD 0) })

/-- Reads of the monitor, ulpi_agent.py:310-338 -/
def linkRead (l : Ag) (w : Wires) : Option Ag :=
  match w.nxt with
  | none => none
  | some nxt =>
    if l.phy = false then
      if nxt then
        match l.cur with
        | some (_ :: r) => some { l with cur := some r }
        | _ => match l.q with
          | x :: q => some { l with cur := some x, q := q }
          | [] => some { l with cur := none }
      else some l
    else
      match w.di with
      | none => none
      | some d =>
        if nxt then some { l with rx := some (l.rx.getD [] ++ [d]) }
        else if (parseRx regs0 d).isSome then some l else none

/-- A clock cycle. -/
def step (s : St) (x : In) : Option St := do
  let p0 := { s.p with q := s.p.q ++ x.toLink }
  let l0 := { s.l with q := s.l.q ++ x.toPhy }
  let (p1, w1) ← if x.enP then phyWrite p0 s.w else some (p0, s.w)
  let (l1, tl, w2) ← if x.enL then linkWrite p0.phy l0 w1 else some (l0, true, w1)
  let p2 ← if x.enP then phyRead p0.turn p1 w2 else some p1
  let l2 ← if tl then some l1 else linkRead l1 w2
  return ⟨p2, l2, w2⟩

def run : St → List In → Option St
  | s, [] => some s
  | s, x :: xs => (step s x).bind fun s => run s xs

/-- `UlpiAgent.__init__`, ulpi_agent.py:27-39 -/
def ag0 : Ag := ⟨true, false, [], none, none, []⟩
def init : St := ⟨ag0, ag0, ⟨none, none, none, none, none⟩⟩

end Verif.UlpiAg
