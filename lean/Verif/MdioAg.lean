import Verif.Common

/-!
# Simulation agent of MDIO, peripheral/mdio/intf.py:84-226

One step of the machine is one period of the clock `c`: the rising edge, where the agent samples the line (input of the machine), then
the falling edge, where the agent may write the line (output of the machine, `none` if it does not write). The value read by
the agent while it is transmitting is not restricted. A failed `assert`, the `ValueError` of unknown opcode and the `KeyError` of
a read of a missing register set `err`, nothing happens after it.
-/
namespace Verif.MdioAg

structure St where
  rx : List Bool
  tx : List Bool
  pre : Bool
  start : Bool
  ta : Bool
  rxw : Bool
  op : Nat
  pa : Nat
  ra : Nat
  mem : Nat → Nat → Option Nat
  last : Bool
  err : Bool

/-- intf.py:96-103 -/
def St.init (mem : Nat → Nat → Option Nat) : St :=
  ⟨[], [], false, false, false, false, 0, 0, 0, mem, false, false⟩

/-- `reset_state`, :105-111 -/
def resetState (s : St) : St := { s with pre := false, start := false, ta := false, rxw := false, op := 0, pa := 0, ra := 0 }

/-- `pop_int`, :84-90 : value of popped bits, rest -/
def popInt : Nat → List Bool → Nat → Nat × List Bool
  | 0, l, acc => (acc, l)
  | n + 1, l, acc => popInt n l.tail (2 * acc + (l.headD false).toNat)

/-- `on_read`, :113-123 -/
def readBits (d : Nat) : List Bool :=
  [true, false] ++ (List.range 16).map (fun i => d.testBit (16 - i - 1))

/-- `on_write`, :125-126 -/
def memSet (mem : Nat → Nat → Option Nat) (p r d : Nat) : Nat → Nat → Option Nat :=
  fun p' r' => if p' = p ∧ r' = r then some d else mem p' r'

/-- `rx_bits`, :156-226 -/
def rise (s : St) (b : Bool) : St :=
  if !s.pre then
    let rx := s.rx ++ [b]
    if rx.length = 32 then { s with pre := true, rx := [] } else { s with rx := rx }
  else if !s.start then
    if s.rx.isEmpty then
      if !b then { s with rx := [b] } else s
    else if b then { s with rx := [], start := true } else { s with err := true }
  else if s.ta then
    let rx := s.rx ++ [b]
    if rx.length = 2 then
      if s.op ≠ 2 then
        if rx = [true, false] then { s with rx := [], ta := false } else { s with err := true }
      else { s with rx := [], ta := false, rxw := true }
    else { s with rx := rx }
  else if s.rxw then
    let rx := s.rx ++ [b]
    if rx.length ≥ 16 then
      let d := popInt 16 rx 0
      resetState { s with rx := d.2, mem := memSet s.mem s.pa s.ra d.1 }
    else { s with rx := rx }
  else if !s.tx.isEmpty then s
  else
    let rx := s.rx ++ [b]
    if rx.length ≥ 12 then
      -- `unpack_addr`, :148-154
      let o := popInt 2 rx 0
      let p := popInt 5 o.2 0
      let r := popInt 5 p.2 0
      let s := { s with op := o.1, pa := p.1, ra := r.1, rx := [] }
      if o.1 = 2 then
        match s.mem p.1 r.1 with
        | some d => { s with tx := s.tx ++ readBits d }
        | none => { s with err := true }
      else if o.1 = 1 then { s with rxw := true, ta := true }
      else { s with err := true }
    else { s with rx := rx }

/-- `tx_bits` on a falling edge, :128-146; the state is reset by the process of the last bit on the next edge of the clock -/
def fall (s : St) : St × Option Bool :=
  match s.tx with
  | [] => (s, none)
  | [b] => ({ s with tx := [], last := true }, some b)
  | b :: c :: t => ({ s with tx := c :: t }, some b)

def period (s : St) (b : Bool) : St × Option Bool :=
  if s.err then (s, none)
  else
    -- the process of the last bit continues before `rx_bits`, which waits for `WaitCombStable`, :141-142, :160
    let s := if s.last then { resetState s with last := false } else s
    let s := rise s b
    if s.err then (s, none) else fall s

def agent : Machine St Bool (Option Bool) where
  out s b := (period s b).2
  next s b := (period s b).1

end Verif.MdioAg
