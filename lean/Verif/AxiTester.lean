import Verif.Common
/-!
# `AxiTester` (`hwtLib/amba/axi_comp/tester.py`)

Transactions on the channels of an AXI bus are executed by commands written to a control bus.

Simplifications: the endpoint `axi_ep` of the control bus is cut off, a write of a register is the `dout` of its port (data if
`vld`), a read of a register is its `din`. All registers of the address channels are one value, all registers of the write
channel too (`connected_reg` without input, tester.py:189-208, 227-234). The register `hs` is not modelled. Values are `Nat`.
-/
namespace Verif.AxiTester

/-- `state_t` (:154-156) -/
inductive St where
  | ready | waitAr | waitAw | waitW | waitB | waitR
deriving DecidableEq, Repr

/-- Codes of the commands (:21) -/
def SEND_AW : Nat := 1
def SEND_W : Nat := 2
def RECV_B : Nat := 3
def SEND_AR : Nat := 4
def RECV_R : Nat := 5

/-- Data of the read channel -/
structure R where
  id : Nat
  data : Nat
  resp : Nat
  last : Bool
deriving DecidableEq, Repr

/-- Data of the write response channel -/
structure B where
  id : Nat
  resp : Nat
deriving DecidableEq, Repr

structure State where
  st : St
  cmd : Nat
  cmdVld : Bool
  addr : Nat
  w : Nat
  r : R
  b : B
deriving DecidableEq, Repr

/-- Writes of the registers by the control bus and the inputs of the AXI bus. -/
structure In where
  cmd : Option Nat := none
  addr : Option Nat := none
  w : Option Nat := none
  rid : Option Nat := none
  rdata : Option Nat := none
  rresp : Option Nat := none
  rlast : Option Bool := none
  bid : Option Nat := none
  bresp : Option Nat := none
  awReady : Bool := false
  arReady : Bool := false
  wReady : Bool := false
  rCh : Option R := none
  bCh : Option B := none
deriving DecidableEq, Repr

/-- Outputs of the AXI bus and the values which are read from the control bus. -/
structure Out where
  aw : Option Nat
  ar : Option Nat
  w : Option Nat
  rReady : Bool
  bReady : Bool
  status : Bool
  r : R
  b : B
deriving DecidableEq, Repr

/-- `If(dout.vld, reg(dout.data)).Elif(inputEn, reg(input_))` (:122-136) -/
def conn {α : Type} (wr : Option α) (inp : Option α) (old : α) : α :=
  match wr with
  | some x => x
  | none => inp.getD old

/-- :178-182 -/
def partDone (s : State) (i : In) : Bool :=
  (s.st == .waitAw && i.awReady) || (s.st == .waitAr && i.arReady) || (s.st == .waitW && i.wReady) ||
  (s.st == .waitR && i.rCh.isSome) || (s.st == .waitB && i.bCh.isSome)

/-- `cmd_en` (:151-152) -/
def cmdEn (s : State) (c : Nat) : Bool := s.cmdVld && s.cmd == c

/-- the FSM (:159-176) -/
def nextSt (s : State) (i : In) : St :=
  match s.st with
  | .ready =>
    if cmdEn s SEND_AW then .waitAw
    else if cmdEn s SEND_AR then .waitAr
    else if cmdEn s SEND_W then .waitW
    else if cmdEn s RECV_R then .waitR
    else if cmdEn s RECV_B then .waitB
    else .ready
  | .waitAw => if i.awReady then .ready else .waitAw
  | .waitAr => if i.arReady then .ready else .waitAr
  | .waitW => if i.wReady then .ready else .waitW
  | .waitR => if i.rCh.isSome then .ready else .waitR
  | .waitB => if i.bCh.isSome then .ready else .waitB

/-- `r_en` (:218-219) -/
def rEn (s : State) (i : In) : Option R := if s.st == .waitR then i.rCh else none
/-- `b.valid & b_rd` (:239-240) -/
def bEn (s : State) (i : In) : Option B := if s.st == .waitB then i.bCh else none

/-- The component, `cw` is the width of the register `r_data` (:59, 88, 221). -/
def tester (cw : Nat) : Machine State In Out where
  out s i :=
    { aw := if s.st == .waitAw then some s.addr else none
      ar := if s.st == .waitAr then some s.addr else none
      w := if s.st == .waitW then some s.w else none
      rReady := s.st == .waitR
      bReady := s.st == .waitB
      status := s.st == .ready && !i.cmd.isSome
      r := s.r
      b := s.b }
  next s i :=
    { st := nextSt s i
      cmd := i.cmd.getD s.cmd
      cmdVld := if partDone s i then false else if i.cmd.isSome then true else s.cmdVld
      addr := conn i.addr none s.addr
      w := conn i.w none s.w
      r := { id := conn i.rid ((rEn s i).map (·.id)) s.r.id
             data := conn i.rdata ((rEn s i).map fun r => r.data % 2 ^ cw) s.r.data
             resp := conn i.rresp ((rEn s i).map (·.resp)) s.r.resp
             last := conn i.rlast ((rEn s i).map (·.last)) s.r.last }
      b := { id := conn i.bid ((bEn s i).map (·.id)) s.b.id
             resp := conn i.bresp none s.b.resp } }

/-- Registers `reg_cmd`, `reg_cmd_vld` and the state are reset, the others have any value. -/
def reset (addr w : Nat) (r : R) (b : B) : State := ⟨.ready, 0, false, addr, w, r, b⟩

end Verif.AxiTester
