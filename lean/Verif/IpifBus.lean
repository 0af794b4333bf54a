import Verif.Mi32Bus

/-!
# `IpifBuff` (`hwtLib/xilinx/ipif/buff.py`) and `IpifInterconnectMatrix` (`hwtLib/xilinx/ipif/interconnectMatrix.py`)

`Q` is the type of the request (`addr, data, be, rnw`), `D` of read data.
-/

namespace Verif.IpifBus

open Verif

variable {Q D : Type}

/-- `ip2bus_*` -/
structure Resp (D : Type) where
  rdack : Bool
  wrack : Bool
  error : Bool
  data : D
deriving DecidableEq

def Resp.ack (r : Resp D) : Bool := r.rdack || r.wrack

/-! ## `IpifBuff` -/

structure St (Q D : Type) where
  /-- `bus2ip_cs_reg`, line 58 -/
  cs : Bool
  /-- registers of `bus2ip_addr, data, be, rnw`, without a reset value, line 38 -/
  req : Q
  /-- registers of `ip2bus_*`, without a reset value -/
  resp : Resp D

structure In (Q D : Type) where
  /-- `s.bus2ip_*` -/
  cs : Bool
  req : Q
  /-- `m.ip2bus_*` -/
  resp : Resp D

structure Out (Q D : Type) where
  /-- `m.bus2ip_*` -/
  cs : Bool
  req : Q
  /-- `s.ip2bus_*` -/
  resp : Resp D

/-- lines 43-69 -/
def buff : Machine (St Q D) (In Q D) (Out Q D) where
  out s _ := ⟨if s.resp.ack then false else s.cs, s.req, s.resp⟩
  next s x := ⟨if s.resp.ack then false else x.cs, x.req, x.resp⟩

/-! ## `IpifInterconnectMatrix`, a combinational circuit -/

structure Bus (Q : Type) where
  cs : Bool
  addr : Nat
  req : Q


/-- what is sent to the slave `i`, lines 52-64 -/
def toSlave (c : Mi32Bus.Cfg) (m : Bus Q) (i : Nat) : Bus Q where
  cs := m.cs && Mi32Bus.cs c i m.addr
  addr := match c.slaves[i]? with | some (_, size) => m.addr % 2 ^ Mi32Bus.bits size | none => 0
  req := m.req

/-- what is sent to the master, lines 66-78; data of the first selected slave, `none` is an undefined value -/
def toMaster (c : Mi32Bus.Cfg) (m : Bus Q) (r : Nat → Resp D) : Resp (Option D) where
  rdack := (List.range (Mi32Bus.n c)).any fun i => Mi32Bus.cs c i m.addr && (r i).rdack
  wrack := (List.range (Mi32Bus.n c)).any fun i => Mi32Bus.cs c i m.addr && (r i).wrack
  error := (List.range (Mi32Bus.n c)).any fun i => Mi32Bus.cs c i m.addr && (r i).error
  data := ((List.range (Mi32Bus.n c)).find? fun i => Mi32Bus.cs c i m.addr).map fun i => (r i).data

end Verif.IpifBus
