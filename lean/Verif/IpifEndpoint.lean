import Verif.AxiLiteIpif

/-!
# `IpifEndpoint` (`hwtLib/xilinx/ipif/endpoint.py` lines 29-79) with directly mapped words and one array mapped to BRAM port

The address space of the endpoint is `[lo, hi)`; the array is in `[mlo, mhi)`, one item has `step` addresses. `isReg` are the addresses
of directly mapped words (`connect_directly_mapped_read`, `connect_directly_mapped_write` in `abstract/busEndpoint.py` lines 349-425). The
memory behind the BRAM port is a part of the model: it has a registered output, the output of a cycle with write is not specified
(input `junk`). `readDelay` of `st_t` is not reachable and it is not modelled.
-/

namespace Verif.IpifEndpoint

open Verif

variable {D : Type}

structure Cfg where
  lo : Nat
  hi : Nat
  mlo : Nat
  mhi : Nat
  step : Nat
  isReg : Nat → Bool

inductive Fsm | idle | writeAck | rdData
deriving DecidableEq

structure St (D : Type) where
  st : Fsm
  mem : Nat → D
  dout : D

structure In (D : Type) where
  cs : Bool
  rnw : Bool
  addr : Nat
  wdata : D
  /-- `din` of directly mapped words -/
  regs : Nat → D
  junk : D

structure Out (D : Type) where
  rdack : Bool
  wrack : Bool
  data : Option D
  /-- address for which `dout.vld` is set, with data -/
  regWrite : Option (Nat × D)

def inMy (c : Cfg) (a : Nat) : Bool := decide (c.lo ≤ a) && decide (a < c.hi)
def isMem (c : Cfg) (a : Nat) : Bool := decide (c.mlo ≤ a) && decide (a < c.mhi)
/-- `propagateAddr` -/
def cell (c : Cfg) (a : Nat) : Nat := (a - c.mlo) / c.step

def wAck (s : St D) : Bool := decide (s.st = .writeAck)

def out (c : Cfg) (s : St D) (x : In D) : Out D where
  rdack := decide (s.st = .rdData)
  wrack := wAck s
  data := if c.isReg x.addr then some (x.regs x.addr) else if isMem c x.addr then some s.dout else none
  regWrite := if !x.rnw && wAck s && c.isReg x.addr then some (x.addr, x.wdata) else none

def next (c : Cfg) (s : St D) (x : In D) : St D where
  st :=
    match s.st with
    | .idle => if x.cs && inMy c x.addr && x.rnw then .rdData else if x.cs && inMy c x.addr && !x.rnw then .writeAck else .idle
    | .writeAck => .idle
    | .rdData => .idle
  mem := if isMem c x.addr && x.cs && wAck s then upd s.mem (cell c x.addr) x.wdata else s.mem
  dout :=
    if isMem c x.addr && x.cs then
      if wAck s then x.junk else s.mem (cell c x.addr)
    else s.dout

def machine (c : Cfg) : Machine (St D) (In D) (Out D) := ⟨out c, next c⟩

/-! ## The endpoint behind `Axi4Lite_to_Ipif` -/

structure SysIn (D B : Type) where
  arValid : Bool
  arAddr : Nat
  awValid : Bool
  awAddr : Nat
  wValid : Bool
  wData : D
  wStrb : B
  rReady : Bool
  bReady : Bool
  regs : Nat → D
  junk : D
  /-- value of undefined signals -/
  undef : D

abbrev SysSt (D B : Type) := AxiLiteIpif.St Nat D B × St D

variable {B : Type}

/-- outputs of the bridge towards IPIF depend only on its state -/
def epIn (b : AxiLiteIpif.St Nat D B) (x : SysIn D B) : In D :=
  { cs := decide (b.st = .write) || decide (b.st = .read), rnw := decide (b.st = .read), addr := b.addr, wdata := b.dataW,
    regs := x.regs, junk := x.junk }

def brIn (c : Cfg) (s : SysSt D B) (x : SysIn D B) : AxiLiteIpif.In Nat D B :=
  let o := out c s.2 (epIn s.1 x)
  { arValid := x.arValid, arAddr := x.arAddr, awValid := x.awValid, awAddr := x.awAddr, wValid := x.wValid, wData := x.wData,
    wStrb := x.wStrb, rReady := x.rReady, bReady := x.bReady, rdack := o.rdack, wrack := o.wrack, error := false,
    data := o.data.getD x.undef }

def sysOut (c : Cfg) (s : SysSt D B) (x : SysIn D B) : AxiLiteIpif.Out Nat D B := AxiLiteIpif.out s.1 (brIn c s x)

def sys (c : Cfg) : Machine (SysSt D B) (SysIn D B) (AxiLiteIpif.Out Nat D B) where
  out := sysOut c
  next := fun s x => (AxiLiteIpif.next s.1 (brIn c s x), next c s.2 (epIn s.1 x))

structure SysInit (s : SysSt D B) : Prop where
  br : AxiLiteIpif.IsInit s.1
  ep : s.2.st = .idle

end Verif.IpifEndpoint
