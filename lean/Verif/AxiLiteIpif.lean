import Verif.Common

/-!
# `Axi4Lite_to_Ipif` (`hwtLib/xilinx/ipif/axi4Lite_to_ipif.py` lines 14-171)

The values of addresses, data and strobes are of any type. Undefined outputs (`r.data` without `r.valid`) are `none`.
-/

namespace Verif.AxiLiteIpif

open Verif

variable {A D B : Type}

/-- `st_t`, lines 72-76 -/
inductive Fsm | idle | write | writeWaitData | writeAck | read | readAck
deriving DecidableEq

structure St (A D B : Type) where
  st : Fsm
  addr : A
  dataR : D
  dataRVld : Bool
  dataW : D
  strbW : B
  /-- `respReg`, `true` is `RESP_SLVERR` -/
  resp : Bool

structure In (A D B : Type) where
  arValid : Bool
  arAddr : A
  awValid : Bool
  awAddr : A
  wValid : Bool
  wData : D
  wStrb : B
  rReady : Bool
  bReady : Bool
  /-- `ip2bus_rdack`, `ip2bus_wrack`, `ip2bus_error`, `ip2bus_data` -/
  rdack : Bool
  wrack : Bool
  error : Bool
  data : D

structure Out (A D B : Type) where
  arReady : Bool
  awReady : Bool
  wReady : Bool
  rValid : Bool
  rData : Option D
  bValid : Bool
  /-- `r.resp`, `b.resp` -/
  resp : Bool
  cs : Bool
  rnw : Bool
  addr : A
  wdata : D
  be : B

/-- `mainFsm`, lines 78-101 -/
def nextFsm (s : St A D B) (x : In A D B) : Fsm :=
  match s.st with
  | .idle => if x.arValid then .read else if x.awValid then .writeWaitData else .idle
  | .writeWaitData => if x.wValid then .write else .writeWaitData
  | .write => if x.wrack && x.bReady then .idle else if x.wrack then .writeAck else .write
  | .writeAck => if x.bReady then .idle else .writeAck
  | .read => if (x.rdack || s.dataRVld) && x.rReady then .idle else if x.rdack then .readAck else .read
  | .readAck => if x.rReady then .idle else .readAck

def idle (s : St A D B) : Bool := decide (s.st = .idle)

def out (s : St A D B) (x : In A D B) : Out A D B where
  arReady := idle s
  awReady := idle s && !x.arValid
  wReady := decide (s.st = .writeWaitData)
  rValid :=
    match s.st with
    | .read => if s.dataRVld then true else x.rdack
    | .readAck => true
    | _ => false
  rData :=
    match s.st with
    | .read => some (if s.dataRVld then s.dataR else x.data)
    | .readAck => some s.dataR
    | _ => none
  bValid :=
    match s.st with
    | .write => x.wrack
    | .writeAck => true
    | _ => false
  resp := if x.wrack || x.rdack then x.error else s.resp
  cs := decide (s.st = .write) || decide (s.st = .read)
  rnw := decide (s.st = .read)
  addr := s.addr
  wdata := s.dataW
  be := if idle s then x.wStrb else s.strbW

def next (s : St A D B) (x : In A D B) : St A D B where
  st := nextFsm s x
  addr := if idle s then (if x.arValid then x.arAddr else if x.awValid then x.awAddr else s.addr) else s.addr
  dataW := if ((idle s && x.awValid && !x.arValid) || decide (s.st = .writeWaitData)) && x.wValid then x.wData else s.dataW
  strbW := if ((idle s && x.awValid && !x.arValid) || decide (s.st = .writeWaitData)) && x.wValid then x.wStrb else s.strbW
  dataR := if x.rdack && ((idle s && x.arValid) || decide (s.st = .read)) then x.data else s.dataR
  dataRVld := if idle s then x.rdack else s.dataRVld
  resp := if x.wrack || x.rdack then x.error else s.resp

def machine : Machine (St A D B) (In A D B) (Out A D B) := ⟨out, next⟩

structure IsInit (s : St A D B) : Prop where
  st : s.st = .idle
  vld : s.dataRVld = false

end Verif.AxiLiteIpif
