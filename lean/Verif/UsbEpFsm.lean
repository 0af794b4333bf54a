import Verif.Common

/-!
# Endpoint state machine of `Usb2DeviceCore` (`hwtLib/peripheral/usb/usb2/device_core.py`)

Simplifications
* Only pids which are used by the machine have a constructor, all others are `other`.
* Data and keep are not modelled (they are connected directly, device_core.py:485-497), only valid, ready, last, error.
* `ep_is_isochronous` is 0 (device_core.py:129).
* The toggle bit of an endpoint which does not exist is undefined (device_core.py:108, :114, :126-127), it is the input `x`.
* A sequence of packets of the host is an arbitrary sequence of headers and data words from `Usb2SieDeviceRx`.
-/

namespace Verif.UsbEpFsm

/-- `USB_PID` (constants.py) -/
inductive Pid
  | tokIn | tokOut | tokSetup | ping | data0 | data1 | ack | nack | stall | other
deriving DecidableEq

def dataPid (b : Bool) : Pid := if b then .data1 else .data0

/-- `usb_endpoint_fsm_st_t` (device_core.py:162-171) -/
inductive Fs
  | idle | rxData | rxIgnore | rxIgnoreNoResp | txData | txDone | txHs | txChirp
deriving DecidableEq

structure St where
  st : Fs
  txPid : Option Pid
  outBit : Nat → Bool
  inBit : Nat → Bool
  /-- `endp` -/
  endp : Nat
  endpVld : Bool

structure In where
  /-- `rst_any`: `rst_n` or usb_rst without chirp (device_core.py:172) -/
  rst : Bool
  /-- usb_rst, it also resets `endp` (device_core.py:474) -/
  urst : Bool
  chirp : Bool
  /-- `sie_rx.rx_header` -/
  hVld : Bool
  hErr : Bool
  hPid : Pid
  hEndp : Nat
  /-- `sie_rx.rx_data` -/
  dVld : Bool
  dLast : Bool
  dErr : Bool
  /-- `ep.rx.ready`, `ep.rx_stall` -/
  rxReady : Bool
  rxStall : Bool
  /-- `ep.tx.valid`, `ep.tx.last`, `ep.tx_stall` -/
  txVld : Bool
  txLast : Bool
  txStall : Bool
  /-- `sie_tx.tx_cmd.ready` -/
  cmdRdy : Bool
  x : Bool

/-- Endpoints which exist (`ENDPOINT_CONFIG`). -/
structure Cfg where
  hasOut : Nat → Bool
  hasIn : Nat → Bool

/-- device_core.py:468 -/
def epTxStall (x : In) : Bool := x.txVld && x.txStall

/-- device_core.py:118-128 -/
def outB (c : Cfg) (s : St) (x : In) : Bool := if c.hasOut x.hEndp then s.outBit x.hEndp else x.x
def inB (c : Cfg) (s : St) (x : In) : Bool := if c.hasIn x.hEndp then s.inBit x.hEndp else x.x

/-- device_core.py:182-185 -/
def outPidErr (c : Cfg) (s : St) (x : In) : Bool :=
  x.hVld && ((!outB c s x && x.hPid != .data0) || (outB c s x && x.hPid != .data1))

/-- Transfer of the last word from `ep.tx` in TX_DATA (device_core.py:288, :318-320). -/
def txEnd (s : St) (x : In) : Bool := s.st == .txData && x.txVld && x.cmdRdy && x.txLast

/-- device_core.py:194-313 -/
def nextSt (c : Cfg) (s : St) (x : In) : Fs :=
  match s.st with
  | .idle =>
    if x.hVld then
      match x.hPid with
      | .tokIn => if epTxStall x then .txHs else if x.txVld then .txData else .txHs
      | .ping => .txHs
      | .tokOut => if x.rxStall then .rxIgnore else if x.rxReady then .rxData else .rxIgnore
      | .tokSetup => if x.rxReady then .rxData else .rxIgnore
      | _ => .idle
    else if x.chirp then .txChirp else .idle
  | .rxData =>
    if outPidErr c s x then .rxIgnoreNoResp
    else if x.dErr then .idle
    else if x.dVld && x.dLast then .txHs else .rxData
  | .rxIgnoreNoResp => if x.dVld && x.dLast then .idle else .rxIgnoreNoResp
  | .rxIgnore => if x.dVld && x.dLast then (if x.dErr then .idle else .txHs) else .rxIgnore
  | .txData => if txEnd s x then .txDone else .txData
  | .txDone => .idle
  | .txHs => if x.cmdRdy then .idle else .txHs
  | .txChirp => if !x.chirp then .idle else .txChirp

/-- `tx_pid` (device_core.py:196-267) -/
def nextPid (c : Cfg) (s : St) (x : In) : Option Pid :=
  match s.st with
  | .idle =>
    if x.hVld then
      match x.hPid with
      | .tokIn => if epTxStall x then some .stall else if x.txVld then some (dataPid (inB c s x)) else some .nack
      | .ping => if x.rxStall then some .stall else if x.txVld then some .ack else some .nack
      | .tokOut => if x.rxStall then some .stall else if x.rxReady then none else some .nack
      | .tokSetup => if x.rxReady then none else some .nack
      | _ => none
    else none
  | .rxData =>
    if outPidErr c s x then s.txPid else if x.dErr then s.txPid else if x.dVld && x.dLast then some .ack else s.txPid
  | _ => s.txPid

/-- A packet of the host was received completely (device_core.py:260-270). -/
def rxEnd (c : Cfg) (s : St) (x : In) : Bool := s.st == .rxData && !outPidErr c s x && !x.dErr && x.dVld && x.dLast

/-- device_core.py:241-243 -/
def setup (s : St) (x : In) : Bool := s.st == .idle && x.hVld && x.hPid == .tokSetup

def next (c : Cfg) (s : St) (x : In) : St where
  st := if x.rst then .idle else nextSt c s x
  txPid := nextPid c s x
  outBit := fun i =>
    if x.rst then false
    else if x.hEndp == i && setup s x then false
    else if x.hEndp == i && rxEnd c s x then !outB c s x else s.outBit i
  inBit := fun i =>
    if x.rst then false
    else if x.hEndp == i && setup s x then true
    else if x.hEndp == i && txEnd s x then !inB c s x else s.inBit i
  -- device_core.py:470-484
  endp := if x.hVld then x.hEndp else s.endp
  endpVld := if x.rst || x.urst then false else if x.hVld then !x.hErr else s.endpVld

structure Out where
  cmdVld : Bool
  cmdPid : Option Pid
  cmdChirp : Bool
  cmdLast : Bool
  rxVld : Bool
  txRdy : Bool
  endp : Nat
  endpVld : Bool

/-- device_core.py:190-193, :285-308, :315-320, :476-489 -/
def out (s : St) (x : In) : Out where
  cmdVld := match s.st with | .txData => x.txVld | .txHs => true | .txChirp => true | _ => false
  cmdPid := match s.st with
    | .txData => s.txPid
    | .txHs => if epTxStall x then some .stall else s.txPid
    | .txChirp => some .other
    | _ => none
  cmdChirp := s.st == .txChirp
  cmdLast := x.txLast || x.txStall || s.st == .txHs
  rxVld := x.dVld && s.st == .rxData
  txRdy := ((s.st == .txHs && epTxStall x) || s.st == .txData) && x.cmdRdy
  endp := if x.hVld then x.hEndp else s.endp
  endpVld := if x.hVld then !x.hErr else s.endpVld

def init (p0 : Option Pid) (e0 : Nat) : St := ⟨.idle, p0, fun _ => false, fun _ => false, e0, false⟩

end Verif.UsbEpFsm
