import Verif.Common

/-!
# Control endpoint of `Usb2DeviceCommon` (`hwtLib/peripheral/usb/usb2/device_common.py`)

Simplifications
* `descr_addr`, `ep0_trans_len` are undefined for unsupported descriptors (device_common.py:93-100), the values are
  the inputs `xAddr`, `xLen`. The power-up value of `usb_addr_next`, `descr_addr` and of the setup register are
  arbitrary.
* The request `GET_LINE_CODING` of `Usb2CdcVcp` (device_cdc_vcp.py:65-76) is modelled by `Cfg.lineCoding`.
* Bytes are `Nat`, the request register is a function of the byte index.
-/

namespace Verif.UsbEp0

/-- `setup_stage_t` (device_common.py:226-228) -/
inductive Stage
  | idle | setup | dataGet | dataSet | statusOut | statusIn
deriving DecidableEq

structure Cfg where
  /-- `EP0_MAX_TX_PACKET_SIZE` -/
  maxp : Nat
  rom : Nat → Nat
  /-- address and length of device descriptor -/
  device : Nat × Nat
  /-- address and `wTotalLength` of configuration descriptor -/
  config : Nat × Nat
  strings : List (Nat × Nat)
  /-- address and size of line coding for `Usb2CdcVcp`, none for other devices -/
  lineCoding : Option (Nat × Nat)

structure St where
  addr : Nat
  addrNext : Nat
  stall : Bool
  configured : Bool
  /-- bytes of `setup` -/
  req : Nat → Nat
  /-- `setup_rx_byte_i` -/
  idx : Nat
  /-- `descr_addr` -/
  daddr : Nat
  /-- `ep0_trans_len` -/
  len : Nat
  stage : Stage
  /-- `packet_split_cntr` -/
  cntr : Nat

structure In where
  rst : Bool
  rxVld : Bool
  rxLast : Bool
  rxData : Nat
  txRdy : Bool
  xAddr : Nat
  xLen : Nat

/-- usb_device_request_t (device_request.py:57-69), little endian -/
def wValue (r : Nat → Nat) : Nat := r 2 + 256 * r 3
def wIndex (r : Nat → Nat) : Nat := r 4 + 256 * r 5
def wLength (r : Nat → Nat) : Nat := r 6 + 256 * r 7
def rType (r : Nat → Nat) : Nat := r 0 / 32 % 4
def isGet (r : Nat → Nat) : Bool := r 0 / 128 % 2 == 1

/-- Registers which are written by `decode_setup_request`. -/
structure Dec where
  addrNext : Nat
  stall : Bool
  configured : Bool
  daddr : Nat
  len : Nat

/-- device_common.py:61-100 -/
def getDescr (c : Cfg) (r : Nat → Nat) (x : In) (d : Dec) : Dec :=
  if r 3 = 1 then { d with daddr := c.device.1, len := min (wLength r) c.device.2 }
  else if r 3 = 2 then { d with daddr := c.config.1, len := min (wLength r) c.config.2 }
  else if r 3 = 3 then
    match c.strings[r 2]? with
    | some (a, n) => { d with daddr := a, len := n }
    | none => { d with stall := true, daddr := x.xAddr, len := x.xLen }
  else { d with stall := true, daddr := x.xAddr, len := x.xLen }

/-- device_common.py:131-184, device_cdc_vcp.py:65-76 -/
def decode (c : Cfg) (r : Nat → Nat) (x : In) (d : Dec) : Dec :=
  if rType r = 0 then
    let d := { d with stall := false }
    if r 1 = 0 then d
    else if r 1 = 1 then d
    else if r 1 = 3 then d
    else if r 1 = 5 then { d with addrNext := wValue r % 128 }
    else if r 1 = 6 then getDescr c r x d
    else if r 1 = 8 then d
    else if r 1 = 9 then
      if wValue r = 0 then { d with configured := false }
      else if wValue r = 1 then { d with configured := true }
      else { d with stall := true }
    else if r 1 = 0x0A then { d with stall := true }
    else if r 1 = 0x11 then { d with stall := wValue r != 0 || wIndex r != 0 }
    else { d with stall := true }
  else if rType r = 2 then { d with stall := true }
  else if rType r = 1 then
    match c.lineCoding with
    | none => { d with stall := true }
    | some (a, n) => if r 1 = 0x21 then { d with daddr := a, len := n } else d
  else { d with stall := true }

/-- counter of words has `log2ceil(EP0_MAX_TX_PACKET_SIZE - 1)` bits (device_common.py:231) -/
def cntMod (c : Cfg) : Nat := 2 ^ log2ceil (c.maxp - 1)

/-- device_common.py:239-303 -/
def nextCore (c : Cfg) (s : St) (x : In) : St :=
  match s.stage with
  | .idle => if x.rxVld && x.rxLast then { s with stage := .setup } else s
  | .setup =>
    let d := decode c s.req x ⟨s.addr, s.stall, s.configured, s.daddr, s.len⟩
    { s with
      stage := if isGet s.req then (if wLength s.req = 0 then .statusOut else .dataGet)
        else (if wLength s.req = 0 then .statusIn else .dataSet)
      addrNext := d.addrNext
      stall := d.stall
      configured := d.configured
      daddr := d.daddr
      len := d.len
      cntr := 0 }
  | .dataGet =>
    if x.txRdy then
      if s.stall then { s with stage := .idle, stall := false }
      else if s.len < 2 ∧ (s.cntr ≠ c.maxp - 1 ∧ s.len = 1) then { s with stage := .statusOut }
      else { s with daddr := (s.daddr + 1) % 256, cntr := (s.cntr + 1) % cntMod c, len := (s.len + 65535) % 65536 }
    else s
  | .dataSet =>
    if x.rxVld then
      let t := { s with len := (s.len + 65535) % 65536 }
      if s.stall then { t with stage := .idle, stall := false }
      else if s.len = 1 ∨ s.len = 0 then { t with stage := .statusIn }
      else t
    else s
  | .statusOut => if x.rxVld && x.rxLast then { s with stage := .idle } else s
  | .statusIn => if x.txRdy then { s with stage := .idle, addr := s.addrNext } else s

/-- device_common.py:102-129: the register with request is written by any incoming data -/
def next (c : Cfg) (s : St) (x : In) : St :=
  let t := nextCore c s x
  let t := { t with
    req := if x.rxVld then upd s.req s.idx x.rxData else s.req
    idx := if x.rxVld then (if x.rxLast then 0 else (s.idx + 1) % 8) else s.idx }
  if x.rst then
    { t with addr := 0, stall := false, configured := false, idx := 0, len := 0, stage := .idle, cntr := 0 }
  else t

structure Out where
  addr : Nat
  stall : Bool
  txVld : Bool
  txData : Option Nat
  txKeep : Bool
  txLast : Bool
  rxRdy : Bool

/-- device_common.py:186-198, :210, :305 -/
def out (c : Cfg) (s : St) : Out where
  addr := s.addr
  stall := s.stall
  txVld := s.stage == .dataGet || s.stage == .statusIn
  txData := if s.stage = .dataGet then some (c.rom s.daddr) else none
  txKeep := if s.stage = .dataGet then s.len != 0 else false
  txLast := if s.stage = .dataGet then (decide (s.len < 2) || s.cntr == c.maxp - 1) else true
  rxRdy := s.stage == .idle || s.stage == .statusOut || s.stage == .dataSet

def init (a0 d0 : Nat) (r0 : Nat → Nat) : St := ⟨0, a0, false, false, r0, 0, d0, 0, .idle, 0⟩

end Verif.UsbEp0
