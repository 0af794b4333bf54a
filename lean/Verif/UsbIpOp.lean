import Verif.UsbIp
import Verif.UsbXfer
/-!
# Operations of the USB/IP server and data toggles of its transfers, connection.py:49-164 and :350-373, device.py:180-291

Characters are ASCII codes (`decode` of other bytes may fail, connection.py:368, `\d` is 0-9 for them).  The descriptors are
downloaded (connection.py:109-110).  The device list is a list of addresses with the values of the descriptors.
-/
namespace Verif.UsbIpOp
open Verif.UsbIp

/-- device with its descriptors, `USBIPSimDevice`, device.py:71-117 -/
structure Dev where
  addr : Nat
  speed : Nat
  idVendor : Nat
  idProduct : Nat
  bcdDevice : Nat
  cls : Nat
  subCls : Nat
  protocol : Nat
  numConfigs : Nat
  /-- bNumInterfaces of `configs[0]`; `getConfiguration` does not exist, so its value is always 1 and `configs[0]` is used
  (connection.py:65-81, device.py:310) -/
  cfg0 : Option Nat
  /-- class, subclass, protocol of all interface descriptors of the device (device.py:316-326) -/
  ifcs : List (Nat × Nat × Nat)
deriving DecidableEq, Repr

/-- digits of a number, `{:d}`; the first argument bounds the number of digits -/
def decN : Nat → Nat → List Nat
  | 0, _ => []
  | f + 1, n => if n < 10 then [48 + n] else decN f (n / 10) ++ [48 + n % 10]

def dec (n : Nat) : List Nat := decN (n + 1) n

/-- `struct.pack("{n}s")` -/
def pad (n : Nat) (s : List Nat) : List Nat := s.take n ++ List.replicate (n - s.length) 0

/-- "pyusbip/0/" -/
def pathPrefix : List Nat := [112, 121, 117, 115, 98, 105, 112, 47, 48, 47]

def busId (addr : Nat) : List Nat := dec 0 ++ 45 :: dec addr

/-- `pack_device_desc`, connection.py:49-103; `none` = IndexError of `configs[0]` -/
def packDesc (d : Dev) (interfaces : Bool) : Option (List Nat) :=
  d.cfg0.map fun numIfcs =>
    pad 256 (pathPrefix ++ dec d.addr) ++ (pad 32 (busId d.addr) ++ (be 4 0 ++ (be 4 d.addr ++ (be 4 d.speed ++
      (be 2 d.idVendor ++ (be 2 d.idProduct ++ (be 2 d.bcdDevice ++ (be 1 d.cls ++ (be 1 d.subCls ++ (be 1 d.protocol ++
      (be 1 1 ++ (be 1 d.numConfigs ++ (be 1 numIfcs ++
      (if interfaces then d.ifcs.flatMap fun i => be 1 i.1 ++ (be 1 i.2.1 ++ (be 1 i.2.2 ++ be 1 0)) else []))))))))))))))

/-- descriptions of all devices -/
def packAll : List Dev → Option (List Nat)
  | [] => some []
  | d :: ds =>
    match packDesc d true, packAll ds with
    | some a, some b => some (a ++ b)
    | _, _ => none

/-- `handle_op_devlist`, connection.py:115-130 -/
def devlist (ds : List Dev) : Option (List Nat) :=
  (packAll ds).map fun b => be 2 0x111 ++ (be 2 5 ++ (be 4 0 ++ (be 4 ds.length ++ b)))

/-- `\d+` : digits and the rest -/
def digits : List Nat → List Nat × List Nat
  | [] => ([], [])
  | c :: cs => if 48 ≤ c ∧ c ≤ 57 then (c :: (digits cs).1, (digits cs).2) else ([], c :: cs)

/-- `int(s)` -/
def toInt (s : List Nat) : Nat := s.foldl (fun a c => a * 10 + (c - 48)) 0

/-- `re.match(r"(\d+)-(\d+)", busid)` -/
def parseBusId (s : List Nat) : Option (Nat × Nat) :=
  match digits s with
  | ([], _) => none
  | (a, 45 :: r) =>
    match digits r with
    | ([], _) => none
    | (b, _) => some (toInt a, toInt b)
  | _ => none

/-- `rstrip('\0')` -/
def rstrip (s : List Nat) : List Nat := (s.reverse.dropWhile (· == 0)).reverse

inductive OpRes
  | err
  | ok (devices : List Nat) (reply : List Nat)
deriving DecidableEq, Repr

/-- `handle_op_import`, connection.py:132-164: new keys of `devices` and the reply; `busnum` is unbound if the id does not match -/
def doImport (ds : List Dev) (devices : List Nat) (busid : List Nat) : OpRes :=
  match parseBusId busid with
  | none => if ds = [] then .ok devices (be 2 0x111 ++ (be 2 3 ++ be 4 1)) else .err
  | some (b, n) =>
    match ds.find? (fun d => decide (0 = b ∧ d.addr = n)) with
    | none => .ok devices (be 2 0x111 ++ (be 2 3 ++ be 4 1))
    | some d =>
      match packDesc d false with
      | none => .err
      | some desc => .ok ((0 <<< 16 ||| d.addr) :: devices) (be 2 0x111 ++ (be 2 3 ++ (be 4 0 ++ desc)))

/-- `handle_packet` for operations, connection.py:350-373: keys of `devices`, rest of the input and the reply -/
def handleOp (ds : List Dev) (devices : List Nat) (inp : List Nat) : Option (List Nat × List Nat × List Nat) :=
  match rdN 2 inp with
  | none => none
  | some (version, i1) =>
  if version / 256 ≠ 1 then none else
  match rdN 2 i1 with
  | none => none
  | some (opcode, i2) =>
  match rdN 4 i2 with
  | none => none
  | some (_, i3) =>
  if opcode = 0x8000 then some (devices, i3, be 2 version ++ (be 2 0 ++ be 4 0))
  else if opcode = 0x8005 then (devlist ds).map fun r => (devices, i3, r)
  else if opcode = 0x8003 then
    match rd 32 i3 with
    | none => none
    | some (b, i4) =>
      match doImport ds devices (rstrip b) with
      | .err => none
      | .ok dv r => some (dv, i4, r)
  else none

/-! ## Data toggles, device.py:224-270 -/

/-- `submit` of buffers to an OUT endpoint, device.py:243-252: the packets on the bus; `pid` is `endp_next_pid` -/
def outPkts (m : Nat) : Bool → List (List Nat) → List UsbXfer.Pkt
  | _, [] => []
  | pid, b :: bs => UsbXfer.split m pid b ++ outPkts m (!pid) bs

/-- `submit` for an IN endpoint, device.py:227-241, with the answers of the device (`none` NAK, otherwise a data packet);
`none` = failed assertion about PID (usb_agent_host.py:143); the bytes of the replies -/
def inSubmits : Bool → List (Option UsbXfer.Pkt) → Option (List (List Nat))
  | _, [] => some []
  | pid, none :: r => (inSubmits pid r).map ([] :: ·)
  | pid, some p :: r => if p.1 = pid then (inSubmits (!pid) r).map (p.2 :: ·) else none

end Verif.UsbIpOp
