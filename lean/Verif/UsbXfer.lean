import Verif.UsbBundleProps
/-!
# Model of the enumeration by the USB agents (hwtLib/peripheral/usb/sim/usb_agent_host.py, usb_agent_device.py)

A data packet is its PID (`false` `DATA_0`, `true` `DATA_1`) and bytes. The agents exchange packets by queues without errors, each
IN token of the host takes one data packet from the device and an ACK is sent for each packet. A failed assertion, an exception or
an agent which waits for a packet of other type is `none`. Descriptors are modelled as in `Verif.UsbBundle`, `desc._dtype is t`
(bundle.py:89) is the comparison of `bDescriptorType`.
-/
namespace Verif.UsbXfer

open Verif.UsbBundle

abbrev Pkt := Bool × List Nat

/-- loop of `send_data`, usb_agent_device.py:47-70, and of `transmit_bulk`, usb_agent_host.py:182-205; the first argument bounds
the number of packets, `split` gives it enough (for a positive packet size) -/
def splitN : Nat → Nat → Bool → List Nat → List Pkt
  | 0, _, _, _ => []
  | n + 1, m, pid, d =>
    (pid, d.take m) :: (if (d.take m).length < m then [] else splitN n m (!pid) (d.drop m))

def split (m : Nat) (pid : Bool) (d : List Nat) : List Pkt := splitN (d.length + 1) m pid d

/-- `receive_bulk` without `size`, usb_agent_host.py:134-169: the received bytes and the packets which were not received -/
def recv (m : Nat) : Bool → List Pkt → Option (List Nat × List Pkt)
  | _, [] => none
  | pid, (q, d) :: r =>
    if q = pid then
      if d.length < m then some (d, r) else (recv m (!pid) r).map fun p => (d ++ p.1, p.2)
    else none

/-! ## Configuration descriptors -/

/-- `parse_interface_functional_descriptor`, usb_agent_host.py:47-66, for the descriptor `d` and `bInterfaceClass` of the
interface (`none` if `interface_descr` is None) : whether it passes without an exception -/
def functionalOk (cls : Option Nat) (d : List Nat) : Bool :=
  cls == some 2 && decide (3 ≤ d.length) &&
    match d.getD 2 0 with
    | 0 => d.length == 5
    | 1 => d.length == 5
    | 2 => d.length == 4
    | 6 => decide (5 ≤ d.length)
    | _ => false

/-- loop of `parse_configuration_descriptor_bundle`, usb_agent_host.py:77-111; the first argument bounds the number of
descriptors; `cls` is `bInterfaceClass` of `interface_descr` -/
def parseN : Nat → Option Nat → List Nat → Option (List (List Nat))
  | 0, _, _ => none
  | n + 1, cls, data =>
    if data = [] then some []
    else if data.length < 2 ∨ data.length < data.getD 0 0 then none
    else
      let d := data.take (data.getD 0 0)
      let rest := data.drop (data.getD 0 0)
      match data.getD 1 0 with
      | 2 => if d.length = 9 then (parseN n none rest).map (d :: ·) else none
      | 4 => if d.length = 9 then (parseN n (some (d.getD 5 0)) rest).map (d :: ·) else none
      | 5 => if d.length = 7 then (parseN n cls rest).map (d :: ·) else none
      | 0x24 => if functionalOk cls d then (parseN n cls rest).map (d :: ·) else none
      | _ => none

/-- `parse_configuration_descriptor_bundle`, usb_agent_host.py:68-112 (`Concat` of no bytes fails, :70) -/
def parse (data : List Nat) : Option (List (List Nat)) :=
  if data = [] then none else parseN (data.length + 1) none data

/-! ## Enumeration -/

/-- answer to a request -/
inductive Ans where
  | stall
  | data (d : List Nat)
deriving DecidableEq

/-- GET_DESCRIPTOR of type `t` and index `k`: device usb_agent_device.py:85-140 (packet size of the device `m`), host
usb_agent_host.py:267-277, :293-297 (packet size of the host `mh`). The host has to receive all packets of the device because the
device waits for next IN token (:52) and the host sends OUT (:294) -/
def download (ds : List Descr) (m mh : Nat) (t k wLength : Nat) : Option Ans :=
  match getDescriptor (fun d => d.ty == t) ds k with
  | none => some .stall
  | some (i, _) =>
    match recv mh true (split m true (getBytes ds i wLength)) with
    | some (d, []) => some (.data d)
    | _ => none

/-- `download_descriptor` of a descriptor with fixed size, usb_agent_host.py:279-287 : `unpack` checks the size -/
def downloadSized (ds : List Descr) (m mh t k size : Nat) : Option (List Nat) :=
  match download ds m mh t k size with
  | some (.data d) => if d.length = size then some d else none
  | _ => none

/-- bMaxPacketSize of a device descriptor, std.py:74-105 -/
def maxPacket (d : List Nat) : Nat := d.getD 7 0

/-- the device descriptor is downloaded while `self.descr` has no item of the address, the packet size of the host is 64,
usb_agent_host.py:114-117, :310 -/
def downloadDevice (ds : List Descr) : Option (List Nat) :=
  match getDescriptor (fun d => d.ty == 1) ds 0 with
  | none => none
  | some (_, d) => downloadSized ds (maxPacket d.bytes) 64 1 0 18

/-- loop on configurations, usb_agent_host.py:317-326, from index `i`, `n` iterations -/
def confLoop (ds : List Descr) (m : Nat) : Nat → Nat → Option (List (List Nat))
  | _, 0 => some []
  | i, n + 1 =>
    match downloadSized ds m m 2 i 9 with
    | none => none
    | some c =>
      match downloadSized ds m m 2 i (c.getD 2 0 + 256 * c.getD 3 0) with
      | none => none
      | some b =>
        match parse b with
        | none => none
        | some l => (confLoop ds m (i + 1) n).map (l ++ ·)

/-- loop on string descriptors, usb_agent_host.py:337-353, from index `i`, at most `n` iterations; a string has to have even
number of bytes (:280-287); the language of the strings after the first one is the first word of the first one, the device supports
only 0x0409 (usb_agent_device.py:104-108) -/
def strLoop (ds : List Descr) (m : Nat) : Nat → Nat → Option Nat → Option (List (List Nat))
  | _, 0, _ => some []
  | i, n + 1, lang =>
    if i ≠ 0 ∧ lang ≠ some 0x0409 then none
    else
      match download ds m m 3 i 255 with
      | none => none
      | some .stall => if i = 0 then none else some []
      | some (.data d) =>
        if d.length < 2 ∨ d.length % 2 = 1 then none
        else
          (strLoop ds m (i + 1) n (if i = 0 then (if d.length < 4 then none else some (d.getD 2 0 + 256 * d.getD 3 0)) else lang)).map
            (d :: ·)

/-- `UsbHostAgent.proc`, usb_agent_host.py:299-354 : bytes of the descriptors in `self.descr[new_addr]` -/
def enumerate (ds : List Descr) : Option (List (List Nat)) :=
  match downloadDevice ds with
  | none => none
  | some dev =>
    if dev.getD 17 0 = 0 then none
    else
      match confLoop ds (maxPacket dev) 0 (dev.getD 17 0) with
      | none => none
      | some cs =>
        match download ds (maxPacket dev) (maxPacket dev) 6 0 10 with
        | some .stall => (strLoop ds (maxPacket dev) 0 255 none).map fun ss => dev :: cs ++ ss
        | _ => none

end Verif.UsbXfer
