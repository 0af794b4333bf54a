import Verif.UsbCrc
/-!
# Packets of the simulated USB host and device, peripheral/usb/usb2/utmi_usb_agent.py and ulpi_usb_agent.py

`deparse_packet` and `parse_packet` of `UtmiUsbHostProcAgent` (the device agent calls the same functions) and of
`UlpiUsbHostProcAgent`.

Simplifications: a byte is a number (in the ULPI agent the first byte is an `HBits(8)` value, `ULPI_TX_CMD` handles both forms);
the PID of a packet is one of its class (`UsbPacketHandshake.__init__` asserts it); a CRC is the function of its bits of
`UsbCrc.lean`.
-/
namespace Verif.UsbPkt
open Verif Verif.Crc Verif.UsbCrc

inductive Pkt where
  | token (pid addr endp : Nat)
  | data (pid : Nat) (d : List Nat)
  | hs (pid : Nat)
deriving DecidableEq, Repr

/-- attribute `pid` -/
def Pkt.pid : Pkt → Nat
  | .token pid _ _ => pid
  | .data pid _ => pid
  | .hs pid => pid

inductive Err where
  /-- `AssertionError` of the check field of PID -/
  | pidCheck
  /-- `NotImplementedError` -/
  | notImplemented
  /-- `_reinterpret_cast` of a wrong number of bits -/
  | cast
  /-- `IndexError` of an empty deque -/
  | index
  /-- `AssertionError` of CRC -/
  | crc
deriving DecidableEq, Repr

/-- `USB_PID.is_token`, peripheral/usb/constants.py:85-100 -/
def isToken (pid : Nat) : Bool := [1, 9, 5, 13].contains pid
/-- `USB_PID.is_data`, peripheral/usb/constants.py:103-119 -/
def isData (pid : Nat) : Bool := [3, 11, 7, 15].contains pid
/-- `USB_PID.is_hs`, peripheral/usb/constants.py:121-136 -/
def isHs (pid : Nat) : Bool := [2, 10, 14, 6].contains pid

/-- an int from 5 bits -/
def num5 (f : Bits) : Nat :=
  (f 0).toNat + 2 * (f 1).toNat + 4 * (f 2).toNat + 8 * (f 3).toNat + 16 * (f 4).toNat

/-- an int from 16 bits -/
def num16 (f : Bits) : Nat := byteOf f + 256 * byteOf fun j => f (8 + j)

/-- `UsbPacketToken.from_pid_and_body_bytes`, sim/agent_base.py:43-55 -/
def parseToken (pid : Nat) (p : List Nat) : Except Err Pkt :=
  match p with
  | [b0, b1] =>
    let v := b0 + 256 * b1
    if num5 (agentCrc5 (v % 128) (v / 128 % 16)) = v / 2048 then .ok (.token pid (v % 128) (v / 128 % 16)) else .error .crc
  | _ => .error .cast

/-- data packet, utmi_usb_agent.py:34-41: `p.pop()` twice, from the end -/
def parseData (pid : Nat) (p : List Nat) : Except Err Pkt :=
  match p.reverse with
  | hi :: lo :: r =>
    if hi * 256 + lo = num16 (agentCrc16 r.reverse) then .ok (.data pid r.reverse) else .error .crc
  | _ => .error .index

/-- `parse_packet_pid_and_bytes`, utmi_usb_agent.py:31-45 -/
def parseBody (pid : Nat) (p : List Nat) : Except Err Pkt :=
  if isToken pid then parseToken pid p
  else if isData pid then parseData pid p
  else if isHs pid then .ok (.hs pid)
  else .error .notImplemented

/-- `UtmiUsbHostProcAgent.parse_packet`, utmi_usb_agent.py:47-53 -/
def parseUtmi (p : List Nat) : Except Err Pkt :=
  match p with
  | [] => .error .index
  | b :: r => if b % 16 = 15 - b / 16 % 16 then parseBody (b % 16) r else .error .pidCheck

/-- `UtmiUsbHostProcAgent.deparse_packet`, utmi_usb_agent.py:55-81 -/
def deparseUtmi : Pkt → List Nat
  | .token pid addr endp => agentToken pid addr endp
  | .data pid d => agentData pid d
  | .hs pid => [(15 - pid) * 16 + pid]

/-- `UlpiUsbHostProcAgent.parse_packet`, ulpi_usb_agent.py:18-25, with `ULPI_TX_CMD.is_USB_PID`, `get_USB_PID`, ulpi.py:29-41 -/
def parseUlpi (p : List Nat) : Except Err Pkt :=
  match p with
  | [] => .error .index
  | b :: r => if b / 16 = 4 then parseBody (b % 16) r else .error .notImplemented

/-- `UlpiUsbHostProcAgent.deparse_packet`, ulpi_usb_agent.py:27-31, with `ULPI_TX_CMD.USB_PID`, ulpi.py:43-53 -/
def deparseUlpi (p : Pkt) : List Nat :=
  (4 * 16 + p.pid) :: (deparseUtmi p).tail

end Verif.UsbPkt
