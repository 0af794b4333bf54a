import Verif.UsbVer
import Verif.UsbBundle
/-!
# USB descriptors (hwtLib/peripheral/usb/descriptors/std.py, hid.py, cdc.py)

A descriptor is a list of fields (width, value), the first field has the lowest bits, as in an `HStruct`.
`from_py` of a value which does not fit the width of its field is an exception (`none`), also if the value
comes as a negative number from a version.
-/
namespace Verif.UsbDescr
open Verif.UsbVer

/-- `HStruct.bit_length()` -/
def width : List (Nat × Nat) → Nat
  | [] => 0
  | f :: fs => f.1 + width fs

/-- `HStruct.from_py` as a number -/
def pack : List (Nat × Nat) → Option Nat
  | [] => some 0
  | f :: fs => if f.2 < 2 ^ f.1 then (pack fs).map fun x => f.2 + 2 ^ f.1 * x else none

/-- `HConst_to_byte_list`, descriptors/bundle.py:190-192 -/
def leBytes : Nat → Nat → List Nat
  | 0, _ => []
  | k + 1, x => x % 256 :: leBytes k (x / 256)

/-- bytes of a descriptor with the header `usb_descriptor_header_t` (std.py:68-72); `bLength` is
`t.bit_length() // 8` -/
def descr (ty : Nat) (body : List (Nat × Nat)) : Option (List Nat) :=
  (pack ((8, (16 + width body) / 8) :: (8, ty) :: body)).map (leBytes ((16 + width body) / 8))

/-- `USB_2_0_PACKET_SIEZES`, std.py:66 -/
def sizes : List Nat := [8, 16, 32, 64, 128, 256, 512]

/-- a version as a value of `uint16_t` -/
def ver (s : List Char) : Option Nat :=
  match toU16 s with
  | .ok v => some v
  | _ => none

/-- `make_usb_descriptor_device`, std.py:74-144 -/
def device (cls sub proto : Nat) (usbVer : List Char) (mps idV idP : Nat) (devVer : List Char)
    (iM iP iS nConf : Nat) : Option (List Nat) :=
  if mps ∈ sizes then
    match ver usbVer, ver devVer with
    | some u, some d => descr 1 [(16, u), (8, cls), (8, sub), (8, proto), (8, mps), (16, idV), (16, idP), (16, d),
        (8, iM), (8, iP), (8, iS), (8, nConf)]
    | _, _ => none
  else none

/-- `make_usb_descriptor_device_qualifier`, std.py:151-188 -/
def qualifier (cls sub proto : Nat) (usbVer : List Char) (mps nConf : Nat) : Option (List Nat) :=
  if mps ∈ sizes then
    match ver usbVer with
    | some u => descr 6 [(16, u), (8, cls), (8, sub), (8, proto), (8, mps), (8, nConf), (8, 0)]
    | none => none
  else none

/-- `usb_format_bMaxPower`, std.py:200-203; `none` is the failed assertion -/
def maxPower (mA : Nat) : Option Nat := if mA / 2 < 256 then some (mA / 2) else none

/-- `make_usb_descriptor_configuration`, std.py:191-197, :206-256 -/
def config (total nIf value iConf wakeup self power : Nat) : Option (List Nat) :=
  descr 2 [(16, total), (8, nIf), (8, value), (8, iConf), (5, 0), (1, wakeup), (1, self), (1, 1), (8, power)]

/-- `make_usb_descriptor_interface`, std.py:265-309 -/
def interface (num alt nEp cls sub proto iIf : Nat) : Option (List Nat) :=
  descr 4 [(8, num), (8, alt), (8, nEp), (8, cls), (8, sub), (8, proto), (8, iIf)]

/-- `make_usb_descriptor_endpoint`, std.py:341-394 -/
def endpoint (dir addr transfer sync usage mps interval : Nat) : Option (List Nat) :=
  if 0 < addr then
    descr 5 [(7, addr), (1, dir), (2, transfer), (2, sync), (2, usage), (2, 0), (16, mps), (8, interval)]
  else none

/-- `make_usb_descriptor_string0`, std.py:397-412 -/
def string0 (langs : List Nat) : Option (List Nat) := descr 3 (langs.map fun l => (16, l))

/-- `make_usb_descriptor_hid`, hid.py:71-104 -/
def hid (hidVer : List Char) (country nDescr ty len : Nat) : Option (List Nat) :=
  match ver hidVer with
  | some v => descr 0x21 [(16, v), (8, country), (8, nDescr), (8, ty), (16, len)]
  | none => none

/-- `make_descriptor_functional_header`, cdc.py:87-115 -/
def funHeader (cdcVer : List Char) : Option (List Nat) :=
  match ver cdcVer with
  | some v => descr 0x24 [(8, 0), (16, v)]
  | none => none

/-- `make_descriptor_functional_call_management`, cdc.py:118-157 -/
def funCall (itself overData dataIf : Nat) : Option (List Nat) :=
  descr 0x24 [(8, 1), (1, itself), (1, overData), (6, 0), (8, dataIf)]

/-- `make_descriptor_functional_abstract_control_management`, cdc.py:160-199 -/
def funAcm (feature line brk net : Nat) : Option (List Nat) :=
  descr 0x24 [(8, 2), (1, feature), (1, line), (1, brk), (1, net), (4, 0)]

/-- `make_descriptor_functional_union`, cdc.py:202-238 -/
def funUnion (master : Nat) (slaves : List Nat) : Option (List Nat) :=
  if slaves ≠ [] ∧ slaves.length < 256 then descr 0x24 ((8, 6) :: (8, master) :: slaves.map fun s => (8, s))
  else none

/-- `make_usb_line_coding_default`, cdc.py:47-62 -/
def lineCoding (rate fmt parity bits : Nat) : Option (List Nat) :=
  (pack [(32, rate), (8, fmt), (8, parity), (8, bits)]).map (leBytes 7)

/-- all or an exception -/
def sequence : List (Option (List Nat)) → Option (List (List Nat))
  | [] => some []
  | none :: _ => none
  | some d :: r => (sequence r).map (d :: ·)

/-- the strings of `get_default_usb_cdc_vcp_descriptors` with `iManufacturer`, `iProduct`, cdc.py:253-262 -/
def vcpStrings (man prod : Option (List Nat)) : List (Option (List Nat)) × Nat × Nat :=
  let s0 : List (Option (List Nat)) := [string0 [0x0409]]
  let (s1, iM) := match man with
    | none => (s0, 0)
    | some s => (s0 ++ [UsbBundle.stringDescr s], s0.length)
  match prod with
  | none => (s1, iM, 0)
  | some s => (s1 ++ [UsbBundle.stringDescr s], iM, s1.length)

/-- `config_0`, cdc.py:264-318 -/
def vcpConf (mps : Nat) : List (Option (List Nat)) :=
  [interface 0 0 1 0x02 2 1 0, funHeader ['1', '.', '1'], funCall 0 0 1, funAcm 0 0 0 0, funUnion 0 [1],
   endpoint 1 2 3 0 0 8 10,
   interface 1 0 2 0x0a 0 0 0, endpoint 0 1 2 0 0 mps 0, endpoint 1 1 2 0 0 mps 0]

/-- `get_default_usb_cdc_vcp_descriptors`, cdc.py:241-346; `config_0_len` (:319-321) is asserted to be 67 -/
def vcp (usbVer : List Char) (mps : Nat) (man prod : Option (List Nat)) (devVer : List Char) :
    Option (List (List Nat)) :=
  match sequence (vcpConf mps), maxPower 500 with
  | some conf, some power =>
    let total := 9 + (conf.map List.length).sum
    if total = 67 then
      let st := vcpStrings man prod
      sequence (device 0x02 0 0 usbVer (min 64 mps) 0 0 devVer st.2.1 st.2.2 0 1 :: config total 2 1 0 0 0 power ::
        vcpConf mps ++ st.1)
    else none
  | _, _ => none

/-- `wValue` of `make_usb_device_request_get_descr`, std.py:438-470 (the number of the type is given);
`none`: it does not fit 16 bits -/
def getDescr (ty i : Nat) : Option Nat := if (ty <<< 8 ||| i) < 65536 then some (ty <<< 8 ||| i) else none

end Verif.UsbDescr
