import Verif.Common
/-!
# USB versions as strings and as numbers (hwtLib/peripheral/usb/constants.py) and their use by the USB/IP
server (hwtLib/peripheral/usb/sim/usbip)

Strings are lists of characters.  A character below '0' gives a negative number in python, this result is
kept apart as `neg`.
-/
namespace Verif.UsbVer

inductive Res where
  /-- an exception: the assertion :53, a wrong number of parts :54, `ord` of more or less characters -/
  | fail
  /-- a negative number -/
  | neg
  | ok (v : Nat)
deriving DecidableEq

/-- `str.split(".")` -/
def split : List Char → List (List Char)
  | [] => [[]]
  | c :: cs =>
    if c = '.' then [] :: split cs
    else match split cs with
      | [] => [[c]]
      | p :: ps => (c :: p) :: ps

/-- `USB_VER.to_uint16_t`, peripheral/usb/constants.py:52-58 -/
def toU16 (s : List Char) : Res :=
  if s.length ≠ 3 then .fail
  else match split s with
    | [[a], [b]] =>
      if a.toNat < 48 ∨ b.toNat < 48 then .neg
      else .ok (((b.toNat - 48) <<< 4) ||| ((a.toNat - 48) <<< 8))
    | _ => .fail

/-- one of the four values of the loop peripheral/usb/constants.py:62-66 -/
def nib (v i : Nat) : Nat := (v >>> (4 * i)) % 16

/-- `USB_VER.from_uint16_t`, peripheral/usb/constants.py:61-71 -/
def fromU16 (v : Nat) : List Char :=
  if nib v 3 = 0 ∧ nib v 0 = 0 then Nat.toDigits 10 (nib v 2) ++ '.' :: Nat.toDigits 10 (nib v 1)
  else Nat.toDigits 10 (nib v 3) ++ Nat.toDigits 10 (nib v 2) ++ '.' ::
    (Nat.toDigits 10 (nib v 1) ++ Nat.toDigits 10 (nib v 0))

/-- `USB_VER.values`, peripheral/usb/constants.py:41-49 -/
def values : List (List Char) :=
  [['1', '.', '0'], ['1', '.', '1'], ['2', '.', '0'], ['3', '.', '0'], ['3', '.', '1'], ['3', '.', '2'],
   ['4', '.', '0']]

/-- `USBIP_SPEED`, sim/usbip/constants.py:29-35; the lookup of a missing key raises -/
def speed (s : List Char) : Option Nat :=
  if s = ['1', '.', '0'] then some 1
  else if s = ['1', '.', '1'] then some 2
  else if s = ['2', '.', '0'] then some 3
  else if s = ['3', '.', '0'] then some 3
  else none

/-- `bcdUSB` of a device descriptor made for a version (descriptors/std.py:131) and the field `speed` of
this device in a list of devices (sim/usbip/connection.py:57, device.py:91-93) -/
def listed (ver : List Char) : Option Nat :=
  match toU16 ver with
  | .ok v => speed (fromU16 v)
  | _ => none

end Verif.UsbVer
