import Verif.UsbEp0
import Verif.UsbBundle
/-!
# Descriptor ROM of `Usb2DeviceCommon` and `Usb2CdcVcp` (hwtLib/peripheral/usb/usb2/device_common.py:51-59,
hwtLib/peripheral/usb/usb2/device_cdc_vcp.py:53-76)

`UsbDescriptorBundle.compile_rom` is from `Verif.UsbBundle`, the control endpoint which reads the ROM from `Verif.UsbEp0`. A read after
the end of the ROM is undefined, it is the argument `junk`. The bundle has a device and a configuration descriptor (otherwise
the generator fails), `total` is `wTotalLength` of the configuration descriptor.
-/
namespace Verif.UsbVcpRom
open Verif UsbBundle

/-- bytes of the ROM on an address -/
def romAt (rom : List Nat) (junk : Nat → Nat) (a : Nat) : Nat := rom.getD a (junk a)

/-- `USB_DESCRIPTOR_TYPE.DEVICE`, `CONFIGURATION`, `STRING` -/
def tyDevice : Nat := 1
def tyConfig : Nat := 2
def tyString : Nat := 3

/-- device_common.py:51-59, :80-100 -/
def devCfg (ds : List Descr) (maxp total : Nat) (junk : Nat → Nat) : UsbEp0.Cfg where
  maxp := maxp
  rom := romAt (compileRom ds).1 junk
  device := ((compileRom ds).2 tyDevice).headD (0, 0)
  config := ((((compileRom ds).2 tyConfig).headD (0, 0)).1, total)
  strings := (compileRom ds).2 tyString
  lineCoding := none

/-- device_cdc_vcp.py:53-76, `lc` are bytes of `make_usb_line_coding_default`; `len(descriptors)` is the number of descriptors
of the bundle (`UsbDescriptorBundle` is a `list` of them) -/
def vcpCfg (ds : List Descr) (lc : List Nat) (maxp total : Nat) (junk : Nat → Nat) : UsbEp0.Cfg :=
  { devCfg ds maxp total junk with
    rom := romAt ((compileRom ds).1 ++ lc) junk
    lineCoding := some (ds.length, lc.length) }

/-- `make_usb_line_coding_default()` (cdc.py:47-63): 115200 Bd (uint32, little endian), 1 stop bit, no parity, 8 bits -/
def lineCoding : List Nat := [115200 % 256, 115200 / 256 % 256, 115200 / 65536 % 256, 115200 / 16777216 % 256, 0, 0, 8]

end Verif.UsbVcpRom
