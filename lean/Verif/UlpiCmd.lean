import Verif.Common
/-!
# Commands and registers of ULPI (hwtLib/peripheral/usb/usb2/ulpi.py, utmi.py), control characters of XGMII
(hwtLib/peripheral/ethernet/xgmii.py)

Arguments of the commands are `int`; `from_py` of a value which does not fit raises (`none`); an undefined (`None`)
argument is not modelled.
-/
namespace Verif.UlpiCmd

/-- ulpi.py:20, 27, 70, 89 -/
def NOOP : Nat := 0b00000000
def NOPID : Nat := 0b01000000
def EXTW : Nat := 0b10101111
def EXTR : Nat := 0b11101111

/-- `HBits(w).from_py(v)` -/
def fromPy (w v : Nat) : Option Nat := if v < 2 ^ w then some v else none

/-- `Concat(a, b)` with `b` of `w` bits -/
def concat (a w b : Nat) : Nat := a * 2 ^ w + b

/-- ulpi.py:30-34, the branch for int; the other one compares the same bits (`[:4]` are the bits 7 to 4) -/
def isPid (b : Nat) : Bool := b >>> 4 == 0b0100

/-- ulpi.py:37-41 -/
def getPid (b : Nat) : Nat := b &&& (2 ^ 4 - 1)

/-- ulpi.py:44-53 -/
def pidCmd (pid : Nat) : Option Nat := (fromPy 4 pid).map (concat 0b0100 4)

/-- ulpi.py:56-64 -/
def regW (addr : Nat) : Option Nat := (fromPy 6 addr).map (concat 0b10 6)

/-- ulpi.py:78-83 -/
def regR (addr : Nat) : Option Nat := (fromPy 6 addr).map (concat 0b11 6)

/-! ## registers -/

/-- ulpi.py:100-123 -/
def regs : List (String × Nat) := [("Vendor_ID_Low", 0x00), ("Vendor_ID_High", 0x01), ("Product_ID_Low", 0x02),
  ("Product_ID_High", 0x03), ("Function_Control", 0x04), ("Interface_Control", 0x07), ("OTG_Control", 0x0A),
  ("USB_Interrupt_Enable_Rising", 0x0D), ("USB_Interrupt_Enable_Falling", 0x10), ("USB_Interrupt_Status", 0x13),
  ("USB_Interrupt_Latch", 0x14), ("Debug", 0x15), ("Scratch_Register", 0x16), ("Carkit_Control", 0x19),
  ("Carkit_Interrupt_Delay", 0x1C), ("Carkit_Interrupt_Enable", 0x1D), ("Carkit_Interrupt_Status", 0x20),
  ("Carkit_Interrupt_Latch", 0x21), ("Carkit_Pulse_Control", 0x22), ("Transmit_Positive_Width", 0x25),
  ("Transmit_Negative_Width", 0x26), ("Receive_Polarity_Recovery", 0x27)]

/-- ulpi.py:125-135 -/
def setClr : List Nat := [0x04, 0x07, 0x0A, 0x0D, 0x10, 0x16, 0x19, 0x1D, 0x22]

inductive Err | type | assert
  deriving DecidableEq, Repr

/-- what a positional parameter of a method is bound to -/
inductive Arg | cls | self | int (n : Nat)
  deriving DecidableEq, Repr

def inSetClr : Arg → Bool
  | .int n => setClr.contains n
  | _ => false

/-- ulpi.py:137-144: a class method, so the class is passed before the given arguments; its only parameter is `addr` -/
def setOf (args : List Nat) : Except Err Nat := match Arg.cls :: args.map .int with
  | [addr] => if inSetClr addr then (match addr with | .int n => .ok (n + 1) | _ => .error .type) else .error .assert
  | _ => .error .type

/-- ulpi.py:146-153: an ordinary method with the parameters `self`, `addr`; called on an instance or on the class -/
def clrOf (onInstance : Bool) (args : List Nat) : Except Err Nat :=
  match (if onInstance then [Arg.self] else []) ++ args.map .int with
  | [_, addr] => if inSetClr addr then (match addr with | .int n => .ok (n + 2) | _ => .error .type) else .error .assert
  | _ => .error .type

/-! ## fields of registers: (name, width), from the lowest bit -/

/-- utmi.py:63-70 -/
def functionControl : List (String × Nat) := [("XcvrSelect", 2), ("TermSelect", 1), ("OpMode", 2), ("Reset", 1),
  ("SuspendM", 1), ("", 1)]

/-- utmi.py:72-81 -/
def interfaceControl : List (String × Nat) := [("FsLsSerialMode_6pin", 1), ("FsLsSerialMode_3pin", 1), ("CarkitMode", 1),
  ("ClockSuspendM", 1), ("AutoResume", 1), ("IndicatorComplement", 1), ("IndicatorPassThru", 1),
  ("InterfaceProtectDisable", 1)]

/-- utmi.py:83-92 -/
def otgControl : List (String × Nat) := [("IdPullup", 1), ("DpPulldown", 1), ("DmPulldown", 1), ("DischrgVbus", 1),
  ("ChrgVbus", 1), ("DrvVbus", 1), ("DrvVbusExternal", 1), ("UseExternalVbusIndicator", 1)]

/-- utmi.py:94-101 -/
def interrupt : List (String × Nat) := [("HostDisconnect", 1), ("VbusValid", 1), ("SessValid", 1), ("SessEnd", 1),
  ("IdGnd", 1), ("", 3)]

/-- ulpi.py:157-163 -/
def functionDefault : String → Nat
  | "XcvrSelect" => 1
  | "SuspendM" => 1
  | _ => 0

/-- ulpi.py:168-177 -/
def otgDefault : String → Nat
  | "DpPulldown" => 1
  | "DmPulldown" => 1
  | _ => 0

/-- the byte of a struct: `from_py` of a dictionary, fields from the lowest bit; padding is taken as 0 -/
def pack : List (String × Nat) → (String → Nat) → Nat
  | [], _ => 0
  | (n, w) :: r, v => v n % 2 ^ w + 2 ^ w * pack r v

/-- a field of a byte -/
def unpack : List (String × Nat) → Nat → String → Option Nat
  | [], _, _ => none
  | (n, w) :: r, b, f => if n = f then some (b % 2 ^ w) else unpack r (b / 2 ^ w) f

/-! ## XGMII -/

/-- xgmii.py:39-42 (lines of the class CMD) -/
def IDLE : Nat := 0x07
def START : Nat := 0xFB
def TERM : Nat := 0xFD
def ERROR : Nat := 0xFE

/-- xgmii.py:53, the assertion -/
def alignOk (dataWidth alignment : Nat) : Bool := decide (alignment > 0) && decide (alignment < dataWidth / 8)

/-- `d[(i + 1) * 8:i * 8]` -/
def lane (d i : Nat) : Nat := (d / 2 ^ (i * 8)) % 2 ^ 8

/-- xgmii.py:60-70 -/
def detect (dataWidth d c s : Nat) : List Bool :=
  (List.range (dataWidth / 8)).map fun i => (c.testBit i == true) && (lane d i == s)

end Verif.UlpiCmd
