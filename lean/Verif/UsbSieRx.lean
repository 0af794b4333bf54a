import Verif.Common

/-!
# `Usb2SieDeviceRx` (`hwtLib/peripheral/usb/usb2/sie_rx.py`)

The conversion of the UTMI signals to beats with `last` (lines 53-101) and the path of the packet header: the parser of PID,
the parser of the token (`Axi4S_frameParser` specialised for 8 bit words of these two structures) and `token_q`. The path
of the payload is not modelled, it is supposed to be always ready. The function of `CrcComb` is a parameter. `enable` is an
input.
-/

namespace Verif.UsbSieRx

open Verif

/-! ## UTMI to beats -/

structure Utmi where
  active : Bool
  valid : Bool
  data : Nat
  error : Bool
deriving DecidableEq, Repr

/-- an item of `rx_tmp`; `data`, `error` have no meaning without `valid` -/
structure Tmp where
  active : Bool
  valid : Bool
  data : Nat
  error : Bool
deriving DecidableEq, Repr

structure FSt where
  t0 : Tmp
  t1 : Tmp
deriving DecidableEq, Repr

structure Beat where
  data : Nat
  error : Bool
  last : Bool
deriving DecidableEq, Repr

/-- lines 92-99 -/
def beat (s : FSt) : Option Beat :=
  if (s.t1.valid && s.t0.active && s.t0.valid) || (s.t1.valid && s.t1.active && !s.t0.active) then
    some ⟨s.t1.data, s.t1.error, !s.t0.active⟩
  else none

/-- lines 75-88 -/
def fnext (s : FSt) (x : Utmi) : FSt where
  t0 :=
    if x.active then
      if x.valid then ⟨true, true, x.data, x.error⟩ else { s.t0 with active := true }
    else { s.t0 with active := false, valid := false, error := false }
  t1 := s.t0

def front : Machine FSt Utmi (Option Beat) := ⟨fun s _ => beat s, fnext⟩

structure FInit (s : FSt) : Prop where
  a0 : s.t0.active = false
  v0 : s.t0.valid = false
  a1 : s.t1.active = false
  v1 : s.t1.valid = false

/-! ## Header -/

/-- `hwtLib/peripheral/usb/constants.py` lines 86-148 -/
def isToken (p : Nat) : Bool := p == 1 || p == 9 || p == 5 || p == 13
def isData (p : Nat) : Bool := p == 3 || p == 11 || p == 7 || p == 15
def isHs (p : Nat) : Bool := p == 2 || p == 10 || p == 14 || p == 6
def is16b (p : Nat) : Bool := isToken p || p == 4

structure HSt where
  /-- `parser_pid`: `wordIndex` (`parsing_overflow`) -/
  pidI : Bool
  /-- `parser_token`: `wordIndex`, `endp_part_0` -/
  tokI : Nat
  endp0 : Nat
  /-- `token_q` -/
  pid : Nat
  pidLoaded : Bool
  errPid : Bool
  addr : Nat
  endp : Nat
  crc5 : Nat
  crc5Loaded : Bool
  errLen : Bool
  valid : Bool
deriving DecidableEq, Repr

structure HIn where
  enable : Bool
  /-- `current_usb_addr` -/
  addr : Nat
  b : Option Beat
deriving DecidableEq, Repr

structure Header where
  pid : Nat
  endp : Nat
  /-- `frame_number`, `none`: undefined -/
  frame : Option Nat
  error : Bool
deriving DecidableEq, Repr

/-- the beat which is the PID -/
def pidVld (s : HSt) (x : HIn) : Option Beat := if s.pidI then none else x.b
/-- `parser_pid.dataOut.data`: the rest, or one word (with `keep = 0`) if there is no rest -/
def afterPid (s : HSt) (x : HIn) : Option Beat :=
  match x.b with
  | some b => if s.pidI || b.last then some b else none
  | none => none
/-- lines 179-182 -/
def has16b (s : HSt) : Bool := s.pidLoaded && is16b s.pid
def hasPayload (s : HSt) : Bool := s.pidLoaded && isData s.pid
/-- `parser_token.dataIn`, lines 202-213 -/
def tokIn (s : HSt) (x : HIn) : Option Beat := if has16b s then afterPid s x else none
def rxEnding (x : HIn) : Bool := match x.b with | some b => b.last | none => false

/-- `parser_token.dataOut.crc5.vld` -/
def crcVld (s : HSt) (x : HIn) : Bool := (tokIn s x).isSome && s.tokI == 1

/-- lines 258-268 -/
def header (crc : Nat → Nat) (s : HSt) (x : HIn) : Option Header :=
  if s.valid then
    some ⟨s.pid, s.endp, if s.pid = 5 then some (s.endp * 128 + s.addr) else none,
      (s.crc5Loaded && (x.addr != s.addr)) || (s.crc5Loaded && (crc (s.endp * 128 + s.addr) != s.crc5)) || s.errLen⟩
  else none

/-- lines 219-242 -/
def nextQ (s : HSt) (x : HIn) : HSt :=
  let pb := if x.enable then pidVld s x else none
  match pb with
  | some b =>
    { s with
      pid := b.data % 16
      pidLoaded := true
      errPid := b.data % 16 != 15 - b.data / 16 % 16
      errLen := isHs (b.data % 16) && !rxEnding x
      valid := isHs (b.data % 16) || isData (b.data % 16) || (isHs (b.data % 16) && !rxEnding x) }
  | none =>
    if x.enable && has16b s && crcVld s x && !s.errLen && !s.errPid then
      { s with
        crc5Loaded := has16b s
        errLen := has16b s && ((match afterPid s x with | some b => b.last | none => false) != crcVld s x)
        valid := true }
    else if (s.valid && (s.errLen || !hasPayload s)) || (hasPayload s && rxEnding x) || (s.errPid && rxEnding x) ||
        !x.enable then
      { s with errPid := false, pidLoaded := false, crc5Loaded := false, errLen := false, valid := false }
    else if s.valid && hasPayload s then { s with valid := false }
    else s

/-- the registers of the parsers and the fields of `token_q` (lines 244-248) -/
def hnext (s : HSt) (x : HIn) : HSt :=
  let q := nextQ s x
  let pidI := match x.b with | some b => !b.last | none => s.pidI
  match tokIn s x with
  | some b =>
    { q with
      pidI := pidI
      tokI := if b.last then 0 else if s.tokI ≠ 2 then s.tokI + 1 else s.tokI
      endp0 := if s.tokI = 0 then b.data / 128 % 2 else s.endp0
      addr := if s.tokI = 0 then b.data % 128 else s.addr
      endp := if s.tokI = 1 then b.data % 8 * 2 + s.endp0 else s.endp
      crc5 := if s.tokI = 1 then b.data / 8 % 32 else s.crc5 }
  | none => { q with pidI := pidI }

def hmachine (crc : Nat → Nat) : Machine HSt HIn (Option Header) := ⟨header crc, hnext⟩

structure HInit (s : HSt) : Prop where
  pidI : s.pidI = false
  tokI : s.tokI = 0
  pidLoaded : s.pidLoaded = false
  errPid : s.errPid = false
  crc5Loaded : s.crc5Loaded = false
  errLen : s.errLen = false
  valid : s.valid = false

end Verif.UsbSieRx
