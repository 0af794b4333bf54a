import Verif.Common

/-!
# Reset detector and speed negotiation of `Usb2DeviceCore` (`hwtLib/peripheral/usb/usb2/device_core.py`)

Simplifications
* Times (`DETACH_TIME` ...) are computed in the code in float, here they are exact. The counter is above a time iff it is above its integer
  part, so integer parts are used (`Cfg.ofHz`).
* The settings of the PHY (`function_control`, `otg_control`) which depend only on the state are not modelled.
* `enable` is 1 (device_core.py:467).
-/

namespace Verif.UsbNego

/-- `USB_LINE_STATE` (constants.py) -/
inductive Ls
  | se0 | j | k | se1
deriving DecidableEq

/-- device_core.py:330-337 -/
inductive Ns
  | idle | waitRst | sendK | waitJK | fs | hs
deriving DecidableEq

/-- device_core.py:366-372 -/
structure Cfg where
  detach : Nat
  attach : Nat
  chirp : Nat
  hsReset : Nat
  /-- width of `usb_rst_time_q` -/
  w : Nat

/-- device_core.py:323-324, :366-372 for `CLK_FREQ = f` (1 ms, 4 ms, 5 ms, 10 ms) -/
def Cfg.ofHz (f : Nat) : Cfg := ⟨f / 1000, (f + 3 * f) / 1000, ((f + 3 * f) + f) / 1000, (f + 9 * f) / 1000, log2ceil ((f + 9 * f + 999) / 1000)⟩

structure St where
  /-- `se0_cntr` -/
  cnt : Nat
  st : Ns
  /-- `chirp_count_q` -/
  chirps : Nat
  last : Ls
  /-- `usb_rst_time_q` -/
  q : Nat
deriving DecidableEq

/-- `usb_rst`: bit 14 of the counter of 15 bits (device_core.py:83-84). -/
def usbRst (s : St) : Bool := s.cnt / 2 ^ 14 % 2 == 1

/-- `usb_speed` (device_core.py:444-454): `some true` for USB 2.0 -/
def speed (s : St) : Option Bool :=
  match s.st with
  | .fs => some false
  | .hs => some true
  | _ => none

/-- `chirp_en` (device_core.py:456) -/
def chirpEn (s : St) : Bool := s.st == .sendK

/-- device_core.py:397-443 -/
def nextSt (c : Cfg) (s : St) : Ns :=
  match s.st with
  | .idle => if s.q > c.detach then .waitRst else .idle
  | .waitRst => if s.q > c.attach then .sendK else .waitRst
  | .sendK => if s.q > c.chirp then .waitJK else .sendK
  | .waitJK => if s.chirps > 5 then .hs else if s.q > c.hsReset then .fs else .waitJK
  | .fs => if s.q > c.hsReset && usbRst s then .waitRst else .fs
  | .hs => if s.q > c.hsReset && usbRst s then .waitRst else .hs

def next (c : Cfg) (s : St) (ls : Ls) : St where
  -- device_core.py:88-96
  cnt := if ls == .se0 then (if !usbRst s then (s.cnt + 1) % 2 ^ 15 else s.cnt) else 0
  st := nextSt c s
  -- device_core.py:360-364
  chirps := if s.st == .sendK then 0
    else if s.st == .waitJK && s.last != ls && s.chirps != 255 then s.chirps + 1 else s.chirps
  last := ls
  -- device_core.py:374-382
  q := if s.st != .waitRst && nextSt c s == .waitRst then 0
    else if s.st == .waitRst && ls != .se0 then 0
    else if s.q != 2 ^ c.w - 1 then s.q + 1 else s.q

/-- Reset values (device_core.py:83, :338-343, :356-357, :372); the state depends on PRE_NEGOTIATED_TO. -/
def init (st : Ns) : St := ⟨0, st, 0, .se0, 0⟩

def run (c : Cfg) (s : St) (xs : List Ls) : St := xs.foldl (next c) s

end Verif.UsbNego
