import Verif.Common
/-!
# USB/IP server of the USB simulator, peripheral/usb/sim/usbip/connection.py, device.py

`handle` is one call of `handle_packet` on the bytes which the client sends.  Bytes are numbers.  `exec` is the simulated device
behind the host agent (`controlRead`, `controlWrite`, `receive_bulk`, `transmit_bulk`): it has any state `D` and returns data
or `none` for an exception.

Simplifications: the debug log is omitted; a transfer of an endpoint other than 0 is finished before `handle_packet` ends
(`await xfer.submit()`, connection.py:294, calls the callback, device.py:268), so `urbs` is empty between packets; an exception
closes the connection (connection.py:385-391), it is `err`; `readexactly` of missing bytes is an exception too; values read by
`struct.unpack` at once are read one after another.
-/
namespace Verif.UsbIp

/-- `n` bytes of `v`, the most significant first, `struct.pack(">...")` -/
def be : Nat → Nat → List Nat
  | 0, _ => []
  | n + 1, v => (v / 256 ^ n % 256) :: be n v

/-- number from bytes, the most significant first -/
def unbe (l : List Nat) : Nat := l.foldl (fun a b => a * 256 + b) 0

/-- `readexactly(n)`; `none` = IncompleteReadError -/
def rd (n : Nat) (inp : List Nat) : Option (List Nat × List Nat) :=
  if inp.length < n then none else some (inp.take n, inp.drop n)

/-- one number of `n` bytes -/
def rdN (n : Nat) (inp : List Nat) : Option (Nat × List Nat) := (rd n inp).map fun p => (unbe p.1, p.2)

/-- transfer which the server orders from the device -/
inductive Xfer
  | ctrlIn (setup : List Nat)
  | ctrlOut (setup buf : List Nat)
  | bulkIn (ep : Nat)
  | bulkOut (ep : Nat) (buf : List Nat)
deriving DecidableEq, Repr

structure St (D : Type) where
  /-- keys of `devices` -/
  devices : List Nat
  dev : D

inductive Res (D : Type)
  | eof
  | err
  | ok (s : St D) (rest : List Nat) (reply : List Nat)

/-- -v in 32 bits -/
def neg32 (v : Nat) : Nat := (2 ^ 32 - v) % 2 ^ 32

/-- `make_usbip_header_basic`, connection.py:166-170 -/
def basic (command seqnum devid direction ep : Nat) : List Nat :=
  be 4 command ++ (be 4 seqnum ++ (be 4 devid ++ (be 4 direction ++ be 4 ep)))

/-- `usbip_ret_submit`, connection.py:172-192 (status in two's complement) -/
def retSubmit (seqnum devid direction ep status actual : Nat) (data : List Nat) : List Nat :=
  basic 3 seqnum devid direction ep ++
    (be 4 status ++ (be 4 actual ++ (be 4 0 ++ (be 4 0xffffffff ++ (be 4 0 ++ (List.replicate 8 0 ++ data))))))

/-- `struct.unpack("<BBHHH", setup)[4]` -/
def wLength (setup : List Nat) : Nat := setup.getD 6 0 + setup.getD 7 0 * 256

/-- control transfers, connection.py:209-260; status, actual_length, data -/
def control {D : Type} (exec : D → Xfer → D × Option (List Nat)) (d : D) (direction : Nat) (setup buf : List Nat) :
    D × (Nat × Nat × List Nat) :=
  if direction = 1 then
    match exec d (.ctrlIn setup) with
    | (d', some data) => (d', (0, data.length, data))
    | (d', none) => (d', (neg32 32, 0, []))
  else if setup.getD 0 0 = 0 ∧ setup.getD 1 0 = 5 then (d, (neg32 32, 0, []))
  else
    match exec d (.ctrlOut setup buf) with
    | (d', some _) => (d', (0, buf.length, []))
    | (d', none) => (d', (neg32 32, 0, []))

/-- transfers of other endpoints, connection.py:261-294, device.py:224-270 -/
def bulk {D : Type} (exec : D → Xfer → D × Option (List Nat)) (d : D) (direction ep : Nat) (buf : List Nat) :
    D × Option (Nat × Nat × List Nat) :=
  if direction = 1 then
    match exec d (.bulkIn ep) with
    | (d', some data) => (d', some (0, data.length, data))
    | (d', none) => (d', none)
  else if direction = 0 then
    match exec d (.bulkOut ep buf) with
    | (d', some _) => (d', some (0, 0, []))
    | (d', none) => (d', none)
  else (d, none)

/-- `handle_urb_submit`, connection.py:194-294 -/
def submit {D : Type} (exec : D → Xfer → D × Option (List Nat)) (s : St D) (seqnum devid direction ep : Nat)
    (inp : List Nat) : Res D :=
  match rdN 4 inp with
  | none => .err
  | some (_, i1) =>
  match rdN 4 i1 with
  | none => .err
  | some (buflen, i2) =>
  match rdN 4 i2 with
  | none => .err
  | some (start, i3) =>
  match rdN 4 i3 with
  | none => .err
  | some (npk, i4) =>
  match rdN 4 i4 with
  | none => .err
  | some (_, i5) =>
  match rd 8 i5 with
  | none => .err
  | some (setup, i6) =>
  if start ≠ 0 ∧ start ≠ 0xffffffff then .err
  else if npk ≠ 0 ∧ npk ≠ 0xffffffff then .err
  else if 2 ^ 31 ≤ buflen ∧ direction = 0 then .err     -- negative size of `readexactly`
  else
  match rd (if direction = 0 then buflen else 0) i6 with
  | none => .err
  | some (buf, i7) =>
  if ep = 0 then
    if wLength setup ≠ buflen then .err
    else
      let r := control exec s.dev direction setup buf
      .ok { s with dev := r.1 } i7 (retSubmit seqnum devid direction ep r.2.1 r.2.2.1 r.2.2.2)
  else
    match bulk exec s.dev direction ep buf with
    | (_, none) => .err
    | (d, some r) => .ok { s with dev := d } i7 (retSubmit seqnum devid direction ep r.1 r.2.1 r.2.2)

/-- `handle_urb_unlink`, connection.py:296-316; `urbs` is empty -/
def unlink {D : Type} (s : St D) (seqnum devid : Nat) (inp : List Nat) : Res D :=
  match rd 28 inp with
  | none => .err
  | some (_, i1) =>
    .ok s i1 (basic 4 seqnum devid 0 0 ++ (be 4 (neg32 2) ++ List.replicate 24 0))

/-- `handle_packet` for URBs, connection.py:318-348 (versions of operations other than 0 are in `UsbIpOp`) -/
def handle {D : Type} (exec : D → Xfer → D × Option (List Nat)) (s : St D) (inp : List Nat) : Res D :=
  match rdN 2 inp with
  | none => .eof
  | some (version, i0) =>
  if version ≠ 0 then .err
  else
  match rdN 2 i0 with
  | none => .err
  | some (opcode, i1) =>
  match rdN 4 i1 with
  | none => .err
  | some (seqnum, i2) =>
  match rdN 4 i2 with
  | none => .err
  | some (devid, i3) =>
  match rdN 4 i3 with
  | none => .err
  | some (direction, i4) =>
  match rdN 4 i4 with
  | none => .err
  | some (ep, i5) =>
  if devid ∉ s.devices then .err
  else if opcode = 1 then submit exec s seqnum devid direction ep i5
  else if opcode = 2 then unlink s seqnum devid i5
  else .err

/-- `connection`, connection.py:375-400, for at most `n` packets: state, everything written, whether it is still open -/
def serve {D : Type} (exec : D → Xfer → D × Option (List Nat)) : Nat → St D → List Nat → St D × List Nat × Bool
  | 0, s, _ => (s, [], true)
  | n + 1, s, inp =>
    match handle exec s inp with
    | .eof => (s, [], false)
    | .err => (s, [], false)
    | .ok s' rest reply =>
      let r := serve exec n s' rest
      (r.1, reply ++ r.2.1, r.2.2)

end Verif.UsbIp
