import Verif.Common
/-!
# Model of `UsbDescriptorBundle` and string descriptors (hwtLib/peripheral/usb/descriptors/bundle.py:66-206, std.py:419-435)

A descriptor is its bytes (`pack_descriptor`, bundle.py:101-104, and `HConst_to_byte_list`, :189-192, are the same
reinterpretation), the `bDescriptorType` of the header and the fields used by `get_endpoint_meta`. A failed assertion or an
exception is `none`.
-/
namespace Verif.UsbBundle

inductive Kind where
  /-- `usb_descriptor_device_t`: `bMaxPacketSize` -/
  | device (mps : Nat)
  /-- `usb_descriptor_endpoint_t`: address, direction (IN), `transferType`, `synchronisationType` (std.py:341-346),
  `wMaxPacketSize` -/
  | endpoint (addr : Nat) (dir : Bool) (transfer sync mps : Nat)
  | other
deriving DecidableEq

structure Descr where
  /-- `header.bDescriptorType` -/
  ty : Nat
  bytes : List Nat
  kind : Kind
deriving DecidableEq

/-! ## Rom and descriptor lookup -/

/-- the dictionary `compiled_type_to_addr_and_size` -/
abbrev Table := Nat → List (Nat × Nat)

/-- loop of `compile_rom`, bundle.py:198-205 -/
def compileFrom : List Descr → List Nat → Table → List Nat × Table
  | [], rom, tab => (rom, tab)
  | d :: ds, rom, tab => compileFrom ds (rom ++ d.bytes) (upd tab d.ty (tab d.ty ++ [(rom.length, d.bytes.length)]))

/-- `compile_rom`, bundle.py:194-206 -/
def compileRom (ds : List Descr) : List Nat × Table := compileFrom ds [] fun _ => []

/-- loop of `get_descr_bytes`, bundle.py:114-130; `ds` are the descriptors from `descr_i` -/
def bytesFrom : List Descr → Nat → List Nat
  | [], _ => []
  | d :: ds, remain =>
    if d.bytes.length > remain then d.bytes.take remain
    else if d.bytes.length = remain then d.bytes
    else d.bytes ++ bytesFrom ds (remain - d.bytes.length)

/-- `get_descr_bytes`, bundle.py:106-132 -/
def getBytes (ds : List Descr) (start wLength : Nat) : List Nat := bytesFrom (ds.drop start) wLength

/-- loop of `get_descriptor`, bundle.py:87-96; `p` is the condition of :89-91; `i` index of the first descriptor -/
def findFrom (p : Descr → Bool) : List Descr → Nat → Nat → Option (Nat × Descr)
  | [], _, _ => none
  | d :: ds, i, k =>
    if p d then (if k = 0 then some (i, d) else findFrom p ds (i + 1) (k - 1)) else findFrom p ds (i + 1) k

def getDescriptor (p : Descr → Bool) (ds : List Descr) (k : Nat) : Option (Nat × Descr) := findFrom p ds 0 k

/-! ## Endpoints -/

/-- `UsbEndpointMeta`, bundle.py:17-40 -/
structure Meta where
  setup : Bool
  bulk : Bool
  interrupt : Bool
  iso : Bool
  mps : Nat
  buf : Nat
deriving DecidableEq

/-- new meta, bundle.py:22-40 -/
def newMeta (setup : Bool) (mps : Nat) : Meta := ⟨setup, false, false, false, mps, mps * 2⟩

abbrev Eps := List (Option Meta × Option Meta)

/-- the item `endpoints[addr][dir]` -/
def get (e : Eps) (addr : Nat) (dir : Bool) : Option Meta :=
  match e[addr]? with
  | none => none
  | some p => if dir then p.2 else p.1

/-- bundle.py:158-171 -/
def update (m : Meta) (sync mps : Nat) : Option Meta :=
  let m' := if sync = 0 then some { m with setup := true }
    else if sync = 1 then some { m with iso := true }
    else if sync = 2 then some { m with bulk := true }
    else if sync = 3 then some { m with interrupt := true }
    else none
  m'.map fun m => { m with mps := max m.mps mps, buf := max m.mps mps * 2 }

/-- body of the loop of `get_endpoint_meta`, bundle.py:136-171 -/
def metaStep (e : Eps) (d : Descr) : Option Eps :=
  match d.kind with
  | .other => some e
  | .device mps => if e.isEmpty then some [(some (newMeta true mps), some (newMeta true mps))] else none
  | .endpoint addr dir _ sync mps =>
    if addr = 0 then none
    else
      let e1 := e ++ List.replicate (addr + 1 - e.length) (none, none)
      match update ((get e1 addr dir).getD (newMeta false 0)) sync mps with
      | none => none
      | some m =>
        some (e1.modify addr fun p => if dir then (p.1, some m) else (some m, p.2))

/-- `get_endpoint_meta`, bundle.py:134-173 -/
def metas : List Descr → Eps → Option Eps
  | [], e => some e
  | d :: ds, e => (metaStep e d).bind (metas ds)

/-- the endpoint descriptors of `(addr, dir)`: `(transferType, synchronisationType, wMaxPacketSize)` -/
def ofEp (ds : List Descr) (addr : Nat) (dir : Bool) : List (Nat × Nat × Nat) :=
  ds.filterMap fun d => match d.kind with
    | .endpoint a r t s m => if a = addr ∧ r = dir then some (t, s, m) else none
    | _ => none

/-! ## String descriptors -/

/-- UTF-16 units of a code point -/
def units (c : Nat) : List Nat :=
  if c < 0x10000 then [c] else [0xD800 + (c - 0x10000) / 0x400, 0xDC00 + (c - 0x10000) % 0x400]

/-- bytes of a unit, little endian -/
def unitBytes (u : Nat) : List Nat := [u % 256, u / 256]

/-- python `s.encode("utf-16")` (little endian machine): the byte order mark and the units -/
def encodeUtf16 (s : List Nat) : List Nat := (0xFEFF :: s.flatMap units).flatMap unitBytes

/-- `make_usb_descriptor_string`, std.py:426-435 : `none` if the length does not fit `bLength` -/
def stringDescr (s : List Nat) : Option (List Nat) :=
  let b := encodeUtf16 s
  if 2 + b.length < 256 then some ((2 + b.length) :: 3 :: b) else none

/-- UTF-16LE units of bytes -/
def toUnits : List Nat → List Nat
  | a :: b :: r => (a + 256 * b) :: toUnits r
  | _ => []

/-- decoder of UTF-16 units, USB 2.0 specification 9.6.7 (the string is an array of UTF-16LE units) -/
def decodeUnits : List Nat → List Nat
  | [] => []
  | [u] => [u]
  | u :: v :: r =>
    if 0xD800 ≤ u ∧ u < 0xDC00 then (0x10000 + (u - 0xD800) * 0x400 + (v - 0xDC00)) :: decodeUnits r
    else u :: decodeUnits (v :: r)

/-- the string which the host gets from a string descriptor: bytes 2 to `bLength` -/
def hostString (d : List Nat) : List Nat := decodeUnits (toUnits ((d.take (d.headD 0)).drop 2))

/-- a unicode string: code points without surrogates -/
def IsStr (s : List Nat) : Prop := ∀ c ∈ s, c < 0xD800 ∨ (0xE000 ≤ c ∧ c < 0x110000)

end Verif.UsbBundle
