import Verif.Common
import Mathlib.Tactic

/-!
# USB 2.0: UTMI to ULPI adapter and the transmit side of the device SIE

* `Ulpi`: /repo/hwtLib/peripheral/usb/usb2/utmi_to_ulpi.py, class `Utmi_to_Ulpi` (lines 20-293).
* `SieTx`: /repo/hwtLib/peripheral/usb/usb2/sie_tx.py, class `Usb2SieDeviceTx` (lines 48-190): the
  `last` to gap converter (lines 73-84) and the handling of the buffered `tx_cmd` with `chirp`.

Simplifications (`Ulpi`)
* Bytes are natural numbers.  `function_control` without its `Reset` bit and `otg_control` are opaque
  register images (naturals); `Reset` is a separate bit.
* The enum value `w` of `state_t` (line 98) is never assigned and is left out.
* Registers start from their reset values.
* `ulpi.dir` is a `Bool`, `true` is `Ulpi.DIR.PHY`.

Simplifications (`SieTx`)
* The two frame deparsers, the CRC unit and the prioritised join are represented by the signals they
  produce (oracle inputs).  The input buffer (`buff(items=1)`) is a single handshaked register.
-/

namespace Verif.Ulpi

/-- `state_t`, line 98. -/
inductive St where
  | idle | cmd | data | reg
  deriving DecidableEq, Repr

/-- `utmi_interrupt_t` (ulpi.py lines 164-170). -/
structure Irq where
  hostDisconnect : Bool
  vbusValid : Bool
  sessValid : Bool
  sessEnd : Bool
  idGnd : Bool
  deriving DecidableEq, Repr

/-- The registers of the component, lines 45 and 99-146. -/
structure Link where
  st : St
  modeUpd : Bool
  fc : Nat
  fcReset : Bool
  modeWr : Bool
  otgUpd : Bool
  otg : Nat
  otgWr : Bool
  dirq : Bool
  /-- `ulpi_data_q` -/
  dq : Nat
  stp : Bool
  /-- `data_q` -/
  wdata : Nat
  rxvalid : Bool
  rxerror : Bool
  rxactive : Bool
  linestate : Nat
  rxdata : Nat
  irq : Irq
  deriving DecidableEq, Repr

/-- Inputs: ULPI `dir`, `nxt`, `data.i`; UTMI `tx.vld`, `tx.data`, `function_control`, its `Reset` and
`otg_control`. -/
structure In where
  dir : Bool
  nxt : Bool
  di : Nat
  vld : Bool
  d : Nat
  fc : Nat
  fcReset : Bool
  otg : Nat
  deriving DecidableEq, Repr

/-- `ULPI_TX_CMD.REGW(addr)` (ulpi.py lines 51-58). -/
def regw (addr : Nat) : Nat := 128 + addr % 64

/-- `ULPI_REG.Function_Control` (ulpi.py line 98). -/
def regFc : Nat := 4

/-- `ULPI_REG.OTG_Control` (ulpi.py line 100). -/
def regOtg : Nat := 10

/-- `ULPI_TX_CMD.USB_PID(pid[4:0])` (ulpi.py lines 39-48). -/
def usbPid (d : Nat) : Nat := 64 + d % 16

/-- Reset values: lines 45 and 99-146, defaults in ulpi.py lines 141-170 (`XcvrSelect` = 1 and
`SuspendM` = 1 give 0x41, `DpPulldown` and `DmPulldown` give 0x06). -/
def init : Link :=
  ⟨.idle, false, 65, false, false, false, 6, false, true, 0, false, 0, false, false, false, 0, 0,
    ⟨false, false, false, false, false⟩⟩

/-- `turnaround_w`, line 47. -/
def turn (s : Link) (i : In) : Bool := s.dirq != i.dir

/-- The LINK owns the bus: `~turnaround_w & dir._eq(LINK)`. -/
def own (s : Link) (i : In) : Bool := !turn s i && !i.dir

/-- `mode_complete_w`, line 110. -/
def modeComplete (s : Link) (i : In) : Bool := s.st == .reg && s.modeWr && i.nxt && !i.dir

/-- `otg_complete_w`, line 119. -/
def otgComplete (s : Link) (i : In) : Bool := s.st == .reg && s.otgWr && i.nxt && !i.dir

/-- `utmi_tx_accept_w` = `utmi.tx.rd`, lines 185-192. -/
def accept (s : Link) (i : In) : Bool :=
  own s i && ((s.st == .idle && !(s.modeUpd || s.otgUpd || turn s i)) || (s.st == .data && i.nxt))

/-- The enable of the tristate driver of each data wire, line 285 (ulpi_agent.py: "should be 0 in rx
and turnaround else mask(8)"). -/
def drive (s : Link) (i : In) : Bool := accept s i

/-- The image of the function control register, `& mask(7)` at line 242; `Reset` is bit 5. -/
def fcByte (fc : Nat) (r : Bool) : Nat := (fc + if r then 32 else 0) % 128

/-- `parse_RX_CMD`, the interrupt part (lines 54-68, 76-78, 82). -/
def irqCmd (q : Irq) (d : Nat) : Irq :=
  let q := match d / 4 % 4 with
    | 0 => { q with sessEnd := true, sessValid := false, vbusValid := false }
    | 1 => { q with sessEnd := false, sessValid := false, vbusValid := false }
    | 2 => { q with sessValid := true, vbusValid := false }
    | _ => { q with vbusValid := true }
  let q := if d / 16 % 4 = 2 then { q with hostDisconnect := true } else q
  { q with idGnd := d / 64 % 2 = 1 }

/-- `parse_RX_CMD`, `utmi_rxactive_q` (lines 69-81). -/
def activeCmd (a : Bool) (d : Nat) : Bool :=
  match d / 16 % 4 with
  | 0 => false
  | 1 => true
  | 2 => a
  | _ => true

/-- `parse_RX_CMD`, `utmi_rxerror_q` (lines 69-81). -/
def errorCmd (e : Bool) (d : Nat) : Bool :=
  match d / 16 % 4 with
  | 0 => false
  | 1 => false
  | 2 => e
  | _ => true

/-- The part of the registers written at every clock edge (lines 46, 150-169, 194-199). -/
def nextCommon (s : Link) (i : In) : Link :=
  let doneM := s.modeUpd && modeComplete s i
  let doneO := s.otgUpd && otgComplete s i
  { s with
    fc := i.fc
    fcReset := if doneM then false else i.fcReset
    modeUpd := if doneM then false
      else if (s.fc != i.fc || s.fcReset != i.fcReset) || i.fcReset then true else s.modeUpd
    otg := i.otg
    otgUpd := if doneO then false else if s.otg != i.otg then true else s.otgUpd
    dirq := i.dir
    stp := own s i && i.nxt && (s.st == .reg || (s.st == .data && !i.vld))
    rxvalid := !turn s i && i.dir && i.nxt }

/-- The output part of the state machine, lines 237-280. -/
def nextOutput (s : Link) (i : In) (n : Link) : Link :=
  match s.st with
  | .idle =>
    if s.modeUpd then
      { n with st := .cmd, dq := regw regFc, wdata := fcByte s.fc s.fcReset, otgWr := false, modeWr := true }
    else if s.otgUpd then
      { n with st := .cmd, dq := regw regOtg, wdata := s.otg, otgWr := true, modeWr := false }
    else if i.vld then { n with dq := usbPid i.d, st := .data }
    else n
  | .cmd => if i.nxt then { n with st := .reg, dq := s.wdata } else n
  | .reg => if i.nxt then { n with st := .idle, dq := 0, otgWr := false, modeWr := false } else n
  | .data =>
    if i.nxt then
      if i.vld then { n with st := .data, dq := i.d } else { n with st := .idle, dq := 0 }
    else n

/-- Abort of a register write, lines 205-208 and 212-215. -/
def abort (s n : Link) : Link := if s.st = .reg then { n with st := .idle, dq := 0 } else n

/-- One clock cycle, lines 149-282. -/
def next (s : Link) (i : In) : Link :=
  let n := nextCommon s i
  if turn s i then
    if i.dir then
      if i.nxt then abort s { n with rxactive := true } else n
    else abort s { n with rxactive := false }
  else if i.dir then
    if i.nxt then { n with rxactive := true, rxdata := i.di }
    else { n with
      linestate := i.di % 4
      irq := irqCmd s.irq i.di
      rxactive := activeCmd s.rxactive i.di
      rxerror := errorCmd s.rxerror i.di }
  else nextOutput s i n

/-- The state after a list of inputs. -/
def run (s : Link) (is : List In) : Link := is.foldl next s

end Verif.Ulpi

namespace Verif.SieTx

/-- `_Axi4Stream_to_Utmi_8b_tx`, the inputs: the stream word and `tx.rd`. -/
structure CIn where
  valid : Bool
  last : Bool
  d : Nat
  rd : Bool
  deriving DecidableEq, Repr

/-- Outputs: `axis.ready` and `tx.vld` (line 78: the node is synchronised with `~last_delayed`). -/
structure COut where
  ready : Bool
  vld : Bool
  d : Nat
  deriving DecidableEq, Repr

def cOut (ld : Bool) (i : CIn) : COut := ⟨i.rd && !ld, i.valid && !ld, i.d⟩

/-- `last_delayed`, lines 79-83. -/
def cNext (ld : Bool) (i : CIn) : Bool :=
  if ld && i.rd then false else if i.valid && i.last && i.rd then true else ld

def conv : Machine Bool CIn COut := ⟨cOut, cNext⟩

/-- A word of `tx_cmd` in the buffer of line 108: `chirp`, and whether `pid` is a handshake or a data
pid (lines 109-110). -/
structure Cmd where
  chirp : Bool
  isHs : Bool
  isData : Bool
  deriving DecidableEq, Repr

/-- The input buffer and `last_delayed`. -/
structure State where
  buf : Option Cmd
  ld : Bool
  deriving DecidableEq, Repr

structure In where
  /-- `tx_cmd` offered by the user -/
  cmd : Option Cmd
  /-- `tx.rd` -/
  rd : Bool
  /-- register `crc16_valid` -/
  crcVld : Bool
  /-- `deparser_hs.dataIn.pid.rd` -/
  hsRd : Bool
  /-- `payload_in.ready` -/
  payRd : Bool
  /-- the word on `_axis_tx`: valid, last, data -/
  jv : Bool
  jl : Bool
  jd : Nat
  deriving DecidableEq, Repr

structure Out where
  /-- `tx_cmd.ready` seen by the user -/
  cmdRd : Bool
  vld : Bool
  d : Nat
  deriving DecidableEq, Repr

/-- `tx_cmd` (after the buffer) consumed, lines 109-110 and 145-150. -/
def consume (s : State) (i : In) : Bool :=
  match s.buf with
  | none => false
  | some c => !i.crcVld && ((!c.chirp && c.isHs && i.hsRd) || (!c.chirp && c.isData && i.payRd))

/-- `tx_cmd.valid & tx_cmd.chirp`, line 179. -/
def chirping (s : State) : Bool :=
  match s.buf with
  | none => false
  | some c => c.chirp

/-- The input of the converter, lines 179-186. -/
def cin (s : State) (i : In) : CIn :=
  if chirping s then ⟨true, false, 0, i.rd⟩ else ⟨i.jv, i.jl, i.jd, i.rd⟩

def out (s : State) (i : In) : Out :=
  let o := cOut s.ld (cin s i)
  ⟨s.buf.isNone || consume s i, o.vld, o.d⟩

def next (s : State) (i : In) : State :=
  ⟨if s.buf.isNone || consume s i then i.cmd else s.buf, cNext s.ld (cin s i)⟩

def machine : Machine State In Out := ⟨out, next⟩

def init : State := ⟨none, false⟩

end Verif.SieTx
