import Verif.Common
/-!
# Simulation agents of SPI, peripheral/spi/intf.py:18-159

A master agent (driver) and a slave agent (monitor) on one SPI bus.  A step is one period of the SPI clock: the rising
edge and then the falling edge.  Processes of an edge first read the signals (`WaitCombRead`) and write later
(`WaitWriteOnly`, `Timer(1)`), so every process of an edge sees the values from before the edge.

Simplifications: no reset, the agents are enabled, valid values of all signals (the initial value of `miso` is any bit),
`rxData` has plain numbers; the state is divided to the part used at the rising edge and the one used at the falling edge.
-/
namespace Verif.SpiAg

/-- `splitBits`, :69-71; `get_bit(v, i)` for `i` from 7 down to 0 -/
def splitBits (v : Nat) : List Bool := [7, 6, 5, 4, 3, 2, 1, 0].map (fun i => v.testBit i)

/-- `mergeBits`, :73-83 -/
def mergeBits (bits : List Bool) : Nat := bits.foldl (fun v b => v * 2 + b.toNat) 0

/-- receiver part of an agent: `_rxBitBuff`, `rxData` -/
structure Rx where
  bits : List Bool
  data : List Nat
deriving DecidableEq, Repr

/-- transmitter part: `_txBitBuff`, `txData` -/
structure Tx where
  bits : List Bool
  data : List Nat
deriving DecidableEq, Repr

/-- `readRxSig`, :85-91 -/
def readRx (r : Rx) (d : Bool) : Rx :=
  if (r.bits ++ [d]).length = 8 then ⟨[], r.data ++ [mergeBits (r.bits ++ [d])]⟩ else ⟨r.bits ++ [d], r.data⟩

/-- `writeTxSig`, :93-101; the second item is the value of the signal after it -/
def writeTx (t : Tx) (sig : Bool) : Tx × Bool :=
  match t.bits with
  | b :: bs => (⟨bs, t.data⟩, b)
  | [] =>
    match t.data with
    | [] => (t, sig)
    | d :: ds =>
      match splitBits d with
      | b :: bs => (⟨bs, ds⟩, b)
      | [] => (⟨[], ds⟩, sig)

/-- state used at the rising edge: `cs`, `mosi`, the transmitter, chip selects and `slaveEn` of the master, the receiver and
`chipSelects` of the slave -/
structure Fwd where
  cs : Nat
  mosi : Bool
  tx : Tx
  sel : List Nat
  en : Bool
  rx : Rx
  got : List Nat
deriving DecidableEq, Repr

/-- state used at the falling edge: `miso`, the receiver of the master, the transmitter of the slave -/
structure Back where
  miso : Bool
  rx : Rx
  tx : Tx
deriving DecidableEq, Repr

/-- `monitorRx`, :103-111; `m` = csMask -/
def monitorRx (m : Nat) (s : Fwd) : Rx × List Nat :=
  if s.cs ≠ m then (readRx s.rx s.mosi, if s.rx.bits = [] then s.got ++ [s.cs] else s.got) else (s.rx, s.got)

/-- `driverTx`, :132-149 -/
def driverTx (m : Nat) (s : Fwd) : Fwd :=
  if s.tx.bits = [] then
    match s.sel with
    | [] => { s with en := false, cs := m }
    | c :: rest =>
      { s with en := true, cs := c, sel := rest, tx := (writeTx s.tx s.mosi).1, mosi := (writeTx s.tx s.mosi).2 }
  else { s with tx := (writeTx s.tx s.mosi).1, mosi := (writeTx s.tx s.mosi).2 }

/-- rising edge -/
def rise (m : Nat) (s : Fwd) : Fwd :=
  { driverTx m s with rx := (monitorRx m s).1, got := (monitorRx m s).2 }

/-- falling edge: `driverRx`, :127-130, `monitorTx`, :117-125 -/
def fall (m : Nat) (f : Fwd) (b : Back) : Back :=
  { rx := if f.en then readRx b.rx b.miso else b.rx
    tx := if f.cs ≠ m then (writeTx b.tx b.miso).1 else b.tx
    miso := if f.cs ≠ m then (writeTx b.tx b.miso).2 else b.miso }

/-- one period of the clock -/
def step (m : Nat) (s : Fwd × Back) : Fwd × Back := (rise m s.1, fall m (rise m s.1) s.2)

def run (m : Nat) : Nat → Fwd × Back → Fwd × Back
  | 0, s => s
  | n + 1, s => run m n (step m s)

/-- both agents before the first period with data for the master, chip selects and data for the slave; `x`, `y` = initial
values of the data signals -/
def start (m : Nat) (x y : Bool) (ds cs es : List Nat) : Fwd × Back :=
  (⟨m, x, ⟨[], ds⟩, cs, false, ⟨[], []⟩, []⟩, ⟨y, ⟨[], []⟩, ⟨[], es⟩⟩)

end Verif.SpiAg
