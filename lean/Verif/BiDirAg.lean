import Verif.Common
/-!
# Agents of bidirectional ready/valid interfaces, commonHwIO/addr_data_bidir.py, handshaked/hwIOBiDirectional.py

The driver agent sends items (`set_data`) and at the acknowledge of each it reads the value which goes in the opposite direction
(`onDriverWriteAck`) into its `dinData`.  The monitor agent writes the opposite value from its `dinData` when it is ready
(`onMonitorReady`) and takes the item (`get_data`).  `run` does handshakes until one side has nothing left
(`notReset` of the monitor, hwIOBiDirectional.py:49-54).

Simplifications: the ready/valid protocol itself is in the base agent (package hwt), only the accesses to the data signals in
one handshake are modelled; they do not depend on the clocks between handshakes because signals hold their values; `x` values
do not appear.
-/
namespace Verif.BiDirAg

/-- accesses of an agent class: `S` data signals, `A` opposite items, `B` items of the driver -/
structure Agent (S A B : Type) where
  onMonitorReady : S → A → S
  onDriverWriteAck : S → A
  getData : S → B
  setData : S → B → S

structure St (S A B : Type) where
  sig : S
  /-- `dinData` of the monitor -/
  monDin : List A
  /-- `data` of the monitor -/
  monData : List B
  /-- `data` of the driver -/
  drvData : List B
  /-- `dinData` of the driver -/
  drvDin : List A

/-- one handshake -/
def shake {S A B : Type} (ag : Agent S A B) (s : St S A B) : St S A B :=
  match s.drvData, s.monDin with
  | b :: bs, a :: as =>
    let sig := ag.onMonitorReady (ag.setData s.sig b) a
    { sig := sig, monDin := as, monData := s.monData ++ [ag.getData sig], drvData := bs, drvDin := s.drvDin ++ [ag.onDriverWriteAck sig] }
  | _, _ => s

def run {S A B : Type} (ag : Agent S A B) : Nat → St S A B → St S A B
  | 0, s => s
  | n + 1, s => run ag n (shake ag s)

/-- data signals of all these interfaces; unused ones are not touched -/
structure Sig where
  din : Nat
  dout : Nat
  addr : Nat
  addrIn : Nat
  addrOut : Nat
  data : Nat
deriving DecidableEq

/-- `HwIORdVldSyncBiDirectionalDataAgent`, hwIOBiDirectional.py:56-76 -/
def biDir : Agent Sig Nat Nat where
  onMonitorReady s d := { s with din := d }
  onDriverWriteAck s := s.din
  getData s := s.dout
  setData s d := { s with dout := d }

/-- `HwIOAddrOutDataInRdVldAgent`, addr_data_bidir.py:31-52 -/
def addrOutDataIn : Agent Sig Nat Nat where
  onMonitorReady s d := { s with data := d }
  onDriverWriteAck s := s.data
  getData s := s.addr
  setData s d := { s with addr := d }

/-- `HwIOAddrInOutDataInRdVldAgent`, addr_data_bidir.py:77-100 -/
def addrInOutDataIn : Agent Sig (Nat × Nat) Nat where
  onMonitorReady s d := { s with addrIn := d.1, data := d.2 }
  onDriverWriteAck s := (s.data, s.data)
  getData s := s.addrOut
  setData s d := { s with addrOut := d }

/-- `HwIOAddrInDataOutRdVldAgent`, addr_data_bidir.py:124-145 -/
def addrInDataOut : Agent Sig Nat Nat where
  onMonitorReady s d := { s with addr := d }
  onDriverWriteAck s := s.addr
  getData s := s.data
  setData s d := { s with data := d }

end Verif.BiDirAg
