import Verif.Common
/-!
# Checksum of transmitted frames in EthernetMac, peripheral/ethernet/mac.py:205-266

The words of `eth.tx` go to the CRC unit and to the `data` stream of the frame deparser at once; the checksum goes to its `fcs`
input.  `C` is the state of the CRC unit (logic/crc.py), `upd` its next state for a word (with mask), `fin` the output bits
(inversion, XOROUT).

Simplifications: the deparser is the environment, its ready signals are inputs (`Patient` in the properties says what is needed from
it); `crc.dataIn.rd` is always 1 (crc.py:89) and LATENCY is 0, so `crc.dataOut` is `fin` of the next state (crc.py:127-128).
-/
namespace Verif.EthMacTx

variable {C W F : Type}

structure In (W : Type) where
  valid : Bool
  last : Bool
  word : W
  /-- `ff.dataIn.data.ready` -/
  dataRd : Bool
  /-- `ff.dataIn.fcs.rd` -/
  fcsRd : Bool

structure St (C F : Type) where
  crc : C
  tmp : F
  vld : Bool

structure Out (F : Type) where
  txReady : Bool
  dataVld : Bool
  fcsVld : Bool
  fcs : F

/-- `crc.dataIn.vld`, mac.py:246-247 -/
def crcVld (i : In W) : Bool := i.valid && i.dataRd

/-- next state of the CRC unit without the restart, crc.py:103-127 -/
def crcNext (upd : C → W → C) (s : St C F) (i : In W) : C := if crcVld i then upd s.crc i.word else s.crc

def out (upd : C → W → C) (fin : C → F) (s : St C F) (i : In W) : Out F where
  txReady := i.dataRd
  dataVld := i.valid
  fcsVld := s.vld || (crcVld i && i.last)
  fcs := if crcVld i && i.last then fin (crcNext upd s i) else s.tmp

def next (upd : C → W → C) (init : C) (fin : C → F) (s : St C F) (i : In W) : St C F where
  crc := if crcVld i && i.last then init else crcNext upd s i
  tmp := if crcVld i && i.last then fin (crcNext upd s i) else s.tmp
  vld := if crcVld i && i.last then !i.fcsRd else if i.fcsRd then false else s.vld

def mac (upd : C → W → C) (init : C) (fin : C → F) : Machine (St C F) (In W) (Out F) where
  out := out upd fin
  next := next upd init fin

end Verif.EthMacTx
