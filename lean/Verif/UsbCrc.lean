import Verif.Crc

/-!
# CRC of USB packets: `Usb2SieDeviceTx`, `Usb2SieDeviceRx`, simulation agents

* `hwtLib/logic/crc_test_utils.py` `NaiveCrcAccumulator` (lines 9-105): a Python int is the function of its bits.
* `hwtLib/peripheral/usb/sim/agent_base.py` `UsbPacketToken.crc5` (29-33), `UsbPacketData.crc16` (84-88) and
  `hwtLib/peripheral/usb/usb2/utmi_usb_agent.py` `deparse_packet` (55-80).
* `hwtLib/peripheral/usb/usb2/sie_tx.py` lines 141-163 and `sie_rx.py` lines 262-283: the instance of `Crc` (model of
  `Crc.lean`) and the order in which its output is used. The movement of bytes (deparser, parser, `StreamNode`) is not part of
  this model: the payload is the list of the bytes with `keep`, `Crc` starts from `INIT` for each packet (its reset is the
  transfer of the CRC field) and `crc16` is sent/received as two bytes, low byte first.

`for b in signal` iterates the bits from the least significant one, the first argument of `Concat` is the most significant
part.
-/

namespace Verif.UsbCrc

open Verif Verif.Crc

/-- a byte from its bits -/
def byteOf (f : Nat → Bool) : Nat :=
  (f 0).toNat + 2 * (f 1).toNat + 4 * (f 2).toNat + 8 * (f 3).toNat + 16 * (f 4).toNat + 32 * (f 5).toNat +
    64 * (f 6).toNat + 128 * (f 7).toNat

/-! ## `NaiveCrcAccumulator` -/

structure Params where
  WIDTH : Nat
  POLY : Nat
  INIT : Nat
  XOROUT : Nat
  REFIN : Bool
  REFOUT : Bool

/-- `reverse_bits(v, w)` -/
def revBits (w : Nat) (v : Bits) : Bits := fun j => decide (j < w) && v (w - 1 - j)

/-- lines 29-40 -/
def polyMask (p : Params) : Bits :=
  let m : Bits := fun j => p.POLY.testBit j && decide (j < p.WIDTH)
  if p.REFIN then revBits p.WIDTH m else m

/-- `takeBit`, lines 56-72 -/
def takeBit (p : Params) (v : Bits) (bit : Bool) : Bits :=
  let outBit := if p.REFIN then v 0 else v (p.WIDTH - 1)
  let sh : Bits := if p.REFIN then fun j => v (j + 1)
    else fun j => (match j with | 0 => false | j + 1 => v j) && decide (j < p.WIDTH)
  if outBit ^^ bit then fun j => sh j ^^ polyMask p j else sh

/-- `takeWord`, lines 74-93 -/
def takeWord (p : Params) (v : Bits) (word width : Nat) : Bits :=
  let idx := if p.REFOUT then List.range width else (List.range width).reverse
  (idx.map word.testBit).foldl (takeBit p) v

/-- `getFinalValue`, lines 101-112 -/
def getFinalValue (p : Params) (v : Bits) : Bits :=
  let x : Bits := fun j => v j ^^ p.XOROUT.testBit j
  if p.REFOUT then revBits p.WIDTH x else x

/-- words given to `takeWord` one after another, from `reset` -/
def naive (p : Params) (ws : List (Nat × Nat)) : Bits :=
  getFinalValue p (ws.foldl (fun v w => takeWord p v w.1 w.2) p.INIT.testBit)

/-! ## agents -/

/-- `logic/crcPoly.py` `CRC_16_USB`, `CRC_5_USB` -/
def crc16Usb : Params := ⟨16, 0x8005, 0xFFFF, 0xFFFF, true, true⟩
def crc5Usb : Params := ⟨5, 0x05, 0x1F, 0x1F, true, true⟩

/-- `UsbPacketData.crc16` -/
def agentCrc16 (payload : List Nat) : Bits := naive crc16Usb (payload.map fun b => (b, 8))
/-- `UsbPacketToken.crc5` -/
def agentCrc5 (addr endp : Nat) : Bits := naive crc5Usb [(addr, 7), (endp, 4)]

/-- two bytes of a 16 bit value, low first -/
def bytes16 (f : Bits) : List Nat := [byteOf f, byteOf fun j => f (8 + j)]

/-- `deparse_packet` of `UsbPacketData` -/
def agentData (pid : Nat) (payload : List Nat) : List Nat := ((15 - pid) * 16 + pid) :: payload ++ bytes16 (agentCrc16 payload)

/-- `deparse_packet` of `UsbPacketToken`: a little endian struct of pid, pid_inv, addr (7b), endp (4b), crc5 -/
def agentToken (pid addr endp : Nat) : List Nat :=
  [(15 - pid) * 16 + pid, byteOf fun j => if j < 7 then addr.testBit j else endp.testBit 0,
    byteOf fun j => if j < 3 then endp.testBit (j + 1) else agentCrc5 addr endp (j - 3)]

/-! ## hardware -/

/-- `Crc.setConfig(CRC_16_USB)`, `DATA_WIDTH = 8` -/
def hwCfg : Crc.Cfg := ⟨16, Nat.testBit 0x8005, Nat.testBit 0xFFFF, true, true, Nat.testBit 0xFFFF, false⟩

/-- `crc16.dataOut` after the payload -/
def hwOut (payload : List Nat) : Bits := finish hwCfg ((seq hwCfg 1 false).final hwCfg.init (payload.map fun b => ⟨true, b.testBit⟩))

/-- `Concat(*(b for b in crc16.dataOut))`, sie_tx.py:162, sie_rx.py:281 -/
def hwField (payload : List Nat) : Bits := fun j => hwOut payload (15 - j)

/-- data packet on UTMI tx, sie_tx.py:98-118 -/
def txData (pid : Nat) (payload : List Nat) : List Nat := ((15 - pid) * 16 + pid) :: payload ++ bytes16 (hwField payload)

/-- `err_data_crc` for a packet with this payload and these two last bytes, sie_rx.py:278-281 -/
def rxErr (payload : List Nat) (lo hi : Nat) : Bool :=
  (List.range 16).any fun j => hwField payload j != (if j < 8 then lo.testBit j else hi.testBit (j - 8))

end Verif.UsbCrc
