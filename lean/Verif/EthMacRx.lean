import Verif.Axi4sEq
import Verif.FooterSplit
import Verif.AxisFifoDrop
import Verif.HsFifo
/-!
# Model of the receiver of `EthernetMac` (hwtLib/peripheral/ethernet/mac.py:84-203), `DATA_WIDTH = 8`

The receiver is composed from models of its components:
the comparator of the MAC address (`Axi4sEq`), the cutter of the FCS (`FooterSplit` with words of 1 byte and a footer of 4 bytes,
amba/axis_comp/frame_parser/_parser.py:303-331), the fifo with dropping (`AxisFifoDrop`) and the buffer behind it
(`HsFifo` of depth 4, abstract/streamBuilder.py:159-219).

Simplifications:
* the register of the CRC and the comparison with the residue (:200-201, logic/crc.py) are a predicate `good` on the bytes of the
  frame received up to now (the state of `Crc` is a function of bytes since the last `last`, see `Crc.lean`);
* the register of `phy_rx` (:145) has no reset, it is taken empty: it copies the idle `phy_rx` while the reset is active;
* `rx_mac_parser` (:122-127) is an index of the byte 0..6 (parser_fsm with `OVERFLOW_SUPPORT`, _parser.py:205-275).
-/
namespace Verif.EthMacRx

/-- `RX_FIFO_DEPTH`, the comparator (with `DEFAULT_MAC_ADDR` as a number, the first byte lowest, :85-89), and `good`. -/
structure Cfg where
  depth : Nat
  mac : Nat
  good : List Nat → Bool

def Cfg.eq (c : Cfg) : Axi4sEq.Cfg := ⟨8, 48, c.mac⟩

def cut : FooterSplit.Cfg := ⟨1, 4⟩

abbrev W := AxisFifoDrop.W Nat

/-- `vld`, `data`, `err`, `last` of `phy_rx` (vldsynced_data_err_last.py:8-20). -/
structure Phy where
  vld : Bool
  data : Nat
  err : Bool
  last : Bool
deriving DecidableEq, Repr

structure In where
  phy : Phy
  /-- `eth.rx.ready` -/
  rd : Bool
deriving DecidableEq, Repr

structure St where
  /-- `phy_rx_reg` -/
  din : Phy
  /-- `wordIndex` of the child of `rx_mac_parser` -/
  widx : Nat
  /-- registers of `rx_mac_filter` -/
  eq : Axi4sEq.St
  /-- bytes in the register of `rx_crc` -/
  crc : List Nat
  cut : FooterSplit.St Nat
  fifo : AxisFifoDrop.St Nat
  buf : HsFifo.St W
  /-- `rx_err_in_this_frame` -/
  errF : Bool
  /-- `rx_fcs_good_in_this_frame` -/
  goodF : Bool

/-! ## Signals -/

/-- Input of the FCS cutter, :147-161 (the address parser is always ready as `is_my_mac.rd` is 1, :197);
the cut bytes are ignored (_parser.py:333-335). -/
def cutIn (c : Cfg) (s : St) : FooterSplit.In Nat :=
  ⟨s.din.vld, ⟨[s.din.data], s.din.last⟩, (AxisFifoDrop.out c.depth s.fifo).rd, true⟩

def cutRd (c : Cfg) (s : St) : Bool := (FooterSplit.out cut s.cut (cutIn c s)).rd

/-- Input of the comparator of the address; `dst.valid` is `din.valid & ~parsing_overflow`, `dst.last` is `wordIndex == 5`. -/
def eqIn (c : Cfg) (s : St) : Axi4sEq.In := ⟨s.din.vld && cutRd c s && s.widx != 6, s.din.data, s.widx == 5, true⟩

/-- :198 -/
def notMyMac (c : Cfg) (s : St) : Bool :=
  let o := Axi4sEq.out c.eq s.eq (eqIn c s)
  o.vld && !o.data

/-- :199 -/
def phyErr (s : St) : Bool := s.din.err && s.din.vld

def residue (c : Cfg) (s : St) : Bool := c.good (s.crc ++ [s.din.data])

/-- :200, :201 -/
def fcsGood (c : Cfg) (s : St) : Bool := s.din.vld && s.din.last && residue c s
def fcsBad (c : Cfg) (s : St) : Bool := s.din.vld && s.din.last && !residue c s

/-- :202 -/
def outOfMem (c : Cfg) (s : St) : Bool := !cutRd c s && s.din.vld

/-- :112 -/
def errors (c : Cfg) (s : St) : Bool := fcsBad c s || outOfMem c s || phyErr s || notMyMac c s

/-- Input of the fifo, :171, :183. Words have one byte and no `strb`. -/
def fifoIn (c : Cfg) (s : St) : AxisFifoDrop.In Nat :=
  let o := FooterSplit.out cut s.cut (cutIn c s)
  { vld := o.out0.isSome
    w := ⟨(FooterSplit.outReg cut s.cut).w.bytes.headD 0, FooterSplit.last0 cut s.cut (cutIn c s)⟩
    discard := (s.din.vld && errors c s) || s.errF
    rd := !Fifo.writeWait s.buf.fifo }

/-- `data.valid & data.last` of the buffer. -/
def lastWaits (s : St) : Bool := s.buf.outVld && s.buf.fifo.dout.last

/-- :189 `not_fcs_check_wait` -/
def noWait (s : St) : Bool := !s.buf.outVld || !s.buf.fifo.dout.last || s.goodF || s.errF

/-- Input of the buffer, :172, :190-192. -/
def bufIn (c : Cfg) (s : St) (rd : Bool) : HsFifo.In W :=
  ⟨(AxisFifoDrop.out c.depth s.fifo).vld, (AxisFifoDrop.out c.depth s.fifo).w, rd && noWait s⟩

/-- `eth.rx.valid`, data and last. -/
structure Out where
  vld : Bool
  w : W

def out (s : St) : Out := ⟨s.buf.outVld && noWait s, s.buf.fifo.dout⟩

/-- Flags: :174-182. -/
def next (c : Cfg) (s : St) (x : In) : St where
  din := x.phy
  widx := if s.din.vld && cutRd c s then (if s.din.last then 0 else if s.widx != 6 then s.widx + 1 else s.widx) else s.widx
  eq := Axi4sEq.next c.eq s.eq (eqIn c s)
  crc := if s.din.vld then (if s.din.last then [] else s.crc ++ [s.din.data]) else s.crc
  cut := FooterSplit.next cut s.cut (cutIn c s)
  fifo := AxisFifoDrop.next c.depth s.fifo (fifoIn c s)
  buf := HsFifo.next 4 s.buf (bufIn c s x.rd)
  errF := if lastWaits s then false else s.din.vld && errors c s
  goodF := if lastWaits s then false else s.goodF || fcsGood c s

def machine (c : Cfg) : Machine St In Out := ⟨fun s _ => out s, next c⟩

/-- State after the reset; contents of memories and of data registers are arbitrary. -/
structure IsInit (c : Cfg) (s : St) : Prop where
  din : s.din.vld = false
  widx : s.widx = 0
  eq : s.eq = Axi4sEq.init
  crc : s.crc = []
  cut : FooterSplit.IsInit s.cut
  fifo : ∃ mem0 d0, s.fifo = AxisFifoDrop.init c.depth mem0 d0
  buf : ∃ mem0 d0, s.buf = HsFifo.init 4 [] mem0 d0
  errF : s.errF = false
  goodF : s.goodF = false

/-! ## Observations on the ports -/

/-- Words taken on `eth.rx`. -/
def delivered (tr : List (In × Out)) : List (Nat × Bool) :=
  tr.filterMap fun e => if e.2.vld && e.1.rd then some (e.2.w.d, e.2.w.last) else none

/-- Words on `phy_rx`. -/
def received (is : List In) : List (Nat × Bool) :=
  is.filterMap fun x => if x.phy.vld then some (x.phy.data, x.phy.last) else none

end Verif.EthMacRx
