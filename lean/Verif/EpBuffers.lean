import Verif.AxisFifoDrop
import Verif.AxisFifoCopy
import Verif.HsFifo

/-!
# Model of `UsbDeviceEpBuffers` (hwtLib/peripheral/usb/usb2/device_ep_buffers.py)

Buffers between the USB core and the functions of the device, one `Axi4SFifoDrop` for each OUT endpoint and one `Axi4SFifoCopy` with a fifo of
marks of complete packets for each IN endpoint.

Simplifications
* Signals of one word except `last` are one value of any type, `user` (receive error) is a separate input.
* `Switch(usb_endp.data)` of data: the data of the selected endpoint; for an endpoint which does not exist the value is not defined (`none`).
-/

namespace Verif.EpBuffers

universe u
variable {α : Type u}

/-! ## From the host: `connect_rx_part` -/

/-- `rx_channels` (device_ep_buffers.py:148-158): indexes of endpoints with rx and DEPTH of their fifo, 0 if there is none. -/
structure RxCfg where
  eps : List Nat
  depth : Nat → Nat

structure RxIn (α : Type u) where
  /-- `usb_core_io.endp` -/
  endpVld : Bool
  endp : Nat
  /-- `usb_core_io.rx` -/
  vld : Bool
  w : AxisFifoDrop.W α
  err : Bool
  /-- `ep[i].rx.ready` -/
  rdy : Nat → Bool

abbrev RxSt (α : Type u) := Nat → AxisFifoDrop.St α

/-- Ready of the channel: of the fifo or of the endpoint. -/
def rxRd (c : RxCfg) (s : RxSt α) (x : RxIn α) (i : Nat) : Bool :=
  if c.depth i = 0 then x.rdy i else (AxisFifoDrop.out (c.depth i) (s i)).rd

/-- `usb_core_io.rx.ready`: StreamNode with `skipWhen` (device_ep_buffers.py:58-61, :74-78). -/
def rxReady (c : RxCfg) (s : RxSt α) (x : RxIn α) : Bool :=
  x.endpVld && c.eps.all fun j => rxRd c s x j || x.endp != j

/-- Valid of the channel (device_ep_buffers.py:74-78). -/
def rxValid (c : RxCfg) (s : RxSt α) (x : RxIn α) (i : Nat) : Bool :=
  x.vld && (c.eps.filter (· != i)).all (fun j => rxRd c s x j || x.endp != j) && x.endp == i && !(x.endp != i) && x.endpVld

/-- `rx_fifo.dataIn_discard` of each fifo (device_ep_buffers.py:72) -/
def rxDiscard (x : RxIn α) : Bool := x.vld && x.w.last && x.err

def rxFifoIn (c : RxCfg) (s : RxSt α) (x : RxIn α) (i : Nat) : AxisFifoDrop.In α := ⟨rxValid c s x i, x.w, rxDiscard x, x.rdy i⟩

def rxNext (c : RxCfg) (s : RxSt α) (x : RxIn α) : RxSt α := fun i =>
  if c.depth i = 0 then s i else AxisFifoDrop.next (c.depth i) (s i) (rxFifoIn c s x i)

/-- `ep[i].rx` valid and word (device_ep_buffers.py:64-70). -/
def rxOut (c : RxCfg) (s : RxSt α) (x : RxIn α) (i : Nat) : Bool × AxisFifoDrop.W α :=
  if c.depth i = 0 then (rxValid c s x i, x.w)
  else ((AxisFifoDrop.out (c.depth i) (s i)).vld, (AxisFifoDrop.out (c.depth i) (s i)).w)

/-- device_ep_buffers.py:80 -/
def rxStall (c : RxCfg) (x : RxIn α) : Bool := !c.eps.contains x.endp

def rxInit (c : RxCfg) (mem0 : Nat → Nat → AxisFifoDrop.W α) (d0 : Nat → AxisFifoDrop.W α) : RxSt α := fun i =>
  AxisFifoDrop.init (c.depth i) (mem0 i) (d0 i)

/-! ## To the host: `connect_tx_part` -/

/-- `tx_channels` (device_ep_buffers.py:160-176): endpoints with tx, DEPTH of the fifo (0 if there is none) and of the fifo of marks. -/
structure TxCfg where
  eps : List Nat
  depth : Nat → Nat
  pdepth : Nat → Nat

structure TxIn (α : Type u) where
  endpVld : Bool
  endp : Nat
  /-- `usb_core_io.tx.ready` -/
  rdy : Bool
  /-- `ep[i].tx` -/
  vld : Nat → Bool
  w : Nat → AxisFifoCopy.W α

structure TxCh (α : Type u) where
  fifo : AxisFifoCopy.St α
  pbf : HsFifo.St Unit

abbrev TxSt (α : Type u) := Nat → TxCh α

/-- Valid of the data of the channel: of the fifo or of the endpoint. -/
def fVld (c : TxCfg) (s : TxSt α) (x : TxIn α) (j : Nat) : Bool := if c.depth j = 0 then x.vld j else (s j).fifo.outVld

/-- The word of the channel. -/
def chWord (c : TxCfg) (s : TxSt α) (x : TxIn α) (j : Nat) : AxisFifoCopy.W α :=
  if c.depth j = 0 then x.w j else (AxisFifoCopy.out (c.depth j) (s j).fifo).w

/-- Condition of the data of the channel `j` for others (`vld | skipWhen`). -/
def fOk (c : TxCfg) (s : TxSt α) (x : TxIn α) (j : Nat) : Bool := fVld c s x j || x.endp != j

/-- Condition of the mark of the channel `j` for others, if there is a fifo. -/
def pOk (c : TxCfg) (s : TxSt α) (x : TxIn α) (j : Nat) : Bool := c.depth j == 0 || (s j).pbf.outVld || x.endp != j

/-- `usb_core_io.tx.valid` (device_ep_buffers.py:114-132) -/
def txValid (c : TxCfg) (s : TxSt α) (x : TxIn α) : Bool := x.endpVld && (c.eps.all (fOk c s x) && c.eps.all (pOk c s x))

/-- `usb_core_io.tx` word (device_ep_buffers.py:106-113) -/
def txWord (c : TxCfg) (s : TxSt α) (x : TxIn α) : Option (AxisFifoCopy.W α) :=
  if c.eps.contains x.endp then some (chWord c s x x.endp) else none

/-- Ready for the data of the channel (device_ep_buffers.py:128-132). -/
def fRdy (c : TxCfg) (s : TxSt α) (x : TxIn α) (i : Nat) : Bool :=
  x.endpVld && ((c.eps.filter (· != i)).all (fOk c s x) && c.eps.all (pOk c s x)) && x.rdy && x.endp == i && !(x.endp != i)

/-- Ready for the mark (device_ep_buffers.py:123-126). -/
def pRdy (c : TxCfg) (s : TxSt α) (x : TxIn α) (i : Nat) : Bool :=
  x.endpVld && (c.eps.all (fOk c s x) && (c.eps.filter (· != i)).all (pOk c s x)) && x.rdy &&
    (x.endp == i && (chWord c s x i).last) && !(x.endp != i)

/-- `tx_packet_buffered_fifo.dataIn.rd` -/
def pRd (c : TxCfg) (s : TxSt α) (i : Nat) : Bool := (HsFifo.out (c.pdepth i) (s i).pbf ⟨false, (), false⟩).rd

/-- `tx_fifo.dataIn.ready` -/
def fRd (c : TxCfg) (s : TxSt α) (i : Nat) : Bool := (AxisFifoCopy.out (c.depth i) (s i).fifo).rd

/-- skipWhen of the mark (device_ep_buffers.py:98) -/
def pSkip (x : TxIn α) (i : Nat) : Bool := x.vld i && !(x.w i).last

/-- `ep[i].tx.ready` (device_ep_buffers.py:91-100) -/
def epReady (c : TxCfg) (s : TxSt α) (x : TxIn α) (i : Nat) : Bool :=
  if c.depth i = 0 then fRdy c s x i else fRd c s i && (pRd c s i || pSkip x i)

def fIn (c : TxCfg) (s : TxSt α) (x : TxIn α) (i : Nat) : AxisFifoCopy.In α :=
  ⟨x.vld i && (pRd c s i || pSkip x i), x.w i, fRdy c s x i, false, 0⟩

def pIn (c : TxCfg) (s : TxSt α) (x : TxIn α) (i : Nat) : HsFifo.In Unit :=
  ⟨x.vld i && fRd c s i && (x.w i).last && !pSkip x i, (), pRdy c s x i⟩

def txNext (c : TxCfg) (s : TxSt α) (x : TxIn α) : TxSt α := fun i =>
  if c.depth i = 0 then s i
  else ⟨AxisFifoCopy.next (c.depth i) (s i).fifo (fIn c s x i), HsFifo.next (c.pdepth i) (s i).pbf (pIn c s x i)⟩

/-- device_ep_buffers.py:134 -/
def txStall (c : TxCfg) (x : TxIn α) : Bool := !c.eps.contains x.endp

def txInit (c : TxCfg) (mem0 : Nat → Nat → AxisFifoCopy.W α) (d0 : Nat → AxisFifoCopy.W α) (p0 : Nat → Unit) : TxSt α := fun i =>
  ⟨AxisFifoCopy.init (mem0 i) (d0 i) 0, HsFifo.init (c.pdepth i) [] p0 ()⟩

end Verif.EpBuffers
