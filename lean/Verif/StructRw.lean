import Verif.StreamNode
/-!
# `StructReader` and `StructWriter` (`hwtLib/structManipulators/structReader.py`, `structWriter.py`)

Requests for the frames of a structure are sent to a datapump, the writer also collects the acknowledges of the frames.

Simplifications: the data path (`Axi4S_frameParser`, `Axi4S_frameDeparser`) is a separate component; the buffer of the
`get`/`set` interface (structReader.py:123-126, structWriter.py:87-90) is cut off, i.e. the model is the component with
`READ_ACK`/`WRITE_ACK` and it is behind the buffer otherwise. Trusted (library `hwt`): `StaticForEach` selects the statements by a
register with the index of the frame, which is incremented (and wraps) if `ack` is 1; a frame starts on a word boundary and
`getWordCnt` is the number of words from the start of the frame to the end of its last part.
-/
namespace Verif.StructRw
open Verif.StreamNode (Io Node)

/-- Bit address of the first bit of the frame and of the end of its last part. -/
structure Frame where
  start : Nat
  stop : Nat
deriving DecidableEq, Repr

/-- `frame.parts[-1].endOfPart - frame.startBitAddr` (structReader.py:73, 133; structWriter.py:102) -/
def Frame.bits (f : Frame) : Nat := f.stop - f.start

/-- `frame.getWordCnt()` -/
def Frame.words (dw : Nat) (f : Frame) : Nat := (f.bits + dw - 1) / dw

/-- Request of the datapump (amba/datapump/intf.py:31-44) -/
structure Req where
  addr : Nat
  len : Nat
  rem : Nat
deriving DecidableEq, Repr

/-- structReader.py:131-133, structWriter.py:100-102, `driveReqRem` (structReader.py:115-116); the address has `aw` bits. -/
def mkReq (dw aw : Nat) (a : Nat) (f : Frame) : Req :=
  { addr := (a + f.start / 8) % 2 ^ aw
    len := f.words dw - 1
    rem := (f.bits % dw + 7) / 8 }

/-! ## Elaboration of the request -/

/-- `StructReader.maxBytesInTransaction` (structReader.py:72-75) -/
def maxBytes (fs : List Frame) : Nat := ((fs.map Frame.bits).foldl max 0 + 7) / 8

/-- `MAX_LEN` of the request of the reader (amba/datapump/intf.py:122) -/
def readerMaxLen (dw : Nat) (fs : List Frame) : Nat := (maxBytes fs + dw / 8 - 1) / (dw / 8) - 1

/-- `MAX_LEN` of the request of the writer: the default value (amba/datapump/intf.py:28, 179-186), the attribute `MAX_BYTES` set
by structWriter.py:64 does not exist on `HwIOAxiWDatapump`. -/
def writerMaxLen : Nat := 4096 / 8 - 1

/-- `req.len(x)`: `none` if the signal does not exist or the constant does not fit (intf.py:37-39). -/
def drive (maxLen x : Nat) : Option Nat :=
  if maxLen = 0 then none
  else if x < 2 ^ log2ceil (maxLen + 1) then some x else none

/-- `req.rem(x)` (intf.py:41-42) -/
def driveRem (dw x : Nat) : Option Nat := if x < 2 ^ log2ceil (dw / 8) then some x else none

/-- The elaboration of the requests for one frame, `none` is an exception. -/
def elabReq (dw aw maxLen : Nat) (a : Nat) (f : Frame) : Option Req := do
  let l ← drive maxLen (f.words dw - 1)
  let r ← driveRem dw ((f.bits % dw + 7) / 8)
  return { addr := (a + f.start / 8) % 2 ^ aw, len := l, rem := r }

/-! ## Reader -/

/-- `get` (data if vld), `rd` of the request -/
structure RIn where
  get : Option Nat
  rd : Bool
deriving DecidableEq, Repr

/-- request (data if vld), `rd` of `get` -/
structure ROut where
  req : Option Req
  getRd : Bool
deriving DecidableEq, Repr

/-- index of the frame after the cycle -/
def nextIdx (n idx : Nat) (ack : Bool) : Nat := if ack then (if idx = n - 1 then 0 else idx + 1) else idx

/-- structReader.py:128-141 -/
def reader (dw aw : Nat) (fs : List Frame) : Machine Nat RIn ROut where
  out idx i :=
    { req := match fs[idx]?, i.get with
        | some f, some a => some (mkReq dw aw a f)
        | _, _ => none
      getRd := if idx = fs.length - 1 then i.rd else false }
  next idx i := nextIdx fs.length idx (i.get.isSome && i.rd)

/-! ## Writer -/

/-- index of the frame and the content of `ackPropageteInfo`, the oldest first -/
structure WSt where
  idx : Nat
  q : List Nat
deriving DecidableEq, Repr

/-- `set`, `rd` of the request, `rd` of the input of `ackPropageteInfo`, `offer`: its output offers the oldest item,
`vld` of `ack`, `rd` of `writeAck`. A fifo of any depth and latency, or the register, is one choice of `infoRd` and `offer`. -/
structure WIn where
  set : Option Nat
  rd : Bool
  infoRd : Bool
  offer : Bool
  ack : Bool
  waRd : Bool
deriving DecidableEq, Repr

/-- request, `rd` of `set`, `rd` of `ack`, `vld` of `writeAck` -/
structure WOut where
  req : Option Req
  setRd : Bool
  ackRd : Bool
  waVld : Bool
deriving DecidableEq, Repr

/-- structWriter.py:19-20 -/
def SKIP : Nat := 1
def PROPAGATE : Nat := 0

/-- `inNode` of structWriter.py:96: slaves are the request and the input of `ackPropageteInfo`. -/
def inNode (i : WIn) : Node := { masters := [], slaves := [{ sig := i.rd }, { sig := i.infoRd }] }

/-- The node of the acknowledges (structWriter.py:116-122): masters `ack` and the output of `ackPropageteInfo`, slave `writeAck`. -/
def ackNode (s : WSt) (i : WIn) : Node :=
  { masters := [{ sig := i.ack }, { sig := i.offer && !s.q.isEmpty }]
    slaves := [{ sig := i.waRd, skip := some (s.q.headD 0 == PROPAGATE) }] }

/-- vld of the request: `inNode.sync(_set.vld)` (:104) -/
def reqVld (i : WIn) : Bool := (inNode i).vldOf i.set.isSome 0 { sig := i.rd }
/-- vld of the input of `ackPropageteInfo` (:104) -/
def infoVld (i : WIn) : Bool := (inNode i).vldOf i.set.isSome 1 { sig := i.infoRd }
/-- rd of the output of `ackPropageteInfo` (:116-122) -/
def infoOutRd (s : WSt) (i : WIn) : Bool := (ackNode s i).rdOf true 1 { sig := i.offer && !s.q.isEmpty }

/-- structWriter.py:95-122 -/
def writer (dw aw : Nat) (fs : List Frame) : Machine WSt WIn WOut where
  out s i :=
    { req := match fs[s.idx]?, i.set with
        | some f, some a => if reqVld i then some (mkReq dw aw a f) else none
        | _, _ => none
      setRd := if s.idx = fs.length - 1 then (inNode i).ack else false
      ackRd := (ackNode s i).rdOf true 0 { sig := i.ack }
      waVld := (ackNode s i).vldOf true 0 { sig := i.waRd, skip := some (s.q.headD 0 == PROPAGATE) } }
  next s i :=
    { idx := nextIdx fs.length s.idx ((inNode i).ack && i.set.isSome)
      q := (if infoOutRd s i && (i.offer && !s.q.isEmpty) then s.q.tail else s.q) ++
        (if infoVld i && i.infoRd then [if s.idx ≠ 0 then SKIP else PROPAGATE] else []) }

end Verif.StructRw
