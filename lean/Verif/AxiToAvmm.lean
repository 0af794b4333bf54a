import Verif.Common

/-!
# `Axi4_to_AvalonMm` (`hwtLib/avalon/axiToMm.py`)

The fifos `r_data_fifo` and `r_size_fifo` (`HandshakedFifo`) are lists whose items can be read in the clock after
the write; `r_data_fifo` accepts an item at least if it contains less than `depth` items (`R_DATA_FIFO_DEPTH`), more
is decided by `dRd`; `dataIn.rd` of `r_size_fifo` is the input `szRd`. The values of `addr_tmp` which are set to
undefined in line 118-124 are kept, they are not used if `vld = 0`. `strb` is a part of the data of a write.
-/

namespace Verif.AxiToAvmm

open Verif

structure Cfg where
  depth : Nat
  /-- `RW_PRIORITY == READ` -/
  rdPrio : Bool

/-- width of `r_data_fifo_capacity` (lines 163-166) -/
def Cfg.capW (c : Cfg) : Nat := log2ceil (c.depth + 1)
/-- `fitTo(len, r_data_fifo_capacity)` -/
def Cfg.fit (c : Cfg) (len : Nat) : Nat := len % 2 ^ c.capW

structure Addr where
  addr : Nat
  id : Nat
  len : Nat
deriving DecidableEq, Repr

/-- `addr_tmp` (lines 146-157) -/
structure Tmp where
  addr : Nat
  id : Nat
  len : Nat
  lenO : Nat
  vld : Bool
  isW : Bool
deriving DecidableEq, Repr

structure St (α : Type) where
  tmp : Tmp
  cap : Nat
  sizes : List (Nat × Nat)
  datas : List α
  /-- `wordIndexCntr` -/
  wLen : Nat
  wId : Nat
  wVld : Bool
deriving DecidableEq, Repr

structure In (α : Type) where
  arV : Bool
  ar : Addr
  awV : Bool
  aw : Addr
  wV : Bool
  wData : α
  wLast : Bool
  bR : Bool
  rR : Bool
  wait : Bool
  rdv : Bool
  rdata : α
  szRd : Bool
  dRd : Bool
deriving DecidableEq, Repr

structure Out (α : Type) where
  arRd : Bool
  awRd : Bool
  wRd : Bool
  /-- id -/
  b : Option Nat
  /-- id, data, last -/
  r : Option (Nat × α × Bool)
  read : Bool
  write : Bool
  address : Nat
  burst : Nat
deriving DecidableEq, Repr

variable {α : Type}

/-- lines 170-178 -/
def willBeIdle (s : St α) (x : In α) : Bool :=
  !s.tmp.vld || (!s.tmp.isW && !x.wait) ||
    (s.tmp.vld && s.tmp.isW && !x.wait && s.tmp.len == 0 && x.wV && x.bR)
def isW (s : St α) : Bool := s.tmp.vld && s.tmp.isW
/-- lines 180-182 -/
def arEn0 (c : Cfg) (s : St α) (x : In α) : Bool :=
  willBeIdle s x && x.arV && decide (c.fit x.ar.len < s.cap) && x.szRd
def isNotLastW (s : St α) : Bool := isW s && s.tmp.len != 0
/-- lines 180-182, 192, 211-213 -/
def arEn (c : Cfg) (s : St α) (x : In α) : Bool :=
  if c.rdPrio then arEn0 c s x else arEn0 c s x && !isNotLastW s && !(x.awV && x.wV)
/-- lines 185-191 -/
def readyForAddr (s : St α) (x : In α) : Bool := !s.tmp.vld || !x.wait
def tmpAck (s : St α) (x : In α) : Bool :=
  !x.wait && !(isW s && !(x.wV && (s.tmp.len != 0 || x.bR)))
def awEn (c : Cfg) (s : St α) (x : In α) : Bool :=
  (!c.rdPrio || !x.arV) &&
    (readyForAddr s x && x.wV && (!s.tmp.vld || !s.tmp.isW || s.tmp.len != 0 || x.bR))

/-- line 102: `f.dataOut.vld & axi.r.ready` -/
def rAck (s : St α) (x : In α) : Bool := !s.datas.isEmpty && x.rR
/-- line 97 -/
def newSizeAck (s : St α) (x : In α) : Bool := !s.wVld || (s.wLen == 0 && rAck s x)

def wReady (s : St α) (x : In α) : Bool :=
  s.tmp.vld && s.tmp.isW && !x.wait && (s.tmp.len != 0 || x.bR)

/-- lines 92-113, 238-267 -/
def out (c : Cfg) (s : St α) (x : In α) : Out α where
  arRd := willBeIdle s x && arEn c s x
  awRd := willBeIdle s x && awEn c s x
  wRd := wReady s x
  b := if s.tmp.vld && s.tmp.isW && !x.wait && wReady s x && x.wV && x.wLast then some s.tmp.id else none
  r := if s.wVld then s.datas.head?.map fun d => (s.wId, d, s.wLen == 0) else none
  read := s.tmp.vld && !s.tmp.isW
  write := isW s && x.wV && (s.tmp.len != 0 || x.bR)
  address := s.tmp.addr
  burst := s.tmp.lenO + 1

def load (a : Addr) (w : Bool) : Tmp := ⟨a.addr, a.id, a.len, a.len, true, w⟩

/-- lines 195-230 -/
def nextTmp (c : Cfg) (s : St α) (x : In α) : Tmp :=
  let t := s.tmp
  let w := !x.wait && isNotLastW s && x.wV
  let aw := willBeIdle s x && x.awV && x.wV
  if c.rdPrio then
    if arEn c s x then load x.ar false
    else if w then { t with len := t.len - 1 }
    else if aw then load x.aw true
    else if tmpAck s x then { t with vld := false }
    else t
  else
    if w then { t with len := t.len - 1 }
    else if aw then load x.aw true
    else if arEn c s x then load x.ar false
    else if tmpAck s x then { t with vld := false }
    else t

/-- lines 84-87 -/
def dataRd (c : Cfg) (s : St α) (x : In α) : Bool := decide (s.datas.length < c.depth) || x.dRd

def next (c : Cfg) (s : St α) (x : In α) : St α where
  tmp := nextTmp c s x
  -- lines 232-240, modulo the width of the register
  cap :=
    if rAck s x && arEn c s x then (s.cap + 2 ^ c.capW - c.fit x.ar.len) % 2 ^ c.capW
    else if rAck s x then (s.cap + 1) % 2 ^ c.capW
    else if arEn c s x then (s.cap + 2 ^ c.capW + 2 ^ c.capW - 1 - c.fit x.ar.len) % 2 ^ c.capW
    else s.cap
  sizes := (if newSizeAck s x then s.sizes.drop 1 else s.sizes) ++
    given (arEn c s x && x.szRd) (x.ar.id, x.ar.len)
  datas := (if s.wVld && x.rR then s.datas.drop 1 else s.datas) ++ given (x.rdv && dataRd c s x) x.rdata
  -- lines 95-107
  wLen := if newSizeAck s x then (match s.sizes with | z :: _ => z.2 | [] => s.wLen)
    else if rAck s x then s.wLen - 1 else s.wLen
  wId := if newSizeAck s x then (match s.sizes with | z :: _ => z.1 | [] => s.wId) else s.wId
  wVld := if newSizeAck s x then !s.sizes.isEmpty
    else if rAck s x then s.wLen != 0 else s.wVld

def machine (c : Cfg) : Machine (St α) (In α) (Out α) := ⟨out c, next c⟩

structure IsInit (c : Cfg) (s : St α) : Prop where
  tmp : s.tmp.vld = false
  cap : s.cap = c.depth
  sizes : s.sizes = []
  datas : s.datas = []
  wVld : s.wVld = false

/-! ## Observations -/

def ars (tr : List (In α × Out α)) : List Addr := tr.flatMap fun e => given (e.1.arV && e.2.arRd) e.1.ar
def aws (tr : List (In α × Out α)) : List Addr := tr.flatMap fun e => given (e.1.awV && e.2.awRd) e.1.aw
def ws (tr : List (In α × Out α)) : List (α × Bool) :=
  tr.flatMap fun e => given (e.1.wV && e.2.wRd) (e.1.wData, e.1.wLast)
def bs (tr : List (In α × Out α)) : List Nat := tr.flatMap fun e => if e.1.bR then e.2.b.toList else []
def rs (tr : List (In α × Out α)) : List (Nat × α × Bool) :=
  tr.flatMap fun e => if e.1.rR then e.2.r.toList else []
/-- Avalon: reads (address, burst), written words (address, burst, data), data read -/
def avReads (tr : List (In α × Out α)) : List (Nat × Nat) :=
  tr.flatMap fun e => given (e.2.read && !e.1.wait) (e.2.address, e.2.burst)
def avWrites (tr : List (In α × Out α)) : List (Nat × Nat × α) :=
  tr.flatMap fun e => given (e.2.write && !e.1.wait) (e.2.address, e.2.burst, e.1.wData)
def avData (tr : List (In α × Out α)) : List α := tr.flatMap fun e => given e.1.rdv e.1.rdata

end Verif.AxiToAvmm
