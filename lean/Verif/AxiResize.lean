import Verif.Common

/-!
# `AxiResize` of AXI-Lite to a wider bus (`hwtLib/amba/axi_comp/resize.py`)

The address and the data channel of one direction. The buffer of addresses (`Axi4SBuilder.buff`) and `align_fifo` are
lists, when they accept/provide an item is decided by the inputs `bufRd`, `bufVld`, `fRd`, `fVld`. The data channel is
parametrized by the function which selects (reads) or places (writes) the word; a word is a list of bytes, for writes
with `none` for the bytes with `strb` = 0.
-/

namespace Verif.AxiResize

open Verif

structure Cfg where
  /-- `DATA_WIDTH // 8` -/
  bi : Nat
  /-- `OUT_DATA_WIDTH // 8` -/
  bo : Nat
  /-- `OUT_ADDR_WIDTH` -/
  aw : Nat

/-- lines 42-43 -/
def Cfg.alIn (c : Cfg) : Nat := log2ceil (c.bi - 1)
def Cfg.alOut (c : Cfg) : Nat := log2ceil (c.bo - 1)

/-- line 69: `addr[AL_OUT_W:AL_IN_W]` -/
def lane (c : Cfg) (a : Nat) : Nat := a / 2 ^ c.alIn % 2 ^ (c.alOut - c.alIn)
/-- lines 68, 76 -/
def aligned (c : Cfg) (a : Nat) : Nat := a / 2 ^ c.alOut * 2 ^ c.alOut % 2 ^ c.aw

variable {β W W' : Type}

/-- lines 80-133 for a wider destination -/
def place (c : Cfg) (i : Nat) (w : List (Option β)) : List (Option β) :=
  List.replicate (i * c.bi) none ++ w ++ List.replicate (c.bo - (i + 1) * c.bi) none
/-- lines 80-133 for a wider source -/
def slice (c : Cfg) (i : Nat) (w : List β) : List β := (w.drop (i * c.bi)).take c.bi

structure St where
  buf : List Nat
  fifo : List Nat
deriving DecidableEq, Repr

structure In (W : Type) where
  /-- address channel: input, ready of the output -/
  aV : Bool
  a : Nat
  aR : Bool
  /-- data channel: input, ready of the output -/
  wV : Bool
  w : W
  wR : Bool
  bufRd : Bool
  bufVld : Bool
  fRd : Bool
  fVld : Bool
deriving DecidableEq, Repr

structure Out (W : Type) where
  aRd : Bool
  a : Option Nat
  wRd : Bool
  w : Option W
deriving DecidableEq, Repr

/-- `StreamNode` lines 72-75 -/
def outA (c : Cfg) (s : St) (x : In W) : Option Nat :=
  match s.buf with
  | a :: _ => if x.bufVld && x.fRd then some (aligned c a) else none
  | [] => none
/-- `StreamNode` lines 149, 158 -/
def laneV (s : St) (x : In W) : Bool := !s.fifo.isEmpty && x.fVld
def out (c : Cfg) (f : Nat → W → W') (s : St) (x : In W) : Out W' where
  aRd := x.bufRd
  a := outA c s x
  wRd := laneV s x && x.wR
  w := match s.fifo with
    | i :: _ => if x.fVld && x.wV then some (f i x.w) else none
    | [] => none

def next (c : Cfg) (s : St) (x : In W) : St :=
  let fireA := (outA c s x).isSome && x.aR
  let fireW := x.wV && laneV s x && x.wR
  { buf := (if fireA then s.buf.drop 1 else s.buf) ++ given (x.aV && x.bufRd) x.a
    fifo := (if fireW then s.fifo.drop 1 else s.fifo) ++ (if fireA then (s.buf.take 1).map (lane c) else []) }

def machine (c : Cfg) (f : Nat → W → W') : Machine St (In W) (Out W') := ⟨out c f, next c⟩
def init : St := ⟨[], []⟩

/-! ## Observations -/

def addrs (tr : List (In W × Out W')) : List Nat := tr.flatMap fun e => given (e.1.aV && e.2.aRd) e.1.a
def outAddrs (tr : List (In W × Out W')) : List Nat := tr.flatMap fun e => if e.1.aR then e.2.a.toList else []
def words (tr : List (In W × Out W')) : List W := tr.flatMap fun e => given (e.1.wV && e.2.wRd) e.1.w
def outWords (tr : List (In W × Out W')) : List W' := tr.flatMap fun e => if e.1.wR then e.2.w.toList else []

end Verif.AxiResize
