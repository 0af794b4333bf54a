import Verif.Common
/-!
# Simulation memory behind a datapump interface, amba/datapump/sim_ram.py:8-220

`AxiDpSimRam.checkRequests` runs on every change of the clock.  A step of the model is one change of the clock:
the agents store what was transferred on the interfaces since the previous change (at most one read request and at
most one write request, any number of write words), then `checkRequests` runs.

Simplifications: requests and `strb`/`last` of write words have fully valid values (the code asserts it, :92-93, :187);
a write word with invalid data is `none`; the memory is a function, a missing key and a stored `None` are both `none`
(the code treats them equally, :147-155); an exception is a value and ends the run; the interfaces have `id` and `strb`
(`HAS_ID`, `r_use_strb`, `w_use_strb`), the other three formats of a transaction only drop items of the tuple.
-/
namespace Verif.DpSimRam

inductive Err | unaligned | uninit | badLast | partialWord | badStrb
deriving DecidableEq, Repr

/-- transaction on `req` -/
structure RawReq where
  id : Nat
  addr : Nat
  len : Nat
  rem : Nat
deriving DecidableEq, Repr

/-- parsed request -/
structure Req where
  id : Nat
  addr : Nat
  size : Nat
  mask : Nat
deriving DecidableEq, Repr

structure WWord where
  data : Option Nat
  strb : Nat
  last : Bool
deriving DecidableEq, Repr

structure RWord where
  id : Nat
  data : Nat
  strb : Nat
  last : Bool
deriving DecidableEq, Repr

/-- `cell` = cellSize in bytes, `multi` = MAX_LEN is not 0 -/
structure Cfg where
  cell : Nat
  multi : Bool

structure St where
  mem : Nat → Option Nat
  arq : List RawReq
  awq : List RawReq
  wq : List WWord
  rPend : List Req
  wPend : List Req
  rq : List RWord
  ack : List Nat

def init (mem : Nat → Option Nat) : St := ⟨mem, [], [], [], [], [], [], []⟩

/-- `mask(n)` of pyMathBitPrecise -/
def maskN (n : Nat) : Nat := 2 ^ n - 1

/-- `parseReq`, :91-127 -/
def parseReq (c : Cfg) (r : RawReq) : Req :=
  ⟨r.id, r.addr, if c.multi then r.len + 1 else 1, if r.rem = 0 then maskN c.cell else maskN r.rem⟩

/-- `onReadReq`, :129-131 (`pop` takes the last item) -/
def onReadReq (c : Cfg) (s : St) : St :=
  match s.arq.getLast? with
  | none => s
  | some r => { s with arq := s.arq.dropLast, rPend := s.rPend ++ [parseReq c r] }

/-- `onWriteReq`, :133-135 -/
def onWriteReq (c : Cfg) (s : St) : St :=
  match s.awq.getLast? with
  | none => s
  | some r => { s with awq := s.awq.dropLast, wPend := s.wPend ++ [parseReq c r] }

/-- the loop of `doRead`, :145-172, from index `i`, `n` words left -/
def readLoop (c : Cfg) (mem : Nat → Option Nat) (r : Req) (i : Nat) : Nat → Except Err (List RWord)
  | 0 => .ok []
  | n + 1 =>
    match mem (r.addr / c.cell + i) with
    | none => .error .uninit
    | some d =>
      match readLoop c mem r (i + 1) n with
      | .error e => .error e
      | .ok ws =>
        .ok (⟨r.id, d, if i + 1 = r.size then r.mask else maskN c.cell, decide (i + 1 = r.size)⟩ :: ws)

/-- `doRead`, :137-172 -/
def doRead (c : Cfg) (s : St) : Except Err St :=
  match s.rPend with
  | [] => .ok s
  | r :: rest =>
    if r.addr / c.cell * c.cell = r.addr then
      match readLoop c s.mem r 0 r.size with
      | .error e => .error e
      | .ok ws => .ok { s with rPend := rest, rq := s.rq ++ ws }
    else .error .unaligned

/-- the loop of `doWrite`, :183-218, from index `i`, `n` words left; memory and remaining words -/
def writeLoop (c : Cfg) (r : Req) (i : Nat) :
    Nat → (Nat → Option Nat) → List WWord → Except Err ((Nat → Option Nat) × List WWord)
  | 0, mem, wq => .ok (mem, wq)
  | _ + 1, mem, [] => .ok (mem, [])   -- popleft of an empty deque, excluded by the condition at :87
  | n + 1, mem, w :: wq =>
    if w.last = decide (i + 1 = r.size) then
      if (if i + 1 = r.size then r.mask else maskN c.cell) = maskN c.cell then
        if w.strb = maskN c.cell then
          writeLoop c r (i + 1) n (upd mem (r.addr / c.cell + i) w.data) wq
        else .error .badStrb
      else .error .partialWord
    else .error .badLast

/-- `doWrite`, :177-220 with the condition of its call -/
def doWrite (c : Cfg) (s : St) : Except Err St :=
  match s.wPend with
  | [] => .ok s
  | r :: rest =>
    if r.size ≤ s.wq.length then
      if r.addr / c.cell * c.cell = r.addr then
        match writeLoop c r 0 r.size s.mem s.wq with
        | .error e => .error e
        | .ok (mem, wq) => .ok { s with wPend := rest, mem := mem, wq := wq, ack := s.ack ++ [r.id] }
      else .error .unaligned
    else .ok s

/-- `checkRequests`, :71-89 -/
def check (c : Cfg) (s : St) : Except Err St :=
  match doRead c (onReadReq c s) with
  | .error e => .error e
  | .ok s1 => doWrite c (onWriteReq c s1)

/-- what the agents received between two changes of the clock -/
structure Ev where
  rd : Option RawReq
  wr : Option RawReq
  ws : List WWord

def arrive (s : St) (e : Ev) : St :=
  { s with arq := s.arq ++ e.rd.toList, awq := s.awq ++ e.wr.toList, wq := s.wq ++ e.ws }

def step (c : Cfg) (s : St) (e : Ev) : Except Err St := check c (arrive s e)

def run (c : Cfg) (s : St) : List Ev → Except Err St
  | [] => .ok s
  | e :: es =>
    match step c s e with
    | .error x => .error x
    | .ok s' => run c s' es

end Verif.DpSimRam
