import Verif.Common
/-!
# Model of `AxiLiteEndpoint` (hwtLib/amba/axiLite_comp/endpoint.py)

The decoder is a parameter: `mine k a` says that the address belongs to the `k`-th memory (BRAM port), `sub k a` is the
index in it (both are the functions verified in `AddrDecode`), `inRange a` is the range of the endpoint. The memories behind
the ports are part of the model: synchronous read, the output after a write is any value (`junk`, it depends on the write
mode of the memory). Directly mapped words are inputs (`reg a`).
-/
namespace Verif.LiteEndpoint

universe u v

structure Dec (A : Type u) where
  ports : Nat
  mine : Nat → A → Bool
  sub : Nat → A → Nat
  inRange : A → Bool

inductive RSt where
  | idle | bramRd | data
  deriving DecidableEq, Repr
inductive WSt where
  | idle | data | resp
  deriving DecidableEq, Repr

variable {A : Type u} {α : Type v}

structure St (A : Type u) (α : Type v) where
  rSt : RSt
  arAddr : A
  bramIdx : Nat
  rdata : α
  wSt : WSt
  awAddr : A
  mem : Nat → Nat → α
  dout : Nat → α

structure In (A : Type u) (α : Type v) where
  arValid : Bool
  arAddr : A
  rReady : Bool
  awValid : Bool
  awAddr : A
  wValid : Bool
  wData : α
  bReady : Bool
  reg : A → Option α
  junk : Nat → α

structure Out (A : Type u) (α : Type v) where
  arReady : Bool
  rValid : Bool
  rData : α
  rOk : Bool
  awReady : Bool
  wReady : Bool
  bValid : Bool
  bOk : Bool
  /-- address and data given to the write enable of the decoded word or memory -/
  wr : Option (A × α)

/-- endpoint.py:152 -/
def wHs (s : St A α) (i : In A α) : Bool := i.wValid && (s.wSt == .data)
/-- endpoint.py:94 -/
def pw (d : Dec A) (s : St A α) (i : In A α) (k : Nat) : Bool := wHs s i && d.mine k s.awAddr
/-- endpoint.py:105 -/
def en (d : Dec A) (s : St A α) (i : In A α) (k : Nat) : Bool := (i.arValid && d.mine k i.arAddr) || pw d s i k
/-- endpoint.py:96-102 -/
def portAddr (d : Dec A) (s : St A α) (i : In A α) (k : Nat) : Nat :=
  if pw d s i k then d.sub k s.awAddr
  else if s.rSt = .idle then d.sub k i.arAddr
  else d.sub k s.arAddr
/-- endpoint.py:117 -/
def isBram (d : Dec A) (a : A) : Bool := (List.range d.ports).any fun k => d.mine k a

/-- endpoint.py:51-59 -/
def nextR (d : Dec A) (s : St A α) (i : In A α) : RSt :=
  match s.rSt with
  | .idle => if i.arValid && !isBram d i.arAddr && !wHs s i then .data
             else if i.arValid && isBram d i.arAddr && !wHs s i then .bramRd else .idle
  | .bramRd => if !wHs s i then .data else .bramRd
  | .data => if i.rReady then .idle else .data

/-- endpoint.py:135-142 -/
def nextW (s : St A α) (i : In A α) : WSt :=
  match s.wSt with
  | .idle => if i.awValid then .data else .idle
  | .data => if i.wValid then .resp else .data
  | .resp => if i.bReady then .idle else .resp

/-- endpoint.py:114-116 (the first matching case is used) -/
def nextIdx (d : Dec A) (s : St A α) (i : In A α) : Nat :=
  if s.rSt = .idle then ((List.range d.ports).find? fun k => d.mine k i.arAddr).getD s.bramIdx else s.bramIdx

def next (d : Dec A) (s : St A α) (i : In A α) : St A α where
  rSt := nextR d s i
  arAddr := if i.arValid && (s.rSt == .idle) then i.arAddr else s.arAddr
  bramIdx := nextIdx d s i
  rdata := s.dout s.bramIdx
  wSt := nextW s i
  awAddr := if (s.wSt == .idle) && i.awValid then i.awAddr else s.awAddr
  mem := fun k x => if pw d s i k && x == portAddr d s i k then i.wData else s.mem k x
  dout := fun k => if en d s i k then (if pw d s i k then i.junk k else s.mem k (portAddr d s i k)) else s.dout k

/-- endpoint.py:61-77, :121, :123-127, :144-166 -/
def out (d : Dec A) (s : St A α) (i : In A α) : Out A α where
  arReady := (s.rSt == .idle) && !wHs s i
  rValid := s.rSt == .data
  rData := (i.reg s.arAddr).getD s.rdata
  rOk := d.inRange s.arAddr
  awReady := s.wSt == .idle
  wReady := s.wSt == .data
  bValid := s.wSt == .resp
  bOk := d.inRange s.awAddr
  wr := if wHs s i then some (s.awAddr, i.wData) else none

def machine (d : Dec A) : Machine (St A α) (In A α) (Out A α) where
  out := out d
  next := next d

/-- Reset; addresses, data registers and memories have any value. -/
def IsInit (s : St A α) : Prop := s.rSt = .idle ∧ s.wSt = .idle

/-! ### Observations -/

def arHs (e : In A α × Out A α) : Bool := e.1.arValid && e.2.arReady
def rHs (e : In A α × Out A α) : Bool := e.2.rValid && e.1.rReady

def reads (tr : List (In A α × Out A α)) : List A :=
  tr.filterMap fun e => if arHs e then some e.1.arAddr else none
def readResps (tr : List (In A α × Out A α)) : List Bool :=
  tr.filterMap fun e => if rHs e then some e.2.rOk else none
def awAddrs (tr : List (In A α × Out A α)) : List A :=
  tr.filterMap fun e => if e.1.awValid && e.2.awReady then some e.1.awAddr else none
def wDatas (tr : List (In A α × Out A α)) : List α :=
  tr.filterMap fun e => if e.1.wValid && e.2.wReady then some e.1.wData else none
def writesDone (tr : List (In A α × Out A α)) : List (A × α) := tr.filterMap fun e => e.2.wr
def writeResps (tr : List (In A α × Out A α)) : List Bool :=
  tr.filterMap fun e => if e.2.bValid && e.1.bReady then some e.2.bOk else none

/-- Memory `k` is written in this cycle. -/
def writesMem (d : Dec A) (k : Nat) (e : In A α × Out A α) : Bool :=
  match e.2.wr with
  | some (a, _) => d.mine k a
  | none => false

end Verif.LiteEndpoint
