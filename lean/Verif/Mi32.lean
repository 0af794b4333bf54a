import Verif.Common
/-!
# Models of the MI32 bridges and endpoint (hwtLib/cesnet/mi32)

`δ` is write data with byte enables, `ρ` read data, addresses are of type `A`.
-/
namespace Verif.Mi32

universe u v w

/-- A relation holds for all consecutive cycles. -/
def pairs {β : Type u} (p : β → β → Bool) : List β → Bool
  | a :: b :: t => p a b && pairs p (b :: t)
  | _ => true

/-! ## `Mi32_to_Axi4Lite` (cesnet/mi32/to_axi4Lite.py) -/
namespace ToAxi
variable {A : Type u} {δ : Type v} {ρ : Type w}

/-- to_axi4Lite.py:42-46 -/
structure St (δ : Type v) where
  pending : Bool
  data : δ

structure In (A : Type u) (δ : Type v) (ρ : Type w) where
  rd : Bool
  wr : Bool
  addr : A
  dwr : δ
  arReady : Bool
  awReady : Bool
  wReady : Bool
  rValid : Bool
  rData : ρ

structure Out (A : Type u) (δ : Type v) (ρ : Type w) where
  ardy : Bool
  arValid : Bool
  arAddr : A
  awValid : Bool
  awAddr : A
  wValid : Bool
  wData : δ
  drdy : Bool
  drd : ρ

/-- to_axi4Lite.py:47 -/
def clean (s : St δ) (i : In A δ ρ) : Bool := !s.pending || i.wReady
/-- to_axi4Lite.py:53 -/
def wEn (i : In A δ ρ) : Bool := i.wr && i.arReady

/-- to_axi4Lite.py:57-72; the data are undefined (kept here) when `pending` is cleared. -/
def next (s : St δ) (i : In A δ ρ) : St δ :=
  if s.pending then
    if i.wReady then
      if wEn i && i.awReady then { s with data := i.dwr } else { s with pending := false }
    else s
  else { pending := wEn i && i.awReady, data := i.dwr }

/-- to_axi4Lite.py:48-55, :73-80 -/
def out (s : St δ) (i : In A δ ρ) : Out A δ ρ where
  ardy := i.arReady && i.awReady && clean s i
  arValid := i.rd && i.awReady
  arAddr := i.addr
  awValid := wEn i && clean s i
  awAddr := i.addr
  wValid := s.pending
  wData := s.data
  drdy := i.rValid
  drd := i.rData

def machine : Machine (St δ) (In A δ ρ) (Out A δ ρ) where
  out := out
  next := next

/-- Addresses of reads accepted on MI32. -/
def miReads (tr : List (In A δ ρ × Out A δ ρ)) : List A :=
  tr.filterMap fun e => if e.1.rd && e.2.ardy then some e.1.addr else none
/-- Addresses and data of writes accepted on MI32. -/
def miWrites (tr : List (In A δ ρ × Out A δ ρ)) : List (A × δ) :=
  tr.filterMap fun e => if e.1.wr && e.2.ardy then some (e.1.addr, e.1.dwr) else none
/-- Read addresses accepted on AXI. -/
def ars (tr : List (In A δ ρ × Out A δ ρ)) : List A :=
  tr.filterMap fun e => if e.2.arValid && e.1.arReady then some e.2.arAddr else none
/-- Write addresses accepted on AXI. -/
def aws (tr : List (In A δ ρ × Out A δ ρ)) : List A :=
  tr.filterMap fun e => if e.2.awValid && e.1.awReady then some e.2.awAddr else none
/-- Write data accepted on AXI. -/
def ws (tr : List (In A δ ρ × Out A δ ρ)) : List δ :=
  tr.filterMap fun e => if e.2.wValid && e.1.wReady then some e.2.wData else none

/-- A MI32 master keeps a request until it is accepted. -/
def Holds (tr : List (In Nat Nat Nat × Out Nat Nat Nat)) : Bool :=
  pairs (fun e e' => (!(e.1.rd && !e.2.ardy) || (e'.1.rd && e'.1.addr == e.1.addr)) &&
    (!(e.1.wr && !e.2.ardy) || (e'.1.wr && e'.1.addr == e.1.addr && e'.1.dwr == e.1.dwr))) tr

end ToAxi

/-! ## `Axi4Lite_to_Mi32` (cesnet/mi32/axi4Lite_to_mi32.py) -/
namespace FromAxi
variable {A : Type u} {δ : Type v} {ρ : Type w}

/-- axi4Lite_to_mi32.py:36-46. Values which are set to undefined (:68-70, :90-92, :118) are kept. -/
structure St (A : Type u) (ρ : Type w) where
  addr : A
  addrVld : Bool
  addrW : Bool
  rData : ρ
  rVld : Bool
  rPend : Bool
  wPend : Bool

structure In (A : Type u) (δ : Type v) (ρ : Type w) where
  arValid : Bool
  arAddr : A
  awValid : Bool
  awAddr : A
  wValid : Bool
  wData : δ
  rReady : Bool
  bReady : Bool
  ardy : Bool
  drdy : Bool
  drd : ρ

structure Out (A : Type u) (δ : Type v) (ρ : Type w) where
  arReady : Bool
  awReady : Bool
  wReady : Bool
  bValid : Bool
  rValid : Bool
  rData : ρ
  rd : Bool
  wr : Bool
  addr : A
  dwr : δ

/-- axi4Lite_to_mi32.py:48 -/
def rAck (s : St A ρ) (i : In A δ ρ) : Bool := i.rReady && s.rVld
/-- axi4Lite_to_mi32.py:109 `axi_w_ready_tmp` -/
def wRdy (s : St A ρ) (i : In A δ ρ) : Bool := s.addrVld && s.addrW && i.ardy
/-- axi4Lite_to_mi32.py:50 -/
def wAck (s : St A ρ) (i : In A δ ρ) : Bool := s.addrVld && s.addrW && i.ardy && wRdy s i
/-- axi4Lite_to_mi32.py:51-56 -/
def idle (s : St A ρ) (i : In A δ ρ) : Bool := (!s.rPend || rAck s i) && (!s.wPend || wAck s i)
/-- axi4Lite_to_mi32.py:57,106 -/
def rdyAddr (s : St A ρ) (i : In A δ ρ) : Bool := !s.addrVld || i.ardy

/-- axi4Lite_to_mi32.py:58-71 (`rp`: `RW_PRIORITY == READ`) and :80-93. -/
def nextAddr (rp : Bool) (s : St A ρ) (i : In A δ ρ) : A × Bool × Bool :=
  if rp then
    if idle s i && i.arValid then (i.arAddr, true, false)
    else if idle s i && i.awValid then (i.awAddr, true, true)
    else if i.ardy then (s.addr, false, s.addrW) else (s.addr, s.addrVld, s.addrW)
  else
    if idle s i && i.awValid then (i.awAddr, true, true)
    else if idle s i && i.arValid then (i.arAddr, true, false)
    else if i.ardy then (s.addr, false, s.addrW) else (s.addr, s.addrVld, s.addrW)

/-- axi4Lite_to_mi32.py:74-79,:96-101,:114-120 -/
def next (rp : Bool) (s : St A ρ) (i : In A δ ρ) : St A ρ where
  addr := (nextAddr rp s i).1
  addrVld := (nextAddr rp s i).2.1
  addrW := (nextAddr rp s i).2.2
  rData := if i.drdy then i.drd else s.rData
  rVld := if i.drdy then true else if i.rReady then false else s.rVld
  rPend := if rAck s i then (if rp then i.arValid else !i.awValid && i.arValid) else s.rPend
  wPend := if wAck s i then (if rp then !i.arValid && i.awValid else i.awValid) else s.wPend

/-- axi4Lite_to_mi32.py:72-73,:94-95,:103-112,:121-123 -/
def out (rp : Bool) (s : St A ρ) (i : In A δ ρ) : Out A δ ρ where
  arReady := if rp then idle s i && rdyAddr s i else idle s i && !i.awValid && rdyAddr s i
  awReady := if rp then idle s i && (!i.arValid && rdyAddr s i) else idle s i && rdyAddr s i
  wReady := wRdy s i
  bValid := s.addrVld && s.addrW && i.ardy && wRdy s i
  rValid := s.rVld
  rData := s.rData
  rd := idle s i && s.addrVld && !s.addrW
  wr := idle s i && s.addrVld && s.addrW && i.wValid
  addr := s.addr
  dwr := i.wData

def machine (rp : Bool) : Machine (St A ρ) (In A δ ρ) (Out A δ ρ) where
  out := out rp
  next := next rp

def IsInit (s : St A ρ) : Prop :=
  s.addrVld = false ∧ s.addrW = false ∧ s.rVld = false ∧ s.rPend = false ∧ s.wPend = false

/-- Requests accepted on AXI, in order: is it a write, address. -/
def accepted (tr : List (In A δ ρ × Out A δ ρ)) : List (Bool × A) :=
  tr.flatMap fun e => given (e.1.arValid && e.2.arReady) ((false, e.1.arAddr)) ++
    given (e.1.awValid && e.2.awReady) ((true, e.1.awAddr))
/-- Requests accepted on MI32, in order. -/
def issued (tr : List (In A δ ρ × Out A δ ρ)) : List (Bool × A) :=
  tr.flatMap fun e => given (e.2.rd && e.1.ardy) ((false, e.2.addr)) ++
    given (e.2.wr && e.1.ardy) ((true, e.2.addr))
/-- Write data accepted on AXI. -/
def wTaken (tr : List (In A δ ρ × Out A δ ρ)) : List δ :=
  tr.filterMap fun e => if e.1.wValid && e.2.wReady then some e.1.wData else none
/-- Write data accepted on MI32. -/
def wIssued (tr : List (In A δ ρ × Out A δ ρ)) : List δ :=
  tr.filterMap fun e => if e.2.wr && e.1.ardy then some e.2.dwr else none
/-- Number of write responses given. -/
def bGiven (tr : List (In A δ ρ × Out A δ ρ)) : Nat := tr.countP fun e => e.2.bValid && e.1.bReady
/-- Words answered on MI32. -/
def answers (tr : List (In A δ ρ × Out A δ ρ)) : List ρ :=
  tr.filterMap fun e => if e.1.drdy then some e.1.drd else none
/-- Read data accepted on AXI. -/
def rGiven (tr : List (In A δ ρ × Out A δ ρ)) : List ρ :=
  tr.filterMap fun e => if e.2.rValid && e.1.rReady then some e.2.rData else none

/-- An AXI master keeps valid and payload until ready. -/
def Holds (tr : List (In Nat Nat Nat × Out Nat Nat Nat)) : Bool :=
  pairs (fun e e' => (!(e.1.arValid && !e.2.arReady) || (e'.1.arValid && e'.1.arAddr == e.1.arAddr)) &&
    (!(e.1.awValid && !e.2.awReady) || (e'.1.awValid && e'.1.awAddr == e.1.awAddr)) &&
    (!(e.1.wValid && !e.2.wReady) || (e'.1.wValid && e'.1.wData == e.1.wData))) tr

end FromAxi

/-! ## `Mi32Endpoint` (cesnet/mi32/endpoint.py) without BRAM mapped parts -/
namespace Endpoint
variable {A : Type u} {ρ : Type w}

structure St (ρ : Type w) where
  rdDelayed : Bool
  readReg : ρ

/-- `word`: value of each readable word in this cycle. -/
structure In (A : Type u) (ρ : Type w) where
  rd : Bool
  addr : A
  word : A → Option ρ

structure Out (ρ : Type w) where
  ardy : Bool
  drdy : Bool
  drd : ρ

/-- endpoint.py:33 `ardy(1)`, :36-42, :45-46 (`inRange` is `isInMyAddrRange`); the register keeps its value if there
is no word at the address. -/
def machine (inRange : A → Bool) : Machine (St ρ) (In A ρ) (Out ρ) where
  out s _ := { ardy := true, drdy := s.rdDelayed, drd := s.readReg }
  next s i := { rdDelayed := i.rd && inRange i.addr,
                readReg := if i.rd then (i.word i.addr).getD s.readReg else s.readReg }

end Endpoint
end Verif.Mi32
