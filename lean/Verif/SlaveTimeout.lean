import Verif.Common
/-!
# Model of the read channel of `Axi4SlaveTimeout` (hwtLib/amba/axi_comp/slave_timeout.py)

The write channel uses the same logic (started by the last data word instead of the address). A response is `id` and
`α` (data and code) of the slave, or the error response of the component.
-/
namespace Verif.SlaveTimeout

universe u v
variable {ι : Type u} {α : Type v}

/-- slave_timeout.py:53-55 -/
structure St (ι : Type u) where
  pending : Bool
  timer : Nat
  id : ι

structure In (ι : Type u) (α : Type v) where
  arValid : Bool
  arId : ι
  /-- ready of the slave -/
  arReady : Bool
  rValid : Bool
  rId : ι
  rData : α
  /-- ready of the master -/
  rReady : Bool

structure Out (ι : Type u) (α : Type v) where
  /-- the request seen by the slave and the ready seen by the master -/
  arValid : Bool
  arReady : Bool
  rValid : Bool
  rId : ι
  /-- `none` is SLVERR of the component -/
  rData : Option α
  /-- ready seen by the slave -/
  rReady : Bool

/-- slave_timeout.py:47 the timer register; `TIMER_MAX = T - 1` -/
def timerBits (T : Nat) : Nat := log2ceil (T - 1)

/-- slave_timeout.py:70 -/
def timeout (s : St ι) : Bool := s.pending && s.timer == 0

/-- slave_timeout.py:70-79 -/
def out (s : St ι) (i : In ι α) : Out ι α where
  arValid := i.arValid
  arReady := i.arReady
  rValid := if timeout s then true else i.rValid
  rId := if timeout s then s.id else i.rId
  rData := if timeout s then none else some i.rData
  rReady := if timeout s then true else i.rReady

/-- slave_timeout.py:56-65 -/
def next (T : Nat) (s : St ι) (i : In ι α) : St ι :=
  if s.pending then
    { s with timer := (s.timer + 2 ^ timerBits T - 1) % 2 ^ timerBits T, pending := if s.timer = 0 then false else s.pending }
  else if i.arValid && i.arReady then
    { pending := !(out s i).rValid, timer := T - 1, id := i.arId }
  else s

def machine (T : Nat) : Machine (St ι) (In ι α) (Out ι α) where
  out := out
  next := next T

/-- Accepted requests. -/
def requests (tr : List (In ι α × Out ι α)) : List ι :=
  tr.filterMap fun e => if e.1.arValid && e.2.arReady then some e.1.arId else none
/-- Responses of the slave which were taken. -/
def answers (tr : List (In ι α × Out ι α)) : List ι :=
  tr.filterMap fun e => if e.1.rValid && e.2.rReady then some e.1.rId else none
/-- Responses given to the master. -/
def responses (tr : List (In ι α × Out ι α)) : List (ι × Option α) :=
  tr.filterMap fun e => if e.2.rValid && e.1.rReady then some (e.2.rId, e.2.rData) else none

end Verif.SlaveTimeout
