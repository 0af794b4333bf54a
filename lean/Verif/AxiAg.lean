import Verif.Common
/-!
# Composite simulation agent of AXI-Lite and AXI (hwtLib/amba/axi3Lite.py:226-293)

Agents of channels are of the hwt library: `setEnable` of such agent sets its flag, its drivers drive the source side of the
channel, its monitors the sink side.
-/
namespace Verif.AxiAg

inductive Ch | ar | r | aw | w | b
  deriving DecidableEq, Repr

structure Has where
  hasR : Bool
  hasW : Bool
  deriving DecidableEq, Repr

/-- axi3Lite.py:243-250: channels for which an agent was made -/
def channels (h : Has) : List Ch := (if h.hasR then [.ar, .r] else []) ++ (if h.hasW then [.aw, .w, .b] else [])

structure St where
  enable : Bool
  child : Ch → Bool

/-- axi3Lite.py:235, agents of channels are enabled from the start -/
def init : St := ⟨true, fun _ => true⟩

/-- axi3Lite.py:255-264 -/
def setEnable (h : Has) (s : St) (en : Bool) : St :=
  if s.enable != en then
    let c := if h.hasR then fun x => if x = .ar ∨ x = .r then en else s.child x else s.child
    let c := if h.hasW then fun x => if x = .aw ∨ x = .w ∨ x = .b then en else c x else c
    ⟨en, c⟩
  else s

inductive Op
  | all (en : Bool)
  /-- a test sets the flag of one channel -/
  | one (c : Ch) (en : Bool)
  deriving DecidableEq, Repr

def step (h : Has) (s : St) : Op → St
  | .all en => setEnable h s en
  | .one c en => ⟨s.enable, fun x => if x = c then en else s.child x⟩

def run (h : Has) (l : List Op) : St := l.foldl (step h) init

inductive Role | driver | monitor
  deriving DecidableEq, Repr

/-- axi3Lite.py:266-275 -/
def getDrivers (h : Has) : List (Ch × Role) :=
  (if h.hasW then [(.aw, .driver), (.w, .driver), (.b, .monitor)] else []) ++ (if h.hasR then [(.ar, .driver), (.r, .monitor)] else [])

/-- axi3Lite.py:277-286 -/
def getMonitors (h : Has) : List (Ch × Role) :=
  (if h.hasW then [(.aw, .monitor), (.w, .monitor), (.b, .driver)] else []) ++ (if h.hasR then [(.ar, .monitor), (.r, .driver)] else [])

/-- axi3Lite.py:288-293: the channel whose agent makes an address request; none: AttributeError -/
def addrChannel (h : Has) : Option Ch :=
  let c : Ch := if h.hasR then .ar else .aw
  if c ∈ channels h then some c else none

end Verif.AxiAg
