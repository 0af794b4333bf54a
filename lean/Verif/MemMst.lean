import Verif.Common
/-!
# Masters of a memory space in simulation

hwtLib/amba/axiLite_comp/sim/memSpaceMaster.py, hwtLib/avalon/sim/memSpaceMaster.py, hwtLib/cesnet/mi32/mi32SimMemSpaceMaster.py,
hwtLib/mem/bramPortSimMemSpaceMaster.py: the requests which the calls of `_write` and `_read` append to the queues of the agents.
A callback is a number, the size argument is unused in the code. The consumption of the queues by agents is not modelled.
-/
namespace Verif.MemMst

inductive Call
  | write (addr data mask : Nat) (onDone : Option Nat)
  | read (addr : Nat) (onDone : Option Nat)
  deriving DecidableEq, Repr

/-! ## AXI4-Lite and AXI3-Lite -/

structure Axi where
  /-- address and `prot`, AXI3-Lite has no `prot` -/
  aw : List (Nat × Option Nat) := []
  w : List (Nat × Nat × Option Nat) := []
  ar : List (Nat × Option Nat) := []
  wCnt : Nat := 0
  rCnt : Nat := 0
  /-- callbacks given to the listener: index of the word, callback -/
  listener : List (Nat × Nat) := []
  deriving DecidableEq, Repr

/-- axiLite_comp/sim/memSpaceMaster.py:26-37 -/
def addrItem (axi4 : Bool) (addr : Nat) : Nat × Option Nat := if axi4 then (addr, some 0) else (addr, none)

/-- axiLite_comp/sim/memSpaceMaster.py:39-69 -/
def axiCall (axi4 : Bool) (s : Axi) : Call → Axi
  | .write a d m cb =>
    { s with aw := s.aw ++ [addrItem axi4 a], wCnt := s.wCnt + 1, w := s.w ++ [(d, m, cb)] }
  | .read a cb =>
    let s := { s with ar := s.ar ++ [addrItem axi4 a], rCnt := s.rCnt + 1 }
    match cb with
    | none => s
    | some f => { s with listener := s.listener ++ [(s.rCnt, f)] }

def axiRun (axi4 : Bool) (cs : List Call) : Axi := cs.foldl (axiCall axi4) {}

/-! ## masters with one queue -/

inductive Req
  | write (addr data : Nat) (mask : Option Nat) (onDone : Option Nat)
  | read (addr : Nat)
  deriving DecidableEq, Repr

/-- state of the queue after a call, and if the call raised NotImplementedError -/
abbrev Res := List Req × Bool

/-- mi32SimMemSpaceMaster.py:14-28 -/
def mi32Call (q : List Req) : Call → Res
  | .write a d m cb => if cb.isSome then (q, true) else (q ++ [.write a d (some m) none], false)
  | .read a cb => if cb.isSome then (q, true) else (q ++ [.read a], false)

/-- bramPortSimMemSpaceMaster.py:11-25 -/
def bramCall (q : List Req) : Call → Res
  | .write a d _ cb => if cb.isSome then (q, true) else (q ++ [.write a d none none], false)
  | .read a cb => if cb.isSome then (q, true) else (q ++ [.read a], false)

/-- avalon/sim/memSpaceMaster.py:17-40 -/
def avalonCall (q : List Req) : Call → Res
  | .write a d m cb => (q ++ [.write a d (some m) cb], false)
  | .read a cb => (q ++ [.read a], cb.isSome)

/-- the queue after calls, the user catches the exceptions -/
def queue (call : List Req → Call → Res) (cs : List Call) : List Req := cs.foldl (fun q c => (call q c).1) []

end Verif.MemMst
