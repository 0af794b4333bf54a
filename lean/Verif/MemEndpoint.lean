import Verif.Common

/-!
# `AvalonMmEndpoint` (`hwtLib/avalon/endpoint.py`) and `BramPortEndpoint` (`hwtLib/mem/bramPortEndpoint.py`)

The endpoint with directly mapped words and any number of arrays which are mapped to BRAM ports. `isReg` are the addresses of
directly mapped words (`connect_directly_mapped_read`, `connect_directly_mapped_write` in `abstract/busEndpoint.py` lines 349-425),
arrays are in regions `[lo, hi)`, `step` is the size of a word in addresses. The memories behind the BRAM ports are a part of the model: they
have a registered output which holds its value without `en`, the output of a cycle with write is not specified (input `junk`). Directly mapped
words are connected to registers which are loaded by `dout.vld` (the usual use of `HwIORegCntrl`). `MAX_BURST = 0`, byte enables are not
used by the component (stated by its documentation).
-/

namespace Verif.MemEndpoint

open Verif

variable {D : Type}

structure Cfg where
  /-- `_ADDR_MIN`, `_ADDR_MAX` -/
  lo : Nat
  hi : Nat
  arrs : List (Nat × Nat)
  step : Nat
  isReg : Nat → Bool

def inMy (c : Cfg) (a : Nat) : Bool := decide (c.lo ≤ a) && decide (a < c.hi)
def isMem (c : Cfg) (i a : Nat) : Bool :=
  match c.arrs[i]? with
  | some r => decide (r.1 ≤ a) && decide (a < r.2)
  | none => false
/-- `propagateAddr` -/
def cell (c : Cfg) (i a : Nat) : Nat :=
  match c.arrs[i]? with
  | some r => (a - r.1) / c.step
  | none => 0

/-- memories and registers behind the endpoint -/
structure Store (D : Type) where
  regs : Nat → D
  mem : Nat → Nat → D
  dout : Nat → D

/-- one cycle: `en`, `we` and address -/
def Store.step (c : Cfg) (s : Store D) (en we : Bool) (a : Nat) (d junk : D) : Store D where
  regs := if en && we && c.isReg a then upd s.regs a d else s.regs
  mem := fun i => if isMem c i a && en && we then upd (s.mem i) (cell c i a) d else s.mem i
  dout := fun i => if isMem c i a && en then (if we then junk else s.mem i (cell c i a)) else s.dout i

/-! ## Avalon -/

namespace Avalon

structure St (D : Type) where
  rReq : Bool
  wasWr : Bool
  wasIn : Bool
  rAddr : Nat
  wasMy : Nat → Bool
  store : Store D

structure In (D : Type) where
  read : Bool
  write : Bool
  addr : Nat
  wdata : D
  junk : D

structure Out (D : Type) where
  waitRequest : Bool
  readDataValid : Bool
  writeResponseValid : Bool
  /-- `RESP_OKAY` -/
  ok : Bool
  readData : Option D

def out (c : Cfg) (s : St D) (_ : In D) : Out D where
  waitRequest := false
  readDataValid := s.rReq
  writeResponseValid := s.wasWr
  ok := s.wasIn
  readData :=
    if c.isReg s.rAddr then some (s.store.regs s.rAddr)
    else ((List.range c.arrs.length).find? s.wasMy).map s.store.dout

def next (c : Cfg) (s : St D) (x : In D) : St D where
  rReq := x.read
  wasWr := x.write
  wasIn := inMy c x.addr
  rAddr := if x.read then x.addr else s.rAddr
  wasMy := fun i => isMem c i x.addr
  store := s.store.step c (x.read || x.write) x.write x.addr x.wdata x.junk

def machine (c : Cfg) : Machine (St D) (In D) (Out D) := ⟨out c, next c⟩

structure IsInit (s : St D) : Prop where
  rReq : s.rReq = false
  wasWr : s.wasWr = false

end Avalon

/-! ## BRAM port -/

namespace Bram

structure St (D : Type) where
  readReg : D
  /-- `readBramIndx` -/
  idx : Nat
  store : Store D

structure In (D : Type) where
  en : Bool
  we : Bool
  addr : Nat
  din : D
  junk : D

/-- `bus.dout` -/
def out (c : Cfg) (s : St D) (_ : In D) : D :=
  if s.idx < c.arrs.length then s.store.dout s.idx else s.readReg

def next (c : Cfg) (s : St D) (x : In D) : St D where
  readReg := if x.en && c.isReg x.addr then s.store.regs x.addr else s.readReg
  idx := ((List.range c.arrs.length).find? fun i => isMem c i x.addr).getD c.arrs.length
  store := s.store.step c x.en x.we x.addr x.din x.junk

def machine (c : Cfg) : Machine (St D) (In D) D := ⟨out c, next c⟩

end Bram

end Verif.MemEndpoint
