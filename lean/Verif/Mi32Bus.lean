import Verif.HsFifo

/-!
# `Mi32InterconnectMatrix` (`hwtLib/cesnet/mi32/interconnectMatrix.py`) and `Mi32SlidingWindow` (`hwtLib/cesnet/mi32/sliding_window.py`)

The interconnect is modelled between its input buffer (`Mi32Buff`, model `Buff.mi32`) and the slaves. `P` are the write data and
byte enables, `D` read data.
-/

namespace Verif.Mi32Bus

open Verif

/-! ## `Mi32InterconnectMatrix` -/

structure Cfg where
  /-- `SLAVES` after `_normalize_slave_configs`: offset and size -/
  slaves : List (Nat × Nat)
  /-- `MAX_TRANS_OVERLAP` -/
  depth : Nat

variable {P D : Type}

/-- `bitsOfSubAddr`, line 98 -/
def bits (size : Nat) : Nat := log2ceil (size - 1)

/-- `cs`, lines 99-102 -/
def cs (c : Cfg) (i a : Nat) : Bool :=
  match c.slaves[i]? with
  | some (off, size) => a / 2 ^ bits size == off / 2 ^ bits size
  | none => false

structure St (D : Type) where
  /-- `r_data_order` -/
  order : HsFifo.St Nat
  /-- `r_data{i}_tmp` -/
  rv : Nat → Bool
  rdat : Nat → D

structure In (P D : Type) where
  rd : Bool
  wr : Bool
  addr : Nat
  pay : P
  /-- slaves -/
  ardy : Nat → Bool
  drdy : Nat → Bool
  drd : Nat → D

structure Out (P D : Type) where
  ardy : Bool
  drdy : Bool
  /-- `none`: not defined -/
  drd : Option D
  /-- slaves -/
  srd : Nat → Bool
  swr : Nat → Bool
  saddr : Nat → Nat
  spay : Nat → P

def n (c : Cfg) : Nat := c.slaves.length

def en (c : Cfg) (x : In P D) (i : Nat) : Bool := cs c i x.addr && x.ardy i
def addrAck (c : Cfg) (x : In P D) : Bool := (List.range (n c)).any (en c x)
/-- `r_order.data`, `SwitchLogic` lines 116-120 (any value if there is none, `vld=0` then) -/
def sel (c : Cfg) (x : In P D) : Nat := ((List.range (n c)).find? (en c x)).getD 0

/-- `r_order.rd` -/
def ordRd (s : St D) : Bool := !Fifo.writeWait s.order.fifo
/-- `r_order.rd` of the output, line 139 -/
def anyData (c : Cfg) (s : St D) : Bool := (List.range (n c)).any s.rv

def fifoIn (c : Cfg) (s : St D) (x : In P D) : HsFifo.In Nat := ⟨addrAck c x && x.rd, sel c x, anyData c s⟩

def out (c : Cfg) (s : St D) (x : In P D) : Out P D where
  ardy := addrAck c x && ordRd s && (x.rd || x.wr)
  drdy := s.order.outVld
  drd := if s.order.outVld && decide (s.order.fifo.dout < n c) then some (s.rdat s.order.fifo.dout) else none
  srd := fun i => x.rd && cs c i x.addr && ordRd s
  swr := fun i => x.wr && cs c i x.addr && ordRd s
  saddr := fun i => match c.slaves[i]? with | some (_, size) => x.addr % 2 ^ bits size | none => 0
  spay := fun _ => x.pay

def next (c : Cfg) (s : St D) (x : In P D) : St D where
  order := HsFifo.next c.depth s.order (fifoIn c s x)
  rv := x.drdy
  rdat := x.drd

def machine (c : Cfg) : Machine (St D) (In P D) (Out P D) := ⟨out c, next c⟩

structure IsInit (c : Cfg) (s : St D) : Prop where
  order : ∃ mem0 d0, s.order = HsFifo.init c.depth [] mem0 d0
  rv : ∀ i, s.rv i = false

/-! ## `Mi32SlidingWindow` -/

namespace Window

structure Cfg where
  /-- `WINDOW_SIZE` -/
  W : Nat
  /-- `M_ADDR_WIDTH` -/
  MA : Nat
  DATA_WIDTH : Nat

structure In (D : Type) where
  /-- `s` -/
  addr : Nat
  rd : Bool
  wr : Bool
  dwr : Nat
  be : Nat
  /-- `m` -/
  ardy : Bool
  drdy : Bool
  drd : D

structure Out (D : Type) where
  /-- `m` -/
  addr : Nat
  rd : Bool
  wr : Bool
  dwr : Nat
  be : Nat
  /-- `s` -/
  ardy : Bool
  drdy : Bool
  drd : D

/-- line 55 -/
def offsetEn (c : Cfg) (x : In D) : Bool := x.addr == c.W

/-- lines 57-63, the state is `offset` -/
def out (c : Cfg) (offset : Nat) (x : In D) : Out D where
  addr := (offset + x.addr) % 2 ^ c.MA
  rd := x.rd
  wr := x.wr && !offsetEn c x
  dwr := x.dwr
  be := x.be
  ardy := x.ardy || (x.wr && offsetEn c x)
  drdy := x.drdy
  drd := x.drd

def next (c : Cfg) (offset : Nat) (x : In D) : Nat := if offsetEn c x && x.wr then x.dwr % 2 ^ c.MA else offset

def machine (c : Cfg) : Machine Nat (In D) (Out D) := ⟨out c, next c⟩

end Window

end Verif.Mi32Bus
