import Verif.Common

/-!
# `AxiCacheTagArray` (`hwtLib/amba/axi_comp/cache/tag_array.py` lines 78-275)

One lookup port and the update port (lookup ports do not share anything but the memory and `update_tmp`). The memory is a
`RamSingleClock` with a write port with byte enable for each way and read ports with a registered output; the value read from a way which
is written in the same cycle is not specified (input `junk`). The address is split as in `CacheAddrTypeConfig.parse_addr`.
-/

namespace Verif.CacheTagArray

open Verif

structure Cfg where
  WAY_CNT : Nat
  INDEX_W : Nat
  OFFSET_W : Nat

/-- `parse_addr` -/
def tagOf (c : Cfg) (a : Nat) : Nat := a / 2 ^ (c.INDEX_W + c.OFFSET_W)
def idxOf (c : Cfg) (a : Nat) : Nat := a / 2 ^ c.OFFSET_W % 2 ^ c.INDEX_W

/-- `tag_record_t` -/
structure Rec where
  tag : Nat
  valid : Bool
deriving DecidableEq

structure Upd where
  vld : Bool
  addr : Nat
  delete : Bool
  wayEn : Nat → Bool

abbrev Mem := Nat → Nat → Rec

structure St where
  mem : Mem
  /-- `update_tmp` -/
  upd : Upd
  /-- `lookup_tmp` -/
  lkVld : Bool
  lkAddr : Nat
  lkId : Nat
  /-- output register of the memory, for each way -/
  dout : Nat → Rec

structure In where
  upd : Upd
  /-- `lookup` -/
  vld : Bool
  addr : Nat
  id : Nat
  /-- `lookupRes.rd` -/
  rd : Bool
  junk : Nat → Rec

structure Out where
  /-- `lookup.rd` -/
  rd : Bool
  /-- `lookupRes` -/
  vld : Bool
  id : Nat
  addr : Nat
  found : Bool
  way : Nat
  tags : Nat → Rec

/-- lines 207-213 -/
def justUpdated (c : Cfg) (s : St) : Bool := s.upd.vld && idxOf c s.lkAddr == idxOf c s.upd.addr

/-- lines 218-232 -/
def found (c : Cfg) (s : St) (i : Nat) : Bool :=
  ((s.dout i).valid && (s.dout i).tag == tagOf c s.lkAddr && (!justUpdated c s || (s.upd.vld && !s.upd.wayEn i))) ||
    (justUpdated c s && s.upd.wayEn i && !s.upd.delete && tagOf c s.lkAddr == tagOf c s.upd.addr)

/-- `oneHotToBin` -/
def firstSet (n : Nat) (f : Nat → Bool) : Nat := ((List.range n).find? f).getD (n - 1)

def lkRd (s : St) (x : In) : Bool := !s.lkVld || x.rd

def out (c : Cfg) (s : St) (x : In) : Out where
  rd := lkRd s x
  vld := s.lkVld
  id := s.lkId
  addr := s.lkAddr
  found := (List.range c.WAY_CNT).any (found c s)
  way := firstSet c.WAY_CNT (found c s)
  tags := s.dout

/-- `connect_update_port` -/
def write (c : Cfg) (u : Upd) (m : Mem) : Mem :=
  fun i w => if u.vld && i == idxOf c u.addr && u.wayEn w then ⟨tagOf c u.addr, !u.delete⟩ else m i w

/-- the address which is read, lines 246-249 -/
def rdIdx (c : Cfg) (s : St) (x : In) : Nat := if s.lkVld && !x.rd then idxOf c s.lkAddr else idxOf c x.addr

def next (c : Cfg) (s : St) (x : In) : St where
  mem := write c x.upd s.mem
  upd := x.upd
  lkVld := x.vld || (s.lkVld && !x.rd)
  lkAddr := if lkRd s x then x.addr else s.lkAddr
  lkId := if lkRd s x then x.id else s.lkId
  dout := fun w =>
    if x.vld || (s.lkVld && !x.rd) then
      if x.upd.vld && rdIdx c s x == idxOf c x.upd.addr && x.upd.wayEn w then x.junk w else s.mem (rdIdx c s x) w
    else s.dout w

def machine (c : Cfg) : Machine St In Out := ⟨out c, next c⟩

structure IsInit (s : St) : Prop where
  upd : s.upd.vld = false
  lk : s.lkVld = false

end Verif.CacheTagArray
