import Verif.CacheTagArray

/-!
# Write path of `AxiCacheWriteAllocWawOnlyWritePropagating` (`hwtLib/amba/axi_comp/cache/cacheWriteAllocWawOnlyWritePropagating.py`)

`connect_tag_lookup` for `aw` (lines 141-156), `resolve_victim` (lines 232-261), `write_handler` (lines 263-394) after the initialisation, with
single word cache lines. `AxiCacheTagArray` is the model from `CacheTagArray`, `victim_load_status0` is a `HandshakedReg` (one
register), `AxiCacheLruArray` (`victim_req.rd`, `victim_data`), `read_cancel` and the write address port of `RamTransactional` are
environment. The data are not modelled (they go to `data_array` in the order of `aw`).
-/

namespace Verif.CacheWrite

open Verif CacheTagArray

/-- `st0.T` -/
structure St0 where
  id : Nat
  addr : Nat
  tags : Nat → Rec
  found : Bool
  hadEmpty : Bool
  foundWay : Nat

structure St where
  ta : CacheTagArray.St
  vld : Bool
  st0 : St0

structure In where
  awVld : Bool
  awAddr : Nat
  awId : Nat
  /-- `read_cancel.rd` -/
  rcRd : Bool
  /-- `victim_req.rd` -/
  vrRd : Bool
  /-- `victim_data` -/
  vdVld : Bool
  vdData : Nat
  /-- `data_array.w.addr.rd` -/
  daRd : Bool
  junk : Nat → Rec

/-- transaction on `data_array.w.addr` -/
structure Da where
  idx : Nat
  way : Nat
  flush : Bool
  victimTag : Nat
  id : Nat
deriving DecidableEq

structure Out where
  awRd : Bool
  vrVld : Bool
  vdRd : Bool
  daVld : Bool
  da : Da

/-- `resolve_victim` -/
def victim (c : Cfg) (s : St0) (vd : Nat) : Nat × Nat :=
  match (List.range c.WAY_CNT).find? fun i => !(s.tags i).valid with
  | some i => (i, (s.tags i).tag)
  | none => (vd, (s.tags vd).tag)

def victimWay (c : Cfg) (s : St0) (vd : Nat) : Nat := if s.found then s.foundWay else (victim c s vd).1

/-- the victim is not needed, lines 345-347 -/
def skipV (s : St) : Bool := s.st0.found || s.st0.hadEmpty
def daVld (s : St) (x : In) : Bool := (x.vdVld || skipV s) && s.vld
def st0Rd (s : St) (x : In) : Bool := (x.vdVld || skipV s) && x.daRd
/-- `st0.dataIn.rd` -/
def st0InRd (s : St) (x : In) : Bool := !s.vld || st0Rd s x

def hasEmpty (c : Cfg) (t : Nat → Rec) : Bool := (List.range c.WAY_CNT).any fun i => !(t i).valid

/-- the update of the tags, lines 386-390 -/
def tagUpd (c : Cfg) (s : St) (x : In) : Upd where
  vld := s.vld && x.daRd
  addr := s.st0.addr
  delete := false
  wayEn := fun w => w == victimWay c s.st0 x.vdData

/-- inputs of the tag array (without `lookupRes.rd`) -/
def taIn0 (c : Cfg) (s : St) (x : In) : CacheTagArray.In :=
  { upd := tagUpd c s x, vld := x.awVld && x.rcRd, addr := x.awAddr, id := x.awId, rd := false, junk := x.junk }

/-- result of the lookup (does not depend on `rd`) -/
def res (c : Cfg) (s : St) (x : In) : CacheTagArray.Out := CacheTagArray.out c s.ta (taIn0 c s x)
def skipR (c : Cfg) (s : St) (x : In) : Bool := (res c s x).vld && ((res c s x).found || hasEmpty c (res c s x).tags)
def resRd (c : Cfg) (s : St) (x : In) : Bool := (x.vrRd || skipR c s x) && st0InRd s x

def taIn (c : Cfg) (s : St) (x : In) : CacheTagArray.In := { taIn0 c s x with rd := resRd c s x }

def out (c : Cfg) (s : St) (x : In) : Out where
  awRd := (CacheTagArray.out c s.ta (taIn c s x)).rd && x.rcRd
  vrVld := (res c s x).vld && st0InRd s x && (!(res c s x).found && !hasEmpty c (res c s x).tags)
  vdRd := s.vld && x.daRd && (!s.st0.found && !s.st0.hadEmpty)
  daVld := daVld s x
  da :=
    { idx := idxOf c s.st0.addr, way := if s.st0.found then s.st0.foundWay else victimWay c s.st0 x.vdData,
      flush := s.vld && (!s.st0.hadEmpty && !s.st0.found), victimTag := (victim c s.st0 x.vdData).2, id := s.st0.id }

def next (c : Cfg) (s : St) (x : In) : St where
  ta := CacheTagArray.next c s.ta (taIn c s x)
  vld := if st0InRd s x then (res c s x).vld && (x.vrRd || skipR c s x) else s.vld
  st0 :=
    if st0InRd s x && ((res c s x).vld && (x.vrRd || skipR c s x)) then
      { id := (res c s x).id, addr := (res c s x).addr, tags := (res c s x).tags, found := (res c s x).found,
        hadEmpty := hasEmpty c (res c s x).tags, foundWay := (res c s x).way }
    else s.st0

def machine (c : Cfg) : Machine St In Out := ⟨out c, next c⟩

/-- after the initialisation: all records are invalid -/
structure IsInit (s : St) : Prop where
  ta : CacheTagArray.IsInit s.ta
  vld : s.vld = false
  mem : ∀ i w, (s.ta.mem i w).valid = false

/-! ## With the handshake of `AxiCacheLruArray` (`lru_array.py` lines 107-151, `set.vld=0`)

The victim which is selected is an input (`vdData`), `PseudoLru` is modelled elsewhere. -/

structure SysSt where
  st : St
  /-- `victim_req_tmp.vld` -/
  lv : Bool

/-- inputs with the signals from the LRU array -/
def sysIn (s : SysSt) (x : In) : In :=
  { x with vdVld := s.lv, vrRd := !s.lv || (s.st.vld && x.daRd && (!s.st.st0.found && !s.st.st0.hadEmpty)) }

def sysNext (c : Cfg) (s : SysSt) (x : In) : SysSt where
  st := next c s.st (sysIn s x)
  lv := if (sysIn s x).vrRd then (out c s.st (sysIn s x)).vrVld else s.lv

/-- the output are all signals of the write path -/
def sys (c : Cfg) : Machine SysSt In (In × Out) := ⟨fun s x => (sysIn s x, out c s.st (sysIn s x)), sysNext c⟩

structure SysInit (s : SysSt) : Prop where
  st : IsInit s.st
  lv : s.lv = false

end Verif.CacheWrite
