import Verif.Common
import Mathlib.Data.List.Induction
import Mathlib.Data.List.Basic
/-!
# Model of `MMU_2pageLvl` (hwtLib/structManipulators/mmu_2pageLvl.py)

The component is a composition of components with own models; here each of them is a queue:

* `lvl1Converter` + `lvl1Storage` (`RamAsAddrDataRdVld`, C26): addresses accepted are answered in order by the content of the level 1
  table `t`; the table is initialised before the first request and then it is constant, as the documentation demands (:31-32);
* `lvl2indxFifo`, `pageOffsetFifo` (`HandshakedFifo`, C05-C08);
* `lvl2get` (`ArrayItemGetter`, C140): indexes accepted are answered in order by the items of the arrays in the memory;
  `get base index` is the item.

Each queue refuses inputs and shows its head at any time, by oracles.
-/
namespace Verif.Mmu

structure Cfg where
  /-- `PAGE_OFFSET_WIDTH` -/
  off : Nat
  /-- `LVL2_PAGE_TABLE_INDX_WIDTH` -/
  lvl2 : Nat
  /-- level 1 table -/
  t : Nat → Nat
  /-- item of the level 2 table at a base address -/
  get : Nat → Nat → Nat

structure In where
  /-- `virtIn` -/
  vld : Bool
  virt : Nat
  /-- `physOut.rd` -/
  rd : Bool
  /-- ready of `lvl1Converter.r.addr`, the fifos and `lvl2get.index` -/
  a1 : Bool
  ai : Bool
  ao : Bool
  a2 : Bool
  /-- the queues show their heads -/
  v1 : Bool
  vi : Bool
  vo : Bool
  v2 : Bool

structure Out where
  /-- `virtIn.rd` -/
  rd : Bool
  /-- `physOut` -/
  vld : Bool
  phys : Nat
  segfault : Bool
  /-- request of the level 2 item: `lvl2get.index` with `base` -/
  reqVld : Bool
  base : Nat
  index : Nat

structure St where
  q1 : List Nat
  qi : List Nat
  qo : List Nat
  q2 : List (Nat × Nat)
  seg : Bool

def vld1 (s : St) (x : In) : Bool := x.v1 && !s.q1.isEmpty
def vldI (s : St) (x : In) : Bool := x.vi && !s.qi.isEmpty
def vldO (s : St) (x : In) : Bool := x.vo && !s.qo.isEmpty
def vld2 (s : St) (x : In) : Bool := x.v2 && !s.q2.isEmpty
/-- `lvl2get.item.data` -/
def item (c : Cfg) (s : St) : Nat := match s.q2 with
  | (b, i) :: _ => c.get b i
  | [] => 0

/-- parts of a virtual address (:118-122) -/
def idx1 (c : Cfg) (v : Nat) : Nat := v / 2 ^ (c.lvl2 + c.off)
def idx2 (c : Cfg) (v : Nat) : Nat := v / 2 ^ c.off % 2 ^ c.lvl2
def offset (c : Cfg) (v : Nat) : Nat := v % 2 ^ c.off

/-- `virtIn` moves (:123-124) -/
def take (x : In) : Bool := x.vld && (x.ai && x.a1 && x.ao)
/-- the heads of `lvl1Converter.r.data` and `lvl2indxFifo` move (:134-138); `segfaultFlag` stops the slave only -/
def move (s : St) (x : In) : Bool := vld1 s x && vldI s x && x.a2
/-- the heads of `lvl2get.item` and `pageOffsetFifo` move (:145-147) -/
def emit (s : St) (x : In) : Bool := vld2 s x && vldO s x && x.rd

/-- :113-150, :177 -/
def out (c : Cfg) (s : St) (x : In) : Out where
  rd := x.ai && x.a1 && x.ao
  vld := vld2 s x && vldO s x && !(s.seg || item c s % 2 == 1)
  phys := item c s / 2 ^ c.off * 2 ^ c.off + s.qo.headD 0
  segfault := s.seg
  reqVld := vld1 s x && vldI s x && !s.seg
  base := s.q1.headD 0
  index := s.qi.headD 0

/-- :113-164 -/
def next (c : Cfg) (s : St) (x : In) : St where
  q1 := (if move s x then s.q1.tail else s.q1) ++ given (take x) (c.t (idx1 c x.virt))
  qi := (if move s x then s.qi.tail else s.qi) ++ given (take x) (idx2 c x.virt)
  qo := (if emit s x then s.qo.tail else s.qo) ++ given (take x) (offset c x.virt)
  q2 := (if emit s x then s.q2.tail else s.q2) ++ given (move s x && !s.seg) (s.q1.headD 0, s.qi.headD 0)
  seg := s.seg || (vld1 s x && s.q1.headD 0 % 2 == 1) || (vld2 s x && item c s % 2 == 1)

def machine (c : Cfg) : Machine St In Out := ⟨out c, next c⟩

/-- state after reset -/
def init : St := ⟨[], [], [], [], false⟩

/-! ## Observations -/

def accepted (tr : List (In × Out)) : List Nat := tr.flatMap fun e => given (e.1.vld && e.2.rd) e.1.virt
def delivered (tr : List (In × Out)) : List Nat := tr.flatMap fun e => given (e.2.vld && e.1.rd) e.2.phys
/-- level 2 items asked for -/
def asked (tr : List (In × Out)) : List (Nat × Nat) := tr.flatMap fun e => given (e.2.reqVld && e.1.a2) (e.2.base, e.2.index)

/-- item of the level 1 table for a virtual address -/
def entry1 (c : Cfg) (v : Nat) : Nat := c.t (v / 2 ^ (c.off + c.lvl2))
/-- item of the level 2 table -/
def entry2 (c : Cfg) (v : Nat) : Nat := c.get (entry1 c v) (v / 2 ^ c.off % 2 ^ c.lvl2)
/-- An item is invalid if its lowest bit is 1. -/
def Mapped (c : Cfg) (v : Nat) : Prop := entry1 c v % 2 = 0 ∧ entry2 c v % 2 = 0
/-- page address from the level 2 item, offset from the virtual address -/
def translate (c : Cfg) (v : Nat) : Nat := entry2 c v / 2 ^ c.off * 2 ^ c.off + v % 2 ^ c.off

end Verif.Mmu
