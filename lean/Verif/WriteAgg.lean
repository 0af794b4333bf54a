import Verif.AxiWDispatchProps
import Verif.CumMask
import Verif.FifoOoo
import Verif.HsReg
import Verif.OneHot
/-!
# `AxiWriteAggregator` (`hwtLib/amba/axi_comp/lsu/write_aggregator.py`)

The whole component: the input register `w_in_reg`, the item pointers and the CAM (`FifoOutOfOrderReadFiltered`), the data
memory (`RamCumulativeMask`), the write dispatcher and the buffer of write responses are the models of these components, wired as in
the source.

* `M` is the number of items `2 ** ID_WIDTH`, `n` is `BUS_WORDS_IN_CACHE_LINE`, `nb` the number of bytes in a bus word.
* Addresses are line addresses (`addr[:CACHE_LINE_OFFSET_BITS]`); the rest of the address is not used by the component.
* The signals of the address channel which are not used on `s` and which are constant on `m` (burst, cache, ...) are left out;
  `aw.len` of `m` is in the model of the dispatcher. `resp` of `s.b` is constant `OKAY`.
* Contents of the memories, of the data registers and of `cam_index_onehot_previous` (it has no reset value) at the power-up are
  arbitrary.
-/
namespace Verif.WriteAgg

open Verif

structure Cfg where
  M : Nat
  n : Nat
  nb : Nat

/-- One word of write data. -/
structure BW (α : Type) where
  din : Nat → α
  we : Nat → Bool

/-- lsu/hIOs.py:29-35 `HwIOAxiWriteAggregatorWriteTmp` (`last` is not read from the register). -/
structure Tmp (α : Type) where
  id : Nat
  key : Nat
  w : BW α
  col : Bool
  cam : Nat → Bool
  unal : Bool

structure St (α : Type) where
  /-- `w_first` (line 121), only used for more than 1 word per line -/
  wfirst : Bool
  /-- `w_in_reg` -/
  tmp : HsReg.Stage (Tmp α)
  /-- `cam_index_onehot_previous` (line 166) -/
  prev : Nat → Bool
  /-- `push_offset` (line 217), 0 if there is 1 word per line -/
  off : Nat
  fifo : FifoOoo.St
  /-- `tag_cam`, keys of the items -/
  cam : Nat → Nat
  ram : CumMask.St α
  disp : AxiWDispatch.St (CumMask.Word α) Nat
  /-- buffer of `s.b` (line 84) -/
  b : HsReg.BSt Nat

structure In (α : Type) where
  awVld : Bool
  awKey : Nat
  awId : Nat
  wVld : Bool
  w : BW α
  wLast : Bool
  bRd : Bool
  mAwRd : Bool
  mWRd : Bool
  /-- `m.b` (its id if valid) -/
  mB : Option Nat

structure Out (α : Type) where
  awRd : Bool
  wRd : Bool
  bVld : Bool
  bId : Option Nat
  mAwVld : Bool
  mAwId : Nat
  mAwKey : Nat
  mAwLen : Nat
  mWVld : Bool
  mW : CumMask.Word α
  mWLast : Bool

variable {α : Type}

/-! ## Insert of the word from `w_in_reg` (lines 160-276) -/

/-- lines 167-172 `cam_index_onehot` -/
def camIdx (s : St α) (k : Nat) : Bool :=
  (if s.tmp.reg.col then s.prev k else s.tmp.reg.cam k) && s.fifo.valid k && !s.fifo.lock k
/-- line 173 -/
def camFound (c : Cfg) (s : St α) : Bool := (List.range c.M).any (camIdx s)
/-- line 197 -/
def empty (s : St α) : Bool := !s.fifo.valid s.fifo.ptr.wr
/-- lines 198-201; `write_execute.vld` is constant 1 (fifo_oooread.py:218) -/
def willInsert (c : Cfg) (s : St α) : Bool := !camFound c s && empty s
/-- lines 211-212, 235-236 -/
def insLast (c : Cfg) (s : St α) : Bool := s.off == AxiWDispatch.maxOff c.n
def insFirst (s : St α) : Bool := s.off == 0
/-- lines 213-214, 237-249: index of the item is extended by the index of the word -/
def ramAddr (c : Cfg) (s : St α) : Nat :=
  (if s.tmp.occ && camFound c s then OneHot.oneHotToBin c.M (camIdx s) else s.fifo.ptr.wr) * AxiWDispatch.words c.n + s.off
/-- lines 213-214, 240-251, 257-262: the write port of the memory -/
def ramW (c : Cfg) (s : St α) : CumMask.W α where
  vld := s.tmp.occ && (willInsert c s || !insFirst s) && (FifoOoo.wrd s.fifo || camFound c s)
  addr := ramAddr c s
  din := s.tmp.reg.w.din
  we := s.tmp.reg.w.we
  accumulate := s.tmp.occ && (s.tmp.reg.unal || (s.tmp.reg.col && camFound c s))
  overwrite := s.tmp.occ && !camFound c s
/-- `items.en.rd` (ramCumulativeMask.py:133) -/
def enRd (c : Cfg) (s : St α) : Bool := !(ramW c s).accumulate || (ramW c s).overwrite || s.ram.preload
/-- lines 263-265: ready of `w_in_reg` -/
def tmpRd (c : Cfg) (s : St α) : Bool := enRd c s && ((FifoOoo.wrd s.fifo && empty s) || camFound c s)
/-- lines 271-274 -/
def confirm (c : Cfg) (s : St α) : Bool := s.tmp.occ && willInsert c s && insLast c s && enRd c s
/-- lines 255-256, 268; fifo_oooread.py:218: write to the CAM -/
def camWrite (c : Cfg) (s : St α) : Bool := s.tmp.occ && enRd c s && (willInsert c s && insLast c s) && willInsert c s
/-- lines 219-234 -/
def nextOff (c : Cfg) (s : St α) : Nat :=
  if c.n = 1 then s.off
  else if (ramW c s).vld && enRd c s && (willInsert c s || (camFound c s && s.tmp.occ) || s.off != 0) then
    (if s.off ≠ AxiWDispatch.maxOff c.n then s.off + 1 else 0)
  else s.off

/-! ## Load of `w_in_reg` (lines 78-158) -/

def first (c : Cfg) (s : St α) : Bool := c.n == 1 || s.wfirst
def last (c : Cfg) (x : In α) : Bool := c.n == 1 || x.wLast
def bInRd (s : St α) : Bool := !s.b.occ0 || !s.b.occ1
def tmpInRd (c : Cfg) (s : St α) : Bool := HsReg.stageRd s.tmp (tmpRd c s)
/-- valid of `w_in_reg.dataIn` (lines 115-118, 137-151, `write_pre_lookup` is always ready) -/
def tmpInVld (c : Cfg) (s : St α) (x : In α) : Bool :=
  (x.awVld || !first c s) && x.wVld && (bInRd s || !last c x)
/-- `sync.ack()` -/
def take (c : Cfg) (s : St α) (x : In α) : Bool := tmpInVld c s x && tmpInRd c s
def awRd (c : Cfg) (s : St α) (x : In α) : Bool :=
  x.wVld && tmpInRd c s && (bInRd s || !last c x) && first c s
def wRd (c : Cfg) (s : St α) (x : In α) : Bool :=
  (x.awVld || !first c s) && tmpInRd c s && (bInRd s || !last c x)
def bInVld (c : Cfg) (s : St α) (x : In α) : Bool :=
  (x.awVld || !first c s) && x.wVld && tmpInRd c s && last c x
/-- lines 98-100 -/
def tick (s : St α) (x : In α) : Bool := s.tmp.occ && x.awVld && x.awKey == s.tmp.reg.key
/-- ramCumulativeMask.py:71-82, some byte of the mask is neither 0 nor all ones -/
def unaligned (nb : Nat) (we : Nat → Bool) : Bool :=
  (List.range ((nb + 7) / 8)).any fun j =>
    (List.range 8).any (fun k => decide (8 * j + k < nb) && we (8 * j + k)) &&
    (List.range 8).any (fun k => decide (8 * j + k < nb) && !we (8 * j + k))
/-- fifo_oooread.py:200-211 -/
def lookup (s : St α) (key k : Nat) : Bool := s.cam k == key && s.fifo.valid k && s.fifo.lock k
/-- lines 101-110, 121-133 -/
def tmpIn (c : Cfg) (s : St α) (x : In α) : Tmp α :=
  if first c s then ⟨x.awId, x.awKey, x.w, tick s x, lookup s x.awKey, unaligned c.nb x.w.we⟩
  else ⟨s.tmp.reg.id, s.tmp.reg.key, x.w, s.tmp.reg.col || tick s x, s.tmp.reg.cam,
    s.tmp.reg.unal || unaligned c.nb x.w.we⟩

/-! ## Connection of the components (lines 278-293) -/

def bIn (c : Cfg) (s : St α) (x : In α) : HsReg.In Nat :=
  ⟨bInVld c s x, if c.n = 1 then x.awId else s.tmp.reg.id, x.bRd⟩
def dispIn (c : Cfg) (s : St α) (x : In α) : AxiWDispatch.In (CumMask.Word α) Nat where
  xvld := !Fifo.readWait s.fifo.ptr
  xidx := s.fifo.ptr.rd
  xkey := s.cam s.fifo.ptr.rd
  enRd := !CumMask.acc (ramW c s) || s.ram.preload
  dout := s.ram.dout 0
  awReady := x.mAwRd
  wReady := x.mWRd
def dispOut (c : Cfg) (s : St α) (x : In α) := AxiWDispatch.out c.n s.disp (dispIn c s x)
def ramIn (c : Cfg) (s : St α) (x : In α) : CumMask.In α where
  w := ramW c s
  rVld := fun _ => (dispOut c s x).enVld
  rAddr := fun _ => (dispOut c s x).addrItem * AxiWDispatch.words c.n + (dispOut c s x).addrWord
def fifoIn (c : Cfg) (s : St α) (x : In α) : FifoOoo.In := ⟨confirm c s, (dispOut c s x).xrd, x.mB⟩

def out (c : Cfg) (s : St α) (x : In α) : Out α where
  awRd := awRd c s x
  wRd := wRd c s x
  bVld := (HsReg.bOut s.b (bIn c s x)).vld
  bId := (HsReg.bOut s.b (bIn c s x)).data
  mAwVld := (dispOut c s x).awVld
  mAwId := (dispOut c s x).awId
  mAwKey := (dispOut c s x).awKey
  mAwLen := (dispOut c s x).awLen
  mWVld := (dispOut c s x).wVld
  mW := (dispOut c s x).wData
  mWLast := (dispOut c s x).wLast

def next (c : Cfg) (s : St α) (x : In α) : St α where
  wfirst := if take c s x then x.wLast else s.wfirst
  tmp := HsReg.stageNext s.tmp (tmpInVld c s x) (tmpIn c s x) (tmpRd c s)
  prev := if s.tmp.occ && tmpRd c s then camIdx s else s.prev
  off := nextOff c s
  fifo := (FifoOoo.machine c.M).next s.fifo (fifoIn c s x)
  cam := if camWrite c s then upd s.cam s.fifo.ptr.wr s.tmp.reg.key else s.cam
  ram := CumMask.next c.nb s.ram (ramIn c s x)
  disp := AxiWDispatch.next c.n s.disp (dispIn c s x)
  b := HsReg.bNext s.b (bIn c s x)

def machine (c : Cfg) : Machine (St α) (In α) (Out α) := ⟨out c, next c⟩

structure IsInit (c : Cfg) (s : St α) : Prop where
  wfirst : s.wfirst = true
  tmp : s.tmp.occ = false
  off : s.off = 0
  fifo : s.fifo = FifoOoo.init c.M
  ram : s.ram.preload = false
  disp : AxiWDispatch.IsInit s.disp
  b : s.b.occ0 = false ∧ s.b.occ1 = false ∧ s.b.prio = false

/-! ## Observations -/

abbrev Tr (α : Type) := List (In α × Out α)

/-- Accepted line addresses with their ids. -/
def lines (tr : Tr α) : List (Nat × Nat) :=
  tr.filterMap fun e => if e.1.awVld && e.2.awRd then some (e.1.awKey, e.1.awId) else none
/-- Accepted words. -/
def words (tr : Tr α) : List (BW α) := tr.filterMap fun e => if e.1.wVld && e.2.wRd then some e.1.w else none
/-- Write responses taken on `s`. -/
def resps (tr : Tr α) : List (Option Nat) := tr.filterMap fun e => if e.2.bVld && e.1.bRd then some e.2.bId else none
/-- Transferred addresses on `m`: id, line address, len. -/
def mAws (tr : Tr α) : List (Nat × Nat × Nat) :=
  tr.filterMap fun e => if e.2.mAwVld && e.1.mAwRd then some (e.2.mAwId, e.2.mAwKey, e.2.mAwLen) else none
/-- Transferred words on `m`. -/
def mWords (tr : Tr α) : List (CumMask.Word α × Bool) :=
  tr.filterMap fun e => if e.2.mWVld && e.1.mWRd then some (e.2.mW, e.2.mWLast) else none
/-- Responses from the memory with id `k`. -/
def mBs (k : Nat) (tr : Tr α) : Nat := tr.countP fun e => e.1.mB == some k

/-- What a word writes: the bytes with strobe. -/
def bytesIn (w : BW α) (i : Nat) : Option α := if w.we i then some (w.din i) else none
def bytesOut (w : CumMask.Word α) (i : Nat) : Option α := if w.mask i then some (w.data i) else none

/-- The number of transactions on `m` of which the address and all words were transferred. -/
def complete (n : Nat) (tr : Tr α) : Nat := min (mAws tr).length ((mWords tr).length / n)
/-- AXI memory: a response is sent only for a complete transaction which has no response yet. -/
def MemOk (n : Nat) (tr : Tr α) : Prop :=
  ∀ pre e post, tr = pre ++ e :: post → ∀ k, e.1.mB = some k →
    mBs k pre < (((mAws pre).take (complete n pre)).map Prod.fst).count k
/-- AXI master: the last word of each burst and only it is marked by `last`. -/
def MasterOk (n : Nat) (tr : Tr α) : Prop :=
  ∀ pre e post, tr = pre ++ e :: post → e.1.wVld = true → e.1.wLast = ((words pre).length % n == n - 1)

end Verif.WriteAgg
