import Verif.Common

/-!
# `AxiCacheLruArray` (`hwtLib/amba/axi_comp/cache/lru_array.py`)

The memory (`RamXorSingleClock`) and the encoding of the LRU tree (`PseudoLru`) are not a part of this model, they have own models (`RamXor`,
`PseudoLru`): what a port of the memory reads is an input (`lru`, the content of the memory as it is seen by the read port in this
cycle), `L` is the type of the record and `victimOf` is `PseudoLru.get_lru`. What is written is modelled by the mask of ways which is
given to `mark_use_many`. The output register of the read port keeps its value without `en` (as in `RamSingleClock`).
-/

namespace Verif.LruArray

open Verif

variable {L : Type}

structure Cfg (L : Type) where
  /-- `INCR_PORT_CNT` -/
  ports : Nat
  victimOf : L → Nat

structure St (L : Type) where
  /-- `victim_req_tmp` -/
  vVld : Bool
  vIndex : Nat
  /-- `victim_req_r.dout` -/
  dout : L
  /-- `incr_tmp` -/
  iVld : Nat → Bool
  iIndex : Nat → Nat

structure In (L : Type) where
  set : Bool
  setAddr : Nat
  reqVld : Bool
  reqAddr : Nat
  /-- `victim_data.rd` -/
  dataRd : Bool
  incVld : Nat → Bool
  incIndex : Nat → Nat
  incWay : Nat → Nat
  lru : Nat → L

/-- write to the memory: the ways which are marked as used -/
structure Write where
  en : Bool
  addr : Nat
  mask : Nat → Bool

structure Out where
  reqRd : Bool
  dataVld : Bool
  data : Nat
  incRd : Bool
  /-- `victim_req_w` if it is not used by `set` -/
  vw : Write
  iw : Nat → Write

def victim (c : Cfg L) (s : St L) : Nat := c.victimOf s.dout

/-- `incr2_tmp.vld & incr2_tmp.index._eq(index)` -/
def hit (s : St L) (index j : Nat) : Bool := s.iVld j && s.iIndex j == index

/-- lines 155-180 -/
def vw (c : Cfg L) (s : St L) (x : In L) : Write where
  en := !x.set && s.vVld
  addr := s.vIndex
  mask := fun w => w == victim c s || (List.range c.ports).any fun j => hit s s.vIndex j && x.incWay j == w

/-- lines 182-207 -/
def iw (c : Cfg L) (s : St L) (x : In L) (i : Nat) : Write where
  en := s.iVld i && !((s.vVld && s.vIndex == s.iIndex i) || (List.range i).any fun j => hit s (s.iIndex i) j) && !x.set
  addr := s.iIndex i
  mask := fun w => x.incWay i == w || (List.range c.ports).any fun j => decide (i < j) && hit s (s.iIndex i) j && x.incWay j == w

def out (c : Cfg L) (s : St L) (x : In L) : Out where
  reqRd := !x.set && (!s.vVld || x.dataRd)
  dataVld := s.vVld && !x.set
  data := victim c s
  incRd := !x.set
  vw := vw c s x
  iw := iw c s x

def next (s : St L) (x : In L) : St L where
  vVld := if (!s.vVld || x.dataRd) && !x.set then x.reqVld else s.vVld
  vIndex := if (!s.vVld || x.dataRd) && !x.set then x.reqAddr else s.vIndex
  dout := if x.reqVld then x.lru x.reqAddr else s.dout
  iVld := fun i => x.incVld i && !x.set
  iIndex := x.incIndex

def machine (c : Cfg L) : Machine (St L) (In L) Out := ⟨out c, next⟩

structure IsInit (s : St L) : Prop where
  vVld : s.vVld = false
  iVld : ∀ i, s.iVld i = false

end Verif.LruArray
