import Verif.StreamNode
/-!
# Read path of `AxiCacheWriteAllocWawOnlyWritePropagating` (hwtLib/amba/axi_comp/cache/cacheWriteAllocWawOnlyWritePropagating.py)

`read_handler` (:162-228) and `incr_lru_on_hit` (:154-160) with cache lines of a single word. The request to the data array, the
data array and the buffers around it (:186-188, :220-222) are a FIFO with any latency and any capacity (`daRd`, `hVld` are from the
environment). The memory behind `m` is any memory which keeps AXI rules: any of the outstanding reads may be
answered if there is no older one with the same id. The data are represented by the request which they belong to.
-/
namespace Verif.CacheRead
open Verif StreamNode

/-- result of the lookup of one read: `ar_tagRes` -/
structure Req where
  id : Nat
  addr : Nat
  found : Bool
  way : Nat
deriving DecidableEq

structure St where
  /-- reads which wait for the data array, the oldest first -/
  hq : List Req
  /-- reads which were sent to `m.ar` and were not answered on `m.r` -/
  mq : List Req
deriving DecidableEq

structure In where
  resVld : Bool
  res : Req
  /-- `data_arr_read_req.rd` -/
  daRd : Bool
  /-- `m.ar.ready` -/
  arRd : Bool
  /-- word from the data array is available -/
  hVld : Bool
  /-- the memory answers this one of outstanding reads -/
  mSel : Option Nat
  /-- `s.r.ready` -/
  sRd : Bool
  /-- `lru_array.incr[0].rd` -/
  lruRd : Bool
deriving DecidableEq

structure Out where
  resRd : Bool
  arVld : Bool
  daVld : Bool
  /-- `data_arr_read.ready`, `m.r.ready` -/
  hRd : Bool
  mRd : Bool
  /-- `s.r` (`none` if not valid) -/
  r : Option Req
  /-- `lru_array.incr[0]` -/
  lruVld : Bool
  lruAddr : Nat
  lruWay : Nat
deriving DecidableEq

/-- the node of the request (:196-207); slaves are `m.ar`, `data_arr_read_req` -/
def node (i : In) : Node where
  masters := [{ sig := i.resVld }]
  slaves := [{ sig := i.arRd, extra := some (i.resVld && !i.res.found), skip := some (i.resVld && i.res.found) },
    { sig := i.daRd, extra := some (i.resVld && i.res.found), skip := some (i.resVld && !i.res.found) }]

/-- data of a hit on the input of the join -/
def hit (s : St) (i : In) : Option Req := if i.hVld then s.hq.head? else none

/-- `m.r`: the memory answers the read number `k` only if no older one has the same id -/
def miss (s : St) (i : In) : Option Req :=
  match i.mSel with
  | none => none
  | some k =>
    match s.mq[k]? with
    | none => none
    | some r => if (s.mq.take k).all (fun q => q.id != r.id) then some r else none

/-- :154-228 -/
def out (s : St) (i : In) : Out where
  resRd := (node i).rdOf true 0 { sig := i.resVld }
  arVld := (node i).vldOf true 0 { sig := i.arRd, extra := some (i.resVld && !i.res.found), skip := some (i.resVld && i.res.found) }
  daVld := (node i).vldOf true 1 { sig := i.daRd, extra := some (i.resVld && i.res.found), skip := some (i.resVld && !i.res.found) }
  -- join_prioritized (:224-228), frames are single words
  hRd := i.sRd
  mRd := i.sRd && (hit s i).isNone
  r := (hit s i).or (miss s i)
  -- incr_lru_on_hit (:154-160)
  lruVld := i.resVld && i.res.found
  lruAddr := i.res.addr
  lruWay := i.res.way

def next (s : St) (i : In) : St where
  hq := (if (hit s i).isSome && (out s i).hRd then s.hq.tail else s.hq) ++ (if (out s i).daVld && i.daRd then [i.res] else [])
  mq := (if (miss s i).isSome && (out s i).mRd then s.mq.eraseIdx (i.mSel.getD 0) else s.mq) ++
    (if (out s i).arVld && i.arRd then [i.res] else [])

def sys : Machine St In Out := ⟨out, next⟩

def init : St := ⟨[], []⟩

end Verif.CacheRead
