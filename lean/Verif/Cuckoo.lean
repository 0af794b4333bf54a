import Verif.Common

/-!
# `CuckooHashTableWithRam` (`hwtLib/mem/cuckooHashTable.py`, `hwtLib/mem/cuckooHashTablWithRam.py`)

The whole hash table: the control of `CuckooHashTable` and the tables `HashTableCoreWithRam`.

Simplifications
* Keys and data are opaque types. `hash i k` is the CRC of table `i` cut to the width of the address (hashTableCore.py:123),
  it is less than `2 ^ w`.
* A table is its memory and the lookups which were accepted and not yet answered. A lookup reads the memory in the cycle in which it is
  accepted (RamAsAddrDataRdVld, ramAsAddrDataRdVld.py:117-119). `la` tells that all tables are ready for a lookup and `rv` that the next
  lookup in the pipeline reaches the outputs of the tables (both are arbitrary inputs); a result at the outputs stays there until it is
  taken. Lookups go to all tables at once (StreamNode, cuckooHashTable.py:274) and their results are taken at once (:404).
* `insert.rd` of a table is 1 if there is no lookup in this cycle (ramAsAddrDataRdVld.py:124-125), there is none in the states
  `cleaning` and `lookupResAck` (:418-423), thus `insertAck` is 1 there.
* The counter of lookups (:303) does not overflow (`another_lookup_possible`) and is a natural number. `reinsert_cntr` is a natural
  number.
* Undefined values which are stored to the registers are inputs (`junkK`).
-/

namespace Verif.Cuckoo

universe u v

/-- Parameters: number of tables, number of items of a table (`TABLE_SIZE // TABLE_CNT`), address width `log2ceil` of it,
`MAX_LOOKUP_OVERLAP`, `MAX_REINSERT`, hash functions. -/
structure Cfg (K : Type u) where
  N : Nat
  items : Nat
  w : Nat
  overlap : Nat
  maxRe : Nat
  hash : Nat → K → Nat

/-- Constraints of the constructor: cuckooHashTable.py:70, :208, hashTable_intf.py:262; the hash is cut to the width of the address. -/
structure Cfg.Valid {K : Type u} (c : Cfg K) : Prop where
  n : 0 < c.N
  items : 1 < c.items
  w : c.w = log2ceil c.items
  overlap : 1 < c.overlap
  maxRe : 0 < c.maxRe
  hash : ∀ i k, c.hash i k < 2 ^ c.w

variable {K : Type u} {D : Type v}

/-- hashTableCore.py:31-37, `struct item`. -/
structure Item (K : Type u) (D : Type v) where
  key : K
  data : D
  vld : Bool

/-- cuckooHashTable.py:28 -/
inductive Op where
  | insert | lookup | delete
  deriving DecidableEq, Repr

/-- cuckooHashTable.py:363-365 -/
inductive Fsm where
  | idle | cleaning | lookup | waitRd | ack
  deriving DecidableEq, Repr

/-- A lookup in the tables: its key and the items read from the tables. -/
structure Res (K : Type u) (D : Type v) where
  key : K
  it : Nat → Item K D

structure St (K : Type u) (D : Type v) where
  st : Fsm
  /-- `stash` (:336-343) -/
  key : K
  data : D
  cntr : Nat
  ivld : Bool
  op : Op
  /-- `insertTargetOH` (:149), bit of each table -/
  tgt : Nat → Bool
  /-- `insertFinal` (:152) -/
  fin : Bool
  /-- `lookup_in_progress` (:303) -/
  inprog : Nat
  /-- `cleanupAddr` (:106) -/
  caddr : Nat
  /-- memories of the tables -/
  mem : Nat → Nat → Item K D
  /-- lookups in the pipelines of the tables -/
  fly : List (Res K D)
  /-- results on the outputs of the tables -/
  av : List (Res K D)

structure In (K : Type u) (D : Type v) where
  clean : Bool
  del : Option K
  ins : Option (K × D)
  lk : Option K
  /-- `insertRes.rd` -/
  resRd : Bool
  /-- `lookupRes.rd` -/
  lrRd : Bool
  la : Bool
  rv : Bool
  junkK : K

structure Out (K : Type u) (D : Type v) where
  cleanRd : Bool
  delRd : Bool
  insRd : Bool
  lkRd : Bool
  /-- `insertRes`: (pop, key, data) if valid -/
  insRes : Option (Bool × K × D)
  /-- `lookupRes`: (found, key, data) if valid -/
  lkRes : Option (Bool × K × D)

/-- Lowest table whose bit is set (SwitchLogic). -/
def lowest (N : Nat) (f : Nat → Bool) : Option Nat := (List.range N).find? f

/-- cuckooHashTable.py:356-358 -/
def lnip (s : St K D) : Bool := s.inprog == 0 && s.op != .lookup

/-- cuckooHashTable.py:253-264 -/
def cleanRd (s : St K D) : Bool := s.st == .idle && lnip s
def delRd (s : St K D) (x : In K D) : Bool := s.st == .idle && !x.clean && lnip s
def insRd (s : St K D) (x : In K D) : Bool := s.st == .idle && !x.clean && x.del.isNone && lnip s
def lkRd (c : Cfg K) (s : St K D) (x : In K D) : Bool :=
  s.st == .idle && !x.clean && x.del.isNone && x.ins.isNone && (s.op != .lookup || x.la) && s.inprog != c.overlap - 1

/-- Result of the lookup at the outputs of the tables is there, `lookupResVld` (:155). -/
def resVld (s : St K D) : Bool := !s.av.isEmpty

/-- hashTableCore.py:160 -/
def found [DecidableEq K] (r : Res K D) (i : Nat) : Bool := (r.key == (r.it i).key) && (r.it i).vld

/-- cuckooHashTable.py:418-423 -/
def lookupEn (s : St K D) : Bool :=
  (s.st == .lookup && (s.cntr != 0 || s.op == .delete)) || (s.st == .idle && s.op == .lookup)

/-- cuckooHashTable.py:366-394 -/
def nextFsm (c : Cfg K) (s : St K D) (x : In K D) : Fsm :=
  match s.st with
  | .idle => if lnip s && x.clean then .cleaning else if lnip s && (x.ins.isSome || x.del.isSome) then .lookup else .idle
  | .cleaning => if s.caddr == c.items - 1 then .idle else .cleaning
  | .lookup =>
    if s.cntr == 0 && s.op == .insert && x.resRd then .idle
    else if (s.cntr != 0 || s.op != .insert) && x.la then .waitRd else .lookup
  | .waitRd => if resVld s then .ack else .waitRd
  | .ack =>
    if s.op == .delete then .idle
    else if s.fin && x.resRd then .idle
    else if !s.fin then .lookup else .ack

/-- cuckooHashTable.py:398-402 -/
def resNext (c : Cfg K) (s : St K D) (x : In K D) : Bool :=
  (s.st == .idle && x.lrRd) || (s.st == .ack && nextFsm c s x != .ack)

/-- cuckooHashTable.py:159-178, `insertTargetOH` for the result `r`. -/
def resolveTgt [DecidableEq K] (c : Cfg K) (r : Res K D) (tgt : Nat → Bool) : Nat → Bool :=
  if (List.range c.N).any (found r) then found r
  else match lowest c.N (fun i => !(r.it i).vld) with
    | some e => fun i => i == e
    | none => if (List.range c.N).any tgt then fun i => tgt ((i + 1) % c.N) else fun i => i == c.N - 1

/-- cuckooHashTable.py:180 -/
def resolveFin [DecidableEq K] (c : Cfg K) (r : Res K D) : Bool :=
  (List.range c.N).any (found r) || (List.range c.N).any fun i => !(r.it i).vld

/-- Stash in `idle`, cuckooHashTable.py:209-229. -/
def stashIdle (c : Cfg K) (s : St K D) (x : In K D) : St K D :=
  if lnip s && x.clean then { s with op := .delete, ivld := false }
  else match lnip s, x.del, x.ins with
    | true, some k, _ => { s with op := .delete, key := k, ivld := false }
    | true, none, some (k, d) => { s with op := .insert, key := k, data := d, cntr := c.maxRe, ivld := true }
    | _, _, _ => match x.lk, lkRd c s x with
      | some k, true => { s with op := .lookup, key := k }
      | _, _ => if x.la then { s with op := .delete, key := x.junkK } else s

/-- Stash after the operation with tables, cuckooHashTable.py:230-252. -/
def stashSwap (c : Cfg K) (s : St K D) (x : In K D) : St K D :=
  match lowest c.N s.tgt, s.av with
  | some i, r :: _ => { s with key := (r.it i).key, data := (r.it i).data, cntr := s.cntr - 1, ivld := (r.it i).vld }
  | _, _ => { s with op := .delete, key := x.junkK }

/-- Memory of tables: cuckooHashTable.py:129-140 and 188-197. -/
def nextMem (c : Cfg K) (s : St K D) : Nat → Nat → Item K D :=
  match s.st with
  | .cleaning => fun i a => if a = s.caddr then ⟨s.key, s.data, s.ivld⟩ else s.mem i a
  | .ack =>
    match lowest c.N s.tgt, s.av with
    | some t, r :: _ => fun i a => if s.tgt i && a == c.hash t r.key then ⟨s.key, s.data, s.ivld⟩ else s.mem i a
    | _, _ => s.mem
  | _ => s.mem

/-- What is read from tables in this cycle for the key in the stash. -/
def read (c : Cfg K) (s : St K D) : Res K D := ⟨s.key, fun i => s.mem i (c.hash i s.key)⟩

def lkRes [DecidableEq K] (c : Cfg K) (s : St K D) : Option (Bool × K × D) :=
  match s.st, s.av with
  | .idle, r :: _ =>
    match lowest c.N (found r) with
    | some i => some (found r i, (r.it i).key, (r.it i).data)
    | none => some (found r 0, (r.it 0).key, (r.it 0).data)
  | _, _ => none

/-- cuckooHashTable.py:314-324 -/
def insRes (s : St K D) : Option (Bool × K × D) :=
  if (s.st == .lookup && s.op == .insert && s.cntr == 0) || (s.st == .ack && s.fin && s.op != .delete) then
    some (s.cntr == 0, s.key, s.data)
  else none

def out [DecidableEq K] (c : Cfg K) (s : St K D) (x : In K D) : Out K D where
  cleanRd := cleanRd s
  delRd := delRd s x
  insRd := insRd s x
  lkRd := lkRd c s x
  insRes := insRes s
  lkRes := lkRes c s

/-- cuckooHashTable.py:307-311 -/
def nextInprog [DecidableEq K] (c : Cfg K) (s : St K D) (x : In K D) : Nat :=
  let a := lkRd c s x && x.lk.isSome
  let b := x.lrRd && (lkRes c s).isSome
  if a && !b then s.inprog + 1 else if !a && b then s.inprog - 1 else s.inprog

def next [DecidableEq K] (c : Cfg K) (s : St K D) (x : In K D) : St K D :=
  let n := if s.st == .idle then stashIdle c s x else if resNext c s x then stashSwap c s x else s
  let rest := if resNext c s x then s.av.tail else s.av
  { n with
    st := nextFsm c s x
    tgt := match s.st, s.av with | .waitRd, r :: _ => resolveTgt c r s.tgt | _, _ => s.tgt
    fin := match s.st, s.av with | .waitRd, r :: _ => resolveFin c r | _, _ => s.fin
    inprog := nextInprog c s x
    caddr := if s.st == .cleaning then (if s.caddr == c.items - 1 then 0 else s.caddr + 1) else s.caddr
    mem := nextMem c s
    av := rest ++ (if x.rv then s.fly.take 1 else [])
    fly := (if x.rv then s.fly.drop 1 else s.fly) ++ (if lookupEn s && x.la then [read c s] else []) }

def machine [DecidableEq K] (c : Cfg K) : Machine (St K D) (In K D) (Out K D) := ⟨out c, next c⟩

/-- After reset: the memories and registers without a reset value are arbitrary. -/
structure IsReset (s : St K D) : Prop where
  st : s.st = .idle
  op : s.op = .delete
  inprog : s.inprog = 0
  caddr : s.caddr = 0
  fly : s.fly = []
  av : s.av = []

end Verif.Cuckoo
