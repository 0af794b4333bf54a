import Verif.Datapump
/-!
# Model of `Axi_rDatapump` and `Axi_wDatapump` for aligned data (hwtLib/amba/datapump/r.py, w.py)

`isAlwaysAligned()`, i.e. `ALIGNAS = DATA_WIDTH`. Each `HandshakedFifo` (`sizeRmFifo`, `writeInfoFifo`, `bInfoFifo`) is a list;
the inputs `…Rd` and `…Vld` tell when the fifo accepts and offers an item (it never offers an item if it is empty). The
order of the items is proved for the fifo itself (C05).
-/
namespace Verif.Datapump
universe u
variable {α : Type u}

/-! ### Driver -/

/-- valid, data and ready of `req` in one cycle -/
abbrev ReqEv := Bool × Req × Bool

/-- number of accepted requests -/
def accepted (l : List ReqEv) : Nat := (l.filter fun e => e.1 && e.2.2).length

/-- The driver sends the requests of the plan in this order and keeps valid until ready. -/
def DriverOk (plan : List Req) (l : List ReqEv) : Prop :=
  ∀ n e, l[n]? = some e → e.1 = true → plan[accepted (l.take n)]? = some e.2.1 ∧
    (e.2.2 = false → ∀ e', l[n + 1]? = some e' → e'.1 = true)

/-- Addresses of the words of AXI bursts. -/
def burstWords (p : Params) (l : List (Nat × Nat)) : List Nat :=
  l.flatMap fun b => (List.range (b.2 + 1)).map fun k => (b.1 + k * p.W) % p.A

/-! ### The address part alone -/

/-- Any request, any AXI ready, fifo ready and error flag. -/
structure AOut where
  reqRd : Bool
  arVld : Bool
  arAddr : Nat
  arLen : Nat

def addrMachine (p : Params) : Machine ASt AIn AOut where
  out s i := ⟨reqRd p s i, arVld p s i, (burst p s i).addr, (burst p s i).len⟩
  next := aNext p

def aReqs (tr : List (AIn × AOut)) : List ReqEv := tr.map fun e => (e.1.vld, e.1.q, e.2.reqRd)
def aBursts (tr : List (AIn × AOut)) : List (Nat × Nat) :=
  tr.filterMap fun e => if e.2.arVld && e.1.arRd then some (e.2.arAddr, e.2.arLen) else none

/-! ### `Axi_rDatapump` -/

structure RSt where
  a : ASt
  /-- `sizeRmFifo`: `rem`, `propagateLast` -/
  fifo : List (Nat × Bool)
  errR : Bool
  errA : Bool

structure RIn (α : Type u) where
  vld : Bool
  q : Req
  arRd : Bool
  fRd : Bool
  fVld : Bool
  rVld : Bool
  rData : α
  rLast : Bool
  rOk : Bool
  outRd : Bool

structure ROut (α : Type u) where
  reqRd : Bool
  arVld : Bool
  arAddr : Nat
  arLen : Nat
  rRd : Bool
  outVld : Bool
  outData : α
  outStrb : Nat
  outLast : Bool
  errorRead : Bool
  errorAlignment : Bool

/-- divisor of the alignment check, r.py:263-269 -/
def readErrAl (p : Params) : Nat := if p.alignas = 8 then 1 else 2 ^ log2ceil (p.alignas / 8)

def RSt.err (s : RSt) : Bool := s.errR || s.errA
def rAIn (s : RSt) (i : RIn α) : AIn := ⟨i.vld, i.q, i.arRd, i.fRd, s.err⟩
def soVld (s : RSt) (i : RIn α) : Bool := i.fVld && !s.fifo.isEmpty
def soHead (s : RSt) : Nat × Bool := s.fifo.headD (0, false)
/-- r.py:181-189 -/
def rInLast (p : Params) (i : RIn α) : Bool := if p.lenWidth = 0 then true else i.rLast
def rLastP (p : Params) (s : RSt) (i : RIn α) : Bool := if p.split then (soHead s).2 && rInLast p i else rInLast p i
def bytesMask (n : Nat) : Nat := 2 ^ n - 1
/-- `remSizeToStrb`, r.py:112-134 -/
def strbOf (p : Params) (s : RSt) (i : RIn α) : Nat :=
  if i.rVld && rLastP p s i then bytesMask (if (soHead s).1 = 0 then p.W else (soHead s).1) else bytesMask p.W

def rOut (p : Params) (s : RSt) (i : RIn α) : ROut α where
  reqRd := reqRd p s.a (rAIn s i)
  arVld := arVld p s.a (rAIn s i)
  arAddr := (burst p s.a (rAIn s i)).addr
  arLen := (burst p s.a (rAIn s i)).len
  rRd := soVld s i && i.outRd
  outVld := i.rVld && soVld s i && !s.err
  outData := i.rData
  outStrb := strbOf p s i
  outLast := rLastP p s i
  errorRead := s.errR
  errorAlignment := s.errA

/-- r.py:191-203, 252-275 -/
def rNext (p : Params) (s : RSt) (i : RIn α) : RSt where
  a := aNext p s.a (rAIn s i)
  fifo := (if soVld s i && (i.rVld && i.outRd && rInLast p i) then s.fifo.tail else s.fifo) ++
    given (tiVld p s.a (rAIn s i) && i.fRd) ((burst p s.a (rAIn s i)).rem, (burst p s.a (rAIn s i)).last)
  errR := s.errR || (i.rVld && !i.rOk)
  errA := s.errA || (i.vld && decide (i.q.addr % readErrAl p ≠ 0))

def readMachine (p : Params) : Machine RSt (RIn α) (ROut α) where
  out := rOut p
  next := rNext p

def RInit (s : RSt) : Prop := s.a.pend = false ∧ s.fifo = [] ∧ s.errR = false ∧ s.errA = false

def rReqs (tr : List (RIn α × ROut α)) : List ReqEv := tr.map fun e => (e.1.vld, e.1.q, e.2.reqRd)
/-- bursts on AR: address and length -/
def rBursts (tr : List (RIn α × ROut α)) : List (Nat × Nat) :=
  tr.filterMap fun e => if e.2.arVld && e.1.arRd then some (e.2.arAddr, e.2.arLen) else none
/-- accepted words of the AXI slave -/
def rBeats (tr : List (RIn α × ROut α)) : List (α × Bool) :=
  tr.filterMap fun e => if e.1.rVld && e.2.rRd then some (e.1.rData, e.1.rLast) else none
/-- words given to the driver: data, byte mask, last -/
def rWords (tr : List (RIn α × ROut α)) : List (α × Nat × Bool) :=
  tr.filterMap fun e => if e.2.outVld && e.1.outRd then some (e.2.outData, e.2.outStrb, e.2.outLast) else none

/-- The answer of an AXI slave with memory contents `mem` to read bursts. -/
def slaveBeats (p : Params) (mem : Nat → α) (l : List (Nat × Nat)) : List (α × Bool) :=
  l.flatMap fun b => (List.range (b.2 + 1)).map fun k => (mem ((b.1 + k * p.W) % p.A), decide (k = b.2))

/-- The words which belong to a request: the words at the addresses of the request, all bytes of each word but the last
one are valid, the last word is marked. -/
def reqWords (p : Params) (mem : Nat → α) (q : Req) : List (α × Nat × Bool) :=
  (List.range (q.len + 1)).map fun k => (mem ((q.addr + k * p.W) % p.A),
    (if k = q.len ∧ q.rem ≠ 0 then bytesMask q.rem else bytesMask p.W), decide (k = q.len))

/-! ### `Axi_wDatapump` -/

structure WSt where
  a : ASt
  /-- number of items in `writeInfoFifo` (no data) -/
  info : Nat
  /-- `bInfoFifo`: `isLast` -/
  bFifo : List Bool
  cntr : Nat
  errW : Bool
  errA : Bool

structure WIn (α : Type u) where
  vld : Bool
  q : Req
  awRd : Bool
  fRd : Bool
  fVld : Bool
  inVld : Bool
  inData : α
  inLast : Bool
  wRd : Bool
  bfRd : Bool
  bfVld : Bool
  bVld : Bool
  bOk : Bool
  ackRd : Bool

structure WOut (α : Type u) where
  reqRd : Bool
  awVld : Bool
  awAddr : Nat
  awLen : Nat
  inRd : Bool
  wVld : Bool
  wData : α
  wLast : Bool
  bRd : Bool
  ackVld : Bool
  errorWrite : Bool
  errorAlignment : Bool

/-- divisor of the alignment check, w.py:252-258: always the word size -/
def writeErrAl (p : Params) : Nat := if p.alignas = 8 then 1 else p.sz

def WSt.err (s : WSt) : Bool := s.errW || s.errA
def wAIn (s : WSt) (i : WIn α) : AIn := ⟨i.vld, i.q, i.awRd, i.fRd, s.err⟩
def infoVld (s : WSt) (i : WIn α) : Bool := i.fVld && decide (0 < s.info)
/-- w.py:126-131, 204-215 -/
def doSplit (p : Params) (s : WSt) (i : WIn α) : Bool :=
  (p.split && decide (s.cntr = p.L - 1)) || (if p.lenWidth = 0 then true else i.inLast)
def bInfoVld (s : WSt) (i : WIn α) : Bool := i.bfVld && !s.bFifo.isEmpty

def wOut (p : Params) (s : WSt) (i : WIn α) : WOut α where
  reqRd := reqRd p s.a (wAIn s i)
  awVld := arVld p s.a (wAIn s i)
  awAddr := (burst p s.a (wAIn s i)).addr
  awLen := (burst p s.a (wAIn s i)).len
  inRd := infoVld s i && i.bfRd && i.wRd
  wVld := i.inVld && infoVld s i && i.bfRd && !s.err
  wData := i.inData
  wLast := doSplit p s i
  bRd := bInfoVld s i && i.ackRd
  ackVld := i.bVld && bInfoVld s i && s.bFifo.headD false
  errorWrite := s.errW
  errorAlignment := s.errA

/-- w.py:204-243, 245-262 -/
def wNext (p : Params) (s : WSt) (i : WIn α) : WSt where
  a := aNext p s.a (wAIn s i)
  info := s.info - (if infoVld s i && (i.inVld && i.bfRd && i.wRd && doSplit p s i) then 1 else 0) +
    (if tiVld p s.a (wAIn s i) && i.fRd then 1 else 0)
  bFifo := (if bInfoVld s i && (i.bVld && i.ackRd) then s.bFifo.tail else s.bFifo) ++
    given ((i.inVld && infoVld s i && i.wRd && doSplit p s i) && i.bfRd) i.inLast
  cntr := if p.split && (infoVld s i && i.inVld && i.bfRd && i.wRd && !s.err) then
      (if doSplit p s i then 0 else s.cntr + 1) else s.cntr
  errW := s.errW || (i.bVld && !i.bOk)
  errA := s.errA || (i.vld && decide (i.q.addr % writeErrAl p ≠ 0))

def writeMachine (p : Params) : Machine WSt (WIn α) (WOut α) where
  out := wOut p
  next := wNext p

def WInit (s : WSt) : Prop := s.a.pend = false ∧ s.info = 0 ∧ s.bFifo = [] ∧ s.cntr = 0 ∧ s.errW = false ∧ s.errA = false

def wReqs (tr : List (WIn α × WOut α)) : List ReqEv := tr.map fun e => (e.1.vld, e.1.q, e.2.reqRd)
def wBursts (tr : List (WIn α × WOut α)) : List (Nat × Nat) :=
  tr.filterMap fun e => if e.2.awVld && e.1.awRd then some (e.2.awAddr, e.2.awLen) else none
/-- words of the driver -/
def wWords (tr : List (WIn α × WOut α)) : List (α × Bool) :=
  tr.filterMap fun e => if e.1.inVld && e.2.inRd then some (e.1.inData, e.1.inLast) else none
/-- words on the W channel -/
def wBeats (tr : List (WIn α × WOut α)) : List (α × Bool) :=
  tr.filterMap fun e => if e.2.wVld && e.1.wRd then some (e.2.wData, e.2.wLast) else none
/-- accepted write responses -/
def wResps (tr : List (WIn α × WOut α)) : Nat := (tr.filter fun e => e.1.bVld && e.2.bRd).length
/-- acknowledges of the driver -/
def wAcks (tr : List (WIn α × WOut α)) : Nat := (tr.filter fun e => e.2.ackVld && e.1.ackRd).length

/-! ### Driver and address part -/

theorem accepted_snoc (l : List ReqEv) (e : ReqEv) : accepted (l ++ [e]) = if e.1 && e.2.2 then accepted l + 1 else accepted l := by
  unfold accepted
  rw [List.filter_append, List.length_append]
  by_cases h : (e.1 && e.2.2) = true
  · rw [if_pos h]; simp [h]
  · rw [if_neg h]
    have : (e.1 && e.2.2) = false := by simpa using h
    simp [this]

theorem driver_snoc {plan : List Req} {l : List ReqEv} {e : ReqEv} (h : DriverOk plan (l ++ [e])) :
    DriverOk plan l ∧ (e.1 = true → plan[accepted l]? = some e.2.1) ∧
    (∀ e0, l.getLast? = some e0 → e0.1 = true → e0.2.2 = false → e.1 = true) := by
  refine ⟨?_, ?_, ?_⟩
  · intro n x hx hv
    have hn := (List.getElem?_eq_some_iff.1 hx).1
    obtain ⟨h1, h2⟩ := h n x (by rw [List.getElem?_append_left hn]; exact hx) hv
    refine ⟨?_, fun hr e' he' => h2 hr e' ?_⟩
    · rwa [List.take_append_of_le_length (by omega)] at h1
    · rw [List.getElem?_append_left (List.getElem?_eq_some_iff.1 he').1]; exact he'
  · intro hv
    have := (h l.length e (by simp) hv).1
    rwa [List.take_left] at this
  · intro e0 h0 hv hr
    rw [List.getLast?_eq_getElem?] at h0
    have hn := (List.getElem?_eq_some_iff.1 h0).1
    refine (h (l.length - 1) e0 (by rw [List.getElem?_append_left hn]; exact h0) hv).2 hr e ?_
    rw [show l.length - 1 + 1 = l.length by omega]
    simp

theorem filterMap_snoc_ite {β γ : Type _} (c : β → Bool) (f : β → γ) (l : List β) (a : β) :
    (l ++ [a]).filterMap (fun e => if c e then some (f e) else none) =
      l.filterMap (fun e => if c e then some (f e) else none) ++ given (c a) (f a) := by
  rw [List.filterMap_append]
  congr 1
  cases hc : c a <;> simp [hc]

theorem filter_snoc_length {β : Type _} (c : β → Bool) (l : List β) (a : β) :
    ((l ++ [a]).filter c).length = (l.filter c).length + if c a then 1 else 0 := by
  rw [List.filter_append, List.length_append]
  cases hc : c a <;> simp [hc]

theorem given_map {β γ : Type _} (c : Bool) (x : β) (f : β → γ) : (given c x).map f = given c (f x) := by cases c <;> rfl

/-- State of the address part after the request events `l` with the bursts `P`. -/
structure ARun (p : Params) (plan : List Req) (s : ASt) (l : List ReqEv) (P : List Burst) : Prop where
  inv : AInv p plan s (accepted l) P
  held : s.pend = true → ∃ e0, l.getLast? = some e0 ∧ e0.1 = true ∧ e0.2.2 = false
  ns : p.split = false → s.pend = false
  len : ∀ b ∈ P, b.len + 1 ≤ p.L
  full : ∀ b ∈ P, b.last = false → b.len + 1 = p.L ∧ p.split = true

theorem arun_init (p : Params) (plan : List Req) {s : ASt} (h : s.pend = false) : ARun p plan s [] [] := by
  refine ⟨⟨Nat.zero_le _, fun _ => by simp [accepted], by simp [h]⟩, by simp [h], fun _ => h, by simp, by simp⟩

theorem arun_next {p : Params} (h : Ok p) {plan : List Req} (hp : ∀ q ∈ plan, ReqOk p q) {s : ASt} {i : AIn} {l : List ReqEv}
    {P : List Burst} (hI : ARun p plan s l P) (hd : DriverOk plan (l ++ [(i.vld, i.q, reqRd p s i)])) :
    ARun p plan (aNext p s i) (l ++ [(i.vld, i.q, reqRd p s i)]) (P ++ given (arVld p s i && i.arRd) (burst p s i)) ∧
    (tiVld p s i && i.tiRd) = (arVld p s i && i.arRd) := by
  obtain ⟨d1, d2, d3⟩ := driver_snoc hd
  obtain ⟨i1, i2, i3, i4, i5⟩ := hI
  obtain ⟨n1, n2, n3, n4, n5, n6⟩ := ainv_next h hp i1 d2 (fun hpd => by
    obtain ⟨e0, a1, a2, a3⟩ := i2 hpd
    exact d3 e0 a1 a2 a3) i3
  have hv : (arVld p s i && i.arRd) = true → i.vld = true := by
    unfold arVld
    cases i.vld <;> simp
  refine ⟨⟨?_, ?_, n4, ?_, ?_⟩, n2⟩
  · rw [accepted_snoc]; exact n1
  · intro h'
    obtain ⟨a1, a2⟩ := n3 h'
    exact ⟨(i.vld, i.q, reqRd p s i), by simp, a1, a2⟩
  · intro b hb
    rcases List.mem_append.1 hb with hb | hb
    · exact i4 b hb
    · cases hg : (arVld p s i && i.arRd)
      · rw [hg] at hb; simp [given] at hb
      · rw [hg, given_true, List.mem_singleton] at hb
        subst hb
        exact n5 (hv hg)
  · intro b hb hl
    rcases List.mem_append.1 hb with hb | hb
    · exact i5 b hb hl
    · cases hg : (arVld p s i && i.arRd)
      · rw [hg] at hb; simp [given] at hb
      · rw [hg, given_true, List.mem_singleton] at hb
        subst hb
        exact n6 (hv hg) hl

theorem arun_run {p : Params} (h : Ok p) {plan : List Req} (hp : ∀ q ∈ plan, ReqOk p q) {s0 : ASt} (h0 : s0.pend = false)
    (is : List AIn) (hd : DriverOk plan (aReqs ((addrMachine p).trace s0 is))) :
    ∃ P, ARun p plan ((addrMachine p).final s0 is) (aReqs ((addrMachine p).trace s0 is)) P ∧
      aBursts ((addrMachine p).trace s0 is) = P.map fun b => (b.addr, b.len) := by
  induction is using List.reverseRecOn with
  | nil => exact ⟨[], arun_init p plan h0, rfl⟩
  | append_singleton is i ih =>
    rw [Machine.trace_snoc, Machine.final_append]
    rw [Machine.trace_snoc] at hd
    have eo : (addrMachine p).outAfter s0 is i = (addrMachine p).out ((addrMachine p).final s0 is) i := rfl
    have en : (addrMachine p).final ((addrMachine p).final s0 is) [i] = aNext p ((addrMachine p).final s0 is) i := rfl
    have er : ∀ (tr : List (AIn × AOut)) e, aReqs (tr ++ [e]) = aReqs tr ++ [(e.1.vld, e.1.q, e.2.reqRd)] := by
      intro tr e; simp [aReqs]
    rw [er, eo] at hd
    rw [er, en, eo]
    obtain ⟨P, k1, k2⟩ := ih (driver_snoc hd).1
    generalize (addrMachine p).final s0 is = s at *
    generalize (addrMachine p).trace s0 is = tr at *
    refine ⟨P ++ given (arVld p s i && i.arRd) (burst p s i), (arun_next h hp k1 hd).1, ?_⟩
    unfold aBursts at k2 ⊢
    rw [filterMap_snoc_ite, k2, List.map_append, given_map]
    rfl

/-! ### Words of the bursts -/

/-- The bursts `D` are finished, `j` words of the first burst of `R` are finished. -/
def consumed (p : Params) (D R : List Burst) (j : Nat) : List Beat :=
  D.flatMap (expand p) ++ match R with
    | [] => []
    | d :: _ => (expand p d).take j

def JOk (R : List Burst) (j : Nat) : Prop := match R with
  | [] => j = 0
  | d :: _ => j ≤ d.len

theorem expand_get (p : Params) (d : Burst) (j : Nat) (h : j ≤ d.len) :
    (expand p d)[j]? = some ⟨(d.addr + j * p.W) % p.A, decide (j = d.len), d.rem, d.last⟩ := by
  unfold expand
  rw [List.getElem?_map, List.getElem?_range (by omega)]
  rfl

theorem consumed_prefix (p : Params) (D R : List Burst) (j : Nat) : consumed p D R j <+: (D ++ R).flatMap (expand p) := by
  unfold consumed
  rw [List.flatMap_append]
  refine (List.prefix_append_right_inj _).2 ?_
  cases R with
  | nil => simp
  | cons d ds =>
    rw [List.flatMap_cons]
    exact (List.take_prefix _ _).trans (List.prefix_append _ _)

/-- The next word belongs to the first burst which is not finished. -/
theorem consumed_step (p : Params) (D : List Burst) (d : Burst) (R : List Burst) (j : Nat) (h : j ≤ d.len) (b : Beat)
    (hb : b = ⟨(d.addr + j * p.W) % p.A, decide (j = d.len), d.rem, d.last⟩) :
    (j < d.len → consumed p D (d :: R) j ++ [b] = consumed p D (d :: R) (j + 1)) ∧
    (j = d.len → consumed p D (d :: R) j ++ [b] = consumed p (D ++ [d]) R 0) := by
  have e := expand_get p d j h
  rw [← hb] at e
  have e2 : (expand p d).take (j + 1) = (expand p d).take j ++ [b] := by rw [List.take_add_one, e]; rfl
  constructor
  · intro _
    unfold consumed
    simp only []
    rw [e2, List.append_assoc]
  · intro hj
    unfold consumed
    have e3 : (expand p d).take (j + 1) = expand p d := by
      apply List.take_of_length_le
      simp [expand]; omega
    rw [e2] at e3
    simp only []
    rw [List.append_assoc, e3, List.flatMap_append]
    cases R <;> simp

theorem consumed_push (p : Params) (D R : List Burst) (j : Nat) (h : JOk R j) (x : List Burst) :
    consumed p D (R ++ x) j = consumed p D R j ∧ JOk (R ++ x) j := by
  cases R with
  | nil =>
    have : j = 0 := h
    subst this
    cases x <;> simp [consumed, JOk]
  | cons d ds => exact ⟨rfl, h⟩

/-- The beat after the finished ones. -/
theorem next_beat {p : Params} {γ : Type _} {f : Beat → γ} {E : List γ} {D : List Burst} {d : Burst} {R : List Burst} {j : Nat} (h : j ≤ d.len)
    (h1 : ((D ++ d :: R).flatMap (expand p)).map f <+: E) (x : γ) (h2 : (consumed p D (d :: R) j).map f ++ [x] <+: E) :
    x = f ⟨(d.addr + j * p.W) % p.A, decide (j = d.len), d.rem, d.last⟩ := by
  have h3 : (consumed p D (d :: R) j).map f ++ [f ⟨(d.addr + j * p.W) % p.A, decide (j = d.len), d.rem, d.last⟩] <+: E := by
    refine List.IsPrefix.trans ?_ h1
    rw [show [f ⟨(d.addr + j * p.W) % p.A, decide (j = d.len), d.rem, d.last⟩] =
      [(⟨(d.addr + j * p.W) % p.A, decide (j = d.len), d.rem, d.last⟩ : Beat)].map f from rfl, ← List.map_append]
    refine List.IsPrefix.map f ?_
    have hc := consumed_step p D d R j h _ rfl
    by_cases hj : j = d.len
    · rw [hc.2 hj]
      have := consumed_prefix p (D ++ [d]) R 0
      rwa [List.append_assoc] at this
    · rw [hc.1 (by omega)]
      exact consumed_prefix p D (d :: R) (j + 1)
  have := List.prefix_of_prefix_length_le h2 h3 (by simp)
  have := this.eq_of_length (by simp)
  have := List.append_cancel_left this
  simpa using this

/-! ### Read -/

/-- What the driver gets for a word. -/
def outOf (p : Params) (mem : Nat → α) (x : Nat × Option Nat) : α × Nat × Bool :=
  (mem x.1, match x.2 with
    | none => bytesMask p.W
    | some r => bytesMask (if r = 0 then p.W else r), x.2.isSome)

theorem slaveBeats_eq (p : Params) (mem : Nat → α) (P : List Burst) :
    slaveBeats p mem (P.map fun b => (b.addr, b.len)) = (P.flatMap (expand p)).map fun b => (mem b.addr, b.fin) := by
  unfold slaveBeats expand
  rw [List.flatMap_map, List.map_flatMap]
  simp [List.map_map, Function.comp_def]

structure RRun (p : Params) (plan : List Req) (mem : Nat → α) (s : RSt) (tr : List (RIn α × ROut α)) (P D R : List Burst) (j : Nat) : Prop where
  a : ARun p plan s.a (rReqs tr) P
  bursts : rBursts tr = P.map fun b => (b.addr, b.len)
  e : s.errR = false ∧ s.errA = false
  split : P = D ++ R
  jok : JOk R j
  fifo : s.fifo = R.map fun b => (b.rem, b.last)
  beats : rBeats tr = (consumed p D R j).map fun b => (mem b.addr, b.fin)
  words : rWords tr = (consumed p D R j).map fun b => outOf p mem b.norm

theorem rreqs_snoc (tr : List (RIn α × ROut α)) (e : RIn α × ROut α) : rReqs (tr ++ [e]) = rReqs tr ++ [(e.1.vld, e.1.q, e.2.reqRd)] := by
  simp [rReqs]

theorem slaveBeats_append (p : Params) (mem : Nat → α) (l l' : List (Nat × Nat)) :
    slaveBeats p mem (l ++ l') = slaveBeats p mem l ++ slaveBeats p mem l' := by simp [slaveBeats]

theorem read_run {p : Params} (h : Ok p) {plan : List Req} (hp : ∀ q ∈ plan, ReqOk p q) (he : ∀ q ∈ plan, q.addr % readErrAl p = 0)
    (mem : Nat → α) {s0 : RSt} (h0 : RInit s0)
    (E : List (α × Bool)) (is : List (RIn α)) (hok : ∀ i ∈ is, i.rVld = true → i.rOk = true)
    (hd : DriverOk plan (rReqs ((readMachine p).trace s0 is)))
    (hE : slaveBeats p mem (rBursts ((readMachine p).trace s0 is)) <+: E)
    (hs : rBeats ((readMachine p).trace s0 is) <+: E) :
    ∃ P D R j, RRun p plan mem ((readMachine p).final s0 is) ((readMachine p).trace s0 is) P D R j := by
  induction is using List.reverseRecOn with
  | nil =>
    obtain ⟨h1, h2, h3, h4⟩ := h0
    exact ⟨[], [], [], 0, arun_init p plan h1, rfl, ⟨h3, h4⟩, rfl, rfl, by simp [h2], rfl, rfl⟩
  | append_singleton is i ih =>
    rw [Machine.trace_snoc, Machine.final_append]
    rw [Machine.trace_snoc] at hd hE hs
    have eo : (readMachine p).outAfter s0 is i = rOut p ((readMachine p).final s0 is) i := rfl
    have en : (readMachine p).final ((readMachine p).final s0 is) [i] = rNext p ((readMachine p).final s0 is) i := rfl
    rw [eo, rreqs_snoc] at hd
    rw [eo] at hE hs
    rw [eo, en]
    have eB : ∀ (tr : List (RIn α × ROut α)) e, rBursts (tr ++ [e]) = rBursts tr ++ given (e.2.arVld && e.1.arRd) (e.2.arAddr, e.2.arLen) :=
      fun tr e => filterMap_snoc_ite _ _ tr e
    have eR : ∀ (tr : List (RIn α × ROut α)) e, rBeats (tr ++ [e]) = rBeats tr ++ given (e.1.rVld && e.2.rRd) (e.1.rData, e.1.rLast) :=
      fun tr e => filterMap_snoc_ite _ _ tr e
    have eW : ∀ (tr : List (RIn α × ROut α)) e, rWords (tr ++ [e]) = rWords tr ++ given (e.2.outVld && e.1.outRd) (e.2.outData, e.2.outStrb, e.2.outLast) :=
      fun tr e => filterMap_snoc_ite _ _ tr e
    rw [eB, slaveBeats_append] at hE
    rw [eR] at hs
    have hE' := (List.prefix_append _ _).trans hE
    obtain ⟨P, D, R, j, k⟩ := ih (fun j hj => hok j (List.mem_append_left _ hj)) (driver_snoc hd).1 hE'
      ((List.prefix_append _ _).trans hs)
    have hoki := hok i (by simp)
    generalize (readMachine p).final s0 is = s at *
    generalize (readMachine p).trace s0 is = tr at *
    obtain ⟨a, kb, ⟨e1, e2⟩, ksp, kj, kf, kB, kW⟩ := k
    obtain ⟨n1, n2⟩ := arun_next h hp (i := rAIn s i) a hd
    have herr : s.err = false := by simp [RSt.err, e1, e2]
    -- errors
    have hne : (rNext p s i).errR = false ∧ (rNext p s i).errA = false := by
      constructor
      · simp only [rNext, e1, Bool.false_or]
        cases hv : i.rVld
        · rfl
        · simp [hoki hv]
      · simp only [rNext, e2, Bool.false_or]
        cases hv : i.vld
        · rfl
        · have := he _ (List.mem_of_getElem? ((driver_snoc hd).2.1 hv))
          simp [this]
    -- the new burst
    have hbur : rBursts (tr ++ [(i, rOut p s i)]) =
        (P ++ given (arVld p s.a (rAIn s i) && (rAIn s i).arRd) (burst p s.a (rAIn s i))).map fun b => (b.addr, b.len) := by
      rw [eB, kb, List.map_append, given_map]; rfl
    have hpush : ∀ f : List (Nat × Bool), f ++ given (tiVld p s.a (rAIn s i) && i.fRd)
        ((burst p s.a (rAIn s i)).rem, (burst p s.a (rAIn s i)).last) = f ++
        (given (arVld p s.a (rAIn s i) && (rAIn s i).arRd) (burst p s.a (rAIn s i))).map fun b => (b.rem, b.last) := by
      intro f; rw [given_map, ← n2]; rfl
    generalize hX : given (arVld p s.a (rAIn s i) && (rAIn s i).arRd) (burst p s.a (rAIn s i)) = X at *
    have hacc : ((rOut p s i).outVld && i.outRd) = (i.rVld && (rOut p s i).rRd) := by
      simp only [rOut, herr]
      cases i.rVld <;> cases soVld s i <;> cases i.outRd <;> rfl
    cases hg : (i.rVld && (rOut p s i).rRd)
    · -- no word
      have hnp : (soVld s i && (i.rVld && i.outRd && rInLast p i)) = false := by
        simp only [rOut] at hg
        cases h1 : i.rVld <;> cases h2 : soVld s i <;> cases h3 : i.outRd <;> simp_all
      obtain ⟨c1, c2⟩ := consumed_push p D R j kj X
      refine ⟨P ++ X, D, R ++ X, j, ?_, hbur, hne, ?_, c2, ?_, ?_, ?_⟩
      · rw [rreqs_snoc]; exact n1
      · rw [ksp, List.append_assoc]
      · show (if (soVld s i && (i.rVld && i.outRd && rInLast p i)) = true then s.fifo.tail else s.fifo) ++ _ = _
        rw [hnp, if_neg (by simp), hpush, kf, List.map_append]
      · rw [eR, hg, given_false, List.append_nil, kB, c1]
      · rw [eW]
        show rWords tr ++ given ((rOut p s i).outVld && i.outRd) _ = _
        rw [hacc, hg, given_false, List.append_nil, kW, c1]
    · -- a word of the first burst
      have hg' : i.rVld = true ∧ soVld s i = true ∧ i.outRd = true := by
        simp only [rOut, Bool.and_eq_true] at hg
        exact ⟨hg.1, hg.2.1, hg.2.2⟩
      obtain ⟨g1, g2, g3⟩ := hg'
      have hne' : s.fifo ≠ [] := by
        intro hx
        simp [soVld, hx] at g2
      cases R with
      | nil => exact absurd (by simpa using kf) hne'
      | cons d R =>
        have hhead : soHead s = (d.rem, d.last) := by simp [soHead, kf]
        have hj : j ≤ d.len := kj
        have hbeat : (i.rData, i.rLast) = (mem ((d.addr + j * p.W) % p.A), decide (j = d.len)) := by
          refine next_beat (f := fun b => (mem b.addr, b.fin)) (D := D) (E := E) (R := R) hj ?_ _ ?_
          · rw [← ksp]
            rw [kb, slaveBeats_eq] at hE'
            exact hE'
          · rw [← kB]
            have : (i.rVld && (rOut p s i).rRd) = true := hg
            simpa [this, given_true] using hs
        obtain ⟨hb1, hb2⟩ := Prod.mk.inj hbeat
        have hl1 := a.len d (by rw [ksp]; simp)
        have hfull := a.full d (by rw [ksp]; simp)
        have hlast : rInLast p i = decide (j = d.len) := by
          unfold rInLast
          split
          · rename_i hz
            have : p.L = 1 := by simp [Params.L, hz]
            symm; simp; omega
          · exact hb2
        have hlastP : rLastP p s i = (decide (j = d.len) && d.last) := by
          unfold rLastP
          rw [hhead, hlast]
          cases hsp : p.split
          · have : d.last = true := by
              cases hdl : d.last
              · have := (hfull hdl).2; rw [hsp] at this; simp at this
              · rfl
            simp [this]
          · simp [Bool.and_comm]
        have hword : ((rOut p s i).outData, (rOut p s i).outStrb, (rOut p s i).outLast) =
            outOf p mem (Beat.norm ⟨(d.addr + j * p.W) % p.A, decide (j = d.len), d.rem, d.last⟩) := by
          simp only [rOut, outOf, Beat.norm, strbOf, hlastP, hhead, g1, Bool.true_and, hb1]
          cases (decide (j = d.len) && d.last) <;> simp
        have hpop : (soVld s i && (i.rVld && i.outRd && rInLast p i)) = decide (j = d.len) := by
          rw [g1, g2, g3, hlast]; rfl
        have hc := consumed_step p D d R j hj _ rfl
        have hwords : rWords (tr ++ [(i, rOut p s i)]) = ((consumed p D (d :: R) j) ++
            [(⟨(d.addr + j * p.W) % p.A, decide (j = d.len), d.rem, d.last⟩ : Beat)]).map fun b => outOf p mem b.norm := by
          rw [eW]
          show rWords tr ++ given ((rOut p s i).outVld && i.outRd) ((rOut p s i).outData, (rOut p s i).outStrb, (rOut p s i).outLast) = _
          rw [hacc, hg, given_true, kW, hword, List.map_append]; rfl
        have hbeats : rBeats (tr ++ [(i, rOut p s i)]) = ((consumed p D (d :: R) j) ++
            [(⟨(d.addr + j * p.W) % p.A, decide (j = d.len), d.rem, d.last⟩ : Beat)]).map fun b => (mem b.addr, b.fin) := by
          rw [eR]
          show rBeats tr ++ given (i.rVld && (rOut p s i).rRd) (i.rData, i.rLast) = _
          rw [hg, given_true, kB, hbeat, List.map_append]; rfl
        by_cases hj' : j = d.len
        · rw [hc.2 hj'] at hwords hbeats
          have kj0 : JOk R 0 := by cases R <;> simp [JOk]
          obtain ⟨c1, c2⟩ := consumed_push p (D ++ [d]) R 0 kj0 X
          refine ⟨P ++ X, D ++ [d], R ++ X, 0, ?_, hbur, hne, ?_, c2, ?_, ?_, ?_⟩
          · rw [rreqs_snoc]; exact n1
          · rw [ksp]; simp
          · show (if (soVld s i && (i.rVld && i.outRd && rInLast p i)) = true then s.fifo.tail else s.fifo) ++ _ = _
            rw [hpop, if_pos (by simpa using hj'), hpush, kf, List.map_append]; rfl
          · rw [c1]; exact hbeats
          · rw [c1]; exact hwords
        · rw [hc.1 (by omega)] at hwords hbeats
          have kj1 : JOk (d :: R) (j + 1) := by show j + 1 ≤ d.len; omega
          obtain ⟨c1, c2⟩ := consumed_push p D (d :: R) (j + 1) kj1 X
          refine ⟨P ++ X, D, (d :: R) ++ X, j + 1, ?_, hbur, hne, ?_, c2, ?_, ?_, ?_⟩
          · rw [rreqs_snoc]; exact n1
          · rw [ksp]; simp
          · show (if (soVld s i && (i.rVld && i.outRd && rInLast p i)) = true then s.fifo.tail else s.fifo) ++ _ = _
            rw [hpop, if_neg (by simpa using hj'), hpush, kf, List.map_append]
          · rw [c1]; exact hbeats
          · rw [c1]; exact hwords

/-! ### Write -/

/-- The marks of the last words of requests (bursts) of the given lengths. -/
def marks (l : List Nat) : List Bool := l.flatMap fun n => List.replicate n false ++ [true]

theorem expand_fin (p : Params) (b : Burst) : (expand p b).map Beat.fin = List.replicate b.len false ++ [true] := by
  unfold expand
  rw [List.map_map, List.range_succ, List.map_append]
  congr 1
  · rw [List.eq_replicate_iff]
    refine ⟨by simp, ?_⟩
    intro x hx
    obtain ⟨k, hk, rfl⟩ := List.mem_map.1 hx
    have := List.mem_range.1 hk
    simp; omega
  · simp

theorem fins_eq (p : Params) (P : List Burst) : (P.flatMap (expand p)).map Beat.fin = marks (P.map Burst.len) := by
  unfold marks
  rw [List.flatMap_map, List.map_flatMap]
  congr 1; funext b; exact expand_fin p b

structure WRun (p : Params) (plan : List Req) (s : WSt) (tr : List (WIn α × WOut α)) (P D R : List Burst) (j : Nat) : Prop where
  a : ARun p plan s.a (wReqs tr) P
  bursts : wBursts tr = P.map fun b => (b.addr, b.len)
  e : s.errW = false ∧ s.errA = false
  split : P = D ++ R
  jok : JOk R j
  info : s.info = R.length
  cntr : p.split = true → s.cntr = j
  words : (wWords tr).map Prod.snd = (consumed p D R j).map fun b => b.fin && b.last
  data : (wBeats tr).map Prod.fst = (wWords tr).map Prod.fst
  beats : (wBeats tr).map Prod.snd = (consumed p D R j).map Beat.fin
  resp : ∃ done, D.map Burst.last = done ++ s.bFifo ∧ wResps tr = done.length ∧ wAcks tr = done.count true

theorem wreqs_snoc (tr : List (WIn α × WOut α)) (e : WIn α × WOut α) : wReqs (tr ++ [e]) = wReqs tr ++ [(e.1.vld, e.1.q, e.2.reqRd)] := by
  simp [wReqs]

/-- The marks of the words of the bursts follow the plan. -/
theorem arun_marks {p : Params} {plan : List Req} {s : ASt}
    {l : List ReqEv} {P : List Burst} (hI : ARun p plan s l P) :
    (P.flatMap (expand p)).map Beat.norm <+: plan.flatMap (want p) := by
  obtain ⟨⟨i1, i2, i3⟩, -⟩ := hI
  have hk : ∀ k, (plan.take k).flatMap (want p) <+: plan.flatMap (want p) := by
    intro k
    conv_rhs => rw [← List.take_append_drop k plan, List.flatMap_append]
    exact List.prefix_append _ _
  cases hpd : s.pend
  · rw [i2 hpd]; exact hk _
  · obtain ⟨q, n, a1, a2, a3, a4, a5⟩ := i3 hpd
    rw [a5]
    have hlt := (List.getElem?_eq_some_iff.1 a1).1
    have e1 : plan.take (accepted l + 1) = plan.take (accepted l) ++ [q] := by
      rw [List.take_add_one, a1]; rfl
    refine List.IsPrefix.trans ?_ (hk (accepted l + 1))
    rw [e1, List.flatMap_append]
    refine (List.prefix_append_right_inj _).2 ?_
    simp only [List.flatMap_cons, List.flatMap_nil, List.append_nil, want]
    rw [show wordCnt p.W q = n + (s.rmd + 1) by omega, List.range_add, List.map_append]
    exact List.prefix_append _ _

theorem wordCnt_aligned {p : Params} (h : Ok p) (hal : p.aligned = true) {q : Req} (hq : ReqOk p q) : wordCnt p.W q = q.len + 1 := by
  have := len0_eq h hq
  rw [← this]
  simp [len0, hal]

theorem want_marks {p : Params} (h : Ok p) (hal : p.aligned = true) {plan : List Req} (hp : ∀ q ∈ plan, ReqOk p q) :
    (plan.flatMap (want p)).map (fun x => x.2.isSome) = marks (plan.map Req.len) := by
  unfold marks
  rw [List.flatMap_map, List.map_flatMap]
  apply List.flatMap_congr
  intro q hq
  unfold want wantAt
  rw [wordCnt_aligned h hal (hp q hq), List.map_map, List.range_succ, List.map_append]
  congr 1
  · rw [List.eq_replicate_iff]
    refine ⟨by simp, ?_⟩
    intro x hx
    obtain ⟨k, hk, rfl⟩ := List.mem_map.1 hx
    have := List.mem_range.1 hk
    have : k ≠ q.len := by omega
    simp [this]
  · simp

theorem norm_isSome (b : Beat) : b.norm.2.isSome = (b.fin && b.last) := by
  unfold Beat.norm
  cases (b.fin && b.last) <;> rfl

theorem write_run {p : Params} (h : Ok p) (hal : p.aligned = true) {plan : List Req} (hp : ∀ q ∈ plan, ReqOk p q)
    (he : ∀ q ∈ plan, q.addr % writeErrAl p = 0) {s0 : WSt} (h0 : WInit s0)
    (is : List (WIn α)) (hok : ∀ i ∈ is, i.bVld = true → i.bOk = true)
    (hd : DriverOk plan (wReqs ((writeMachine p).trace s0 is)))
    (hs : (wWords ((writeMachine p).trace s0 is)).map Prod.snd <+: marks (plan.map Req.len)) :
    ∃ P D R j, WRun p plan ((writeMachine p).final s0 is) ((writeMachine p).trace s0 is) P D R j := by
  induction is using List.reverseRecOn with
  | nil =>
    obtain ⟨h1, h2, h3, h4, h5, h6⟩ := h0
    exact ⟨[], [], [], 0, arun_init p plan h1, rfl, ⟨h5, h6⟩, rfl, rfl, h2, fun _ => h4, rfl, rfl, rfl, [], by simp [h3], rfl, rfl⟩
  | append_singleton is i ih =>
    rw [Machine.trace_snoc, Machine.final_append]
    rw [Machine.trace_snoc] at hd hs
    have eo : (writeMachine p).outAfter s0 is i = wOut p ((writeMachine p).final s0 is) i := rfl
    have en : (writeMachine p).final ((writeMachine p).final s0 is) [i] = wNext p ((writeMachine p).final s0 is) i := rfl
    rw [eo, wreqs_snoc] at hd
    rw [eo] at hs
    rw [eo, en]
    have eB : ∀ (tr : List (WIn α × WOut α)) e, wBursts (tr ++ [e]) = wBursts tr ++ given (e.2.awVld && e.1.awRd) (e.2.awAddr, e.2.awLen) :=
      fun tr e => filterMap_snoc_ite _ _ tr e
    have eW : ∀ (tr : List (WIn α × WOut α)) e, wWords (tr ++ [e]) = wWords tr ++ given (e.1.inVld && e.2.inRd) (e.1.inData, e.1.inLast) :=
      fun tr e => filterMap_snoc_ite _ _ tr e
    have eX : ∀ (tr : List (WIn α × WOut α)) e, wBeats (tr ++ [e]) = wBeats tr ++ given (e.2.wVld && e.1.wRd) (e.2.wData, e.2.wLast) :=
      fun tr e => filterMap_snoc_ite _ _ tr e
    have eR : ∀ (tr : List (WIn α × WOut α)) e, wResps (tr ++ [e]) = wResps tr + if e.1.bVld && e.2.bRd then 1 else 0 :=
      fun tr e => filter_snoc_length _ tr e
    have eA : ∀ (tr : List (WIn α × WOut α)) e, wAcks (tr ++ [e]) = wAcks tr + if e.2.ackVld && e.1.ackRd then 1 else 0 :=
      fun tr e => filter_snoc_length _ tr e
    rw [eW, List.map_append] at hs
    obtain ⟨P, D, R, j, k⟩ := ih (fun j hj => hok j (List.mem_append_left _ hj)) (driver_snoc hd).1
      ((List.prefix_append _ _).trans hs)
    have hoki := hok i (by simp)
    generalize (writeMachine p).final s0 is = s at *
    generalize (writeMachine p).trace s0 is = tr at *
    obtain ⟨a, kb, ⟨e1, e2⟩, ksp, kj, ki, kc, kw, kd, kB, done, r1, r2, r3⟩ := k
    obtain ⟨n1, n2⟩ := arun_next h hp (i := wAIn s i) a hd
    have herr : s.err = false := by simp [WSt.err, e1, e2]
    have hne : (wNext p s i).errW = false ∧ (wNext p s i).errA = false := by
      constructor
      · simp only [wNext, e1, Bool.false_or]
        cases hv : i.bVld
        · rfl
        · simp [hoki hv]
      · simp only [wNext, e2, Bool.false_or]
        cases hv : i.vld
        · rfl
        · have := he _ (List.mem_of_getElem? ((driver_snoc hd).2.1 hv))
          simp [this]
    have hbur : wBursts (tr ++ [(i, wOut p s i)]) =
        (P ++ given (arVld p s.a (wAIn s i) && (wAIn s i).arRd) (burst p s.a (wAIn s i))).map fun b => (b.addr, b.len) := by
      rw [eB, kb, List.map_append, given_map]; rfl
    have hpush : (if (tiVld p s.a (wAIn s i) && i.fRd) = true then 1 else 0) =
        (given (arVld p s.a (wAIn s i) && (wAIn s i).arRd) (burst p s.a (wAIn s i))).length := by
      rw [← n2]
      show (if (tiVld p s.a (wAIn s i) && i.fRd) = true then 1 else 0) = (given (tiVld p s.a (wAIn s i) && i.fRd) _).length
      cases (tiVld p s.a (wAIn s i) && i.fRd) <;> rfl
    generalize hX : given (arVld p s.a (wAIn s i) && (wAIn s i).arRd) (burst p s.a (wAIn s i)) = X at *
    have hacc : ((wOut p s i).wVld && i.wRd) = (i.inVld && (wOut p s i).inRd) := by
      simp only [wOut, herr]
      cases i.inVld <;> cases infoVld s i <;> cases i.bfRd <;> cases i.wRd <;> rfl
    have hinfo : (wNext p s i).info = s.info - (if ((i.inVld && (wOut p s i).inRd) && doSplit p s i) = true then 1 else 0) + X.length := by
      rw [← hpush]
      simp only [wNext, wOut]
      congr 3
      cases i.inVld <;> cases infoVld s i <;> cases i.bfRd <;> cases i.wRd <;> cases doSplit p s i <;> rfl
    have hcn : p.split = true → (wNext p s i).cntr = if (i.inVld && (wOut p s i).inRd) = true then (if doSplit p s i = true then 0 else s.cntr + 1) else s.cntr := by
      intro hsp
      simp only [wNext, wOut, hsp, herr]
      cases i.inVld <;> cases infoVld s i <;> cases i.bfRd <;> cases i.wRd <;> rfl
    have hbf : (wNext p s i).bFifo = (if ((i.bVld && (wOut p s i).bRd)) = true then s.bFifo.tail else s.bFifo) ++
        given ((i.inVld && (wOut p s i).inRd) && doSplit p s i) i.inLast := by
      simp only [wNext, wOut]
      congr 2
      · cases i.bVld <;> cases bInfoVld s i <;> cases i.ackRd <;> rfl
      · cases i.inVld <;> cases infoVld s i <;> cases i.bfRd <;> cases i.wRd <;> cases doSplit p s i <;> rfl
    -- responses
    have hresp : ∀ (D' : List Burst) (x : List Bool), D'.map Burst.last = D.map Burst.last ++ x →
        given ((i.inVld && (wOut p s i).inRd) && doSplit p s i) i.inLast = x →
        ∃ done, D'.map Burst.last = done ++ (wNext p s i).bFifo ∧ wResps (tr ++ [(i, wOut p s i)]) = done.length ∧
          wAcks (tr ++ [(i, wOut p s i)]) = done.count true := by
      intro D' x h1 h2
      rw [hbf, h2, h1, r1, eR, eA]
      cases hg : (i.bVld && (wOut p s i).bRd)
      · refine ⟨done, by simp, by simp [hg, r2], ?_⟩
        have : ((wOut p s i).ackVld && i.ackRd) = false := by
          simp only [wOut] at hg ⊢
          cases h1 : i.bVld <;> cases h2 : bInfoVld s i <;> cases h3 : i.ackRd <;> simp_all
        simp [this, r3]
      · have hg' : i.bVld = true ∧ bInfoVld s i = true ∧ i.ackRd = true := by
          simp only [wOut, Bool.and_eq_true] at hg
          exact ⟨hg.1, hg.2.1, hg.2.2⟩
        obtain ⟨g1, g2, g3⟩ := hg'
        cases hf : s.bFifo with
        | nil => simp [bInfoVld, hf] at g2
        | cons y ys =>
          refine ⟨done ++ [y], by simp, by simp [hg, r2], ?_⟩
          have : ((wOut p s i).ackVld && i.ackRd) = y := by
            simp [wOut, g1, g2, g3, hf]
          show wAcks tr + (if ((wOut p s i).ackVld && i.ackRd) = true then 1 else 0) = _
          rw [this, r3, List.count_append]
          cases y <;> simp
    cases hg : (i.inVld && (wOut p s i).inRd)
    · -- no word
      obtain ⟨c1, c2⟩ := consumed_push p D R j kj X
      refine ⟨P ++ X, D, R ++ X, j, ?_, hbur, hne, ?_, c2, ?_, ?_, ?_, ?_, ?_, ?_⟩
      · rw [wreqs_snoc]; exact n1
      · rw [ksp, List.append_assoc]
      · rw [hinfo, hg, ki]; simp
      · intro hsp; rw [hcn hsp, hg]; simpa using kc hsp
      · rw [eW, hg, given_false, List.append_nil, kw, c1]
      · rw [eX, eW, hg]
        show List.map _ (wBeats tr ++ given ((wOut p s i).wVld && i.wRd) _) = _
        rw [hacc, hg, given_false, given_false, List.append_nil, List.append_nil, kd]
      · rw [eX]
        show List.map _ (wBeats tr ++ given ((wOut p s i).wVld && i.wRd) _) = _
        rw [hacc, hg, given_false, List.append_nil, kB, c1]
      · exact hresp D [] (by simp) (by rw [hg]; rfl)
    · have hg' : i.inVld = true ∧ infoVld s i = true := by
        simp only [wOut, Bool.and_eq_true] at hg
        exact ⟨hg.1, hg.2.1.1⟩
      obtain ⟨g1, g2⟩ := hg'
      cases R with
      | nil => simp [infoVld, ki] at g2
      | cons d R =>
        have hj : j ≤ d.len := kj
        have hwlast : i.inLast = (decide (j = d.len) && d.last) := by
          have hm := (arun_marks a).map (fun x => x.2.isSome)
          rw [want_marks h hal hp, List.map_map, ksp] at hm
          have h2 := next_beat (f := (fun x => x.2.isSome) ∘ Beat.norm) (D := D) (E := marks (plan.map Req.len)) (R := R) hj hm
            i.inLast (by
              have e : (fun x => x.2.isSome) ∘ Beat.norm = fun b => b.fin && b.last := by funext b; exact norm_isSome b
              rw [e, ← kw]
              have : (i.inVld && (wOut p s i).inRd) = true := hg
              simpa [this, given_true] using hs)
          rw [h2]; exact norm_isSome _
        have hl1 := a.len d (by rw [ksp]; simp)
        have hfull := a.full d (by rw [ksp]; simp)
        have hds : doSplit p s i = decide (j = d.len) := by
          unfold doSplit
          by_cases hz : p.lenWidth = 0
          · have : p.L = 1 := by simp [Params.L, hz]
            rw [if_pos hz, Bool.or_true]
            symm; simp; omega
          · rw [if_neg hz, hwlast]
            cases hsp : p.split
            · have : d.last = true := by
                cases hdl : d.last
                · have := (hfull hdl).2; rw [hsp] at this; simp at this
                · rfl
              simp [this]
            · rw [kc hsp]
              cases hdl : d.last
              · have := (hfull hdl).1
                simp; omega
              · simp; omega
        have hc := consumed_step p D d R j hj _ rfl
        have hwords : (wWords (tr ++ [(i, wOut p s i)])).map Prod.snd = ((consumed p D (d :: R) j) ++
            [(⟨(d.addr + j * p.W) % p.A, decide (j = d.len), d.rem, d.last⟩ : Beat)]).map fun b => b.fin && b.last := by
          rw [eW]
          show List.map _ (wWords tr ++ given (i.inVld && (wOut p s i).inRd) (i.inData, i.inLast)) = _
          rw [hg, given_true, List.map_append, kw, List.map_append]
          simp [hwlast]
        have hdata : (wBeats (tr ++ [(i, wOut p s i)])).map Prod.fst = (wWords (tr ++ [(i, wOut p s i)])).map Prod.fst := by
          rw [eX, eW]
          show List.map _ (wBeats tr ++ given ((wOut p s i).wVld && i.wRd) (i.inData, _)) =
            List.map _ (wWords tr ++ given (i.inVld && (wOut p s i).inRd) (i.inData, i.inLast))
          rw [hacc, hg, given_true, given_true, List.map_append, List.map_append, kd]; rfl
        have hbeats : (wBeats (tr ++ [(i, wOut p s i)])).map Prod.snd = ((consumed p D (d :: R) j) ++
            [(⟨(d.addr + j * p.W) % p.A, decide (j = d.len), d.rem, d.last⟩ : Beat)]).map Beat.fin := by
          rw [eX]
          show List.map _ (wBeats tr ++ given ((wOut p s i).wVld && i.wRd) (i.inData, doSplit p s i)) = _
          rw [hacc, hg, given_true, List.map_append, kB, List.map_append, hds]; rfl
        by_cases hj' : j = d.len
        · rw [hc.2 hj'] at hwords hbeats
          have kj0 : JOk R 0 := by cases R <;> simp [JOk]
          obtain ⟨c1, c2⟩ := consumed_push p (D ++ [d]) R 0 kj0 X
          have hds' : doSplit p s i = true := by rw [hds]; simpa using hj'
          refine ⟨P ++ X, D ++ [d], R ++ X, 0, ?_, hbur, hne, ?_, c2, ?_, ?_, ?_, hdata, ?_, ?_⟩
          · rw [wreqs_snoc]; exact n1
          · rw [ksp]; simp
          · rw [hinfo, hg, ki, hds']; simp
          · intro hsp; rw [hcn hsp, hg, hds']; rfl
          · rw [c1]; exact hwords
          · rw [c1]; exact hbeats
          · exact hresp _ [d.last] (by simp) (by rw [hg, hds', hwlast]; simp [hj', given_true])
        · rw [hc.1 (by omega)] at hwords hbeats
          have kj1 : JOk (d :: R) (j + 1) := by show j + 1 ≤ d.len; omega
          obtain ⟨c1, c2⟩ := consumed_push p D (d :: R) (j + 1) kj1 X
          have hds' : doSplit p s i = false := by rw [hds]; simpa using hj'
          refine ⟨P ++ X, D, (d :: R) ++ X, j + 1, ?_, hbur, hne, ?_, c2, ?_, ?_, ?_, hdata, ?_, ?_⟩
          · rw [wreqs_snoc]; exact n1
          · rw [ksp]; simp
          · rw [hinfo, hg, ki, hds']; simp; omega
          · intro hsp; rw [hcn hsp, hg, hds', kc hsp]; rfl
          · rw [c1]; exact hwords
          · rw [c1]; exact hbeats
          · exact hresp _ [] (by simp) (by rw [hg, hds']; rfl)

end Verif.Datapump
