import Verif.HsReg
import Mathlib.Data.List.Forall2
import Mathlib.Data.List.Induction
/-!
# Model of `RamTransactional` (hwtLib/mem/ramTransactional.py)

An item has `N = ITEM_WORDS` words, `mem a k` is word `k` of item `a` (the address of the RAM is the concatenation of the
two, ramTransactional.py:204, 329). A write beat is an arbitrary update of a word (data and byte enables). The model contains
both `RamAsAddrDataRdVld` (ramAsAddrDataRdVld.py:69-103, 131-146), the two meta data registers (`Verif.HsReg.Stage`) and the
stream nodes. `W_PRIV_T` is None. The port of the RAM returns the data from before a write in the same cycle, `x` is the
undefined output of the RAM if it is not enabled.
-/
namespace Verif.RamTrans

open HsReg (Stage stageRd stageNext)
universe u v
variable {α : Type u} {ι : Type v}

/-- ramTransactional.py:104-111 -/
structure Meta (ι : Type v) where
  id : ι
  addr : Nat
  flushing : Bool
  last : Bool
  first : Bool

structure St (α : Type u) (ι : Type v) where
  mem : Nat → Nat → α
  /-- output register of the RAM -/
  dout : α
  /-- `readDataPending`, `readData`, `readDataOverflow` -/
  pend : Bool
  vld : Bool
  data : α
  ovVld : Bool
  ovData : α
  /-- `r_index` -/
  rItem : Nat
  rWord : Nat
  rV : Bool
  /-- `w_index` -/
  wItem : Nat
  wWord : Nat
  wV : Bool
  wF : Bool
  /-- `r_meta` -/
  m0 : Stage (Meta ι)
  m1 : Stage (Meta ι)

structure In (α : Type u) (ι : Type v) where
  /-- `r.addr` -/
  rVld : Bool
  rAddr : Nat
  rId : ι
  /-- `r.data.ready` -/
  rReady : Bool
  /-- `w.addr` -/
  wVld : Bool
  wAddr : Nat
  wFlush : Bool
  /-- `w.data` -/
  dVld : Bool
  dUpd : α → α
  /-- `flush_data.addr.rd`, `flush_data.data.ready` -/
  faReady : Bool
  fdReady : Bool
  x : α

structure Out (α : Type u) (ι : Type v) where
  rRd : Bool
  rValid : Bool
  rData : α
  rId : ι
  rLast : Bool
  wRd : Bool
  dRd : Bool
  faValid : Bool
  faAddr : Nat
  fdValid : Bool
  fdData : α
  fdLast : Bool

/-- ramTransactional.py:367-369 -/
def flushReq (s : St α ι) (i : In α ι) : Bool := i.wVld && (i.wFlush && !s.rV && !s.wV)

/-! ### Output node, ramTransactional.py:251-266 -/

def skipR (s : St α ι) : Bool := s.m1.occ && s.m1.reg.flushing
def skipFd (s : St α ι) : Bool := s.m1.occ && !s.m1.reg.flushing
def skipFa (s : St α ι) : Bool := s.m1.occ && (!s.m1.reg.flushing || !s.m1.reg.first)
def rdR (s : St α ι) (i : In α ι) : Bool := i.rReady || skipR s
def rdFd (s : St α ι) (i : In α ι) : Bool := i.fdReady || skipFd s
def rdFa (s : St α ι) (i : In α ι) : Bool := i.faReady || skipFa s
/-- ready of the read data of the RAM -/
def daRd (s : St α ι) (i : In α ι) : Bool := s.m1.occ && rdR s i && rdFd s i && rdFa s i
/-- ready of `r_meta[1].dataOut` -/
def moRd (s : St α ι) (i : In α ι) : Bool := s.vld && rdR s i && rdFd s i && rdFa s i

/-! ### Dispatch of reads, ramTransactional.py:184-250 -/

def m1Rd (s : St α ι) (i : In α ι) : Bool := stageRd s.m1 (moRd s i)
def m0Rd (s : St α ι) (i : In α ι) : Bool := stageRd s.m0 (m1Rd s i)
/-- ramAsAddrDataRdVld.py:79 -/
def rEn (s : St α ι) (i : In α ι) : Bool := (!s.ovVld || daRd s i) && (!s.vld || daRd s i)
/-- `r_en`; also valid of `r.addr` or its skip flag -/
def go (s : St α ι) (i : In α ι) : Bool := s.rV || flushReq s i || i.rVld
/-- `r_disp_ack` -/
def disp (s : St α ι) (i : In α ι) : Bool := go s i && rEn s i && m0Rd s i

/-- ramTransactional.py:199-223 -/
def dispItem (s : St α ι) (i : In α ι) : Nat := if s.rV then s.rItem else if flushReq s i then i.wAddr else i.rAddr
def dispWord (s : St α ι) : Nat := if s.rV then s.rWord else 0

/-- `priv_copy`, ramTransactional.py:120-131 -/
def copyId (s : St α ι) : ι := if s.m0.occ then s.m0.reg.id else s.m1.reg.id

/-- ramTransactional.py:115-169; don't care addresses are 0, `first` and `last` are 1 for single word items. -/
def metaIn (N : Nat) (s : St α ι) (i : In α ι) : Meta ι :=
  if s.wV && s.wF then ⟨copyId s, 0, true, N == 1 || s.wWord == N - 1, N == 1⟩
  else if flushReq s i && !s.rV then ⟨i.rId, i.wAddr, true, N == 1, true⟩
  else if s.rV then ⟨copyId s, 0, false, N == 1 || s.rWord == N - 1, N == 1⟩
  else ⟨i.rId, i.rAddr, false, N == 1, true⟩

/-! ### Dispatch of writes, ramTransactional.py:289-338 -/

def wAddrEn (s : St α ι) (i : In α ι) : Bool := !s.wV && (!i.wVld || !i.wFlush || (!s.rV && rEn s i && m0Rd s i))
def dataEn (s : St α ι) (i : In α ι) : Bool := s.wV || (i.wVld && !s.wV)
def wAck (s : St α ι) (i : In α ι) : Bool := ((i.wVld && wAddrEn s i) || s.wV) && (i.dVld && dataEn s i)
/-- valid of the write port of the RAM, its ready is 1 -/
def daW (s : St α ι) (i : In α ι) : Bool := (i.wVld || s.wV) && i.dVld
def wIt (s : St α ι) (i : In α ι) : Nat := if s.wV then s.wItem else i.wAddr
def wWd (s : St α ι) : Nat := if s.wV then s.wWord else 0

def updW (m : Nat → Nat → α) (a k : Nat) (f : α → α) : Nat → Nat → α := upd m a (upd (m a) k (f (m a k)))

def next (N : Nat) (s : St α ι) (i : In α ι) : St α ι where
  mem := if daW s i then updW s.mem (wIt s i) (wWd s) i.dUpd else s.mem
  dout := if disp s i then s.mem (dispItem s i) (dispWord s) else i.x
  pend := disp s i
  vld := if s.pend then (if !s.vld || daRd s i then true else s.vld) else (if daRd s i then s.ovVld else s.vld)
  data := if s.pend then (if !s.vld || daRd s i then s.dout else s.data) else (if daRd s i then s.ovData else s.data)
  ovVld := if s.pend then (if !s.vld || daRd s i then false else true) else (if daRd s i then false else s.ovVld)
  ovData := if s.pend then (if !s.vld || daRd s i then s.ovData else s.dout) else s.ovData
  rItem := if disp s i && s.rWord == 0 then (if flushReq s i then i.wAddr else i.rAddr) else s.rItem
  rWord := if disp s i then
      (if s.rWord = 0 then (if 1 < N then 1 else 0) else if s.rWord = N - 1 then 0 else s.rWord + 1) else s.rWord
  rV := if disp s i then
      (if s.rWord = 0 then (if flushReq s i then decide (1 < N) else i.rVld && decide (1 < N))
       else if s.rWord = N - 1 then false else s.rV) else s.rV
  wItem := if wAck s i && s.wWord == 0 then i.wAddr else s.wItem
  wWord := if wAck s i then
      (if s.wWord = 0 then (if 1 < N then 1 else 0) else if s.wWord = N - 1 then 0 else s.wWord + 1) else s.wWord
  wV := if wAck s i then (if s.wWord = 0 then decide (1 < N) else if s.wWord = N - 1 then false else s.wV) else s.wV
  wF := if wAck s i then (if s.wWord = 0 then i.wFlush else if s.wWord = N - 1 then false else s.wF) else s.wF
  m0 := stageNext s.m0 (go s i && rEn s i) (metaIn N s i) (m1Rd s i)
  m1 := stageNext s.m1 s.m0.occ s.m0.reg (moRd s i)

def out (s : St α ι) (i : In α ι) : Out α ι where
  rRd := rEn s i && m0Rd s i && (!flushReq s i && !s.rV)
  rValid := s.vld && s.m1.occ && rdFd s i && rdFa s i && !s.m1.reg.flushing && !skipR s
  rData := s.data
  rId := s.m1.reg.id
  rLast := s.m1.reg.last
  wRd := i.dVld && wAddrEn s i && !s.wV
  dRd := (i.wVld || s.wV) && dataEn s i
  faValid := s.vld && s.m1.occ && rdR s i && rdFd s i && (s.m1.reg.flushing && s.m1.reg.first) && !skipFa s
  faAddr := s.m1.reg.addr
  fdValid := s.vld && s.m1.occ && rdR s i && rdFa s i && s.m1.reg.flushing && !skipFd s
  fdData := s.data
  fdLast := s.m1.reg.last

def machine (N : Nat) : Machine (St α ι) (In α ι) (Out α ι) where
  out := out
  next := next N

/-- Power-up, the contents of the memory is `m`. -/
def IsInit (m : Nat → Nat → α) (s : St α ι) : Prop :=
  s.mem = m ∧ s.pend = false ∧ s.vld = false ∧ s.ovVld = false ∧ s.rWord = 0 ∧ s.rV = false ∧ s.wWord = 0 ∧ s.wV = false ∧
  s.wF = false ∧ s.m0.occ = false ∧ s.m1.occ = false

/-! ### Observations and specification -/

/-- Words given on `r.data` with id and last. -/
def delivered (tr : List (In α ι × Out α ι)) : List (α × ι × Bool) :=
  tr.filterMap fun e => if e.2.rValid && e.1.rReady then some (e.2.rData, e.2.rId, e.2.rLast) else none

/-- Words given on `flush_data.data`. -/
def flushed (tr : List (In α ι × Out α ι)) : List (α × Bool) :=
  tr.filterMap fun e => if e.2.fdValid && e.1.fdReady then some (e.2.fdData, e.2.fdLast) else none

/-- Addresses given on `flush_data.addr`. -/
def flushAddrs (tr : List (In α ι × Out α ι)) : List Nat :=
  tr.filterMap fun e => if e.2.faValid && e.1.faReady then some e.2.faAddr else none

/-- Accepted read requests with the cycle of the handshake. -/
def reads : Nat → List (In α ι × Out α ι) → List (Nat × Nat × ι)
  | _, [] => []
  | t, e :: tr => given (e.1.rVld && e.2.rRd) (t, e.1.rAddr, e.1.rId) ++ reads (t + 1) tr

/-- Accepted write addresses and beats. -/
def wAddrs (tr : List (In α ι × Out α ι)) : List Nat :=
  tr.filterMap fun e => if e.1.wVld && e.2.wRd then some e.1.wAddr else none
def beats (tr : List (In α ι × Out α ι)) : List (α → α) :=
  tr.filterMap fun e => if e.1.dVld && e.2.dRd then some e.1.dUpd else none

/-- The memory after the writes: beat `j` goes to word `j % N` of the `j / N`-th address. -/
def specMem (N : Nat) (m : Nat → Nat → α) (as : List Nat) (bs : List (α → α)) : Nat → Nat → α :=
  bs.zipIdx.foldl (fun m x => updW m (as.getD (x.2 / N) 0) (x.2 % N) x.1) m

def specAt (N : Nat) (m : Nat → Nat → α) (tr : List (In α ι × Out α ι)) : Nat → Nat → α := specMem N m (wAddrs tr) (beats tr)

/-! ### Runs without flush -/

def qv (s : St α ι) : List α := given s.vld s.data ++ given s.ovVld s.ovData ++ given s.pend s.dout
def qm (s : St α ι) : List (Meta ι) := given s.m1.occ s.m1.reg ++ given s.m0.occ s.m0.reg
def item (v : α) (m : Meta ι) : α × ι × Bool := (v, m.id, m.last)
/-- words on the way to `r.data` -/
def qd (s : St α ι) : List (α × ι × Bool) := List.zipWith item (qv s) (qm s)

structure PInv (s : St α ι) : Prop where
  ov : s.ovVld = true → s.vld = true
  ovp : s.ovVld = true → s.pend = false
  len : (qv s).length = (qm s).length
  nf : ∀ m ∈ qm s, m.flushing = false
  wF : s.wF = false

/-- word indices -/
structure IInv (N : Nat) (s : St α ι) : Prop where
  r0 : s.rV = false → s.rWord = 0
  r1 : s.rV = true → 0 < s.rWord ∧ s.rWord < N
  w0 : s.wV = false → s.wWord = 0
  w1 : s.wV = true → 0 < s.wWord ∧ s.wWord < N

def pop (s : St α ι) (i : In α ι) : Bool := s.vld && s.m1.occ && i.rReady

section
variable {N : Nat} {s : St α ι} {i : In α ι}

theorem m1_nf (h : PInv s) (ho : s.m1.occ = true) : s.m1.reg.flushing = false := by
  apply h.nf; simp [qm, ho]

theorem pop_da (h : PInv s) : (s.vld && daRd s i) = pop s i ∧ (s.m1.occ && moRd s i) = pop s i := by
  unfold daRd moRd pop rdR rdFd rdFa skipR skipFd skipFa
  cases ho : s.m1.occ
  · simp
  · simp [m1_nf h ho]

theorem daRd_eq (h : PInv s) : daRd s i = (s.m1.occ && i.rReady) := by
  unfold daRd rdR rdFd rdFa skipR skipFd skipFa
  cases ho : s.m1.occ
  · simp
  · simp [m1_nf h ho]

theorem qv_next (h : PInv s) : given (pop s i) s.data ++ qv (next N s i) =
    qv s ++ given (disp s i) (s.mem (dispItem s i) (dispWord s)) := by
  have h1 := h.ov
  have h2 := h.ovp
  have e := (pop_da (i := i) h).1
  rw [← e]
  have hr : disp s i = true → rEn s i = true := by unfold disp; simp +contextual
  unfold rEn at hr
  generalize hd : disp s i = d at hr
  simp only [qv, next, hd]
  generalize daRd s i = r at hr
  cases hp : s.pend <;> cases hv : s.vld <;> cases ho : s.ovVld <;> cases r <;> cases d <;> simp_all

theorem qm_next (h : PInv s) : given (pop s i) s.m1.reg ++ qm (next N s i) = qm s ++ given (disp s i) (metaIn N s i) := by
  rw [← (pop_da (i := i) h).2]
  simp only [qm, next, disp, m0Rd, m1Rd, stageRd, stageNext, HsReg.stageWe]
  generalize metaIn N s i = x
  generalize (go s i && rEn s i) = a
  rcases Bool.eq_false_or_eq_true s.m0.occ with h0 | h0 <;> rcases Bool.eq_false_or_eq_true s.m1.occ with h1 | h1 <;>
    rcases Bool.eq_false_or_eq_true (moRd s i) with hr | hr <;> rcases Bool.eq_false_or_eq_true a with ha | ha <;>
    simp [h0, h1, hr, ha]

theorem zip_given {β γ δ : Type _} (f : β → γ → δ) (b : Bool) (x : β) (y : γ) :
    List.zipWith f (given b x) (given b y) = given b (f x y) := by cases b <;> rfl

theorem len_given {β γ : Type _} (b : Bool) (x : β) (y : γ) : (given b x).length = (given b y).length := by cases b <;> rfl

theorem qd_next (h : PInv s) : given (pop s i) (item s.data s.m1.reg) ++ qd (next N s i) =
    qd s ++ given (disp s i) (item (s.mem (dispItem s i) (dispWord s)) (metaIn N s i)) := by
  unfold qd
  rw [← zip_given item, ← zip_given item, ← List.zipWith_append (len_given _ _ _), ← List.zipWith_append h.len, qv_next h,
    qm_next h]

theorem iinv_next (h : IInv N s) : IInv N (next N s i) := by
  obtain ⟨h1, h2, h3, h4⟩ := h
  refine ⟨?_, ?_, ?_, ?_⟩
  · simp only [next]
    cases hd : disp s i
    · simpa using h1
    · cases hv : s.rV
      · have := h1 hv
        have hg : (flushReq s i || i.rVld) = true := by
          unfold disp go at hd; rw [hv] at hd; cases hq : flushReq s i <;> cases hr : i.rVld <;> simp_all
        cases hq : flushReq s i <;> cases hr : i.rVld <;> simp_all
      · have := h2 hv
        have : s.rWord ≠ 0 := by omega
        simp [this]
  · simp only [next]
    cases hd : disp s i
    · simpa using h2
    · cases hv : s.rV
      · have := h1 hv
        simp only [this, if_true]
        cases hq : flushReq s i <;> cases hr : i.rVld <;> simp <;> intro h <;> simp [h]
      · have := h2 hv
        have : s.rWord ≠ 0 := by omega
        simp only [this, if_true, if_false]
        split <;> simp
        omega
  · simp only [next]
    cases hd : wAck s i
    · simpa using h3
    · cases hv : s.wV
      · have := h3 hv
        simp only [this, if_true]
        by_cases h : 1 < N <;> simp [h]
      · have := h4 hv
        have : s.wWord ≠ 0 := by omega
        simp [this]
  · simp only [next]
    cases hd : wAck s i
    · simpa using h4
    · cases hv : s.wV
      · have := h3 hv
        simp only [this, if_true]
        by_cases h : 1 < N <;> simp [h]
      · have := h4 hv
        have : s.wWord ≠ 0 := by omega
        simp only [this, if_true, if_false]
        split <;> simp
        omega

theorem pinv_next (h : PInv s) (hx : IInv N s) (hf : (i.wVld && i.wFlush) = false) : PInv (next N s i) := by
  have hq : flushReq s i = false := by
    unfold flushReq; cases hv : i.wVld <;> simp_all
  have hr : disp s i = true → rEn s i = true := by unfold disp; simp +contextual
  have h1 := h.ov
  have h2 := h.ovp
  refine ⟨?_, ?_, ?_, ?_, ?_⟩
  · simp only [next]
    generalize daRd s i = r
    cases hp : s.pend <;> cases hv : s.vld <;> cases ho : s.ovVld <;> cases r <;> simp_all
  · unfold rEn at hr
    simp only [next]
    generalize disp s i = d at hr ⊢
    generalize daRd s i = r at hr ⊢
    cases hp : s.pend <;> cases hv : s.vld <;> cases ho : s.ovVld <;> cases r <;> cases d <;> simp_all
  · have e1 := congrArg List.length (qv_next (N := N) (i := i) h)
    have e2 := congrArg List.length (qm_next (N := N) (i := i) h)
    simp only [List.length_append] at e1 e2
    have := h.len
    have a1 := len_given (pop s i) s.data s.m1.reg
    have a2 := len_given (disp s i) (s.mem (dispItem s i) (dispWord s)) (metaIn N s i)
    omega
  · intro m hm
    have : m ∈ given (pop s i) s.m1.reg ++ qm (next N s i) := List.mem_append_right _ hm
    rw [qm_next h] at this
    rcases List.mem_append.1 this with h' | h'
    · exact h.nf m h'
    · cases hd : disp s i
      · rw [hd] at h'; simp at h'
      · rw [hd] at h'
        have hm : m = metaIn N s i := by simpa using h'
        rw [hm]
        unfold metaIn
        rw [h.wF, hq]
        simp
        split <;> rfl
  · simp only [next]
    split
    · split
      · rename_i ha hw
        -- a new item, its flush flag is 0
        have hv : s.wV = false := by
          cases hv : s.wV
          · rfl
          · have := (hx.w1 hv).1; omega
        unfold wAck at ha
        rw [hv] at ha
        cases hv' : i.wVld
        · simp [hv'] at ha
        · simpa [hv'] using hf
      · split
        · rfl
        · exact h.wF
    · exact h.wF
/-! ### Requests -/

/-- The words of a request: cycle of the request, item, word, id. -/
def expand (N : Nat) (q : Nat × Nat × ι) : List (Nat × Nat × Nat × ι) := (List.range' 0 N).map fun k => (q.1, q.2.1, k, q.2.2)

/-- The words of the current request which were not yet read, `g` is its cycle and id. -/
def todo (N : Nat) (s : St α ι) (g : Nat × ι) : List (Nat × Nat × Nat × ι) :=
  if s.rV then (List.range' s.rWord (N - s.rWord)).map fun k => (g.1, s.rItem, k, g.2) else []

theorem copyId_next (hd : disp s i = false) (hv : s.rV = true) : copyId (next N s i) = copyId s := by
  have hg : go s i = true := by simp [go, hv]
  have hd' : (rEn s i && m0Rd s i) = false := by simpa [disp, hg] using hd
  simp only [copyId, next, m0Rd, m1Rd, stageRd, stageNext, HsReg.stageWe, hg] at hd' ⊢
  rcases Bool.eq_false_or_eq_true s.m0.occ with h0 | h0 <;> rcases Bool.eq_false_or_eq_true s.m1.occ with h1 | h1 <;>
    rcases Bool.eq_false_or_eq_true (moRd s i) with hr | hr <;> rcases Bool.eq_false_or_eq_true (rEn s i) with he | he <;>
    simp [h0, h1, hr, he] at hd' ⊢

/-- One cycle: an accepted request is appended, a dispatched word is removed. -/
theorem todo_next (hN : 0 < N) (h : IInv N s) (hw : s.wF = false) (hf : flushReq s i = false) (n : Nat) (g : Nat × ι)
    (hg : s.rV = true → copyId s = g.2 ∧ g.1 ≤ n) :
    ∃ g' : Nat × ι, ∃ t, t ≤ n ∧ (((next N s i).rV = true → copyId (next N s i) = g'.2 ∧ g'.1 ≤ n)) ∧
      todo N s g ++ (given (i.rVld && (out s i).rRd) (n, i.rAddr, i.rId)).flatMap (expand N) =
        given (disp s i) (t, dispItem s i, dispWord s, (metaIn N s i).id) ++ todo N (next N s i) g' ∧
      (disp s i = true → (metaIn N s i).last = decide (dispWord s + 1 = N)) := by
  cases hv : s.rV
  · -- no request in progress
    have h0 := h.r0 hv
    have hacc : (i.rVld && (out s i).rRd) = disp s i := by
      simp only [out, disp, go, hv, hf]
      cases i.rVld <;> simp
    rw [hacc]
    cases hd : disp s i
    · refine ⟨g, n, Nat.le_refl n, ?_, ?_, by simp⟩
      · intro h; simp [next, hd, hv] at h
      · simp [todo, hv, next, hd]
    · have hr : i.rVld = true := by
        unfold disp go at hd
        rw [hv, hf] at hd
        cases hr : i.rVld <;> simp_all
      have hm : metaIn N s i = ⟨i.rId, i.rAddr, false, N == 1, true⟩ := by
        unfold metaIn; simp [hw, hf, hv]
      refine ⟨(n, i.rId), n, Nat.le_refl n, ?_, ?_, ?_⟩
      · intro _
        refine ⟨?_, Nat.le_refl n⟩
        have hd' := hd
        unfold disp m0Rd stageRd at hd'
        simp only [copyId, next, stageNext, HsReg.stageWe, hm]
        cases h0 : s.m0.occ <;> simp_all
      · simp only [hm, dispItem, dispWord, hv, hf, given_true, todo, next, hd, h0, hr]
        simp only [Bool.false_eq_true, if_false, if_true, List.flatMap_cons, List.flatMap_nil, List.append_nil, List.nil_append,
          Bool.true_and, expand, decide_eq_true_eq, beq_self_eq_true]
        obtain ⟨M, rfl⟩ : ∃ M, N = M + 1 := ⟨N - 1, by omega⟩
        rw [List.range'_succ, List.map_cons]
        by_cases hM : 1 < M + 1
        · simp [hM]
        · have : M = 0 := by omega
          subst this; simp
      · intro _
        rw [hm]; simp only [dispWord, hv]
        rw [Bool.eq_iff_iff]; simp; omega
  · obtain ⟨hg1, hg2⟩ := hg hv
    obtain ⟨hw1, hw2⟩ := h.r1 hv
    have hacc : (i.rVld && (out s i).rRd) = false := by simp [out, hv]
    rw [hacc]
    have hm : metaIn N s i = ⟨copyId s, 0, false, N == 1 || s.rWord == N - 1, N == 1⟩ := by
      unfold metaIn; simp [hw, hf, hv]
    cases hd : disp s i
    · refine ⟨g, n, Nat.le_refl n, ?_, ?_, by simp⟩
      · intro _
        exact ⟨by rw [copyId_next hd hv, hg1], hg2⟩
      · simp [todo, hv, next, hd]
    · refine ⟨g, g.1, hg2, ?_, ?_, ?_⟩
      · intro _
        refine ⟨?_, hg2⟩
        have hd' := hd
        unfold disp m0Rd stageRd at hd'
        simp only [copyId, next, stageNext, HsReg.stageWe, hm]
        rw [← hg1]
        unfold copyId
        cases h0 : s.m0.occ <;> simp_all
      · have hne : s.rWord ≠ 0 := by omega
        have hne' : (s.rWord == 0) = false := by simpa using hne
        simp only [hm, dispItem, dispWord, hv, given_true, given_false, todo, next, hd, hne, hne']
        simp only [if_true, if_false, List.flatMap_nil, List.append_nil, Bool.false_eq_true, Bool.and_false]
        obtain ⟨M, hM⟩ : ∃ M, N - s.rWord = M + 1 := ⟨N - s.rWord - 1, by omega⟩
        rw [hM, List.range'_succ, List.map_cons, ← hg1]
        by_cases hl : s.rWord = N - 1
        · have : M = 0 := by omega
          subst this; simp [hl]
        · have : N - (s.rWord + 1) = M := by omega
          simp [hl, this]
      · intro _
        rw [hm]; simp only [dispWord, hv]
        rw [Bool.eq_iff_iff]; simp; omega

/-! ### Writes -/

theorem specMem_snoc (m : Nat → Nat → α) (as : List Nat) (bs : List (α → α)) (f : α → α) :
    specMem N m as (bs ++ [f]) = updW (specMem N m as bs) (as.getD (bs.length / N) 0) (bs.length % N) f := by
  unfold specMem
  rw [List.zipIdx_append, List.foldl_append]
  simp

theorem specMem_ext (m : Nat → Nat → α) (as x : List Nat) (bs : List (α → α)) (h : ∀ j, j < bs.length → j / N < as.length) :
    specMem N m (as ++ x) bs = specMem N m as bs := by
  induction bs using List.reverseRecOn with
  | nil => rfl
  | append_singleton bs f ih =>
    rw [specMem_snoc, specMem_snoc, ih (fun j hj => h j (by simp; omega))]
    have := h bs.length (by simp)
    rw [List.getD_eq_getElem?_getD, List.getD_eq_getElem?_getD, List.getElem?_append_left this]

/-- The memory and the progress of the current write. -/
def WInv (N : Nat) (m : Nat → Nat → α) (s : St α ι) (as : List Nat) (bs : List (α → α)) : Prop :=
  s.mem = specMem N m as bs ∧
  (s.wV = false → bs.length = as.length * N) ∧
  (s.wV = true → ∃ as', as = as' ++ [s.wItem] ∧ bs.length = as'.length * N + s.wWord)

theorem winv_next {m : Nat → Nat → α} {as : List Nat} {bs : List (α → α)} (hN : 0 < N) (h : WInv N m s as bs) (hx : IInv N s)
    (hf : (i.wVld && i.wFlush) = false) :
    WInv N m (next N s i) (as ++ given (i.wVld && (out s i).wRd) i.wAddr) (bs ++ given (i.dVld && (out s i).dRd) i.dUpd) := by
  obtain ⟨h1, h2, h3⟩ := h
  have hen : i.wVld = true → wAddrEn s i = !s.wV := by
    intro hv
    have : i.wFlush = false := by simpa [hv] using hf
    simp [wAddrEn, this]
  cases hv : s.wV
  · have hw := hx.w0 hv
    have hl := h2 hv
    by_cases hgo : (i.wVld && i.dVld) = true
    · simp only [Bool.and_eq_true] at hgo
      obtain ⟨ha, hb⟩ := hgo
      have ea : (i.wVld && (out s i).wRd) = true := by simp [out, ha, hb, hen ha, hv]
      have eb : (i.dVld && (out s i).dRd) = true := by simp [out, ha, hb, dataEn, hv]
      have ek : wAck s i = true := by simp [wAck, ha, hb, hen ha, hv, dataEn]
      have ed : daW s i = true := by simp [daW, ha, hb]
      rw [ea, eb, given_true, given_true]
      refine ⟨?_, ?_, ?_⟩
      · rw [specMem_snoc, specMem_ext m as _ bs (fun j hj => by
          rw [hl] at hj; exact (Nat.div_lt_iff_lt_mul hN).2 hj)]
        simp only [next, ed, if_true, wIt, wWd, hv, Bool.false_eq_true, if_false]
        rw [hl, Nat.mul_div_cancel _ hN, Nat.mul_mod_left, ← h1]
        simp
      · intro hv'
        simp only [next, ek, hw, if_true, decide_eq_false_iff_not] at hv'
        have : N = 1 := by omega
        subst this; simp [hl]
      · intro hv'
        simp only [next, ek, hw, if_true, decide_eq_true_eq] at hv'
        refine ⟨as, ?_, ?_⟩
        · simp [next, ek, hw]
        · simp [next, ek, hw, hv', hl]
    · have ea : (i.wVld && (out s i).wRd) = false := by
        cases ha : i.wVld <;> cases hb : i.dVld <;> simp_all [out]
      have eb : (i.dVld && (out s i).dRd) = false := by
        cases ha : i.wVld <;> cases hb : i.dVld <;> simp_all [out]
      have ek : wAck s i = false := by
        cases ha : i.wVld <;> cases hb : i.dVld <;> simp_all [wAck]
      have ed : daW s i = false := by
        cases ha : i.wVld <;> cases hb : i.dVld <;> simp_all [daW]
      rw [ea, eb, given_false, given_false, List.append_nil, List.append_nil]
      refine ⟨by simp [next, ed, h1], by simp [next, ek, hv, hl], by simp [next, ek, hv]⟩
  · obtain ⟨hw1, hw2⟩ := hx.w1 hv
    obtain ⟨as', has, hl⟩ := h3 hv
    have ea : (i.wVld && (out s i).wRd) = false := by simp [out, hv]
    rw [ea, given_false, List.append_nil]
    have hne : s.wWord ≠ 0 := by omega
    have hne' : (s.wWord == 0) = false := by simpa using hne
    cases hb : i.dVld
    · have ek : wAck s i = false := by simp [wAck, hb]
      have ed : daW s i = false := by simp [daW, hb]
      rw [Bool.false_and, given_false, List.append_nil]
      refine ⟨by simp [next, ed, h1], by simp [next, ek, hv], fun _ => ⟨as', by simp [next, ek, has], by simp [next, ek, hl]⟩⟩
    · have eb : (true && (out s i).dRd) = true := by simp [out, dataEn, hv]
      have ek : wAck s i = true := by simp [wAck, hb, hv, dataEn]
      have ed : daW s i = true := by simp [daW, hb, hv]
      rw [eb, given_true]
      refine ⟨?_, ?_, ?_⟩
      · rw [specMem_snoc, ← h1, hl]
        have e1 : (as'.length * N + s.wWord) / N = as'.length := by
          rw [Nat.mul_comm, Nat.mul_add_div hN, Nat.div_eq_of_lt hw2, Nat.add_zero]
        have e2 : (as'.length * N + s.wWord) % N = s.wWord := by
          rw [Nat.mul_comm, Nat.mul_add_mod, Nat.mod_eq_of_lt hw2]
        rw [e1, e2, has]
        simp [next, ed, wIt, wWd, hv]
      · intro hv'
        simp only [next, ek, hne, if_true, if_false] at hv'
        by_cases hlast : s.wWord = N - 1
        · rw [List.length_append, hl, has, List.length_append, hlast]
          simp [Nat.add_mul]; omega
        · simp [hlast, hv] at hv'
      · intro hv'
        simp only [next, ek, hne, if_true, if_false] at hv'
        by_cases hlast : s.wWord = N - 1
        · simp [hlast] at hv'
        · refine ⟨as', ?_, ?_⟩
          · simp [next, hne', has]
          · simp [next, ek, hne, hlast, hl]; omega

/-! ### The whole run -/

/-- A delivered word `d` is the word of the request `q` at some time after the request. -/
def Served (N : Nat) (m : Nat → Nat → α) (tr : List (In α ι × Out α ι)) (q : Nat × Nat × Nat × ι) (d : α × ι × Bool) : Prop :=
  ∃ n, q.1 ≤ n ∧ n ≤ tr.length ∧ d = (specAt N m (tr.take n) q.2.1 q.2.2.1, q.2.2.2, decide (q.2.2.1 + 1 = N))

theorem served_mono {m : Nat → Nat → α} {tr : List (In α ι × Out α ι)} {e : In α ι × Out α ι} {q : Nat × Nat × Nat × ι}
    {d : α × ι × Bool} (h : Served N m tr q d) : Served N m (tr ++ [e]) q d := by
  obtain ⟨n, h1, h2, h3⟩ := h
  refine ⟨n, h1, by simp; omega, ?_⟩
  rw [List.take_append_of_le_length h2]
  exact h3

theorem reads_snoc (e : In α ι × Out α ι) : ∀ (tr : List (In α ι × Out α ι)) (t : Nat),
    reads t (tr ++ [e]) = reads t tr ++ given (e.1.rVld && e.2.rRd) (t + tr.length, e.1.rAddr, e.1.rId) := by
  intro tr
  induction tr with
  | nil => intro t; simp [reads]
  | cons x tr ih =>
    intro t
    rw [List.cons_append, reads, reads, ih, List.append_assoc, List.length_cons, show t + 1 + tr.length = t + (tr.length + 1) by omega]

theorem filterMap_snoc_ite {β γ : Type _} (c : β → Bool) (f : β → γ) (l : List β) (a : β) :
    (l ++ [a]).filterMap (fun e => if c e then some (f e) else none) =
      l.filterMap (fun e => if c e then some (f e) else none) ++ given (c a) (f a) := by
  rw [List.filterMap_append]
  congr 1
  cases hc : c a <;> simp [hc]

theorem run (hN : 0 < N) (m : Nat → Nat → α) (s0 : St α ι) (h0 : IsInit m s0) (is : List (In α ι))
    (hf : ∀ i ∈ is, (i.wVld && i.wFlush) = false) :
    ∃ g Ed, List.Forall₂ (Served N m ((machine N).trace s0 is)) Ed
        (delivered ((machine N).trace s0 is) ++ qd ((machine N).final s0 is)) ∧
      (reads 0 ((machine N).trace s0 is)).flatMap (expand N) = Ed ++ todo N ((machine N).final s0 is) g ∧
      (((machine N).final s0 is).rV = true → copyId ((machine N).final s0 is) = g.2 ∧ g.1 ≤ is.length) ∧
      WInv N m ((machine N).final s0 is) (wAddrs ((machine N).trace s0 is)) (beats ((machine N).trace s0 is)) ∧
      PInv ((machine N).final s0 is) ∧ IInv N ((machine N).final s0 is) ∧
      flushed ((machine N).trace s0 is) = [] ∧ flushAddrs ((machine N).trace s0 is) = [] := by
  induction is using List.reverseRecOn with
  | nil =>
    obtain ⟨h1, h2, h3, h4, h5, h6, h7, h8, h9, h10, h11⟩ := h0
    refine ⟨(0, s0.m0.reg.id), [], ?_, ?_, ?_, ?_, ?_, ?_, ?_, ?_⟩
    · simp [delivered, qd, qv, h2, h3, h4]
    · simp [reads, todo, h6]
    · simp [h6]
    · exact ⟨h1, by simp [beats, wAddrs], by simp [h8]⟩
    · exact ⟨by simp [h4], by simp [h4], by simp [qv, qm, h2, h3, h4, h10, h11], by simp [qm, h10, h11], h9⟩
    · exact ⟨fun _ => h5, by simp [h6], fun _ => h7, by simp [h8]⟩
    · rfl
    · rfl
  | append_singleton is i ih =>
    obtain ⟨g, Ed, k1, k2, k3, k4, k5, k6, k7, k8⟩ := ih (fun j hj => hf j (List.mem_append_left _ hj))
    have hfi := hf i (by simp)
    rw [Machine.trace_snoc, Machine.final_append]
    show ∃ g Ed, _
    have eo : (machine N).outAfter s0 is i = out ((machine N).final s0 is) i := rfl
    have en : (machine N).final ((machine N).final s0 is) [i] = next N ((machine N).final s0 is) i := rfl
    rw [eo, en]
    have hlen : ((machine N).trace s0 is).length = is.length := Machine.trace_length _ _ _
    have htr : ((machine N).trace s0 is ++ [(i, out ((machine N).final s0 is) i)]).take is.length = (machine N).trace s0 is := by
      rw [← hlen, List.take_left]
    generalize (machine N).final s0 is = s at *
    generalize (machine N).trace s0 is = tr at *
    have hq : flushReq s i = false := by unfold flushReq; cases hv : i.wVld <;> simp_all
    obtain ⟨g', t, ht, a1, a2, a3⟩ := todo_next hN k6 k5.wF hq is.length g k3
    have hpop : ((out s i).rValid && i.rReady) = pop s i := by
      unfold pop
      simp only [out, rdFd, rdFa, skipFd, skipFa, skipR]
      cases ho : s.m1.occ
      · simp
      · simp [m1_nf k5 ho]
    have hfd : (out s i).fdValid = false := by
      simp only [out]
      cases ho : s.m1.occ
      · simp
      · simp [m1_nf k5 ho]
    have hfa : (out s i).faValid = false := by
      simp only [out]
      cases ho : s.m1.occ
      · simp
      · simp [m1_nf k5 ho]
    refine ⟨g', Ed ++ given (disp s i) (t, dispItem s i, dispWord s, (metaIn N s i).id), ?_, ?_, ?_, ?_, ?_, ?_, ?_, ?_⟩
    · unfold delivered at k1 ⊢
      rw [filterMap_snoc_ite]
      show List.Forall₂ _ _ ((_ ++ given ((out s i).rValid && i.rReady) (item s.data s.m1.reg)) ++ _)
      rw [hpop, List.append_assoc, qd_next k5, ← List.append_assoc]
      refine List.rel_append (k1.imp fun _ _ h => served_mono h) ?_
      cases hd : disp s i
      · exact List.Forall₂.nil
      · refine List.Forall₂.cons ⟨is.length, ht, by simp [hlen], ?_⟩ List.Forall₂.nil
        rw [htr]
        show (s.mem _ _, _, _) = _
        rw [k4.1, a3 hd]
        rfl
    · rw [reads_snoc, List.flatMap_append, k2, List.append_assoc, List.append_assoc, Nat.zero_add, hlen]
      rw [a2]
    · intro h
      obtain ⟨b1, b2⟩ := a1 h
      exact ⟨b1, by simp; omega⟩
    · have := winv_next hN k4 k6 hfi
      unfold wAddrs beats at this ⊢
      rw [filterMap_snoc_ite, filterMap_snoc_ite]
      exact this
    · exact pinv_next k5 k6 hfi
    · exact iinv_next k6
    · unfold flushed at k7 ⊢
      rw [filterMap_snoc_ite, k7]
      simp [hfd]
    · unfold flushAddrs at k8 ⊢
      rw [filterMap_snoc_ite, k8]
      simp [hfa]

/-! ### Draining -/

/-- Without flush the data and the meta data move together. -/
def Aligned (s : St α ι) : Prop := s.m1.occ = s.vld ∧ s.m0.occ = (s.ovVld || s.pend)

theorem aligned_next (h : PInv s) (ha : Aligned s) : Aligned (next N s i) := by
  obtain ⟨a1, a2⟩ := ha
  have e1 : moRd s i = (s.vld && i.rReady) := by
    have := (pop_da (i := i) h).2
    unfold pop at this
    cases ho : s.m1.occ
    · rw [ho] at a1; simp [moRd, ← a1]
    · simpa [ho] using this
  have e2 := daRd_eq (i := i) h
  have h1 := h.ov
  have h2 := h.ovp
  unfold Aligned
  simp only [next, disp, m0Rd, m1Rd, rEn, stageRd, stageNext, e1, e2, a1, a2]
  generalize go s i = g
  generalize i.rReady = r
  revert h1 h2
  generalize s.vld = v
  generalize s.ovVld = o
  generalize s.pend = p
  clear e1 e2 a1 a2 h
  revert v o p g r
  decide

/-- Cycles until everything is given if the consumer is ready. -/
def left (N : Nat) (s : St α ι) : Nat := if s.rV then N - s.rWord + 2 else if s.m0.occ then 2 else if s.m1.occ then 1 else 0

theorem left_next (h : PInv s) (hx : IInv N s) (ha : Aligned s) (hr : i.rReady = true) (hv : i.rVld = false)
    (hf : (i.wVld && i.wFlush) = false) : left N (next N s i) ≤ left N s - 1 := by
  obtain ⟨a1, a2⟩ := ha
  have hq : flushReq s i = false := by unfold flushReq; cases hv : i.wVld <;> simp_all
  have e2 := daRd_eq (i := i) h
  have e1 : moRd s i = s.vld := by
    have := (pop_da (i := i) h).2
    unfold pop at this
    cases ho : s.m1.occ
    · rw [ho] at a1; simp [moRd, ← a1]
    · simpa [ho, hr] using this
  have h1 := h.ov
  have he : rEn s i = true := by
    simp only [rEn, e2, a1, hr, Bool.and_true]
    cases hv : s.vld
    · cases ho : s.ovVld
      · rfl
      · have := h1 ho; simp [hv] at this
    · simp
  have hm1 : m1Rd s i = true := by simp [m1Rd, stageRd, e1, a1]
  have hm0 : m0Rd s i = true := by simp [m0Rd, stageRd, hm1]
  have hd : disp s i = s.rV := by simp [disp, go, he, hm0, hq, hv]
  have hg : go s i = s.rV := by simp [go, hq, hv]
  cases hV : s.rV
  · have n1 : (next N s i).rV = false := by simp [next, hd, hV]
    have n2 : (next N s i).m0.occ = false := by simp [next, stageNext, hg, hV, hm1]
    have n3 : (next N s i).m1.occ = s.m0.occ := by
      simp only [next, stageNext, e1, a1]
      cases s.vld <;> cases s.m0.occ <;> rfl
    unfold left
    rw [n1, n2, n3, hV]
    cases s.m0.occ <;> cases s.m1.occ <;> simp
  · obtain ⟨b1, b2⟩ := hx.r1 hV
    have hne : s.rWord ≠ 0 := by omega
    by_cases hl : s.rWord = N - 1
    · have n1 : (next N s i).rV = false := by simp [next, hd, hV, hl]; omega
      unfold left
      rw [n1, hV]
      have : (if (false : Bool) = true then N - (next N s i).rWord + 2 else if (next N s i).m0.occ = true then 2
        else if (next N s i).m1.occ = true then 1 else 0) ≤ 2 := by
        simp only [Bool.false_eq_true, if_false]; split <;> (try split) <;> omega
      simp only [if_true]
      omega
    · have n1 : (next N s i).rV = true := by simp [next, hd, hV, hl, hne]
      have n2 : (next N s i).rWord = s.rWord + 1 := by simp [next, hd, hV, hl, hne]
      unfold left
      rw [n1, hV, n2]
      simp only [if_true]
      omega

theorem aligned_run (hN : 0 < N) (m : Nat → Nat → α) (s0 : St α ι) (h0 : IsInit m s0) (is : List (In α ι))
    (hf : ∀ i ∈ is, (i.wVld && i.wFlush) = false) : Aligned ((machine N).final s0 is) := by
  induction is using List.reverseRecOn with
  | nil =>
    obtain ⟨h1, h2, h3, h4, h5, h6, h7, h8, h9, h10, h11⟩ := h0
    exact ⟨by simp [h11, h3], by simp [h10, h2, h4]⟩
  | append_singleton is i ih =>
    have hf' : ∀ i ∈ is, (i.wVld && i.wFlush) = false := fun j hj => hf j (List.mem_append_left _ hj)
    obtain ⟨g, Ed, k1, k2, k3, k4, k5, k6, k7, k8⟩ := run hN m s0 h0 is hf'
    rw [Machine.final_append]
    exact aligned_next k5 (ih hf')

theorem left_run (hN : 0 < N) (m : Nat → Nat → α) (s0 : St α ι) (h0 : IsInit m s0) (is js : List (In α ι))
    (hf : ∀ i ∈ is ++ js, (i.wVld && i.wFlush) = false) (hr : ∀ j ∈ js, j.rReady = true ∧ j.rVld = false) :
    left N ((machine N).final s0 (is ++ js)) ≤ N + 1 - js.length := by
  induction js using List.reverseRecOn with
  | nil =>
    rw [List.append_nil] at hf ⊢
    obtain ⟨g, Ed, k1, k2, k3, k4, k5, k6, k7, k8⟩ := run hN m s0 h0 is hf
    unfold left
    split
    · rename_i h
      have := k6.r1 h
      simp; omega
    · split <;> (try split) <;> first | omega | (simp; done) | (simp; omega)
  | append_singleton js j ih =>
    rw [← List.append_assoc] at hf ⊢
    have hf' : ∀ i ∈ is ++ js, (i.wVld && i.wFlush) = false := fun j hj => hf j (List.mem_append_left _ hj)
    have ih' := ih hf' (fun k hk => hr k (List.mem_append_left _ hk))
    obtain ⟨g, Ed, k1, k2, k3, k4, k5, k6, k7, k8⟩ := run hN m s0 h0 (is ++ js) hf'
    rw [Machine.final_append]
    have hj := hr j (by simp)
    have := left_next k5 k6 (aligned_run hN m s0 h0 _ hf') hj.1 hj.2 (hf j (by simp))
    show left N (next N _ j) ≤ _
    rw [List.length_append, List.length_singleton]
    omega

/-! ### A flush write into an idle memory -/

/-- Nothing is in progress. -/
structure Idle (s : St α ι) : Prop where
  pend : s.pend = false
  vld : s.vld = false
  ov : s.ovVld = false
  rV : s.rV = false
  rWord : s.rWord = 0
  wV : s.wV = false
  wWord : s.wWord = 0
  m0 : s.m0.occ = false
  m1 : s.m1.occ = false

/-- Input number `k` of a flush write of item `a`: the data follow without a gap, the flush data port is ready, the flush
address port is ready for the first word, there is no read. -/
def FlushIn (N a k : Nat) (i : In α ι) : Prop :=
  i.rVld = false ∧ i.fdReady = true ∧ (k = 2 → i.faReady = true) ∧
  (k = 0 → i.wVld = true ∧ i.wFlush = true ∧ i.wAddr = a) ∧ (k < N → i.dVld = true) ∧ (N ≤ k → i.wVld = false)

/-- State after `k` cycles of the flush write. -/
structure FPos (N a : Nat) (m : Nat → Nat → α) (k : Nat) (s : St α ι) : Prop where
  rV : s.rV = decide (0 < k ∧ k < N)
  wV : s.wV = decide (0 < k ∧ k < N)
  wF : 0 < k → k < N → s.wF = true
  rWord : s.rWord = if k < N then k else 0
  wWord : s.wWord = if k < N then k else 0
  rItem : 0 < k → k < N → s.rItem = a
  wItem : 0 < k → k < N → s.wItem = a
  ov : s.ovVld = false
  pend : s.pend = decide (0 < k ∧ k ≤ N)
  m0 : s.m0.occ = decide (0 < k ∧ k ≤ N)
  vld : s.vld = decide (1 < k ∧ k ≤ N + 1)
  m1 : s.m1.occ = decide (1 < k ∧ k ≤ N + 1)
  dout : 0 < k → k ≤ N → s.dout = m a (k - 1)
  g0 : 0 < k → k ≤ N → s.m0.reg.flushing = true ∧ s.m0.reg.last = decide (k = N) ∧ s.m0.reg.first = decide (k = 1) ∧
    (k = 1 → s.m0.reg.addr = a)
  data : 1 < k → k ≤ N + 1 → s.data = m a (k - 2)
  g1 : 1 < k → k ≤ N + 1 → s.m1.reg.flushing = true ∧ s.m1.reg.last = decide (k = N + 1) ∧ s.m1.reg.first = decide (k = 2) ∧
    (k = 2 → s.m1.reg.addr = a)

theorem fpos_zero (m : Nat → Nat → α) (a : Nat) (hN : 0 < N) (h : Idle s) : FPos N a m 0 s := by
  obtain ⟨h1, h2, h3, h4, h5, h6, h7, h8, h9⟩ := h
  constructor <;> simp_all

theorem fpos_ready {m : Nat → Nat → α} {a k : Nat} (h : FPos N a m k s) (hi : FlushIn N a k i) :
    daRd s i = s.m1.occ ∧ moRd s i = s.vld ∧ m1Rd s i = true ∧ m0Rd s i = true ∧ rEn s i = true := by
  obtain ⟨j1, j2, j3, j4, j5, j6⟩ := hi
  have hv : s.m1.occ = s.vld := by rw [h.m1, h.vld]
  have e1 : daRd s i = s.m1.occ := by
    cases ho : s.m1.occ
    · simp [daRd, ho]
    · have h1 := h.m1
      rw [ho] at h1
      have h1 := of_decide_eq_true h1.symm
      have := (h.g1 h1.1 h1.2).1
      have hf := (h.g1 h1.1 h1.2).2.2.1
      have hfa : rdFa s i = true := by
        by_cases hk : k = 2
        · simp [rdFa, j3 hk]
        · simp [rdFa, skipFa, ho, hf, hk]
      simp [daRd, ho, rdR, rdFd, hfa, skipR, this, j2]
  have e2 : moRd s i = s.vld := by
    rw [← hv]
    cases ho : s.m1.occ
    · rw [ho] at hv; simp [moRd, ← hv]
    · rw [ho] at hv
      rw [e1.symm.trans e1, ho] at e1
      simpa [moRd, daRd, ho, ← hv] using e1
  have e3 : m1Rd s i = true := by simp [m1Rd, stageRd, e2, hv]
  refine ⟨e1, e2, e3, by simp [m0Rd, stageRd, e3], ?_⟩
  simp only [rEn, h.ov, e1, hv]
  cases s.vld <;> rfl

/-- The dispatch of the two ports in the cycle `k`. -/
theorem fpos_disp {m : Nat → Nat → α} {a k : Nat} (hN : 0 < N) (h : FPos N a m k s) (hi : FlushIn N a k i) :
    disp s i = decide (k < N) ∧ (go s i && rEn s i) = decide (k < N) ∧ wAck s i = decide (k < N) ∧ daW s i = decide (k < N) ∧
    flushReq s i = decide (k = 0) := by
  obtain ⟨r1, r2, r3, r4, r5⟩ := fpos_ready h hi
  obtain ⟨j1, j2, j3, j4, j5, j6⟩ := hi
  have hrV := h.rV
  have hwV := h.wV
  by_cases hk : k = 0
  · obtain ⟨b1, b2, b3⟩ := j4 hk
    have b4 := j5 (by omega)
    subst hk
    simp at hrV hwV
    simp [disp, go, wAck, daW, flushReq, wAddrEn, dataEn, r4, r5, hrV, hwV, b1, b2, b4, hN]
  · by_cases hl : k < N
    · have e : decide (0 < k ∧ k < N) = true := by simp; omega
      rw [e] at hrV hwV
      simp [disp, go, wAck, daW, flushReq, dataEn, r4, r5, hrV, hwV, j5 hl, hl, hk]
    · have e : decide (0 < k ∧ k < N) = false := by simp; omega
      rw [e] at hrV hwV
      simp [disp, go, wAck, daW, flushReq, r5, hrV, hwV, j6 (by omega), j1, hl, hk]

theorem fpos_meta {m : Nat → Nat → α} {a k : Nat} (hN : 0 < N) (h : FPos N a m k s) (hi : FlushIn N a k i) (hk : k < N) :
    (metaIn N s i).flushing = true ∧ (metaIn N s i).last = decide (k + 1 = N) ∧ (metaIn N s i).first = decide (k = 0) ∧
    (k = 0 → (metaIn N s i).addr = a) ∧ dispItem s i = a ∧ dispWord s = k := by
  have hd := (fpos_disp hN h hi).2.2.2.2
  have hrV := h.rV
  have hwV := h.wV
  by_cases h0 : k = 0
  · obtain ⟨b1, b2, b3⟩ := hi.2.2.2.1 h0
    subst h0
    simp at hrV hwV hd
    have e : (N == 1) = decide (0 + 1 = N) := by rw [Bool.eq_iff_iff]; simp; omega
    simp only [metaIn, dispItem, dispWord, hrV, hwV, hd, b3, Bool.false_and, Bool.false_eq_true, if_false, if_true, Bool.not_false,
      Bool.and_self, e]
    simp
  · have e : decide (0 < k ∧ k < N) = true := by simp; omega
    rw [e] at hrV hwV
    have hF := h.wF (by omega) hk
    have hi' := h.rItem (by omega) hk
    have e1 : (N == 1 || k == N - 1) = decide (k + 1 = N) := by rw [Bool.eq_iff_iff]; simp; omega
    have e2 : (N == 1) = decide (k = 0) := by rw [Bool.eq_iff_iff]; simp; omega
    have hw := h.wWord
    have hr := h.rWord
    rw [if_pos hk] at hw hr
    simp only [metaIn, dispItem, dispWord, hrV, hwV, hF, hi', hw, hr, Bool.and_self, if_true, e1]
    simp [h0]
    omega

theorem fpos_next {m : Nat → Nat → α} {a k : Nat} (hN : 0 < N) (h : FPos N a m k s) (hi : FlushIn N a k i)
    (hm : ∀ j, k ≤ j → s.mem a j = m a j) : FPos N a m (k + 1) (next N s i) := by
  obtain ⟨r1, r2, r3, r4, r5⟩ := fpos_ready h hi
  obtain ⟨d1, d2, d3, d4, d5⟩ := fpos_disp hN h hi
  have hrW := h.rWord
  have hwW := h.wWord
  constructor
  · simp only [next, d1, hrW, d5, h.rV]
    by_cases hk : k < N
    · by_cases h0 : k = 0
      · subst h0; simp [hN]
      · have : (k = N - 1) ↔ ¬ (k + 1 < N) := by omega
        by_cases hl : k + 1 < N <;> simp [hk, h0, this, hl]
        omega
    · simp [hk]; omega
  · simp only [next, d3, hwW, h.wV]
    by_cases hk : k < N
    · by_cases h0 : k = 0
      · subst h0; simp [hN]
      · have : (k = N - 1) ↔ ¬ (k + 1 < N) := by omega
        by_cases hl : k + 1 < N <;> simp [hk, h0, this, hl]
        omega
    · simp [hk]; omega
  · intro _ hl
    have hk : k < N := by omega
    simp only [next, d3, hwW, hk, decide_true, if_true]
    by_cases h0 : k = 0
    · rw [if_pos h0]; exact (hi.2.2.2.1 h0).2.1
    · rw [if_neg h0, if_neg (by omega)]; exact h.wF (by omega) hk
  · simp only [next, d1, hrW]
    by_cases hk : k < N
    · by_cases h0 : k = 0
      · subst h0; simp [hN]
      · have : (k = N - 1) ↔ ¬ (k + 1 < N) := by omega
        by_cases hl : k + 1 < N <;> simp [hk, h0, this, hl]
    · simp [hk]; omega
  · simp only [next, d3, hwW]
    by_cases hk : k < N
    · by_cases h0 : k = 0
      · subst h0; simp [hN]
      · have : (k = N - 1) ↔ ¬ (k + 1 < N) := by omega
        by_cases hl : k + 1 < N <;> simp [hk, h0, this, hl]
    · simp [hk]; omega
  · intro _ hl
    have hk : k < N := by omega
    simp only [next, d1, hrW, hk, decide_true, if_true, Bool.true_and, d5]
    by_cases h0 : k = 0
    · simp [h0, (hi.2.2.2.1 h0).2.2]
    · simp [h0, h.rItem (by omega) hk]
  · intro _ hl
    have hk : k < N := by omega
    simp only [next, d3, hwW, hk, decide_true, if_true, Bool.true_and]
    by_cases h0 : k = 0
    · simp [h0, (hi.2.2.2.1 h0).2.2]
    · simp [h0, h.wItem (by omega) hk]
  · simp only [next, r1, h.ov, h.m1, h.vld]
    split <;> simp
  · simp only [next, d1]
    simp; omega
  · simp only [next, stageNext, d2, r3, h.m0]
    by_cases hk : k < N <;> by_cases h1 : 0 < k ∧ k ≤ N <;> simp [hk, h1] <;> omega
  · simp only [next, r1, h.ov, h.m1, h.vld, h.pend]
    by_cases h1 : 0 < k ∧ k ≤ N <;> by_cases h2 : 1 < k ∧ k ≤ N + 1 <;> simp [h1, h2]
  · simp only [next, stageNext, r2, h.m0, h.vld, h.m1]
    by_cases h1 : 0 < k ∧ k ≤ N <;> by_cases h2 : 1 < k ∧ k ≤ N + 1 <;> simp [h1, h2]
  · intro _ hl
    have hk : k < N := by omega
    obtain ⟨_, _, _, _, b5, b6⟩ := fpos_meta hN h hi hk
    simp only [next, d1, hk, decide_true, if_true, b5, b6]
    exact hm k (Nat.le_refl k)
  · intro _ hl
    have hk : k < N := by omega
    obtain ⟨b1, b2, b3, b4, _, _⟩ := fpos_meta hN h hi hk
    have hw : HsReg.stageWe s.m0 (go s i && rEn s i) (m1Rd s i) = true := by
      simp only [HsReg.stageWe, d2, r3, hk]; simp
    simp only [next, stageNext, hw, if_true]
    exact ⟨b1, b2, by simpa using b3, fun h => b4 (by omega)⟩
  · intro hl1 hl2
    have hp := h.pend
    have e : decide (0 < k ∧ k ≤ N) = true := by simp; omega
    rw [e] at hp
    simp only [next, hp, if_true, r1, h.m1, h.vld, h.dout (by omega) (by omega)]
    by_cases h2 : 1 < k ∧ k ≤ N + 1 <;> simp [h2]
  · intro hl1 hl2
    have hp := h.m0
    have e : decide (0 < k ∧ k ≤ N) = true := by simp; omega
    rw [e] at hp
    have hw : HsReg.stageWe s.m1 s.m0.occ (moRd s i) = true := by
      simp only [HsReg.stageWe, hp, r2, h.m1, h.vld]
      by_cases h2 : 1 < k ∧ k ≤ N + 1 <;> simp [h2]
    obtain ⟨b1, b2, b3, b4⟩ := h.g0 (by omega) (by omega)
    simp only [next, stageNext, hw, if_true]
    exact ⟨b1, by simpa using b2, by simpa using b3, fun h => b4 (by omega)⟩

theorem fpos_out {m : Nat → Nat → α} {a k : Nat} (hN : 0 < N) (h : FPos N a m k s) (hi : FlushIn N a k i) :
    (out s i).rValid = false ∧ (out s i).fdValid = decide (1 < k ∧ k ≤ N + 1) ∧ (out s i).faValid = decide (k = 2) ∧
    (i.wVld && (out s i).wRd) = decide (k = 0) ∧ (i.dVld && (out s i).dRd) = decide (k < N) := by
  obtain ⟨r1, r2, r3, r4, r5⟩ := fpos_ready h hi
  have hwV := h.wV
  have hrV := h.rV
  have hm := h.m1
  have hv := h.vld
  refine ⟨?_, ?_, ?_, ?_, ?_⟩
  · by_cases h1 : 1 < k ∧ k ≤ N + 1
    · simp [out, (h.g1 h1.1 h1.2).1]
    · simp [out, hv, h1]
  · by_cases h1 : 1 < k ∧ k ≤ N + 1
    · have e := (h.g1 h1.1 h1.2).1
      simp only [h1, decide_true, and_self] at hm hv
      have hfa : rdFa s i = true := by
        by_cases hk : k = 2
        · simp [rdFa, hi.2.2.1 hk]
        · simp [rdFa, skipFa, hm, (h.g1 h1.1 h1.2).2.2.1, hk]
      simp [out, hv, hm, e, rdR, hfa, skipR, skipFd, h1]
    · simp [out, hv, h1]
  · by_cases h1 : 1 < k ∧ k ≤ N + 1
    · obtain ⟨e, _, e3, _⟩ := h.g1 h1.1 h1.2
      simp only [h1, decide_true, and_self] at hm hv
      simp [out, hv, hm, e, e3, rdR, rdFd, skipR, skipFa, hi.2.1]
    · simp only [out, hv, h1]
      simp; omega
  · by_cases h0 : k = 0
    · obtain ⟨b1, b2, b3⟩ := hi.2.2.2.1 h0
      have b4 := hi.2.2.2.2.1 (by omega)
      subst h0
      simp at hwV hrV
      simp [out, b1, b4, wAddrEn, hwV, hrV, r4, r5]
    · by_cases hk : k < N
      · have e : decide (0 < k ∧ k < N) = true := by simp; omega
        rw [e] at hwV
        simp [out, hwV, h0]
      · simp [hi.2.2.2.2.2 (by omega), h0]
  · by_cases h0 : k = 0
    · obtain ⟨b1, b2, b3⟩ := hi.2.2.2.1 h0
      have b4 := hi.2.2.2.2.1 (by omega)
      subst h0
      simp at hwV hrV
      simp [out, b1, b4, dataEn, hwV, hN]
    · by_cases hk : k < N
      · have e : decide (0 < k ∧ k < N) = true := by simp; omega
        rw [e] at hwV
        simp [out, hwV, dataEn, hk, hi.2.2.2.2.1 hk]
      · have e : decide (0 < k ∧ k < N) = false := by simp; omega
        rw [e] at hwV
        simp [out, hwV, hk, hi.2.2.2.2.2 (by omega)]

theorem flush_run (hN : 0 < N) (a : Nat) (s0 : St α ι) (h0 : Idle s0) (is : List (In α ι))
    (hi : ∀ k i, is[k]? = some i → FlushIn N a k i) :
    FPos N a s0.mem is.length ((machine N).final s0 is) ∧
    (∀ x y, ((machine N).final s0 is).mem x y = match is[y]? with
      | some i => if x = a ∧ y < N then i.dUpd (s0.mem x y) else s0.mem x y
      | none => s0.mem x y) ∧
    flushed ((machine N).trace s0 is) = (List.range (min N (is.length - 2))).map (fun j => (s0.mem a j, decide (j + 1 = N))) ∧
    flushAddrs ((machine N).trace s0 is) = given (decide (2 < is.length)) a ∧
    delivered ((machine N).trace s0 is) = [] ∧
    wAddrs ((machine N).trace s0 is) = given (decide (0 < is.length)) a ∧
    (beats ((machine N).trace s0 is)).length = min N is.length := by
  induction is using List.reverseRecOn with
  | nil =>
    refine ⟨fpos_zero _ a hN h0, ?_, ?_, rfl, rfl, rfl, ?_⟩
    · intro x y; rfl
    · simp [flushed]
    · simp [beats]
  | append_singleton is i ih =>
    obtain ⟨k1, k2, k3, k4, k5, k6, k7⟩ := ih (fun k j hk => hi k j (by
      have := (List.getElem?_eq_some_iff.1 hk).1
      rw [List.getElem?_append_left this]; exact hk))
    have hin : FlushIn N a is.length i := hi _ _ (by simp)
    rw [Machine.trace_snoc, Machine.final_append]
    have eo : (machine N).outAfter s0 is i = out ((machine N).final s0 is) i := rfl
    have en : (machine N).final ((machine N).final s0 is) [i] = next N ((machine N).final s0 is) i := rfl
    rw [eo, en]
    generalize (machine N).final s0 is = s at *
    generalize (machine N).trace s0 is = tr at *
    obtain ⟨o1, o2, o3, o4, o5⟩ := fpos_out hN k1 hin
    have hmem : ∀ j, is.length ≤ j → s.mem a j = s0.mem a j := by
      intro j hj
      rw [k2, List.getElem?_eq_none hj]
    refine ⟨?_, ?_, ?_, ?_, ?_, ?_, ?_⟩
    · rw [List.length_append]
      exact fpos_next hN k1 hin hmem
    · intro x y
      have hd := (fpos_disp hN k1 hin).2.2.2.1
      simp only [next, hd]
      by_cases hk : is.length < N
      · have e1 : wIt s i = a := by
          unfold wIt
          rw [k1.wV]
          by_cases h0 : is.length = 0
          · simp [h0, (hin.2.2.2.1 h0).2.2]
          · rw [if_pos (by simp; omega)]
            exact k1.wItem (by omega) hk
        have e2 : wWd s = is.length := by
          unfold wWd
          rw [k1.wV, k1.wWord]
          by_cases h0 : is.length = 0
          · simp [h0]
          · rw [if_pos (by simp; omega), if_pos hk]
        simp only [hk, decide_true, if_true, e1, e2, updW]
        by_cases hx : x = a
        · subst hx
          rw [upd_same]
          by_cases hy : y = is.length
          · subst hy
            rw [upd_same, hmem _ (Nat.le_refl _)]
            simp [hk]
          · rw [upd_ne _ _ _ _ hy, k2]
            by_cases hlt : y < is.length
            · rw [List.getElem?_append_left hlt]
            · rw [List.getElem?_eq_none (by omega), List.getElem?_eq_none (by simp; omega)]
        · rw [upd_ne _ _ _ _ hx, k2]
          by_cases hlt : y < is.length
          · rw [List.getElem?_append_left hlt]
          · rw [List.getElem?_eq_none (by omega)]
            show s0.mem x y = _
            split <;> simp [hx]
      · simp only [hk, decide_false, Bool.false_eq_true, if_false]
        rw [k2]
        by_cases hlt : y < is.length
        · rw [List.getElem?_append_left hlt]
        · rw [List.getElem?_eq_none (by omega)]
          have : ¬ (x = a ∧ y < N) := by omega
          show s0.mem x y = _
          split
          · rw [if_neg this]
          · rfl
    · unfold flushed at k3 ⊢
      rw [filterMap_snoc_ite, k3]
      simp only [o2, hin.2.1, Bool.and_true, List.length_append, List.length_singleton]
      by_cases h1 : 1 < is.length ∧ is.length ≤ N + 1
      · have hd := k1.data h1.1 h1.2
        have hl := (k1.g1 h1.1 h1.2).2.1
        rw [show min N (is.length + 1 - 2) = min N (is.length - 2) + 1 by omega, List.range_succ, List.map_append]
        congr 1
        simp only [h1, and_self, decide_true, given_true, List.map_cons, List.map_nil, out, hd, hl]
        have : min N (is.length - 2) = is.length - 2 := by omega
        rw [this]
        congr 2
        rw [Bool.eq_iff_iff]; simp; omega
      · rw [show min N (is.length + 1 - 2) = min N (is.length - 2) by omega]
        simp [h1, given_false]
    · unfold flushAddrs at k4 ⊢
      rw [filterMap_snoc_ite, k4]
      simp only [o3, List.length_append, List.length_singleton]
      by_cases h2 : is.length = 2
      · rw [hin.2.2.1 h2]
        have := (k1.g1 (by omega) (by omega)).2.2.2 h2
        simp [h2, given_true, given_false, out, this]
      · have : decide (2 < is.length + 1) = decide (2 < is.length) := by rw [Bool.eq_iff_iff]; simp; omega
        simp [h2, given_false, this]
    · unfold delivered at k5 ⊢
      rw [filterMap_snoc_ite, k5]
      simp [o1, given_false]
    · unfold wAddrs at k6 ⊢
      rw [filterMap_snoc_ite, k6]
      simp only [o4, List.length_append, List.length_singleton]
      by_cases h2 : is.length = 0
      · simp [h2, given_true, given_false, (hin.2.2.2.1 h2).2.2]
      · have : 0 < is.length := by omega
        simp [h2, given_false, this]
    · unfold beats at k7 ⊢
      rw [filterMap_snoc_ite, List.length_append, k7]
      simp only [o5, List.length_append, List.length_singleton]
      by_cases hk : is.length < N
      · simp [hk, given_true]; omega
      · simp [hk, given_false]; omega

end

end Verif.RamTrans
