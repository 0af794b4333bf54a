import Verif.Fifo
/-!
# Model of `FifoDrop` (hwtLib/mem/fifoDrop.py)
-/
namespace Verif.FifoDrop

open Ring
open Fifo (incPtr cntMod incPtr_eq lt_cntMod)

universe u
variable {α : Type u}

/-- Registers and memory of `FifoDrop`: mem/fifoDrop.py:104 `memory`, :106 `wr_ptr`,
:109 `wr_ptr_tmp`, :110 `rd_ptr`, :151 `looped`, :153 `looped_tmp`, :159 `dout.data` (driven on a
clock edge), :199 `stash_size_reg`, :211 `size_reg`, :226 `space_reg`.
Simplification: the optional counters are always present. -/
structure St (α : Type u) where
  wr : Nat
  wrT : Nat
  rd : Nat
  looped : Bool
  loopedT : Bool
  mem : Nat → α
  dout : α
  stash : Nat
  size : Nat
  space : Nat

/-- Ports driven by the environment: `dataIn.{en,data,commit,discard}` and `dataOut.en`
(mem/fifoDrop.py:33-36, :91-92). -/
structure In (α : Type u) where
  wen : Bool
  data : α
  commit : Bool
  discard : Bool
  ren : Bool

/-- Ports driven by the component. -/
structure Out (α : Type u) where
  wwait : Bool
  rwait : Bool
  data : α
  size : Nat
  space : Nat

/-- mem/fifoDrop.py:180-188 -/
def writeWait (s : St α) : Bool := if s.wrT == s.rd then (if s.loopedT then true else false) else false

/-- mem/fifoDrop.py:189-197 -/
def readWait (s : St α) : Bool := if s.wr == s.rd then (if s.looped then false else true) else false

/-- mem/fifoDrop.py:155 -/
def fifoRead (s : St α) (i : In α) : Bool := i.ren && (s.looped || s.wr != s.rd)

/-- mem/fifoDrop.py:163 -/
def fifoWrite (s : St α) (i : In α) : Bool := i.wen && (!s.loopedT || s.wrT != s.rd)

/-- mem/fifoDrop.py:129-136, `wr_ptr_tmp.next` -/
def nextWrT (D : Nat) (s : St α) (i : In α) : Nat :=
  if i.discard then s.wr else if fifoWrite s i then incPtr D s.wrT else s.wrT

/-- mem/fifoDrop.py:129,137-139 -/
def nextWr (D : Nat) (s : St α) (i : In α) : Nat :=
  if i.discard then s.wr
  else if fifoWrite s i then (if i.commit then nextWrT D s i else s.wr) else s.wr

/-- mem/fifoDrop.py:171-177, `looped_tmp.next` -/
def nextLoopedT (D : Nat) (s : St α) (i : In α) : Bool :=
  if i.discard then s.looped
  else if i.wen && s.wrT == D - 1 then true
  else if i.ren && s.rd == D - 1 then false
  else s.loopedT

/-- mem/fifoDrop.py:166-170 -/
def nextLooped (D : Nat) (s : St α) (i : In α) : Bool :=
  if i.wen && i.commit then nextLoopedT D s i
  else if i.ren && s.rd == D - 1 then false
  else s.looped

/-- mem/fifoDrop.py:200-208 -/
def nextStash (D : Nat) (s : St α) (i : In α) : Nat :=
  if i.discard then 0
  else if fifoWrite s i then (if i.commit then 0 else (s.stash + 1) % cntMod D) else s.stash

/-- mem/fifoDrop.py:212-222 -/
def nextSize (D : Nat) (s : St α) (i : In α) : Nat :=
  if fifoRead s i then
    if fifoWrite s i && i.commit then (s.size + s.stash) % cntMod D
    else (s.size + (cntMod D - 1)) % cntMod D
  else if fifoWrite s i && i.commit then (s.size + s.stash + 1) % cntMod D else s.size

/-- mem/fifoDrop.py:227-239 -/
def nextSpace (D : Nat) (s : St α) (i : In α) : Nat :=
  if fifoRead s i then
    if i.discard then (s.space + (cntMod D - s.stash % cntMod D)) % cntMod D
    else if fifoWrite s i then (s.space + (cntMod D - 1)) % cntMod D
    else (s.space + 1) % cntMod D
  else if i.discard then (s.space + (cntMod D - s.stash % cntMod D)) % cntMod D
  else s.space

/-- Clock edge of `FifoDrop.hwImpl`, mem/fifoDrop.py:97-240. -/
def next (D : Nat) (s : St α) (i : In α) : St α where
  wr := nextWr D s i
  wrT := nextWrT D s i
  rd := if fifoRead s i then incPtr D s.rd else s.rd
  looped := nextLooped D s i
  loopedT := nextLoopedT D s i
  mem := if fifoWrite s i then upd s.mem s.wrT i.data else s.mem
  dout := if fifoRead s i then s.mem s.rd else s.dout
  stash := nextStash D s i
  size := nextSize D s i
  space := nextSpace D s i

/-- mem/fifoDrop.py:180-197, :223 (`size + stash_size`), :240 -/
def out (D : Nat) (s : St α) : Out α where
  wwait := writeWait s
  rwait := readWait s
  data := s.dout
  size := (s.size + s.stash) % cntMod D
  space := s.space

/-- The `FifoDrop` component of depth `D`. -/
def machine (D : Nat) : Machine (St α) (In α) (Out α) where
  out s _ := out D s
  next := next D

/-- Reset values, mem/fifoDrop.py:106-110,151-153,199,211,226; memory and output register start with
arbitrary contents. -/
def init (D : Nat) (mem0 : Nat → α) (d0 : α) : St α :=
  ⟨0, 0, 0, false, false, mem0, d0, 0, 0, D⟩

/-! ## Observables -/

/-- Documented protocol of the ports (mem/fifoDrop.py:22-28, :78-80): the reader enables only without
wait; the writer enables only without wait, except that it may discard at any time; commit only
together with `en`, and never together with discard. -/
def Proto (e : In α × Out α) : Prop :=
  (e.1.ren = true → e.2.rwait = false) ∧
  (e.1.wen = true → e.2.wwait = false ∨ e.1.discard = true) ∧
  (e.1.commit = true → e.1.wen = true ∧ e.1.discard = false)

instance (e : In α × Out α) : Decidable (Proto e) := by unfold Proto; infer_instance

/-- Specification: the words of committed chunks, given the chunk `st` being assembled. -/
def committed (st : List α) : List (In α × Out α) → List α
  | [] => []
  | e :: t =>
    if e.1.discard then committed [] t
    else if e.1.wen then
      if e.1.commit then st ++ [e.1.data] ++ committed [] t
      else committed (st ++ [e.1.data]) t
    else committed st t

/-- Specification: the chunk being assembled (written, neither committed nor discarded). -/
def pending (st : List α) : List (In α × Out α) → List α
  | [] => st
  | e :: t =>
    if e.1.discard then pending [] t
    else if e.1.wen then
      if e.1.commit then pending [] t else pending (st ++ [e.1.data]) t
    else pending st t

/-- Number of cycles with `dataOut.en`. -/
def reads (tr : List (In α × Out α)) : Nat := tr.countP fun e => e.1.ren

/-- Words obtained by the reader: `dataOut.data` of the cycle following a cycle with `en`. -/
def delivered : List (In α × Out α) → List α
  | [] => []
  | [_] => []
  | e :: e' :: t => if e.1.ren then e'.2.data :: delivered (e' :: t) else delivered (e' :: t)

/-- `k` reads were done before; no discard coincides with the read of the last memory cell
(i.e. with a read whose ordinal is `-1` modulo the depth). -/
def NoWrapDiscard (D : Nat) : Nat → List (In α) → Prop
  | _, [] => True
  | k, i :: t => ¬ (i.discard = true ∧ i.ren = true ∧ (k + 1) % D = 0) ∧
      NoWrapDiscard D (k + i.ren.toNat) t

instance NoWrapDiscard.dec (D : Nat) : ∀ (k : Nat) (l : List (In α)), Decidable (NoWrapDiscard D k l)
  | _, [] => isTrue trivial
  | k, i :: t => by
    unfold NoWrapDiscard
    have := NoWrapDiscard.dec D (k + i.ren.toNat) t
    infer_instance

/-! ## Invariant (proof internals) -/

/-- `c` committed words and `t` words in total are stored. -/
structure Inv (D : Nat) (s : St α) (c t : Nat) : Prop where
  rd_lt : s.rd < D
  c_le : c ≤ t
  t_le : t ≤ D
  wr_eq : s.wr = idx D s.rd c
  wrT_eq : s.wrT = idx D s.rd t
  looped_eq : s.looped = decide (D ≤ s.rd + c)
  loopedT_eq : s.loopedT = decide (D ≤ s.rd + t)
  stash_eq : s.stash = t - c
  size_eq : s.size = c

theorem readWait_iff {D c t : Nat} {s : St α} (h : Inv D s c t) : readWait s = true ↔ c = 0 := by
  have := h.rd_lt; have := h.c_le; have := h.t_le
  unfold readWait
  rw [h.wr_eq, h.looped_eq]
  unfold idx
  by_cases h1 : D ≤ s.rd + c
  · have : ¬ s.rd + c < D := by omega
    simp [h1, this]; omega
  · have : s.rd + c < D := by omega
    simp [h1, this]

theorem writeWait_iff {D c t : Nat} {s : St α} (h : Inv D s c t) : writeWait s = true ↔ t = D := by
  have := h.rd_lt; have := h.c_le; have := h.t_le
  unfold writeWait
  rw [h.wrT_eq, h.loopedT_eq]
  unfold idx
  by_cases h1 : D ≤ s.rd + t
  · have : ¬ s.rd + t < D := by omega
    simp [h1, this]; omega
  · have : s.rd + t < D := by omega
    simp [h1, this]; omega

theorem fifoRead_eq {D : Nat} {s : St α} {i : In α} (hp : Proto (i, out D s)) : fifoRead s i = i.ren := by
  unfold fifoRead
  cases hr : i.ren
  · simp
  · have := hp.1 hr
    simp only [out, readWait] at this
    revert this
    cases s.looped <;> simp

/-- A word enters the memory as a stashed or committed word. -/
def acc (i : In α) : Bool := i.wen && !i.discard

theorem fifoWrite_eq {D : Nat} {s : St α} {i : In α} (hp : Proto (i, out D s))
    (hd : i.discard = false) : fifoWrite s i = i.wen := by
  unfold fifoWrite
  cases hr : i.wen
  · simp
  · have := hp.2.1 hr
    simp only [out, writeWait, hd] at this
    revert this
    cases s.loopedT <;> simp

theorem c_pos {D c t : Nat} {s : St α} {i : In α} (h : Inv D s c t) (hp : Proto (i, out D s))
    (hr : i.ren = true) : 0 < c := by
  have h1 := hp.1 hr
  have h2 := readWait_iff h
  simp only [out] at h1
  rw [h1] at h2
  simp at h2; omega

theorem t_lt {D c t : Nat} {s : St α} {i : In α} (h : Inv D s c t) (hp : Proto (i, out D s))
    (hw : i.wen = true) (hd : i.discard = false) : t < D := by
  have h1 := hp.2.1 hw
  have h2 := writeWait_iff h
  have := h.t_le
  simp only [out, hd] at h1
  simp at h1
  rw [h1] at h2
  simp at h2; omega

theorem t_lt' {D c t : Nat} {s : St α} {i : In α} (h : Inv D s c t) (hw : fifoWrite s i = true) :
    t < D := by
  have h2 := writeWait_iff h
  have := h.t_le
  rcases Nat.lt_or_ge t D with hc | hc
  · exact hc
  exfalso
  have : t = D := by omega
  have := h2.2 this
  revert hw this
  unfold fifoWrite writeWait
  cases s.loopedT <;> simp

/-- Number of committed words after the edge. -/
def cN (i : In α) (c t : Nat) : Nat := (if i.commit then t + 1 else c) - i.ren.toNat
/-- Number of stored words after the edge. -/
def tN (i : In α) (c t : Nat) : Nat := (if i.discard then c else t + i.wen.toNat) - i.ren.toNat

theorem looped_pop {D rd n : Nat} (_h : rd < D) (hn : 0 < n) (hn' : n ≤ D) :
    decide (D ≤ inc D rd + (n - 1)) = (if rd + 1 = D then false else decide (D ≤ rd + n)) := by
  unfold inc
  by_cases h1 : rd + 1 = D
  · simp [h1]; omega
  · simp [h1]; omega

theorem looped_push {D rd n : Nat} (h : rd < D) (hn : n < D) :
    decide (D ≤ rd + (n + 1)) = (if idx D rd n + 1 = D then true else decide (D ≤ rd + n)) := by
  unfold idx
  by_cases h1 : rd + n < D
  · by_cases h2 : rd + n + 1 = D
    · simp [h1, h2]; omega
    · simp [h1, h2]; omega
  · have : ¬ rd + n - D + 1 = D := by omega
    simp [h1, this]; omega

theorem idx_pop {D rd n : Nat} (h : rd < D) (hn : 0 < n) (hn' : n ≤ D) :
    idx D (inc D rd) (n - 1) = idx D rd n := by
  rw [idx_inc h (by omega)]; congr 1; omega

theorem dec_mod {M n : Nat} (h0 : 0 < n) (h : n < M) : (n + (M - 1)) % M = n - 1 := by
  rw [show n + (M - 1) = (n - 1) + M by omega, Nat.add_mod_right, Nat.mod_eq_of_lt (by omega)]

set_option maxHeartbeats 800000 in
theorem step_inv {D c t : Nat} {s : St α} {i : In α} (h : Inv D s c t) (hp : Proto (i, out D s))
    (hnw : ¬ (i.discard = true ∧ i.ren = true ∧ s.rd + 1 = D)) :
    Inv D (next D s i) (cN i c t) (tN i c t) := by
  have e1 := fifoRead_eq hp
  have e2 := fun q => fifoWrite_eq hp q
  have f1 := fun q => c_pos h hp q
  have f2 := fun q q' => t_lt h hp q q'
  have f3 := hp.2.2
  obtain ⟨a1, a2, a3, a4, a5, a6, a7, a8, a9⟩ := h
  have hm := lt_cntMod D
  have i1 : incPtr D s.rd = inc D s.rd := incPtr_eq a1
  have i2 : incPtr D s.wrT = inc D s.wrT := incPtr_eq (by rw [a5]; exact idx_lt a1 a3)
  obtain ⟨wen, data, commit, discard, ren⟩ := i
  obtain ⟨wr, wrT, rd, looped, loopedT, mem, dout, stash, size, space⟩ := s
  simp only at *
  have k2 : rd = D - 1 ↔ rd + 1 = D := by omega
  have k1 : wrT = D - 1 ↔ wrT + 1 = D := by
    have : wrT < D := by rw [a5]; exact idx_lt a1 a3
    omega
  have m1 := inc_lt a1
  have g1 := fun q : 0 < c => looped_pop a1 q (by omega)
  have g2 := fun q : 0 < t => looped_pop a1 q (by omega)
  have g3 := fun q : t < D => looped_push a1 q
  have g4 := fun q : t < D => looped_pop (n := t + 1) a1 (by omega) (by omega)
  have j1 := fun q : 0 < c => idx_pop a1 q (by omega)
  have j2 := fun q : 0 < t => idx_pop a1 q (by omega)
  have j3 := fun q : t < D => idx_pop (n := t + 1) a1 (by omega) (by omega)
  have j4 := fun q : t < D => inc_idx a1 q
  have q1 := fun q : 0 < c => dec_mod (M := cntMod D) q (by omega)
  have g5 : 0 < c → t < D → (if wrT + 1 = D then true else if rd + 1 = D then false
      else decide (D ≤ rd + t)) = (if rd + 1 = D then false else if wrT + 1 = D then true
      else decide (D ≤ rd + t)) := by
    intro hc ht
    by_cases h1 : rd + 1 = D
    · have : ¬ wrT + 1 = D := by
        rw [a5]; unfold idx; split <;> omega
      simp [h1, this]
    · simp [h1]
  rw [← a5] at g3 j4
  cases discard <;> cases wen <;> cases commit <;> cases ren <;>
    simp at e2 f1 f2 f3 hnw <;>
    (constructor <;>
      simp only [next, nextWr, nextWrT, nextLooped, nextLoopedT, nextStash, nextSize, e1, e2, cN, tN,
        i1, i2, Bool.false_eq_true, if_true, if_false, Bool.toNat_true, Bool.toNat_false,
        Bool.and_true, Bool.and_false, Bool.true_and, Bool.false_and, Nat.add_zero, Nat.sub_zero,
        beq_iff_eq, k1, k2]) <;>
    first
    | assumption
    | exact a1
    | (rw [a6, g1 f1, if_neg hnw]; done)
    | (rw [a6, g1 f1]; done)
    | (rw [a7, g2 (by omega)]; done)
    | (rw [a7, g3 f2]; done)
    | (rw [a9, q1 f1]; done)
    | (rw [a7, g4 f2, g3 f2, g5 f1 f2]; done)
    | (rw [j1 f1]; assumption)
    | (rw [j2 (by omega)]; assumption)
    | (rw [j3 f2]; exact j4 f2)
    | exact j4 f2
    | (rw [Nat.mod_eq_of_lt (by omega)]; omega)
    | (clear g1 g2 g3 g4 g5 j1 j2 j3 j4 q1; omega)

/-- Concatenation of adjacent windows. -/
theorem window_add (mem : Nat → α) {D r a b : Nat} (hr : r < D) (h : a + b ≤ D) :
    window mem D r (a + b) = window mem D r a ++ window mem D (idx D r a) b := by
  unfold window
  rw [List.range_add, List.map_append, List.map_map]
  congr 1
  apply List.map_congr_left
  intro k hk
  simp only [List.mem_range] at hk
  simp only [Function.comp]
  congr 1
  unfold idx
  split <;> split <;> (try split) <;> omega

/-- Committed words stored. -/
def com (D : Nat) (s : St α) (c : Nat) : List α := window s.mem D s.rd c
/-- Uncommitted words stored. -/
def sta (D : Nat) (s : St α) (c t : Nat) : List α := window s.mem D (idx D s.rd c) (t - c)

theorem step_mem {D c t : Nat} {s : St α} {i : In α} (h : Inv D s c t) (n : Nat) (hn : n ≤ t) :
    window (next D s i).mem D s.rd n = window s.mem D s.rd n := by
  show window (if fifoWrite s i then upd s.mem s.wrT i.data else s.mem) D s.rd n = _
  cases hw : fifoWrite s i
  · rfl
  · have ht := t_lt' h hw
    simp only [if_true]
    apply window_upd
    intro k hk e
    rw [h.wrT_eq] at e
    have := idx_inj h.rd_lt (by omega) ht e
    omega

theorem step_mem_push {D c t : Nat} {s : St α} {i : In α} (h : Inv D s c t) (hp : Proto (i, out D s))
    (hd : i.discard = false) :
    window (next D s i).mem D s.rd (t + i.wen.toNat) = window s.mem D s.rd t ++ given i.wen i.data := by
  show window (if fifoWrite s i then upd s.mem s.wrT i.data else s.mem) D s.rd _ = _
  rw [fifoWrite_eq hp hd]
  cases hw : i.wen
  · simp
  · simp only [if_true, Bool.toNat_true, given_true]
    rw [h.wrT_eq]
    exact window_push _ h.rd_lt (t_lt h hp hw hd)

/-- Popping a word by the reader. -/
theorem step_pop {D c t : Nat} {s : St α} {i : In α} (h : Inv D s c t) (hp : Proto (i, out D s))
    (n : Nat) (hcn : c ≤ n) (hn : n ≤ D) :
    window (next D s i).mem D s.rd n =
      given i.ren (next D s i).dout ++ window (next D s i).mem D (next D s i).rd (n - i.ren.toNat) := by
  have e1 := fifoRead_eq hp
  cases hr : i.ren
  · have : (next D s i).rd = s.rd := by simp [next, e1, hr]
    simp [this]
  · have hc := c_pos h hp hr
    have ht := h.c_le
    have h1 : (next D s i).rd = inc D s.rd := by simp [next, e1, hr, incPtr_eq h.rd_lt]
    have h2 : (next D s i).dout = s.mem s.rd := by simp [next, e1, hr]
    rw [show n = (n - 1) + 1 by omega, window_pop h.rd_lt (by omega), h1, h2]
    simp only [given_true, Bool.toNat_true, List.singleton_append]
    congr 1
    have := step_mem (i := i) h 1 (by omega)
    simpa [window, idx_zero h.rd_lt] using this

/-- The chunk being assembled after the cycle. -/
def staN (i : In α) (st : List α) : List α :=
  if i.discard then [] else if i.wen then (if i.commit then [] else st ++ [i.data]) else st

/-- The words committed in the cycle. -/
def comN (i : In α) (st : List α) : List α := if i.commit then st ++ [i.data] else []

/-- One clock cycle in terms of the stored words. -/
theorem step_words {D c t : Nat} {s : St α} {i : In α} (h : Inv D s c t) (hp : Proto (i, out D s))
    (hnw : ¬ (i.discard = true ∧ i.ren = true ∧ s.rd + 1 = D)) :
    com D s c ++ comN i (sta D s c t) =
        given i.ren (next D s i).dout ++ com D (next D s i) (cN i c t) ∧
    sta D (next D s i) (cN i c t) (tN i c t) = staN i (sta D s c t) := by
  have h' := step_inv h hp hnw
  have hcom := hp.2.2
  have hct := h.c_le
  have htD := h.t_le
  have f1 := fun q => c_pos h hp q
  have f2 := fun q q' => t_lt h hp q q'
  have hrl : i.ren.toNat ≤ c := by cases hr : i.ren <;> simp [hr] at f1 ⊢; omega
  have hwl : i.discard = false → t + i.wen.toNat ≤ D := by
    intro hd; cases hw : i.wen <;> simp [hw, hd] at f2 ⊢ <;> omega
  have hall : window s.mem D s.rd t = com D s c ++ sta D s c t := by
    unfold com sta
    rw [← window_add s.mem h.rd_lt (by omega)]; congr 1; omega
  have hcm : com D s c = window (next D s i).mem D s.rd c := (step_mem h c hct).symm
  -- the reader's pointer seen from the old one
  have hidx : ∀ n, c ≤ n → n ≤ D → idx D (next D s i).rd (n - i.ren.toNat) = idx D s.rd n := by
    intro n h1 h2
    have e1 := fifoRead_eq hp
    cases hr : i.ren
    · have : (next D s i).rd = s.rd := by simp [next, e1, hr]
      simp [this]
    · have : (next D s i).rd = inc D s.rd := by simp [next, e1, hr, incPtr_eq h.rd_lt]
      have := f1 hr
      simp only [Bool.toNat_true]
      rw [‹(next D s i).rd = _›, idx_pop h.rd_lt (by omega) h2]
  cases hd : i.discard
  · have hpush := step_mem_push h hp hd
    rw [hall] at hpush
    have hwl := hwl hd
    cases hc : i.commit
    · -- plain write or no write
      have hcN : cN i c t = c - i.ren.toNat := by simp [cN, hc]
      have htN : tN i c t = t + i.wen.toNat - i.ren.toNat := by simp [tN, hd]
      refine ⟨?_, ?_⟩
      · rw [hcN, hcm, step_pop h hp c (Nat.le_refl _) (by omega)]
        simp [comN, hc, com]
      · unfold sta
        rw [hcN, htN, hidx c (Nat.le_refl _) (by omega)]
        have hsplit := window_add (next D s i).mem (r := s.rd) (a := c) (b := t + i.wen.toNat - c)
          h.rd_lt (by omega)
        rw [show c + (t + i.wen.toNat - c) = t + i.wen.toNat by omega, hpush, ← hcm,
          List.append_assoc] at hsplit
        have := List.append_cancel_left hsplit
        rw [show t + i.wen.toNat - i.ren.toNat - (c - i.ren.toNat) = t + i.wen.toNat - c by omega,
          ← this]
        simp only [staN, hd, hc]
        cases i.wen <;> simp [sta]
    · have hw : i.wen = true := (hcom hc).1
      have hcN : cN i c t = t + i.wen.toNat - i.ren.toNat := by simp [cN, hc, hw]
      have htN : tN i c t = t + i.wen.toNat - i.ren.toNat := by simp [tN, hd]
      refine ⟨?_, ?_⟩
      · rw [hcN]
        unfold com
        rw [← step_pop h hp (t + i.wen.toNat) (by omega) hwl, hpush]
        simp [comN, hc, hw, com]
      · rw [hcN, htN]
        simp [sta, staN, hd, hw, hc]
  · have hc : i.commit = false := by
      cases hc : i.commit
      · rfl
      · have := (hcom hc).2; rw [hd] at this; cases this
    have hcN : cN i c t = c - i.ren.toNat := by simp [cN, hc]
    have htN : tN i c t = c - i.ren.toNat := by simp [tN, hd]
    refine ⟨?_, ?_⟩
    · rw [hcN, hcm, step_pop h hp c (Nat.le_refl _) (by omega)]
      simp [comN, hc, com]
    · rw [hcN, htN]; simp [sta, staN, hd]

theorem init_inv {D : Nat} (hD : 0 < D) (mem0 : Nat → α) (d0 : α) :
    Inv D (init D mem0 d0) 0 0 := by
  constructor <;> simp [init, idx] <;> omega

/-- Main lemma over runs. `k` counts the reads, `k % D` is the read pointer. -/
theorem trace_words {D : Nat} : ∀ (is : List (In α)) (s : St α) (c t k : Nat), Inv D s c t →
    s.rd = k % D → (∀ e ∈ (machine D).trace s is, Proto e) → NoWrapDiscard D k is →
    ∃ c' t', Inv D ((machine D).final s is) c' t' ∧
    sta D ((machine D).final s is) c' t' = pending (sta D s c t) ((machine D).trace s is) ∧
    ∃ del, com D s c ++ committed (sta D s c t) ((machine D).trace s is)
        = del ++ com D ((machine D).final s is) c' ∧
      del.length = reads ((machine D).trace s is) ∧
      (∀ e, (delivered ((machine D).trace s is ++ [(e, out D ((machine D).final s is))])) = del) ∧
      delivered ((machine D).trace s is) <+: del := by
  intro is
  induction is with
  | nil => intro s c t k h _ _ _; exact ⟨c, t, h, rfl, [], by simp [committed, reads, delivered]⟩
  | cons i is ih =>
    intro s c t k h hk hok hnd
    simp only [Machine.trace_cons, List.mem_cons, forall_eq_or_imp] at hok
    obtain ⟨hn1, hn2⟩ := hnd
    have hp : Proto (i, out D s) := hok.1
    have hD : 0 < D := by have := h.rd_lt; omega
    have hnw : ¬ (i.discard = true ∧ i.ren = true ∧ s.rd + 1 = D) := by
      rintro ⟨a, b, e⟩
      apply hn1
      refine ⟨a, b, ?_⟩
      rw [Nat.add_mod, ← hk]
      rcases Nat.lt_or_ge 1 D with h1 | h1
      · rw [Nat.mod_eq_of_lt h1, e, Nat.mod_self]
      · have : D = 1 := by omega
        subst this; omega
    have hk' : (next D s i).rd = (k + i.ren.toNat) % D := by
      have e1 := fifoRead_eq hp
      cases hr : i.ren
      · simp [next, e1, hr, hk]
      · have : (next D s i).rd = inc D s.rd := by simp [next, e1, hr, incPtr_eq h.rd_lt]
        rw [this, hk, Bool.toNat_true]
        unfold inc
        have hlt := Nat.mod_lt k hD
        rw [Nat.add_mod]
        split
        · rename_i e
          rcases Nat.lt_or_ge 1 D with h1 | h1
          · rw [Nat.mod_eq_of_lt h1, e, Nat.mod_self]
          · have : D = 1 := by omega
            subst this; omega
        · rw [Nat.mod_eq_of_lt (show 1 < D by omega),
            Nat.mod_eq_of_lt (show k % D + 1 < D by omega)]
    obtain ⟨w1, w2⟩ := step_words h hp hnw
    obtain ⟨c', t', hf, hs, del, h1, h2, h4, h3⟩ :=
      ih _ _ _ _ (step_inv h hp hnw) hk' hok.2 hn2
    have hcomm : committed (sta D s c t) ((machine D).trace s (i :: is))
        = comN i (sta D s c t) ++
          committed (staN i (sta D s c t)) ((machine D).trace (next D s i) is) := by
      simp only [Machine.trace_cons, committed, comN, staN]
      have hcom := hp.2.2
      cases hd : i.discard <;> cases hw : i.wen <;> cases hc : i.commit <;>
        simp [hd, hw, hc, machine] at hcom ⊢
    have hpend : pending (sta D s c t) ((machine D).trace s (i :: is))
        = pending (staN i (sta D s c t)) ((machine D).trace (next D s i) is) := by
      simp only [Machine.trace_cons, pending, staN]
      cases hd : i.discard <;> cases hw : i.wen <;> cases hc : i.commit <;> rfl
    refine ⟨c', t', hf, ?_, given i.ren (next D s i).dout ++ del, ?_, ?_, ?_, ?_⟩
    · rw [hpend, ← w2]; exact hs
    · rw [hcomm, ← List.append_assoc, w1, ← w2, List.append_assoc, List.append_assoc]
      exact congrArg _ h1
    · simp only [List.length_append, h2]
      simp only [reads, Machine.trace_cons, List.countP_cons]
      cases i.ren <;> simp [machine]; omega
    · intro e
      have h4 := h4 e
      cases is with
      | nil =>
        simp only [Machine.trace_nil, Machine.trace_cons, Machine.final_nil, Machine.final_cons,
          List.nil_append, List.cons_append, delivered] at h4 ⊢
        subst h4
        cases i.ren <;> rfl
      | cons j js =>
        simp only [Machine.trace_cons, List.cons_append, delivered, Machine.final_cons] at h4 ⊢
        cases i.ren
        · simp only [Bool.false_eq_true, if_false, List.nil_append, given_false]; exact h4
        · simp only [if_true, List.singleton_append, given_true]
          rw [← h4]; rfl
    · cases is with
      | nil => simp [delivered]
      | cons j js =>
        simp only [Machine.trace_cons, delivered]
        simp only [Machine.trace_cons] at h3
        cases i.ren
        · simp only [Bool.false_eq_true, if_false, List.nil_append, given_false]; exact h3
        · simp only [if_true, List.singleton_append, given_true]
          exact (List.prefix_cons_inj _).2 h3

end Verif.FifoDrop
