import Verif.AxisFifoCopy

/-! # Properties of `Axi4SFifoCopy` and `Axi4SRegCopy` -/

namespace Verif.AxisFifoCopy

universe u
variable {α : Type u}

/-! ## What is seen on the ports -/

structure Obs (α : Type u) where
  /-- words accepted on `dataIn` -/
  acc : List (W α)
  /-- index of the first word of the frame which is on the output -/
  b : Nat
  /-- index of the word to be transferred next -/
  p : Nat
  /-- id for the frame if it is a copy -/
  rep : Option Nat

def Obs.init : Obs α := ⟨[], 0, 0, none⟩

/-- A frame ends by a transfer of a word with last; then it is repeated with the new id if it is required by `dataOut_copy_frame`. -/
def Obs.step (o : Obs α) (i : In α) (y : Out α) : Obs α where
  acc := o.acc ++ given (i.vld && y.rd) i.w
  b := if y.vld && i.rd && y.w.last && !i.copy then o.p + 1 else o.b
  p := if y.vld && i.rd then (if y.w.last && i.copy then o.b else o.p + 1) else o.p
  rep := if y.vld && i.rd && y.w.last then (if i.copy then some i.rid else none) else o.rep

/-- The word which should be on the output. -/
def Obs.word (o : Obs α) : Option (W α) := (o.acc[o.p]?).map fun w => { w with id := o.rep.getD w.id }

abbrev Sys (α : Type u) := St α × Obs α
def sysInit (mem0 : Nat → W α) (d0 : W α) (r0 : Nat) : Sys α := (init mem0 d0 r0, Obs.init)
def sys (D : Nat) (y : Sys α) (i : In α) : Sys α := (next D y.1 i, y.2.step i (out D y.1))
def run (D : Nat) (y : Sys α) (is : List (In α)) : Sys α := is.foldl (sys D) y

/-! ## Invariant -/

structure InvC (D : Nat) (y : Sys α) : Prop where
  f : FifoCopy.Inv (D - 1) y.1.fifo y.2.acc y.2.b (y.2.p + y.1.outVld.toNat)
  o : y.1.outVld = true → y.2.acc[y.2.p]? = some y.1.fifo.dout ∧ y.2.b ≤ y.2.p
  r : y.2.rep = if y.1.repVld then some y.1.repVal else none

theorem step_inv {D : Nat} {y : Sys α} (h : InvC D y) (i : In α) : InvC D (sys D y i) := by
  obtain ⟨s, o⟩ := y
  obtain ⟨hf, ho, hr⟩ := h
  simp only at hf ho hr
  have hp : FifoCopy.Proto (fifoIn D s i, FifoCopy.out (D - 1) s.fifo (fifoIn D s i)) := by
    constructor
    · intro h; simp only [fifoIn, Bool.and_eq_true, Bool.not_eq_true'] at h; exact h.2
    · intro h; simp only [fifoIn, Bool.and_eq_true, Bool.not_eq_true'] at h; exact h.2
  have hcopy : (fifoIn D s i).copy = (cpVld s i && i.copy) := rfl
  have hmark : (fifoIn D s i).mark = (cpVld s i && !i.copy) := rfl
  have hren : (fifoIn D s i).ren = ((i.rd || !s.outVld) && !rwait s i) := rfl
  have hlt : s.outVld = true → o.p < o.acc.length := by
    intro h
    exact (List.getElem?_eq_some_iff.mp (ho h).1).1
  obtain ⟨g1, g2⟩ := FifoCopy.step_inv hf hp (by
    intro _ h2
    rw [hcopy] at h2
    simp only [cpVld, Bool.and_eq_true] at h2
    have := hlt h2.1.1.1
    have := (ho h2.1.1.1).2
    omega)
  have hdata : (fifoIn D s i).data = i.w := rfl
  have hwen : (fifoIn D s i).wen = (i.vld && !wwait D s) := rfl
  have hlast : (if s.repVld = true then { s.fifo.dout with id := s.repVal } else s.fifo.dout).last = s.fifo.dout.last := by
    split <;> rfl
  have hkeep : (fifoIn D s i).ren = false → (FifoCopy.next (D - 1) s.fifo (fifoIn D s i)).dout = s.fifo.dout := by
    intro h
    have e := FifoCopy.fifoRead_eq hp
    show (if FifoCopy.fifoRead s.fifo (fifoIn D s i) then _ else _) = _
    rw [e, h]; rfl
  have hgrow : ∀ (k : Nat) w, o.acc[k]? = some w → (o.acc ++ given (i.vld && !wwait D s) i.w)[k]? = some w := by
    intro k w hk
    rw [List.getElem?_append_left (List.getElem?_eq_some_iff.mp hk).1]
    exact hk
  have hrw : rwait s i = if cpVld s i && i.copy then false else s.fifo.wr == s.fifo.rdT := rfl
  have hcv : cpVld s i = (s.outVld && s.fifo.dout.last && i.rd) := rfl
  have hbp := hf.bp
  refine ⟨?_, ?_, ?_⟩
  · simp only [sys, next, Obs.step, out, hlast]
    rw [hdata, hwen] at g1
    have e1 : (FifoCopy.Spec.next (o.b, o.p + s.outVld.toNat) (fifoIn D s i)).1 =
        if s.outVld && i.rd && s.fifo.dout.last && !i.copy then o.p + 1 else o.b := by
      show (if (fifoIn D s i).mark then _ else _) = _
      rw [hmark, hcv]
      cases s.outVld <;> cases i.rd <;> cases s.fifo.dout.last <;> cases i.copy <;> simp
    have e2 : (FifoCopy.Spec.next (o.b, o.p + s.outVld.toNat) (fifoIn D s i)).2 =
        (if s.outVld && i.rd then (if s.fifo.dout.last && i.copy then o.b else o.p + 1) else o.p) +
        (if i.rd || !s.outVld then !rwait s i else s.outVld).toNat := by
      show (if (fifoIn D s i).ren then (if (fifoIn D s i).copy then _ else _) else _) = _
      rw [hren, hcopy, hrw, hcv]
      cases s.outVld <;> cases i.rd <;> cases s.fifo.dout.last <;> cases i.copy <;> cases (s.fifo.wr == s.fifo.rdT) <;> simp
    rw [e1, e2] at g1
    exact g1
  · intro hv
    simp only [sys, next, Obs.step, out, hlast] at hv ⊢
    rw [hren, hcopy] at g2
    rw [hren] at hkeep
    cases hvo : s.outVld with
    | false =>
      simp only [hvo, Bool.not_false, Bool.or_true, if_true, Bool.not_eq_true'] at hv
      have hcv0 : cpVld s i = false := by rw [hcv, hvo]; rfl
      simp only [hvo, hv, Bool.not_false, Bool.or_true, Bool.and_true, hcv0, Bool.false_and, Bool.false_eq_true, if_false, Bool.toNat_false,
        Nat.add_zero, forall_const] at g2
      simp only [Bool.false_and, Bool.false_eq_true, if_false]
      refine ⟨hgrow _ _ g2, ?_⟩
      rw [hvo] at hbp; simpa using hbp
    | true =>
      obtain ⟨h1, h2⟩ := ho hvo
      cases hrd : i.rd with
      | false =>
        simp only [Bool.and_false, Bool.false_and, Bool.false_eq_true, if_false]
        rw [hkeep (by simp [hrd, hvo])]
        exact ⟨hgrow _ _ h1, h2⟩
      | true =>
        simp only [hrd, Bool.true_or, if_true, Bool.not_eq_true'] at hv
        simp only [hrd, hv, Bool.true_or, Bool.not_false, Bool.and_self, forall_const, hcv, hvo, Bool.true_and, Bool.and_true] at g2
        cases hl : s.fifo.dout.last with
        | false =>
          simp only [hl, Bool.false_and, Bool.false_eq_true, if_false, Bool.toNat_true] at g2
          simp only [Bool.and_self, Bool.and_false, Bool.false_and, Bool.false_eq_true, if_false, if_true]
          exact ⟨hgrow _ _ g2, by omega⟩
        | true =>
          cases hc : i.copy with
          | false =>
            simp only [hl, hc, Bool.and_false, Bool.false_eq_true, if_false, Bool.toNat_true] at g2
            simp only [Bool.and_self, Bool.and_false, Bool.not_false, Bool.false_eq_true, if_false, if_true]
            exact ⟨hgrow _ _ g2, by omega⟩
          | true =>
            simp only [hl, hc, Bool.and_self, if_true] at g2
            simp only [Bool.and_self, Bool.not_true, Bool.and_false, Bool.false_eq_true, if_false, if_true]
            exact ⟨hgrow _ _ g2, by omega⟩
  · simp only [sys, next, Obs.step, out, hlast, hr, hcv]
    cases s.outVld <;> cases i.rd <;> cases s.fifo.dout.last <;> cases i.copy <;> simp

theorem init_inv {D : Nat} (hD : 3 ≤ D) (mem0 : Nat → W α) (d0 : W α) (r0 : Nat) : InvC D (sysInit mem0 d0 r0) := by
  refine ⟨?_, (by intro h; cases h), rfl⟩
  exact FifoCopy.init_inv (by omega) mem0 d0

theorem run_inv {D : Nat} (is : List (In α)) {y : Sys α} (h : InvC D y) : InvC D (run D y is) := by
  induction is generalizing y with
  | nil => exact h
  | cons i is ih => exact ih (step_inv h i)

/-- C269: the output offers only the word which should be there, whatever was written, read and copied before. -/
theorem word_exact (D : Nat) (hD : 3 ≤ D) (mem0 : Nat → W α) (d0 : W α) (r0 : Nat) (is : List (In α)) :
    let y := run D (sysInit mem0 d0 r0) is
    (out D y.1).vld = true → y.2.word = some (out D y.1).w := by
  intro y hv
  have h := run_inv is (init_inv hD mem0 d0 r0)
  obtain ⟨h1, _⟩ := h.o hv
  unfold Obs.word
  rw [show y.2.acc[y.2.p]? = _ from h1, show y.2.rep = _ from h.r]
  simp only [Option.map_some, out, Option.some.injEq]
  show _ = if (run D (sysInit mem0 d0 r0) is).1.repVld = true then _ else _
  split <;> rfl

/-- C269: a word which should be on the output is offered at the latest in the next cycle. -/
theorem word_offered (D : Nat) (hD : 3 ≤ D) (mem0 : Nat → W α) (d0 : W α) (r0 : Nat) (is : List (In α)) (i : In α) :
    let y := run D (sysInit mem0 d0 r0) is
    y.2.word ≠ none → (out D y.1).vld = true ∨ (out D (sys D y i).1).vld = true := by
  intro y hw
  have h := run_inv is (init_inv hD mem0 d0 r0)
  change InvC D y at h
  cases hv : y.1.outVld with
  | true => exact .inl hv
  | false =>
    right
    show (if i.rd || !y.1.outVld then !rwait y.1 i else y.1.outVld) = true
    have he := h.f.empty_iff
    rw [hv] at he
    have hlt : y.2.p < y.2.acc.length := by
      rcases Nat.lt_or_ge y.2.p y.2.acc.length with h1 | h1
      · exact h1
      · exfalso; apply hw; unfold Obs.word; rw [List.getElem?_eq_none h1]; rfl
    have hne : (y.1.fifo.wr == y.1.fifo.rdT) = false := by
      cases hb : (y.1.fifo.wr == y.1.fifo.rdT) with
      | false => rfl
      | true => have := he.mp hb; simp at this; omega
    simp [hv, rwait, cpVld, hne]

/-- C269: words are accepted iff less than DEPTH - 2 words from the start of the frame on the output are stored. -/
theorem ready_iff (D : Nat) (hD : 3 ≤ D) (mem0 : Nat → W α) (d0 : W α) (r0 : Nat) (is : List (In α)) :
    let y := run D (sysInit mem0 d0 r0) is
    (out D y.1).rd = true ↔ y.2.acc.length - y.2.b < D - 2 := by
  intro y
  have h := run_inv is (init_inv hD mem0 d0 r0)
  change InvC D y at h
  have hw := h.f.wwait_iff
  have h1 := h.f.wb
  have h2 := h.f.bp
  have h3 := h.f.pw
  show (!wwait D y.1) = true ↔ _
  unfold wwait
  cases hb : FifoCopy.wrNext (D - 1) y.1.fifo == y.1.fifo.rd with
  | true => have := hw.mp hb; simp; omega
  | false =>
    rw [hb] at hw
    simp at hw ⊢
    omega

/-! ## Length of frames -/

/-- The documented limit of frames ("DEPTH > axis.MAX_FRAME_LEN") -/
def FitsFrame (D : Nat) : Prop :=
  ∀ (mem0 : Nat → W Nat) (d0 : W Nat) (r0 : Nat) (is : List (In Nat)), 
    (∀ i, i ∈ is → i.w.last = false) → (∀ i, i ∈ is → i.vld = true ∧ i.rd = true) → 2 * D ≤ is.length →
    D - 1 ≤ (run D (sysInit mem0 d0 r0) is).2.acc.length

/-- C270: if a frame does not end in DEPTH - 2 words, no more words are accepted for ever. -/
theorem long_frame_stuck (D : Nat) (hD : 3 ≤ D) (mem0 : Nat → W α) (d0 : W α) (r0 : Nat) (is : List (In α))
    (hl : ∀ i, i ∈ is → i.w.last = false) : (run D (sysInit mem0 d0 r0) is).2.acc.length ≤ D - 2 := by
  have key : ∀ (is : List (In α)) (y : Sys α), InvC D y → y.2.b = 0 → (∀ w, w ∈ y.2.acc → w.last = false) →
      (∀ i, i ∈ is → i.w.last = false) → (run D y is).2.b = 0 ∧ InvC D (run D y is) := by
    intro is
    induction is with
    | nil => intro y h hb _ _; exact ⟨hb, h⟩
    | cons i is ih =>
      intro y h hb ha hi
      refine ih (sys D y i) (step_inv h i) ?_ ?_ (fun j hj => hi j (by simp [hj]))
      · have hlast : (out D y.1).w.last = y.1.fifo.dout.last := by
          simp only [out]; split <;> rfl
        show (if (out D y.1).vld && i.rd && (out D y.1).w.last && !i.copy then y.2.p + 1 else y.2.b) = 0
        rw [hlast]
        cases hv : y.1.outVld with
        | false => simp [out, hv, hb]
        | true =>
          have := ha _ (List.mem_of_getElem? (h.o hv).1)
          simp [this, hb]
      · intro w hw
        simp only [sys, Obs.step, List.mem_append] at hw
        rcases hw with hw | hw
        · exact ha w hw
        · unfold given at hw
          split at hw
          · simp at hw; rw [hw]; exact hi i (by simp)
          · cases hw
  obtain ⟨h1, h2⟩ := key is _ (init_inv hD mem0 d0 r0) rfl (by intro w hw; cases hw) hl
  have := h2.f.wb
  omega

theorem fits_fails : ¬ FitsFrame 4 := by
  intro h
  have h1 := h (fun _ => ⟨0, 0, false⟩) ⟨0, 0, false⟩ 0 (List.replicate 8 ⟨true, ⟨0, 0, false⟩, true, false, 0⟩)
    (by intro i hi; rw [(List.mem_replicate.mp hi).2]) (by intro i hi; rw [(List.mem_replicate.mp hi).2]; exact ⟨rfl, rfl⟩) (by decide)
  have h2 := long_frame_stuck 4 (by decide) (fun _ => ⟨0, 0, false⟩) ⟨0, 0, false⟩ 0
    (List.replicate 8 ⟨true, ⟨0, 0, false⟩, true, false, 0⟩) (by intro i hi; rw [(List.mem_replicate.mp hi).2])
  omega

/-- C270: if the frames have at most DEPTH - 2 words then in each cycle a word is accepted or the whole frame on the output is stored. -/
theorem frame_fits_partial (D : Nat) (hD : 3 ≤ D) (mem0 : Nat → W α) (d0 : W α) (r0 : Nat) (is : List (In α)) :
    let y := run D (sysInit mem0 d0 r0) is
    (∀ k, k + (D - 2) ≤ y.2.acc.length → ∃ j w, k ≤ j ∧ j < k + (D - 2) ∧ y.2.acc[j]? = some w ∧ w.last = true) →
    (out D y.1).rd = true ∨ ∃ j w, y.2.b ≤ j ∧ y.2.acc[j]? = some w ∧ w.last = true := by
  intro y hfr
  cases hr : (out D y.1).rd with
  | true => exact .inl rfl
  | false =>
    right
    have h1 := ready_iff D hD mem0 d0 r0 is
    have h2 := (run_inv is (init_inv hD mem0 d0 r0)).f.wb
    change _ ↔ y.2.acc.length - y.2.b < D - 2 at h1
    change y.2.acc.length < y.2.b + (D - 1) at h2
    have h3 : ¬ y.2.acc.length - y.2.b < D - 2 := by
      intro h
      have := h1.mpr h
      rw [show run D (sysInit mem0 d0 r0) is = y from rfl, hr] at this
      cases this
    obtain ⟨j, w, g1, _, g3, g4⟩ := hfr y.2.b (by omega)
    exact ⟨j, w, g1, g3, g4⟩

/-- The frame `7, 8` is written and copied with the id 3, then the frame `9` goes out. -/
def exIn : List (In Nat) := [⟨true, ⟨7, 1, false⟩, false, false, 0⟩, ⟨true, ⟨8, 1, true⟩, true, false, 0⟩, ⟨false, ⟨0, 0, false⟩, true, false, 0⟩,
  ⟨false, ⟨0, 0, false⟩, true, true, 3⟩, ⟨false, ⟨0, 0, false⟩, true, false, 0⟩]

example : (out 4 (run 4 (sysInit (fun _ => ⟨0, 0, false⟩) ⟨0, 0, false⟩ 0) exIn).1).w = ⟨8, 3, true⟩ ∧
    (out 4 (run 4 (sysInit (fun _ => ⟨0, 0, false⟩) ⟨0, 0, false⟩ 0) exIn).1).vld = true ∧
    (run 4 (sysInit (fun _ => ⟨0, 0, false⟩) ⟨0, 0, false⟩ 0) exIn).2.word = some ⟨8, 3, true⟩ := by decide

/-! ## `Axi4SRegCopy` -/

namespace Reg

def rout (s : St α) (i : In α) (w0 : W α) : Out α := ⟨ready s i, s.isSome, s.getD w0⟩

abbrev RSys (α : Type u) := St α × Obs α
def rsys (w0 : W α) (y : RSys α) (i : In α) : RSys α := (next y.1 i, y.2.step i (rout y.1 i w0))
def rrun (w0 : W α) (y : RSys α) (is : List (In α)) : RSys α := is.foldl (rsys w0) y

/-- Frames of one word, as for `Axi4SFifoCopy`. -/
def SameAsFifo : Prop := ∀ (w0 : W Nat) (is : List (In Nat)), (∀ i, i ∈ is → i.w.last = true) →
  (rrun w0 (none, Obs.init) is).1 = (rrun w0 (none, Obs.init) is).2.word

/-- C271: if `dataOut_copy_frame` is set while nothing is on the output, the id of the incoming frame is replaced. -/
theorem reg_id_fails : ¬ SameAsFifo := by
  intro h
  exact absurd (h ⟨0, 0, true⟩ [⟨true, ⟨7, 1, true⟩, false, true, 3⟩] (by decide)) (by decide)

structure InvRg (y : RSys α) : Prop where
  a : ∀ w, w ∈ y.2.acc → w.last = true
  e : y.1 = y.2.word
  b : y.2.b = y.2.p
  n : y.2.acc.length ≤ y.2.p + 1
  g : y.2.p ≤ y.2.acc.length
  r : y.1 = none → y.2.rep = none

theorem reg_step {w0 : W α} {y : RSys α} (h : InvRg y) {i : In α} (hl : i.w.last = true) (hc : i.copy = true → y.1 ≠ none) :
    InvRg (rsys w0 y i) := by
  obtain ⟨s, o⟩ := y
  obtain ⟨ha, he, hb, hn, hg, hr⟩ := h
  simp only at ha he hb hn hg hr hc
  cases s with
  | none =>
    have hcf : i.copy = false := by
      cases hcc : i.copy with
      | false => rfl
      | true => exact absurd rfl (hc hcc)
    have hlen : o.acc.length = o.p := by
      unfold Obs.word at he
      have := Option.map_eq_none_iff.mp he.symm
      rw [List.getElem?_eq_none_iff] at this
      omega
    have hrn := hr rfl
    cases hv : i.vld with
    | false =>
      refine ⟨?_, ?_, ?_, ?_, ?_, ?_⟩ <;>
        simp [rsys, next, rout, ready, regRd, copyEn, Obs.step, Obs.word, hv, hb, hrn, hlen]
      exact ha
    | true =>
      refine ⟨?_, ?_, ?_, ?_, ?_, ?_⟩ <;>
        simp [rsys, next, rout, ready, regRd, copyEn, regIn, Obs.step, Obs.word, hv, hb, hrn, hlen, hcf]
      · intro w hw
        rcases hw with hw | hw
        · exact ha w hw
        · rw [hw]; exact hl
  | some w =>
    have hw : ∃ v, o.acc[o.p]? = some v ∧ w = { v with id := o.rep.getD v.id } := by
      unfold Obs.word at he
      obtain ⟨v, hv, e⟩ := Option.map_eq_some_iff.mp he.symm
      exact ⟨v, hv, e.symm⟩
    obtain ⟨v, hv, e⟩ := hw
    have hvl : v.last = true := ha v (List.mem_of_getElem? hv)
    have hwl : w.last = true := by rw [e]; exact hvl
    have hlen : o.acc.length = o.p + 1 := by
      have := (List.getElem?_eq_some_iff.mp hv).1
      omega
    cases hrd : i.rd with
    | false =>
      refine ⟨?_, ?_, ?_, ?_, ?_, ?_⟩ <;>
        simp [rsys, next, rout, ready, regRd, copyEn, Obs.step, hrd, hb, hlen]
      · exact ha
      · exact he
    | true =>
      cases hcp : i.copy with
      | true =>
        refine ⟨?_, ?_, ?_, ?_, ?_, ?_⟩ <;>
          simp [rsys, next, rout, ready, regRd, copyEn, regIn, Obs.step, Obs.word, hrd, hb, hlen, hwl, hcp]
        · exact ha
        · have hv' : o.acc[o.p] = v := (List.getElem?_eq_some_iff.mp hv).2
          rw [hv', e]; exact ⟨rfl, hvl⟩
      | false =>
        cases hvd : i.vld with
        | false =>
          refine ⟨?_, ?_, ?_, ?_, ?_, ?_⟩ <;>
            simp [rsys, next, rout, ready, regRd, copyEn, Obs.step, Obs.word, hrd, hlen, hwl, hcp, hvd]
          exact ha
        | true =>
          refine ⟨?_, ?_, ?_, ?_, ?_, ?_⟩ <;>
            simp [rsys, next, rout, ready, regRd, copyEn, regIn, Obs.step, Obs.word, hrd, hlen, hwl, hcp, hvd]
          · intro w' hw'
            rcases hw' with hw' | hw'
            · exact ha w' hw'
            · rw [hw']; exact hl

/-- In each cycle a copy is required only if there is something on the output. -/
def Along (w0 : W α) : RSys α → List (In α) → Prop
  | _, [] => True
  | y, i :: is => (i.w.last = true ∧ (i.copy = true → y.1 ≠ none)) ∧ Along w0 (rsys w0 y i) is

/-- C271: otherwise the register offers exactly the same frames as the fifo. -/
theorem reg_partial (w0 : W α) (is : List (In α)) (h : Along w0 (none, Obs.init) is) :
    (rrun w0 (none, Obs.init) is).1 = (rrun w0 (none, Obs.init) is).2.word := by
  have key : ∀ (is : List (In α)) (y : RSys α), InvRg y → Along w0 y is → InvRg (rrun w0 y is) := by
    intro is
    induction is with
    | nil => intro y h _; exact h
    | cons i is ih => intro y h ha; exact ih _ (reg_step h ha.1.1 ha.1.2) ha.2
  refine (key is _ ?_ h).e
  refine ⟨?_, ?_, ?_, ?_, ?_, ?_⟩ <;> simp [Obs.init, Obs.word]

def exReg : List (In Nat) := [⟨true, ⟨7, 1, true⟩, false, false, 0⟩, ⟨true, ⟨8, 1, true⟩, true, true, 3⟩]

example : Along ⟨0, 0, true⟩ (none, Obs.init) exReg ∧ (rrun ⟨0, 0, true⟩ (none, Obs.init) exReg).1 = some ⟨7, 3, true⟩ := by
  refine ⟨⟨⟨rfl, by decide⟩, ⟨rfl, by decide⟩, trivial⟩, by decide⟩

end Reg

end Verif.AxisFifoCopy
