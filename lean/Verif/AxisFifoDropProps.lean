import Verif.AxisFifoDrop

/-! # Properties of `Axi4SFifoDrop` -/

namespace Verif.AxisFifoDrop

universe u
variable {α : Type u}

/-! ## What is seen on the ports -/

structure Obs (α : Type u) where
  /-- accepted words of the frame which is not complete -/
  st : List (W α)
  /-- words of all complete frames -/
  exp : List (W α)
  /-- words transferred on `dataOut` -/
  taken : List (W α)

def Obs.init : Obs α := ⟨[], [], []⟩

/-- `dataIn_discard` drops the incomplete frame including the word which is accepted in this cycle. -/
def Obs.step (o : Obs α) (i : In α) (y : Out α) : Obs α where
  st := if i.discard then [] else if i.vld && y.rd then (if i.w.last then [] else o.st ++ [i.w]) else o.st
  exp := if i.discard then o.exp else if i.vld && y.rd && i.w.last then o.exp ++ (o.st ++ [i.w]) else o.exp
  taken := o.taken ++ given (y.vld && i.rd) y.w

abbrev Sys (α : Type u) := St α × Obs α
def sysInit (D : Nat) (mem0 : Nat → W α) (d0 : W α) : Sys α := (init D mem0 d0, Obs.init)
def sys (D : Nat) (y : Sys α) (i : In α) : Sys α := (next D y.1 i, y.2.step i (out D y.1))
def run (D : Nat) (y : Sys α) (is : List (In α)) : Sys α := is.foldl (sys D) y

def Along (D : Nat) (P : Obs α → In α → Out α → Prop) : Sys α → List (In α) → Prop
  | _, [] => True
  | y, i :: is => P y.2 i (out D y.1) ∧ Along D P (sys D y i) is

/-- No discard in the cycles in which the word number `k * (DEPTH - 1)` can move to the output register. -/
def NoWrap (D : Nat) (o : Obs α) (i : In α) (y : Out α) : Prop :=
  ¬ (i.discard = true ∧ (i.rd = true ∨ y.vld = false) ∧ (o.taken.length + y.vld.toNat + 1) % (D - 1) = 0)

/-- No discard in a cycle with the last word. -/
def NoLast (D : Nat) (o : Obs α) (i : In α) (y : Out α) : Prop :=
  NoWrap D o i y ∧ ¬ (i.discard = true ∧ i.vld = true ∧ i.w.last = true)

/-! ## Invariant -/

/-- Input with the same effect in which commit is qualified. -/
def shIn (s : St α) (i : In α) : FifoDrop.In (W α) :=
  { fifoIn s i with commit := (fifoIn s i).wen && i.w.last && !i.discard }

def erase (s : FifoDrop.St (W α)) : FifoDrop.St (W α) := { s with stash := 0, size := 0, space := 0 }

structure InvD (D : Nat) (y : Sys α) (s' : FifoDrop.St (W α)) (c t : Nat) : Prop where
  e : erase y.1.fifo = erase s'
  f : FifoDrop.Inv (D - 1) s' c t
  x : y.2.exp = y.2.taken ++ given y.1.outVld s'.dout ++ FifoDrop.com (D - 1) s' c
  s : y.2.st = FifoDrop.sta (D - 1) s' c t
  k : s'.rd = (y.2.taken.length + y.1.outVld.toNat) % (D - 1)

theorem erase_eq {s s' : FifoDrop.St (W α)} (h : erase s = erase s') :
    s.wr = s'.wr ∧ s.wrT = s'.wrT ∧ s.rd = s'.rd ∧ s.looped = s'.looped ∧ s.loopedT = s'.loopedT ∧ s.mem = s'.mem ∧ s.dout = s'.dout := by
  simpa [erase] using h

theorem succ_mod_self {D k : Nat} (hD : 0 < D) (h : k % D + 1 = D) : (k + 1) % D = 0 := by
  rw [Nat.add_mod]
  rcases Nat.lt_or_ge 1 D with h1 | h1
  · rw [Nat.mod_eq_of_lt h1, h, Nat.mod_self]
  · have : D = 1 := by omega
    subst this; omega

theorem next_erase {D : Nat} {s s' : FifoDrop.St (W α)} (h : erase s = erase s') (i : FifoDrop.In (W α)) (b : Bool)
    (hc : i.wen = true → i.discard = false → i.commit = b) (hd : b = true → i.wen = true ∧ i.discard = false)
    (hnw : ¬ (i.discard = true ∧ i.ren = true ∧ s.rd = D - 1)) :
    erase (FifoDrop.next D s i) = erase (FifoDrop.next D s' { i with commit := b }) := by
  obtain ⟨a1, a2, a3, a4, a5, a6, a7⟩ := erase_eq h
  have hr : FifoDrop.fifoRead s' { i with commit := b } = FifoDrop.fifoRead s i := by simp [FifoDrop.fifoRead, a1, a3, a4]
  have hw : FifoDrop.fifoWrite s' { i with commit := b } = FifoDrop.fifoWrite s i := by simp [FifoDrop.fifoWrite, a2, a3, a5]
  have hwt : FifoDrop.nextWrT D s' { i with commit := b } = FifoDrop.nextWrT D s i := by
    simp only [FifoDrop.nextWrT, hw, a1, a2]
  have hlt : FifoDrop.nextLoopedT D s' { i with commit := b } = FifoDrop.nextLoopedT D s i := by
    simp only [FifoDrop.nextLoopedT, a2, a3, a4, a5]
  have hwr : FifoDrop.nextWr D s i = FifoDrop.nextWr D s' { i with commit := b } := by
    simp only [FifoDrop.nextWr, hw, hwt, a1]
    cases hdc : i.discard with
    | true => simp
    | false =>
      cases hfw : FifoDrop.fifoWrite s i with
      | false => simp
      | true =>
        have : i.wen = true := by
          simp only [FifoDrop.fifoWrite, Bool.and_eq_true] at hfw; exact hfw.1
        rw [hc this hdc]
  have hl : FifoDrop.nextLooped D s i = FifoDrop.nextLooped D s' { i with commit := b } := by
    simp only [FifoDrop.nextLooped, hlt, ← a3, ← a4]
    cases hdc : i.discard with
    | true =>
      have hb : b = false := by
        cases b with
        | false => rfl
        | true => have := (hd rfl).2; rw [hdc] at this; cases this
      have e1 : FifoDrop.nextLoopedT D s i = s.looped := by simp [FifoDrop.nextLoopedT, hdc]
      rw [e1, hb]
      have hx : (i.ren && s.rd == D - 1) = false := by
        cases hrn : i.ren with
        | false => rfl
        | true => 
          have : ¬ s.rd = D - 1 := fun e => hnw ⟨hdc, hrn, e⟩
          simpa using this
      simp [hx]
    | false =>
      cases hwn : i.wen with
      | true => rw [hc hwn hdc]
      | false => simp
  simp only [erase, FifoDrop.next, hr, hw, hwt, hlt, hwr, hl, a3, a6, a7, a2]

theorem step_invD {D : Nat} (hD : 2 ≤ D) {y : Sys α} {s' : FifoDrop.St (W α)} {c t : Nat} (h : InvD D y s' c t) {i : In α}
    (hn : NoWrap D y.2 i (out D y.1)) :
    InvD D (sys D y i) (FifoDrop.next (D - 1) s' (shIn y.1 i)) (FifoDrop.cN (shIn y.1 i) c t) (FifoDrop.tN (shIn y.1 i) c t) := by
  obtain ⟨s, o⟩ := y
  obtain ⟨he, hf, hx, hs, hk⟩ := h
  simp only at he hf hx hs hk
  obtain ⟨a1, a2, a3, a4, a5, a6, a7⟩ := erase_eq he
  have hrw : FifoDrop.readWait s' = FifoDrop.readWait s.fifo := by simp [FifoDrop.readWait, a1, a3, a4]
  have hww : FifoDrop.writeWait s' = FifoDrop.writeWait s.fifo := by simp [FifoDrop.writeWait, a2, a3, a5]
  have hwen : (shIn s i).wen = (i.vld && !FifoDrop.writeWait s.fifo) := rfl
  have hren : (shIn s i).ren = ((i.rd || !s.outVld) && !FifoDrop.readWait s.fifo) := rfl
  have hdis : (shIn s i).discard = i.discard := rfl
  have hcom : (shIn s i).commit = (i.vld && !FifoDrop.writeWait s.fifo && i.w.last && !i.discard) := rfl
  have hdat : (shIn s i).data = i.w := rfl
  have hp : FifoDrop.Proto (shIn s i, FifoDrop.out (D - 1) s') := by
    refine ⟨?_, ?_, ?_⟩
    · intro h
      show FifoDrop.readWait s' = false
      rw [hrw]
      simp only [hren, Bool.and_eq_true, Bool.not_eq_true'] at h; exact h.2
    · intro h
      left
      show FifoDrop.writeWait s' = false
      rw [hww]
      simp only [hwen, Bool.and_eq_true, Bool.not_eq_true'] at h; exact h.2
    · intro h
      simp only [hcom, Bool.and_eq_true, Bool.not_eq_true'] at h
      refine ⟨?_, h.2⟩
      rw [hwen, h.1.1.1, h.1.1.2]; rfl
  have hD0 : 0 < D - 1 := by omega
  have hnw : ¬ ((shIn s i).discard = true ∧ (shIn s i).ren = true ∧ s'.rd + 1 = D - 1) := by
    rintro ⟨d1, d2, d3⟩
    apply hn
    refine ⟨d1, ?_, ?_⟩
    · simp only [hren, Bool.and_eq_true, Bool.or_eq_true, Bool.not_eq_true'] at d2
      rcases d2.1 with d | d
      · exact .inl d
      · exact .inr d
    · rw [hk] at d3
      exact succ_mod_self hD0 d3
  obtain ⟨w1, w2⟩ := FifoDrop.step_words hf hp hnw
  have hfr := FifoDrop.fifoRead_eq hp
  have hord : (out D s).rd = !FifoDrop.writeWait s.fifo := rfl
  have hov : (out D s).vld = s.outVld := rfl
  have how : (out D s).w = s'.dout := a7
  have hvn : (sys D (s, o) i).1.outVld = if i.rd || !s.outVld then !FifoDrop.readWait s.fifo else s.outVld := rfl
  have hdk : (shIn s i).ren = false → (FifoDrop.next (D - 1) s' (shIn s i)).dout = s'.dout := by
    intro h
    show (if FifoDrop.fifoRead s' (shIn s i) then _ else _) = _
    rw [hfr, h]; rfl
  refine ⟨?_, FifoDrop.step_inv hf hp hnw, ?_, ?_, ?_⟩
  · show erase (FifoDrop.next (D - 1) s.fifo (fifoIn s i)) = _
    refine next_erase he (fifoIn s i) ((fifoIn s i).wen && i.w.last && !i.discard) ?_ ?_ ?_
    · intro h1 h2
      rw [h1, show i.discard = false from h2]
      simp only [fifoIn, Bool.and_eq_true] at h1
      simp [fifoIn, h1.1]
    · intro h
      simp only [Bool.and_eq_true, Bool.not_eq_true'] at h
      exact ⟨h.1.1, h.2⟩
    · rintro ⟨d1, d2, d3⟩
      exact hnw ⟨d1, d2, by rw [← a3, d3]; omega⟩
  · -- words of complete frames
    have e1 : (sys D (s, o) i).2.exp = o.exp ++ FifoDrop.comN (shIn s i) o.st := by
      show (if i.discard then o.exp else if i.vld && (out D s).rd && i.w.last then o.exp ++ (o.st ++ [i.w]) else o.exp) = _
      simp only [FifoDrop.comN, hcom, hdat, hord]
      cases i.discard <;> cases i.vld <;> cases FifoDrop.writeWait s.fifo <;> cases i.w.last <;> simp
    have e2 : (sys D (s, o) i).2.taken = o.taken ++ given (s.outVld && i.rd) s'.dout := by
      show o.taken ++ given ((out D s).vld && i.rd) (out D s).w = _
      rw [hov, how]
    rw [e1, e2, hx, hs, hvn, List.append_assoc, List.append_assoc, List.append_assoc]
    rw [List.append_assoc, w1, hren]
    rw [hren] at hdk
    cases hv : s.outVld <;> cases hr : i.rd <;> cases hw : FifoDrop.readWait s.fifo <;> simp [hv, hr, hw] at hdk ⊢ <;> simp [hdk]
  · show (if i.discard then [] else if i.vld && (out D s).rd then (if i.w.last then [] else o.st ++ [i.w]) else o.st) = _
    rw [w2, ← hs]
    simp only [FifoDrop.staN, hdis, hwen, hcom, hdat, hord]
    cases i.discard <;> cases i.vld <;> cases FifoDrop.writeWait s.fifo <;> cases i.w.last <;> simp
  · have e2 : (sys D (s, o) i).2.taken.length = o.taken.length + (s.outVld && i.rd).toNat := by
      show (o.taken ++ given ((out D s).vld && i.rd) (out D s).w).length = _
      rw [hov]
      cases s.outVld && i.rd <;> simp
    have hlt := hf.rd_lt
    have e3 : (FifoDrop.next (D - 1) s' (shIn s i)).rd = (s'.rd + (shIn s i).ren.toNat) % (D - 1) := by
      show (if FifoDrop.fifoRead s' (shIn s i) then Fifo.incPtr (D - 1) s'.rd else s'.rd) = _
      rw [hfr]
      cases (shIn s i).ren with
      | false => simp [Nat.mod_eq_of_lt hlt]
      | true =>
        simp only [if_true, Bool.toNat_true]
        rw [Fifo.incPtr_eq hlt]
        unfold Ring.inc
        split
        · next e => rw [e, Nat.mod_self]
        · rw [Nat.mod_eq_of_lt (by omega)]
    rw [e3, e2, hvn, hren, hk, Nat.mod_add_mod]
    congr 1
    cases hv : s.outVld <;> cases hr : i.rd <;> cases hw : FifoDrop.readWait s.fifo <;> simp

theorem init_invD {D : Nat} (hD : 2 ≤ D) (mem0 : Nat → W α) (d0 : W α) :
    InvD D (sysInit D mem0 d0) (FifoDrop.init (D - 1) mem0 d0) 0 0 := by
  refine ⟨rfl, FifoDrop.init_inv (by omega) mem0 d0, ?_, ?_, ?_⟩
  · simp [sysInit, init, Obs.init, FifoDrop.com, Ring.window]
  · simp [sysInit, Obs.init, FifoDrop.sta, Ring.window]
  · simp [sysInit, init, Obs.init, FifoDrop.init]

theorem run_invD {D : Nat} (hD : 2 ≤ D) (is : List (In α)) : ∀ (y : Sys α) s' c t, InvD D y s' c t → Along D (NoWrap D) y is →
    ∃ s' c t, InvD D (run D y is) s' c t := by
  induction is with
  | nil => intro y s' c t h _; exact ⟨s', c, t, h⟩
  | cons i is ih => intro y s' c t h ha; exact ih _ _ _ _ (step_invD hD h ha.1) ha.2

/-- Number of the words which are stored. -/
def Obs.stored (o : Obs α) : Nat := o.exp.length - o.taken.length + o.st.length

/-- What is expected from the component after the inputs:
it offers only the next word of complete frames, nothing is lost, it accepts words if there is a place for them. -/
structure Good (D : Nat) (y : Sys α) : Prop where
  pre : y.2.taken <+: y.2.exp
  word : (out D y.1).vld = true → y.2.exp[y.2.taken.length]? = some (out D y.1).w
  offered : ∀ i, y.2.taken.length < y.2.exp.length → (out D y.1).vld = true ∨ (out D (sys D y i).1).vld = true
  ready : (out D y.1).rd = true ↔ y.2.stored - (out D y.1).vld.toNat < D - 1
  cap : y.2.stored ≤ D

theorem good_of_inv {D : Nat} (hD : 2 ≤ D) {y : Sys α} {s' : FifoDrop.St (W α)} {c t : Nat} (h : InvD D y s' c t) : Good D y := by
  obtain ⟨he, hf, hx, hs, hk⟩ := h
  obtain ⟨a1, a2, a3, a4, a5, a6, a7⟩ := erase_eq he
  have hrw : FifoDrop.readWait s' = FifoDrop.readWait y.1.fifo := by simp [FifoDrop.readWait, a1, a3, a4]
  have hww : FifoDrop.writeWait s' = FifoDrop.writeWait y.1.fifo := by simp [FifoDrop.writeWait, a2, a3, a5]
  have l1 : y.2.exp.length = y.2.taken.length + y.1.outVld.toNat + c := by
    rw [hx]
    cases y.1.outVld <;> simp [FifoDrop.com, Ring.window_length] <;> omega
  have l2 : y.2.st.length = t - c := by rw [hs]; simp [FifoDrop.sta, Ring.window_length]
  have q1 := hf.c_le
  have q2 := hf.t_le
  have hst : y.2.stored = y.1.outVld.toNat + t := by unfold Obs.stored; omega
  have hb1 : y.1.outVld.toNat ≤ 1 := by cases y.1.outVld <;> simp
  refine ⟨?_, ?_, ?_, ?_, ?_⟩
  · rw [hx, List.append_assoc]; exact ⟨_, rfl⟩
  · intro hv
    have hv' : y.1.outVld = true := hv
    rw [hx, hv', List.append_assoc, List.getElem?_append_right (Nat.le_refl _)]
    show _ = some y.1.fifo.dout
    rw [a7]; simp
  · intro i hl
    cases hv : y.1.outVld with
    | true => exact .inl hv
    | false =>
      right
      show (if i.rd || !y.1.outVld then !FifoDrop.readWait y.1.fifo else y.1.outVld) = true
      rw [hv] at l1
      have hr := FifoDrop.readWait_iff hf
      rw [hrw] at hr
      have : FifoDrop.readWait y.1.fifo = false := by
        cases hb : FifoDrop.readWait y.1.fifo with
        | false => rfl
        | true => have := hr.mp hb; simp at l1; omega
      simp [hv, this]
  · show (!FifoDrop.writeWait y.1.fifo) = true ↔ y.2.stored - y.1.outVld.toNat < D - 1
    have hw := FifoDrop.writeWait_iff hf
    rw [hww] at hw
    rw [hst]
    cases hb : FifoDrop.writeWait y.1.fifo with
    | true => have := hw.mp hb; simp; omega
    | false => rw [hb] at hw; simp at hw ⊢; omega
  · omega

/-- The full claim for complete frames. -/
def FramesOk (D : Nat) : Prop := ∀ (mem0 : Nat → W Nat) (d0 : W Nat) (is : List (In Nat)), Good D (run D (sysInit D mem0 d0) is)

/-- C272: exactly complete frames which were not discarded are delivered, if no discard comes with the word which wraps the read pointer.
Missing: these discards, the component is wrong for them. -/
theorem frames_partial (D : Nat) (hD : 2 ≤ D) (mem0 : Nat → W α) (d0 : W α) (is : List (In α))
    (h : Along D (NoWrap D) (sysInit D mem0 d0) is) : Good D (run D (sysInit D mem0 d0) is) := by
  obtain ⟨s', c, t, hi⟩ := run_invD hD is _ _ _ _ (init_invD hD mem0 d0) h
  exact good_of_inv hD hi

/-- Two frames of one word and a discard when the second one moves to the output register; then both are taken. -/
def wrapHist : List (In Nat) :=
  [⟨true, ⟨1, true⟩, false, false⟩, ⟨true, ⟨2, true⟩, false, false⟩, ⟨false, ⟨0, false⟩, true, true⟩, ⟨false, ⟨0, false⟩, false, true⟩]

def w0 : W Nat := ⟨0, false⟩

theorem frames_fails : ¬ FramesOk 3 := by
  intro h
  have := (h (fun _ => w0) w0 wrapHist).ready
  revert this
  decide

/-- C272: after this history the fifo is empty and no word is accepted for ever unless there is another discard. -/
theorem stuck_forever (is : List (In Nat)) (hd : ∀ i, i ∈ is → i.discard = false) :
    let y := run 3 (run 3 (sysInit 3 (fun _ => w0) w0) wrapHist) is
    (out 3 y.1).rd = false ∧ (out 3 y.1).vld = false ∧ y.2.stored = 0 := by
  have key : ∀ (is : List (In Nat)) (y : Sys Nat), (∀ i, i ∈ is → i.discard = false) →
      (y.1.fifo.wr = 0 ∧ y.1.fifo.wrT = 0 ∧ y.1.fifo.rd = 0 ∧ y.1.fifo.looped = false ∧ y.1.fifo.loopedT = true ∧ y.1.outVld = false ∧
        y.2.stored = 0) →
      (out 3 (run 3 y is).1).rd = false ∧ (out 3 (run 3 y is).1).vld = false ∧ (run 3 y is).2.stored = 0 := by
    intro is
    induction is with
    | nil =>
      intro y _ ⟨a1, a2, a3, a4, a5, a6, a7⟩
      refine ⟨?_, a6, a7⟩
      simp [run, out, FifoDrop.writeWait, a2, a3, a5]
    | cons i is ih =>
      intro y hd ⟨a1, a2, a3, a4, a5, a6, a7⟩
      have hdi := hd i (by simp)
      refine ih (sys 3 y i) (fun j hj => hd j (by simp [hj])) ?_
      have hww : FifoDrop.writeWait y.1.fifo = true := by simp [FifoDrop.writeWait, a2, a3, a5]
      have hrw : FifoDrop.readWait y.1.fifo = true := by simp [FifoDrop.readWait, a1, a3, a4]
      have hst : (sys 3 y i).2.stored = 0 := by
        simp only [sys, Obs.step, Obs.stored, out, hww, hdi, a6]
        simpa [Obs.stored] using a7
      refine ⟨?_, ?_, ?_, ?_, ?_, ?_, hst⟩ <;>
        simp [sys, next, fifoIn, FifoDrop.next, FifoDrop.nextWr, FifoDrop.nextWrT, FifoDrop.fifoWrite, FifoDrop.fifoRead,
          FifoDrop.nextLooped, FifoDrop.nextLoopedT, hww, hrw, hdi, a1, a2, a3, a4, a5, a6]
  exact key is _ hd (by decide)

example : Along 4 (NoWrap 4) (sysInit 4 (fun _ => w0) w0)
    [⟨true, ⟨1, false⟩, false, true⟩, ⟨true, ⟨2, true⟩, false, true⟩, ⟨true, ⟨3, false⟩, false, true⟩, ⟨true, ⟨4, true⟩, true, false⟩] ∧
    (run 4 (sysInit 4 (fun _ => w0) w0)
      [⟨true, ⟨1, false⟩, false, true⟩, ⟨true, ⟨2, true⟩, false, true⟩, ⟨true, ⟨3, false⟩, false, true⟩, ⟨true, ⟨4, true⟩, true, false⟩]).2.exp =
      [⟨1, false⟩, ⟨2, true⟩] := by
  simp only [Along, NoWrap]
  decide

/-! ## Size -/

/-- The full claim: `size` is the number of stored words. -/
def SizeOk (D : Nat) : Prop := ∀ (mem0 : Nat → W Nat) (d0 : W Nat) (is : List (In Nat)), Along D (NoWrap D) (sysInit D mem0 d0) is →
  (out D (run D (sysInit D mem0 d0) is).1).size = (run D (sysInit D mem0 d0) is).2.stored

/-- C273: if a frame is discarded in the cycle of its last word, it is counted as stored for ever. -/
theorem size_fails : ¬ SizeOk 4 := by
  intro h
  have := h (fun _ => w0) w0 [⟨true, ⟨1, false⟩, false, false⟩, ⟨true, ⟨2, true⟩, true, false⟩] (by simp only [Along, NoWrap]; decide)
  revert this
  decide

theorem next_same {D : Nat} {s : St α} {i : In α} (h : ¬ (i.discard = true ∧ i.vld = true ∧ i.w.last = true)) :
    FifoDrop.next D s.fifo (shIn s i) = FifoDrop.next D s.fifo (fifoIn s i) := by
  have hfw : FifoDrop.fifoWrite s.fifo (shIn s i) = FifoDrop.fifoWrite s.fifo (fifoIn s i) := rfl
  have hfr : FifoDrop.fifoRead s.fifo (shIn s i) = FifoDrop.fifoRead s.fifo (fifoIn s i) := rfl
  have hc : (fifoIn s i).wen = true → (shIn s i).commit = (fifoIn s i).commit := by
    intro hw
    simp only [shIn, hw, Bool.true_and]
    simp only [fifoIn, Bool.and_eq_true] at hw
    simp only [fifoIn, hw.1, Bool.true_and]
    cases hl : i.w.last with
    | false => rfl
    | true =>
      cases hd : i.discard with
      | false => rfl
      | true => exact absurd ⟨hd, hw.1, hl⟩ h
  by_cases hw : (fifoIn s i).wen = true
  · have : shIn s i = fifoIn s i := by
      have e := hc hw
      unfold shIn at e ⊢
      simp only at e
      rw [e]
    rw [this]
  · have hw' : (fifoIn s i).wen = false := by simpa using hw
    have e1 : FifoDrop.fifoWrite s.fifo (fifoIn s i) = false := by simp [FifoDrop.fifoWrite, hw']
    have e2 : (shIn s i).wen = false := hw'
    simp only [FifoDrop.next, FifoDrop.nextWr, FifoDrop.nextWrT, FifoDrop.nextLooped, FifoDrop.nextLoopedT, FifoDrop.nextStash,
      FifoDrop.nextSize, FifoDrop.nextSpace, hfw, hfr, e1, e2, hw', Bool.false_and, Bool.false_eq_true, if_false]
    rfl

/-- C273: the size is right if frames are discarded only before their last word. -/
theorem size_partial (D : Nat) (hD : 2 ≤ D) (mem0 : Nat → W α) (d0 : W α) (is : List (In α))
    (h : Along D (NoLast D) (sysInit D mem0 d0) is) :
    (out D (run D (sysInit D mem0 d0) is).1).size = (run D (sysInit D mem0 d0) is).2.stored := by
  have key : ∀ (is : List (In α)) (y : Sys α) c t, InvD D y y.1.fifo c t → Along D (NoLast D) y is →
      ∃ c t, InvD D (run D y is) (run D y is).1.fifo c t := by
    intro is
    induction is with
    | nil => intro y c t h _; exact ⟨c, t, h⟩
    | cons i is ih =>
      intro y c t h ha
      have h1 := step_invD hD h ha.1.1
      rw [next_same ha.1.2] at h1
      exact ih _ _ _ h1 ha.2
  obtain ⟨c, t, hi⟩ := key is _ 0 0 (init_invD hD mem0 d0) h
  generalize run D (sysInit D mem0 d0) is = y at hi
  have l1 : y.2.exp.length = y.2.taken.length + y.1.outVld.toNat + c := by
    rw [hi.x]
    cases y.1.outVld <;> simp [FifoDrop.com, Ring.window_length] <;> omega
  have l2 : y.2.st.length = t - c := by rw [hi.s]; simp [FifoDrop.sta, Ring.window_length]
  have q1 := hi.f.c_le
  have q2 := hi.f.t_le
  have hm := Fifo.lt_cntMod (D - 1)
  have hs : (FifoDrop.out (D - 1) y.1.fifo).size = t := by
    show (y.1.fifo.size + y.1.fifo.stash) % Fifo.cntMod (D - 1) = t
    rw [hi.f.size_eq, hi.f.stash_eq, Nat.mod_eq_of_lt (by omega)]; omega
  have hm2 : D + 1 < sizeMod D := by
    unfold sizeMod
    have := le_two_pow_log2ceil (D + 1 + 1)
    omega
  show (if y.1.outVld then ((FifoDrop.out (D - 1) y.1.fifo).size + 1) % sizeMod D else (FifoDrop.out (D - 1) y.1.fifo).size) = _
  rw [hs]
  unfold Obs.stored
  cases hv : y.1.outVld with
  | true => rw [hv] at l1; simp at l1 ⊢; rw [Nat.mod_eq_of_lt (by omega)]; omega
  | false => rw [hv] at l1; simp at l1 ⊢; omega

example : Along 4 (NoLast 4) (sysInit 4 (fun _ => w0) w0)
    [⟨true, ⟨1, true⟩, false, false⟩, ⟨true, ⟨2, false⟩, false, false⟩, ⟨true, ⟨3, false⟩, true, false⟩, ⟨true, ⟨4, true⟩, false, false⟩] ∧
    (out 4 (run 4 (sysInit 4 (fun _ => w0) w0)
      [⟨true, ⟨1, true⟩, false, false⟩, ⟨true, ⟨2, false⟩, false, false⟩, ⟨true, ⟨3, false⟩, true, false⟩, ⟨true, ⟨4, true⟩, false, false⟩]).1).size = 2 := by
  simp only [Along, NoLast, NoWrap]
  decide

end Verif.AxisFifoDrop
