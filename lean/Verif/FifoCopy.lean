import Verif.Fifo
/-!
# Model of `FifoCopy` (hwtLib/mem/fifoCopy.py)
-/
namespace Verif.FifoCopy

open Fifo (incPtr)

universe u
variable {α : Type u}

/-- Registers and memory: mem/fifoCopy.py:55 `memory`, :57 `wr_ptr`, :60 `rd_ptr_tmp`, :61 `rd_ptr`,
:122 `dout.data` (assigned on a clock edge). -/
structure St (α : Type u) where
  wr : Nat
  rdT : Nat
  rd : Nat
  mem : Nat → α
  dout : α

/-- Inputs: `dataIn.en`, `dataIn.data`, `dataOut.en`, `dataOut_copy_frame.vld/.data`
(mem/fifoCopy.py:37-40). -/
structure In (α : Type u) where
  wen : Bool
  data : α
  ren : Bool
  cpVld : Bool
  cpData : Bool

structure Out (α : Type u) where
  wwait : Bool
  rwait : Bool
  data : α

/-- `frame_copy.vld & frame_copy.data` (mem/fifoCopy.py:74): replay the frame. -/
def In.copy (i : In α) : Bool := i.cpVld && i.cpData
/-- `frame_copy.vld & ~frame_copy.data` (mem/fifoCopy.py:86): a new frame starts here. -/
def In.mark (i : In α) : Bool := i.cpVld && !i.cpData

/-- mem/fifoCopy.py:96-101 -/
def wrNext (D : Nat) (s : St α) : Nat := incPtr D s.wr

/-- mem/fifoCopy.py:114-117 -/
def fifoRead (s : St α) (i : In α) : Bool := i.ren && (s.wr != s.rdT || i.copy)

/-- mem/fifoCopy.py:126 -/
def fifoWrite (D : Nat) (s : St α) (i : In α) : Bool := i.wen && wrNext D s != s.rd

/-- mem/fifoCopy.py:73-85 -/
def nextRdT (D : Nat) (s : St α) (i : In α) : Nat :=
  if fifoRead s i then (if i.copy then incPtr D s.rd else incPtr D s.rdT) else s.rdT

/-- Clock edge of `FifoCopy.hwImpl` (mem/fifoCopy.py:48-134). -/
def next (D : Nat) (s : St α) (i : In α) : St α where
  wr := if fifoWrite D s i then wrNext D s else s.wr
  rdT := nextRdT D s i
  rd := if i.mark then s.rdT else s.rd
  mem := if fifoWrite D s i then upd s.mem s.wr i.data else s.mem
  dout := if fifoRead s i then s.mem (if i.copy then s.rd else s.rdT) else s.dout

/-- mem/fifoCopy.py:129-134 -/
def out (D : Nat) (s : St α) (i : In α) : Out α where
  wwait := wrNext D s == s.rd
  rwait := if i.copy then false else s.wr == s.rdT
  data := s.dout

def machine (D : Nat) : Machine (St α) (In α) (Out α) where
  out := out D
  next := next D

/-- Reset values (mem/fifoCopy.py:57-61). -/
def init (mem0 : Nat → α) (d0 : α) : St α := ⟨0, 0, 0, mem0, d0⟩

/-! ## Observables and specification -/

/-- `en` only without `wait`. -/
def Proto (e : In α × Out α) : Prop :=
  (e.1.wen = true → e.2.wwait = false) ∧ (e.1.ren = true → e.2.rwait = false)

instance (e : In α × Out α) : Decidable (Proto e) := by unfold Proto; infer_instance

/-- Words accepted. -/
def written (tr : List (In α × Out α)) : List α := tr.flatMap fun e => given e.1.wen e.1.data

/-- Words obtained by the reader (`dataOut.data` of the cycle following a cycle with `en`). -/
def delivered : List (In α × Out α) → List α
  | [] => []
  | [_] => []
  | e :: e' :: t => given e.1.ren e'.2.data ++ delivered (e' :: t)

/-- Ordinal of the first word of the frame being read, after the given cycles. -/
def Spec.next (bp : Nat × Nat) (i : In α) : Nat × Nat :=
  (if i.mark then bp.2 else bp.1,
   if i.ren then (if i.copy then bp.1 + 1 else bp.2 + 1) else bp.2)

/-- Specification of the reader: starting with frame start `b` and position `p`, the ordinals (in the
sequence of written words) of the words to be delivered; a copy request rewinds to the frame start. -/
def Spec.ordinals (bp : Nat × Nat) : List (In α) → List Nat
  | [] => []
  | i :: t => given i.ren (if i.copy then bp.1 else bp.2) ++ Spec.ordinals (Spec.next bp i) t

/-- Frame start and read position after the inputs. -/
def Spec.pos (bp : Nat × Nat) (is : List (In α)) : Nat × Nat := is.foldl Spec.next bp

/-- The documented use: a replay is only requested if at least one word of the frame is stored
(`w` words written so far). -/
def CopyOk (bp : Nat × Nat) (w : Nat) : List (In α) → Prop
  | [] => True
  | i :: t => (i.ren = true → i.copy = true → bp.1 < w) ∧
      CopyOk (Spec.next bp i) (w + i.wen.toNat) t

instance CopyOk.dec : ∀ (bp : Nat × Nat) (w : Nat) (l : List (In α)), Decidable (CopyOk bp w l)
  | _, _, [] => isTrue trivial
  | bp, w, i :: t => by
    unfold CopyOk
    have := CopyOk.dec (Spec.next bp i) (w + i.wen.toNat) t
    infer_instance

/-! ## Invariant -/

structure Inv (D : Nat) (s : St α) (W : List α) (b p : Nat) : Prop where
  D2 : 1 < D
  bp : b ≤ p
  pw : p ≤ W.length
  wb : W.length < b + D
  rd_eq : s.rd = b % D
  rdT_eq : s.rdT = p % D
  wr_eq : s.wr = W.length % D
  mem_eq : ∀ k, b ≤ k → k < W.length → W[k]? = some (s.mem (k % D))

theorem incPtr_mod {D : Nat} (hD : 1 < D) (k : Nat) : incPtr D (k % D) = (k + 1) % D := by
  have hlt := Nat.mod_lt k (show 0 < D by omega)
  rw [Fifo.incPtr_eq hlt]
  unfold Ring.inc
  rw [Nat.add_mod, Nat.mod_eq_of_lt hD]
  split
  · rename_i e; rw [e, Nat.mod_self]
  · rw [Nat.mod_eq_of_lt (show k % D + 1 < D by omega)]

theorem mod_eq_iff {D a x : Nat} (h1 : a ≤ x) (h2 : x < a + D) : x % D = a % D ↔ x = a := by
  constructor
  · intro h
    have hD : 0 < D := by omega
    have e1 := Nat.div_add_mod x D
    have e2 := Nat.div_add_mod a D
    rw [h] at e1
    have hq : x / D = a / D := by
      have h3 : a / D ≤ x / D := Nat.div_le_div_right h1
      rcases Nat.lt_or_ge (a / D) (x / D) with h4 | h4
      · have : D * (a / D + 1) ≤ D * (x / D) := Nat.mul_le_mul_left D h4
        rw [Nat.mul_add] at this
        omega
      · omega
    rw [hq] at e1
    omega
  · intro h; rw [h]

theorem Inv.wwait_iff {D : Nat} {s : St α} {W : List α} {b p : Nat} (h : Inv D s W b p) :
    (wrNext D s == s.rd) = true ↔ W.length + 1 = b + D := by
  unfold wrNext
  rw [h.wr_eq, h.rd_eq, incPtr_mod h.D2, beq_iff_eq]
  have := h.wb; have := h.bp; have := h.pw
  constructor
  · intro e
    rcases Nat.lt_or_ge (W.length + 1) (b + D) with h1 | h1
    · have := (mod_eq_iff (D := D) (a := b) (x := W.length + 1) (by omega) h1).1 e
      omega
    · omega
  · intro e; rw [e]; simp

theorem Inv.empty_iff {D : Nat} {s : St α} {W : List α} {b p : Nat} (h : Inv D s W b p) :
    (s.wr == s.rdT) = true ↔ W.length = p := by
  rw [h.wr_eq, h.rdT_eq, beq_iff_eq]
  have := h.wb; have := h.bp; have := h.pw
  exact mod_eq_iff h.pw (by omega)

theorem fifoWrite_eq {D : Nat} {s : St α} {i : In α} (hp : Proto (i, out D s i)) :
    fifoWrite D s i = i.wen := by
  unfold fifoWrite
  cases hw : i.wen
  · rfl
  · have := hp.1 hw
    simp only [out] at this
    simp [bne, this]

theorem fifoRead_eq {D : Nat} {s : St α} {i : In α} (hp : Proto (i, out D s i)) :
    fifoRead s i = i.ren := by
  unfold fifoRead
  cases hw : i.ren
  · rfl
  · have := hp.2 hw
    simp only [out] at this
    cases hc : i.copy
    · simp [hc] at this
      simp [this]
    · simp

theorem step_inv {D : Nat} {s : St α} {W : List α} {b p : Nat} {i : In α} (h : Inv D s W b p)
    (hp : Proto (i, out D s i)) (hc : i.ren = true → i.copy = true → b < W.length) :
    Inv D (next D s i) (W ++ given i.wen i.data) (Spec.next (b, p) i).1 (Spec.next (b, p) i).2 ∧
    (i.ren = true → W[(if i.copy then b else p)]? = some (next D s i).dout) := by
  have e1 := fifoRead_eq hp
  have e2 := fifoWrite_eq hp
  have q1 := h.wb; have q2 := h.bp; have q3 := h.pw
  have hww : i.wen = true → W.length + 1 < b + D := by
    intro hw
    have := hp.1 hw
    simp only [out] at this
    have h2 := h.wwait_iff
    rw [this] at h2
    simp at h2; omega
  have hrr : i.ren = true → i.copy = false → p < W.length := by
    intro hr hcp
    have := hp.2 hr
    simp only [out, hcp] at this
    have h2 := h.empty_iff
    simp at this
    rw [show (s.wr == s.rdT) = false by simpa using this] at h2
    simp at h2; omega
  have hlen : (W ++ given i.wen i.data).length = W.length + i.wen.toNat := by
    cases i.wen <;> simp
  have hcm : i.copy = true → i.mark = false := by
    unfold In.copy In.mark; cases i.cpVld <;> cases i.cpData <;> simp
  have n1 : (Spec.next (b, p) i).1 = if i.mark then p else b := rfl
  have n2 : (Spec.next (b, p) i).2 = if i.ren then (if i.copy then b + 1 else p + 1) else p := rfl
  have hwen1 : i.wen.toNat ≤ 1 := by cases i.wen <;> simp
  have hww' : W.length + i.wen.toNat < b + D := by
    cases hw : i.wen
    · simpa using q1
    · simpa using hww hw
  have hb' : b ≤ (Spec.next (b, p) i).1 := by rw [n1]; split <;> omega
  refine ⟨⟨h.D2, ?_, ?_, ?_, ?_, ?_, ?_, ?_⟩, ?_⟩
  · rw [n1, n2]
    cases hm : i.mark <;> cases hr : i.ren <;> cases hcp : i.copy <;> simp
    all_goals first
      | omega
      | (have := hcm hcp; rw [hm] at this; cases this)
  · rw [n2, hlen]
    cases hr : i.ren <;> cases hcp : i.copy <;> simp
    · omega
    · omega
    · have := hrr hr hcp; omega
    · have := hc hr hcp; omega
  · rw [hlen]; omega
  · rw [n1]
    show (if i.mark then s.rdT else s.rd) = _
    rw [h.rd_eq, h.rdT_eq]; cases i.mark <;> rfl
  · rw [n2]
    show nextRdT D s i = _
    unfold nextRdT
    rw [e1, h.rd_eq, h.rdT_eq, incPtr_mod h.D2, incPtr_mod h.D2]
    cases i.ren <;> cases i.copy <;> rfl
  · rw [hlen]
    show (if fifoWrite D s i then wrNext D s else s.wr) = _
    unfold wrNext
    rw [e2, h.wr_eq, incPtr_mod h.D2]
    cases i.wen <;> rfl
  · intro k hk1 hk2
    rw [hlen] at hk2
    show _ = some ((if fifoWrite D s i then upd s.mem s.wr i.data else s.mem) (k % D))
    rw [e2]
    cases hw : i.wen
    · simp only [given_false, List.append_nil, Bool.false_eq_true, if_false]
      rw [hw] at hk2
      exact h.mem_eq k (by omega) (by simpa using hk2)
    · simp only [given_true, if_true]
      rw [hw] at hk2
      simp at hk2
      rcases Nat.lt_or_ge k W.length with h1 | h1
      · rw [List.getElem?_append_left h1, upd_ne, h.mem_eq k (by omega) h1]
        rw [h.wr_eq]
        intro e
        have := (mod_eq_iff (D := D) (a := k) (x := W.length) (by omega) (by omega)).1 e.symm
        omega
      · have : k = W.length := by omega
        subst this
        rw [h.wr_eq, upd_same]; simp
  · intro hr
    have : (next D s i).dout = s.mem (if i.copy then s.rd else s.rdT) := by
      show (if fifoRead s i then s.mem (if i.copy then s.rd else s.rdT) else s.dout) = _
      rw [e1, hr]; rfl
    rw [this, h.rd_eq, h.rdT_eq]
    cases hcp : i.copy
    · exact h.mem_eq p (by omega) (hrr hr hcp)
    · exact h.mem_eq b (Nat.le_refl _) (hc hr hcp)

theorem init_inv {D : Nat} (hD : 1 < D) (mem0 : Nat → α) (d0 : α) :
    Inv D (init mem0 d0) [] 0 0 := by
  refine ⟨hD, Nat.le_refl _, Nat.zero_le _, ?_, ?_, ?_, ?_, ?_⟩
  · simp; omega
  · simp [init]
  · simp [init]
  · simp [init]
  · intro k _ hk; simp at hk

/-- Main lemma over runs. -/
theorem trace_spec {D : Nat} : ∀ (is : List (In α)) (s : St α) (W : List α) (b p : Nat), Inv D s W b p →
    (∀ e ∈ (machine D).trace s is, Proto e) → CopyOk (b, p) W.length is →
    Inv D ((machine D).final s is) (W ++ written ((machine D).trace s is))
      (Spec.pos (b, p) is).1 (Spec.pos (b, p) is).2 ∧
    ∃ del, (∀ e, delivered ((machine D).trace s is ++ [(e, out D ((machine D).final s is) e)]) = del) ∧
      (Spec.ordinals (b, p) is).map (fun k => (W ++ written ((machine D).trace s is))[k]?)
        = del.map some := by
  intro is
  induction is with
  | nil => intro s W b p h _ _; exact ⟨by simpa [written, Spec.pos] using h, [], by simp [delivered, Spec.ordinals]⟩
  | cons i is ih =>
    intro s W b p h hok hcok
    simp only [Machine.trace_cons, List.mem_cons, forall_eq_or_imp] at hok
    have hp : Proto (i, out D s i) := hok.1
    obtain ⟨hc, hcok⟩ := hcok
    obtain ⟨hi, hd⟩ := step_inv h hp hc
    have hlen : (W ++ given i.wen i.data).length = W.length + i.wen.toNat := by
      cases i.wen <;> simp
    obtain ⟨hf, del, h1, h2⟩ := ih _ _ _ _ hi hok.2 (by rw [hlen]; exact hcok)
    have hw : written ((machine D).trace s (i :: is))
        = given i.wen i.data ++ written ((machine D).trace (next D s i) is) := by
      simp [written, Machine.trace_cons, machine]
    have hpos : Spec.pos (b, p) (i :: is) = Spec.pos (Spec.next (b, p) i) is := rfl
    rw [List.append_assoc] at hf h2
    have hf' : Inv D ((machine D).final s (i :: is)) (W ++ written ((machine D).trace s (i :: is)))
      (Spec.pos (b, p) (i :: is)).1 (Spec.pos (b, p) (i :: is)).2 := by
      rw [hw, hpos]; exact hf
    refine ⟨hf', given i.ren (next D s i).dout ++ del, ?_, ?_⟩
    · intro e
      have h1 := h1 e
      cases is with
      | nil =>
        simp only [Machine.trace_nil, Machine.trace_cons, Machine.final_nil, Machine.final_cons,
          List.nil_append, List.cons_append, delivered] at h1 ⊢
        subst h1
        rfl
      | cons j js =>
        simp only [Machine.trace_cons, List.cons_append, delivered, Machine.final_cons] at h1 ⊢
        rw [← h1]; rfl
    · simp only [Spec.ordinals, List.map_append]
      rw [hw]
      congr 1
      cases hr : i.ren
      · rfl
      · simp only [given_true, List.map_cons, List.map_nil, List.cons.injEq, and_true]
        have := hd hr
        rw [List.getElem?_append_left ?_]
        · exact this
        · exact (List.getElem?_eq_some_iff.1 this).1

end Verif.FifoCopy
