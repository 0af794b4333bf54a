import Verif.Fifo
/-!
# Model of `FifoOutOfOrderRead` and the lookup of `FifoOutOfOrderReadFiltered`
(hwtLib/amba/axi_comp/lsu/fifo_oooread.py)

The pointers are those of `Fifo.fifo_pointers`, so the registers of `Verif.Fifo` are used with a dummy payload
(`Unit`). `N` is `ITEMS`.
-/
namespace Verif.FifoOoo

/-- fifo_oooread.py:70-82: the pointers, `item_valid`, `item_write_lock`. -/
structure St where
  ptr : Fifo.St Unit
  valid : Nat → Bool
  lock : Nat → Bool

/-- `write_confirm.vld`, `read_execute.rd`, `read_confirm` (its data only if valid). -/
structure In where
  wvld : Bool
  xrd : Bool
  conf : Option Nat

/-- `write_confirm.rd`, the write pointer (`write_execute.index`), `read_execute.vld/index`, flags. -/
structure Out where
  wrd : Bool
  wptr : Nat
  xvld : Bool
  xidx : Nat
  valid : Nat → Bool
  lock : Nat → Bool

/-- fifo_oooread.py:87 -/
def wrd (s : St) : Bool := !Fifo.writeWait s.ptr && !s.valid s.ptr.wr

/-- fifo_oooread.py:86 and :90, the `en` inputs of the pointers. -/
def ptrIn (s : St) (i : In) : Fifo.In Unit where
  wen := i.wvld && !Fifo.writeWait s.ptr && !s.valid s.ptr.wr
  data := ()
  ren := i.xrd && !Fifo.readWait s.ptr

/-- `write_en` of fifo_oooread.py:79 (`fifo_write` of the pointers). -/
def writeEn (s : St) (i : In) : Bool := Fifo.fifoWrite s.ptr (ptrIn s i)

/-- fifo_oooread.py:99-121, next value of `item_valid[i]`. -/
def nextValid (s : St) (i : In) (k : Nat) : Bool :=
  if i.conf = some k then false
  else if writeEn s i && s.ptr.wr == k then true
  else s.valid k

/-- fifo_oooread.py:99-122, next value of `item_write_lock[i]`. -/
def nextLock (N : Nat) (s : St) (i : In) (k : Nat) : Bool :=
  if i.conf = some k then false
  else if writeEn s i && s.ptr.wr == k then false
  else if s.ptr.rd == k || (s.ptr.rd == (k + N - 1) % N && (ptrIn s i).ren) then s.valid k
  else s.lock k

/-- fifo_oooread.py:65-122 -/
def machine (N : Nat) : Machine St In Out where
  out s _ := { wrd := wrd s, wptr := s.ptr.wr, xvld := !Fifo.readWait s.ptr, xidx := s.ptr.rd,
               valid := s.valid, lock := s.lock }
  next s i := { ptr := Fifo.next N s.ptr (ptrIn s i), valid := nextValid s i, lock := nextLock N s i }

/-- Reset state, fifo_oooread.py:71-73 (`INIT_DATA` is not supported). -/
def init (N : Nat) : St where
  ptr := Fifo.init N [] (fun _ => ()) ()
  valid := fun _ => false
  lock := fun _ => false

/-- fifo_oooread.py:47: width of the index ports. -/
def indexWidth (N : Nat) : Nat := log2ceil (N - 1)
/-- mem/fifo.py:70: width of the pointers. -/
def ptrWidth (N : Nat) : Nat := log2ceil N

/-- fifo_oooread.py:201,212: result of `write_pre_lookup`; `cam` is the key of each item the
cam compares, `o` are the flags in the cycle of the result. -/
def preLookup {κ : Type} [DecidableEq κ] (cam : Nat → κ) (key : κ) (o : Out) (k : Nat) : Bool :=
  decide (cam k = key) && o.valid k && o.lock k

/-- write_aggregator.py:173-178, the items in which a write may be merged. -/
def mergeTargets (lookup : Nat → Bool) (now : Out) (k : Nat) : Bool := lookup k && now.valid k && !now.lock k

/-! ## Observables -/

/-- Life of an item. -/
inductive Phase where
  | free | alloc | reading
  deriving DecidableEq, Repr

/-- A `write_confirm` handshake for item `k`. -/
def writes (e : In × Out) (k : Nat) : Bool := e.1.wvld && e.2.wrd && e.2.wptr == k
/-- A `read_execute` handshake for item `k`. -/
def executes (e : In × Out) (k : Nat) : Bool := e.1.xrd && e.2.xvld && e.2.xidx == k

/-- The life of item `k` as seen on the ports. -/
def phaseStep (k : Nat) (p : Phase) (e : In × Out) : Phase :=
  if e.1.conf = some k then .free
  else if executes e k then .reading
  else if writes e k then .alloc
  else p

def phase (k : Nat) (tr : List (In × Out)) : Phase := tr.foldl (phaseStep k) .free

/-- The user confirms only items which are being read (the read may start in the same cycle). -/
def Disciplined (N : Nat) (tr : List (In × Out)) : Prop :=
  ∀ pre e post, tr = pre ++ e :: post → ∀ k, e.1.conf = some k →
    k < N ∧ (phase k pre = .reading ∨ (phase k pre = .alloc ∧ executes e k = true))

/-! ## Invariant -/

open Fifo Ring

/-- Is item `k` between the pointers? -/
def InWin (s : Fifo.St Unit) (k : Nat) : Prop :=
  if s.looped then s.rd ≤ k ∨ k < s.wr else s.rd ≤ k ∧ k < s.wr

theorem inWin_step {N : Nat} {s : Fifo.St Unit} {i : Fifo.In Unit} (h : Fifo.Inv N s) (hp : Proto (i, out s))
    {k : Nat} (hk : k < N) :
    InWin (next N s i) k ↔ ((InWin s k ∧ ¬ (i.ren = true ∧ k = s.rd)) ∨ (i.wen = true ∧ k = s.wr)) := by
  have hw := h.wr_lt
  have hr := h.rd_lt
  have e1 := fifoRead_eq hp
  have e2 := fifoWrite_eq hp
  have hlp := h.loop_le
  have hnl := h.noloop_le
  have f1 := fun q => len_pos_of_ren h hp q
  have f2 := fun q => len_lt_of_wen h hp q
  unfold len at f1 f2
  unfold InWin next nextLooped
  simp only [e1, e2, incPtr_eq hw, incPtr_eq hr]
  generalize s.wr = W at *
  generalize s.rd = R at *
  generalize s.looped = L at *
  unfold inc
  have k1 : W = N - 1 ↔ W + 1 = N := by omega
  have k2 : R = N - 1 ↔ R + 1 = N := by omega
  by_cases c1 : W + 1 = N <;> by_cases c2 : R + 1 = N <;>
  cases hwen : i.wen <;> cases hren : i.ren <;> cases hL : L <;>
    simp [hwen, hren, hL, c1, c2, k1, k2] at hlp hnl f1 f2 ⊢ <;> omega

structure Inv (N : Nat) (s : St) (ph : Nat → Phase) : Prop where
  ptr : Fifo.Inv N s.ptr
  valid : ∀ k, k < N → (s.valid k = true ↔ ph k ≠ .free)
  win : ∀ k, k < N → (ph k = .alloc ↔ InWin s.ptr k)
  lock1 : ∀ k, k < N → ph k = .reading → s.lock k = true
  lock2 : ∀ k, k < N → s.lock k = true → ph k = .reading ∨ (ph k = .alloc ∧ s.ptr.rd = k)

theorem ptr_proto (s : St) (i : In) : Proto (ptrIn s i, Fifo.out s.ptr) := by
  unfold Proto ptrIn Fifo.out
  refine ⟨?_, ?_⟩ <;> simp
  intro _ h _; exact h

theorem rd_inWin {N : Nat} {s : Fifo.St Unit} (h : Fifo.Inv N s) : readWait s = false ↔ InWin s s.rd := by
  have := h.wr_lt; have := h.rd_lt
  have hl := h.loop_le; have hn := h.noloop_le
  unfold readWait InWin
  cases hL : s.looped <;> simp [hL] at hl hn ⊢
  omega

theorem wr_inWin {N : Nat} {s : Fifo.St Unit} (h : Fifo.Inv N s) : writeWait s = true ↔ InWin s s.wr := by
  have := h.wr_lt; have := h.rd_lt
  have hl := h.loop_le; have hn := h.noloop_le
  unfold writeWait InWin
  cases hL : s.looped <;> simp [hL] at hl hn ⊢
  omega

/-- The offers, in terms of the life of the items. -/
theorem Inv.wrd_iff {N : Nat} {s : St} {ph : Nat → Phase} (h : Inv N s ph) :
    wrd s = true ↔ ph s.ptr.wr = .free := by
  have hw := h.ptr.wr_lt
  have hv := h.valid _ hw
  have hn := h.win _ hw
  have hq := wr_inWin h.ptr
  unfold wrd
  rw [← hn] at hq
  cases hp : ph s.ptr.wr <;> cases hvv : s.valid s.ptr.wr <;> cases hww : writeWait s.ptr <;>
    simp_all

theorem Inv.xvld_iff {N : Nat} {s : St} {ph : Nat → Phase} (h : Inv N s ph) :
    (!readWait s.ptr) = true ↔ ph s.ptr.rd = .alloc := by
  rw [h.win _ h.ptr.rd_lt, ← rd_inWin h.ptr]
  cases readWait s.ptr <;> simp

theorem step_inv {N : Nat} {s : St} {ph : Nat → Phase} {i : In} (h : Inv N s ph)
    (hd : ∀ k, i.conf = some k →
      k < N ∧ (ph k = .reading ∨ (ph k = .alloc ∧ executes (i, (machine N).out s i) k = true))) :
    Inv N ((machine N).next s i) (fun k => phaseStep k (ph k) (i, (machine N).out s i)) := by
  have hpp := ptr_proto s i
  have hr := h.ptr.rd_lt
  have hw := h.ptr.wr_lt
  have ew : writeEn s i = (ptrIn s i).wen := fifoWrite_eq hpp
  have er := fifoRead_eq hpp
  have hwr := h.wrd_iff
  have hxv := h.xvld_iff
  have e1 : (ptrIn s i).wen = (i.wvld && wrd s) := by simp [ptrIn, wrd, Bool.and_assoc]
  have e2 : (ptrIn s i).ren = (i.xrd && !readWait s.ptr) := rfl
  have eW : ∀ k, writes (i, (machine N).out s i) k = ((ptrIn s i).wen && s.ptr.wr == k) := by
    intro k; rw [e1]; rfl
  have eX : ∀ k, executes (i, (machine N).out s i) k = ((ptrIn s i).ren && s.ptr.rd == k) := by
    intro k; rw [e2]; rfl
  have hwf : (ptrIn s i).wen = true → ph s.ptr.wr = .free := by
    intro q; rw [e1] at q; exact hwr.1 (by revert q; cases wrd s <;> simp)
  have hxa : (ptrIn s i).ren = true → ph s.ptr.rd = .alloc := by
    intro q; rw [e2] at q; exact hxv.1 (by revert q; cases readWait s.ptr <;> simp)
  have hrd' : (Fifo.next N s.ptr (ptrIn s i)).rd = if (ptrIn s i).ren then inc N s.ptr.rd else s.ptr.rd := by
    show (if fifoRead s.ptr (ptrIn s i) then incPtr N s.ptr.rd else s.ptr.rd) = _
    rw [er, incPtr_eq hr]
  refine ⟨Fifo.step_inv h.ptr hpp, ?_, ?_, ?_, ?_⟩
  · intro k hk
    have hv := h.valid k hk
    show nextValid s i k = true ↔ _
    unfold nextValid phaseStep
    rw [ew, eW, eX]
    by_cases c1 : i.conf = some k
    · simp [c1]
    · rw [if_neg c1, if_neg (show ¬ (i, (machine N).out s i).1.conf = some k from c1)]
      by_cases c2 : ((ptrIn s i).ren && s.ptr.rd == k) = true
      · rw [if_pos c2]
        simp only [Bool.and_eq_true, beq_iff_eq] at c2
        have := hxa c2.1
        rw [c2.2] at this
        rw [hv.2 (by rw [this]; simp)]
        simp
      · rw [if_neg c2]
        by_cases c3 : ((ptrIn s i).wen && s.ptr.wr == k) = true
        · simp [c3]
        · rw [if_neg c3, if_neg c3]; exact hv
  · intro k hk
    have hn := h.win k hk
    show _ ↔ InWin (Fifo.next N s.ptr (ptrIn s i)) k
    rw [inWin_step h.ptr hpp hk, ← hn]
    unfold phaseStep
    rw [eW, eX]
    by_cases c1 : i.conf = some k
    · rw [if_pos (show (i, (machine N).out s i).1.conf = some k from c1)]
      obtain ⟨_, hd⟩ := hd k c1
      rcases hd with hd | ⟨hd, hx⟩
      · rw [hd]
        simp
        intro q hq
        have := hwf q
        rw [← hq, hd] at this
        cases this
      · rw [eX] at hx
        simp only [Bool.and_eq_true, beq_iff_eq] at hx
        rw [hd]
        simp [hx]
        intro q hq
        have := hwf q
        rw [← hq, hd] at this
        cases this
    · rw [if_neg (show ¬ (i, (machine N).out s i).1.conf = some k from c1)]
      by_cases c2 : ((ptrIn s i).ren && s.ptr.rd == k) = true
      · rw [if_pos c2]
        simp only [Bool.and_eq_true, beq_iff_eq] at c2
        have := hxa c2.1
        rw [c2.2] at this
        simp [c2]
        intro q hq
        have h2 := hwf q
        rw [← hq, this] at h2
        cases h2
      · rw [if_neg c2]
        have c2' : ¬ ((ptrIn s i).ren = true ∧ k = s.ptr.rd) := by
          intro q; apply c2; simp [q.1, q.2]
        by_cases c3 : ((ptrIn s i).wen && s.ptr.wr == k) = true
        · rw [if_pos c3]
          simp only [Bool.and_eq_true, beq_iff_eq] at c3
          simp [c3]
        · rw [if_neg c3]
          have c3' : ¬ ((ptrIn s i).wen = true ∧ k = s.ptr.wr) := by
            intro q; apply c3; simp [q.1, q.2]
          simp [c2', c3']
  · intro k hk
    show _ → nextLock N s i k = true
    unfold nextLock phaseStep
    rw [ew, eW, eX]
    by_cases c1 : i.conf = some k
    · simp [c1]
    · rw [if_neg c1, if_neg (show ¬ (i, (machine N).out s i).1.conf = some k from c1)]
      have hv := h.valid k hk
      by_cases c2 : ((ptrIn s i).ren && s.ptr.rd == k) = true
      · rw [if_pos c2]
        intro _
        simp only [Bool.and_eq_true, beq_iff_eq] at c2
        have := hxa c2.1
        rw [c2.2] at this
        have c3 : ¬ ((ptrIn s i).wen && s.ptr.wr == k) = true := by
          intro q
          simp only [Bool.and_eq_true, beq_iff_eq] at q
          have h2 := hwf q.1
          rw [q.2, this] at h2
          cases h2
        rw [if_neg c3, if_pos (by simp [c2.2])]
        exact hv.2 (by rw [this]; simp)
      · rw [if_neg c2]
        by_cases c3 : ((ptrIn s i).wen && s.ptr.wr == k) = true
        · rw [if_pos c3]; intro q; cases q
        · rw [if_neg c3, if_neg c3]
          intro q
          split
          · exact hv.2 (by rw [q]; simp)
          · exact h.lock1 k hk q
  · intro k hk
    show nextLock N s i k = true → _
    unfold nextLock phaseStep
    rw [ew, eW, eX]
    show _ → (_ ∨ (_ ∧ (Fifo.next N s.ptr (ptrIn s i)).rd = k))
    rw [hrd']
    by_cases c1 : i.conf = some k
    · simp [c1]
    · rw [if_neg c1, if_neg (show ¬ (i, (machine N).out s i).1.conf = some k from c1)]
      have hv := h.valid k hk
      by_cases c2 : ((ptrIn s i).ren && s.ptr.rd == k) = true
      · rw [if_pos c2]; intro _; left; rfl
      · rw [if_neg c2]
        by_cases c3 : ((ptrIn s i).wen && s.ptr.wr == k) = true
        · rw [if_pos c3]; intro q; cases q
        · rw [if_neg c3, if_neg c3]
          split
          · rename_i c4
            intro q
            have hne := hv.1 q
            cases hph : ph k
            · exact absurd hph hne
            · right
              refine ⟨rfl, ?_⟩
              simp only [Bool.or_eq_true, Bool.and_eq_true, beq_iff_eq] at c4
              rcases c4 with c4 | ⟨c4, c5⟩
              · have : ¬ (ptrIn s i).ren = true := by
                  intro q; apply c2; simp [q, c4]
                rw [if_neg this, c4]
              · rw [if_pos c5, c4]
                unfold inc
                by_cases k0 : k = 0
                · subst k0
                  rw [Nat.mod_eq_of_lt (by omega)]
                  rw [if_pos (by omega)]
                · rw [show k + N - 1 = (k - 1) + N by omega, Nat.add_mod_right, Nat.mod_eq_of_lt (by omega)]
                  rw [if_neg (by omega)]; omega
            · left; rfl
          · rename_i c4
            intro q
            rcases h.lock2 k hk q with q | ⟨q, q'⟩
            · exact Or.inl q
            · exact absurd (by simp [q']) c4

end Verif.FifoOoo
