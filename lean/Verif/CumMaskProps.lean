import Verif.CumMask
/-! Properties C164-C165 of `RamCumulativeMask`. -/
namespace Verif.CumMask

variable {α : Type}

theorem Steady.init {tr : List (In α × Out α)} {e : In α × Out α} (h : Steady (tr ++ [e])) : Steady tr := by
  intro pre a b post he
  exact h pre a b (post ++ [e]) (by rw [he]; simp)

theorem weMask_false (n : Nat) (w : W α) (i : Nat) (hi : w.we i = true → i < n) (h : weMask n w (i / 8) = false) : w.we i = false := by
  rcases Bool.eq_false_or_eq_true (w.we i) with hw | hw
  · exfalso
    unfold weMask at h
    rw [Bool.or_eq_false_iff, Bool.or_eq_false_iff, List.any_eq_false] at h
    have h1 := h.1.1 (i % 8) (List.mem_range.2 (Nat.mod_lt _ (by decide)))
    rw [Nat.div_add_mod] at h1
    simp [hw, hi hw] at h1
  · exact hw

structure Inv (m : Nat → Word α) (tr : List (In α × Out α)) (s : St α) : Prop where
  mem : s.mem = content m tr
  pre : s.preload = true → ∃ pre e, tr = pre ++ [e] ∧ acc e.1.w = true ∧ e.2.wRd = false ∧ s.dout 0 = s.mem e.1.w.addr

theorem inv_step (n : Nat) (m : Nat → Word α) (tr : List (In α × Out α)) (s : St α) (x : In α) (hf : Fits n x) (hs : Steady (tr ++ [(x, out s x)]))
    (h : Inv m tr s) : Inv m (tr ++ [(x, out s x)]) (next n s x) := by
  have hw : write s x.w = (x.w.vld && (out s x).wRd) := by
    simp only [write, out]
    cases x.w.vld <;> cases x.w.overwrite <;> cases x.w.accumulate <;> rfl
  have eW : content m (tr ++ [(x, out s x)]) = if write s x.w then apply (content m tr) x.w else content m tr := by
    have e1 : writes (tr ++ [(x, out s x)]) = writes tr ++ given (write s x.w) x.w := by
      rw [hw]; simp [writes]
    unfold content
    rw [e1, List.foldl_append]
    cases write s x.w <;> rfl
  -- what is known about the word which is preloaded
  have hp : s.preload = true → (s.dout 0) = s.mem x.w.addr ∧ acc x.w = true := by
    intro hpre
    obtain ⟨pre, e, h1, h2, h3, h4⟩ := h.pre hpre
    have hv : e.1.w.vld = true := by
      simp only [acc, Bool.and_eq_true] at h2; exact h2.1.1
    have := hs pre e (x, out s x) [] (by rw [h1]; simp) hv h3
    simp only at this
    rw [this]
    exact ⟨h4, h2⟩
  refine ⟨?_, ?_⟩
  · rw [eW, ← h.mem]
    simp only [next]
    cases hwr : write s x.w
    · simp
    · simp only [if_true]
      funext a
      by_cases ha : a = x.w.addr
      · subst ha
        rw [upd_same]
        simp only [apply, if_true, newWord]
        congr 1
        funext i
        cases hpre : s.preload
        · -- not accumulating
          have hna : (x.w.accumulate && !x.w.overwrite) = false := by
            simp only [write, hpre, Bool.or_false, Bool.and_eq_true] at hwr
            have := hwr.2
            cases ho : x.w.overwrite <;> cases hc : x.w.accumulate <;> simp_all
          have hwm : weMask n x.w (i / 8) = true := by
            unfold weMask
            cases ho : x.w.overwrite <;> cases hc : x.w.accumulate <;> simp_all
          rw [hna, hwm]
          simp
        · obtain ⟨p1, p2⟩ := hp hpre
          have hna : (x.w.accumulate && !x.w.overwrite) = true := by
            simp only [acc, Bool.and_eq_true] at p2 ⊢
            exact ⟨p2.1.2, p2.2⟩
          rw [hna, p1]
          cases hwm : weMask n x.w (i / 8)
          · rw [weMask_false n x.w i (hf i) hwm]; simp
          · simp [Bool.or_comm]
      · rw [upd_ne _ _ _ _ ha]
        simp [apply, ha]
  · intro hpre
    have hpn : (if x.w.vld then !s.preload && x.w.accumulate && !x.w.overwrite else s.preload) = true := hpre
    cases hv : x.w.vld
    · exfalso
      rw [hv] at hpn
      have := (hp (by simpa using hpn)).2
      simp [acc, hv] at this
    · rw [hv] at hpn
      simp only [if_true, Bool.and_eq_true, Bool.not_eq_true'] at hpn
      have hac : acc x.w = true := by simp [acc, hv, hpn.1.2, hpn.2]
      refine ⟨tr, (x, out s x), rfl, hac, ?_, ?_⟩
      · simp [out, hpn.1.2, hpn.2, hpn.1.1]
      · have hnw : write s x.w = false := by simp [write, hpn.1.2, hpn.2, hpn.1.1]
        simp [next, hac, hnw]

theorem inv (n : Nat) (s : St α) (hs : s.preload = false) (is : List (In α)) (hf : ∀ x ∈ is, Fits n x) (hst : Steady ((machine n).trace s is)) :
    Inv s.mem ((machine n).trace s is) ((machine n).final s is) := by
  induction is using List.reverseRecOn with
  | nil => exact ⟨rfl, fun h => by rw [show (machine n).final s [] = s from rfl, hs] at h; exact absurd h (by decide)⟩
  | append_singleton is x ih =>
    rw [Machine.trace_snoc] at hst ⊢
    rw [Machine.final_append]
    exact inv_step n _ _ _ x (hf x (by simp)) hst (ih (fun y hy => hf y (List.mem_append_left _ hy)) hst.init)

/-! ## C164: reads -/

/-- full property: after a read is accepted the port shows the content of its address -/
def Reads (n : Nat) : Prop := ∀ (s : St Nat), s.preload = false → ∀ (is : List (In Nat)) (x y : In Nat), (∀ z ∈ is, Fits n z) → Fits n x →
  Steady ((machine n).trace s (is ++ [x])) → ∀ k, x.rVld k = true → ((machine n).outAfter s is x).rRd k = true →
  ((machine n).outAfter s (is ++ [x]) y).dout k = content s.mem ((machine n).trace s is) (x.rAddr k)

/-- a memory in which the words differ; accumulating write to address 0, read of address 1 -/
def demo : St Nat := ⟨fun a => ⟨fun _ => a, fun _ => false⟩, false, fun _ => ⟨fun _ => 0, fun _ => false⟩⟩
def accWrite : In Nat := ⟨⟨true, 0, fun _ => 7, fun i => i == 0, true, false⟩, fun _ => true, fun _ => 1⟩

theorem accWrite_fits : Fits 8 accWrite := by
  intro i hi
  simp [accWrite] at hi
  omega

theorem steady_accWrite : Steady ((machine 8).trace demo [accWrite, accWrite]) := by
  intro pre e f post h _ _
  have hm : ∀ g ∈ (machine 8).trace demo [accWrite, accWrite], g.1.w = accWrite.w := by
    intro g hg
    simp only [Machine.trace, List.mem_cons, List.not_mem_nil, or_false] at hg
    rcases hg with rfl | rfl <;> rfl
  rw [hm e (by rw [h]; simp), hm f (by rw [h]; simp)]

/-- **C164** (the full property fails) In the second cycle of an accumulating write the first read port is ready, but the memory is read at the address of the
write. -/
theorem mask_read_fails : ¬ Reads 8 := by
  intro h
  have := h demo rfl [accWrite] accWrite accWrite (fun z hz => by simp only [List.mem_singleton] at hz; rw [hz]; exact accWrite_fits) accWrite_fits
    steady_accWrite 0 rfl (by decide)
  have := congrArg (fun w => w.data 1) this
  exact absurd this (by decide)

/-- **C164** A read accepted by other ports than the first one, or by the first one in a cycle without an accumulating write, gives the content of its
address after the writes accepted before. -/
theorem mask_read_partial (n : Nat) (s : St α) (hs : s.preload = false) (is : List (In α)) (x y : In α) (hf : ∀ z ∈ is, Fits n z)
    (hst : Steady ((machine n).trace s is)) (k : Nat) (hv : x.rVld k = true)
    (hk : k = 0 → (x.w.vld && x.w.accumulate && !x.w.overwrite) = false) :
    ((machine n).outAfter s is x).rRd k = true ∧
    ((machine n).outAfter s (is ++ [x]) y).dout k = content s.mem ((machine n).trace s is) (x.rAddr k) := by
  have hi := inv n s hs is hf hst
  have e1 : ((machine n).outAfter s is x).rRd k = (out ((machine n).final s is) x).rRd k := rfl
  have e2 : ((machine n).outAfter s (is ++ [x]) y).dout k = ((machine n).final s (is ++ [x])).dout k := rfl
  rw [e1, e2, Machine.final_append, ← hi.mem]
  show _ ∧ (next n ((machine n).final s is) x).dout k = _
  by_cases h0 : k = 0
  · subst h0
    have := hk rfl
    have ha : acc x.w = false := this
    simp [out, next, ha, hv]
  · simp [out, next, h0, hv]

/-- **C164** Every read accepted outside of the cycle in which an accumulating write is accepted gives the content of its address. -/
theorem mask_read_accepted_partial (n : Nat) (s : St α) (hs : s.preload = false) (is : List (In α)) (x y : In α) (hf : ∀ z ∈ is, Fits n z)
    (hst : Steady ((machine n).trace s is)) (k : Nat) (hv : x.rVld k = true) (hr : ((machine n).outAfter s is x).rRd k = true)
    (hk : (x.w.vld && x.w.accumulate && !x.w.overwrite && ((machine n).outAfter s is x).wRd) = false) :
    ((machine n).outAfter s (is ++ [x]) y).dout k = content s.mem ((machine n).trace s is) (x.rAddr k) := by
  refine (mask_read_partial n s hs is x y hf hst k hv ?_).2
  rintro rfl
  have e1 : ((machine n).outAfter s is x).rRd 0 = (out ((machine n).final s is) x).rRd 0 := rfl
  have e2 : ((machine n).outAfter s is x).wRd = (out ((machine n).final s is) x).wRd := rfl
  rw [e1] at hr
  rw [e2] at hk
  generalize (machine n).final s is = t at *
  simp only [out, acc, if_true] at hr hk
  clear e1 e2 hs hst hf hv
  revert hr hk
  cases x.w.vld <;> cases x.w.accumulate <;> cases x.w.overwrite <;> cases t.preload <;> simp

example : ((machine 8).outAfter demo [accWrite, accWrite] { accWrite with w := { accWrite.w with vld := false } }).rRd 0 = true ∧
    ((machine 8).outAfter demo [] accWrite).rRd 0 = false := by decide

/-! ## C165: writes -/

/-- **C165** The memory contains exactly what the accepted writes, applied one after another, make of it: the data of the bytes enabled are stored and their
mask is replaced (`do_overwrite`) or accumulated (`do_accumulate`). Seen by the second read port. -/
theorem mask_write (n : Nat) (s : St α) (hs : s.preload = false) (is : List (In α)) (x y : In α) (hf : ∀ z ∈ is, Fits n z)
    (hst : Steady ((machine n).trace s is)) (hv : x.rVld 1 = true) :
    ((machine n).outAfter s (is ++ [x]) y).dout 1 = (writes ((machine n).trace s is)).foldl apply s.mem (x.rAddr 1) :=
  (mask_read_partial n s hs is x y hf hst 1 hv (fun h => absurd h (by decide))).2

/-- an accumulating write is accepted in the second cycle -/
theorem mask_accepted (n : Nat) (s : St α) (is : List (In α)) (x y : In α) (hv : x.w.vld = true) (h : ((machine n).outAfter s is x).wRd = false) :
    ((machine n).outAfter s (is ++ [x]) y).wRd = true := by
  have e1 : ((machine n).outAfter s is x).wRd = (out ((machine n).final s is) x).wRd := rfl
  have e2 : ((machine n).outAfter s (is ++ [x]) y).wRd = (out ((machine n).final s (is ++ [x])) y).wRd := rfl
  rw [e1] at h
  rw [e2, Machine.final_append]
  generalize (machine n).final s is = t at *
  show (out (next n t x) y).wRd = true
  simp only [out, Bool.or_eq_false_iff, Bool.not_eq_false'] at h
  simp [out, next, hv, h.1.1, h.1.2, h.2]

/-- two accumulating writes: the mask collects both bytes -/
def acc1 : In Nat := ⟨⟨true, 0, fun _ => 7, fun i => i == 1, true, false⟩, fun _ => true, fun _ => 0⟩
example : ((content demo.mem ((machine 8).trace demo [accWrite, accWrite, acc1, acc1])) 0).mask 0 = true ∧
    ((content demo.mem ((machine 8).trace demo [accWrite, accWrite, acc1, acc1])) 0).mask 1 = true := by decide
example : Steady ((machine 8).trace demo [accWrite, accWrite]) ∧ Fits 8 accWrite := ⟨steady_accWrite, accWrite_fits⟩

end Verif.CumMask
