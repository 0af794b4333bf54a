import Verif.FifoCopy
/-!
# Properties C29, C59, C74 of `FifoCopy`
-/
namespace Verif.FifoCopy

universe u
variable {α : Type u}

/-- Trace of a `FifoCopy` of depth `D` from reset. -/
abbrev run (D : Nat) (mem0 : Nat → α) (d0 : α) (is : List (In α)) : List (In α × Out α) :=
  (machine D).trace (init mem0 d0) is

/-- **C29** The `k`-th word handed to the reader is the written word whose ordinal the specification
(`Spec.ordinals`: continue, or rewind to the start of the frame on a copy request) says. -/
theorem fifoCopy_delivers (D : Nat) (hD : 1 < D) (mem0 : Nat → α) (d0 : α) (is : List (In α))
    (i : In α) (hp : ∀ e ∈ run D mem0 d0 is, Proto e) (hc : CopyOk (0, 0) 0 is) :
    (delivered (run D mem0 d0 (is ++ [i]))).map some =
      (Spec.ordinals (0, 0) is).map fun k => (written (run D mem0 d0 is))[k]? := by
  obtain ⟨_, del, h1, h2⟩ := trace_spec is _ [] 0 0 (init_inv hD mem0 d0) hp hc
  have e : run D mem0 d0 (is ++ [i]) = run D mem0 d0 is ++
      [(i, out D ((machine D).final (init mem0 d0) is) i)] := Machine.trace_snoc _ _ _ _
  rw [e, h1 i]
  simpa using h2.symm

/-- **C29**, flags: the reader never passes the writer, the words since the start of the frame (which
may still be replayed) always fit into the memory, the writer has to wait iff `D - 1` words since the
frame start are stored, the reader has to wait iff everything was read (unless it asks for a copy). -/
theorem fifoCopy_flags (D : Nat) (hD : 1 < D) (mem0 : Nat → α) (d0 : α) (is : List (In α))
    (i : In α) (hp : ∀ e ∈ run D mem0 d0 is, Proto e) (hc : CopyOk (0, 0) 0 is) :
    let w := (written (run D mem0 d0 is)).length
    let b := (Spec.pos (0, 0) is).1
    let p := (Spec.pos (0, 0) is).2
    let o := (machine D).outAfter (init mem0 d0) is i
    b ≤ p ∧ p ≤ w ∧ w ≤ b + (D - 1) ∧ (o.wwait = true ↔ w = b + (D - 1)) ∧
      (o.rwait = true ↔ p = w ∧ i.copy = false) := by
  obtain ⟨h, -⟩ := trace_spec is _ [] 0 0 (init_inv hD mem0 d0) hp hc
  simp only [List.nil_append] at h
  have q1 := h.wb; have q2 := h.bp; have q3 := h.pw
  intro w b p o
  refine ⟨q2, q3, ?_, ?_, ?_⟩
  · show w ≤ b + (D - 1)
    change w < b + D at q1
    omega
  · show (wrNext D _ == _) = true ↔ _
    rw [h.wwait_iff]
    show w + 1 = b + D ↔ w = b + (D - 1)
    omega
  · show (if i.copy then false else _ == _) = true ↔ _
    cases hcp : i.copy
    · simp only [Bool.false_eq_true, if_false, and_true]
      rw [h.empty_iff]
      exact eq_comm
    · simp

/-- Cycles which neither rewind nor start a new frame. -/
def Plain (is : List (In α)) : Prop := ∀ i ∈ is, i.cpVld = false

/-- Number of reads. -/
def reads (is : List (In α)) : Nat := is.countP fun i => i.ren

/-- **C29**, meaning of the specification: plain reads walk through the words in order, -/
theorem fifoCopy_plain_in_order (b p : Nat) (is : List (In α)) (h : Plain is) :
    Spec.ordinals (b, p) is = List.range' p (reads is) ∧ Spec.pos (b, p) is = (b, p + reads is) := by
  induction is generalizing p with
  | nil => simp [Spec.ordinals, reads, Spec.pos]
  | cons i is ih =>
    have hi := h i List.mem_cons_self
    have hc : i.copy = false := by simp [In.copy, hi]
    have hm : i.mark = false := by simp [In.mark, hi]
    have hn : Spec.next (b, p) i = (b, p + i.ren.toNat) := by
      simp only [Spec.next, hc, hm]; cases i.ren <;> simp
    obtain ⟨e1, e2⟩ := ih (p + i.ren.toNat) fun j hj => h j (List.mem_cons_of_mem _ hj)
    have hr : reads (i :: is) = i.ren.toNat + reads is := by
      simp only [reads, List.countP_cons]; cases i.ren <;> simp; omega
    refine ⟨?_, ?_⟩
    · simp only [Spec.ordinals, hn, e1, hr, hc]
      cases i.ren
      · simp
      · simp only [given_true, Bool.toNat_true]
        rw [Nat.add_comm 1, List.range'_succ]; simp
    · show Spec.pos (Spec.next (b, p) i) is = _
      rw [hn, e2, hr]; congr 1; omega

/-- and a frame (started at `b` by a mark) read by `n` plain reads, then replayed by a copy request
with its first read followed by plain reads, is delivered twice if it is read to the same length. -/
theorem fifoCopy_frame_twice (b n : Nat) (m c : In α) (xs ys : List (In α)) (hx : Plain xs)
    (hy : Plain ys) (hm : m.mark = true) (hmr : m.ren = false) (hc : c.copy = true)
    (hcr : c.ren = true) (hn : reads xs = n) (hn' : reads ys + 1 = n) (b0 : Nat) :
    Spec.ordinals (b0, b) (m :: (xs ++ c :: ys)) = List.range' b n ++ List.range' b n := by
  have happ : ∀ (u v : List (In α)) (q : Nat × Nat),
      Spec.ordinals q (u ++ v) = Spec.ordinals q u ++ Spec.ordinals (Spec.pos q u) v := by
    intro u
    induction u with
    | nil => intro v q; rfl
    | cons i u ih => intro v q; simp only [List.cons_append, Spec.ordinals, ih, List.append_assoc]; rfl
  have h1 : Spec.next (b0, b) m = (b, b) := by simp [Spec.next, hm, hmr]
  have hcm : c.mark = false := by
    revert hc; unfold In.copy In.mark; cases c.cpVld <;> cases c.cpData <;> simp
  have h2 : Spec.next (b, b + n) c = (b, b + 1) := by simp [Spec.next, hcm, hc, hcr]
  simp only [Spec.ordinals, hmr, given_false, List.nil_append, h1]
  rw [happ, (fifoCopy_plain_in_order b b xs hx).1, (fifoCopy_plain_in_order b b xs hx).2, hn]
  simp only [Spec.ordinals, h2, hcr, hc, given_true, if_true]
  rw [(fifoCopy_plain_in_order b (b + 1) ys hy).1, ← hn', List.range'_succ]; rfl

/-- Full statement of **C59**: a reader which respects `dataOut.wait` never obtains a word which was
not written (even if it asks for a copy of an empty frame). -/
def NoUnderflow (D : Nat) : Prop :=
  ∀ (mem0 : Nat → Nat) (d0 : Nat) (is : List (In Nat)) (i : In Nat),
    (∀ e ∈ run D mem0 d0 is, Proto e) →
    ∀ x ∈ delivered (run D mem0 d0 (is ++ [i])), x ∈ written (run D mem0 d0 is)

/-- **C59** is false: `dataOut.wait` is low on any copy request, even if nothing is stored. -/
theorem fifoCopy_copy_of_empty_broken : ¬ NoUnderflow 4 := by
  intro h
  have := h (fun _ => 9) 0 [⟨false, 0, true, true, true⟩] ⟨false, 0, false, false, false⟩ (by decide)
    9 (by decide)
  revert this
  decide

/-- **C59** with the missing precondition (at least one word of the frame is stored). -/
theorem fifoCopy_no_underflow_partial (D : Nat) (hD : 1 < D) (mem0 : Nat → α) (d0 : α)
    (is : List (In α)) (i : In α) (hp : ∀ e ∈ run D mem0 d0 is, Proto e) (hc : CopyOk (0, 0) 0 is) :
    ∀ x ∈ delivered (run D mem0 d0 (is ++ [i])), x ∈ written (run D mem0 d0 is) := by
  intro x hx
  have h := fifoCopy_delivers D hD mem0 d0 is i hp hc
  have hx' : some x ∈ (delivered (run D mem0 d0 (is ++ [i]))).map some := List.mem_map.2 ⟨x, hx, rfl⟩
  rw [h, List.mem_map] at hx'
  obtain ⟨k, _, hk⟩ := hx'
  exact List.mem_of_getElem? hk

/-! ## C74: `en` asserted while `wait` is set -/

/-- The requests which the wait flags allow. -/
def gate (e : In α × Out α) : In α :=
  { e.1 with wen := e.1.wen && !e.2.wwait, ren := e.1.ren && !e.2.rwait }

/-- **C74** A request made while `wait` is set has no effect: for any history (not only for those which respect the
protocol) the outputs are the same as for the history with only the allowed requests, and that history respects the
protocol, so that C29 applies to it. -/
theorem fifoCopy_gated (D : Nat) (mem0 : Nat → α) (d0 : α) (is : List (In α)) :
    (run D mem0 d0 ((run D mem0 d0 is).map gate)).map Prod.snd = (run D mem0 d0 is).map Prod.snd ∧
    ∀ e ∈ run D mem0 d0 ((run D mem0 d0 is).map gate), Proto e := by
  unfold run
  generalize init mem0 d0 = s
  induction is generalizing s with
  | nil => simp
  | cons i is ih =>
    simp only [Machine.trace_cons, List.map_cons, List.mem_cons, forall_eq_or_imp]
    have hc : (gate (i, (machine D).out s i)).copy = i.copy := rfl
    have ho : (machine D).out s (gate (i, (machine D).out s i)) = (machine D).out s i := rfl
    have hr : fifoRead s (gate (i, (machine D).out s i)) = fifoRead s i := by
      unfold fifoRead
      rw [hc]
      show ((i.ren && !(if i.copy then false else s.wr == s.rdT)) && _) = _
      cases i.ren <;> cases i.copy <;> cases h : (s.wr == s.rdT) <;> simp_all
    have hw : fifoWrite D s (gate (i, (machine D).out s i)) = fifoWrite D s i := by
      unfold fifoWrite
      show ((i.wen && !(wrNext D s == s.rd)) && _) = _
      cases i.wen <;> cases h : (wrNext D s == s.rd) <;> simp_all
    have e : (machine D).next s (gate (i, (machine D).out s i)) = (machine D).next s i := by
      show next D s _ = next D s i
      unfold next nextRdT
      rw [hr, hw]
      rfl
    obtain ⟨h1, h2⟩ := ih ((machine D).next s i)
    rw [e, ho]
    refine ⟨by rw [h1], ⟨fun h => ?_, fun h => ?_⟩, h2⟩
    · have : (i.wen && !((machine D).out s i).wwait) = true := h
      rw [Bool.and_eq_true] at this
      simpa using this.2
    · have : (i.ren && !((machine D).out s i).rwait) = true := h
      rw [Bool.and_eq_true] at this
      simpa using this.2

/-- A history which does not respect the protocol: five writes to a fifo which can hold three words. -/
example : ¬ (∀ e ∈ run 4 (fun _ => 0) 0 (List.replicate 5 ⟨true, 1, false, false, false⟩), Proto e) ∧
    ((run 4 (fun _ => 0) 0 (List.replicate 5 ⟨true, 1, false, false, false⟩)).map gate).map In.wen
      = [true, true, true, false, false] := by decide

/-! Non-vacuity: frame `1,2` replayed, next frame `3,4,5` read across the wrap. -/
def exHist : List (In Nat) :=
  [⟨true, 1, false, true, false⟩, ⟨true, 2, true, false, false⟩, ⟨true, 3, true, false, false⟩,
   ⟨false, 0, true, true, true⟩, ⟨false, 0, true, false, false⟩, ⟨false, 0, false, true, false⟩,
   ⟨true, 4, true, false, false⟩, ⟨true, 5, true, false, false⟩, ⟨false, 0, true, false, false⟩,
   ⟨false, 0, true, true, true⟩, ⟨false, 0, true, false, false⟩, ⟨false, 0, true, false, false⟩]

example : (∀ e ∈ run 4 (fun _ => 0) 0 exHist, Proto e) ∧ CopyOk (0, 0) 0 exHist ∧
    delivered (run 4 (fun _ => 0) 0 (exHist ++ [⟨false, 0, false, false, false⟩]))
      = [1, 2, 1, 2, 3, 4, 5, 3, 4, 5] := by decide
example : (∀ e ∈ run 4 (fun _ => 0) 0 (exHist.take 3), Proto e) ∧ CopyOk (0, 0) 0 (exHist.take 3) ∧
    ((machine 4).outAfter (init (fun _ => 0) 0) (exHist.take 3)
      ⟨false, 0, false, false, false⟩).wwait = true := by decide
example : Plain [(⟨false, 0, true, false, false⟩ : In Nat)] ∧
    (⟨false, 0, false, true, false⟩ : In Nat).mark = true ∧
    (⟨false, 0, true, true, true⟩ : In Nat).copy = true := by
  refine ⟨?_, rfl, rfl⟩
  intro i hi; simp at hi; subst hi; rfl

end Verif.FifoCopy
