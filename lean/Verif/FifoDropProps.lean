import Verif.FifoDrop
/-!
# Properties C27, C28 (and C57, C58) of `FifoDrop`
-/
namespace Verif.FifoDrop

universe u
variable {α : Type u}

/-- Trace of a `FifoDrop` of depth `D` from reset over the inputs `is`. -/
abbrev run (D : Nat) (mem0 : Nat → α) (d0 : α) (is : List (In α)) : List (In α × Out α) :=
  (machine D).trace (init D mem0 d0) is

/-- What a user of the component expects after the history `is` (next inputs `i`):
delivered words are exactly the committed words in order, the reader has to wait iff all committed
words were read, the writer has to wait iff `D` words are stored, and `size` counts them. -/
def Good (D : Nat) (mem0 : Nat → α) (d0 : α) (is : List (In α)) (i : In α) : Prop :=
  let tr := run D mem0 d0 is
  let o := (machine D).outAfter (init D mem0 d0) is i
  let stored := (committed [] tr).length + (pending [] tr).length - reads tr
  delivered (run D mem0 d0 (is ++ [i])) <+: committed [] tr ∧
  (delivered (run D mem0 d0 (is ++ [i]))).length = reads tr ∧
  (o.rwait = true ↔ reads tr = (committed [] tr).length) ∧
  stored ≤ D ∧ (o.wwait = true ↔ stored = D) ∧ o.size = stored

/-- Full statement of **C27**: every protocol respecting history is good. -/
def DropCorrect (D : Nat) : Prop :=
  ∀ (mem0 : Nat → Nat) (d0 : Nat) (is : List (In Nat)) (i : In Nat),
    (∀ e ∈ run D mem0 d0 is, Proto e) → Good D mem0 d0 is i

/-- **C27** for all histories in which no discard coincides with the read of the last memory cell.
Missing: the excluded histories, for which the code is wrong (`fifoDrop_wrap_discard_deadlock`,
`fifoDrop_wrap_discard_corrupts`). -/
theorem fifoDrop_correct_partial (D : Nat) (hD : 0 < D) (mem0 : Nat → α) (d0 : α)
    (is : List (In α)) (i : In α) (hp : ∀ e ∈ run D mem0 d0 is, Proto e)
    (hnd : NoWrapDiscard D 0 is) : Good D mem0 d0 is i := by
  obtain ⟨c', t', hf, hs, del, h1, h2, h4, _⟩ :=
    trace_words is _ 0 0 0 (init_inv hD mem0 d0) (by simp [init]) hp hnd
  have e0 : com D (init D mem0 d0) 0 = [] := rfl
  have e1 : sta D (init D mem0 d0) 0 0 = [] := rfl
  rw [e0, e1, List.nil_append] at h1
  rw [e1] at hs
  have hl := congrArg List.length h1
  have hl2 := congrArg List.length hs
  have a := writeWait_iff hf
  have b := readWait_iff hf
  have q1 := hf.c_le
  have q2 := hf.t_le
  rw [List.length_append, h2] at hl
  simp only [com, sta, Ring.window_length] at hl hl2
  have edel : delivered (run D mem0 d0 (is ++ [i])) = del := by
    have e : run D mem0 d0 (is ++ [i]) = run D mem0 d0 is ++
        [(i, out D ((machine D).final (init D mem0 d0) is))] := Machine.trace_snoc _ _ _ _
    rw [e, h4 i]
  have hsz : ((machine D).outAfter (init D mem0 d0) is i).size = t' := by
    show (((machine D).final (init D mem0 d0) is).size +
      ((machine D).final (init D mem0 d0) is).stash) % Fifo.cntMod D = t'
    have := Fifo.lt_cntMod D
    rw [hf.size_eq, hf.stash_eq, Nat.mod_eq_of_lt (by omega)]; omega
  unfold Good
  refine ⟨?_, ?_, ?_, ?_, ?_, ?_⟩
  · rw [edel]; exact ⟨_, h1.symm⟩
  · rw [edel]; exact h2
  · refine Iff.trans b ?_; unfold run; omega
  · unfold run; omega
  · refine Iff.trans a ?_; unfold run; omega
  · rw [hsz]; unfold run; omega

/-- A history of depth 2: two words are committed, one read, and the second one is read in the cycle of
a discard. -/
def wrapHist : List (In Nat) :=
  [⟨true, 1, true, false, false⟩, ⟨true, 2, true, false, false⟩, ⟨false, 0, false, false, true⟩,
   ⟨false, 0, false, true, true⟩]

/-- **C27** is false: a discard in the cycle in which the last memory cell is read leaves an empty
fifo which claims to be full, -/
theorem fifoDrop_wrap_discard_broken : ¬ DropCorrect 2 := by
  intro h
  have := h (fun _ => 0) 0 wrapHist ⟨false, 0, false, false, false⟩ (by decide)
  revert this
  unfold Good
  decide

/-- The stuck state of `wrapHist`: both sides are told to wait. -/
def Stuck (D : Nat) (s : St α) : Prop := s.wr = 0 ∧ s.wrT = 0 ∧ s.rd = 0 ∧ s.looped = false ∧
  s.loopedT = true ∧ 1 < D

/-- and it stays so forever unless another discard is issued: every protocol respecting continuation
without discard is told to wait on both sides in every cycle (deadlock of an empty fifo). -/
theorem fifoDrop_wrap_discard_deadlock (mem0 : Nat → Nat) (d0 : Nat) (is : List (In Nat))
    (i : In Nat) (hp : ∀ e ∈ run 2 mem0 d0 (wrapHist ++ is), Proto e)
    (hd : ∀ j ∈ is, j.discard = false) :
    (∀ e ∈ run 2 mem0 d0 wrapHist, Proto e) ∧
    committed [] (run 2 mem0 d0 wrapHist) = [1, 2] ∧ reads (run 2 mem0 d0 wrapHist) = 2 ∧
    ((machine 2).outAfter (init 2 mem0 d0) (wrapHist ++ is) i).wwait = true ∧
    ((machine 2).outAfter (init 2 mem0 d0) (wrapHist ++ is) i).rwait = true := by
  have key : ∀ (is : List (In Nat)) (s : St Nat), Stuck 2 s → (∀ e ∈ (machine 2).trace s is, Proto e) →
      (∀ j ∈ is, j.discard = false) → Stuck 2 ((machine 2).final s is) := by
    intro is
    induction is with
    | nil => intro s h _ _; exact h
    | cons j js ih =>
      intro s h hp hd
      simp only [Machine.trace_cons, List.mem_cons, forall_eq_or_imp] at hp
      apply ih _ _ hp.2 (fun k hk => hd k (List.mem_cons_of_mem _ hk))
      obtain ⟨a, b, c, d, e, f⟩ := h
      have hdj := hd j List.mem_cons_self
      obtain ⟨p1, p2, p3⟩ := hp.1
      have w1 : (out 2 s).rwait = true := by simp [out, readWait, a, c, d]
      have w2 : (out 2 s).wwait = true := by simp [out, writeWait, b, c, e]
      have hren : j.ren = false := by
        cases hr : j.ren
        · rfl
        · have := p1 hr; simp [machine, w1] at this
      have hwen : j.wen = false := by
        cases hr : j.wen
        · rfl
        · have := p2 hr; simp [machine, w2, hdj] at this
      have hcom : j.commit = false := by
        cases hr : j.commit
        · rfl
        · have := (p3 hr).1; simp [hwen] at this
      refine ⟨?_, ?_, ?_, ?_, ?_, f⟩ <;>
        simp [machine, next, nextWr, nextWrT, nextLooped, nextLoopedT, fifoRead, fifoWrite, hren,
          hwen, hcom, hdj, a, b, c, d, e]
  have h0 : Stuck 2 ((machine 2).final (init 2 mem0 d0) wrapHist) := by
    refine ⟨rfl, rfl, rfl, rfl, rfl, by decide⟩
  have htr : run 2 mem0 d0 (wrapHist ++ is) = run 2 mem0 d0 wrapHist ++
      (machine 2).trace ((machine 2).final (init 2 mem0 d0) wrapHist) is := Machine.trace_append _ _ _ _
  rw [htr] at hp
  have hs := key is _ h0 (fun e he => hp e (List.mem_append_right _ he)) hd
  rw [← Machine.final_append] at hs
  obtain ⟨a, b, c, d, e, f⟩ := hs
  refine ⟨fun e he => hp e (List.mem_append_left _ he), rfl, rfl, ?_, ?_⟩
  · show writeWait _ = true
    simp [writeWait, b, c, e]
  · show readWait _ = true
    simp [readWait, a, c, d]

/-- The same defect also hands out words that were never written: after the discard coinciding with
the read of the last cell, one more committed word makes five words readable. -/
def corruptHist : List (In Nat) :=
  [⟨true, 1, true, false, false⟩, ⟨true, 2, true, false, false⟩, ⟨true, 3, true, false, false⟩,
   ⟨false, 0, false, false, true⟩, ⟨true, 4, true, false, true⟩, ⟨false, 0, false, true, true⟩,
   ⟨true, 5, true, false, true⟩, ⟨false, 0, false, false, true⟩, ⟨false, 0, false, false, true⟩]

theorem fifoDrop_wrap_discard_corrupts :
    (∀ e ∈ run 3 (fun _ => 0) 0 corruptHist, Proto e) ∧
    committed [] (run 3 (fun _ => 0) 0 corruptHist) = [1, 2, 3, 4, 5] ∧
    delivered (run 3 (fun _ => 0) 0 (corruptHist ++ [⟨false, 0, false, false, false⟩]))
      = [1, 2, 3, 4, 5, 3] := by decide

/-- Full statement of **C28**: `space` counts the free cells. -/
def SpaceCorrect (D : Nat) : Prop :=
  ∀ (mem0 : Nat → Nat) (d0 : Nat) (is : List (In Nat)) (i : In Nat),
    (∀ e ∈ run D mem0 d0 is, Proto e) → NoWrapDiscard D 0 is →
    let tr := run D mem0 d0 is
    ((machine D).outAfter (init D mem0 d0) is i).space + (committed [] tr).length
      + (pending [] tr).length = D + reads tr

/-- **C28** is false: a plain write does not decrease `space`, for any depth. -/
theorem fifoDrop_space_broken (D : Nat) : ¬ SpaceCorrect D := by
  intro h
  have hp : ∀ e ∈ run D (fun _ => 0) 0 [(⟨true, 1, true, false, false⟩ : In Nat)], Proto e := by
    simp [run, Machine.trace_cons, Proto, machine, out, init, writeWait, readWait]
  have := h (fun _ => 0) 0 [⟨true, 1, true, false, false⟩] ⟨false, 0, false, false, false⟩ hp
    (by simp [NoWrapDiscard])
  simp [run, Machine.trace_cons, Machine.outAfter, Machine.final_cons, machine, out, next, nextSpace,
    init, fifoRead, fifoWrite, committed, pending, reads] at this

/-- **C28**, what remains true: after any history, a cycle without a write and without a discard
changes `space` (modulo its width) by the read made in it. Missing: writes and discards, for which the
counter is wrong. -/
theorem fifoDrop_space_partial (D : Nat) (mem0 : Nat → α) (d0 : α) (is : List (In α)) (i i' : In α)
    (hp : ∀ e ∈ run D mem0 d0 (is ++ [i]), Proto e) (hw : i.wen = false) (hd : i.discard = false) :
    (((machine D).outAfter (init D mem0 d0) (is ++ [i]) i').space) % Fifo.cntMod D =
      (((machine D).outAfter (init D mem0 d0) is i).space + i.ren.toNat) % Fifo.cntMod D := by
  have e0 : run D mem0 d0 (is ++ [i]) = run D mem0 d0 is ++
      [(i, out D ((machine D).final (init D mem0 d0) is))] := Machine.trace_snoc _ _ _ _
  rw [e0] at hp
  have hp := hp _ (List.mem_append_right _ (List.mem_singleton.2 rfl))
  have e1 := fifoRead_eq hp
  have e2 := fifoWrite_eq hp hd
  have e3 : (machine D).final (init D mem0 d0) (is ++ [i])
      = next D ((machine D).final (init D mem0 d0) is) i := by
    rw [Machine.final_append]; rfl
  show ((machine D).final (init D mem0 d0) (is ++ [i])).space % _ = _
  rw [e3]
  show nextSpace D _ i % _ = (((machine D).final (init D mem0 d0) is).space + _) % _
  unfold nextSpace
  rw [e1, e2, hw, hd]
  cases i.ren <;> simp

/-- Full statement of **C57**: `discard` has no effect unless `en` is asserted ("it is valid if
en=1", mem/fifoDrop.py:22-23). -/
def DiscardNeedsEn (D : Nat) : Prop :=
  ∀ (s : St Nat) (i : In Nat), i.wen = false → next D s i = next D s { i with discard := false }

/-- **C57** is false: a discard without `en` drops the uncommitted words. Reachable witness. -/
theorem fifoDrop_discard_without_en :
    let is : List (In Nat) := [⟨true, 1, false, false, false⟩, ⟨false, 0, false, true, false⟩,
      ⟨true, 2, true, false, false⟩, ⟨false, 0, false, false, true⟩]
    delivered (run 2 (fun _ => 0) 0 (is ++ [⟨false, 0, false, false, false⟩])) = [2] ∧
    ∀ D, 0 < D → ¬ DiscardNeedsEn D := by
  refine ⟨by decide, ?_⟩
  intro D hD h
  have := congrArg St.wrT (h ⟨0, 1, 0, false, false, fun _ => 0, 0, 1, 0, 0⟩
    ⟨false, 0, false, true, false⟩ rfl)
  simp [next, nextWrT, fifoWrite] at this

/-- **C57**, the part which holds: `commit` without `en` has no effect. Missing: `discard`. -/
theorem fifoDrop_commit_needs_en_partial (D : Nat) (s : St α) (i : In α) (h : i.wen = false) :
    next D s i = next D s { i with commit := false } := by
  simp [next, nextWr, nextWrT, nextLooped, nextLoopedT, nextStash, nextSize, nextSpace, fifoRead,
    fifoWrite, h]

/-- Full statement of **C58**: a commit issued while the writer is told to wait ("the commit/drop logic
is executed on write but also during dataIn.wait=1", mem/fifoDrop.py:78-80) makes exactly the words
written so far available: never can more words be read than were written. -/
def CommitWhileFull (D : Nat) : Prop :=
  ∀ (mem0 : Nat → Nat) (d0 : Nat) (is : List (In Nat)),
    (∀ e ∈ run D mem0 d0 is, (e.1.ren = true → e.2.rwait = false) ∧
      (e.1.wen = true → e.2.wwait = false ∨ e.1.commit = true) ∧ e.1.discard = false) →
    reads (run D mem0 d0 is) ≤
      ((run D mem0 d0 is).filter fun e => e.1.wen && !e.2.wwait).length

/-- **C58** is false: only the loop flag is updated, not the pointer; three words can be read out of two
written ones. -/
theorem fifoDrop_commit_while_full_broken : ¬ CommitWhileFull 2 := by
  intro h
  have := h (fun _ => 0) 0 [⟨true, 1, true, false, false⟩, ⟨true, 2, false, false, false⟩,
    ⟨true, 3, true, false, false⟩, ⟨false, 0, false, false, true⟩, ⟨false, 0, false, false, true⟩,
    ⟨false, 0, false, false, true⟩] (by decide)
  revert this
  decide

/-! Non-vacuity. -/

/-- Chunks committed and discarded, wrapping, with a full memory. -/
def exHist : List (In Nat) :=
  [⟨true, 1, false, false, false⟩, ⟨true, 2, true, false, false⟩, ⟨true, 9, false, false, true⟩,
   ⟨true, 9, false, false, false⟩, ⟨false, 0, false, true, true⟩, ⟨true, 3, false, false, false⟩,
   ⟨true, 4, true, false, false⟩, ⟨false, 0, false, false, true⟩, ⟨false, 0, false, false, true⟩]

example : (∀ e ∈ run 3 (fun _ => 0) 0 exHist, Proto e) ∧ NoWrapDiscard 3 0 exHist ∧
    committed [] (run 3 (fun _ => 0) 0 exHist) = [1, 2, 3, 4] ∧
    delivered (run 3 (fun _ => 0) 0 (exHist ++ [⟨false, 0, false, false, false⟩])) = [1, 2, 3, 4] := by
  decide
example : (∀ e ∈ run 3 (fun _ => 0) 0 (exHist.take 4), Proto e) ∧ NoWrapDiscard 3 0 (exHist.take 4) ∧
    ((machine 3).outAfter (init 3 (fun _ => 0) 0) (exHist.take 4)
      ⟨false, 0, false, false, false⟩).wwait = true := by decide
example : ∀ e ∈ run 2 (fun _ => 0) 0 (wrapHist ++ [⟨false, 0, false, false, false⟩]), Proto e := by
  decide
/-- The hypotheses of `fifoDrop_space_partial`. -/
example : (∀ e ∈ run 3 (fun _ => 0) 0 (exHist.take 7 ++ [⟨false, 0, false, false, true⟩]), Proto e) := by
  decide

end Verif.FifoDrop
