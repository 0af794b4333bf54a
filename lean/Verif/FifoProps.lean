import Verif.Fifo
/-!
# Properties C01 - C04 of `Fifo`
-/
namespace Verif.Fifo

universe u
variable {α : Type u}

/-- Trace of a fifo of depth `D` with `INIT_DATA = l` from reset over the inputs `is`. -/
abbrev run (D : Nat) (l : List α) (mem0 : Nat → α) (d0 : α) (is : List (In α)) :
    List (In α × Out α) := (machine D).trace (init D l mem0 d0) is

/-- The environment respects the fifo protocol in every cycle of the run. -/
abbrev Respects (D : Nat) (l : List α) (mem0 : Nat → α) (d0 : α) (is : List (In α)) : Prop :=
  ∀ e ∈ run D l mem0 d0 is, Proto e

/-- **C01** Every word delivered is the written word of the same position: the delivered sequence is
a prefix of the written sequence, and each read (except one in the last recorded cycle, whose answer
is only visible one cycle later) delivers a word. -/
theorem fifo_order (D : Nat) (hD : 0 < D) (mem0 : Nat → α) (d0 : α) (is : List (In α))
    (hp : Respects D [] mem0 d0 is) :
    delivered (run D [] mem0 d0 is) <+: written (run D [] mem0 d0 is) ∧
    (delivered (run D [] mem0 d0 is)).length = reads (run D [] mem0 d0 is).dropLast := by
  obtain ⟨_, del, h1, _, h3, _⟩ := trace_queue is _ (init_inv hD [] (by simpa using hD) mem0 d0) hp
  rw [init_queue hD [] (by simpa using hD), List.nil_append] at h1
  refine ⟨h3.trans ⟨_, h1.symm⟩, ?_⟩
  generalize run D [] mem0 d0 is = tr
  clear h1 h3 hp
  induction tr with
  | nil => rfl
  | cons e t ih =>
    cases t with
    | nil => rfl
    | cons e' t =>
      simp only [delivered, List.dropLast_cons_cons, reads, List.countP_cons]
      cases e.1.ren
      · simpa [reads] using ih
      · simpa [reads] using ih

/-- **C01**, no loss: once as many reads as writes happened and one more cycle has passed, the
delivered words are exactly the written ones. -/
theorem fifo_complete (D : Nat) (hD : 0 < D) (mem0 : Nat → α) (d0 : α) (is : List (In α)) (i : In α)
    (hp : Respects D [] mem0 d0 is)
    (hall : reads (run D [] mem0 d0 is) = (written (run D [] mem0 d0 is)).length) :
    delivered (run D [] mem0 d0 (is ++ [i])) = written (run D [] mem0 d0 is) := by
  obtain ⟨_, del, h1, h2, _, h4⟩ := trace_queue is _ (init_inv hD [] (by simpa using hD) mem0 d0) hp
  rw [init_queue hD [] (by simpa using hD), List.nil_append] at h1
  have e : run D [] mem0 d0 (is ++ [i]) = run D [] mem0 d0 is ++
      [(i, out ((machine D).final (init D [] mem0 d0) is))] := Machine.trace_snoc _ _ _ _
  rw [e, h4 i]
  have hl := congrArg List.length h1
  rw [List.length_append, h2] at hl
  have : queue D ((machine D).final (init D [] mem0 d0) is) = [] := by
    apply List.eq_nil_of_length_eq_zero; unfold run at hall; omega
  rw [h1, this, List.append_nil]

/-- **C02** The wait flags are exact: after any history the writer has to wait iff `D` words are
stored, the reader has to wait iff none is; and never more than `D` words are stored, never fewer
than none. -/
theorem fifo_flags (D : Nat) (hD : 0 < D) (mem0 : Nat → α) (d0 : α) (is : List (In α)) (i : In α)
    (hp : Respects D [] mem0 d0 is) :
    let o := (machine D).outAfter (init D [] mem0 d0) is i
    let w := (written (run D [] mem0 d0 is)).length
    let r := reads (run D [] mem0 d0 is)
    r ≤ w ∧ w ≤ r + D ∧ (o.wwait = true ↔ w = r + D) ∧ (o.rwait = true ↔ w = r) := by
  obtain ⟨hi, del, h1, h2, _, _⟩ := trace_queue is _ (init_inv hD [] (by simpa using hD) mem0 d0) hp
  rw [init_queue hD [] (by simpa using hD), List.nil_append] at h1
  have hl := congrArg List.length h1
  rw [List.length_append, h2] at hl
  have hq : (queue D ((machine D).final (init D [] mem0 d0) is)).length
      = len D ((machine D).final (init D [] mem0 d0) is) := by simp [queue]
  have a := writeWait_iff hi
  have b := readWait_iff hi
  have c := hi.len_le
  simp only [Machine.outAfter]
  change _ ∧ _ ∧ (writeWait _ = true ↔ _) ∧ (readWait _ = true ↔ _)
  rw [a, b]
  unfold run
  omega

/-- **C03** `size` is the number of stored words, `space` the number of free cells. -/
theorem fifo_size_space (D : Nat) (hD : 0 < D) (mem0 : Nat → α) (d0 : α) (is : List (In α)) (i : In α)
    (hp : Respects D [] mem0 d0 is) :
    let o := (machine D).outAfter (init D [] mem0 d0) is i
    o.size + reads (run D [] mem0 d0 is) = (written (run D [] mem0 d0 is)).length ∧
    o.space + o.size = D := by
  obtain ⟨hi, del, h1, h2, _, _⟩ := trace_queue is _ (init_inv hD [] (by simpa using hD) mem0 d0) hp
  rw [init_queue hD [] (by simpa using hD), List.nil_append] at h1
  have hl := congrArg List.length h1
  rw [List.length_append, h2] at hl
  have hq : (queue D ((machine D).final (init D [] mem0 d0) is)).length
      = len D ((machine D).final (init D [] mem0 d0) is) := by simp [queue]
  have a := hi.size_eq
  have b := hi.space_eq
  have c := hi.len_le
  change ((machine D).final (init D [] mem0 d0) is).size + _ = _ ∧
    ((machine D).final (init D [] mem0 d0) is).space +
    ((machine D).final (init D [] mem0 d0) is).size = D
  rw [a, b]
  unfold run
  omega

/-- Full statement of **C04** for one configuration: whatever the (protocol respecting) history, the
delivered words are a prefix of `INIT_DATA ++ written words`. -/
def InitDelivered (D : Nat) (l : List α) : Prop :=
  ∀ (mem0 : Nat → α) (d0 : α) (is : List (In α)), Respects D l mem0 d0 is →
    delivered (run D l mem0 d0 is) <+: l ++ written (run D l mem0 d0 is)

/-- **C04** holds when `INIT_DATA` is shorter than the fifo. Missing: `len(INIT_DATA) = DEPTH`,
where the code violates the property (see `fifo_init_full_broken`). -/
theorem fifo_init_partial (D : Nat) (l : List α) (hl : l.length < D) : InitDelivered D l := by
  intro mem0 d0 is hp
  have hD : 0 < D := by omega
  obtain ⟨_, del, h1, _, h3, _⟩ := trace_queue is _ (init_inv hD l hl mem0 d0) hp
  rw [init_queue hD l hl] at h1
  exact h3.trans ⟨_, h1.symm⟩

/-- **C04** is false for a completely pre-filled fifo (witness with depth 2): the write pointer is
reset to `DEPTH-1` instead of `0` while the loop flag is set, the fifo does not report full, and a
write destroys the last initial word. -/
theorem fifo_init_full_broken : ¬ InitDelivered 2 [1, 2] := by
  intro h
  have := h (fun _ => 0) 0
    [⟨true, 3, false⟩, ⟨false, 0, true⟩, ⟨false, 0, true⟩, ⟨false, 0, false⟩] (by decide)
  revert this
  decide

/-! ## C68: `en` asserted while `wait` is set -/

/-- The requests which the wait flags allow. -/
def gate (e : In α × Out α) : In α := ⟨e.1.wen && !e.2.wwait, e.1.data, e.1.ren && !e.2.rwait⟩

/-- Full statement of **C68** for one depth: a request made while `wait` is set has no effect, i.e. for any history
(not only for the protocol respecting ones) the outputs are the same as for the history with only the allowed requests. -/
def IgnoresWaiting (α : Type u) (D : Nat) : Prop := ∀ (mem0 : Nat → α) (d0 : α) (is : List (In α)),
  (run D [] mem0 d0 ((run D [] mem0 d0 is).map gate)).map Prod.snd = (run D [] mem0 d0 is).map Prod.snd

theorem next_gate (D : Nat) (s : St α) (i : In α) (h : ¬ (i.wen = true ∧ writeWait s = true ∧ i.ren = true)) :
    next D s (gate (i, out s)) = next D s i := by
  have hr : fifoRead s (gate (i, out s)) = fifoRead s i := by
    unfold fifoRead gate out readWait
    cases i.ren <;> cases s.looped <;> simp
  have hw : fifoWrite s (gate (i, out s)) = fifoWrite s i := by
    unfold fifoWrite gate out writeWait
    cases i.wen <;> cases s.looped <;> simp
  have hl : nextLooped D s (gate (i, out s)) = nextLooped D s i := by
    unfold nextLooped gate out
    simp only
    revert h
    unfold writeWait readWait
    by_cases e : s.wr = s.rd <;> by_cases e2 : s.rd = D - 1 <;> cases i.wen <;> cases i.ren <;> cases s.looped <;>
      simp_all
  unfold next nextSize nextSpace
  rw [hr, hw, hl]
  rfl

/-- **C68** holds as long as a write request is not made to a full fifo in the same cycle as a read. Moreover the allowed
requests respect the protocol, so C01-C03 apply to them. -/
theorem fifo_gated_partial (D : Nat) (mem0 : Nat → α) (d0 : α) (is : List (In α))
    (h : ∀ e ∈ run D [] mem0 d0 is, ¬ (e.1.wen = true ∧ e.2.wwait = true ∧ e.1.ren = true)) :
    (run D [] mem0 d0 ((run D [] mem0 d0 is).map gate)).map Prod.snd = (run D [] mem0 d0 is).map Prod.snd ∧
    Respects D [] mem0 d0 ((run D [] mem0 d0 is).map gate) := by
  unfold Respects run at *
  revert h
  generalize init D [] mem0 d0 = s
  induction is generalizing s with
  | nil => intro _; simp
  | cons i is ih =>
    intro h
    simp only [Machine.trace_cons, List.mem_cons, forall_eq_or_imp, List.map_cons] at h ⊢
    have e : (machine D).next s (gate (i, (machine D).out s i)) = (machine D).next s i := next_gate D s i h.1
    obtain ⟨h1, h2⟩ := ih _ h.2
    rw [e]
    refine ⟨?_, ?_, h2⟩
    · rw [h1]; rfl
    · constructor
      · intro hw
        show (out s).wwait = false
        have : (i.wen && !(out s).wwait) = true := hw
        rw [Bool.and_eq_true] at this
        simpa using this.2
      · intro hw
        show (out s).rwait = false
        have : (i.ren && !(out s).rwait) = true := hw
        rw [Bool.and_eq_true] at this
        simpa using this.2

/-- **C68** is false: the loop flag is set by `en` even if the write was refused. A write to a full fifo together with a
read leaves a fifo of depth 1 looking full. -/
theorem fifo_gated_broken : ¬ IgnoresWaiting Nat 1 := by
  intro h
  have := congrArg (fun l => l.map Out.wwait) (h (fun _ => 0) 0 [⟨true, 1, false⟩, ⟨true, 2, true⟩, ⟨false, 0, false⟩])
  revert this
  decide

example : (∀ e ∈ run 2 [] (fun _ => 0) 0 [⟨true, 1, true⟩, ⟨true, 2, false⟩, ⟨true, 3, false⟩, ⟨false, 0, true⟩],
      ¬ (e.1.wen = true ∧ e.2.wwait = true ∧ e.1.ren = true)) ∧
    ¬ Respects 2 [] (fun _ => 0) 0 [⟨true, 1, true⟩, ⟨true, 2, false⟩, ⟨true, 3, false⟩, ⟨false, 0, true⟩] := by decide

/-! Non-vacuity: protocol respecting histories with wrap-around, simultaneous access, full fifo. -/

/-- Example history for depth 3: fill, drain while filling (wraps), ends with stored words. -/
def exHist : List (In Nat) :=
  [⟨true, 1, false⟩, ⟨true, 2, false⟩, ⟨true, 3, false⟩, ⟨false, 0, true⟩, ⟨true, 4, true⟩,
   ⟨true, 5, true⟩, ⟨false, 0, true⟩, ⟨false, 0, true⟩, ⟨true, 6, false⟩]

example : Respects 3 [] (fun _ => 0) 0 exHist ∧
    delivered (run 3 [] (fun _ => 0) 0 exHist) = [1, 2, 3, 4, 5] ∧
    written (run 3 [] (fun _ => 0) 0 exHist) = [1, 2, 3, 4, 5, 6] := by decide
example : Respects 3 [] (fun _ => 0) 0 (exHist.take 3) ∧
    ((machine 3).outAfter (init 3 [] (fun _ => 0) 0) (exHist.take 3) ⟨false, 0, true⟩).wwait = true := by
  decide
example : Respects 3 [] (fun _ => 0) 0 (exHist.take 8) ∧
    reads (run 3 [] (fun _ => 0) 0 (exHist.take 8))
      = (written (run 3 [] (fun _ => 0) 0 (exHist.take 8))).length := by decide
example : Respects 3 [7, 8] (fun _ => 0) 0 ((exHist.drop 3).eraseIdx 4) ∧
    delivered (run 3 [7, 8] (fun _ => 0) 0 ((exHist.drop 3).eraseIdx 4)) = [7, 8, 4, 5] := by decide

end Verif.Fifo
