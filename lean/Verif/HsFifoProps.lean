import Verif.HsFifo
/-!
# Properties C05 - C08, C55 of `HandshakedFifo`
-/
namespace Verif.HsFifo

universe u
variable {α : Type u}

/-- Trace of a `HandshakedFifo` from reset. -/
abbrev run (D : Nat) (l : List α) (mem0 : Nat → α) (d0 : α) (is : List (In α)) :
    List (In α × Out α) := (machine D).trace (init D l mem0 d0) is

/-- Output in the cycle after history `is` under input `i`. -/
abbrev after (D : Nat) (l : List α) (mem0 : Nat → α) (d0 : α) (is : List (In α)) (i : In α) :
    Out α := (machine D).outAfter (init D l mem0 d0) is i

/-- Words inside after a run. -/
def inside (tr : List (In α × Out α)) : Nat := (accepted tr).length - (emitted tr).length

theorem base (D : Nat) (hD : 2 ≤ D) (l : List α) (hl : l.length + 1 < D)
    (mem0 : Nat → α) (d0 : α) (is : List (In α)) :
    Inv D ((machine D).final (init D l mem0 d0) is) ∧
    l ++ accepted (run D l mem0 d0 is)
      = emitted (run D l mem0 d0 is) ++ queue D ((machine D).final (init D l mem0 d0) is) ∧
    (queue D ((machine D).final (init D l mem0 d0) is)).length ≤ D := by
  have h := run_conserve is _ (init_inv l hl mem0 d0)
  rw [init_queue l hl] at h
  exact ⟨h.1, h.2, queue_le hD _ h.1⟩

/-- **C05** For every schedule the emitted words are a prefix of the accepted words and at most
`DEPTH` words are inside. -/
theorem hsFifo_queue (D : Nat) (hD : 2 ≤ D) (mem0 : Nat → α) (d0 : α) (is : List (In α)) :
    emitted (run D [] mem0 d0 is) <+: accepted (run D [] mem0 d0 is) ∧
    (accepted (run D [] mem0 d0 is)).length ≤ (emitted (run D [] mem0 d0 is)).length + D := by
  obtain ⟨_, h, hl⟩ := base D hD [] (by simp; omega) mem0 d0 is
  rw [List.nil_append] at h
  refine ⟨⟨_, h.symm⟩, ?_⟩
  rw [h, List.length_append]; omega

/-- **C06** A word offered but not taken is offered again, unchanged, in the next cycle. -/
theorem hsFifo_stable (D : Nat) (l : List α) (mem0 : Nat → α) (d0 : α)
    (is : List (In α)) (i j : In α) (hv : (after D l mem0 d0 is i).vld = true) (hr : i.rd = false) :
    (after D l mem0 d0 (is ++ [i]) j).vld = true ∧
    (after D l mem0 d0 (is ++ [i]) j).data = (after D l mem0 d0 is i).data := by
  simp only [Machine.outAfter, Machine.final_append, Machine.final_cons, Machine.final_nil] at *
  generalize (machine D).final (init D l mem0 d0) is = s at *
  have ho : s.outVld = true := hv
  constructor
  · show (if i.rd || !s.outVld then _ else s.outVld) = true
    simp [ho, hr]
  · show (if Fifo.fifoRead s.fifo (fifoIn s i) then _ else s.fifo.dout) = s.fifo.dout
    simp [Fifo.fifoRead, fifoIn, ho, hr]

/-- **C07** (no refusal while there is room) `dataIn.rd = 0` only when at least `DEPTH-1` words are
inside. -/
theorem hsFifo_ready (D : Nat) (hD : 2 ≤ D) (mem0 : Nat → α) (d0 : α) (is : List (In α)) (i : In α)
    (hr : (after D [] mem0 d0 is i).rd = false) :
    (emitted (run D [] mem0 d0 is)).length + (D - 1) ≤ (accepted (run D [] mem0 d0 is)).length := by
  obtain ⟨hi, h, hl⟩ := base D hD [] (by simp; omega) mem0 d0 is
  rw [List.nil_append] at h
  rw [h, List.length_append]
  simp only [after, Machine.outAfter] at hr
  generalize (machine D).final (init D [] mem0 d0) is = s at *
  have hw : Fifo.writeWait s.fifo = true := by
    have : (!Fifo.writeWait s.fifo) = false := hr
    simpa using this
  have := (Fifo.writeWait_iff hi).1 hw
  have hq : (Fifo.queue (D - 1) s.fifo).length = Fifo.len (D - 1) s.fifo := by simp [Fifo.queue]
  simp only [queue, List.length_append]
  omega

/-- **C07** (no hidden words) if a word is inside then it is offered now or in the next cycle,
whatever happens. -/
theorem hsFifo_offers (D : Nat) (hD : 2 ≤ D) (mem0 : Nat → α) (d0 : α) (is : List (In α)) (i j : In α)
    (hne : (emitted (run D [] mem0 d0 is)).length < (accepted (run D [] mem0 d0 is)).length) :
    (after D [] mem0 d0 is i).vld = true ∨ (after D [] mem0 d0 (is ++ [i]) j).vld = true := by
  obtain ⟨hi, h, hl⟩ := base D hD [] (by simp; omega) mem0 d0 is
  rw [List.nil_append] at h
  rw [h, List.length_append] at hne
  simp only [Machine.outAfter, Machine.final_append, Machine.final_cons, Machine.final_nil]
  generalize (machine D).final (init D [] mem0 d0) is = s at *
  show s.outVld = true ∨ (if i.rd || !s.outVld then !Fifo.readWait s.fifo else s.outVld) = true
  cases ho : s.outVld
  · have hq : (Fifo.queue (D - 1) s.fifo).length = Fifo.len (D - 1) s.fifo := by simp [Fifo.queue]
    simp only [queue, ho] at hne
    simp at hne
    have := Fifo.readWait_iff hi
    cases hh : Fifo.readWait s.fifo
    · simp
    · rw [hh] at this; simp at this; omega
  · simp

/-- **C07** (bounded delivery) if the consumer is ready during `k+1` consecutive cycles, where `k`
is the number of words inside at the start, then all words accepted before are delivered. -/
theorem hsFifo_drain (D : Nat) (hD : 2 ≤ D) (mem0 : Nat → α) (d0 : α) (is js : List (In α))
    (hr : ∀ j ∈ js, j.rd = true) (hn : inside (run D [] mem0 d0 is) + 1 ≤ js.length) :
    (accepted (run D [] mem0 d0 is)).length ≤ (emitted (run D [] mem0 d0 (is ++ js))).length := by
  obtain ⟨hi, h, hl⟩ := base D hD [] (by simp; omega) mem0 d0 is
  rw [List.nil_append] at h
  have hlen := congrArg List.length h
  rw [List.length_append] at hlen
  unfold inside at hn
  have := drain js _ (queue D ((machine D).final (init D [] mem0 d0) is)).length hi hr
    (Nat.le_refl _) (by split <;> omega)
  have e : emitted (run D [] mem0 d0 (is ++ js)) = emitted (run D [] mem0 d0 is) ++
      emitted ((machine D).trace ((machine D).final (init D [] mem0 d0) is) js) := by
    simp [run, Machine.trace_append, emitted]
  rw [e, List.length_append]
  omega

/-- **C08** `size` = words accepted minus words delivered, `space` = `DEPTH` minus that. -/
theorem hsFifo_size_space (D : Nat) (hD : 2 ≤ D) (mem0 : Nat → α) (d0 : α) (is : List (In α))
    (i : In α) :
    (after D [] mem0 d0 is i).size + (emitted (run D [] mem0 d0 is)).length
        = (accepted (run D [] mem0 d0 is)).length ∧
    (after D [] mem0 d0 is i).space + (after D [] mem0 d0 is i).size = D := by
  obtain ⟨hi, h, hl⟩ := base D hD [] (by simp; omega) mem0 d0 is
  rw [List.nil_append] at h
  rw [h, List.length_append]
  simp only [Machine.outAfter]
  generalize (machine D).final (init D [] mem0 d0) is = s at *
  have a := Fifo.Inv.size_eq hi
  have b := Fifo.Inv.space_eq hi
  have c := Fifo.Inv.len_le hi
  have hm : D + 2 ≤ sizeMod D := le_two_pow_log2ceil _
  have hq : (Fifo.queue (D - 1) s.fifo).length = Fifo.len (D - 1) s.fifo := by simp [Fifo.queue]
  show (if s.outVld then (s.fifo.size + 1) % sizeMod D else s.fifo.size) + _ = _ ∧
    (if s.outVld then s.fifo.space else (s.fifo.space + 1) % sizeMod D) +
    (if s.outVld then (s.fifo.size + 1) % sizeMod D else s.fifo.size) = D
  rw [a, b, queue]
  cases s.outVld
  · simp only [Bool.false_eq_true, if_false, List.nil_append]
    rw [Nat.mod_eq_of_lt (by omega)]; omega
  · simp only [if_true, List.length_append, List.length_singleton]
    rw [Nat.mod_eq_of_lt (by omega)]; omega

/-- Full statement of **C55** for one configuration: initial words come first. -/
def InitDelivered (D : Nat) (l : List α) : Prop :=
  ∀ (mem0 : Nat → α) (d0 : α) (is : List (In α)),
    emitted (run D l mem0 d0 is) <+: l ++ accepted (run D l mem0 d0 is)

/-- **C55** for `len(INIT_DATA) ≤ DEPTH - 2`. Missing: lengths `DEPTH-1` and `DEPTH`, for which the
inner fifo is completely pre-filled and the code violates the property. -/
theorem hsFifo_init_partial (D : Nat) (hD : 2 ≤ D) (l : List α) (hl : l.length + 1 < D) :
    InitDelivered D l := by
  intro mem0 d0 is
  obtain ⟨_, h, _⟩ := base D hD l hl mem0 d0 is
  exact ⟨_, h.symm⟩

/-- **C55** fails for `len(INIT_DATA) = DEPTH - 1`. -/
theorem hsFifo_init_broken : ¬ InitDelivered 3 [1, 2] := by
  intro h
  have := h (fun _ => 0) 0
    [⟨true, 3, false⟩, ⟨false, 0, true⟩, ⟨false, 0, true⟩, ⟨false, 0, true⟩]
  revert this
  decide

/-- **C55** fails for `len(INIT_DATA) = DEPTH`. -/
theorem hsFifo_init_full_broken : ¬ InitDelivered 3 [1, 2, 3] := by
  intro h
  have := h (fun _ => 0) 0
    [⟨true, 4, false⟩, ⟨false, 0, true⟩, ⟨false, 0, true⟩, ⟨false, 0, true⟩]
  revert this
  decide

/-! Non-vacuity: depth 3, stalls, full fifo, drain. -/

def exHist : List (In Nat) :=
  [⟨true, 1, false⟩, ⟨true, 2, false⟩, ⟨true, 3, false⟩, ⟨true, 4, false⟩, ⟨true, 5, true⟩,
   ⟨false, 0, true⟩, ⟨true, 6, true⟩, ⟨false, 0, true⟩]

example : accepted (run 3 [] (fun _ => 0) 0 exHist) = [1, 2, 3, 6] ∧
    emitted (run 3 [] (fun _ => 0) 0 exHist) = [1, 2, 3] := by decide
example : (after 3 [] (fun _ => 0) 0 (exHist.take 4) ⟨true, 5, true⟩).rd = false := by decide
example : (after 3 [] (fun _ => 0) 0 (exHist.take 3) ⟨true, 5, false⟩).vld = true := by decide
example : (emitted (run 3 [] (fun _ => 0) 0 (exHist.take 1))).length
    < (accepted (run 3 [] (fun _ => 0) 0 (exHist.take 1))).length := by decide
example : inside (run 3 [] (fun _ => 0) 0 (exHist.take 4)) + 1
    ≤ [(⟨true, 5, true⟩ : In Nat), ⟨false, 0, true⟩, ⟨false, 0, true⟩, ⟨false, 0, true⟩].length := by
  decide
example : ([7, 8] : List Nat).length + 1 < 4 ∧
    emitted (run 4 [7, 8] (fun _ => 0) 0 (exHist.drop 4)) = [7, 8, 5] := by decide

end Verif.HsFifo
