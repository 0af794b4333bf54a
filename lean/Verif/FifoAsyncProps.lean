import Verif.FifoAsync
/-!
# Properties C30, C60, C61 of `FifoAsync`
-/
namespace Verif.FifoAsync

universe u
variable {α : Type u}

/-- Trace of a `FifoAsync` with `2^AW` cells from reset. -/
abbrev run (AW : Nat) (mem0 : Nat → α) (d0 : α) (is : List (In α)) : List (In α × Out α) :=
  (machine AW).trace (init mem0 d0) is

/-- **C30** For every interleaving of the clock edges (and every resolution of samples taken during a
change) the delivered words are exactly the first accepted words, one for each request. -/
theorem fifoAsync_order (AW : Nat) (hA : 0 < AW) (mem0 : Nat → α) (d0 : α) (is : List (In α)) (i : In α) :
    delivered (run AW mem0 d0 (is ++ [i]))
      = (accepted (run AW mem0 d0 is)).take (popCount (run AW mem0 d0 is)) ∧
    (delivered (run AW mem0 d0 (is ++ [i]))).length = popCount (run AW mem0 d0 is) := by
  obtain ⟨g, hf, hW, hr, _, _, del, h1, h2⟩ := trace_spec hA is _ _ (init_inv AW mem0 d0)
  simp only [List.nil_append, Nat.zero_add] at hW hr h2
  have e : run AW mem0 d0 (is ++ [i]) = run AW mem0 d0 is ++
      [(i, out ((machine AW).final (init mem0 d0) is))] := Machine.trace_snoc _ _ _ _
  have hlen : del.length = popCount (run AW mem0 d0 is) := by
    have := congrArg List.length h2
    simpa using this
  rw [e, h1 i]
  refine ⟨?_, hlen⟩
  have hle : popCount (run AW mem0 d0 is) ≤ (accepted (run AW mem0 d0 is)).length := by
    have := hf.h4; have := hf.h5; have := hf.h6; have := hf.h7
    rw [hW, hr] at *
    unfold run; omega
  apply List.ext_getElem?
  intro k
  rcases Nat.lt_or_ge k del.length with hk | hk
  · have := congrArg (fun l => l[k]?) h2
    simp only [List.getElem?_map] at this
    rw [List.getElem?_range' (by unfold run at hlen; omega)] at this
    rw [List.getElem?_take, if_pos (by omega)]
    simp only [Option.map_some, Nat.zero_add, Nat.one_mul] at this
    rw [List.getElem?_eq_getElem hk] at this ⊢
    simp only [Option.map_some, Option.some.injEq] at this
    rw [this, hW]
  · rw [List.getElem?_eq_none hk, List.getElem?_eq_none]
    rw [List.length_take]; omega

/-- **C30** The flags are conservative: no request is granted with nothing stored, no word is accepted
with `2^AW` words stored. -/
theorem fifoAsync_flags_safe (AW : Nat) (hA : 0 < AW) (mem0 : Nat → α) (d0 : α) (is : List (In α))
    (i : In α) :
    let o := (machine AW).outAfter (init mem0 d0) is i
    let w := (accepted (run AW mem0 d0 is)).length
    let r := popCount (run AW mem0 d0 is)
    r ≤ w ∧ w ≤ r + 2 ^ AW ∧ (o.wwait = false → w < r + 2 ^ AW) ∧ (o.rwait = false → r < w) := by
  obtain ⟨g, hf, hW, hr, -⟩ := trace_spec hA is _ _ (init_inv AW mem0 d0)
  simp only [List.nil_append, Nat.zero_add] at hW hr
  intro o w r
  have b1 := hf.h1; have b2 := hf.h2; have b3 := hf.h3; have b4 := hf.h4; have b5 := hf.h5
  have b6 := hf.h6; have b7 := hf.h7; have b8 := hf.h8
  have c1 := hf.full_eq; have c2 := hf.empty_eq
  have ew : g.W.length = w := by rw [hW]
  have er : g.r = r := hr
  rw [ew] at b7 b8 c1
  rw [er] at b3 b4 c2
  refine ⟨by omega, by omega, ?_, ?_⟩
  · intro h
    have : decide (w = g.r3 + 2 ^ AW) = false := c1.symm.trans h
    simp at this; omega
  · intro h
    have : decide (r = g.w3) = false := c2.symm.trans h
    simp at this; omega

/-- **C61** Words become readable: if fewer words were requested so far than were accepted before the
last three (or more) edges of the read clock, the reader does not have to wait. -/
theorem fifoAsync_read_progress (AW : Nat) (hA : 0 < AW) (mem0 : Nat → α) (d0 : α)
    (is js : List (In α)) (i : In α) (h3 : 3 ≤ js.countP fun j => j.rclk)
    (hn : popCount (run AW mem0 d0 (is ++ js)) < (accepted (run AW mem0 d0 is)).length) :
    ((machine AW).outAfter (init mem0 d0) (is ++ js) i).rwait = false := by
  obtain ⟨g, hf, hW, hr, -⟩ := trace_spec hA is _ _ (init_inv AW mem0 d0)
  obtain ⟨g2, hf2, hW2, hr2, hl, -⟩ := trace_spec hA js _ _ hf
  simp only [List.nil_append, Nat.zero_add] at hW hr
  have hlv : Lvl g (accepted (run AW mem0 d0 is)).length 0 := by
    refine ⟨?_, by omega, by omega, by omega⟩
    rw [hW]; exact Nat.le_refl _
  have h4 := (hl _ _ hlv).2.2.2 (by omega)
  have hpc : popCount (run AW mem0 d0 (is ++ js)) = g2.r := by
    rw [hr2, hr]
    unfold run
    rw [Machine.trace_append]
    simp [popCount]
  have he := hf2.empty_eq
  rw [← Machine.final_append] at he
  show ((machine AW).final (init mem0 d0) (is ++ js)).empty = false
  rw [he]
  simp; omega

/-- **C61** Freed space becomes usable: if fewer words were accepted so far than the capacity plus the
words requested before the last three edges of the write clock, the writer does not have to wait. -/
theorem fifoAsync_write_progress (AW : Nat) (hA : 0 < AW) (mem0 : Nat → α) (d0 : α)
    (is js : List (In α)) (i : In α) (h3 : 3 ≤ js.countP fun j => j.wclk)
    (hn : (accepted (run AW mem0 d0 (is ++ js))).length < popCount (run AW mem0 d0 is) + 2 ^ AW) :
    ((machine AW).outAfter (init mem0 d0) (is ++ js) i).wwait = false := by
  obtain ⟨g, hf, hW, hr, -⟩ := trace_spec hA is _ _ (init_inv AW mem0 d0)
  obtain ⟨g2, hf2, hW2, hr2, -, hl, -⟩ := trace_spec hA js _ _ hf
  simp only [List.nil_append, Nat.zero_add] at hW hr
  have hlv : LvlR g (popCount (run AW mem0 d0 is)) 0 := by
    refine ⟨?_, by omega, by omega, by omega⟩
    rw [hr]; exact Nat.le_refl _
  have h4 := (hl _ _ hlv).2.2.2 (by omega)
  have hacc : accepted (run AW mem0 d0 (is ++ js)) = g2.W := by
    rw [hW2, hW]
    unfold run
    rw [Machine.trace_append]
    simp [accepted]
  have he := hf2.full_eq
  rw [← Machine.final_append] at he
  rw [hacc] at hn
  show ((machine AW).final (init mem0 d0) (is ++ js)).full = false
  rw [he]
  simp; omega

theorem log2ceil_two_pow (k : Nat) (hk : 0 < k) : log2ceil (2 ^ k) = k := by
  unfold log2ceil
  have h1 : 1 < 2 ^ k := Nat.one_lt_two_pow (by omega)
  rw [if_neg (by omega)]
  have : (2 ^ k - 1).log2 = k - 1 := by
    rw [Nat.log2_eq_iff (by omega)]
    obtain ⟨j, rfl⟩ : ∃ j, k = j + 1 := ⟨k - 1, by omega⟩
    rw [Nat.pow_succ]
    have := Nat.two_pow_pos j
    simp only [Nat.add_sub_cancel]
    rw [Nat.pow_succ]
    omega
  omega

/-- Full statement of **C60** for the component of `DEPTH` cells (pointers have
`log2ceil(DEPTH) + 1` bits, mem/fifoAsync.py:54): never more than `DEPTH` words are stored. -/
def DepthRespected (DEPTH : Nat) : Prop :=
  ∀ (mem0 : Nat → Nat) (d0 : Nat) (is : List (In Nat)),
    (accepted (run (log2ceil DEPTH) mem0 d0 is)).length
      ≤ popCount (run (log2ceil DEPTH) mem0 d0 is) + DEPTH

/-- **C60** for every power of two except 1. Missing: `DEPTH = 1`, see the next theorem. -/
theorem fifoAsync_depth_partial (k : Nat) (hk : 0 < k) : DepthRespected (2 ^ k) := by
  intro mem0 d0 is
  rw [log2ceil_two_pow k hk]
  exact (fifoAsync_flags_safe k hk mem0 d0 is ⟨false, false, false, 0, false, 0, 0⟩).2.1

/-- **C60** is false for `DEPTH = 1` (accepted by the assertions mem/fifoAsync.py:32-33): a second word
is accepted into a memory of one cell. -/
theorem fifoAsync_depth_one_broken : ¬ DepthRespected 1 := by
  intro h
  have := h (fun _ => 0) 0 [⟨true, false, true, 1, false, 0, 0⟩, ⟨true, false, true, 2, false, 0, 0⟩]
  revert this
  decide

/-! Non-vacuity: a run with unrelated clocks which fills and drains the fifo. -/
def exHist : List (In Nat) :=
  [⟨true, false, true, 1, false, 0, 0⟩, ⟨true, true, true, 2, false, 0, 1⟩,
   ⟨true, false, true, 3, false, 0, 0⟩, ⟨false, true, false, 0, false, 0, 0⟩,
   ⟨false, true, false, 0, true, 0, 0⟩, ⟨true, true, false, 0, true, 7, 0⟩,
   ⟨true, true, false, 0, true, 0, 3⟩, ⟨true, true, true, 4, true, 0, 0⟩,
   ⟨true, true, true, 5, true, 0, 0⟩]

example : accepted (run 1 (fun _ => 0) 0 exHist) = [1, 2, 5] ∧
    popCount (run 1 (fun _ => 0) 0 exHist) = 2 ∧
    delivered (run 1 (fun _ => 0) 0 (exHist ++ [⟨false, false, false, 0, false, 0, 0⟩])) = [1, 2] := by
  decide
example : popCount (run 1 (fun _ => 0) 0 (exHist.take 2 ++
      List.replicate 3 ⟨false, true, false, 0, false, 0, 0⟩))
    < (accepted (run 1 (fun _ => 0) 0 (exHist.take 2))).length ∧
    ((machine 1).outAfter (init (fun _ => 0) 0) (exHist.take 2)
      ⟨false, true, false, 0, false, 0, 0⟩).rwait = true := by decide
example : (accepted (run 1 (fun _ => 0) 0 (exHist.take 6 ++
      List.replicate 3 ⟨true, false, false, 0, false, 0, 0⟩))).length
    < popCount (run 1 (fun _ => 0) 0 (exHist.take 6)) + 2 ^ 1 := by decide

end Verif.FifoAsync
