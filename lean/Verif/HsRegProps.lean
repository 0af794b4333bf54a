import Verif.HsReg
/-!
# Properties C09 - C12 of `HandshakedReg`
-/
namespace Verif.HsReg

universe u
variable {α : Type u}

/-! ## C09, C12: integer `LATENCY = n`, `DELAY = 0` -/

/-- Trace from reset of `LATENCY = n` with `INIT_DATA = l`. -/
abbrev run (n : Nat) (l : List α) (junk : Nat → α) (is : List (In α)) : List (In α × Out α) :=
  chain.trace (chainInit n l junk) is

/-- Output after a history. -/
abbrev after (n : Nat) (l : List α) (junk : Nat → α) (is : List (In α)) (i : In α) : Out α :=
  chain.outAfter (chainInit n l junk) is i

theorem final_len (n : Nat) (l : List α) (junk : Nat → α) (is : List (In α)) :
    (chain.final (chainInit n l junk) is).length = n := by
  rw [chain_final_length]; simp [chainInit]

/-- **C09** order, no loss, no duplication, capacity `n`. -/
theorem hsReg_queue (n : Nat) (junk : Nat → α) (is : List (In α)) :
    emitted (run n [] junk is) <+: accepted (run n [] junk is) ∧
    (accepted (run n [] junk is)).length ≤ (emitted (run n [] junk is)).length + n := by
  have h := chain_conserve is (chainInit n [] junk)
  rw [chainInit_q_none, List.nil_append] at h
  refine ⟨⟨_, h.symm⟩, ?_⟩
  have := chainQ_length (chain.final (chainInit n [] junk) is)
  rw [final_len] at this
  unfold run
  rw [h, List.length_append]
  omega

/-- **C09** output stability under stall. -/
theorem hsReg_stable (n : Nat) (hn : 1 ≤ n) (l : List α) (junk : Nat → α) (is : List (In α))
    (i j : In α) (hv : (after n l junk is i).vld = true) (hr : i.rd = false) :
    (after n l junk (is ++ [i]) j).vld = true ∧
    (after n l junk (is ++ [i]) j).data = (after n l junk is i).data := by
  have hl := final_len n l junk is
  simp only [after, Machine.outAfter, Machine.final_append, Machine.final_cons,
    Machine.final_nil] at *
  generalize chain.final (chainInit n l junk) is = ss at *
  have h := chain_stable ss i.vld i.data j.vld j.data (by intro h; subst h; simp at hl; omega) hv
  rw [← hr] at h
  exact h

/-- **C09** latency: if nothing is inside, a valid word is accepted at once and is offered exactly
`n` cycles later when the consumer is ready meanwhile (`js` are the `n-1` cycles between). -/
theorem hsReg_latency (n : Nat) (hn : 1 ≤ n) (junk : Nat → α) (is : List (In α)) (i : In α)
    (js : List (In α)) (j : In α)
    (hempty : (emitted (run n [] junk is)).length = (accepted (run n [] junk is)).length)
    (hi : i.vld = true) (hjs : js.length + 1 = n) (hr : ∀ x ∈ js, x.rd = true) :
    (after n [] junk is i).rd = true ∧
    (after n [] junk (is ++ i :: js) j).vld = true ∧
    (after n [] junk (is ++ i :: js) j).data = i.data := by
  have h := chain_conserve is (chainInit n [] junk)
  rw [chainInit_q_none, List.nil_append] at h
  have hl := final_len n [] junk is
  have hq : chainQ (chain.final (chainInit n [] junk) is) = [] := by
    have := congrArg List.length h
    rw [List.length_append] at this
    apply List.eq_nil_of_length_eq_zero
    unfold run at hempty
    omega
  simp only [after, Machine.outAfter, Machine.final_append, Machine.final_cons] at *
  generalize chain.final (chainInit n [] junk) is = ss at *
  obtain ⟨h0, hrd⟩ := chain_load ss (by intro h; subst h; simp at hl; omega) hq i.data i.rd
  refine ⟨hrd, ?_⟩
  have e : chain.next ss i = chainNext ss true i.data i.rd := by
    show chainNext ss i.vld i.data i.rd = _; rw [hi]
  have hlen : (chain.next ss i).length = n := by rw [e, chain_length, hl]
  have := chain_shift_many js (chain.next ss i) 0 i.data hr (by rw [e]; exact h0)
    (by rw [hlen]; omega)
  refine chain_last (chain.final (chain.next ss i) js) j.vld j.data i.data ?_
  rw [chain_final_length, hlen, ← this]
  congr 1; omega

/-- Full statement of **C12** for one configuration: the last stage is nearest to the output, so
`INIT_DATA` comes out from its last item to its first one. -/
def InitDelivered (n : Nat) (l : List α) : Prop :=
  ∀ (junk : Nat → α) (is : List (In α)),
    emitted (run n l junk is) <+: l.reverse ++ accepted (run n l junk is)

/-- **C12** for `len(INIT_DATA) = LATENCY` or no `INIT_DATA`. Missing: `0 < len < LATENCY`, where
the code violates the property. -/
theorem hsReg_init_partial (n : Nat) (l : List α) (hl : l = [] ∨ l.length = n) :
    InitDelivered n l := by
  intro junk is
  have h := chain_conserve is (chainInit n l junk)
  have hq : chainQ (chainInit n l junk) = l.reverse := by
    rcases hl with rfl | rfl
    · simpa using chainInit_q_none n junk
    · by_cases hl : l = []
      · subst hl; rfl
      · exact chainInit_q_full l hl junk
  rw [hq] at h
  exact ⟨_, h.symm⟩

/-- **C12** fails for `LATENCY = 2` with one item: an undefined word (here the power-up content 9)
is delivered. -/
theorem hsReg_init_broken : ¬ InitDelivered 2 [5] := by
  intro h
  have := h (fun _ => 9) [⟨false, 0, true⟩]
  revert this
  decide

/-- **C12**, the general failure: whenever `0 < len(INIT_DATA) < LATENCY`, the first word delivered
is the power-up content of the last data register. -/
theorem hsReg_init_junk (n : Nat) (l : List α) (h0 : l ≠ []) (hl : l.length < n)
    (junk : Nat → α) (i : In α) :
    (after n l junk [] i).vld = true ∧ (after n l junk [] i).data = junk (n - 1) := by
  have hlen : (chainInit n l junk).length = n := by simp [chainInit]
  refine chain_last (chainInit n l junk) i.vld i.data (junk (n - 1)) ?_
  rw [hlen]
  unfold chainInit
  rw [List.getElem?_map, List.getElem?_range (by omega)]
  simp only [Option.map_some, Option.some.injEq, initStage, Stage.mk.injEq]
  refine ⟨by cases l <;> simp_all, ?_⟩
  rw [List.getElem?_eq_none (by omega)]; rfl

def exHist : List (In Nat) :=
  [⟨true, 1, false⟩, ⟨true, 2, false⟩, ⟨true, 3, false⟩, ⟨true, 3, false⟩, ⟨true, 3, true⟩,
   ⟨false, 0, true⟩, ⟨false, 0, true⟩, ⟨false, 0, true⟩]

example : accepted (run 2 [] (fun _ => 0) exHist) = [1, 2, 3] ∧
    emitted (run 2 [] (fun _ => 0) exHist) = [1, 2, 3] := by decide
example : (after 2 [] (fun _ => 0) (exHist.take 3) ⟨true, 3, false⟩).vld = true := by decide
example : (emitted (run 2 [] (fun _ => 0) exHist)).length
    = (accepted (run 2 [] (fun _ => 0) exHist)).length := by decide
example : InitDelivered 2 [7, 8] := hsReg_init_partial 2 [7, 8] (by decide)
example : emitted (run 2 [7, 8] (fun _ => 0) (exHist.drop 4)) = [8, 7, 3] := by decide

/-! ## C10: `LATENCY = (1, 2)` -/

abbrev bRun (init : Option α) (j0 j1 : α) (is : List (In α)) : List (In α × Out (Option α)) :=
  breaker.trace (bInit init j0 j1) is

abbrev bAfter (init : Option α) (j0 j1 : α) (is : List (In α)) (i : In α) : Out (Option α) :=
  breaker.outAfter (bInit init j0 j1) is i

/-- **C10** no combinational path from any input to any output. -/
theorem hsRegBreak_no_comb (init : Option α) (j0 j1 : α) (is : List (In α)) (i j : In α) :
    bAfter init j0 j1 is i = bAfter init j0 j1 is j := rfl

/-- **C10** lossless in-order buffer of capacity 2; never delivers an undefined word; a reset word
comes first. -/
theorem hsRegBreak_queue (init : Option α) (j0 j1 : α) (is : List (In α)) :
    emitted (bRun init j0 j1 is) <+: (init.toList ++ accepted (bRun init j0 j1 is)).map some ∧
    (init.toList ++ accepted (bRun init j0 j1 is)).length
      ≤ (emitted (bRun init j0 j1 is)).length + 2 := by
  have h := b_conserve is (bInit init j0 j1)
  have hq : bQ (bInit init j0 j1) = init.toList.map some := by
    cases init <;> rfl
  rw [hq, ← List.map_append] at h
  refine ⟨⟨_, h.symm⟩, ?_⟩
  have := congrArg List.length h
  have h2 := bQ_length (breaker.final (bInit init j0 j1) is)
  rw [List.length_map, List.length_append (as := emitted _)] at this
  unfold bRun
  omega

/-- **C10** output stability. -/
theorem hsRegBreak_stable (init : Option α) (j0 j1 : α) (is : List (In α)) (i j : In α)
    (hv : (bAfter init j0 j1 is i).vld = true) (hr : i.rd = false) :
    (bAfter init j0 j1 (is ++ [i]) j).vld = true ∧
    (bAfter init j0 j1 (is ++ [i]) j).data = (bAfter init j0 j1 is i).data := by
  simp only [bAfter, Machine.outAfter, Machine.final_append, Machine.final_cons,
    Machine.final_nil] at *
  generalize breaker.final (bInit init j0 j1) is = s at *
  obtain ⟨o0, o1, p, r0, r1⟩ := s
  obtain ⟨v, d, r⟩ := i
  cases o0 <;> cases o1 <;> cases p <;> cases v <;> cases r <;>
    simp_all [breaker, bOut, bNext, consume0, consume1]

/-- **C10** throughput: after a cycle with a ready consumer the input is ready, and after a cycle
with an accepted word a word is offered; so both sides active move one word per cycle. -/
theorem hsRegBreak_throughput (init : Option α) (j0 j1 : α) (is : List (In α)) (i j : In α) :
    (i.rd = true → (bAfter init j0 j1 (is ++ [i]) j).rd = true) ∧
    (i.vld = true → (bAfter init j0 j1 is i).rd = true →
      (bAfter init j0 j1 (is ++ [i]) j).vld = true) := by
  simp only [bAfter, Machine.outAfter, Machine.final_append, Machine.final_cons,
    Machine.final_nil] at *
  generalize breaker.final (bInit init j0 j1) is = s at *
  obtain ⟨o0, o1, p, r0, r1⟩ := s
  obtain ⟨v, d, r⟩ := i
  cases o0 <;> cases o1 <;> cases p <;> cases v <;> cases r <;>
    simp_all [breaker, bOut, bNext, consume0, consume1]

example : accepted (bRun none 0 0 exHist) = [1, 2] ∧
    emitted (bRun none 0 0 exHist) = [some 1, some 2] := by decide
example : emitted (bRun (some 9) 0 0 exHist) = [some 9, some 1] := by decide
example : (bAfter none 0 0 (exHist.take 2) (⟨true, 3, false⟩ : In Nat)).vld = true := by decide

/-! ## C11: `LATENCY = 2, DELAY = 1` -/

abbrev dRun (c : DInit α) (j0 j1 : α) (is : List (In α)) : List (In α × Out α) :=
  delayed.trace (dInit c j0 j1) is

abbrev dAfter (c : DInit α) (j0 j1 : α) (is : List (In α)) (i : In α) : Out α :=
  delayed.outAfter (dInit c j0 j1) is i

/-- **C11** for every `INIT_DATA` the elaboration accepts: lossless, in order, at most two words. -/
theorem hsRegDelay_queue (l : List α) (c : DInit α) (hc : dElab l = .ok c) (j0 j1 : α)
    (is : List (In α)) :
    emitted (dRun c j0 j1 is) <+: l.reverse ++ accepted (dRun c j0 j1 is) ∧
    (l.reverse ++ accepted (dRun c j0 j1 is)).length ≤ (emitted (dRun c j0 j1 is)).length + 2 := by
  have h := d_conserve is (dInit c j0 j1)
  have hq : dQ (dInit c j0 j1) = l.reverse := by
    rcases l with _ | ⟨a, _ | ⟨b, _ | ⟨d, l⟩⟩⟩ <;> simp [dElab] at hc <;> subst hc <;> rfl
  rw [hq] at h
  refine ⟨⟨_, h.symm⟩, ?_⟩
  have := congrArg List.length h
  rw [List.length_append (as := emitted _)] at this
  have h2 : (dQ (delayed.final (dInit c j0 j1) is)).length ≤ 2 := by
    unfold dQ; split <;> split <;> simp
  unfold dRun
  omega

/-- **C11** stability and the hand-over through an empty output stage: after a transfer on the
output the next cycle offers nothing. -/
theorem hsRegDelay_stable (c : DInit α) (j0 j1 : α) (is : List (In α)) (i j : In α)
    (hv : (dAfter c j0 j1 is i).vld = true) :
    (i.rd = false → (dAfter c j0 j1 (is ++ [i]) j).vld = true ∧
      (dAfter c j0 j1 (is ++ [i]) j).data = (dAfter c j0 j1 is i).data) ∧
    (i.rd = true → (dAfter c j0 j1 (is ++ [i]) j).vld = false) := by
  simp only [dAfter, Machine.outAfter, Machine.final_append, Machine.final_cons,
    Machine.final_nil] at *
  generalize delayed.final (dInit c j0 j1) is = s at *
  obtain ⟨⟨o, x⟩, ld, rg⟩ := s
  obtain ⟨v, d, r⟩ := i
  cases o <;> cases ld <;> cases v <;> cases r <;> simp_all [delayed, dOut, dNext]

example : dElab [1, 2] = .ok (.two 1 2) := rfl
example : accepted (dRun .none 0 0 exHist) = [1, 2] ∧
    emitted (dRun .none 0 0 exHist) = [1, 2] := by decide
example : (dAfter (.two 1 2) 0 0 [] (⟨true, 3, false⟩ : In Nat)).vld = true := by decide

end Verif.HsReg
