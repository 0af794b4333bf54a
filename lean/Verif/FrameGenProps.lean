import Verif.FrameGen
/-! Properties C168-C169 of `Axi4sFrameGen`. -/
namespace Verif.FrameGen

theorem run (c : Cfg) (l : Nat) (hd : l < 2 ^ c.dataWidth) (js : List In) (hj : ∀ x ∈ js, x.len = none) (s : St) (k : Nat)
    (hl : s.len = l) (hc : s.cntr = l - k % (l + 1)) :
    ∃ m, sent ((machine c).trace s js) = (List.range m).map fun j => wordAt l (k + j) := by
  induction js generalizing s k with
  | nil => exact ⟨0, rfl⟩
  | cons x js ih =>
    have hx := hj x List.mem_cons_self
    have hj' : ∀ y ∈ js, y.len = none := fun y hy => hj y (List.mem_cons_of_mem _ hy)
    have hk : k % (l + 1) < l + 1 := Nat.mod_lt _ (by omega)
    rw [Machine.trace_cons]
    have eL : ((machine c).next s x).len = l := by simp [machine, next, hx, hl]
    by_cases ht : (s.en && x.rd) = true
    · rw [Bool.and_eq_true] at ht
      have eC : ((machine c).next s x).cntr = l - (k + 1) % (l + 1) := by
        simp only [machine, next, hx, ht.1, ht.2, Bool.and_self, if_true, hl, hc]
        have h1 : (k + 1) % (l + 1) = (k % (l + 1) + 1) % (l + 1) := by rw [Nat.add_mod]; simp
        rw [h1]
        by_cases he : k % (l + 1) = l
        · rw [he, Nat.mod_self]; simp
        · rw [Nat.mod_eq_of_lt (show k % (l + 1) + 1 < l + 1 by omega)]
          rw [if_neg (by omega)]
          omega
      obtain ⟨m, hm⟩ := ih hj' _ (k + 1) eL eC
      refine ⟨m + 1, ?_⟩
      simp only [sent, List.flatMap_cons] at hm ⊢
      rw [hm, List.range_succ_eq_map]
      have ew : ((machine c).out s x).data = (wordAt l k).1 ∧ ((machine c).out s x).last = (wordAt l k).2 := by
        simp only [machine, out, wordAt, hc]
        refine ⟨Nat.mod_eq_of_lt (by omega), ?_⟩
        by_cases he : k % (l + 1) = l
        · simp [he]
        · have h0 : l - k % (l + 1) ≠ 0 := by omega
          rw [beq_eq_false_iff_ne.2 h0, beq_eq_false_iff_ne.2 he]
      have ev : ((machine c).out s x).vld = true := ht.1
      rw [ev, ht.2, ew.1, ew.2]
      simp only [Bool.and_self, given_true, List.singleton_append, List.map_cons, List.map_map, Nat.add_zero]
      congr 1
      apply List.map_congr_left
      intro j _
      simp only [Function.comp_apply]
      congr 1
      omega
    · have eC : ((machine c).next s x).cntr = l - k % (l + 1) := by
        have : ¬ (x.rd && s.en) = true := by rw [Bool.and_comm]; exact ht
        simp only [machine, next, hx]
        rw [if_neg this, hc]
      obtain ⟨m, hm⟩ := ih hj' _ k eL eC
      refine ⟨m, ?_⟩
      simp only [sent, List.flatMap_cons] at hm ⊢
      rw [hm]
      have : (((machine c).out s x).vld && x.rd) = false := by simpa [machine, out] using ht
      rw [this]
      simp

/-! ## C168: frames -/

/-- full property: after the length `l` is written the words sent are those of frames of `l + 1` words, numbered down to 0 and the last one marked -/
def Generates (c : Cfg) : Prop := ∀ l, l ≤ c.maxLen → ∀ (s : St) (is : List In) (x : In) (js : List In), x.len = some l → (∀ y ∈ js, y.len = none) →
  ∃ m, sent ((machine c).trace ((machine c).final s (is ++ [x])) js) = (List.range m).map (wordAt l)

def on : In := ⟨some 1, none, true⟩
def go : In := ⟨none, none, true⟩
def len (l : Nat) : In := ⟨none, some l, true⟩

/-- **C168** (the full property fails) If `MAX_LEN` is a power of two it does not fit in the counter of `log2ceil(MAX_LEN)` bits: the length 4 makes frames of one word. -/
theorem frameGen_max_fails : ¬ Generates ⟨4, 64⟩ := by
  intro h
  obtain ⟨m, hm⟩ := h 4 (by decide) ⟨0, true, 0⟩ [] (len 4) [go, go] rfl (by decide)
  have e : sent ((machine ⟨4, 64⟩).trace ((machine ⟨4, 64⟩).final ⟨0, true, 0⟩ ([] ++ [len 4])) [go, go]) = [(0, true), (0, true)] := by decide
  rw [e] at hm
  have hl := congrArg List.length hm
  simp at hl
  rw [← hl] at hm
  exact absurd hm (by decide)

/-- **C168** For a length which fits in the counter and in the data word the words sent after it is written are those of frames of `l + 1` words. -/
theorem frameGen_frames_partial (c : Cfg) (l : Nat) (hl : l < 2 ^ log2ceil c.maxLen) (hd : l < 2 ^ c.dataWidth) (s : St) (is : List In) (x : In)
    (js : List In) (hx : x.len = some l) (hj : ∀ y ∈ js, y.len = none) :
    ∃ m, sent ((machine c).trace ((machine c).final s (is ++ [x])) js) = (List.range m).map (wordAt l) := by
  rw [Machine.final_append]
  have e : (machine c).final ((machine c).final s is) [x] = next c ((machine c).final s is) x := rfl
  obtain ⟨m, hm⟩ := run c l hd js hj (next c ((machine c).final s is) x) 0 (by simp [next, hx, width, Nat.mod_eq_of_lt hl])
    (by simp [next, hx, width, Nat.mod_eq_of_lt hl])
  refine ⟨m, ?_⟩
  rw [e, hm]
  simp

/-- **C168** A word is offered in each cycle after a write of `enable` with an odd value until the next write of it, and never after an even one. -/
theorem frameGen_enabled (c : Cfg) (d : Nat) (s : St) (is : List In) (x : In) (js : List In) (y : In) (hx : x.en = some d) (hj : ∀ y ∈ js, y.en = none) :
    ((machine c).outAfter s (is ++ x :: js) y).vld = (d % 2 == 1) := by
  have e : ((machine c).outAfter s (is ++ x :: js) y).vld = ((machine c).final s (is ++ x :: js)).en := rfl
  rw [e, Machine.final_append, Machine.final_cons]
  have h0 : ((machine c).next ((machine c).final s is) x).en = (d % 2 == 1) := by simp [machine, next, hx]
  generalize (machine c).next ((machine c).final s is) x = t at *
  clear e
  induction js generalizing t with
  | nil => exact h0
  | cons z js ih =>
    rw [Machine.final_cons]
    refine ih (fun w hw => hj w (List.mem_cons_of_mem _ hw)) _ ?_
    have := hj z List.mem_cons_self
    simp [machine, next, this, h0]

/-! ## C169: stability of the output -/

/-- full property: a word offered and not taken is offered in the next cycle too -/
def Stable (c : Cfg) : Prop := ∀ (s : St) (is : List In) (x y : In), ((machine c).outAfter s is x).vld = true → x.rd = false →
  (machine c).outAfter s (is ++ [x]) y = (machine c).outAfter s is x

/-- **C169** (the full property fails) Writes of `enable` and of `len` act immediately: a word which waits is withdrawn or replaced. -/
theorem frameGen_unstable (c : Cfg) : ¬ Stable c := by
  intro h
  have := h ⟨0, true, 0⟩ [] ⟨some 0, none, false⟩ go rfl rfl
  have := congrArg Out.vld this
  exact absurd this (by simp [Machine.outAfter, Machine.final, machine, out, next])

/-- **C169** A word offered and not taken is offered in the next cycle too, if the registers are not written in the cycle. -/
theorem frameGen_stable_partial (c : Cfg) (s : St) (is : List In) (x y : In) (hx : x.rd = false) (he : x.en = none) (hl : x.len = none) :
    (machine c).outAfter s (is ++ [x]) y = (machine c).outAfter s is x := by
  have e1 : (machine c).outAfter s is x = out c ((machine c).final s is) x := rfl
  have e2 : (machine c).outAfter s (is ++ [x]) y = out c ((machine c).final s (is ++ [x])) y := rfl
  rw [e1, e2, Machine.final_append]
  show out c (next c ((machine c).final s is) x) y = _
  simp [out, next, hx, he, hl]

/-- frames of three words -/
example : sent ((machine ⟨511, 64⟩).trace ⟨0, false, 0⟩ [len 2, on, go, ⟨none, none, false⟩, go, go, go]) = [(2, false), (1, false), (0, true), (2, false)] := by decide

end Verif.FrameGen
