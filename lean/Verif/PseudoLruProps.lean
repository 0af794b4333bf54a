import Verif.PseudoLru
/-!
# Properties C80, C81 of `PseudoLru`
-/
namespace Verif.PseudoLru

/-- Registers of the sizes `lru_reg_width` gives for 2 and 4 ways, the only ones `__init__` accepts. -/
def Reg (regs : List Bool) : Prop := regs.length = 1 ∨ regs.length = 3

/-- Mask with only way `w` of `n` used. -/
def use (n w : Nat) : List Bool := (List.range n).map fun k => decide (k = w)

/-- Full statement of **C80**: the way which was just used is not the next one to replace. -/
def UsedIsKept : Prop := ∀ regs, Reg regs → ∀ w, w < regs.length + 1 →
  getLru (markUse regs (use (regs.length + 1) w)) ≠ w

private theorem selected_indep (n : Nat) (hn : n % 2 = 1) (r m m' : List Bool) (hr : r.length = n) :
    ∀ fuel i, i < n → selected n (r ++ m) fuel i = selected n (r ++ m') fuel i := by
  intro fuel
  induction fuel with
  | zero => intro i _; rfl
  | succ f ih =>
    intro i hi
    unfold selected
    split
    · have : ∀ m, (r ++ m).getD i false = r.getD i false := by
        intro m
        rw [List.getD_eq_getElem?_getD, List.getD_eq_getElem?_getD, List.getElem?_append_left (by omega)]
      rw [this, this]
    · rw [ih (2 * i + 1) (by omega), ih (2 * i + 2) (by omega)]

/-- **C80** fails for every register of odd width (`lru_reg_width` is always odd): the new state does not depend on
which ways were used. -/
theorem pseudoLru_use_ignored (regs m m' : List Bool) (h : regs.length % 2 = 1) : markUse regs m = markUse regs m' := by
  unfold markUse
  apply List.map_congr_left
  intro i hi
  rw [selected_indep regs.length h regs m m' rfl _ i (List.mem_range.1 hi)]

/-- **C80** is false. -/
theorem pseudoLru_used_replaced : ¬ UsedIsKept := by
  intro h
  exact h [false, false, false] (Or.inr rfl) 1 (by decide) (by decide)

/-- **C80**: with 4 ways, once something was used, ways 0 and 2 are never selected for replacement, whatever is used. -/
theorem pseudoLru_ways_never_replaced (regs : List Bool) (h : regs.length = 3) (m : List Bool) (ms : List (List Bool)) :
    getLru (ms.foldl markUse (markUse regs m)) = 1 ∨ getLru (ms.foldl markUse (markUse regs m)) = 3 := by
  have key : ∀ r : List Bool, r.length = 3 → ∀ m, ∃ b, markUse r m = [b, false, false] := by
    intro r hr m
    rw [pseudoLru_use_ignored r m [] (by rw [hr])]
    match r, hr with
    | [a, b, c], _ => exact ⟨a ^^ (b ^^ c), by cases a <;> cases b <;> cases c <;> decide⟩
  have run : ∀ (ms : List (List Bool)) (b : Bool), ∃ b', ms.foldl markUse [b, false, false] = [b', false, false] := by
    intro ms
    induction ms with
    | nil => intro b; exact ⟨b, rfl⟩
    | cons m ms ih =>
      intro b
      obtain ⟨b', hb⟩ := key [b, false, false] rfl m
      rw [List.foldl_cons, hb]
      exact ih b'
  obtain ⟨b, hb⟩ := key regs h m
  obtain ⟨b', hb'⟩ := run ms b
  rw [hb, hb']
  cases b'
  · left; decide
  · right; decide

/-- **C80**, what holds: the index is always the number of a way. Missing: any influence of the used ways. -/
theorem pseudoLru_index_partial (regs : List Bool) (h : Reg regs) : getLru regs < regs.length + 1 := by
  rcases h with h | h
  · match regs, h with
    | [a], _ => cases a <;> decide
  · match regs, h with
    | [a, b, c], _ => cases a <;> cases b <;> cases c <;> decide

/-- The table of the documentation (pseudo_lru.py:36-44): line to replace for bit_0, bit_1, bit_2. -/
def docVictim (b0 b1 b2 : Bool) : Nat :=
  if !b0 then (if !b1 then 0 else 1) else (if !b2 then 2 else 3)

/-- Full statement of **C81**: the line to replace is the documented one, and each number of ways is accepted. -/
def DocTable : Prop := ∀ b0 b1 b2, getLru [b0, b1, b2] = docVictim b0 b1 b2

/-- **C81** is false for each state: the last bit of the index is inverted. -/
theorem pseudoLru_table_inverted (b0 b1 b2 : Bool) : getLru [b0, b1, b2] = docVictim b0 b1 b2 ^^^ 1 := by
  cases b0 <;> cases b1 <;> cases b2 <;> decide

theorem pseudoLru_table_violated : ¬ DocTable := by
  intro h
  exact absurd (h false false false) (by decide)

/-- **C81**, what holds: the replaced line is in the documented half of the lines. Missing: which one of the two. -/
theorem pseudoLru_half_partial (b0 b1 b2 : Bool) : getLru [b0, b1, b2] / 2 = docVictim b0 b1 b2 / 2 := by
  cases b0 <;> cases b1 <;> cases b2 <;> decide

/-- **C81** The register for 8 ways or more is refused, for each power of two of ways. -/
theorem pseudoLru_eight_ways_refused (k : Nat) (hk : 3 ≤ k) : accepted (regWidth (2 ^ k)) = false := by
  have hlog : log2ceil (2 ^ k) = k := by
    have h8 : 2 ^ 3 ≤ 2 ^ k := Nat.pow_le_pow_right (by omega) hk
    unfold log2ceil
    rw [if_neg (by omega)]
    have e : Nat.log2 (2 ^ k - 1) = k - 1 := by
      have hk' : 2 ^ k = 2 * 2 ^ (k - 1) := by
        rw [← Nat.pow_succ']; congr 1; omega
      have hp := Nat.two_pow_pos (k - 1)
      exact (Nat.log2_eq_iff (by omega)).2 ⟨by omega, by rw [show k - 1 + 1 = k by omega]; omega⟩
    rw [e]; omega
  unfold accepted regWidth
  rw [hlog]
  have h8 : 2 ^ 3 ≤ 2 ^ k := Nat.pow_le_pow_right (by omega) hk
  have h1 : (2 ^ k - 1 == 1) = false := by simp; omega
  rw [h1, Bool.or_false]
  unfold isPow2
  have : ((2 ^ k - 1 - 1) &&& (2 ^ k - 1 - 1 - 1)) ≠ 0 := by
    intro h
    have hb := congrArg (fun x => x.testBit 2) h
    simp only [Nat.testBit_and, Nat.zero_testBit] at hb
    have t1 : (2 ^ k - 1 - 1).testBit 2 = true := by
      rw [show 2 ^ k - 1 - 1 = 2 ^ k - (1 + 1) by omega, Nat.testBit_two_pow_sub_succ (by omega)]
      have : decide (2 < k) = true := decide_eq_true (by omega)
      rw [this]; decide
    have t2 : (2 ^ k - 1 - 1 - 1).testBit 2 = true := by
      rw [show 2 ^ k - 1 - 1 - 1 = 2 ^ k - (2 + 1) by omega, Nat.testBit_two_pow_sub_succ (by omega)]
      have : decide (2 < k) = true := decide_eq_true (by omega)
      rw [this]; decide
    rw [t1, t2] at hb
    cases hb
  simp [this]

example : Reg [true, false, true] ∧ (([true, false, true] : List Bool).length) % 2 = 1 ∧
    getLru [true, false, true] = 2 ∧ accepted (regWidth 4) = true := by
  refine ⟨Or.inr rfl, rfl, by decide, by decide⟩

end Verif.PseudoLru
