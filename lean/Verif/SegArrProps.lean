import Verif.SegArr
/-!
# Properties C373, C374: `SegmentedArrayProxy`
-/
namespace Verif.SegArr

/-! ## C373: read after write -/

/-- A value which fits in the item is read back. -/
def RoundTrip : Prop := ∀ (g : Cfg) (m : Mems) (i v : Nat), 0 < g.k → 0 < g.ew → v < 2 ^ (g.itemWidth * g.nWords) →
  ∃ m', setItem g m i v = some m' ∧ getItem g m' i = v

/-- **C373** (violated): elements of 16b keep only their lower byte. -/
theorem roundTrip_violated : ¬ RoundTrip := by
  intro h
  obtain ⟨m', h1, h2⟩ := h ⟨16, 2, none⟩ (fun _ _ => 0) 0 0x12345678 (by decide) (by decide) (by decide)
  have : (setItem ⟨16, 2, none⟩ (fun _ _ => 0) 0 0x12345678).map (fun m => getItem ⟨16, 2, none⟩ m 0) = some 0x560078 := by
    decide +kernel
  rw [h1] at this
  simp only [Option.map_some, Option.some.injEq] at this
  omega

theorem slice_lt (v b w : Nat) : slice v b w < 2 ^ w := Nat.mod_lt _ (Nat.two_pow_pos w)

theorem concat_slice (v w n : Nat) : concat w (fun j => slice v (j * w) w) n = v % 2 ^ (w * n) := by
  induction n with
  | zero => simp [concat, Nat.mod_one]
  | succ n ih =>
    rw [concat, ih, Nat.mul_succ, Nat.pow_add, Nat.mod_mul, slice, Nat.shiftRight_eq_div_pow, Nat.mul_comm n w, Nat.mul_comm (2 ^ (w * n))]

theorem concat_congr (w : Nat) (f f' : Nat → Nat) (n : Nat) (h : ∀ j, j < n → f j = f' j) : concat w f n = concat w f' n := by
  induction n with
  | zero => rfl
  | succ n ih => rw [concat, concat, ih (fun j hj => h j (by omega)), h n (by omega)]

theorem setRaw_get {g : Cfg} {m m' : Mems} {i v : Nat} (h : setRaw g m i v = some m') (i' : Nat) :
    getRaw g m' i' = if i' = i then concat g.ew (fun j => slice v (j * 8) 8) g.k else getRaw g m i' := by
  unfold setRaw at h
  split at h
  · simp only [Option.some.injEq] at h
    subst h
    by_cases hi : i' = i
    · rw [if_pos hi]
      apply concat_congr
      intro j hj
      simp [hi, hj]
    · rw [if_neg hi]
      apply concat_congr
      intro j hj
      simp [hi]
  · simp at h

theorem setRaw_some {g : Cfg} (h8 : 8 ≤ g.ew) (m : Mems) (i v : Nat) : ∃ m', setRaw g m i v = some m' := by
  unfold setRaw
  rw [if_pos]
  · exact ⟨_, rfl⟩
  · intro j _
    exact Nat.lt_of_lt_of_le (slice_lt _ _ _) (Nat.pow_le_pow_right (by decide) h8)

theorem setWords_get {g : Cfg} (base v : Nat) (c : Nat) (m m' : Mems) (t : Nat) (h : setWords g base v m t c = some m') (i : Nat) :
    getRaw g m' i = if base + t ≤ i ∧ i < base + t + c then
        concat g.ew (fun j => slice (slice v ((i - base) * g.itemWidth) g.itemWidth) (j * 8) 8) g.k
      else getRaw g m i := by
  induction c generalizing m t with
  | zero =>
    simp only [setWords, Option.some.injEq] at h
    subst h
    rw [if_neg (by omega)]
  | succ c ih =>
    simp only [setWords] at h
    cases hs : setRaw g m (base + t) (slice v (t * g.itemWidth) g.itemWidth) with
    | none => rw [hs] at h; simp at h
    | some m1 =>
      rw [hs] at h
      simp only at h
      rw [ih m1 (t + 1) h, setRaw_get hs]
      by_cases h1 : base + (t + 1) ≤ i ∧ i < base + (t + 1) + c
      · rw [if_pos h1, if_pos (by omega)]
      · rw [if_neg h1]
        by_cases h2 : i = base + t
        · rw [if_pos h2, if_pos (by omega)]
          subst h2
          rw [Nat.add_sub_cancel_left]
        · rw [if_neg h2, if_neg (by omega)]

theorem setWords_some {g : Cfg} (h8 : 8 ≤ g.ew) (base v : Nat) (c : Nat) (m : Mems) (t : Nat) :
    ∃ m', setWords g base v m t c = some m' := by
  induction c generalizing m t with
  | zero => exact ⟨m, rfl⟩
  | succ c ih =>
    obtain ⟨m1, h1⟩ := setRaw_some h8 m (base + t) (slice v (t * g.itemWidth) g.itemWidth)
    obtain ⟨m2, h2⟩ := ih m1 (t + 1)
    exact ⟨m2, by rw [setWords, h1]; exact h2⟩

/-- **C373** (part): memories with elements of 8b, for each number of memories and of words in the item. Missing: other widths of
the elements. -/
theorem round_trip_partial (g : Cfg) (m : Mems) (i v : Nat) (h8 : g.ew = 8) (hv : v < 2 ^ (g.itemWidth * g.nWords)) :
    ∃ m', setItem g m i v = some m' ∧ getItem g m' i = v := by
  have raw : ∀ x, x < 2 ^ g.itemWidth → concat g.ew (fun j => slice x (j * 8) 8) g.k = x := by
    intro x hx
    have := concat_slice x 8 g.k
    rw [h8, this]
    unfold Cfg.itemWidth at hx
    rw [h8] at hx
    exact Nat.mod_eq_of_lt hx
  have one : g.nWords = 1 → ∃ m', setRaw g m i v = some m' ∧ getRaw g m' i = v := by
    intro h1
    obtain ⟨m', hm⟩ := setRaw_some (g := g) (by omega) m i v
    refine ⟨m', hm, ?_⟩
    rw [setRaw_get hm, if_pos rfl]
    apply raw
    simpa [h1] using hv
  unfold setItem getItem
  cases hw : g.words with
  | none => exact one (by simp [Cfg.nWords, hw])
  | some n =>
    by_cases hn : n = 0 ∨ n = 1
    · simp only [if_pos hn]
      exact one (by simp only [Cfg.nWords, hw, Option.getD_some]; omega)
    · simp only [if_neg hn]
      have hN : g.nWords = n := by simp only [Cfg.nWords, hw, Option.getD_some]; omega
      obtain ⟨m', hm⟩ := setWords_some (g := g) (by omega) (i * n) v n m 0
      refine ⟨m', hm, ?_⟩
      rw [concat_congr g.itemWidth _ (fun t => slice v (t * g.itemWidth) g.itemWidth)]
      · rw [concat_slice, Nat.mod_eq_of_lt]
        rw [hN] at hv; exact hv
      · intro t ht
        rw [setWords_get (i * n) v n m m' 0 hm, if_pos (by omega), Nat.add_sub_cancel_left]
        exact raw _ (slice_lt _ _ _)

/-- **C373**: a write does not change other items, for all widths. -/
theorem write_other (g : Cfg) (m m' : Mems) (i i' v : Nat) (h : setItem g m i v = some m') (hi : i' ≠ i) :
    getItem g m' i' = getItem g m i' := by
  unfold setItem at h
  unfold getItem
  cases hw : g.words with
  | none =>
    rw [hw] at h
    simp only at h ⊢
    rw [setRaw_get h, if_neg hi]
  | some n =>
    rw [hw] at h
    simp only at h ⊢
    by_cases hn : n = 0 ∨ n = 1
    · rw [if_pos hn] at h ⊢
      rw [if_pos hn, setRaw_get h, if_neg hi]
    · rw [if_neg hn] at h ⊢
      rw [if_neg hn]
      apply concat_congr
      intro t ht
      rw [setWords_get (i * n) v n m m' 0 h, if_neg]
      rcases Nat.lt_or_gt_of_ne hi with hl | hl
      · have : (i' + 1) * n ≤ i * n := Nat.mul_le_mul_right _ hl
        rw [Nat.add_mul, Nat.one_mul] at this
        omega
      · have : (i + 1) * n ≤ i' * n := Nat.mul_le_mul_right _ hl
        rw [Nat.add_mul, Nat.one_mul] at this
        omega

/-- Four memories of bytes, two words in an item. -/
example : (setItem ⟨8, 4, some 2⟩ (fun _ _ => 0) 3 0x1122334455667788).map
    (fun m => (getItem ⟨8, 4, some 2⟩ m 3, m 0 6, m 0 7)) = some (0x1122334455667788, 0x88, 0x44) := by decide +kernel

/-! ## C374: number of items -/

/-- `len` and the iteration give the number of items. -/
def LenSpec : Prop := ∀ (g : Cfg) (depth : Nat), len g depth = some (depth / g.nWords)

/-- **C374** (violated): without `words_per_item` the proxy has no length and can not be iterated. -/
theorem lenSpec_violated : ¬ LenSpec := by
  intro h
  have := h ⟨8, 4, none⟩ 16
  simp [len] at this

/-- **C374** (part): with `words_per_item`. Missing: `None`. -/
theorem len_partial (g : Cfg) (depth n : Nat) (hw : g.words = some n) (hn : n ≠ 0) : len g depth = some (depth / g.nWords) := by
  simp only [len, hw, Cfg.nWords, Option.getD_some, if_neg hn]
  rw [show max 1 n = n by omega]

/-- **C374**: all words of the counted items are inside of the memories. -/
theorem len_inside (g : Cfg) (depth c i t : Nat) (h : len g depth = some c) (hi : i < c) (ht : t < g.nWords) :
    i * g.nWords + t < depth := by
  cases hw : g.words with
  | none => simp [len, hw] at h
  | some n =>
    have hn : n ≠ 0 := by
      intro h0; simp [len, hw, h0] at h
    rw [len_partial g depth n hw hn] at h
    simp only [Option.some.injEq] at h
    subst h
    have h1 : (i + 1) * g.nWords ≤ depth := by
      have := Nat.div_mul_le_self depth g.nWords
      exact Nat.le_trans (Nat.mul_le_mul_right _ hi) this
    rw [Nat.add_mul, Nat.one_mul] at h1
    omega

example : len ⟨8, 4, some 2⟩ 16 = some 8 := by decide

end Verif.SegArr
