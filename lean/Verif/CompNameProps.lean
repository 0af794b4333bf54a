import Verif.CompName
/-!
# Properties of the names of the components made by a builder
-/
namespace Verif.CompName

theorem numbered_inj {p n : List Char} {i j : Nat} (h : numbered p n i = numbered p n j) : i = j := by
  have h' : Nat.toDigits 10 i = Nat.toDigits 10 j := by
    have := List.append_cancel_left h
    simpa using this
  have := congrArg (fun l => Nat.ofDigitChars 10 l 0) h'
  simpa [Nat.ofDigitChars_toDigits (b := 10) (by decide) (by decide)] using this

theorem loop_spec {attrs : List (List Char)} {p n : List Char} : ∀ (f k : Nat) (r : List Char × Nat),
    loop attrs p n f k = some r →
    r.1 = numbered p n r.2 ∧ r.1 ∉ attrs ∧ k ≤ r.2 ∧ ∀ j, k ≤ j → j < r.2 → numbered p n j ∈ attrs
  | 0, k, r, h => by cases h
  | f + 1, k, r, h => by
      rw [loop] at h
      split at h
      · rename_i hm
        obtain ⟨a, b, c, d⟩ := loop_spec f (k + 1) r h
        refine ⟨a, b, by omega, fun j h1 h2 => ?_⟩
        by_cases e : j = k
        · rw [e]; exact hm
        · exact d j (by omega) h2
      · rename_i hm
        cases h
        exact ⟨rfl, hm, Nat.le_refl _, fun j h1 h2 => by simp only at h2; omega⟩

/-- the loop runs out of fuel only if the parent has as many attributes of this form -/
theorem loop_none {attrs : List (List Char)} {p n : List Char} : ∀ (f k : Nat),
    loop attrs p n f k = none → ∀ i, i < f → numbered p n (k + i) ∈ attrs
  | 0, k, _, i, hi => by omega
  | f + 1, k, h, i, hi => by
      rw [loop] at h
      split at h
      · rename_i hm
        cases i with
        | zero => exact hm
        | succ i =>
          have := loop_none f (k + 1) h i (by omega)
          rwa [show k + (i + 1) = k + 1 + i by omega]
      · cases h

theorem pigeon {α : Type} [DecidableEq α] : ∀ (g : Nat → α) (l : List α) (m : Nat),
    (∀ i j, g i = g j → i = j) → (∀ i, i < m → g i ∈ l) → m ≤ l.length
  | g, l, 0, _, _ => Nat.zero_le _
  | g, l, m + 1, hi, hm => by
      have h0 := hm m (by omega)
      have := pigeon g (l.erase (g m)) m hi (fun i h => by
        rw [List.mem_erase_of_ne (fun e => by have := hi _ _ e; omega)]
        exact hm i (by omega))
      have e := List.length_erase_of_mem h0
      have : 0 < l.length := List.length_pos_of_mem h0
      omega

/-- C437: the search of a name ends, for every parent and every state of the builder. -/
theorem find_total (attrs : List (List Char)) (b : Builder) (n : List Char) (first : Bool) :
    ∃ r, find attrs b n first = some r := by
  unfold find
  split
  · exact ⟨_, rfl⟩
  · cases h : loop attrs b.pre n (attrs.length + 1) b.compId with
    | some r => exact ⟨_, rfl⟩
    | none =>
      have := pigeon (fun i => numbered b.pre n (b.compId + i)) attrs (attrs.length + 1)
        (fun i j e => by have := numbered_inj e; omega) (fun i hi => loop_none _ _ h i hi)
      omega

/-- C437: the name is not an attribute of the parent, it is the requested one with the name of the builder
as a prefix and, unless the plain name was asked for and is free, with the first free number from the
counter of the builder as a suffix. -/
theorem find_fresh (attrs : List (List Char)) (b b' : Builder) (n r : List Char) (first : Bool)
    (h : find attrs b n first = some (r, b')) :
    r ∉ attrs ∧ b'.name = b.name ∧ b.compId ≤ b'.compId ∧
    ((first = true ∧ r = b.pre ++ n) ∨
     ((first = true → b.pre ++ n ∈ attrs) ∧ r = b.pre ++ n ++ '_' :: Nat.toDigits 10 b'.compId ∧
       ∀ j, b.compId ≤ j → j < b'.compId → b.pre ++ n ++ '_' :: Nat.toDigits 10 j ∈ attrs)) := by
  unfold find at h
  split at h
  · rename_i c
    cases h
    exact ⟨c.2, rfl, Nat.le_refl _, Or.inl ⟨c.1, rfl⟩⟩
  · rename_i c
    cases e : loop attrs b.pre n (attrs.length + 1) b.compId with
    | none => rw [e] at h; cases h
    | some q =>
      obtain ⟨q1, q2⟩ := q
      rw [e] at h
      cases h
      obtain ⟨h1, h2, h3, h4⟩ := loop_spec _ _ _ e
      refine ⟨h2, rfl, h3, Or.inr ⟨fun hf => ?_, h1, h4⟩⟩
      exact Classical.byContradiction fun hn => c ⟨hf, hn⟩

/-- C437: the components which a builder adds to a parent get different names, none of which replaces an
attribute of the parent; nothing is lost from the parent. -/
theorem add_distinct : ∀ (reqs : List (List Char × Bool)) (attrs : List (List Char)) (b : Builder),
    ∃ l as, addAll attrs b reqs = some (l, as) ∧ l.length = reqs.length ∧ l.Nodup ∧
      (∀ x ∈ l, x ∉ attrs) ∧ as = l.reverse ++ attrs
  | [], attrs, b => ⟨[], attrs, rfl, rfl, List.nodup_nil, by simp, by simp⟩
  | (n, first) :: rest, attrs, b => by
      obtain ⟨⟨r, b'⟩, e⟩ := find_total attrs b n first
      obtain ⟨l, as, e', hl, hd, hn, ha⟩ := add_distinct rest (r :: attrs) b'
      have hf := (find_fresh attrs b b' n r first e).1
      refine ⟨r :: l, as, by rw [addAll, e]; simp only; rw [e'], by simp [hl], ?_, ?_, by simp [ha]⟩
      · rw [List.nodup_cons]
        exact ⟨fun hr => hn r hr (List.mem_cons_self ..), hd⟩
      · intro x hx
        rcases List.mem_cons.1 hx with rfl | hx
        · exact hf
        · exact fun hc => hn x hx (List.mem_cons_of_mem _ hc)

example : addAll ["b_f_0".toList, "b_x".toList] ⟨"b".toList, 0⟩
    [("f".toList, false), ("f".toList, false), ("x".toList, true), ("y".toList, true), ("f_2".toList, true)] =
    some (["b_f_1".toList, "b_f_2".toList, "b_x_2".toList, "b_y".toList, "b_f_2_2".toList],
      ["b_f_2_2".toList, "b_y".toList, "b_x_2".toList, "b_f_2".toList, "b_f_1".toList,
       "b_f_0".toList, "b_x".toList]) := by decide +kernel

end Verif.CompName
