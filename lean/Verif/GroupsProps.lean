import Verif.Groups
/-!
# C52: separable groups of an interconnect are the connected components
-/
namespace Verif.Groups

theorem groupsFrom_spec (M : Masters) (t : Access) : ∀ (ms seen : List Nat), (∀ m ∈ ms, m < M.length) → seen.Nodup →
    (∀ m ∈ seen, m < M.length) → (∀ m ∈ seen, ∀ m', Reach M t m m' → m' ∈ seen) →
    (∀ g ∈ groupsFrom M t ms seen, g.1 ≠ [] ∧ (∀ m ∈ g.1, m < M.length ∧ m ∉ seen) ∧
      (∀ s, s ∈ g.2 ↔ ∃ m ∈ g.1, Conn M t m s) ∧ (∀ m ∈ g.1, ∀ m', m' ∈ g.1 ↔ Reach M t m m')) ∧
    (∀ m ∈ ms, m ∈ seen ∨ ∃ g ∈ groupsFrom M t ms seen, m ∈ g.1) ∧
    (groupsFrom M t ms seen).Pairwise (fun a b => ∀ m, ¬ (m ∈ a.1 ∧ m ∈ b.1)) := by
  intro ms
  induction ms with
  | nil => intro seen _ _ _ _; simp [groupsFrom]
  | cons mi ms ih =>
    intro seen hms hnd hlt hcl
    have hsp := search_spec M t mi (hms mi List.mem_cons_self) seen hnd hlt hcl
    unfold groupsFrom
    revert hsp
    generalize search M t (M.length + 1) [mi] seen [] [] = r
    intro hsp
    obtain ⟨r1, r2, r3⟩ := r
    obtain ⟨h1, h2, h3, h4, h5, h6⟩ := hsp
    simp only at h1 h2 h3 h4 h5 h6 ⊢
    have hcl' : ∀ m ∈ r1, ∀ m', Reach M t m m' → m' ∈ r1 := by
      intro m hm m' hr
      rw [h1] at hm ⊢
      rcases List.mem_append.1 hm with hm | hm
      · exact List.mem_append.2 (Or.inl ((h6 m hm m').2 hr))
      · exact List.mem_append.2 (Or.inr (hcl m hm m' hr))
    have hdis : ∀ m ∈ r2, m ∉ seen := by
      rw [h1] at h2
      intro m hm hs
      exact (List.nodup_append.1 h2).2.2 m hm m hs rfl
    obtain ⟨i1, i2, i3⟩ := ih r1 (fun m hm => hms m (List.mem_cons_of_mem _ hm)) h2 h3 hcl'
    have hin : ∀ m, m ∈ r1 ↔ m ∈ r2 ∨ m ∈ seen := by intro m; rw [h1, List.mem_append]
    have hrest : ∀ g ∈ groupsFrom M t ms r1, g.1 ≠ [] ∧ (∀ m ∈ g.1, m < M.length ∧ m ∉ seen) ∧
        (∀ s, s ∈ g.2 ↔ ∃ m ∈ g.1, Conn M t m s) ∧ (∀ m ∈ g.1, ∀ m', m' ∈ g.1 ↔ Reach M t m m') := by
      intro g hg
      obtain ⟨j1, j2, j3, j4⟩ := i1 g hg
      exact ⟨j1, fun m hm => ⟨(j2 m hm).1, fun hs => (j2 m hm).2 ((hin m).2 (Or.inr hs))⟩, j3, j4⟩
    split
    · next he =>
      rw [Bool.and_eq_true, List.isEmpty_iff, List.isEmpty_iff] at he
      have he1 := he.1
      subst he1
      refine ⟨hrest, ?_, i3⟩
      intro m hm
      rcases List.mem_cons.1 hm with rfl | hm
      · rcases (hin m).1 h4 with h | h
        · cases h
        · exact Or.inl h
      · rcases i2 m hm with h | h
        · rcases (hin m).1 h with h | h
          · cases h
          · exact Or.inl h
        · exact Or.inr h
    · next he =>
      have hne : r2 ≠ [] := by
        rintro rfl
        apply he
        have : r3 = [] := by
          rw [List.eq_nil_iff_forall_not_mem]
          intro s hs
          obtain ⟨m, hm, _⟩ := (h5 s).1 hs
          cases hm
        simp [this]
      refine ⟨?_, ?_, List.Pairwise.cons ?_ i3⟩
      · intro g hg
        rcases List.mem_cons.1 hg with rfl | hg
        · exact ⟨hne, fun m hm => ⟨h3 m ((hin m).2 (Or.inl hm)), hdis m hm⟩, h5, h6⟩
        · exact hrest g hg
      · intro m hm
        rcases List.mem_cons.1 hm with rfl | hm
        · rcases (hin m).1 h4 with h | h
          · exact Or.inr ⟨_, List.mem_cons_self, h⟩
          · exact Or.inl h
        · rcases i2 m hm with h | ⟨g, hg, hm⟩
          · rcases (hin m).1 h with h | h
            · exact Or.inr ⟨_, List.mem_cons_self, h⟩
            · exact Or.inl h
          · exact Or.inr ⟨g, List.mem_cons_of_mem _ hg, hm⟩
      · intro g hg m ⟨hm1, hm2⟩
        exact ((i1 g hg).2.1 m hm2).2 ((hin m).2 (Or.inl hm1))

/-- **C52** Each master is in a group, groups are disjoint (on masters and on slaves), two masters are in the same group
iff they are connected through common slaves, and a group contains exactly slaves accessible from its masters. -/
theorem groups_components (M : Masters) (t : Access) :
    (∀ m, m < M.length → ∃ g ∈ groups M t, m ∈ g.1) ∧
    ((groups M t).Pairwise fun a b => (∀ m, ¬ (m ∈ a.1 ∧ m ∈ b.1)) ∧ ∀ s, ¬ (s ∈ a.2 ∧ s ∈ b.2)) ∧
    ∀ g ∈ groups M t, g.1 ≠ [] ∧ (∀ m ∈ g.1, m < M.length) ∧
      (∀ m ∈ g.1, ∀ m', m' ∈ g.1 ↔ Reach M t m m') ∧ ∀ s, s ∈ g.2 ↔ ∃ m ∈ g.1, Conn M t m s := by
  obtain ⟨h1, h2, h3⟩ := groupsFrom_spec M t (List.range M.length) [] (by simp) List.nodup_nil (by simp) (by simp)
  refine ⟨?_, ?_, ?_⟩
  · intro m hm
    rcases h2 m (List.mem_range.2 hm) with h | h
    · cases h
    · exact h
  · refine List.Pairwise.imp_of_mem ?_ h3
    intro a b ha hb hab
    refine ⟨hab, ?_⟩
    intro s ⟨hsa, hsb⟩
    obtain ⟨_, _, a3, a4⟩ := h1 a ha
    obtain ⟨_, _, b3, _⟩ := h1 b hb
    obtain ⟨m, hm, hc⟩ := (a3 s).1 hsa
    obtain ⟨m', hm', hc'⟩ := (b3 s).1 hsb
    exact hab m' ⟨(a4 m hm m').2 (.step .refl hc hc'), hm'⟩
  · intro g hg
    obtain ⟨j1, j2, j3, j4⟩ := h1 g hg
    exact ⟨j1, fun m hm => (j2 m hm).1, j4, j3⟩

/-- **C52** read and write channels are separated independently: an access right of the other type is ignored -/
theorem groups_access (M M' : Masters) (t : Access)
    (h : M.map (·.filter fun p => p.2 == t || p.2 == .readWrite) = M'.map (·.filter fun p => p.2 == t || p.2 == .readWrite)) :
    groups M t = groups M' t := by
  have hlen : M.length = M'.length := by simpa using congrArg List.length h
  have hmc : mc M t = mc M' t := by
    funext m
    unfold mc
    have := congrArg (fun l => l[m]?) h
    simp only [List.getElem?_map] at this
    simp only [List.getD_eq_getElem?_getD]
    cases h1 : M[m]? with
    | none =>
      rw [h1] at this
      cases h2 : M'[m]? with
      | none => rfl
      | some l => rw [h2] at this; cases this
    | some l =>
      rw [h1] at this
      cases h2 : M'[m]? with
      | none => rw [h2] at this; cases this
      | some l' =>
        rw [h2] at this
        simp only [Option.map_some, Option.some.injEq] at this
        simp only [Option.getD_some]
        rw [this]
  have hsc : sc M t = sc M' t := by
    funext s
    unfold sc
    rw [hlen, hmc]
  have hs : search M t = search M' t := by
    funext k
    induction k with
    | zero => rfl
    | succ k ih =>
      funext a b c d
      unfold search
      rw [ih, hmc, hsc]
  have hg : ∀ ms seen, groupsFrom M t ms seen = groupsFrom M' t ms seen := by
    intro ms
    induction ms with
    | nil => intro seen; rfl
    | cons m ms ih =>
      intro seen
      unfold groupsFrom
      simp only [hs, hlen, ih]
  unfold groups
  rw [hlen]
  exact hg _ _

-- non-vacuity: masters 0 and 2 share slave 1 for writes only
example : groups [[(0, .readWrite), (1, .write)], [(2, .read)], [(1, .readWrite)]] .write
    = [([2, 0], [0, 1, 1]), ([1], [])] := by decide
example : groups [[(0, .readWrite), (1, .write)], [(2, .read)], [(1, .readWrite)]] .read
    = [([0], [0]), ([1], [2]), ([2], [1])] := by decide
example : ([[(0, .readWrite), (1, .write)], [(2, .read)]] : Masters).map (·.filter fun p => p.2 == .read || p.2 == .readWrite)
    = ([[(0, .readWrite)], [(2, .read), (0, .write)]] : Masters).map
      (·.filter fun p => p.2 == .read || p.2 == .readWrite) := by decide

end Verif.Groups
