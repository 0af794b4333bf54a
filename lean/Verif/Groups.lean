import Verif.Common
/-!
# Model of `BusInterconnectUtils._extract_separable_groups` (hwtLib/abstract/busInterconnect.py:94-156)

Sets are lists (only membership matters). `m_to_search` is a stack, its top is the head of the list. One unit of fuel is
one iteration of the loop :107-116 which is not ended by `continue` (:109-110), the iterations ended by `continue` are the
`dropWhile`.
-/
namespace Verif.Groups

inductive Access where
  | read | write | readWrite
deriving DecidableEq

abbrev Masters := List (List (Nat × Access))

/-- `masters_connected_to`, abstract/busInterconnect.py:131-133 -/
def mc (M : Masters) (t : Access) (m : Nat) : List Nat :=
  ((M.getD m []).filter fun p => p.2 == t || p.2 == .readWrite).map Prod.fst

/-- `slaves_connected_to`, abstract/busInterconnect.py:134-137 -/
def sc (M : Masters) (t : Access) (s : Nat) : List Nat :=
  (List.range M.length).filter fun m => (mc M t m).contains s

/-- the loop abstract/busInterconnect.py:107-116 -/
def search (M : Masters) (t : Access) :
    Nat → List Nat → List Nat → List Nat → List Nat → List Nat × List Nat × List Nat
  | 0, _, seen, gm, gs => (seen, gm, gs)
  | k + 1, todo, seen, gm, gs =>
    match todo.dropWhile fun m => seen.contains m with
    | [] => (seen, gm, gs)
    | m :: rest => search M t k (((mc M t m).flatMap (sc M t)).reverse ++ rest) (m :: seen) (m :: gm) (gs ++ mc M t m)

/-- the loop abstract/busInterconnect.py:148-154 with :104-106, :118-121 -/
def groupsFrom (M : Masters) (t : Access) : List Nat → List Nat → List (List Nat × List Nat)
  | [], _ => []
  | mi :: ms, seen =>
    let r := search M t (M.length + 1) [mi] seen [] []
    if r.2.1.isEmpty && r.2.2.isEmpty then groupsFrom M t ms r.1
    else (r.2.1, r.2.2) :: groupsFrom M t ms r.1

/-- `_extract_separable_groups` -/
def groups (M : Masters) (t : Access) : List (List Nat × List Nat) := groupsFrom M t (List.range M.length) []

/-- master `m` may access slave `s` with access `t` -/
def Conn (M : Masters) (t : Access) (m s : Nat) : Prop :=
  ∃ l a, M[m]? = some l ∧ (s, a) ∈ l ∧ (a = t ∨ a = .readWrite)

/-- connected through any number of common slaves -/
inductive Reach (M : Masters) (t : Access) (m : Nat) : Nat → Prop
  | refl : Reach M t m m
  | step {x y s : Nat} : Reach M t m x → Conn M t x s → Conn M t y s → Reach M t m y

theorem mem_mc {M : Masters} {t : Access} {m s : Nat} : s ∈ mc M t m ↔ Conn M t m s := by
  unfold mc Conn
  simp only [List.mem_map, List.mem_filter, Bool.or_eq_true, beq_iff_eq, List.getD_eq_getElem?_getD]
  constructor
  · rintro ⟨⟨s', a⟩, ⟨h1, h2⟩, rfl⟩
    cases hm : M[m]? with
    | none => rw [hm] at h1; simp at h1
    | some l => rw [hm] at h1; exact ⟨l, a, rfl, h1, h2⟩
  · rintro ⟨l, a, h1, h2, h3⟩
    exact ⟨(s, a), ⟨by rw [h1]; exact h2, h3⟩, rfl⟩

theorem conn_lt {M : Masters} {t : Access} {m s : Nat} (h : Conn M t m s) : m < M.length := by
  obtain ⟨l, a, h1, _⟩ := h
  exact (List.getElem?_eq_some_iff.1 h1).1

theorem mem_sc {M : Masters} {t : Access} {m s : Nat} : m ∈ sc M t s ↔ Conn M t m s := by
  unfold sc
  simp only [List.mem_filter, List.mem_range, List.contains_iff_mem, mem_mc]
  exact ⟨fun h => h.2, fun h => ⟨conn_lt h, h⟩⟩

theorem Reach.trans {M : Masters} {t : Access} {a b c : Nat} (h1 : Reach M t a b) (h2 : Reach M t b c) :
    Reach M t a c := by
  induction h2 with
  | refl => exact h1
  | step _ hx hy ih => exact .step ih hx hy

theorem Reach.symm {M : Masters} {t : Access} {a b : Nat} (h : Reach M t a b) : Reach M t b a := by
  induction h with
  | refl => exact .refl
  | step _ hx hy ih => exact (Reach.step .refl hy hx).trans ih

theorem Reach.lt {M : Masters} {t : Access} {a b : Nat} (h : Reach M t a b) (ha : a < M.length) : b < M.length := by
  cases h with
  | refl => exact ha
  | step _ _ hy => exact conn_lt hy

theorem nodup_length_le : ∀ (n : Nat) (l : List Nat), l.Nodup → (∀ x ∈ l, x < n) → l.length ≤ n := by
  intro n
  induction n with
  | zero =>
    intro l _ h
    cases l with
    | nil => simp
    | cons x xs => exact absurd (h x List.mem_cons_self) (by omega)
  | succ n ih =>
    intro l hd hlt
    have := ih (l.erase n) (hd.erase n) (by
      intro x hx
      have h1 := (hd.mem_erase_iff.1 hx)
      have := hlt x h1.2
      have := h1.1
      omega)
    have hle := List.le_length_erase (a := n) (l := l)
    omega

theorem dropWhile_mem_suffix {α : Type _} (p : α → Bool) (l : List α) : ∀ x ∈ l, p x = true ∨ x ∈ l.dropWhile p := by
  intro x hx
  induction l with
  | nil => cases hx
  | cons y ys ih =>
    rw [List.dropWhile_cons]
    split
    · next hp =>
      rcases List.mem_cons.1 hx with rfl | hx
      · exact Or.inl hp
      · exact ih hx
    · exact Or.inr hx

theorem dropWhile_subset {α : Type _} (p : α → Bool) (l : List α) : ∀ x ∈ l.dropWhile p, x ∈ l :=
  fun _ hx => (List.dropWhile_sublist p).mem hx

theorem dropWhile_head {α : Type _} {p : α → Bool} {l : List α} {x : α} {xs : List α} (h : l.dropWhile p = x :: xs) :
    p x = false := by
  induction l with
  | nil => simp at h
  | cons y ys ih =>
    rw [List.dropWhile_cons] at h
    split at h
    · exact ih h
    · next hp =>
      cases h
      simpa using hp

/-- invariant of the loop started at master `m0` with `seen0` -/
structure Inv (M : Masters) (t : Access) (m0 : Nat) (seen0 todo seen gm gs : List Nat) : Prop where
  eq : seen = gm ++ seen0
  nodup : seen.Nodup
  lt : ∀ m ∈ seen, m < M.length
  reachGm : ∀ m ∈ gm, Reach M t m0 m
  reachTodo : ∀ m ∈ todo, Reach M t m0 m
  closed : ∀ m ∈ gm, ∀ s m', Conn M t m s → Conn M t m' s → m' ∈ seen ∨ m' ∈ todo
  mem_gs : ∀ s, s ∈ gs ↔ ∃ m ∈ gm, Conn M t m s
  start : m0 ∈ seen ∨ m0 ∈ todo

theorem search_inv (M : Masters) (t : Access) (m0 : Nat) (h0 : m0 < M.length) (seen0 : List Nat) :
    ∀ (k : Nat) (todo seen gm gs : List Nat), Inv M t m0 seen0 todo seen gm gs → M.length < k + seen.length →
      Inv M t m0 seen0 [] (search M t k todo seen gm gs).1 (search M t k todo seen gm gs).2.1
        (search M t k todo seen gm gs).2.2 := by
  intro k
  induction k with
  | zero =>
    intro todo seen gm gs hI hk
    have := nodup_length_le _ _ hI.nodup hI.lt
    omega
  | succ k ih =>
    intro todo seen gm gs hI hk
    unfold search
    split
    · next hd =>
      refine ⟨hI.eq, hI.nodup, hI.lt, hI.reachGm, by simp, ?_, hI.mem_gs, ?_⟩
      · intro m hm s m' h1 h2
        rcases hI.closed m hm s m' h1 h2 with h | h
        · exact Or.inl h
        · rcases dropWhile_mem_suffix (fun m => seen.contains m) todo m' h with h | h
          · exact Or.inl (by simpa using h)
          · rw [hd] at h; cases h
      · rcases hI.start with h | h
        · exact Or.inl h
        · rcases dropWhile_mem_suffix (fun m => seen.contains m) todo m0 h with h | h
          · exact Or.inl (by simpa using h)
          · rw [hd] at h; cases h
    · next m rest hd =>
      have hnew : m ∉ seen := by simpa using dropWhile_head hd
      have hsub : ∀ x, x = m ∨ x ∈ rest → x ∈ todo := by
        intro x hx
        refine dropWhile_subset (fun m => seen.contains m) todo x ?_
        rw [hd]
        exact List.mem_cons.2 hx
      have hback : ∀ x ∈ todo, x ∈ seen ∨ x = m ∨ x ∈ rest := by
        intro x hx
        rcases dropWhile_mem_suffix (fun m => seen.contains m) todo x hx with h | h
        · exact Or.inl (by simpa using h)
        · rw [hd] at h
          exact Or.inr (List.mem_cons.1 h)
      have hm := hI.reachTodo m (hsub m (Or.inl rfl))
      apply ih
      · refine ⟨?_, List.nodup_cons.2 ⟨hnew, hI.nodup⟩, ?_, ?_, ?_, ?_, ?_, ?_⟩
        · rw [hI.eq]; rfl
        · intro x hx
          rcases List.mem_cons.1 hx with rfl | hx
          · exact hm.lt h0
          · exact hI.lt x hx
        · intro x hx
          rcases List.mem_cons.1 hx with rfl | hx
          · exact hm
          · exact hI.reachGm x hx
        · intro x hx
          rcases List.mem_append.1 hx with hx | hx
          · obtain ⟨s, hs, hx⟩ := List.mem_flatMap.1 (List.mem_reverse.1 hx)
            exact .step hm (mem_mc.1 hs) (mem_sc.1 hx)
          · exact hI.reachTodo x (hsub x (Or.inr hx))
        · intro x hx s m' h1 h2
          rcases List.mem_cons.1 hx with rfl | hx
          · refine Or.inr (List.mem_append.2 (Or.inl ?_))
            exact List.mem_reverse.2 (List.mem_flatMap.2 ⟨s, mem_mc.2 h1, mem_sc.2 h2⟩)
          · rcases hI.closed x hx s m' h1 h2 with h | h
            · exact Or.inl (List.mem_cons_of_mem _ h)
            · rcases hback m' h with h | rfl | h
              · exact Or.inl (List.mem_cons_of_mem _ h)
              · exact Or.inl List.mem_cons_self
              · exact Or.inr (List.mem_append.2 (Or.inr h))
        · intro s
          rw [List.mem_append, hI.mem_gs, mem_mc]
          constructor
          · rintro (⟨x, hx, hc⟩ | hc)
            · exact ⟨x, List.mem_cons_of_mem _ hx, hc⟩
            · exact ⟨m, List.mem_cons_self, hc⟩
          · rintro ⟨x, hx, hc⟩
            rcases List.mem_cons.1 hx with rfl | hx
            · exact Or.inr hc
            · exact Or.inl ⟨x, hx, hc⟩
        · rcases hI.start with h | h
          · exact Or.inl (List.mem_cons_of_mem _ h)
          · rcases hback m0 h with h | rfl | h
            · exact Or.inl (List.mem_cons_of_mem _ h)
            · exact Or.inl List.mem_cons_self
            · exact Or.inr (List.mem_append.2 (Or.inr h))
      · simp only [List.length_cons]
        omega

/-- one call of `_extract_separable_group`: with `seen0` closed, the new group is empty if `m0` was seen, otherwise it is
the component of `m0` -/
theorem search_spec (M : Masters) (t : Access) (m0 : Nat) (h0 : m0 < M.length) (seen0 : List Nat) (hnd : seen0.Nodup)
    (hlt : ∀ m ∈ seen0, m < M.length) (hcl : ∀ m ∈ seen0, ∀ m', Reach M t m m' → m' ∈ seen0) :
    let r := search M t (M.length + 1) [m0] seen0 [] []
    r.1 = r.2.1 ++ seen0 ∧ r.1.Nodup ∧ (∀ m ∈ r.1, m < M.length) ∧ m0 ∈ r.1 ∧
      (∀ s, s ∈ r.2.2 ↔ ∃ m ∈ r.2.1, Conn M t m s) ∧
      (∀ m ∈ r.2.1, ∀ m', m' ∈ r.2.1 ↔ Reach M t m m') := by
  have hI := search_inv M t m0 h0 seen0 (M.length + 1) [m0] seen0 [] []
    ⟨rfl, hnd, hlt, by simp, by intro m hm; simp at hm; subst hm; exact .refl, by simp, by simp, by simp⟩ (by omega)
  intro r
  change Inv M t m0 seen0 [] r.1 r.2.1 r.2.2 at hI
  have hstart : m0 ∈ r.1 := by
    rcases hI.start with h | h
    · exact h
    · cases h
  have hdis : ∀ m ∈ r.2.1, m ∉ seen0 := by
    have := hI.nodup
    rw [hI.eq] at this
    intro m hm hs
    exact (List.nodup_append.1 this).2.2 m hm m hs rfl
  have hclosed : ∀ m m', Reach M t m m' → m ∈ r.2.1 → m' ∈ r.2.1 := by
    intro m m' hr hm
    induction hr with
    | refl => exact hm
    | @step x y s hx h1 h2 ih =>
      rcases hI.closed x ih s y h1 h2 with h | h
      · rw [hI.eq] at h
        rcases List.mem_append.1 h with h | h
        · exact h
        · exact absurd (hcl _ h x (Reach.step .refl h2 h1)) (hdis x ih)
      · cases h
  refine ⟨hI.eq, hI.nodup, hI.lt, hstart, hI.mem_gs, ?_⟩
  intro m hm m'
  constructor
  · intro h
    exact (hI.reachGm m hm).symm.trans (hI.reachGm m' h)
  · intro h
    exact hclosed m m' h hm

end Verif.Groups
