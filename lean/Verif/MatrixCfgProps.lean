import Verif.MatrixCfg
/-!
# C375-C377: access rights, routing and elaboration of the matrix interconnect
-/
namespace Verif.MatrixCfg

open Verif.Groups

theorem mem_sorted {n : Nat} {l : List Nat} {x : Nat} : x ∈ sorted n l ↔ x < n ∧ x ∈ l := by
  unfold sorted
  simp [List.mem_filter]

theorem sorted_lt (n : Nat) (l : List Nat) : (sorted n l).Pairwise (· < ·) :=
  List.Pairwise.filter _ List.pairwise_lt_range

/-- ascending lists with the same elements are the same -/
theorem ext_lt : ∀ (a b : List Nat), a.Pairwise (· < ·) → b.Pairwise (· < ·) → (∀ x, x ∈ a ↔ x ∈ b) → a = b := by
  intro a
  induction a with
  | nil =>
    intro b _ _ h
    cases b with
    | nil => rfl
    | cons y b => exact absurd ((h y).2 List.mem_cons_self) (by simp)
  | cons x a ih =>
    intro b ha hb h
    cases b with
    | nil => exact absurd ((h x).1 List.mem_cons_self) (by simp)
    | cons y b =>
      rw [List.pairwise_cons] at ha hb
      have hxy : x = y := by
        rcases List.mem_cons.1 ((h x).1 List.mem_cons_self) with e | e
        · exact e
        · rcases List.mem_cons.1 ((h y).2 List.mem_cons_self) with e' | e'
          · exact e'.symm
          · have := hb.1 x e; have := ha.1 y e'; omega
      subst hxy
      rw [ih b ha.2 hb.2]
      intro z
      constructor
      · intro hz
        rcases List.mem_cons.1 ((h z).1 (List.mem_cons_of_mem _ hz)) with e | e
        · subst e; exact absurd (ha.1 z hz) (by omega)
        · exact e
      · intro hz
        rcases List.mem_cons.1 ((h z).2 (List.mem_cons_of_mem _ hz)) with e | e
        · subst e; exact absurd (hb.1 z hz) (by omega)
        · exact e

theorem le_foldr_max {l : List Nat} {x : Nat} (h : x ∈ l) : x ≤ l.foldr max 0 := by
  induction l with
  | nil => cases h
  | cons y l ih =>
    rw [List.foldr_cons]
    rcases List.mem_cons.1 h with e | e
    · subst e; exact Nat.le_max_left _ _
    · exact Nat.le_trans (ih e) (Nat.le_max_right _ _)

/-- a hash table iterates over all elements -/
theorem mem_pyOrd {T : Nat} (hT : 0 < T) {l : List Nat} {x : Nat} : x ∈ pyOrd T l ↔ x ∈ l := by
  unfold pyOrd
  simp only [List.mem_flatMap, List.mem_range, List.mem_filter, Bool.and_eq_true, List.contains_iff_mem, beq_iff_eq]
  constructor
  · rintro ⟨_, _, _, h, _⟩; exact h
  · intro h
    exact ⟨x % T, Nat.mod_lt _ hT, by have := le_foldr_max h; omega, h, rfl⟩

/-- integers smaller than the size of the hash table are iterated in the ascending order -/
theorem pyOrd_sorted {T n : Nat} {l : List Nat} (hT : ∀ x ∈ l, x < T) (hn : ∀ x ∈ l, x < n) :
    pyOrd T l = sorted n l := by
  apply ext_lt
  · unfold pyOrd
    rw [List.pairwise_flatMap]
    refine ⟨fun a _ => List.Pairwise.filter _ List.pairwise_lt_range, ?_⟩
    refine List.Pairwise.imp ?_ List.pairwise_lt_range
    intro a b hab x hx y hy
    rw [List.mem_filter, Bool.and_eq_true, List.contains_iff_mem, beq_iff_eq] at hx hy
    have h1 := Nat.mod_eq_of_lt (hT x hx.2.1)
    have h2 := Nat.mod_eq_of_lt (hT y hy.2.1)
    omega
  · exact sorted_lt n l
  · intro x
    rw [mem_sorted]
    constructor
    · intro h
      have : x ∈ l := by
        unfold pyOrd at h
        simp only [List.mem_flatMap, List.mem_filter, Bool.and_eq_true, List.contains_iff_mem] at h
        obtain ⟨_, _, _, h, _⟩ := h
        exact h
      exact ⟨hn x this, this⟩
    · intro h
      exact (mem_pyOrd (by have := hT x h.2; omega)).2 h.2

theorem lt_getElem {l : List Nat} (h : l.Pairwise (· < ·)) : ∀ (i j : Nat) (hij : i ≤ j) (hj : j < l.length),
    l[i]'(by omega) + (j - i) ≤ l[j] := by
  intro i j
  induction j with
  | zero => intro hij hj; have : i = 0 := by omega
            subst this; simp
  | succ j ih =>
    intro hij hj
    by_cases e : i = j + 1
    · subst e; simp
    · have h1 := ih (by omega) (by omega)
      have h2 := List.pairwise_iff_getElem.1 h j (j + 1) (by omega) hj (by omega)
      omega

/-- an ascending list whose last element is its length - 1 is 0, 1, ... -/
theorem ident {l : List Nat} (h : l.Pairwise (· < ·)) (he : l ≠ []) (hl : l.length - 1 = l.getLastD 0) (i : Nat)
    (hi : i < l.length) : l[i] = i := by
  have hpos : 0 < l.length := List.length_pos_iff.2 he
  have hlast : l.getLastD 0 = l[l.length - 1]'(by omega) := by
    rw [List.getLastD_eq_getLast?, List.getLast?_eq_getElem?, List.getElem?_eq_getElem (by omega)]; rfl
  have h1 := lt_getElem h i (l.length - 1) (by omega) (by omega)
  have h2 := lt_getElem h 0 i (by omega) hi
  omega

theorem mem_visible {M : Masters} {ss : List Nat} {m s : Nat} :
    s ∈ visible M ss m ↔ s ∈ ss ∧ ∃ x, (s, x) ∈ M.getD m [] := by
  unfold visible
  simp only [List.mem_filter, List.mem_map, List.contains_iff_mem]
  constructor
  · rintro ⟨⟨⟨s', x⟩, h, rfl⟩, h2⟩; exact ⟨h2, x, h⟩
  · rintro ⟨h, x, hx⟩; exact ⟨⟨(s, x), hx, rfl⟩, h⟩

theorem mem_mapM {α β : Type} (f : α → Option β) : ∀ (l : List α) (r : List β), l.mapM f = some r →
    ∀ y, y ∈ r ↔ ∃ x ∈ l, f x = some y := by
  intro l
  induction l with
  | nil => intro r h y; simp at h; subst h; simp
  | cons x l ih =>
    intro r h y
    rw [List.mapM_cons] at h
    cases hx : f x with
    | none => rw [hx] at h; simp at h
    | some v =>
      cases hl : l.mapM f with
      | none => rw [hx, hl] at h; simp at h
      | some w =>
        rw [hx, hl] at h
        simp at h
        subst h
        simp only [List.mem_cons, ih w hl y]
        constructor
        · rintro (e | ⟨z, hz, e⟩)
          · exact ⟨x, Or.inl rfl, by rw [hx, e]⟩
          · exact ⟨z, Or.inr hz, e⟩
        · rintro ⟨z, e | hz, e'⟩
          · subst e; rw [hx] at e'; exact Or.inl (Option.some.inj e').symm
          · exact Or.inr ⟨z, hz, e'⟩

theorem mapM_some {α β : Type} (f : α → Option β) : ∀ (l : List α), (∃ r, l.mapM f = some r) ↔ ∀ x ∈ l, ∃ y, f x = some y := by
  intro l
  induction l with
  | nil => simp
  | cons x l ih =>
    rw [List.mapM_cons]
    constructor
    · rintro ⟨r, h⟩
      cases hx : f x with
      | none => rw [hx] at h; simp at h
      | some v =>
        cases hl : l.mapM f with
        | none => rw [hx, hl] at h; simp at h
        | some w =>
          intro z hz
          rcases List.mem_cons.1 hz with e | e
          · subst e; exact ⟨v, hx⟩
          · exact ih.1 ⟨w, hl⟩ z e
    · intro h
      obtain ⟨v, hv⟩ := h x List.mem_cons_self
      obtain ⟨w, hw⟩ := ih.2 fun z hz => h z (List.mem_cons_of_mem _ hz)
      exact ⟨v :: w, by rw [hv, hw]; rfl⟩

theorem group_lt {M : Masters} {S : List (Nat × Nat)} {t : Access} (hr : InRange M S) {m s : Nat} (h : Conn M t m s) :
    s < S.length := by
  obtain ⟨l, x, h1, h2, _⟩ := h
  exact hr l (List.mem_of_getElem? h1) (s, x) h2

/-- the route of one sub interconnect -/
theorem sub_routes (M : Masters) (S : List (Nat × Nat)) (ms ss : List Nat) (ord : List Nat → List Nat)
    (hom : ord ms = sorted M.length ms) (hos : ord ss = sorted S.length ss)
    (hms : ∀ m ∈ ms, m < M.length) (hss : ∀ s ∈ ss, s < S.length)
    (hcov : ∀ s ∈ ss, ∃ m ∈ ms, ∃ x, (s, x) ∈ M.getD m []) (c : Sub) (hc : configure ord M S ms ss = some c) (m a s : Nat) :
    c.Routes m a s ↔ m ∈ ms ∧ s ∈ ss ∧ (∃ x, (s, x) ∈ M.getD m []) ∧ InRegion (S.getD s (0, 0)) a := by
  unfold configure at hc
  rw [hom, hos] at hc
  -- the used slaves are the slaves of the group
  have hused : sorted S.length ((sorted M.length ms).map (visible M ss)).flatten = sorted S.length ss := by
    apply ext_lt _ _ (sorted_lt _ _) (sorted_lt _ _)
    intro x
    rw [mem_sorted, mem_sorted]
    constructor
    · rintro ⟨h1, h2⟩
      obtain ⟨l, hl, hx⟩ := List.mem_flatten.1 h2
      obtain ⟨m, _, rfl⟩ := List.mem_map.1 hl
      exact ⟨h1, (mem_visible.1 hx).1⟩
    · rintro ⟨h1, h2⟩
      obtain ⟨m, hm, hx⟩ := hcov x h2
      exact ⟨h1, List.mem_flatten.2 ⟨_, List.mem_map.2 ⟨m, mem_sorted.2 ⟨hms m hm, hm⟩, rfl⟩, mem_visible.2 ⟨h2, hx⟩⟩⟩
  simp only [hused] at hc
  split at hc
  · cases hc
  next hne =>
  have hne2 : sorted S.length ss ≠ [] := by
    intro e; apply hne; rw [e]; simp
  have hc := Option.some.inj hc
  -- index of a slave in the sub interconnect
  have key : ∀ (m' s' : Nat) (l : List Nat), c.masters[m']? = some l → c.sIdx[s']? = some s →
      (s' ∈ l ↔ ∃ m0, (sorted M.length ms)[m']? = some m0 ∧ s ∈ visible M ss m0) := by
    intro m' s' l hl hs'
    have hs1 : (sorted S.length ss)[s']? = some s := by rw [← hc] at hs'; exact hs'
    obtain ⟨hs2, hs3⟩ := List.getElem?_eq_some_iff.1 hs1
    rw [← hc] at hl
    simp only at hl
    split at hl
    · next hrem =>
      rw [List.map_map, List.getElem?_map] at hl
      cases hm0 : (sorted M.length ms)[m']? with
      | none => rw [hm0] at hl; cases hl
      | some m0 =>
        rw [hm0] at hl
        simp only [Option.map_some, Option.some.injEq, Function.comp] at hl
        rw [← hl, List.mem_map]
        constructor
        · rintro ⟨y, hy, e⟩
          have hym : y ∈ sorted S.length ss :=
            mem_sorted.2 ⟨hss y (mem_visible.1 hy).1, (mem_visible.1 hy).1⟩
          have hlt := List.idxOf_lt_length_of_mem hym
          have : (sorted S.length ss)[(sorted S.length ss).idxOf y]'hlt = y := List.getElem_idxOf hlt
          simp only [e, hs3] at this
          exact ⟨m0, rfl, this ▸ hy⟩
        · rintro ⟨m1, e, hv⟩
          cases e
          refine ⟨s, hv, ?_⟩
          have hnd : (sorted S.length ss).Nodup := (sorted_lt S.length ss).imp (fun h => Nat.ne_of_lt h)
          rw [← hs3]
          exact hnd.idxOf_getElem s' hs2
    · next hrem =>
      rw [ne_eq, Decidable.not_not] at hrem
      have hid := ident (sorted_lt S.length ss) hne2 hrem s' hs2
      rw [hs3] at hid
      subst hid
      rw [List.getElem?_map] at hl
      cases hm0 : (sorted M.length ms)[m']? with
      | none => rw [hm0] at hl; cases hl
      | some m0 =>
        rw [hm0] at hl
        simp only [Option.map_some, Option.some.injEq] at hl
        rw [← hl]
        constructor
        · intro h; exact ⟨m0, rfl, h⟩
        · rintro ⟨m1, e, hv⟩; cases e; exact hv
  have hmi : c.mIdx = sorted M.length ms := by rw [← hc]
  have hsi : c.sIdx = sorted S.length ss := by rw [← hc]
  have hsl : c.slaves = (sorted S.length ss).map fun s => S.getD s (0, 0) := by rw [← hc]
  have hml : c.masters.length = (sorted M.length ms).length := by
    rw [← hc]; simp only; split <;> simp
  unfold Sub.Routes
  constructor
  · rintro ⟨m', s', l, r, h1, h2, h3, h4, h5, h6⟩
    obtain ⟨m0, hm0, hv⟩ := (key m' s' l h2 h6).1 h3
    rw [hmi, hm0] at h1
    cases h1
    rw [hsl, List.getElem?_map, ← hsi, h6] at h4
    simp only [Option.map_some, Option.some.injEq] at h4
    refine ⟨(mem_sorted.1 (List.mem_of_getElem? hm0)).2, (mem_visible.1 hv).1, (mem_visible.1 hv).2, ?_⟩
    rw [h4]; exact h5
  · rintro ⟨h1, h2, h3, h4⟩
    obtain ⟨m', hm', e⟩ := List.getElem_of_mem (mem_sorted.2 ⟨hms m h1, h1⟩)
    obtain ⟨s', hs', e'⟩ := List.getElem_of_mem (mem_sorted.2 ⟨hss s h2, h2⟩)
    have e1 : (sorted M.length ms)[m']? = some m := by rw [List.getElem?_eq_getElem hm', e]
    have e2 : c.sIdx[s']? = some s := by rw [hsi, List.getElem?_eq_getElem hs', e']
    have e3 : c.masters[m']? = some (c.masters[m']'(by omega)) := List.getElem?_eq_getElem (by omega)
    refine ⟨m', s', _, S.getD s (0, 0), by rw [hmi]; exact e1, e3, (key m' s' _ e3 e2).2 ⟨m, e1, mem_visible.2 ⟨h2, h3⟩⟩, ?_,
      h4, e2⟩
    rw [hsl, List.getElem?_map, ← hsi, e2]
    rfl

/-- the iteration order of sets of ports is the ascending order -/
def Ascending (ord : List Nat → List Nat) (n : Nat) : Prop := ∀ l, (∀ x ∈ l, x < n) → ord l = sorted n l

/-- what the sub interconnects of one access type route -/
theorem build_routes (M : Masters) (S : List (Nat × Nat)) (t : Access) (ord : List Nat → List Nat)
    (hom : Ascending ord M.length) (hos : Ascending ord S.length) (hr : InRange M S) (subs : List Sub)
    (hb : build ord M S t = some subs) (m a s : Nat) :
    (∃ c ∈ subs, c.Routes m a s) ↔
      (∃ x, (s, x) ∈ M.getD m []) ∧ (∃ g ∈ groups M t, m ∈ g.1 ∧ s ∈ g.2) ∧ InRegion (S.getD s (0, 0)) a := by
  have hmem := mem_mapM _ _ _ hb
  obtain ⟨_, _, hg⟩ := groups_components M t
  have hone : ∀ g ∈ groups M t, ∀ c, configure ord M S g.1 g.2 = some c → (c.Routes m a s ↔
      m ∈ g.1 ∧ s ∈ g.2 ∧ (∃ x, (s, x) ∈ M.getD m []) ∧ InRegion (S.getD s (0, 0)) a) := by
    intro g hg' c hc
    obtain ⟨_, g2, _, g4⟩ := hg g hg'
    have hss : ∀ s ∈ g.2, s < S.length := by
      intro s hs
      obtain ⟨m, _, h⟩ := (g4 s).1 hs
      exact group_lt hr h
    refine sub_routes M S g.1 g.2 ord (hom _ g2) (hos _ hss) g2 hss ?_ c hc m a s
    intro s hs
    obtain ⟨m, hm, l, x, h1, h2, _⟩ := (g4 s).1 hs
    exact ⟨m, hm, x, by rw [List.getD_eq_getElem?_getD, h1]; exact h2⟩
  constructor
  · rintro ⟨c, hc, hrt⟩
    obtain ⟨g, hg', e⟩ := (hmem c).1 hc
    obtain ⟨h1, h2, h3, h4⟩ := (hone g hg' c e).1 hrt
    exact ⟨h3, ⟨g, hg', h1, h2⟩, h4⟩
  · rintro ⟨h3, ⟨g, hg', h1, h2⟩, h4⟩
    have := (mapM_some _ _).1 ⟨subs, hb⟩ g hg'
    obtain ⟨c, hc⟩ := this
    exact ⟨c, (hmem c).2 ⟨g, hg', hc⟩, (hone g hg' c hc).2 ⟨h1, h2, h3, h4⟩⟩

theorem conn_group {M : Masters} {t : Access} {m s : Nat} (h : Conn M t m s) : ∃ g ∈ groups M t, m ∈ g.1 ∧ s ∈ g.2 := by
  obtain ⟨h1, _, h3⟩ := groups_components M t
  obtain ⟨g, hg, hm⟩ := h1 m (conn_lt h)
  exact ⟨g, hg, hm, ((h3 g hg).2.2.2 s).2 ⟨m, hm, h⟩⟩

/-- **C375** (full statement) a read (write) transaction of a master gets exactly to the slave which has the address in its
region and which the master is allowed to read (write) -/
def RightsExact : Prop := ∀ (M : Masters) (S : List (Nat × Nat)) (t : Access) (ord : List Nat → List Nat) (subs : List Sub),
  Ascending ord M.length → Ascending ord S.length → InRange M S → (t = .read ∨ t = .write) → build ord M S t = some subs →
  ∀ m a s, (∃ c ∈ subs, c.Routes m a s) ↔ Conn M t m s ∧ InRegion (S.getD s (0, 0)) a

/-- **C375** Every transaction which is allowed is routed; nothing else is routed if the slaves accessible for some master by
the access type are not accessible for another master by the other access type only. -/
theorem rights_partial (M : Masters) (S : List (Nat × Nat)) (t : Access) (ord : List Nat → List Nat)
    (hom : Ascending ord M.length) (hos : Ascending ord S.length) (hr : InRange M S) (subs : List Sub)
    (hb : build ord M S t = some subs) :
    (∀ m a s, Conn M t m s → InRegion (S.getD s (0, 0)) a → ∃ c ∈ subs, c.Routes m a s) ∧
    ((∀ m s x, (s, x) ∈ M.getD m [] → Conn M t m s ∨ ∀ m', ¬ Conn M t m' s) →
      ∀ m a s, (∃ c ∈ subs, c.Routes m a s) → Conn M t m s ∧ InRegion (S.getD s (0, 0)) a) := by
  refine ⟨?_, ?_⟩
  · intro m a s hc hreg
    refine (build_routes M S t ord hom hos hr subs hb m a s).2 ⟨?_, conn_group hc, hreg⟩
    obtain ⟨l, x, h1, h2, _⟩ := hc
    exact ⟨x, by rw [List.getD_eq_getElem?_getD, h1]; exact h2⟩
  · intro hu m a s hrt
    obtain ⟨⟨x, hx⟩, ⟨g, hg, hm, hs⟩, hreg⟩ := (build_routes M S t ord hom hos hr subs hb m a s).1 hrt
    refine ⟨?_, hreg⟩
    rcases hu m s x hx with h | h
    · exact h
    · obtain ⟨_, _, h3⟩ := groups_components M t
      obtain ⟨m', _, h'⟩ := ((h3 g hg).2.2.2 s).1 hs
      exact absurd h' (h m')

/-- masters 0 and 1 read slave 0, slave 1 is for writes of the master 0 and reads of the master 1 -/
def exM : Masters := [[(0, .readWrite), (1, .write)], [(0, .readWrite), (1, .read)]]
def exS : List (Nat × Nat) := [(0x1000, 0x1000), (0x2000, 0x1000)]

theorem ascending_sorted (n : Nat) : Ascending (pyOrd n) n := fun _ h => pyOrd_sorted h h

/-- **C375 violated**: a read of the master 0 gets to slave 1 which it can only write -/
theorem rights_violated : ¬ RightsExact := by
  intro h
  have h1 := (h exM exS .read (pyOrd 2) [⟨[[0, 1], [0, 1]], exS, [0, 1], [0, 1]⟩] (ascending_sorted 2) (ascending_sorted 2)
    (by unfold InRange; decide) (Or.inl rfl) (by decide +kernel) 0 0x2000 1).1
      ⟨_, List.mem_cons_self, 0, 1, [0, 1], (0x2000, 0x1000), by decide, by decide, by decide, by decide,
        by unfold InRegion; decide, by decide⟩
  obtain ⟨⟨l, x, e1, e2, e3⟩, _⟩ := h1
  have : l = [(0, .readWrite), (1, .write)] := by
    have : exM[0]? = some [(0, .readWrite), (1, .write)] := rfl
    rw [this] at e1
    exact (Option.some.inj e1).symm
  subst this
  simp at e2
  subst e2
  rcases e3 with e | e <;> cases e

/-- **C376** (full statement) with masters which can read and write their slaves a transaction gets exactly to the slave with
the address in its region, for any number of ports -/
def RouteExact : Prop := ∀ (M : Masters) (S : List (Nat × Nat)) (T : Nat) (subs : List Sub), 8 ≤ T → InRange M S →
  (∀ l ∈ M, ∀ p ∈ l, p.2 = .readWrite) → build (pyOrd T) M S .read = some subs →
  ∀ m a s, (∃ c ∈ subs, c.Routes m a s) ↔ Conn M .read m s ∧ InRegion (S.getD s (0, 0)) a

/-- **C376** holds for up to 8 masters and up to 8 slaves (read and write) -/
theorem route_partial (M : Masters) (S : List (Nat × Nat)) (t : Access) (T : Nat) (hT : 8 ≤ T)
    (hM : M.length ≤ 8) (hS : S.length ≤ 8) (subs : List Sub) (hr : InRange M S) (hrw : ∀ l ∈ M, ∀ p ∈ l, p.2 = .readWrite)
    (hb : build (pyOrd T) M S t = some subs) (m a s : Nat) :
    (∃ c ∈ subs, c.Routes m a s) ↔ Conn M t m s ∧ InRegion (S.getD s (0, 0)) a := by
  have hom : Ascending (pyOrd T) M.length := fun l h => pyOrd_sorted (fun x hx => by have := h x hx; omega) h
  have hos : Ascending (pyOrd T) S.length := fun l h => pyOrd_sorted (fun x hx => by have := h x hx; omega) h
  obtain ⟨h1, h2⟩ := rights_partial M S t (pyOrd T) hom hos hr subs hb
  refine ⟨h2 ?_ m a s, fun h => h1 m a s h.1 h.2⟩
  intro m s x hx
  rw [List.getD_eq_getElem?_getD] at hx
  cases hm : M[m]? with
  | none => rw [hm] at hx; simp at hx
  | some l =>
    rw [hm] at hx
    exact Or.inl ⟨l, x, hm, hx, Or.inr (hrw l (List.mem_of_getElem? hm) (s, x) hx)⟩

/-- master 0 uses slaves 1 and 8, master 1 the others -/
def exM9 : Masters :=
  [[(1, .readWrite), (8, .readWrite)],
   [(0, .readWrite), (2, .readWrite), (3, .readWrite), (4, .readWrite), (5, .readWrite), (6, .readWrite), (7, .readWrite)]]
def exS9 : List (Nat × Nat) := (List.range 9).map fun k => (0x1000 * k, 0x1000)

/-- **C376 violated**: the set {1, 8} is iterated as 8, 1; the reads of the region of slave 1 get to slave 8 -/
theorem route_violated : ¬ RouteExact := by
  intro h
  have h1 := (h exM9 exS9 8
    [⟨[[0, 1]], [(0x8000, 0x1000), (0x1000, 0x1000)], [0], [1, 8]⟩,
     ⟨[[0, 1, 2, 3, 4, 5, 6]], [(0, 0x1000), (0x2000, 0x1000), (0x3000, 0x1000), (0x4000, 0x1000), (0x5000, 0x1000),
        (0x6000, 0x1000), (0x7000, 0x1000)], [1], [0, 2, 3, 4, 5, 6, 7]⟩]
    (Nat.le_refl _) (by unfold InRange; decide) (by decide) (by decide +kernel) 0 0x1000 8).1
      ⟨_, List.mem_cons_self, 0, 1, [0, 1], (0x1000, 0x1000), by decide, by decide, by decide, by decide,
        by unfold InRegion; decide, by decide⟩
  have := h1.2
  unfold InRegion at this
  revert this
  decide

/-- **C377** (full statement) the interconnect can be built for each configuration where each port has some access right -/
def Buildable : Prop := ∀ (M : Masters) (S : List (Nat × Nat)) (T : Nat), 8 ≤ T → InRange M S → Covered M S →
  ∃ r, buildAll (pyOrd T) M S = some r

theorem configure_some (M : Masters) (S : List (Nat × Nat)) (t : Access) (T : Nat) (hT : 0 < T) (hr : InRange M S)
    (g : List Nat × List Nat) (hg : g ∈ groups M t) :
    (∃ c, configure (pyOrd T) M S g.1 g.2 = some c ∧ c.mIdx = sorted M.length g.1 ∧ c.sIdx = sorted S.length g.2) ↔
      g.2 ≠ [] := by
  obtain ⟨_, _, h3⟩ := groups_components M t
  obtain ⟨g1, g2, _, g4⟩ := h3 g hg
  have hss : ∀ s ∈ g.2, s < S.length := by
    intro s hs
    obtain ⟨m, _, h⟩ := (g4 s).1 hs
    exact group_lt hr h
  have hused : sorted S.length ((pyOrd T g.1).map (visible M g.2)).flatten = sorted S.length g.2 := by
    apply ext_lt _ _ (sorted_lt _ _) (sorted_lt _ _)
    intro x
    rw [mem_sorted, mem_sorted]
    constructor
    · rintro ⟨h1, h2⟩
      obtain ⟨l, hl, hx⟩ := List.mem_flatten.1 h2
      obtain ⟨m, _, rfl⟩ := List.mem_map.1 hl
      exact ⟨h1, (mem_visible.1 hx).1⟩
    · rintro ⟨h1, h2⟩
      obtain ⟨m, hm, l, y, e1, e2, _⟩ := (g4 x).1 h2
      exact ⟨h1, List.mem_flatten.2 ⟨_, List.mem_map.2 ⟨m, (mem_pyOrd hT).2 hm, rfl⟩,
        mem_visible.2 ⟨h2, y, by rw [List.getD_eq_getElem?_getD, e1]; exact e2⟩⟩⟩
  unfold configure
  simp only [hused]
  constructor
  · rintro ⟨c, h, _⟩ e
    rw [e] at h
    simp at h
  · intro hne
    have h1 : g.1.isEmpty = false := by cases h : g.1 with
      | nil => exact absurd h g1
      | cons => rfl
    have h2 : g.2.isEmpty = false := by cases h : g.2 with
      | nil => exact absurd h hne
      | cons => rfl
    have h3 : (sorted S.length g.2).isEmpty = false := by
      cases h : g.2 with
      | nil => exact absurd h hne
      | cons s l =>
        have : s ∈ sorted S.length g.2 := mem_sorted.2 ⟨hss s (by rw [h]; simp), by rw [h]; simp⟩
        rw [h] at this
        cases hl : sorted S.length (s :: l) with
        | nil => rw [hl] at this; cases this
        | cons => rfl
    rw [h1, h2, h3]
    simp

/-- **C377** the interconnect can be built iff each master has a right to read and a right to write (and each slave has any
right) -/
theorem buildable_partial (M : Masters) (S : List (Nat × Nat)) (T : Nat) (hT : 8 ≤ T) (hr : InRange M S) (hc : Covered M S) :
    (∃ r, buildAll (pyOrd T) M S = some r) ↔
      ∀ m, m < M.length → (∃ s, Conn M .read m s) ∧ ∃ s, Conn M .write m s := by
  -- one access type
  have hone : ∀ t, (∃ r, build (pyOrd T) M S t = some r) ↔ ∀ m, m < M.length → ∃ s, Conn M t m s := by
    intro t
    obtain ⟨h1, _, h3⟩ := groups_components M t
    unfold build
    rw [mapM_some]
    constructor
    · intro h m hm
      obtain ⟨g, hg, hmg⟩ := h1 m hm
      obtain ⟨c, hc⟩ := h g hg
      have hne : g.2 ≠ [] := by
        intro e
        unfold configure at hc
        rw [e] at hc
        simp at hc
      obtain ⟨s, hs⟩ := List.exists_mem_of_ne_nil _ hne
      obtain ⟨m', hm', hcon⟩ := ((h3 g hg).2.2.2 s).1 hs
      have hreach := ((h3 g hg).2.2.1 m hmg m').1 hm'
      -- the last step to m or m itself
      have : ∀ y, Reach M t m y → y = m ∨ ∃ s, Conn M t m s := by
        intro y hy
        have hy' := hy.symm
        induction hy with
        | refl => exact Or.inl rfl
        | step hxy hx _ ih =>
          rcases ih hxy.symm with e | e
          · subst e; exact Or.inr ⟨_, hx⟩
          · exact Or.inr e
      rcases this m' hreach with e | e
      · subst e; exact ⟨s, hcon⟩
      · exact e
    · intro h g hg
      obtain ⟨g1, g2, _, g4⟩ := h3 g hg
      obtain ⟨m, hm⟩ := List.exists_mem_of_ne_nil _ g1
      obtain ⟨s, hs⟩ := h m (g2 m hm)
      obtain ⟨c, hc, _⟩ := (configure_some M S t T (by omega) hr g hg).2
        (List.ne_nil_of_mem ((g4 s).2 ⟨m, hm, hs⟩))
      exact ⟨c, hc⟩
  constructor
  · rintro ⟨r, h⟩
    unfold buildAll at h
    split at h
    · next r1 w1 e1 e2 =>
      intro m hm
      exact ⟨(hone .read).1 ⟨_, e1⟩ m hm, (hone .write).1 ⟨_, e2⟩ m hm⟩
    · cases h
  · intro h
    obtain ⟨r, hrd⟩ := (hone .read).2 fun m hm => (h m hm).1
    obtain ⟨w, hw⟩ := (hone .write).2 fun m hm => (h m hm).2
    -- ports of the sub interconnects
    have hport : ∀ t subs, build (pyOrd T) M S t = some subs → ∀ m s, Conn M t m s →
        subs.any (fun c => c.mIdx.contains m) = true ∧ subs.any (fun c => c.sIdx.contains s) = true := by
      intro t subs hb m s hcon
      obtain ⟨g, hg, h1, h2⟩ := conn_group hcon
      obtain ⟨c, hc, e1, e2⟩ := (configure_some M S t T (by omega) hr g hg).2 (List.ne_nil_of_mem h2)
      have hin := (mem_mapM _ _ _ hb c).2 ⟨g, hg, hc⟩
      rw [List.any_eq_true, List.any_eq_true]
      refine ⟨⟨c, hin, ?_⟩, ⟨c, hin, ?_⟩⟩
      · rw [e1, List.contains_iff_mem]; exact mem_sorted.2 ⟨conn_lt hcon, h1⟩
      · rw [e2, List.contains_iff_mem]; exact mem_sorted.2 ⟨group_lt hr hcon, h2⟩
    refine ⟨(r, w), ?_⟩
    unfold buildAll
    rw [hrd, hw]
    simp only
    rw [if_pos]
    rw [Bool.and_eq_true, List.all_eq_true, List.all_eq_true]
    refine ⟨?_, ?_⟩
    · intro m hm
      obtain ⟨s, hs⟩ := (h m (List.mem_range.1 hm)).1
      rw [(hport .read r hrd m s hs).1, Bool.true_or]
    · intro s hs
      obtain ⟨t, m, l, x, e1, e2, _⟩ := hc.2 s (List.mem_range.1 hs)
      cases x with
      | read => rw [(hport .read r hrd m s ⟨l, _, e1, e2, Or.inl rfl⟩).2, Bool.true_or]
      | readWrite => rw [(hport .read r hrd m s ⟨l, _, e1, e2, Or.inr rfl⟩).2, Bool.true_or]
      | write => rw [(hport .write w hw m s ⟨l, _, e1, e2, Or.inl rfl⟩).2, Bool.or_true]

/-- **C377 violated**: a master which only reads (e.g. an instruction port) fails on `assert slave_indexes` (matrix.py:57) -/
theorem buildable_violated : ¬ Buildable := by
  intro h
  obtain ⟨r, hr⟩ := h [[(0, .read)], [(0, .readWrite)]] [(0, 0x1000)] 8 (Nat.le_refl _) (by unfold InRange; decide)
    (by
      refine ⟨?_, ?_⟩
      · intro m hm
        have : m = 0 ∨ m = 1 := by simp at hm; omega
        rcases this with e | e
        · subst e; exact ⟨.read, 0, _, .read, rfl, by simp, Or.inl rfl⟩
        · subst e; exact ⟨.read, 0, _, .readWrite, rfl, by simp, Or.inr rfl⟩
      · intro s hs
        have : s = 0 := by simp at hs; omega
        subst this
        exact ⟨.read, 0, _, .read, rfl, by simp, Or.inl rfl⟩)
  have : buildAll (pyOrd 8) [[(0, .read)], [(0, .readWrite)]] [(0, 0x1000)] = none := by decide +kernel
  rw [this] at hr
  cases hr

-- non-vacuity
example : build (pyOrd 8) [[(2, .readWrite), (3, .readWrite)], [(0, .readWrite)], [(3, .readWrite), (1, .readWrite)]]
    [(0, 16), (16, 16), (32, 16), (48, 16)] .write =
    some [⟨[[1, 2], [2, 0]], [(16, 16), (32, 16), (48, 16)], [0, 2], [1, 2, 3]⟩, ⟨[[0]], [(0, 16)], [1], [0]⟩] := by
  decide +kernel
example : (buildAll (pyOrd 8) [[(0, .readWrite), (1, .read)], [(1, .readWrite)]] [(0, 16), (16, 16)]).isSome = true := by
  decide +kernel
example : (buildAll (pyOrd 8) exM exS).isSome = true := by decide +kernel
example : (buildAll (pyOrd 8) exM9 exS9).isSome = true := by decide +kernel
example : pyOrd 8 [1, 8] = [8, 1] := by decide

end Verif.MatrixCfg
