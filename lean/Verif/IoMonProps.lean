import Verif.IoMon
/-!
# Properties of monitors of interfaces and of the RAM made of LUTs
-/
namespace Verif.IoMon

mutual
/-- paths of the signals of an interface with their types -/
def leaves : Io → List (List String × Ty)
  | .sig t => [([], t)]
  | .grp fs => leavesF fs
def leavesF : Fields → List (List String × Ty)
  | .nil => []
  | .cons n x r => ((leaves x).map fun l => (n :: l.1, l.2)) ++ leavesF r
end

/-- type of the signal on a path, if there is a signal -/
def sigAt : Io → List String → Option Ty
  | .sig t, [] => some t
  | .grp _, [] => none
  | x, n :: p => match x.get n with
    | some y => sigAt y p
    | none => none

mutual
/-- each interface has at least one child -/
def Full : Io → Prop
  | .sig _ => True
  | .grp fs => fs ≠ .nil ∧ FullF fs
def FullF : Fields → Prop
  | .nil => True
  | .cons _ x r => Full x ∧ FullF r
end

/-! ## C472 -/

mutual
theorem monitor_id : ∀ x : Io, Full x → monitorOf x = .ok x
  | .sig t, _ => by rw [monitorOf]
  | .grp .nil, h => by rw [Full] at h; exact absurd rfl h.1
  | .grp (.cons n x r), h => by
      rw [Full] at h
      rw [monitorOf, monitor_idF (.cons n x r) h.2]
theorem monitor_idF : ∀ fs : Fields, FullF fs → monitorFields fs = .ok fs
  | .nil, _ => by rw [monitorFields]
  | .cons n x r, h => by
      rw [FullF] at h
      rw [monitorFields, monitor_id x h.1]
      dsimp only
      rw [monitor_idF r h.2]
end

mutual
theorem monitor_full : ∀ x m : Io, monitorOf x = .ok m → Full x ∧ m = x
  | .sig t, m, h => by rw [monitorOf] at h; cases h; exact ⟨by rw [Full]; trivial, rfl⟩
  | .grp .nil, m, h => by rw [monitorOf] at h; cases h
  | .grp (.cons n x r), m, h => by
      rw [monitorOf] at h
      split at h
      next fs hf =>
        have := monitor_fullF _ _ hf
        cases h
        exact ⟨by rw [Full]; exact ⟨(by intro e; cases e), this.1⟩, by rw [this.2]⟩
      next => cases h
theorem monitor_fullF : ∀ fs ms : Fields, monitorFields fs = .ok ms → FullF fs ∧ ms = fs
  | .nil, ms, h => by rw [monitorFields] at h; cases h; exact ⟨by rw [FullF]; trivial, rfl⟩
  | .cons n x r, ms, h => by
      rw [monitorFields] at h
      split at h
      next => cases h
      next m hm =>
        split at h
        next => cases h
        next m' hm' =>
          have h1 := monitor_full _ _ hm
          have h2 := monitor_fullF _ _ hm'
          cases h
          exact ⟨by rw [FullF]; exact ⟨h1.1, h2.1⟩, by rw [h1.2, h2.2]⟩
end

/-! ## connection to a monitor -/

/-- the assignments which belong to signals of an interface: same path on both sides -/
def pairs (ps pd : List String) (l : List (List String × Ty)) : List Assign := l.map fun x => (pd ++ x.1, ps ++ x.1)

theorem pairs_cons (ps pd : List String) (n : String) (l : List (List String × Ty)) :
    pairs ps pd (l.map fun x => (n :: x.1, x.2)) = pairs (ps ++ [n]) (pd ++ [n]) l := by
  unfold pairs
  rw [List.map_map]
  apply List.map_congr_left
  intro x _
  simp

theorem sigAt_cons (x : Io) (n : String) (p : List String) (y : Io) (h : x.get n = some y) : sigAt x (n :: p) = sigAt y p := by
  rw [sigAt.eq_def]
  simp only [h]

theorem sigAt_none (x : Io) (n : String) (p : List String) (h : x.get n = none) : sigAt x (n :: p) = none := by
  rw [sigAt.eq_def]
  simp only [h]

mutual
theorem leaves_ne : ∀ x : Io, Full x → leaves x ≠ []
  | .sig t, _ => by rw [leaves]; simp
  | .grp .nil, h => by rw [Full] at h; exact absurd rfl h.1
  | .grp (.cons n x r), h => by
      rw [Full, FullF] at h
      rw [leaves, leavesF]
      have := leaves_ne x h.2.1
      intro e
      rw [List.append_eq_nil_iff, List.map_eq_nil_iff] at e
      exact this e.1
end

mutual
theorem to_ok : ∀ (dst src : Io) (ps pd : List String) (l : List Assign), connectTo src dst ps pd = .ok l →
    Full dst ∧ l = pairs ps pd (leaves dst) ∧ ∀ x ∈ leaves dst, sigAt src x.1 = some x.2
  | .sig t, src, ps, pd, l, h => by
      cases src with
      | grp fs => rw [connectTo] at h; cases h
      | sig t' =>
        rw [connectTo] at h
        split at h
        next e =>
          cases h
          subst e
          refine ⟨by rw [Full]; trivial, by simp [leaves, pairs], ?_⟩
          intro x hx
          rw [leaves, List.mem_singleton] at hx
          subst hx
          rw [sigAt]
        next => cases h
  | .grp .nil, src, ps, pd, l, h => by rw [connectTo] at h; cases h
  | .grp (.cons n d r), src, ps, pd, l, h => by
      rw [connectTo] at h
      have := to_okF _ _ _ _ _ h
      refine ⟨?_, ?_⟩
      · rw [Full]; exact ⟨(by intro e; cases e), this.1⟩
      · rw [leaves]; exact this.2
theorem to_okF : ∀ (dst : Fields) (src : Io) (ps pd : List String) (l : List Assign), connectToF src dst ps pd = .ok l →
    FullF dst ∧ l = pairs ps pd (leavesF dst) ∧ ∀ x ∈ leavesF dst, sigAt src x.1 = some x.2
  | .nil, src, ps, pd, l, h => by
      rw [connectToF] at h
      cases h
      refine ⟨by rw [FullF]; trivial, by simp [leavesF, pairs], ?_⟩
      intro x hx
      rw [leavesF] at hx
      cases hx
  | .cons n d r, src, ps, pd, l, h => by
      rw [connectToF] at h
      split at h
      next => cases h
      next s hs =>
        split at h
        next => cases h
        next l1 h1 =>
          split at h
          next => cases h
          next l2 h2 =>
            cases h
            have a := to_ok _ _ _ _ _ h1
            have b := to_okF _ _ _ _ _ h2
            refine ⟨by rw [FullF]; exact ⟨a.1, b.1⟩, ?_, ?_⟩
            · rw [leavesF, pairs, List.map_append, ← pairs, ← pairs, pairs_cons, ← a.2.1, ← b.2.1]
            · intro x hx
              rw [leavesF, List.mem_append, List.mem_map] at hx
              rcases hx with ⟨y, hy, rfl⟩ | hx
              · rw [sigAt_cons _ _ _ _ hs]; exact a.2.2 y hy
              · exact b.2.2 x hx
end

mutual
theorem to_works : ∀ (dst src : Io) (ps pd : List String), Full dst → (∀ x ∈ leaves dst, sigAt src x.1 = some x.2) →
    connectTo src dst ps pd = .ok (pairs ps pd (leaves dst))
  | .sig t, src, ps, pd, _, h => by
      have := h ([], t) (by rw [leaves]; exact List.mem_singleton.2 rfl)
      cases src with
      | grp fs => simp [sigAt] at this
      | sig t' =>
        simp only [sigAt, Option.some.injEq] at this
        subst this
        simp [connectTo, leaves, pairs]
  | .grp .nil, src, ps, pd, h, _ => by rw [Full] at h; exact absurd rfl h.1
  | .grp (.cons n d r), src, ps, pd, hf, h => by
      rw [Full] at hf
      rw [leaves] at h
      rw [connectTo, leaves, to_worksF (.cons n d r) src ps pd hf.2 h]
theorem to_worksF : ∀ (dst : Fields) (src : Io) (ps pd : List String), FullF dst →
    (∀ x ∈ leavesF dst, sigAt src x.1 = some x.2) → connectToF src dst ps pd = .ok (pairs ps pd (leavesF dst))
  | .nil, src, ps, pd, _, _ => by rw [connectToF]; simp [leavesF, pairs]
  | .cons n d r, src, ps, pd, hf, h => by
      rw [FullF] at hf
      rw [leavesF] at h
      have h1 : ∀ y ∈ leaves d, sigAt src (n :: y.1) = some y.2 := fun y hy =>
        h (n :: y.1, y.2) (List.mem_append_left _ (List.mem_map.2 ⟨y, hy, rfl⟩))
      rw [connectToF]
      cases hs : src.get n with
      | none =>
        obtain ⟨y, hy⟩ := List.exists_mem_of_ne_nil _ (leaves_ne d hf.1)
        have := h1 y hy
        rw [sigAt_none _ _ _ hs] at this
        cases this
      | some s =>
        dsimp only
        rw [to_works d s _ _ hf.1 (fun y hy => by rw [← sigAt_cons _ _ _ _ hs]; exact h1 y hy)]
        dsimp only
        rw [to_worksF r src ps pd hf.2 (fun x hx => h x (List.mem_append_right _ hx))]
        dsimp only
        rw [leavesF, ← pairs_cons, pairs, pairs, pairs, List.map_append]
end

/-- a connection to a monitor is possible exactly if each signal of the monitor has a signal of the same type on the same
path of the source. Then each signal of the monitor is driven once, by that signal. -/
theorem to_monitor_at (src dst : Io) (hd : Full dst) (l : List Assign) :
    connectTo src dst [] [] = .ok l ↔
      (∀ x ∈ leaves dst, sigAt src x.1 = some x.2) ∧ l = (leaves dst).map fun x => (x.1, x.1) := by
  have hp : pairs [] [] (leaves dst) = (leaves dst).map fun x => (x.1, x.1) := by
    unfold pairs; simp only [List.nil_append]
  constructor
  · intro h
    have := to_ok _ _ _ _ _ h
    exact ⟨this.2.2, by rw [this.2.1, hp]⟩
  · rintro ⟨h, rfl⟩
    rw [to_works dst src [] [] hd h, hp]

/-- names of children -/
def names : Fields → List String
  | .nil => []
  | .cons n _ r => n :: names r

mutual
/-- the children of each interface have different names -/
def Distinct : Io → Prop
  | .sig _ => True
  | .grp fs => (names fs).Nodup ∧ DistinctF fs
def DistinctF : Fields → Prop
  | .nil => True
  | .cons _ x r => Distinct x ∧ DistinctF r
end

theorem get_none (f : String) : ∀ r : Fields, f ∉ names r → r.get f = none
  | .nil, _ => by rw [Fields.get]
  | .cons n x r, h => by
      rw [names, List.mem_cons, not_or] at h
      rw [Fields.get, if_neg (fun e => h.1 e.symm)]
      exact get_none f r h.2

mutual
theorem own_leaves : ∀ x : Io, Distinct x → ∀ l ∈ leaves x, sigAt x l.1 = some l.2
  | .sig t, _, l, hl => by
      rw [leaves, List.mem_singleton] at hl
      subst hl
      rw [sigAt]
  | .grp fs, hd, l, hl => by
      rw [Distinct] at hd
      rw [leaves] at hl
      exact own_leavesF fs hd.1 hd.2 l hl
theorem own_leavesF : ∀ r : Fields, (names r).Nodup → DistinctF r → ∀ l ∈ leavesF r, sigAt (.grp r) l.1 = some l.2
  | .nil, _, _, l, hl => by rw [leavesF] at hl; cases hl
  | .cons n x r, hn, hd, l, hl => by
      rw [names, List.nodup_cons] at hn
      rw [DistinctF] at hd
      rw [leavesF, List.mem_append, List.mem_map] at hl
      rcases hl with ⟨y, hy, rfl⟩ | hl
      · rw [sigAt_cons _ _ _ x (by rw [Io.get, Fields.get, if_pos rfl])]
        exact own_leaves x hd.1 y hy
      · have := own_leavesF r hn.2 hd.2 l hl
        obtain ⟨p, t⟩ := l
        cases p with
        | nil => simp [sigAt] at this
        | cons f p =>
          have hne : n ≠ f := by
            rintro rfl
            rw [sigAt_none _ _ _ (by rw [Io.get]; exact get_none n r hn.1)] at this
            cases this
          rw [sigAt.eq_def] at this ⊢
          simp only [Io.get, Fields.get, if_neg hne] at this ⊢
          exact this
end

theorem get_leaf (n : String) (y : Io) (l : List String × Ty) (hl : l ∈ leaves y) : ∀ fs : Fields, fs.get n = some y →
    (n :: l.1, l.2) ∈ leavesF fs
  | .nil, h => by rw [Fields.get] at h; cases h
  | .cons m x r, h => by
      rw [Fields.get] at h
      rw [leavesF, List.mem_append, List.mem_map]
      split at h
      next e => cases h; subst e; exact .inl ⟨l, hl, rfl⟩
      next => exact .inr (get_leaf n y l hl r h)

theorem sigAt_leaf : ∀ (p : List String) (x : Io) (t : Ty), sigAt x p = some t → (p, t) ∈ leaves x
  | [], .sig t', t, h => by
      rw [sigAt] at h; cases h
      rw [leaves]; exact List.mem_singleton.2 rfl
  | [], .grp _, t, h => by rw [sigAt] at h; cases h
  | n :: p, x, t, h => by
      cases hg : x.get n with
      | none => rw [sigAt_none _ _ _ hg] at h; cases h
      | some y =>
        rw [sigAt_cons _ _ _ _ hg] at h
        have hl := sigAt_leaf p y t h
        cases x with
        | sig _ => rw [Io.get] at hg; cases hg
        | grp fs =>
          rw [Io.get] at hg
          rw [leaves]
          exact get_leaf n y (p, t) hl fs hg

theorem sigAt_iff (x : Io) (hd : Distinct x) (p : List String) (t : Ty) : sigAt x p = some t ↔ (p, t) ∈ leaves x :=
  ⟨sigAt_leaf p x t, fun h => own_leaves x hd (p, t) h⟩

/-- C472: a connection to a monitor is possible exactly if each signal of the monitor is a signal of the source, with the same path
and type. Then each signal of the monitor is driven once, by the signal with the same path. -/
theorem to_monitor (src dst : Io) (hd : Full dst) (hs : Distinct src) (l : List Assign) :
    connectTo src dst [] [] = .ok l ↔ (∀ x ∈ leaves dst, x ∈ leaves src) ∧ l = (leaves dst).map fun x => (x.1, x.1) := by
  rw [to_monitor_at src dst hd]
  simp only [sigAt_iff src hs]

/-- C473: the monitor of an interface exists exactly if no part of the interface is without children, it has the same signals, and
the interface can be connected to it: each signal of the monitor is driven once, by the same signal of the interface -/
theorem monitor_connects (x : Io) (hd : Distinct x) :
    (Full x → ∃ m, monitorOf x = .ok m ∧ leaves m = leaves x ∧
      connectTo x m [] [] = .ok ((leaves x).map fun l => (l.1, l.1))) ∧
    (∀ m, monitorOf x = .ok m → Full x) := by
  refine ⟨fun hf => ⟨x, monitor_id x hf, rfl, ?_⟩, fun m h => (monitor_full x m h).1⟩
  exact (to_monitor_at x x hf _).2 ⟨own_leaves x hd, rfl⟩

theorem leavesF_head : ∀ (r : Fields), ∀ l ∈ leavesF r, ∃ n ∈ names r, ∃ p, l.1 = n :: p
  | .nil, l, hl => by rw [leavesF] at hl; cases hl
  | .cons n x r, l, hl => by
      rw [leavesF, List.mem_append, List.mem_map] at hl
      rw [names]
      rcases hl with ⟨y, _, rfl⟩ | hl
      · exact ⟨n, List.mem_cons_self .., y.1, rfl⟩
      · obtain ⟨m, hm, p, e⟩ := leavesF_head r l hl
        exact ⟨m, List.mem_cons_of_mem _ hm, p, e⟩

mutual
/-- C473: the paths of the signals of an interface are different, so no signal of a monitor is driven twice -/
theorem leaves_nodup : ∀ x : Io, Distinct x → ((leaves x).map Prod.fst).Nodup
  | .sig t, _ => by simp [leaves]
  | .grp fs, hd => by
      rw [Distinct] at hd
      rw [leaves]
      exact leavesF_nodup fs hd.1 hd.2
theorem leavesF_nodup : ∀ r : Fields, (names r).Nodup → DistinctF r → ((leavesF r).map Prod.fst).Nodup
  | .nil, _, _ => by simp [leavesF]
  | .cons n x r, hn, hd => by
      rw [names, List.nodup_cons] at hn
      rw [DistinctF] at hd
      rw [leavesF, List.map_append, List.map_map, List.nodup_append]
      refine ⟨?_, leavesF_nodup r hn.2 hd.2, ?_⟩
      · have : (leaves x).map (Prod.fst ∘ fun l => (n :: l.1, l.2)) = ((leaves x).map Prod.fst).map (n :: ·) := by
          rw [List.map_map]; rfl
        rw [this]
        exact List.Pairwise.map _ (fun a b hab e => hab (List.cons.inj e).2) (leaves_nodup x hd.1)
      · intro a ha b hb
        rw [List.mem_map] at ha hb
        obtain ⟨y, _, rfl⟩ := ha
        obtain ⟨z, hz, rfl⟩ := hb
        obtain ⟨m, hm, p, e⟩ := leavesF_head r z hz
        intro e'
        rw [e] at e'
        have := (List.cons.inj e').1
        exact hn.1 (by rw [this]; exact hm)
end

/-! ## C474: connection of a monitor to an other interface -/

mutual
theorem fr_ok : ∀ (dst src : Io) (ps pd : List String) (l : List Assign), connectFrom dst src pd ps = .ok l →
    Full dst ∧ l = pairs pd ps (leaves dst) ∧ ∀ x ∈ leaves dst, (sigAt src x.1).map Prod.fst = some x.2.1
  | .sig t, src, ps, pd, l, h => by
      cases src with
      | grp fs => rw [connectFrom] at h; cases h
      | sig t' =>
        rw [connectFrom] at h
        split at h
        next e =>
          cases h
          refine ⟨by rw [Full]; trivial, by simp [leaves, pairs], ?_⟩
          intro x hx
          rw [leaves, List.mem_singleton] at hx
          subst hx
          rw [sigAt]
          simp only [Option.map_some, e]
        next => cases h
  | .grp .nil, src, ps, pd, l, h => by rw [connectFrom] at h; cases h
  | .grp (.cons n d r), src, ps, pd, l, h => by
      rw [connectFrom] at h
      have := fr_okF _ _ _ _ _ h
      refine ⟨?_, ?_⟩
      · rw [Full]; exact ⟨(by intro e; cases e), this.1⟩
      · rw [leaves]; exact this.2
theorem fr_okF : ∀ (dst : Fields) (src : Io) (ps pd : List String) (l : List Assign), connectFromF dst src pd ps = .ok l →
    FullF dst ∧ l = pairs pd ps (leavesF dst) ∧ ∀ x ∈ leavesF dst, (sigAt src x.1).map Prod.fst = some x.2.1
  | .nil, src, ps, pd, l, h => by
      rw [connectFromF] at h
      cases h
      refine ⟨by rw [FullF]; trivial, by simp [leavesF, pairs], ?_⟩
      intro x hx
      rw [leavesF] at hx
      cases hx
  | .cons n d r, src, ps, pd, l, h => by
      rw [connectFromF] at h
      split at h
      next => cases h
      next s hs =>
        split at h
        next => cases h
        next l1 h1 =>
          split at h
          next => cases h
          next l2 h2 =>
            cases h
            have a := fr_ok _ _ _ _ _ h1
            have b := fr_okF _ _ _ _ _ h2
            refine ⟨by rw [FullF]; exact ⟨a.1, b.1⟩, ?_, ?_⟩
            · rw [leavesF, pairs, List.map_append, ← pairs, ← pairs, pairs_cons, ← a.2.1, ← b.2.1]
            · intro x hx
              rw [leavesF, List.mem_append, List.mem_map] at hx
              rcases hx with ⟨y, hy, rfl⟩ | hx
              · rw [sigAt_cons _ _ _ _ hs]; exact a.2.2 y hy
              · exact b.2.2 x hx
end

mutual
theorem fr_works : ∀ (dst src : Io) (ps pd : List String), Full dst → (∀ x ∈ leaves dst, (sigAt src x.1).map Prod.fst = some x.2.1) →
    connectFrom dst src pd ps = .ok (pairs pd ps (leaves dst))
  | .sig t, src, ps, pd, _, h => by
      have := h ([], t) (by rw [leaves]; exact List.mem_singleton.2 rfl)
      cases src with
      | grp fs => simp [sigAt] at this
      | sig t' =>
        simp only [sigAt, Option.map_some, Option.some.injEq] at this
        simp [connectFrom, leaves, pairs, this]
  | .grp .nil, src, ps, pd, h, _ => by rw [Full] at h; exact absurd rfl h.1
  | .grp (.cons n d r), src, ps, pd, hf, h => by
      rw [Full] at hf
      rw [leaves] at h
      rw [connectFrom, leaves, fr_worksF (.cons n d r) src ps pd hf.2 h]
theorem fr_worksF : ∀ (dst : Fields) (src : Io) (ps pd : List String), FullF dst →
    (∀ x ∈ leavesF dst, (sigAt src x.1).map Prod.fst = some x.2.1) → connectFromF dst src pd ps = .ok (pairs pd ps (leavesF dst))
  | .nil, src, ps, pd, _, _ => by rw [connectFromF]; simp [leavesF, pairs]
  | .cons n d r, src, ps, pd, hf, h => by
      rw [FullF] at hf
      rw [leavesF] at h
      have h1 : ∀ y ∈ leaves d, (sigAt src (n :: y.1)).map Prod.fst = some y.2.1 := fun y hy =>
        h (n :: y.1, y.2) (List.mem_append_left _ (List.mem_map.2 ⟨y, hy, rfl⟩))
      rw [connectFromF]
      cases hs : src.get n with
      | none =>
        obtain ⟨y, hy⟩ := List.exists_mem_of_ne_nil _ (leaves_ne d hf.1)
        have := h1 y hy
        rw [sigAt_none _ _ _ hs] at this
        cases this
      | some s =>
        dsimp only
        rw [fr_works d s _ _ hf.1 (fun y hy => by rw [← sigAt_cons _ _ _ _ hs]; exact h1 y hy)]
        dsimp only
        rw [fr_worksF r src ps pd hf.2 (fun x hx => h x (List.mem_append_right _ hx))]
        dsimp only
        rw [leavesF, ← pairs_cons, pairs, pairs, pairs, List.map_append]
end

/-- the connection of a monitor to an interface is possible exactly if for each signal of the monitor the interface has a signal
of the same width on the same path. Each of these signals of the interface is driven once, by that signal of the monitor. -/
theorem from_monitor_at (src dst : Io) (hs : Full src) (l : List Assign) :
    connectFrom src dst [] [] = .ok l ↔
      (∀ x ∈ leaves src, (sigAt dst x.1).map Prod.fst = some x.2.1) ∧ l = (leaves src).map fun x => (x.1, x.1) := by
  have hp : pairs [] [] (leaves src) = (leaves src).map fun x => (x.1, x.1) := by
    unfold pairs; simp only [List.nil_append]
  constructor
  · intro h
    have := fr_ok _ _ _ _ _ h
    exact ⟨this.2.2, by rw [this.2.1, hp]⟩
  · rintro ⟨h, rfl⟩
    rw [fr_works src dst [] [] hs h, hp]

example : connectFrom (.grp (.cons "vld" (.sig (1, false)) .nil)) (.grp (.cons "a" (.sig (3, true)) (.cons "vld" (.sig (1, true)) .nil))) [] []
    = .ok [(["vld"], ["vld"])] := by rfl

/-- C474: the connection of a monitor to an interface is possible exactly if each signal of the monitor has a signal of the same width
on the same path of the interface. Each of these signals of the interface is driven once, by that signal of the monitor. -/
theorem from_monitor (src dst : Io) (hs : Full src) (hd : Distinct dst) (l : List Assign) :
    connectFrom src dst [] [] = .ok l ↔
      (∀ x ∈ leaves src, ∃ t, t.1 = x.2.1 ∧ (x.1, t) ∈ leaves dst) ∧ l = (leaves src).map fun x => (x.1, x.1) := by
  rw [from_monitor_at src dst hs]
  have key : ∀ x : List String × Ty, (sigAt dst x.1).map Prod.fst = some x.2.1 ↔ ∃ t, t.1 = x.2.1 ∧ (x.1, t) ∈ leaves dst := by
    intro x
    rw [Option.map_eq_some_iff]
    constructor
    · rintro ⟨t, h1, h2⟩
      exact ⟨t, h2, (sigAt_iff dst hd _ _).1 h1⟩
    · rintro ⟨t, h1, h2⟩
      exact ⟨t, (sigAt_iff dst hd _ _).2 h2, h1⟩
  simp only [key]

/-! ## C477: connection to a value of a struct type -/

mutual
theorem st_ok : ∀ (dst src : Io) (ps pd : List String) (l : List Assign), connectStruct dst src pd ps = .ok l →
    Full dst ∧ l = pairs pd ps (leaves dst) ∧ ∀ x ∈ leaves dst, sigAt src x.1 = some x.2
  | .sig t, src, ps, pd, l, h => by
      cases src with
      | grp fs => rw [connectStruct] at h; cases h
      | sig t' =>
        rw [connectStruct] at h
        split at h
        next e =>
          cases h
          refine ⟨by rw [Full]; trivial, by simp [leaves, pairs], ?_⟩
          intro x hx
          rw [leaves, List.mem_singleton] at hx
          subst hx
          rw [sigAt]
          rw [e]
        next => cases h
  | .grp .nil, src, ps, pd, l, h => by rw [connectStruct] at h; cases h
  | .grp (.cons n d r), src, ps, pd, l, h => by
      rw [connectStruct] at h
      have := st_okF _ _ _ _ _ h
      refine ⟨?_, ?_⟩
      · rw [Full]; exact ⟨(by intro e; cases e), this.1⟩
      · rw [leaves]; exact this.2
theorem st_okF : ∀ (dst : Fields) (src : Io) (ps pd : List String) (l : List Assign), connectStructF dst src pd ps = .ok l →
    FullF dst ∧ l = pairs pd ps (leavesF dst) ∧ ∀ x ∈ leavesF dst, sigAt src x.1 = some x.2
  | .nil, src, ps, pd, l, h => by
      rw [connectStructF] at h
      cases h
      refine ⟨by rw [FullF]; trivial, by simp [leavesF, pairs], ?_⟩
      intro x hx
      rw [leavesF] at hx
      cases hx
  | .cons n d r, src, ps, pd, l, h => by
      rw [connectStructF] at h
      split at h
      next => cases h
      next s hs =>
        split at h
        next => cases h
        next l1 h1 =>
          split at h
          next => cases h
          next l2 h2 =>
            cases h
            have a := st_ok _ _ _ _ _ h1
            have b := st_okF _ _ _ _ _ h2
            refine ⟨by rw [FullF]; exact ⟨a.1, b.1⟩, ?_, ?_⟩
            · rw [leavesF, pairs, List.map_append, ← pairs, ← pairs, pairs_cons, ← a.2.1, ← b.2.1]
            · intro x hx
              rw [leavesF, List.mem_append, List.mem_map] at hx
              rcases hx with ⟨y, hy, rfl⟩ | hx
              · rw [sigAt_cons _ _ _ _ hs]; exact a.2.2 y hy
              · exact b.2.2 x hx
end

mutual
theorem st_works : ∀ (dst src : Io) (ps pd : List String), Full dst → (∀ x ∈ leaves dst, sigAt src x.1 = some x.2) →
    connectStruct dst src pd ps = .ok (pairs pd ps (leaves dst))
  | .sig t, src, ps, pd, _, h => by
      have := h ([], t) (by rw [leaves]; exact List.mem_singleton.2 rfl)
      cases src with
      | grp fs => simp [sigAt] at this
      | sig t' =>
        simp only [sigAt, Option.some.injEq] at this
        simp [connectStruct, leaves, pairs, this]
  | .grp .nil, src, ps, pd, h, _ => by rw [Full] at h; exact absurd rfl h.1
  | .grp (.cons n d r), src, ps, pd, hf, h => by
      rw [Full] at hf
      rw [leaves] at h
      rw [connectStruct, leaves, st_worksF (.cons n d r) src ps pd hf.2 h]
theorem st_worksF : ∀ (dst : Fields) (src : Io) (ps pd : List String), FullF dst →
    (∀ x ∈ leavesF dst, sigAt src x.1 = some x.2) → connectStructF dst src pd ps = .ok (pairs pd ps (leavesF dst))
  | .nil, src, ps, pd, _, _ => by rw [connectStructF]; simp [leavesF, pairs]
  | .cons n d r, src, ps, pd, hf, h => by
      rw [FullF] at hf
      rw [leavesF] at h
      have h1 : ∀ y ∈ leaves d, sigAt src (n :: y.1) = some y.2 := fun y hy =>
        h (n :: y.1, y.2) (List.mem_append_left _ (List.mem_map.2 ⟨y, hy, rfl⟩))
      rw [connectStructF]
      cases hs : src.get n with
      | none =>
        obtain ⟨y, hy⟩ := List.exists_mem_of_ne_nil _ (leaves_ne d hf.1)
        have := h1 y hy
        rw [sigAt_none _ _ _ hs] at this
        cases this
      | some s =>
        dsimp only
        rw [st_works d s _ _ hf.1 (fun y hy => by rw [← sigAt_cons _ _ _ _ hs]; exact h1 y hy)]
        dsimp only
        rw [st_worksF r src ps pd hf.2 (fun x hx => h x (List.mem_append_right _ hx))]
        dsimp only
        rw [leavesF, ← pairs_cons, pairs, pairs, pairs, List.map_append]
end

/-- a connection to a struct is possible exactly if for each signal of the source the struct has a member of the same type on
the same path. These members are driven once, other members are not driven. -/
theorem to_struct_at (src dst : Io) (hs : Full src) (l : List Assign) :
    connectStruct src dst [] [] = .ok l ↔
      (∀ x ∈ leaves src, sigAt dst x.1 = some x.2) ∧ l = (leaves src).map fun x => (x.1, x.1) := by
  have hp : pairs [] [] (leaves src) = (leaves src).map fun x => (x.1, x.1) := by
    unfold pairs; simp only [List.nil_append]
  constructor
  · intro h
    have := st_ok _ _ _ _ _ h
    exact ⟨this.2.2, by rw [this.2.1, hp]⟩
  · rintro ⟨h, rfl⟩
    rw [st_works src dst [] [] hs h, hp]

/-- C477: a connection to a struct is possible exactly if each signal of the source is a member of the struct, with the same path and
type. These members are driven once, other members are not driven. -/
theorem to_struct (src dst : Io) (hs : Full src) (hd : Distinct dst) (l : List Assign) :
    connectStruct src dst [] [] = .ok l ↔ (∀ x ∈ leaves src, x ∈ leaves dst) ∧ l = (leaves src).map fun x => (x.1, x.1) := by
  rw [to_struct_at src dst hs]
  simp only [sigAt_iff dst hd]

/-- C477: not every member of the struct is driven, an interface with the same signals is rejected instead -/
theorem struct_undriven : ∃ src dst : Io, Full src ∧ Distinct src ∧ Full dst ∧ Distinct dst ∧ ∃ l p,
    connectStruct src dst [] [] = .ok l ∧ (p, (8, false)) ∈ leaves dst ∧ (∀ a ∈ l, a.1 ≠ p) ∧
    connectTo src dst [] [] = .error .attribute := by
  refine ⟨.grp (.cons "a" (.sig (1, false)) .nil), .grp (.cons "a" (.sig (1, false)) (.cons "b" (.sig (8, false)) .nil)),
    ?_, ?_, ?_, ?_, [(["a"], ["a"])], ["b"], rfl, ?_, ?_, rfl⟩
  · simp [Full, FullF]
  · simp [Distinct, DistinctF, names]
  · simp [Full, FullF]
  · simp [Distinct, DistinctF, names]
  · simp [leaves, leavesF]
  · simp

/-! ## non-vacuity -/

/-- an interface as of a handshake with nested channel -/
def sample : Io := .grp (.cons "data" (.sig (8, false)) (.cons "vld" (.sig (1, false)) (.cons "user" (.grp (.cons "id" (.sig (4, false)) .nil)) .nil)))

example : Full sample ∧ Distinct sample := by
  refine ⟨?_, ?_⟩ <;> simp [sample, Full, FullF, Distinct, DistinctF, names]

example : leaves sample = [(["data"], (8, false)), (["vld"], (1, false)), (["user", "id"], (4, false))] := by
  simp [sample, leaves, leavesF]

example : connectTo sample (.grp (.cons "vld" (.sig (1, false)) .nil)) [] [] = .ok [(["vld"], ["vld"])] := by rfl

example : monitorOf (.grp (.cons "a" (.grp .nil) .nil)) = .error .notImplemented := by rfl

/-! ## C475: RAM made of LUTs -/

/-- an event writes the address -/
def Writes (inv : Bool) (a : Nat) (e : RamEv) : Prop := e.before = inv ∧ e.after = !inv ∧ e.we = true ∧ e.a = a

theorem step_other (inv : Bool) (mem : Nat → Bool) (e : RamEv) (a : Nat) (h : ¬ Writes inv a e) : ramStep inv mem e a = mem a := by
  unfold ramStep
  split
  next hc =>
    have : a ≠ e.a := by
      rintro rfl
      apply h
      obtain ⟨b, c, w, x, d⟩ := e
      cases b <;> cases c <;> cases w <;> cases inv <;> simp_all [Writes, rises]
    simp only [if_neg this]
  next => rfl

theorem fold_other (inv : Bool) (a : Nat) : ∀ (es : List RamEv) (mem : Nat → Bool), (∀ e ∈ es, ¬ Writes inv a e) →
    (es.foldl (ramStep inv) mem) a = mem a
  | [], _, _ => rfl
  | e :: r, mem, h => by
      rw [List.foldl_cons, fold_other inv a r _ (fun x hx => h x (List.mem_cons_of_mem _ hx))]
      exact step_other inv mem e a (h e (List.mem_cons_self ..))

/-- C475: the output is the data of the last event which wrote the address -/
theorem ram_last (init : Nat) (inv : Bool) (xs ys : List RamEv) (e : RamEv) (a : Nat) (hw : Writes inv a e)
    (hn : ∀ y ∈ ys, ¬ Writes inv a y) : ramOut init inv (xs ++ e :: ys) a = e.d := by
  unfold ramOut
  rw [List.foldl_append, List.foldl_cons, fold_other inv a ys _ hn]
  obtain ⟨b, c, w, x, d⟩ := e
  obtain ⟨h1, h2, h3, h4⟩ := hw
  simp only at h1 h2 h3 h4
  subst h1 h2 h3 h4
  unfold ramStep rises
  cases b <;> simp

/-- C475: without a write of the address it is the bit of `INIT` -/
theorem ram_init (init : Nat) (inv : Bool) (es : List RamEv) (a : Nat) (hn : ∀ y ∈ es, ¬ Writes inv a y) :
    ramOut init inv es a = init.testBit a := fold_other inv a es _ hn

/-- C475: each bit of the address has its weight, the addresses are all numbers below 64 -/
theorem address_bits (a5 a4 a3 a2 a1 a0 : Bool) :
    address a5 a4 a3 a2 a1 a0 < 64 ∧ (List.range 6).map (address a5 a4 a3 a2 a1 a0).testBit = [a0, a1, a2, a3, a4, a5] := by
  revert a5 a4 a3 a2 a1 a0; decide

example : Writes false 5 ⟨false, true, true, 5, true⟩ ∧ Writes true 5 ⟨true, false, true, 5, true⟩ ∧
    ¬ Writes false 5 ⟨true, false, true, 5, true⟩ := by
  refine ⟨⟨rfl, rfl, rfl, rfl⟩, ⟨rfl, rfl, rfl, rfl⟩, fun h => by cases h.1⟩

/-! ## C476: synchronous RAM -/

theorem sync_mem {D : Type} (a : Nat) : ∀ (is : List (Nat × Nat × D)) (st : (Nat → D) × D), (∀ i ∈ is, i.2.1 ≠ a) →
    (is.foldl syncStep st).1 a = st.1 a
  | [], _, _ => rfl
  | i :: r, st, h => by
      rw [List.foldl_cons, sync_mem a r _ (fun x hx => h x (List.mem_cons_of_mem _ hx))]
      simp only [syncStep, if_neg (fun e => h i (List.mem_cons_self ..) (Eq.symm e))]

/-- C476: a read returns the data of the last earlier write of the address. The write of the same cycle is not seen. -/
theorem sync_read {D : Type} (st : (Nat → D) × D) (xs ys : List (Nat × Nat × D)) (w r : Nat × Nat × D) (hw : w.2.1 = r.1)
    (hn : ∀ y ∈ ys, y.2.1 ≠ r.1) : ((xs ++ w :: ys ++ [r]).foldl syncStep st).2 = w.2.2 := by
  rw [List.foldl_append, List.foldl_append, List.foldl_cons, List.foldl_cons, List.foldl_nil]
  show (List.foldl syncStep _ ys).1 r.1 = _
  rw [sync_mem _ ys _ hn]
  simp only [syncStep, ← hw, if_pos]

/-- C476: a read of an address which was not written returns the initial value, also if it is written in the same cycle -/
theorem sync_read_first {D : Type} (st : (Nat → D) × D) (xs : List (Nat × Nat × D)) (r : Nat × Nat × D)
    (hn : ∀ y ∈ xs, y.2.1 ≠ r.1) : ((xs ++ [r]).foldl syncStep st).2 = st.1 r.1 := by
  rw [List.foldl_append, List.foldl_cons, List.foldl_nil]
  exact sync_mem _ xs _ hn

example : ([(0, 2, 7), (2, 2, 9), (2, 0, 1)].foldl syncStep ((fun _ => 0), 0)).2 = 9 ∧
    ([(0, 2, 7), (2, 2, 9)].foldl syncStep ((fun _ => 0), 0)).2 = 7 := by decide

end Verif.IoMon
