import Verif.ReadAgg

/-! # Properties of `AxiReadAggregator` -/

namespace Verif.ReadAgg

universe u

variable {D : Type u}

/-! ## What is seen on the ports -/

structure Obs (D : Type u) where
  /-- requests accepted on `s.ar` and not yet answered -/
  pend : Nat → Option Nat
  /-- requests sent on `m.ar` and not yet answered -/
  mout : Nat → Option Nat
  /-- lines and data of the answers taken from `m.r` -/
  ans : List (Nat × D)

def Obs.init : Obs D := ⟨fun _ => none, fun _ => none, []⟩

def setOpt {α : Type u} (f : Nat → Option α) : Option (Nat × α) → Nat → Option α
  | some q => upd f q.1 (some q.2)
  | none => f

def clrOpt {α β : Type _} (f : Nat → Option α) : Option (Nat × β) → Nat → Option α
  | some q => upd f q.1 none
  | none => f

/-- Transfers on the four channels. -/
def sarT (x : In D) (y : Out D) : Option (Nat × Nat) := if y.sarRdy then x.sar else none
def marT (x : In D) (y : Out D) : Option (Nat × Nat) := if x.marRdy then y.mar else none
def mrT (x : In D) (y : Out D) : Option (Nat × D) := if y.mrRdy then x.mr else none
def srT (x : In D) (y : Out D) : Option (Nat × D) := if x.srRdy then y.sr else none

def Obs.step (o : Obs D) (x : In D) (y : Out D) : Obs D where
  pend := setOpt (clrOpt o.pend (srT x y)) (sarT x y)
  mout := clrOpt (setOpt o.mout (marT x y)) (mrT x y)
  ans := match mrT x y with
    | some (k, d) => (match o.mout k with | some a => [(a, d)] | none => []) ++ o.ans
    | none => o.ans

abbrev Sys (D : Type u) := St D × Obs D
def sysInit : Sys D := (init, Obs.init)
def sys (n : Nat) (y : Sys D) (x : In D) : Sys D := (next n y.1 x, y.2.step x (out n y.1 x))
def run (n : Nat) (y : Sys D) (xs : List (In D)) : Sys D := xs.foldl (sys n) y

/-- `m.r` answers only requests which were sent, ids of requests fit in to ID_WIDTH. -/
def Env (n : Nat) (y : Sys D) (x : In D) : Prop :=
  (∀ k d, x.mr = some (k, d) → y.2.mout k ≠ none) ∧ ∀ k a, x.sar = some (k, a) → k < n

def Along (n : Nat) : Sys D → List (In D) → Prop
  | _, [] => True
  | y, x :: xs => Env n y x ∧ Along n (sys n y x) xs

/-! ## Invariant -/

structure InvR (n : Nat) (s : St D) (o : Obs D) (rank : Nat → Nat) (T : Nat) : Prop where
  rk : ∀ k, rank k ≤ T
  a1 : ∀ t, s.tmp = some t → t.id < n
  a2 : ∀ t, s.tmp = some t → s.itemVld t.id = false
  a3 : ∀ t, s.tmp = some t → o.pend t.id = some t.addr
  b1 : ∀ k, s.itemVld k = true → k < n
  b2 : ∀ k, s.itemVld k = true → o.pend k = some (s.cam k)
  c : ∀ k a, o.pend k = some a → s.itemVld k = true ∨ ∃ t, s.tmp = some t ∧ t.id = k
  d : ∀ k a, o.mout k = some a → s.itemVld k = true ∧ s.cam k = a
  du : ∀ i j a, o.mout i = some a → o.mout j = some a → i = j
  e : ∀ k d, s.reg = some (k, d) → s.itemVld k = true ∧ o.mout k = none ∧ (s.cam k, d) ∈ o.ans ∧ ∀ j, s.wait j ≠ some k
  f : ∀ j i, s.wait j = some i →
    s.itemVld j = true ∧ s.itemVld i = true ∧ s.cam i = s.cam j ∧ o.mout i = none ∧ rank j < rank i
  g : ∀ j j' i, s.wait j = some i → s.wait j' = some i → j = j'
  h : ∀ k, s.itemVld k = true → o.mout k ≠ none ∨ (∃ d, s.reg = some (k, d)) ∨ ∃ j, s.wait j = some k
  i1 : ∀ t, s.tmp = some t → ∀ k, t.cam k = true → s.itemVld k = true → s.cam k = t.addr
  i2 : ∀ t, s.tmp = some t → ∀ k, s.lastIns = some k → s.itemVld k = true → s.cam k = t.addr
  j : ∀ t, s.tmp = some t → ∀ k, s.itemVld k = true → s.cam k = t.addr → t.cam k = true ∨ s.lastIns = some k

def Inv (n : Nat) (s : St D) (o : Obs D) : Prop := ∃ rank T, InvR n s o rank T

theorem inv_init (n : Nat) : Inv n (init : St D) Obs.init := by
  refine ⟨fun _ => 0, 0, ?_⟩
  constructor <;> simp [init, Obs.init]

/-- The last one of the chain of waiting requests. -/
theorem tail {n : Nat} {s : St D} {o : Obs D} {rank : Nat → Nat} {T : Nat} (h : InvR n s o rank T) (m : Nat) :
    ∀ k, T - rank k ≤ m → s.itemVld k = true → ∃ k', s.itemVld k' = true ∧ s.cam k' = s.cam k ∧ s.wait k' = none := by
  induction m with
  | zero =>
    intro k hk hv
    cases hw : s.wait k with
    | none => exact ⟨k, hv, rfl, hw⟩
    | some i =>
      have := (h.f k i hw).2.2.2.2
      have := h.rk i
      omega
  | succ m ih =>
    intro k hk hv
    cases hw : s.wait k with
    | none => exact ⟨k, hv, rfl, hw⟩
    | some i =>
      obtain ⟨_, hi, hc, _, hr⟩ := h.f k i hw
      obtain ⟨k', a, b, c⟩ := ih i (by omega) hi
      exact ⟨k', a, b.trans hc, c⟩

/-- Without a parent no started request has the line. -/
theorem no_line {n : Nat} {s : St D} {o : Obs D} (h : Inv n s o) {t : Tmp} (ht : s.tmp = some t) (hp : parent n s = none) (k : Nat)
    (hv : s.itemVld k = true) : s.cam k ≠ t.addr := by
  intro hc
  obtain ⟨rank, T, h⟩ := h
  obtain ⟨k', hv', hc', hw⟩ := tail h (T - rank k) k (Nat.le_refl _) hv
  have hm := h.j t ht k' hv' (hc'.trans hc)
  simp only [parent, ht] at hp
  rw [List.find?_eq_none] at hp
  refine hp k' (List.mem_range.mpr (h.b1 k' hv')) ?_
  simp only [matchRes, hv', hw, Bool.true_and, Option.isNone_none, Bool.and_true, Bool.or_eq_true, beq_iff_eq]
  exact hm

theorem parent_spec {n : Nat} {s : St D} {o : Obs D} (h : Inv n s o) {t : Tmp} (ht : s.tmp = some t) {p : Nat}
    (hp : parent n s = some p) : s.itemVld p = true ∧ s.cam p = t.addr ∧ s.wait p = none := by
  obtain ⟨rank, T, h⟩ := h
  simp only [parent, ht] at hp
  have hm := List.find?_some hp
  simp only [matchRes, Bool.and_eq_true, Bool.or_eq_true, beq_iff_eq, Option.isNone_iff_eq_none] at hm
  obtain ⟨⟨hv, hm⟩, hw⟩ := hm
  refine ⟨hv, ?_, hw⟩
  rcases hm with hm | hm
  · exact h.i1 t ht p hm hv
  · exact h.i2 t ht p hm hv

/-! ## Parts of the step -/

theorem upd_eq {α : Type _} (f : Nat → α) (i : Nat) (v : α) (j : Nat) : upd f i v j = if j = i then v else f j := rfl

theorem start_inv {n : Nat} {s : St D} {o : Obs D} (h : Inv n s o) {t : Tmp} (ht : s.tmp = some t) {p : Nat}
    (hp : parent n s = some p) :
    Inv n { s with tmp := none, itemVld := upd s.itemVld t.id true, wait := upd s.wait p (some t.id),
                   cam := upd s.cam t.id t.addr } o := by
  obtain ⟨hv, hc, hw⟩ := parent_spec h ht hp
  obtain ⟨rank, T, h⟩ := h
  have h2 := h.a2 t ht
  have hpt : p ≠ t.id := by intro e; rw [e, h2] at hv; cases hv
  have hmt : o.mout t.id = none := by
    cases hm : o.mout t.id with
    | none => rfl
    | some a => have := (h.d _ _ hm).1; rw [h2] at this; cases this
  have hrt : ∀ d, s.reg ≠ some (t.id, d) := by
    intro d hd; have := (h.e _ _ hd).1; rw [h2] at this; cases this
  have hwt : ∀ j, s.wait j ≠ some t.id := by
    intro j hj; have := (h.f _ _ hj).2.1; rw [h2] at this; cases this
  have hwt' : s.wait t.id = none := by
    cases hj : s.wait t.id with
    | none => rfl
    | some i => have := (h.f _ _ hj).1; rw [h2] at this; cases this
  refine ⟨upd rank t.id (T + 1), T + 1, ?_⟩
  constructor
  · intro k; rw [upd_eq]; split
    · omega
    · have := h.rk k; omega
  · intro t' ht'; cases ht'
  · intro t' ht'; cases ht'
  · intro t' ht'; cases ht'
  · intro k hk; simp only [upd_eq] at hk; split at hk
    · next e => rw [e]; exact h.a1 t ht
    · exact h.b1 k hk
  · intro k hk; simp only [upd_eq] at hk ⊢; split at hk
    · next e => rw [if_pos e, e]; exact h.a3 t ht
    · next e => rw [if_neg e]; exact h.b2 k hk
  · intro k a hk; left; simp only [upd_eq]; split
    · rfl
    · next e =>
      rcases h.c k a hk with hh | ⟨t', ht', e'⟩
      · exact hh
      · rw [ht] at ht'; cases ht'; exact absurd e'.symm e
  · intro k a hk
    have hk' : k ≠ t.id := by intro e; rw [e, hmt] at hk; cases hk
    simp only [upd_eq, if_neg hk']
    exact h.d k a hk
  · exact h.du
  · intro k d hk
    have hk' : k ≠ t.id := by intro e; rw [e] at hk; exact hrt d hk
    simp only [upd_eq, if_neg hk']
    obtain ⟨x1, x2, x3, x4⟩ := h.e k d hk
    refine ⟨x1, x2, x3, ?_⟩
    intro j; split
    · intro e; cases e; exact hk' rfl
    · exact x4 j
  · intro j i hj
    simp only [upd_eq] at hj ⊢
    split at hj
    · next e =>
      cases hj
      rw [e, if_neg hpt, if_pos rfl, if_pos rfl, if_neg hpt, if_neg hpt, if_pos rfl]
      refine ⟨hv, rfl, hc.symm, hmt, ?_⟩
      have := h.rk p; omega
    · next e =>
      obtain ⟨x1, x2, x3, x4, x5⟩ := h.f j i hj
      have e1 : j ≠ t.id := by intro e; rw [e, h2] at x1; cases x1
      have e2 : i ≠ t.id := by intro e; rw [e, h2] at x2; cases x2
      simp only [if_neg e1, if_neg e2]
      exact ⟨x1, x2, x3, x4, x5⟩
  · intro j j' i hj hj'
    simp only [upd_eq] at hj hj'
    split at hj <;> split at hj'
    · next e e' => rw [e, e']
    · cases hj; exact absurd hj' (hwt j')
    · cases hj'; exact absurd hj (hwt j)
    · exact h.g j j' i hj hj'
  · intro k hk
    simp only [upd_eq] at hk ⊢
    by_cases e : k = t.id
    · right; right; exact ⟨p, by rw [if_pos rfl, e]⟩
    · rw [if_neg e] at hk
      rcases h.h k hk with hh | hh | ⟨j, hj⟩
      · exact .inl hh
      · exact .inr (.inl hh)
      · refine .inr (.inr ⟨j, ?_⟩)
        rw [if_neg (by intro e'; rw [e', hw] at hj; cases hj)]; exact hj
  · intro t' ht'; cases ht'
  · intro t' ht'; cases ht'
  · intro t' ht'; cases ht'

theorem startM_inv {n : Nat} {s : St D} {o : Obs D} (h : Inv n s o) {t : Tmp} (ht : s.tmp = some t) (hp : parent n s = none) :
    Inv n { s with tmp := none, itemVld := upd s.itemVld t.id true, cam := upd s.cam t.id t.addr }
      { o with mout := upd o.mout t.id (some t.addr) } := by
  have hnl := no_line h ht hp
  obtain ⟨rank, T, h⟩ := h
  have h2 := h.a2 t ht
  have hmt : o.mout t.id = none := by
    cases hm : o.mout t.id with
    | none => rfl
    | some a => have := (h.d _ _ hm).1; rw [h2] at this; cases this
  have hrt : ∀ d, s.reg ≠ some (t.id, d) := by
    intro d hd; have := (h.e _ _ hd).1; rw [h2] at this; cases this
  refine ⟨rank, T, ?_⟩
  constructor
  · exact h.rk
  · intro t' ht'; cases ht'
  · intro t' ht'; cases ht'
  · intro t' ht'; cases ht'
  · intro k hk; simp only [upd_eq] at hk; split at hk
    · next e => rw [e]; exact h.a1 t ht
    · exact h.b1 k hk
  · intro k hk; simp only [upd_eq] at hk ⊢; split at hk
    · next e => rw [if_pos e, e]; exact h.a3 t ht
    · next e => rw [if_neg e]; exact h.b2 k hk
  · intro k a hk; left; simp only [upd_eq]; split
    · rfl
    · next e =>
      rcases h.c k a hk with hh | ⟨t', ht', e'⟩
      · exact hh
      · rw [ht] at ht'; cases ht'; exact absurd e'.symm e
  · intro k a hk
    simp only [upd_eq] at hk ⊢
    split at hk
    · next e => cases hk; rw [if_pos e, if_pos e]; exact ⟨rfl, rfl⟩
    · next e => rw [if_neg e, if_neg e]; exact h.d k a hk
  · intro i j a hi hj
    simp only [upd_eq] at hi hj
    split at hi <;> split at hj
    · next e e' => rw [e, e']
    · cases hi; obtain ⟨x1, x2⟩ := h.d _ _ hj; exact absurd x2 (hnl j x1)
    · cases hj; obtain ⟨x1, x2⟩ := h.d _ _ hi; exact absurd x2 (hnl i x1)
    · exact h.du i j a hi hj
  · intro k d hk
    have hk' : k ≠ t.id := by intro e; rw [e] at hk; exact hrt d hk
    simp only [upd_eq, if_neg hk']
    exact h.e k d hk
  · intro j i hj
    obtain ⟨x1, x2, x3, x4, x5⟩ := h.f j i hj
    have e1 : j ≠ t.id := by intro e; rw [e, h2] at x1; cases x1
    have e2 : i ≠ t.id := by intro e; rw [e, h2] at x2; cases x2
    simp only [upd_eq, if_neg e1, if_neg e2]
    exact ⟨x1, x2, x3, x4, x5⟩
  · exact h.g
  · intro k hk
    simp only [upd_eq] at hk ⊢
    by_cases e : k = t.id
    · left; rw [if_pos e]; simp
    · rw [if_neg e] at hk ⊢
      exact h.h k hk
  · intro t' ht'; cases ht'
  · intro t' ht'; cases ht'
  · intro t' ht'; cases ht'

theorem stall_inv {n : Nat} {s : St D} {o : Obs D} (h : Inv n s o) {t : Tmp} (ht : s.tmp = some t) (hp : parent n s = none)
    (l : Option Nat) (hl : ∀ k, l = some k → k = t.id) :
    Inv n { s with cam := upd s.cam t.id t.addr, lastIns := l } o := by
  have hnl := no_line h ht hp
  obtain ⟨rank, T, h⟩ := h
  have h2 := h.a2 t ht
  have hne : ∀ k, s.itemVld k = true → k ≠ t.id := by intro k hk e; rw [e, h2] at hk; cases hk
  refine ⟨rank, T, ?_⟩
  constructor
  · exact h.rk
  · exact h.a1
  · exact h.a2
  · exact h.a3
  · exact h.b1
  · intro k hk; simp only [upd_eq, if_neg (hne k hk)]; exact h.b2 k hk
  · exact h.c
  · intro k a hk; have := h.d k a hk; simp only [upd_eq, if_neg (hne k this.1)]; exact this
  · exact h.du
  · intro k d hk; have := h.e k d hk; simp only [upd_eq, if_neg (hne k this.1)]; exact this
  · intro j i hj
    have := h.f j i hj
    simp only [upd_eq, if_neg (hne j this.1), if_neg (hne i this.2.1)]; exact this
  · exact h.g
  · exact h.h
  · intro t' ht' k hk hv
    simp only [upd_eq, if_neg (hne k hv)]; exact h.i1 t' ht' k hk hv
  · intro t' ht' k hk hv; exact absurd (hl k hk) (hne k hv)
  · intro t' ht' k hv hc
    have e : t' = t := by have := ht'.symm.trans ht; cases this; rfl
    simp only [upd_eq, if_neg (hne k hv), e] at hc
    exact absurd hc (hnl k hv)

theorem last_inv {n : Nat} {s : St D} {o : Obs D} (h : Inv n s o) (ht : s.tmp = none) (l : Option Nat) :
    Inv n { s with lastIns := l } o := by
  obtain ⟨rank, T, h⟩ := h
  refine ⟨rank, T, h.rk, h.a1, h.a2, h.a3, h.b1, h.b2, h.c, h.d, h.du, h.e, h.f, h.g, h.h, ?_, ?_, ?_⟩ <;>
  · intro t ht'; simp only [ht] at ht'; cases ht'

theorem end_inv {n : Nat} {s : St D} {o : Obs D} (h : Inv n s o) {e : Nat} {d : D} (hr : s.reg = some (e, d)) :
    Inv n { s with itemVld := upd s.itemVld e false, wait := upd s.wait e none, reg := (s.wait e).map fun i => (i, d) }
      { o with pend := upd o.pend e none } := by
  obtain ⟨rank, T, h⟩ := h
  obtain ⟨y1, y2, y3, y4⟩ := h.e e d hr
  have hte : ∀ t, s.tmp = some t → t.id ≠ e := by
    intro t ht he; have := h.a2 t ht; rw [he, y1] at this; cases this
  have hir : ∀ j i, s.wait j = some i → i ≠ e := by intro j i hj he; rw [he] at hj; exact y4 j hj
  refine ⟨rank, T, ?_⟩
  constructor
  · exact h.rk
  · exact h.a1
  · intro t ht; simp only [upd_eq, if_neg (hte t ht)]; exact h.a2 t ht
  · intro t ht; simp only [upd_eq, if_neg (hte t ht)]; exact h.a3 t ht
  · intro k hk; simp only [upd_eq] at hk; split at hk
    · cases hk
    · exact h.b1 k hk
  · intro k hk; simp only [upd_eq] at hk ⊢; split at hk
    · cases hk
    · next e' => rw [if_neg e']; exact h.b2 k hk
  · intro k a hk
    simp only [upd_eq] at hk ⊢
    split at hk
    · cases hk
    · next e' => rw [if_neg e']; exact h.c k a hk
  · intro k a hk
    have hne : k ≠ e := by intro e'; rw [e'] at hk; simp only at hk; rw [y2] at hk; cases hk
    simp only [upd_eq, if_neg hne]; exact h.d k a hk
  · exact h.du
  · intro k d' hk
    simp only [Option.map_eq_some_iff] at hk
    obtain ⟨i, hi, he⟩ := hk
    cases he
    obtain ⟨x1, x2, x3, x4, x5⟩ := h.f e _ hi
    simp only [upd_eq, if_neg (hir e _ hi)]
    refine ⟨x2, x4, by rw [x3]; exact y3, ?_⟩
    intro j
    split
    · simp
    · next hj => intro hj'; exact hj (h.g j e _ hj' hi)
  · intro j i hj
    simp only [upd_eq] at hj ⊢
    split at hj
    · cases hj
    · next hne =>
      rw [if_neg hne, if_neg (hir j i hj)]
      exact h.f j i hj
  · intro j j' i hj hj'
    simp only [upd_eq] at hj hj'
    split at hj
    · cases hj
    · split at hj'
      · cases hj'
      · exact h.g j j' i hj hj'
  · intro k hk
    simp only [upd_eq] at hk
    split at hk
    · cases hk
    · next hne =>
      rcases h.h k hk with hh | ⟨d', hh⟩ | ⟨j, hj⟩
      · exact .inl hh
      · rw [hr] at hh; cases hh; exact absurd rfl hne
      · by_cases he : j = e
        · refine .inr (.inl ⟨d, ?_⟩); rw [he] at hj; simp only [hj, Option.map_some]
        · refine .inr (.inr ⟨j, ?_⟩); simp only [upd_eq, if_neg he]; exact hj
  · intro t ht k hk hv
    simp only [upd_eq] at hv
    split at hv
    · cases hv
    · exact h.i1 t ht k hk hv
  · intro t ht k hk hv
    simp only [upd_eq] at hv
    split at hv
    · cases hv
    · exact h.i2 t ht k hk hv
  · intro t ht k hv hc
    simp only [upd_eq] at hv
    split at hv
    · cases hv
    · exact h.j t ht k hv hc

theorem mr_inv {n : Nat} {s : St D} {o : Obs D} (h : Inv n s o) (hr : s.reg = none) {k a : Nat} (d : D) (hm : o.mout k = some a) :
    Inv n { s with reg := some (k, d) } { o with mout := upd o.mout k none, ans := (a, d) :: o.ans } := by
  obtain ⟨rank, T, h⟩ := h
  obtain ⟨y1, y2⟩ := h.d k a hm
  refine ⟨rank, T, h.rk, h.a1, h.a2, h.a3, h.b1, h.b2, h.c, ?_, ?_, ?_, ?_, h.g, ?_, h.i1, h.i2, h.j⟩
  · intro i b hi
    simp only [upd_eq] at hi
    split at hi
    · cases hi
    · exact h.d i b hi
  · intro i j b hi hj
    simp only [upd_eq] at hi hj
    split at hi
    · cases hi
    · split at hj
      · cases hj
      · exact h.du i j b hi hj
  · intro i d' hi
    cases hi
    refine ⟨y1, ?_, ?_, ?_⟩
    · simp [upd]
    · simp [y2]
    · intro j hj; have := (h.f j k hj).2.2.2.1; rw [hm] at this; cases this
  · intro j i hj
    obtain ⟨x1, x2, x3, x4, x5⟩ := h.f j i hj
    refine ⟨x1, x2, x3, ?_, x5⟩
    simp only [upd_eq]; split
    · rfl
    · exact x4
  · intro i hi
    rcases h.h i hi with hh | ⟨d', hh⟩ | hh
    · by_cases e : i = k
      · refine .inr (.inl ⟨d, by rw [e]⟩)
      · refine .inl ?_; simp only [upd_eq, if_neg e]; exact hh
    · rw [hr] at hh; cases hh
    · exact .inr (.inr hh)

theorem take_inv {n : Nat} {s : St D} {o : Obs D} (h : Inv n s o) (ht : s.tmp = none) {i a : Nat} (hi : i < n)
    (hv : s.itemVld i = false) (M : Nat → Bool) (l : Option Nat)
    (h1 : ∀ k, M k = true → s.itemVld k = true → s.cam k = a)
    (h2 : ∀ k, l = some k → s.itemVld k = true → s.cam k = a)
    (h3 : ∀ k, s.itemVld k = true → s.cam k = a → M k = true ∨ l = some k) :
    Inv n { s with tmp := some ⟨i, a, M⟩, lastIns := l } { o with pend := upd o.pend i (some a) } := by
  obtain ⟨rank, T, h⟩ := h
  have hne : ∀ k, s.itemVld k = true → k ≠ i := by intro k hk e; rw [e, hv] at hk; cases hk
  refine ⟨rank, T, ?_⟩
  constructor
  · exact h.rk
  · intro t e; cases e; exact hi
  · intro t e; cases e; exact hv
  · intro t e; cases e; simp [upd]
  · exact h.b1
  · intro k hk; simp only [upd_eq, if_neg (hne k hk)]; exact h.b2 k hk
  · intro k b hk
    simp only [upd_eq] at hk
    split at hk
    · next e => exact .inr ⟨_, rfl, e.symm⟩
    · rcases h.c k b hk with hh | ⟨t, ht', _⟩
      · exact .inl hh
      · rw [ht] at ht'; cases ht'
  · exact h.d
  · exact h.du
  · exact h.e
  · exact h.f
  · exact h.g
  · exact h.h
  · intro t e; cases e; exact h1
  · intro t e; cases e; exact h2
  · intro t e; cases e; exact h3

/-! ## The step -/

/-- The new `last_cam_insert_match`. -/
def lastNext (s : St D) (x : In D) : Option Nat :=
  match x.sar, s.tmp with
  | some q, some t => if !blocking s q.1 && t.addr == q.2 then some t.id else none
  | _, _ => none

/-- Start of the request from `s_ar_tmp`. -/
def f1 (n : Nat) (y : Sys D) (x : In D) : Sys D :=
  match y.1.tmp with
  | none => ({ y.1 with lastIns := lastNext y.1 x }, y.2)
  | some t =>
    if arAck n y.1 x then
      match parent n y.1 with
      | some p => ({ y.1 with
          tmp := none, itemVld := upd y.1.itemVld t.id true, wait := upd y.1.wait p (some t.id),
          cam := upd y.1.cam t.id t.addr, lastIns := lastNext y.1 x }, y.2)
      | none => ({ y.1 with
          tmp := none, itemVld := upd y.1.itemVld t.id true, cam := upd y.1.cam t.id t.addr, lastIns := lastNext y.1 x },
          { y.2 with mout := upd y.2.mout t.id (some t.addr) })
    else ({ y.1 with cam := upd y.1.cam t.id t.addr, lastIns := lastNext y.1 x }, y.2)

/-- Transfer on `s.r`. -/
def f2 (y : Sys D) (b : Bool) : Sys D :=
  match y.1.reg with
  | some (e, d) =>
    if b then ({ y.1 with
      itemVld := upd y.1.itemVld e false, wait := upd y.1.wait e none, reg := (y.1.wait e).map fun i => (i, d) },
      { y.2 with pend := upd y.2.pend e none })
    else y
  | none => y

/-- Transfer on `m.r`. -/
def f3 (y : Sys D) (q : Option (Nat × D)) : Sys D :=
  match y.1.reg, q with
  | none, some (k, d) => ({ y.1 with reg := some (k, d) },
      { y.2 with mout := upd y.2.mout k none,
                 ans := (match y.2.mout k with | some a => [(a, d)] | none => []) ++ y.2.ans })
  | _, _ => y

/-- Transfer on `s.ar`. -/
def f4 (y : Sys D) (q : Option (Nat × Nat)) (M : Nat → Nat → Bool) : Sys D :=
  match q with
  | some (i, a) => ({ y.1 with tmp := some ⟨i, a, M a⟩ }, { y.2 with pend := upd y.2.pend i (some a) })
  | none => y

theorem lastNext_stall (s : St D) (x : In D) {t : Tmp} (ht : s.tmp = some t) (k : Nat) (h : lastNext s x = some k) : k = t.id := by
  unfold lastNext at h
  rw [ht] at h
  cases hx : x.sar with
  | none => rw [hx] at h; cases h
  | some q =>
    rw [hx] at h
    simp only at h
    split at h
    · cases h; rfl
    · cases h

theorem f1_inv {n : Nat} {y : Sys D} (h : Inv n y.1 y.2) (x : In D) : Inv n (f1 n y x).1 (f1 n y x).2 := by
  unfold f1
  cases ht : y.1.tmp with
  | none => exact last_inv h ht _
  | some t =>
    simp only
    by_cases ha : arAck n y.1 x = true
    · rw [if_pos ha]
      cases hp : parent n y.1 with
      | some p => exact last_inv (start_inv h ht hp) rfl _
      | none => exact last_inv (startM_inv h ht hp) rfl _
    · rw [if_neg ha]
      have hp : parent n y.1 = none := by
        simp only [arAck, ht, Option.isSome_some, Bool.true_and, Bool.or_eq_true, not_or] at ha
        cases hp : parent n y.1 with
        | none => rfl
        | some p => exact absurd (by rw [hp]; rfl) ha.1
      exact stall_inv h ht hp _ (fun k hk => lastNext_stall y.1 x ht k hk)

theorem f2_inv {n : Nat} {y : Sys D} (h : Inv n y.1 y.2) (b : Bool) : Inv n (f2 y b).1 (f2 y b).2 := by
  unfold f2
  cases hr : y.1.reg with
  | none => exact h
  | some q =>
    obtain ⟨e, d⟩ := q
    simp only
    split
    · exact end_inv h hr
    · exact h

theorem f3_inv {n : Nat} {y : Sys D} (h : Inv n y.1 y.2) (q : Option (Nat × D)) (hq : ∀ k d, q = some (k, d) → y.2.mout k ≠ none) :
    Inv n (f3 y q).1 (f3 y q).2 := by
  unfold f3
  cases hr : y.1.reg with
  | some _ => exact h
  | none =>
    cases q with
    | none => exact h
    | some q =>
      obtain ⟨k, d⟩ := q
      simp only
      cases hm : y.2.mout k with
      | none => exact absurd hm (hq k d rfl)
      | some a => exact mr_inv h hr d hm

theorem f4_inv {n : Nat} {y : Sys D} (h : Inv n y.1 y.2) (q : Option (Nat × Nat)) (M : Nat → Nat → Bool)
    (ht : ∀ i a, q = some (i, a) → y.1.tmp = none ∧ i < n ∧ y.1.itemVld i = false ∧
      (∀ k, M a k = true → y.1.itemVld k = true → y.1.cam k = a) ∧
      (∀ k, y.1.lastIns = some k → y.1.itemVld k = true → y.1.cam k = a) ∧
      (∀ k, y.1.itemVld k = true → y.1.cam k = a → M a k = true ∨ y.1.lastIns = some k)) :
    Inv n (f4 y q M).1 (f4 y q M).2 := by
  unfold f4
  cases q with
  | none => exact h
  | some q =>
    obtain ⟨i, a⟩ := q
    obtain ⟨h1, h2, h3, h4, h5, h6⟩ := ht i a rfl
    exact take_inv h h1 h2 h3 (M a) y.1.lastIns h4 h5 h6

theorem parent_ack {n : Nat} {s : St D} (x : In D) {p : Nat} (h : parent n s = some p) : arAck n s x = true := by
  have : s.tmp.isSome = true := by
    unfold parent at h
    cases ht : s.tmp with
    | none => rw [ht] at h; cases h
    | some t => rfl
  simp [arAck, this, h]

theorem take_sar (n : Nat) (s : St D) (x : In D) : take n s x = sarT x (out n s x) := by
  unfold take sarT out
  cases hx : x.sar <;> simp

/-- The request accepted on `s.ar` when `s_ar_tmp` is going to be empty. -/
theorem take_some {n : Nat} {s : St D} {x : In D} {i a : Nat} (h : take n s x = some (i, a)) :
    x.sar = some (i, a) ∧ blocking s i = false ∧ (s.tmp = none ∨ arAck n s x = true) := by
  unfold take at h
  cases hx : x.sar with
  | none => rw [hx] at h; cases h
  | some q =>
    rw [hx] at h
    simp only at h
    split at h
    · next hc =>
      cases h
      simp only [Bool.and_eq_true, Bool.not_eq_true', Bool.or_eq_true, Option.isNone_iff_eq_none] at hc
      exact ⟨rfl, hc.1, hc.2⟩
    · cases h

/-- Id copied in to the frame buffer. -/
theorem copyId_f1 {n : Nat} {y : Sys D} {x : In D} {e : Nat} {d : D} (hr : y.1.reg = some (e, d))
    (hs : x.srRdy = true) : copyId n y.1 x = (f1 n y x).1.wait e := by
  have hen : ending y.1 x = some e := by simp [ending, hs, hr]
  unfold copyId copyOvr f1
  rw [hen]
  cases ht : y.1.tmp with
  | none => simp [hr]
  | some t =>
    simp only
    cases hp : parent n y.1 with
    | none => simp only [hr]; split <;> rfl
    | some p =>
      rw [parent_ack x hp]
      simp only [if_true, upd_eq, hr]
      by_cases he : e = p
      · simp [he]
      · have : (e == p) = false := by simp [he]
        simp [he]

theorem St.ext' {s t : St D} (h1 : s.tmp = t.tmp) (h2 : s.lastIns = t.lastIns) (h3 : s.itemVld = t.itemVld) (h4 : s.wait = t.wait)
    (h5 : s.cam = t.cam) (h6 : s.reg = t.reg) : s = t := by
  cases s; cases t; simp only at *; subst_vars; rfl

theorem Obs.ext' {s t : Obs D} (h1 : s.pend = t.pend) (h2 : s.mout = t.mout) (h3 : s.ans = t.ans) : s = t := by
  cases s; cases t; simp only at *; subst_vars; rfl

theorem f1_tmp (n : Nat) (y : Sys D) (x : In D) : (f1 n y x).1.tmp = if arAck n y.1 x then none else y.1.tmp := by
  unfold f1
  cases ht : y.1.tmp with
  | none => simp only [ht]; split <;> rfl
  | some t =>
    simp only
    split
    · split <;> rfl
    · exact ht

theorem f1_lastIns (n : Nat) (y : Sys D) (x : In D) : (f1 n y x).1.lastIns = lastNext y.1 x := by
  unfold f1
  split
  · rfl
  · split
    · split <;> rfl
    · rfl

theorem f1_reg (n : Nat) (y : Sys D) (x : In D) : (f1 n y x).1.reg = y.1.reg := by
  unfold f1
  split
  · rfl
  · split
    · split <;> rfl
    · rfl

theorem f1_pend (n : Nat) (y : Sys D) (x : In D) : (f1 n y x).2.pend = y.2.pend := by
  unfold f1
  split
  · rfl
  · split
    · split <;> rfl
    · rfl

theorem f1_ans (n : Nat) (y : Sys D) (x : In D) : (f1 n y x).2.ans = y.2.ans := by
  unfold f1
  split
  · rfl
  · split
    · split <;> rfl
    · rfl

theorem f1_cam (n : Nat) (y : Sys D) (x : In D) :
    (f1 n y x).1.cam = match y.1.tmp with | some t => upd y.1.cam t.id t.addr | none => y.1.cam := by
  unfold f1
  cases y.1.tmp with
  | none => rfl
  | some t =>
    simp only
    split
    · split <;> rfl
    · rfl

theorem f1_itemVld (n : Nat) (y : Sys D) (x : In D) (k : Nat) :
    (f1 n y x).1.itemVld k =
      (((match y.1.tmp with | some t => t.id == k | none => false) && arAck n y.1 x) || y.1.itemVld k) := by
  unfold f1
  cases ht : y.1.tmp with
  | none => simp
  | some t =>
    simp only
    by_cases ha : arAck n y.1 x = true
    · rw [if_pos ha, ha]
      have e : upd y.1.itemVld t.id true k = ((t.id == k && true) || y.1.itemVld k) := by
        rw [upd_eq]
        by_cases e : k = t.id
        · simp [e]
        · have : t.id ≠ k := Ne.symm e
          simp [e, this]
      split <;> exact e
    · rw [if_neg ha]; simp [ha]

theorem f1_wait (n : Nat) (y : Sys D) (x : In D) (k : Nat) :
    (f1 n y x).1.wait k = match y.1.tmp with
      | some t => if arAck n y.1 x && parent n y.1 == some k then some t.id else y.1.wait k
      | none => y.1.wait k := by
  unfold f1
  cases ht : y.1.tmp with
  | none => rfl
  | some t =>
    simp only
    by_cases ha : arAck n y.1 x = true
    · rw [if_pos ha, ha]
      cases hp : parent n y.1 with
      | none => rfl
      | some p =>
        simp only [upd_eq, Bool.true_and]
        by_cases e : k = p
        · simp [e]
        · have : p ≠ k := Ne.symm e
          simp [e, this]
    · rw [if_neg ha]; simp [ha]

theorem f1_mout (n : Nat) (y : Sys D) (x : In D) : (f1 n y x).2.mout = setOpt y.2.mout (marT x (out n y.1 x)) := by
  unfold f1 marT out
  cases ht : y.1.tmp with
  | none => simp [setOpt]
  | some t =>
    simp only
    cases hp : parent n y.1 with
    | some p => rw [parent_ack x hp]; simp [setOpt]
    | none =>
      have ha : arAck n y.1 x = x.marRdy := by simp [arAck, ht, hp]
      rw [ha]
      cases x.marRdy <;> simp [setOpt]

theorem mout_f1 {n : Nat} {y : Sys D} (h : Inv n y.1 y.2) (x : In D) {k : Nat} (hk : y.2.mout k ≠ none) :
    (f1 n y x).2.mout k = y.2.mout k := by
  rw [f1_mout]
  unfold marT out
  split
  · cases ht : y.1.tmp with
    | none => rfl
    | some t =>
      simp only
      split
      · simp only [setOpt, upd_eq]
        split
        · next e =>
          obtain ⟨rank, T, h⟩ := h
          cases hm : y.2.mout k with
          | none => exact absurd hm hk
          | some a =>
            have := (h.d k a hm).1
            rw [e, h.a2 t ht] at this
            cases this
        · rfl
      · rfl
  · rfl

/-- `f2` and `f3` together. -/
theorem f23_eq {n : Nat} {y : Sys D} (h : Inv n y.1 y.2) {x : In D} (hx : Env n y x) :
    let z := f3 (f2 (f1 n y x) x.srRdy) (mrT x (out n y.1 x))
    z.1.tmp = (f1 n y x).1.tmp ∧ z.1.lastIns = (f1 n y x).1.lastIns ∧ z.1.cam = (f1 n y x).1.cam ∧
    z.1.itemVld = (next n y.1 x).itemVld ∧ z.1.wait = (next n y.1 x).wait ∧ z.1.reg = (next n y.1 x).reg ∧
    z.2.pend = clrOpt y.2.pend (srT x (out n y.1 x)) ∧ z.2.mout = (y.2.step x (out n y.1 x)).mout ∧
    z.2.ans = (y.2.step x (out n y.1 x)).ans := by
  have hvld : ∀ (k : Nat), ending y.1 x ≠ some k → (next n y.1 x).itemVld k = (f1 n y x).1.itemVld k := by
    intro k hk
    rw [f1_itemVld]
    have hov : ((copyOvr n y.1 x).isSome || arAck n y.1 x) = arAck n y.1 x := by
      cases ho : copyOvr n y.1 x with
      | none => simp
      | some i =>
        have : ∃ p, parent n y.1 = some p := by
          unfold copyOvr at ho
          cases hp : parent n y.1 with
          | some p => exact ⟨p, rfl⟩
          | none => rw [hp] at ho; simp at ho
        obtain ⟨p, hp⟩ := this
        simp [parent_ack x hp]
    simp only [next, hov]
    have hk2 : (ending y.1 x == some k) = false := by simpa using hk
    simp only [hk2, Bool.not_false, Bool.and_true]
    cases y.1.tmp <;> rfl
  have hwt : ∀ (k : Nat), ending y.1 x ≠ some k → (next n y.1 x).wait k = (f1 n y x).1.wait k := by
    intro k hk
    rw [f1_wait]
    simp only [next]
    cases y.1.tmp <;> simp [hk]
  cases hr : y.1.reg with
  | none =>
    have hen : ending y.1 x = none := by simp [ending, hr]
    have hco : copyId n y.1 x = none := by
      simp only [copyId, copyOvr, hen, hr]
      cases y.1.tmp <;> cases parent n y.1 <;> rfl
    have e2 : f2 (f1 n y x) x.srRdy = f1 n y x := by unfold f2; rw [f1_reg, hr]
    have em : mrT x (out n y.1 x) = x.mr := by simp [mrT, out, hr, hco]
    have es : srT x (out n y.1 x) = none := by simp [srT, out, hr]
    rw [e2, em, es]
    have ereg : (next n y.1 x).reg = x.mr := by simp [next, hr]
    rw [ereg]
    have ev : (f1 n y x).1.itemVld = (next n y.1 x).itemVld := by
      funext k; rw [hvld k (by rw [hen]; simp)]
    have ew : (f1 n y x).1.wait = (next n y.1 x).wait := by
      funext k; rw [hwt k (by rw [hen]; simp)]
    unfold f3
    rw [f1_reg, hr]
    cases hmr : x.mr with
    | none =>
      simp only
      refine ⟨by trivial, by trivial, by trivial, ev, ew, by rw [f1_reg, hr], by rw [f1_pend]; rfl, ?_, ?_⟩
      · simp only [Obs.step, em, hmr, clrOpt]; exact f1_mout n y x
      · simp only [Obs.step, em, hmr]; exact f1_ans n y x
    | some q =>
      obtain ⟨k, d⟩ := q
      simp only
      refine ⟨by trivial, by trivial, by trivial, ev, ew, by trivial, by rw [f1_pend]; rfl, ?_, ?_⟩
      · simp only [Obs.step, em, hmr, clrOpt]; rw [f1_mout]
      · simp only [Obs.step, em, hmr]; rw [f1_ans, mout_f1 h x (hx.1 k d hmr)]
  | some q =>
    obtain ⟨e, d⟩ := q
    by_cases hs : x.srRdy = true
    · have hen : ending y.1 x = some e := by simp [ending, hr, hs]
      have hco := copyId_f1 hr hs (n := n)
      have e2 : f2 (f1 n y x) x.srRdy = ({ (f1 n y x).1 with
          itemVld := upd (f1 n y x).1.itemVld e false, wait := upd (f1 n y x).1.wait e none,
          reg := ((f1 n y x).1.wait e).map fun i => (i, d) },
          { (f1 n y x).2 with pend := upd (f1 n y x).2.pend e none }) := by
        unfold f2; rw [f1_reg, hr, hs]; rfl
      have em : mrT x (out n y.1 x) = if ((f1 n y x).1.wait e).isNone then x.mr else none := by
        simp only [mrT, out, hr, hco, hs, Bool.or_true, Bool.true_and]
      have es : srT x (out n y.1 x) = some (e, d) := by simp [srT, out, hr, hs]
      have hte : ∀ t, y.1.tmp = some t → t.id ≠ e := by
        obtain ⟨rank, T, h⟩ := h
        intro t ht he; have := h.a2 t ht; rw [he, (h.e e d hr).1] at this; cases this
      have ev : upd (f1 n y x).1.itemVld e false = (next n y.1 x).itemVld := by
        funext k
        rw [upd_eq]
        split
        · next ek =>
          simp only [next, hen, ek]
          cases ht : y.1.tmp with
          | none => simp
          | some t => simp [hte t ht]
        · next ek => rw [hvld k (by rw [hen]; simp; exact Ne.symm ek)]
      have ew : upd (f1 n y x).1.wait e none = (next n y.1 x).wait := by
        funext k
        rw [upd_eq]
        split
        · next ek => simp only [next, hen, ek]; cases y.1.tmp <;> simp
        · next ek => rw [hwt k (by rw [hen]; simp; exact Ne.symm ek)]
      have ereg : (next n y.1 x).reg = match (f1 n y x).1.wait e with | some i => some (i, d) | none => x.mr := by
        simp only [next, hr, hs, Bool.or_true, if_true, hco]
        cases (f1 n y x).1.wait e <;> rfl
      rw [e2, em, es, ereg]
      cases hw : (f1 n y x).1.wait e with
      | some i =>
        simp only [f3, Option.map_some, Option.isNone_some]
        refine ⟨by trivial, by trivial, by trivial, ev, ew, by trivial, by rw [f1_pend]; rfl, ?_, ?_⟩
        · simp only [Obs.step, em, hw, Option.isNone_some, Bool.false_eq_true, if_false, clrOpt]; exact f1_mout n y x
        · simp only [Obs.step, em, hw, Option.isNone_some, Bool.false_eq_true, if_false]; exact f1_ans n y x
      | none =>
        cases hmr : x.mr with
        | none =>
          simp only [f3, Option.map_none, Option.isNone_none, if_true]
          refine ⟨by trivial, by trivial, by trivial, ev, ew, by trivial, by rw [f1_pend]; rfl, ?_, ?_⟩
          · simp only [Obs.step, em, hw, hmr, Option.isNone_none, if_true, clrOpt]; exact f1_mout n y x
          · simp only [Obs.step, em, hw, hmr, Option.isNone_none, if_true]; exact f1_ans n y x
        | some q =>
          obtain ⟨k, d'⟩ := q
          simp only [f3, Option.map_none, Option.isNone_none, if_true]
          refine ⟨by trivial, by trivial, by trivial, ev, ew, by trivial, by rw [f1_pend]; rfl, ?_, ?_⟩
          · simp only [Obs.step, em, hw, hmr, Option.isNone_none, if_true, clrOpt]; rw [f1_mout]
          · simp only [Obs.step, em, hw, hmr, Option.isNone_none, if_true]; rw [f1_ans, mout_f1 h x (hx.1 k d' hmr)]
    · simp only [Bool.not_eq_true] at hs
      have hen : ending y.1 x = none := by simp [ending, hs]
      have e2 : f2 (f1 n y x) x.srRdy = f1 n y x := by unfold f2; rw [f1_reg, hr, hs]; rfl
      have em : mrT x (out n y.1 x) = none := by simp [mrT, out, hr, hs]
      have es : srT x (out n y.1 x) = none := by simp [srT, hs]
      rw [e2, em, es]
      have ereg : (next n y.1 x).reg = y.1.reg := by simp [next, hr, hs]
      rw [ereg]
      have e3 : f3 (f1 n y x) none = f1 n y x := by unfold f3; cases (f1 n y x).1.reg <;> rfl
      rw [e3]
      refine ⟨rfl, rfl, rfl, ?_, ?_, f1_reg n y x, by rw [f1_pend]; rfl, ?_, ?_⟩
      · funext k; rw [hvld k (by rw [hen]; simp)]
      · funext k; rw [hwt k (by rw [hen]; simp)]
      · simp only [Obs.step, em, clrOpt]; exact f1_mout n y x
      · simp only [Obs.step, em]; exact f1_ans n y x

theorem step_eq {n : Nat} {y : Sys D} (h : Inv n y.1 y.2) {x : In D} (hx : Env n y x) :
    sys n y x = f4 (f3 (f2 (f1 n y x) x.srRdy) (mrT x (out n y.1 x))) (take n y.1 x)
      (fun a k => y.1.itemVld k && y.1.cam k == a) := by
  have hz := f23_eq h hx
  simp only at hz
  generalize f3 (f2 (f1 n y x) x.srRdy) (mrT x (out n y.1 x)) = z at hz
  obtain ⟨z1, z2, z3, z4, z5, z6, z7, z8, z9⟩ := hz
  rw [f1_tmp] at z1
  rw [f1_lastIns] at z2
  rw [f1_cam] at z3
  unfold f4
  cases ht : take n y.1 x with
  | none =>
    simp only
    refine Prod.ext (St.ext' ?_ ?_ z4.symm z5.symm ?_ z6.symm) (Obs.ext' ?_ z8.symm z9.symm)
    · rw [z1]; simp only [sys, next, ht]
    · rw [z2]; rfl
    · rw [z3]; rfl
    · rw [z7]; simp only [sys, Obs.step]; rw [← take_sar, ht]; rfl
  | some q =>
    obtain ⟨i, a⟩ := q
    simp only
    refine Prod.ext (St.ext' ?_ ?_ z4.symm z5.symm ?_ z6.symm) (Obs.ext' ?_ z8.symm z9.symm)
    · simp only [sys, next, ht]
    · rw [z2]; rfl
    · rw [z3]; rfl
    · simp only [sys, Obs.step]; rw [← take_sar, ht, z7]; rfl

theorem inv_step {n : Nat} {y : Sys D} (h : Inv n y.1 y.2) {x : In D} (hx : Env n y x) :
    Inv n (sys n y x).1 (sys n y x).2 := by
  rw [step_eq h hx]
  have hz := f23_eq h hx
  simp only at hz
  have hi : Inv n (f3 (f2 (f1 n y x) x.srRdy) (mrT x (out n y.1 x))).1 (f3 (f2 (f1 n y x) x.srRdy) (mrT x (out n y.1 x))).2 := by
    refine f3_inv (f2_inv (f1_inv h x) _) _ ?_
    intro k d hk
    have hk' : x.mr = some (k, d) := by
      unfold mrT at hk; split at hk
      · exact hk
      · cases hk
    have e : (f2 (f1 n y x) x.srRdy).2.mout = (f1 n y x).2.mout := by
      unfold f2; split
      · split <;> rfl
      · rfl
    rw [e, mout_f1 h x (hx.1 k d hk')]
    exact hx.1 k d hk'
  generalize f3 (f2 (f1 n y x) x.srRdy) (mrT x (out n y.1 x)) = z at hz hi
  obtain ⟨z1, z2, z3, z4, z5, z6, z7, z8, z9⟩ := hz
  rw [f1_tmp] at z1
  rw [f1_lastIns] at z2
  rw [f1_cam] at z3
  refine f4_inv hi _ _ ?_
  intro i a hq
  obtain ⟨hsar, hbl, hack⟩ := take_some hq
  simp only [blocking, Bool.or_eq_false_iff] at hbl
  have hbl' : blocking y.1 i = false := by simp only [blocking, Bool.or_eq_false_iff]; exact hbl
  have hin : i < n := hx.2 i a hsar
  have hvk : ∀ k, z.1.itemVld k = true → y.1.itemVld k = true ∨ ∃ t, y.1.tmp = some t ∧ t.id = k := by
    intro k hk
    rw [z4] at hk
    simp only [next, Bool.or_eq_true, Bool.and_eq_true] at hk
    rcases hk with ⟨hk, _⟩ | ⟨hk, _⟩
    · cases ht : y.1.tmp with
      | none => rw [ht] at hk; cases hk
      | some t => rw [ht] at hk; exact .inr ⟨t, rfl, by simpa using hk⟩
    · exact .inl hk
  obtain ⟨rank, T, h⟩ := h
  have hlast : ∀ t, y.1.tmp = some t → lastNext y.1 x = if t.addr = a then some t.id else none := by
    intro t ht
    simp only [lastNext, hsar, ht, hbl', Bool.not_false, Bool.true_and, beq_iff_eq]
  refine ⟨?_, hin, ?_, ?_, ?_, ?_⟩
  · rw [z1]
    rcases hack with e | e
    · rw [e]; split <;> rfl
    · rw [if_pos e]
  · cases hv : z.1.itemVld i with
    | false => rfl
    | true =>
      rcases hvk i hv with hh | ⟨t, ht, e⟩
      · rw [hh] at hbl; exact absurd hbl.1 (by simp)
      · rw [ht] at hbl; simp [e] at hbl
  · intro k hM hv
    simp only [Bool.and_eq_true, beq_iff_eq] at hM
    rw [z3]
    cases ht : y.1.tmp with
    | none => exact hM.2
    | some t =>
      have : k ≠ t.id := by intro e; have := h.a2 t ht; rw [← e, hM.1] at this; cases this
      simp only [upd_eq, if_neg this]; exact hM.2
  · intro k hl hv
    rw [z2] at hl
    rw [z3]
    cases ht : y.1.tmp with
    | none => simp [lastNext, hsar, ht] at hl
    | some t =>
      rw [hlast t ht] at hl
      split at hl
      · next e => cases hl; simp only [upd_eq, if_true]; exact e
      · cases hl
  · intro k hv hc
    rw [z3] at hc
    rw [z2]
    rcases hvk k hv with hh | ⟨t, ht, e⟩
    · left
      simp only [Bool.and_eq_true, beq_iff_eq]
      refine ⟨hh, ?_⟩
      cases ht : y.1.tmp with
      | none => rw [ht] at hc; exact hc
      | some t =>
        rw [ht] at hc
        have : k ≠ t.id := by intro e; have := h.a2 t ht; rw [← e, hh] at this; cases this
        simp only [upd_eq, if_neg this] at hc; exact hc
    · right
      rw [ht] at hc
      simp only [upd_eq, e, if_true] at hc
      rw [hlast t ht, if_pos hc, e]

theorem inv_run {n : Nat} {y : Sys D} (h : Inv n y.1 y.2) {xs : List (In D)} (hx : Along n y xs) :
    Inv n (run n y xs).1 (run n y xs).2 := by
  induction xs generalizing y with
  | nil => exact h
  | cons x xs ih => exact ih (inv_step h hx.1) hx.2

/-! ## Requests and answers -/

/-- C256: each answer on `s.r` belongs to a request which was accepted on `s.ar` and not yet answered, and it carries data which were
received on `m.r` for the line of this request; a request is accepted only if its id is free. -/
theorem answers (n : Nat) (xs : List (In D)) (hx : Along n sysInit xs) (x : In D) :
    (∀ k d, (out n (run n sysInit xs).1 x).sr = some (k, d) →
      ∃ a, (run n sysInit xs).2.pend k = some a ∧ (a, d) ∈ (run n sysInit xs).2.ans) ∧
    (∀ k a, sarT x (out n (run n sysInit xs).1 x) = some (k, a) → (run n sysInit xs).2.pend k = none) := by
  have h := inv_run (y := sysInit) (inv_init n) hx
  generalize run n sysInit xs = y at h
  constructor
  · intro k d hk
    obtain ⟨rank, T, h⟩ := h
    obtain ⟨hv, _, ha, _⟩ := h.e k d hk
    exact ⟨_, h.b2 k hv, ha⟩
  · intro k a hk
    rw [← take_sar] at hk
    obtain ⟨_, hb, _⟩ := take_some hk
    obtain ⟨rank, T, h⟩ := h
    cases hp : y.2.pend k with
    | none => rfl
    | some b =>
      simp only [blocking, Bool.or_eq_false_iff] at hb
      rcases h.c k b hp with e | ⟨t, ht, e⟩
      · rw [e] at hb; exact absurd hb.1 (by simp)
      · rw [ht] at hb; simp [e] at hb

/-- C257: a read is sent on `m.ar` only for an accepted request which has no read in progress, and only if no other request for the same
line is in progress; there are never two reads of one line in progress. -/
theorem aggregates (n : Nat) (xs : List (In D)) (hx : Along n sysInit xs) (x : In D) :
    (∀ k a, (out n (run n sysInit xs).1 x).mar = some (k, a) →
      (run n sysInit xs).2.pend k = some a ∧ (run n sysInit xs).2.mout k = none ∧
      ∀ j, (run n sysInit xs).2.pend j = some a → j = k) ∧
    (∀ i j a, (run n sysInit xs).2.mout i = some a → (run n sysInit xs).2.mout j = some a → i = j) := by
  have h := inv_run (y := sysInit) (inv_init n) hx
  generalize run n sysInit xs = y at h
  constructor
  · intro k a hk
    simp only [out] at hk
    cases ht : y.1.tmp with
    | none => rw [ht] at hk; cases hk
    | some t =>
      rw [ht] at hk
      simp only at hk
      cases hp : parent n y.1 with
      | some p => rw [hp] at hk; simp at hk
      | none =>
        rw [hp] at hk
        simp only [Option.isNone_none, if_true, Option.some.injEq, Prod.mk.injEq] at hk
        obtain ⟨rfl, rfl⟩ := hk
        have hn := no_line h ht hp
        obtain ⟨rank, T, h⟩ := h
        refine ⟨h.a3 t ht, ?_, ?_⟩
        · cases hm : y.2.mout t.id with
          | none => rfl
          | some b => have := (h.d _ b hm).1; rw [h.a2 t ht] at this; cases this
        · intro j hj
          rcases h.c j _ hj with e | ⟨t', ht', e⟩
          · exfalso
            have := h.b2 j e
            rw [hj, Option.some.injEq] at this
            exact hn j e this.symm
          · rw [ht, Option.some.injEq] at ht'; rw [← e, ht']
  · obtain ⟨rank, T, h⟩ := h
    exact h.du

/-- The first one of the chain of waiting requests. -/
theorem root {n : Nat} {s : St D} {o : Obs D} {rank : Nat → Nat} {T : Nat} (h : InvR n s o rank T) (m : Nat) :
    ∀ k, rank k ≤ m → s.itemVld k = true → (∃ i, o.mout i ≠ none) ∨ s.reg ≠ none := by
  induction m with
  | zero =>
    intro k hk hv
    rcases h.h k hv with e | ⟨d, e⟩ | ⟨j, e⟩
    · exact .inl ⟨k, e⟩
    · exact .inr (by rw [e]; simp)
    · have := (h.f j k e).2.2.2.2; omega
  | succ m ih =>
    intro k hk hv
    rcases h.h k hv with e | ⟨d, e⟩ | ⟨j, e⟩
    · exact .inl ⟨k, e⟩
    · exact .inr (by rw [e]; simp)
    · have hf := h.f j k e
      exact ih j (by omega) hf.1

/-- C258: no request gets lost: if there is a request which is not answered then there is a read in progress, or a read is offered on
`m.ar`, or an answer is offered on `s.r`; and an offered read and answer is kept until it is accepted. -/
theorem not_lost (n : Nat) (xs : List (In D)) (hx : Along n sysInit xs) (x x' : In D) (hxx : Env n (run n sysInit xs) x) :
    (∀ k, (run n sysInit xs).2.pend k ≠ none →
      (∃ i, (run n sysInit xs).2.mout i ≠ none) ∨ (out n (run n sysInit xs).1 x).mar ≠ none ∨
      (out n (run n sysInit xs).1 x).sr ≠ none) ∧
    (∀ q, (out n (run n sysInit xs).1 x).mar = some q → x.marRdy = false →
      (out n (next n (run n sysInit xs).1 x) x').mar = some q) ∧
    (∀ q, (out n (run n sysInit xs).1 x).sr = some q → x.srRdy = false →
      (out n (next n (run n sysInit xs).1 x) x').sr = some q) := by
  have h := inv_run (y := sysInit) (inv_init n) hx
  generalize run n sysInit xs = y at h hxx
  have h' := inv_step h hxx
  refine ⟨?_, ?_, ?_⟩
  · intro k hk
    cases hpk : y.2.pend k with
    | none => exact absurd hpk hk
    | some a =>
      cases hp : parent n y.1 with
      | some p =>
        cases ht : y.1.tmp with
        | none => simp [parent, ht] at hp
        | some t =>
          have hv := (parent_spec h ht hp).1
          obtain ⟨rank, T, h⟩ := h
          rcases root h (rank p) p (Nat.le_refl _) hv with e | e
          · exact .inl e
          · exact .inr (.inr e)
      | none =>
        obtain ⟨rank, T, h⟩ := h
        rcases h.c k a hpk with hv | ⟨t, ht, _⟩
        · rcases root h (rank k) k (Nat.le_refl _) hv with e | e
          · exact .inl e
          · exact .inr (.inr e)
        · right; left
          simp [out, ht, hp]
  · intro q hq hr
    simp only [out] at hq
    cases ht : y.1.tmp with
    | none => rw [ht] at hq; cases hq
    | some t =>
      rw [ht] at hq
      simp only at hq
      cases hp : parent n y.1 with
      | some p => rw [hp] at hq; simp at hq
      | none =>
        rw [hp] at hq
        have hack : arAck n y.1 x = false := by simp [arAck, hp, hr]
        have htake : take n y.1 x = none := by
          unfold take
          cases x.sar <;> simp [ht, hack]
        have ht' : (sys n y x).1.tmp = some t := by simp [sys, next, htake, hack, ht]
        have hp' : parent n (sys n y x).1 = none := by
          cases hp' : parent n (sys n y x).1 with
          | none => rfl
          | some p =>
            exfalso
            obtain ⟨hv, hc, _⟩ := parent_spec h' ht' hp'
            have hov : copyOvr n y.1 x = none := by simp [copyOvr, ht, hp]
            simp only [sys, next, hack, hov, Option.isSome_none, Bool.or_false, Bool.and_false, Bool.false_or, Bool.and_eq_true] at hv
            refine no_line h ht hp p hv.1 ?_
            obtain ⟨rank, T, h⟩ := h
            have hne : p ≠ t.id := by intro e; have := h.a2 t ht; rw [← e, hv.1] at this; cases this
            simpa [sys, next, ht, upd_eq, hne] using hc
        simp only [sys] at ht' hp'
        simp only [out, ht', hp']
        exact hq
  · intro q hq hr
    simp only [out] at hq ⊢
    simp [next, hq, hr]

/-! ## Freshness of the data -/

/-- The full claim: data of the answer were received on `m.r` after the request was accepted. -/
def Fresh (D : Type) (n : Nat) : Prop :=
  ∀ (xs : List (In D)) (x : In D) (zs : List (In D)) (k a : Nat) (d : D) (x' : In D),
    Along n sysInit (xs ++ x :: zs) → sarT x (out n (run n sysInit xs).1 x) = some (k, a) →
    (out n (run n sysInit (xs ++ x :: zs)).1 x').sr = some (k, d) →
    (run n sysInit (xs ++ [x])).2.ans.length < (run n sysInit (xs ++ x :: zs)).2.ans.length

theorem along_append {n : Nat} {y : Sys D} {xs ys : List (In D)} :
    Along n y (xs ++ ys) ↔ Along n y xs ∧ Along n (run n y xs) ys := by
  induction xs generalizing y with
  | nil => simp [Along, run]
  | cons x xs ih => simp [Along, ih, and_assoc, run]

theorem run_append (n : Nat) (y : Sys D) (xs ys : List (In D)) : run n y (xs ++ ys) = run n (run n y xs) ys := by
  simp [run]

/-- Number of the answers from `m.r` never decreases. -/
theorem ans_mono (n : Nat) (y : Sys D) (x : In D) : y.2.ans.length ≤ (sys n y x).2.ans.length := by
  simp only [sys, Obs.step]
  split <;> simp

theorem ans_mono_run (n : Nat) (y : Sys D) (xs : List (In D)) : y.2.ans.length ≤ (run n y xs).2.ans.length := by
  induction xs generalizing y with
  | nil => simp [run]
  | cons x xs ih => exact Nat.le_trans (ans_mono n y x) (ih (sys n y x))

/-- No answer for the line `a` is in the buffer. -/
def NoLine (a : Nat) (y : Sys D) : Prop := ∀ i d, y.1.reg = some (i, d) → y.1.cam i ≠ a

theorem noLine_step {n : Nat} {y : Sys D} (h : Inv n y.1 y.2) {x : In D} (hx : Env n y x) {a : Nat} (hn : NoLine a y)
    (hl : (sys n y x).2.ans.length = y.2.ans.length) : NoLine a (sys n y x) := by
  have hm : mrT x (out n y.1 x) = none := by
    cases hm : mrT x (out n y.1 x) with
    | none => rfl
    | some q =>
      exfalso
      obtain ⟨k, d⟩ := q
      simp only [sys, Obs.step, hm] at hl
      have hk : x.mr = some (k, d) := by
        unfold mrT at hm; split at hm
        · exact hm
        · cases hm
      cases hmo : y.2.mout k with
      | none => exact hx.1 k d hk hmo
      | some b => rw [hmo] at hl; simp at hl
  intro i d hr
  simp only [sys, next] at hr
  have hcam : ∀ k, y.1.itemVld k = true → (sys n y x).1.cam k = y.1.cam k := by
    obtain ⟨rank, T, h⟩ := h
    intro k hk
    simp only [sys, next]
    cases ht : y.1.tmp with
    | none => rfl
    | some t =>
      have hne : k ≠ t.id := by intro e; have := h.a2 t ht; rw [← e, hk] at this; cases this
      simp only [upd_eq, if_neg hne]
  have hreg := h
  obtain ⟨rank, T, hreg⟩ := hreg
  split at hr
  · next hc =>
    split at hr
    · next i' e d' hco hq =>
      have hi : i' = i ∧ d' = d := by simpa using hr
      obtain ⟨rfl, rfl⟩ := hi
      have hne := hn _ _ hq
      unfold copyId at hco
      split at hco
      · next i2 hov =>
        cases hco
        unfold copyOvr at hov
        split at hov
        · next t p e' ht hp he =>
          split at hov
          · next hep =>
            cases hov
            have hep : e' = p := by simpa using hep
            have he2 : e' = e := by
              unfold ending at he; rw [hq] at he; split at he <;> simp at he; exact he.symm
            have hpc := (parent_spec h ht hp).2.1
            simp only [sys, next, ht, upd_eq, if_true]
            rw [← hpc, ← hep, he2]
            exact hne
          · cases hov
        · cases hov
      · rw [hq] at hco
        simp only at hco
        have hf := hreg.f e i' hco
        rw [hcam i' hf.2.1, hf.2.2.1]
        exact hne
    · next hno =>
      exfalso
      have hco : copyId n y.1 x = none := by
        cases hco : copyId n y.1 x with
        | none => rfl
        | some i' =>
          cases hq : y.1.reg with
          | none =>
            simp only [copyId, copyOvr, ending, hq] at hco
            cases y.1.tmp <;> cases parent n y.1 <;> cases x.srRdy <;> simp at hco
          | some q => exact absurd hq (hno i' q.1 q.2 hco)
      have : mrT x (out n y.1 x) = x.mr := by simp only [mrT, out, hc, hco, Option.isNone_none, Bool.and_self, if_true]
      rw [this, hr] at hm
      cases hm
  · rw [hcam i (hreg.e i d hr).1]
    exact hn i d hr

theorem noLine_run {n : Nat} {y : Sys D} (h : Inv n y.1 y.2) {zs : List (In D)} (hx : Along n y zs) {a : Nat} (hn : NoLine a y)
    (hl : (run n y zs).2.ans.length = y.2.ans.length) : NoLine a (run n y zs) := by
  induction zs generalizing y with
  | nil => exact hn
  | cons x zs ih =>
    have h1 := ans_mono n y x
    have h2 := ans_mono_run n (sys n y x) zs
    have h3 : (run n y (x :: zs)) = run n (sys n y x) zs := rfl
    rw [h3] at hl ⊢
    exact ih (inv_step h hx.1) hx.2 (noLine_step h hx.1 hn (by omega)) (by omega)

/-- C259: the data of the answer for line `a` were received on `m.r` later than any moment in which no request for the line `a` was
in progress. -/
theorem fresh_partial (n : Nat) (xs zs : List (In D)) (hx : Along n sysInit (xs ++ zs)) (a : Nat)
    (hfree : ∀ j, (run n sysInit xs).2.pend j ≠ some a) (x' : In D) (k : Nat) (d : D)
    (hk : (run n sysInit (xs ++ zs)).2.pend k = some a) (hr : (out n (run n sysInit (xs ++ zs)).1 x').sr = some (k, d)) :
    (run n sysInit xs).2.ans.length < (run n sysInit (xs ++ zs)).2.ans.length := by
  rw [along_append] at hx
  rw [run_append] at hk hr ⊢
  have h := inv_run (y := sysInit) (inv_init n) hx.1
  have h' := inv_run h hx.2
  have hm := ans_mono_run n (run n sysInit xs) zs
  refine Nat.lt_of_le_of_ne hm fun hl => ?_
  have hn : NoLine a (run n sysInit xs) := by
    intro i d hi hc
    obtain ⟨rank, T, h⟩ := h
    have := h.b2 i (h.e i d hi).1
    rw [hc] at this
    exact hfree i this
  have hz := noLine_run h hx.2 hn hl.symm
  obtain ⟨rank, T, h'⟩ := h'
  have hv := (h'.e k d hr).1
  have := h'.b2 k hv
  rw [hk, Option.some.injEq] at this
  exact hz k d hr this.symm

/-! ## Progress -/

theorem countP_lt {p q : Nat → Bool} {l : List Nat} (hpq : ∀ k, p k = true → q k = true) {i : Nat} (hi : i ∈ l) (hp : p i = false)
    (hq : q i = true) : l.countP p < l.countP q := by
  have hle : ∀ l : List Nat, l.countP p ≤ l.countP q := fun l => List.countP_mono_left fun k _ => hpq k
  induction l with
  | nil => cases hi
  | cons k l ih =>
    simp only [List.countP_cons]
    rcases List.mem_cons.mp hi with e | e
    · subst e
      have := hle l
      simp [hp, hq]; omega
    · have := ih e
      have := hpq k
      cases hk : p k with
      | false => simp; omega
      | true => simp [this hk]; omega

/-- Number of requests in progress. -/
def cnt (n : Nat) (y : Sys D) : Nat := (List.range n).countP fun k => (y.2.pend k).isSome

/-- The full claim: if the memory offers an answer and all outputs are accepted then the answer is taken in a bounded time. -/
def Served (D : Type) (n : Nat) : Prop :=
  ∃ N, ∀ (xs zs : List (In D)), Along n sysInit (xs ++ zs) → zs.length = N →
    (∀ z, z ∈ zs → z.srRdy = true ∧ z.marRdy = true ∧ z.mr ≠ none) →
    (run n sysInit xs).2.ans.length < (run n sysInit (xs ++ zs)).2.ans.length

theorem served_aux {n : Nat} (m : Nat) : ∀ (y : Sys D) (zs : List (In D)), Inv n y.1 y.2 → Along n y zs → cnt n y ≤ m →
    zs.length = m + 1 → (∀ z, z ∈ zs → z.srRdy = true ∧ z.sar = none ∧ z.mr ≠ none) →
    y.2.ans.length < (run n y zs).2.ans.length := by
  induction m with
  | zero =>
    intro y zs h hx hc hl hz
    cases zs with
    | nil => cases hl
    | cons z zs =>
      obtain ⟨hs, hsar, hmr⟩ := hz z (by simp)
      have hreg : y.1.reg = none := by
        cases hr : y.1.reg with
        | none => rfl
        | some q =>
          exfalso
          obtain ⟨rank, T, h⟩ := h
          have hv := (h.e q.1 q.2 hr).1
          have hp := h.b2 _ hv
          have : cnt n y = 0 := by omega
          unfold cnt at this
          rw [List.countP_eq_zero] at this
          exact this q.1 (List.mem_range.mpr (h.b1 _ hv)) (by simp [hp])
      have hm : mrT z (out n y.1 z) = z.mr := by
        have hco : copyId n y.1 z = none := by
          simp only [copyId, copyOvr, ending, hreg]
          cases y.1.tmp <;> cases parent n y.1 <;> cases z.srRdy <;> rfl
        simp [mrT, out, hreg, hco]
      refine Nat.lt_of_lt_of_le ?_ (ans_mono_run n (sys n y z) zs)
      cases hq : z.mr with
      | none => exact absurd hq hmr
      | some q =>
        obtain ⟨k, d⟩ := q
        simp only [sys, Obs.step, hm, hq]
        cases hmo : y.2.mout k with
        | none => exact absurd hmo (hx.1.1 k d hq)
        | some b => simp
  | succ m ih =>
    intro y zs h hx hc hl hz
    cases zs with
    | nil => cases hl
    | cons z zs =>
      obtain ⟨hs, hsar, hmr⟩ := hz z (by simp)
      have hsT : sarT z (out n y.1 z) = none := by simp [sarT, hsar]
      cases hr : y.1.reg with
      | none =>
        have hm : mrT z (out n y.1 z) = z.mr := by
          have hco : copyId n y.1 z = none := by
            simp only [copyId, copyOvr, ending, hr]
            cases y.1.tmp <;> cases parent n y.1 <;> cases z.srRdy <;> rfl
          simp [mrT, out, hr, hco]
        refine Nat.lt_of_lt_of_le ?_ (ans_mono_run n (sys n y z) zs)
        cases hq : z.mr with
        | none => exact absurd hq hmr
        | some q =>
          obtain ⟨k, d⟩ := q
          simp only [sys, Obs.step, hm, hq]
          cases hmo : y.2.mout k with
          | none => exact absurd hmo (hx.1.1 k d hq)
          | some b => simp
      | some q =>
        have hlt : cnt n (sys n y z) < cnt n y := by
          have hsr : srT z (out n y.1 z) = some q := by simp [srT, out, hr, hs]
          obtain ⟨rank, T, h⟩ := h
          have hv := (h.e q.1 q.2 hr).1
          have hp := h.b2 _ hv
          have hpd : (sys n y z).2.pend = upd y.2.pend q.1 none := by simp [sys, Obs.step, hsr, hsT, setOpt, clrOpt]
          unfold cnt
          rw [hpd]
          refine countP_lt (i := q.1) ?_ (List.mem_range.mpr (h.b1 _ hv)) ?_ ?_
          · intro k
            rw [upd_eq]
            split
            · simp
            · exact id
          · simp
          · simp [hp]
        have := ih (sys n y z) zs (inv_step h hx.1) hx.2 (by omega) (by simpa using hl) (fun z' hz' => hz z' (by simp [hz']))
        exact Nat.lt_of_le_of_lt (ans_mono n y z) this

/-- C260: if the memory offers answers, the answers on `s.r` are accepted and there are no new requests then an answer of the memory is taken
after at most `2 ** ID_WIDTH + 1` clock cycles. -/
theorem served_partial (n : Nat) (xs zs : List (In D)) (hx : Along n sysInit (xs ++ zs)) (hl : zs.length = n + 1)
    (hz : ∀ z, z ∈ zs → z.srRdy = true ∧ z.sar = none ∧ z.mr ≠ none) :
    (run n sysInit xs).2.ans.length < (run n sysInit (xs ++ zs)).2.ans.length := by
  rw [along_append] at hx
  rw [run_append]
  have h := inv_run (y := sysInit) (inv_init n) hx.1
  refine served_aux n _ _ h hx.2 ?_ hl hz
  unfold cnt
  exact Nat.le_trans List.countP_le_length (by simp)

/-! ## Counterexamples -/

def envB (n : Nat) (y : Sys D) (x : In D) : Bool :=
  (match x.mr with | some q => (y.2.mout q.1).isSome | none => true) &&
  (match x.sar with | some q => decide (q.1 < n) | none => true)

def alongB (n : Nat) : Sys D → List (In D) → Bool
  | _, [] => true
  | y, x :: xs => envB n y x && alongB n (sys n y x) xs

theorem envB_env {n : Nat} {y : Sys D} {x : In D} (h : envB n y x = true) : Env n y x := by
  simp only [envB, Bool.and_eq_true] at h
  refine ⟨fun k d hk => ?_, fun k a hk => ?_⟩
  · have := h.1
    rw [hk] at this
    intro e
    simp only [e] at this
    cases this
  · have := h.2
    rw [hk] at this
    simpa using this

theorem alongB_along {n : Nat} {y : Sys D} {xs : List (In D)} (h : alongB n y xs = true) : Along n y xs := by
  induction xs generalizing y with
  | nil => trivial
  | cons x xs ih =>
    simp only [alongB, Bool.and_eq_true] at h
    exact ⟨envB_env h.1, ih h.2⟩

/-- Read of the line 5 with id 0, its answer 7 waits on `s.r`. -/
def staleXs : List (In Nat) := [⟨some (0, 5), true, none, false⟩, ⟨none, true, none, false⟩, ⟨none, true, some (0, 7), false⟩]

/-- C259: the request which is accepted while the answer of an older one waits gets the old data. -/
theorem fresh_fails : ¬ Fresh Nat 2 := by
  intro h
  have := h staleXs ⟨some (1, 5), true, none, false⟩ [⟨none, true, none, false⟩, ⟨none, true, none, true⟩] 1 5 7
    ⟨none, true, none, true⟩ (alongB_along (by decide)) (by decide) (by decide)
  exact absurd this (by decide)

example : Along 2 sysInit staleXs := alongB_along (by decide)

/-- Requests 3 (line 1), and 0, 1, 2, 0, 1 (line 0), the answer for the line 0 is 7. -/
def starveXs : List (In Nat) := [⟨some (3, 1), true, none, true⟩, ⟨some (0, 0), true, none, true⟩, ⟨some (1, 0), true, none, true⟩,
  ⟨some (2, 0), true, some (0, 7), true⟩, ⟨none, true, some (3, 9), true⟩, ⟨some (0, 0), true, some (3, 9), true⟩,
  ⟨some (1, 0), true, some (3, 9), true⟩]

/-- The next id. -/
def nxt (i : Nat) : Nat := if i = 0 then 1 else if i = 1 then 2 else 0

structure Loop (i : Nat) (y : Sys Nat) : Prop where
  lt : i < 3
  reg : y.1.reg = some (i, 7)
  tmp : ∃ M, y.1.tmp = some ⟨nxt i, 0, M⟩ ∧ M 3 = false
  last : y.1.lastIns = some i
  vld : ∀ k, k < 4 → y.1.itemVld k = (k == i || k == 3)
  wait : ∀ k, k < 4 → y.1.wait k = none
  cam : y.1.cam 3 = 1
  mout : y.2.mout 3 = some 1
  pend : y.2.pend 3 = some 1

def loopIn (i : Nat) : In Nat := ⟨some (nxt (nxt i), 0), true, some (3, 9), true⟩

theorem loop_start : Loop 0 (run 4 sysInit starveXs) where
  lt := by decide
  reg := by decide
  tmp := ⟨_, rfl, by decide⟩
  last := by decide
  vld := by decide
  wait := by decide
  cam := by decide
  mout := by decide
  pend := by decide

theorem loop_step {i : Nat} {y : Sys Nat} (h : Loop i y) :
    Env 4 y (loopIn i) ∧ Loop (nxt i) (sys 4 y (loopIn i)) ∧ (sys 4 y (loopIn i)).2.ans = y.2.ans := by
  obtain ⟨hlt, hreg, ⟨M, htmp, hM⟩, hlast, hvld, hwait, hcam, hmout, hpend⟩ := h
  have v0 := hvld 0 (by decide)
  have v1 := hvld 1 (by decide)
  have v2 := hvld 2 (by decide)
  have v3 := hvld 3 (by decide)
  have w0 := hwait 0 (by decide)
  have w1 := hwait 1 (by decide)
  have w2 := hwait 2 (by decide)
  have w3 := hwait 3 (by decide)
  have hi : i = 0 ∨ i = 1 ∨ i = 2 := by omega
  have hpar : parent 4 y.1 = some i := by
    simp only [parent, htmp]
    have : List.range 4 = [0, 1, 2, 3] := rfl
    rw [this]
    rcases hi with rfl | rfl | rfl <;> simp_all [matchRes]
  have hend : ending y.1 (loopIn i) = some i := by simp [ending, loopIn, hreg]
  have hov : copyOvr 4 y.1 (loopIn i) = some (nxt i) := by simp [copyOvr, htmp, hpar, hend]
  have hco : copyId 4 y.1 (loopIn i) = some (nxt i) := by simp [copyId, hov]
  have hack : arAck 4 y.1 (loopIn i) = true := by simp [arAck, htmp, hpar]
  have hbl : blocking y.1 (nxt (nxt i)) = false := by
    rcases hi with rfl | rfl | rfl <;> simp_all [blocking, nxt]
  have htk : take 4 y.1 (loopIn i) = some (nxt (nxt i), 0) := by
    simp [take, loopIn, hbl, htmp]
    exact hack
  have hmr : mrT (loopIn i) (out 4 y.1 (loopIn i)) = none := by simp [mrT, out, hco]
  have hsr : srT (loopIn i) (out 4 y.1 (loopIn i)) = some (i, 7) := by simp [srT, out, hreg, loopIn]
  have hsar : sarT (loopIn i) (out 4 y.1 (loopIn i)) = some (nxt (nxt i), 0) := by rw [← take_sar]; exact htk
  have hmar : marT (loopIn i) (out 4 y.1 (loopIn i)) = none := by simp [marT, out, htmp, hpar]
  refine ⟨?_, ⟨?_, ?_, ⟨fun k => y.1.itemVld k && y.1.cam k == 0, ?_, ?_⟩, ?_, ?_, ?_, ?_, ?_, ?_⟩, ?_⟩
  · apply envB_env
    simp only [envB, loopIn, hmout]
    rcases hi with rfl | rfl | rfl <;> rfl
  · rcases hi with rfl | rfl | rfl <;> decide
  · simp [sys, next, hreg, loopIn]
    simp [loopIn] at hco
    simp [hco]
  · simp only [sys, next, htk]
  · simp [hcam]
  · simp only [sys, next, htmp, loopIn, hbl]; rfl
  · intro k hk
    simp only [sys, next, htmp, hov, hack, hend]
    have : k = 0 ∨ k = 1 ∨ k = 2 ∨ k = 3 := by omega
    rcases hi with rfl | rfl | rfl <;> rcases this with rfl | rfl | rfl | rfl <;> simp_all [nxt]
  · intro k hk
    simp only [sys, next, htmp, hack, hpar, hend, hwait k hk]
    split
    · next e => simp at e
    · split <;> rfl
  · simp only [sys, next, htmp, upd_eq]
    rcases hi with rfl | rfl | rfl <;> simp [nxt, hcam]
  · simp only [sys, Obs.step, hmar, hmr, setOpt, clrOpt]; exact hmout
  · simp only [sys, Obs.step, hsr, hsar, setOpt, clrOpt, upd_eq]
    rcases hi with rfl | rfl | rfl <;> simp [nxt, hpend]
  · simp only [sys, Obs.step, hmr]

theorem loop_run (m : Nat) : ∀ (i : Nat) (y : Sys Nat), Loop i y → ∃ zs, zs.length = m ∧ Along 4 y zs ∧
    (∀ z, z ∈ zs → z.srRdy = true ∧ z.marRdy = true ∧ z.mr = some (3, 9)) ∧
    (run 4 y zs).2.ans = y.2.ans ∧ ∃ i', Loop i' (run 4 y zs) := by
  induction m with
  | zero => intro i y h; exact ⟨[], rfl, trivial, by simp, rfl, i, h⟩
  | succ m ih =>
    intro i y h
    obtain ⟨he, hl, ha⟩ := loop_step h
    obtain ⟨zs, h1, h2, h3, h4, h5⟩ := ih _ _ hl
    refine ⟨loopIn i :: zs, by simp [h1], ⟨he, h2⟩, ?_, ?_, h5⟩
    · intro z hz
      rcases List.mem_cons.mp hz with e | e
      · rw [e]; exact ⟨rfl, rfl, rfl⟩
      · exact h3 z e
    · exact h4.trans ha

/-- C260: the memory offers the answer for the request 3 and all outputs are accepted, but the answer is not taken for any number of clock
cycles: requests for the other line are answered with copies of one word which was read once. -/
theorem starves (m : Nat) : ∃ zs, zs.length = m ∧ Along 4 sysInit (starveXs ++ zs) ∧
    (∀ z, z ∈ zs → z.srRdy = true ∧ z.marRdy = true ∧ z.mr = some (3, 9)) ∧
    (run 4 sysInit (starveXs ++ zs)).2.ans = (run 4 sysInit starveXs).2.ans ∧
    (run 4 sysInit (starveXs ++ zs)).2.pend 3 = some 1 ∧
    ∀ x', ∃ k, (out 4 (run 4 sysInit (starveXs ++ zs)).1 x').sr = some (k, 7) := by
  obtain ⟨zs, h1, h2, h3, h4, i, h5⟩ := loop_run m 0 _ loop_start
  refine ⟨zs, h1, along_append.mpr ⟨alongB_along (by decide), h2⟩, h3, ?_, ?_, ?_⟩
  · rw [run_append]; exact h4
  · rw [run_append]; exact h5.pend
  · rw [run_append]; exact fun _ => ⟨i, h5.reg⟩

theorem served_fails : ¬ Served Nat 4 := by
  rintro ⟨N, h⟩
  obtain ⟨zs, h1, h2, h3, h4, _, _⟩ := starves N
  have := h starveXs zs h2 h1 (fun z hz => ⟨(h3 z hz).1, (h3 z hz).2.1, by rw [(h3 z hz).2.2]; simp⟩)
  rw [h4] at this
  exact Nat.lt_irrefl _ this

/-! ## The hypotheses are met -/

/-- An answer, and a request accepted in the same clock cycle. -/
example : Along 4 sysInit starveXs ∧ (out 4 (run 4 sysInit starveXs).1 (loopIn 0)).sr = some (0, 7) ∧
    (run 4 sysInit starveXs).2.pend 0 = some 0 ∧ (0, 7) ∈ (run 4 sysInit starveXs).2.ans ∧
    sarT (loopIn 0) (out 4 (run 4 sysInit starveXs).1 (loopIn 0)) = some (2, 0) :=
  ⟨alongB_along (by decide), by decide, by decide, by decide, by decide⟩

/-- A read is offered, one read of another line is in progress, `m.ar` is not ready. -/
example : (out 4 (run 4 sysInit (starveXs.take 2)).1 ⟨none, false, none, true⟩).mar = some (0, 0) ∧
    (run 4 sysInit (starveXs.take 2)).2.mout 3 = some 1 ∧ Along 4 sysInit (starveXs.take 2) :=
  ⟨by decide, by decide, alongB_along (by decide)⟩

/-- Two requests for one line, one read. -/
example : (run 4 sysInit (starveXs.take 4)).2.pend 0 = some 0 ∧ (run 4 sysInit (starveXs.take 4)).2.pend 1 = some 0 ∧
    (run 4 sysInit (starveXs.take 4)).2.mout 0 = none ∧ (run 4 sysInit (starveXs.take 4)).2.mout 1 = none ∧
    (run 4 sysInit (starveXs.take 4)).2.mout 3 = some 1 := by decide

/-- `fresh_partial`: the line 5 is free at the beginning. -/
example : Along 2 sysInit ([] ++ staleXs) ∧ (run 2 sysInit ([] ++ staleXs)).2.pend 0 = some 5 ∧
    (out 2 (run 2 sysInit ([] ++ staleXs)).1 ⟨none, true, none, true⟩).sr = some (0, 7) :=
  ⟨alongB_along (by decide), by decide, by decide⟩

/-- `served_partial`: the answer is taken after the older ones are sent. -/
example : Along 2 sysInit ([⟨some (0, 5), true, none, true⟩, ⟨some (1, 6), true, none, true⟩, ⟨none, true, some (0, 7), true⟩] ++
      [⟨none, true, some (1, 8), true⟩]) ∧
    (run 2 sysInit [⟨some (0, 5), true, none, true⟩, ⟨some (1, 6), true, none, true⟩, ⟨none, true, some (0, 7), true⟩,
      (⟨none, true, some (1, 8), true⟩ : In Nat)]).2.ans = [(6, 8), (5, 7)] :=
  ⟨alongB_along (by decide), by decide⟩

end Verif.ReadAgg
