import Verif.FrameJoinFsm

/-!
# Transitions of `Axi4S_FrameJoin`: C319

The property is about the register contents: the table is accepted exactly if no content of the input registers enables two
transitions of a state, and then all outputs come from the same transition.
-/

namespace Verif.FrameJoinFsm

/-- `ns` numbers of registers of inputs, `wb` bytes in the register -/
def PatShape (wb : Nat) (ns : List Nat) (x : List (List RegPat)) : Prop :=
  x.map List.length = ns ∧ ∀ l ∈ x, ∀ p ∈ l, p.keep.length = wb

def ValShape (wb : Nat) (ns : List Nat) (x : List (List RegVal)) : Prop :=
  x.map List.length = ns ∧ ∀ l ∈ x, ∀ p ∈ l, p.keep.length = wb

theorem bit_excl {a b : Option Bool} (h : bitDiff a b = true) (v : Bool) : ¬ (bitOk a v = true ∧ bitOk b v = true) := by
  cases a with
  | none => simp [bitDiff] at h
  | some a =>
    cases b with
    | none => simp [bitDiff] at h
    | some b => cases a <;> cases b <;> cases v <;> simp_all [bitDiff, bitOk]

/-- value of a bit allowed by both, if there is one -/
def mergeBit (a b : Option Bool) : Bool := a.getD (b.getD false)

theorem merge_left (a b : Option Bool) : bitOk a (mergeBit a b) = true := by
  cases a <;> simp [bitOk, mergeBit]

theorem merge_right {a b : Option Bool} (h : bitDiff a b = false) : bitOk b (mergeBit a b) = true := by
  cases a <;> cases b <;> revert h <;> simp [bitOk, bitDiff, mergeBit]
  intro h; exact h.symm

theorem bits_excl : ∀ (a b : List (Option Bool)) (v : List Bool), a.length = v.length →
    (a.zip b).any (fun p => bitDiff p.1 p.2) = true →
    ¬ ((a.zip v).all (fun q => bitOk q.1 q.2) = true ∧ (b.zip v).all (fun q => bitOk q.1 q.2) = true) := by
  intro a
  induction a with
  | nil => intro b v _ h; simp at h
  | cons x a ih =>
    intro b v hl h
    cases b with
    | nil => simp at h
    | cons y b =>
      cases v with
      | nil => simp at hl
      | cons z v =>
        simp only [List.zip_cons_cons, List.any_cons, Bool.or_eq_true] at h
        simp only [List.zip_cons_cons, List.all_cons, Bool.and_eq_true]
        rcases h with h | h
        · exact fun g => bit_excl h z ⟨g.1.1, g.2.1⟩
        · exact fun g => ih b v (by simpa using hl) h ⟨g.1.2, g.2.2⟩

theorem pat_excl {a b : RegPat} {v : RegVal} (hl : a.keep.length = v.keep.length) (h : a.differ b = true) : ¬ (a.ok v = true ∧ b.ok v = true) := by
  simp only [RegPat.differ, Bool.or_eq_true] at h
  simp only [RegPat.ok, Bool.and_eq_true]
  rintro ⟨⟨⟨a1, a2⟩, a3⟩, ⟨b1, b2⟩, b3⟩
  rcases h with (h | h) | h
  · exact bits_excl _ _ _ hl h ⟨a1, b1⟩
  · exact bit_excl h _ ⟨a3, b3⟩
  · exact bit_excl h _ ⟨a2, b2⟩

/-- exclusion in lists, pointwise -/
theorem zip_excl {α β : Type} {d : α → α → Bool} {ok : α → β → Bool} (P : α → β → Prop)
    (hex : ∀ a b v, P a v → d a b = true → ¬ (ok a v = true ∧ ok b v = true)) : ∀ (a b : List α) (v : List β), a.length = v.length →
    (∀ q ∈ a.zip v, P q.1 q.2) → (a.zip b).any (fun p => d p.1 p.2) = true →
    ¬ ((a.zip v).all (fun q => ok q.1 q.2) = true ∧ (b.zip v).all (fun q => ok q.1 q.2) = true) := by
  intro a
  induction a with
  | nil => intro b v _ _ h; simp at h
  | cons x a ih =>
    intro b v hl hp h
    cases b with
    | nil => simp at h
    | cons y b =>
      cases v with
      | nil => simp at hl
      | cons z v =>
        simp only [List.zip_cons_cons, List.any_cons, Bool.or_eq_true] at h
        simp only [List.zip_cons_cons, List.all_cons, Bool.and_eq_true]
        rcases h with h | h
        · exact fun g => hex _ _ _ (hp (x, z) (by simp)) h ⟨g.1.1, g.2.1⟩
        · exact fun g => ih b v (by simpa using hl) (fun q hq => hp q (by simp [hq])) h ⟨g.1.2, g.2.2⟩

theorem mem_zip_of {α β : Type} {a : List α} {v : List β} {q : α × β} (h : q ∈ a.zip v) : q.1 ∈ a ∧ q.2 ∈ v :=
  ⟨(List.of_mem_zip h).1, (List.of_mem_zip h).2⟩

theorem zip_lengths {α β : Type} {f : α → Nat} {g : β → Nat} : ∀ {a : List α} {v : List β}, a.map f = v.map g →
    ∀ q ∈ a.zip v, f q.1 = g q.2 := by
  intro a
  induction a with
  | nil => intro v _ q hq; simp at hq
  | cons x a ih =>
    intro v h q hq
    cases v with
    | nil => simp at hq
    | cons z v =>
      simp only [List.map_cons, List.cons.injEq] at h
      simp only [List.zip_cons_cons, List.mem_cons] at hq
      rcases hq with rfl | hq
      · exact h.1
      · exact ih h.2 q hq

/-- two transitions which differ are not enabled at once -/
theorem trans_excl {wb : Nat} {ns : List Nat} {a b : Trans} {regs : List (List RegVal)} (ha : PatShape wb ns a.input)
    (hr : ValShape wb ns regs) (h : a.differ b = true) : ¬ (a.cond regs = true ∧ b.cond regs = true) := by
  have hm : a.input.map List.length = regs.map List.length := ha.1.trans hr.1.symm
  refine zip_excl (d := fun (x y : List RegPat) => (x.zip y).any fun q => q.1.differ q.2) (ok := fun (x : List RegPat) (y : List RegVal) => (x.zip y).all fun q => q.1.ok q.2)
    (fun x v => x.length = v.length ∧ (∀ p ∈ x, p.keep.length = wb) ∧ (∀ p ∈ v, p.keep.length = wb)) ?_ a.input b.input regs
    (by simpa using congrArg List.length hm) ?_ h
  · intro x y v hp hd
    refine zip_excl (d := RegPat.differ) (ok := RegPat.ok) (fun p r => p.keep.length = r.keep.length) (fun _ _ _ hl hd => pat_excl hl hd)
      x y v hp.1 ?_ hd
    intro q hq
    exact (hp.2.1 _ (mem_zip_of hq).1).trans (hp.2.2 _ (mem_zip_of hq).2).symm
  · intro q hq
    exact ⟨zip_lengths hm q hq, ha.2 _ (mem_zip_of hq).1, hr.2 _ (mem_zip_of hq).2⟩

/-! ### the other direction: a common content -/

def mergePat (p : RegPat × RegPat) : RegVal where
  keep := (p.1.keep.zip p.2.keep).map fun q => mergeBit q.1 q.2
  relict := mergeBit p.1.relict p.2.relict
  last := mergeBit p.1.last p.2.last

/-- acceptance in lists, pointwise -/
theorem zip_merge {α β : Type} {d : α → α → Bool} {ok : α → β → Bool} {m : α × α → β} (P : α → α → Prop)
    (hl : ∀ a b, P a b → d a b = false → ok a (m (a, b)) = true ∧ ok b (m (a, b)) = true) : ∀ (a b : List α),
    (∀ q ∈ a.zip b, P q.1 q.2) → (a.zip b).any (fun p => d p.1 p.2) = false →
    (a.zip ((a.zip b).map m)).all (fun q => ok q.1 q.2) = true ∧ (b.zip ((a.zip b).map m)).all (fun q => ok q.1 q.2) = true := by
  intro a
  induction a with
  | nil => intro b _ _; simp
  | cons x a ih =>
    intro b hp h
    cases b with
    | nil => simp
    | cons y b =>
      simp only [List.zip_cons_cons, List.any_cons, Bool.or_eq_false_iff] at h
      simp only [List.zip_cons_cons, List.map_cons, List.all_cons, Bool.and_eq_true]
      have h1 := hl x y (hp (x, y) (by simp)) h.1
      have h2 := ih b (fun q hq => hp q (by simp [hq])) h.2
      exact ⟨⟨h1.1, h2.1⟩, h1.2, h2.2⟩

theorem pat_merge {a b : RegPat} (h : a.differ b = false) : a.ok (mergePat (a, b)) = true ∧ b.ok (mergePat (a, b)) = true := by
  simp only [RegPat.differ, Bool.or_eq_false_iff] at h
  have hk := zip_merge (d := bitDiff) (ok := bitOk) (m := fun q => mergeBit q.1 q.2) (fun _ _ => True)
    (fun x y _ hd => ⟨merge_left x y, merge_right hd⟩) a.keep b.keep (fun _ _ => trivial) h.1.1
  simp only [RegPat.ok, mergePat, Bool.and_eq_true]
  exact ⟨⟨⟨hk.1, merge_left _ _⟩, merge_left _ _⟩, ⟨hk.2, merge_right h.2⟩, merge_right h.1.2⟩

def mergeTrans (a b : Trans) : List (List RegVal) := (a.input.zip b.input).map fun q => (q.1.zip q.2).map mergePat

theorem trans_merge {a b : Trans} (h : a.differ b = false) : a.cond (mergeTrans a b) = true ∧ b.cond (mergeTrans a b) = true :=
  zip_merge (d := fun (x y : List RegPat) => (x.zip y).any fun q => q.1.differ q.2) (ok := fun (x : List RegPat) (y : List RegVal) => (x.zip y).all fun q => q.1.ok q.2)
    (m := fun q => (q.1.zip q.2).map mergePat) (fun _ _ => True)
    (fun x y _ hd => zip_merge (d := RegPat.differ) (ok := RegPat.ok) (m := mergePat) (fun _ _ => True)
      (fun _ _ _ hd => pat_merge hd) x y (fun _ _ => trivial) hd) a.input b.input (fun _ _ => trivial) h

theorem merge_shape {wb : Nat} {ns : List Nat} {a b : Trans} (ha : PatShape wb ns a.input) (hb : PatShape wb ns b.input) :
    ValShape wb ns (mergeTrans a b) := by
  have hm : a.input.map List.length = b.input.map List.length := ha.1.trans hb.1.symm
  constructor
  · rw [← ha.1]
    unfold mergeTrans
    generalize a.input = x at hm
    generalize b.input = y at hm
    clear ha hb
    induction x generalizing y with
    | nil => simp
    | cons p x ih =>
      cases y with
      | nil => simp at hm
      | cons q y =>
        simp only [List.map_cons, List.cons.injEq] at hm
        simp only [List.zip_cons_cons, List.map_cons, List.length_map, List.length_zip, List.cons.injEq]
        exact ⟨by omega, by simpa using ih y hm.2⟩
  · intro l hl p hp
    unfold mergeTrans at hl
    rw [List.mem_map] at hl
    obtain ⟨q, hq, rfl⟩ := hl
    rw [List.mem_map] at hp
    obtain ⟨r, hr, rfl⟩ := hp
    have h1 := ha.2 _ (mem_zip_of hq).1 _ (mem_zip_of hr).1
    have h2 := hb.2 _ (mem_zip_of hq).2 _ (mem_zip_of hr).2
    simp [mergePat, h1, h2]

/-- **C319** `assert_transitions_deterministic` accepts the table if and only if no content of registers enables two transitions
of the same state -/
theorem det_iff {wb : Nat} {ns : List Nat} (tt : List (List Trans)) (hs : ∀ ts ∈ tt, ∀ t ∈ ts, PatShape wb ns t.input) :
    deterministic tt = true ↔ ∀ regs, ValShape wb ns regs → ∀ ts ∈ tt,
      ts.Pairwise fun a b => ¬ (a.cond regs = true ∧ b.cond regs = true) := by
  have hp : ∀ ts : List Trans, (∀ t ∈ ts, PatShape wb ns t.input) →
      (pairsDiffer ts = true ↔ ∀ regs, ValShape wb ns regs → ts.Pairwise fun a b => ¬ (a.cond regs = true ∧ b.cond regs = true)) := by
    intro ts
    induction ts with
    | nil => intro _; simp [pairsDiffer]
    | cons t ts ih =>
      intro hs
      simp only [pairsDiffer, Bool.and_eq_true, List.pairwise_cons]
      rw [ih fun x hx => hs x (List.mem_cons_of_mem _ hx)]
      constructor
      · intro h regs hr
        exact ⟨fun b hb => trans_excl (hs t List.mem_cons_self) hr (List.all_eq_true.1 h.1 b hb), h.2 regs hr⟩
      · intro h
        refine ⟨List.all_eq_true.2 fun b hb => ?_, fun regs hr => (h regs hr).2⟩
        cases hd : t.differ b with
        | true => rfl
        | false =>
          exact absurd (trans_merge hd) ((h _ (merge_shape (hs t List.mem_cons_self) (hs b (List.mem_cons_of_mem _ hb)))).1 b hb)
  unfold deterministic
  rw [List.all_eq_true]
  constructor
  · intro h regs hr ts hts
    exact (hp ts (hs ts hts)).1 (h ts hts) regs hr
  · intro h ts hts
    exact (hp ts (hs ts hts)).2 fun regs hr => h regs hr ts hts

/-! ### outputs -/

section drive
variable {V : Type} [DecidableEq V]

/-- the case of a value holds if one of its transitions holds -/
theorem addCond_mem (k : V) (c : Bool) : ∀ (l : List (V × List Bool)) (p : V × Bool),
    p ∈ (addCond k c l).map (fun p => (p.1, p.2.any id)) → p.2 = true →
    (p.1 = k ∧ c = true) ∨ p ∈ l.map (fun p => (p.1, p.2.any id)) := by
  intro l
  induction l with
  | nil =>
    intro p hp ht
    simp only [addCond, List.map_cons, List.map_nil, List.mem_singleton] at hp
    subst hp
    simp only [List.any_cons, List.any_nil, Bool.or_false, id] at ht
    exact .inl ⟨rfl, ht⟩
  | cons x l ih =>
    intro p hp ht
    unfold addCond at hp
    split at hp
    · rename_i hk
      simp only [List.map_cons, List.mem_cons] at hp
      rcases hp with rfl | hp
      · simp only [List.any_append, List.any_cons, List.any_nil, Bool.or_false, id, Bool.or_eq_true] at ht
        rcases ht with ht | ht
        · exact .inr (by simp [ht])
        · exact .inl ⟨hk, ht⟩
      · exact .inr (List.mem_cons_of_mem _ hp)
    · simp only [List.map_cons, List.mem_cons] at hp
      rcases hp with rfl | hp
      · exact .inr List.mem_cons_self
      · rcases ih p hp ht with h | h
        · exact .inl h
        · exact .inr (List.mem_cons_of_mem _ h)

theorem addCond_has (k : V) : ∀ (l : List (V × List Bool)), (k, true) ∈ (addCond k true l).map (fun p => (p.1, p.2.any id)) := by
  intro l
  induction l with
  | nil => simp [addCond]
  | cons x l ih =>
    unfold addCond
    split
    · rename_i hk; simp [hk]
    · exact List.mem_cons_of_mem _ ih

theorem addCond_keep (k : V) (c : Bool) (v : V) : ∀ (l : List (V × List Bool)), (v, true) ∈ l.map (fun p => (p.1, p.2.any id)) →
    (v, true) ∈ (addCond k c l).map (fun p => (p.1, p.2.any id)) := by
  intro l
  induction l with
  | nil => simp
  | cons x l ih =>
    intro h
    unfold addCond
    simp only [List.map_cons, List.mem_cons] at h
    split
    · rw [List.map_cons, List.mem_cons]
      rcases h with h | h
      · left
        injection h with h1 h2
        simp [← h1, ← h2]
      · exact .inr h
    · rw [List.map_cons, List.mem_cons]
      exact h.imp id ih

theorem conds_sound (key : Trans → V) (regs : List (List RegVal)) : ∀ (ts : List Trans) (l : List (V × List Bool)) (p : V × Bool),
    p ∈ (ts.foldl (fun l t => addCond (key t) (t.cond regs) l) l).map (fun p => (p.1, p.2.any id)) → p.2 = true →
    (∃ t ∈ ts, p.1 = key t ∧ t.cond regs = true) ∨ p ∈ l.map (fun p => (p.1, p.2.any id)) := by
  intro ts
  induction ts with
  | nil => intro l p hp _; exact .inr hp
  | cons t ts ih =>
    intro l p hp ht
    rcases ih _ p hp ht with ⟨u, hu, h⟩ | h
    · exact .inl ⟨u, List.mem_cons_of_mem _ hu, h⟩
    · rcases addCond_mem _ _ _ p h ht with h | h
      · exact .inl ⟨t, List.mem_cons_self, h⟩
      · exact .inr h

theorem conds_keep (key : Trans → V) (regs : List (List RegVal)) (v : V) : ∀ (ts : List Trans) (l : List (V × List Bool)),
    (v, true) ∈ l.map (fun p => (p.1, p.2.any id)) →
    (v, true) ∈ (ts.foldl (fun l t => addCond (key t) (t.cond regs) l) l).map (fun p => (p.1, p.2.any id)) := by
  intro ts
  induction ts with
  | nil => intro l h; exact h
  | cons t ts ih => intro l h; exact ih _ (addCond_keep _ _ _ _ h)

theorem conds_complete (key : Trans → V) (regs : List (List RegVal)) : ∀ (ts : List Trans) (l : List (V × List Bool)) (t : Trans),
    t ∈ ts → t.cond regs = true →
    (key t, true) ∈ (ts.foldl (fun l t => addCond (key t) (t.cond regs) l) l).map (fun p => (p.1, p.2.any id)) := by
  intro ts
  induction ts with
  | nil => intro _ _ h; simp at h
  | cons x ts ih =>
    intro l t ht hc
    rcases List.mem_cons.1 ht with rfl | ht
    · refine conds_keep key regs _ ts _ ?_
      show (key t, true) ∈ (addCond (key t) (t.cond regs) l).map _
      rw [hc]; exact addCond_has _ _
    · exact ih _ t ht hc

theorem find_some {α : Type} {p : α → Bool} : ∀ {l : List α} {a : α}, l.find? p = some a → a ∈ l ∧ p a = true :=
  fun h => ⟨List.mem_of_find?_eq_some h, List.find?_some h⟩

/-- nothing is enabled: the default value -/
theorem drive_none (key : Trans → V) (regs : List (List RegVal)) (ts : List Trans) (h : ∀ t ∈ ts, t.cond regs = false) :
    drive key regs ts = none := by
  unfold drive
  rw [Option.map_eq_none_iff]
  cases hf : (valueConds key regs ts).find? Prod.snd with
  | none => rfl
  | some p =>
    obtain ⟨h1, h2⟩ := find_some hf
    rcases conds_sound key regs ts [] p h1 h2 with ⟨t, ht, -, hc⟩ | h
    · rw [h t ht] at hc; cases hc
    · simp at h

/-- exactly one transition is enabled: its value -/
theorem drive_eq (key : Trans → V) (regs : List (List RegVal)) (ts : List Trans) (t : Trans) (ht : t ∈ ts) (hc : t.cond regs = true)
    (hu : ∀ u ∈ ts, u.cond regs = true → u = t) : drive key regs ts = some (key t) := by
  have hm := conds_complete key regs ts [] t ht hc
  unfold drive
  cases hf : (valueConds key regs ts).find? Prod.snd with
  | none =>
    have := List.find?_eq_none.1 hf _ hm
    simp at this
  | some p =>
    obtain ⟨h1, h2⟩ := find_some hf
    rcases conds_sound key regs ts [] p h1 h2 with ⟨u, hu', e, hc'⟩ | h
    · rw [Option.map_some, e, hu u hu' hc']
    · simp at h

end drive

theorem pairwise_unique {regs : List (List RegVal)} : ∀ {ts : List Trans} {t : Trans},
    ts.Pairwise (fun a b => ¬ (a.cond regs = true ∧ b.cond regs = true)) → t ∈ ts → t.cond regs = true →
    ∀ u ∈ ts, u.cond regs = true → u = t := by
  intro ts
  induction ts with
  | nil => intro t _ h; simp at h
  | cons x ts ih =>
    intro t hp ht hc u hu huc
    rw [List.pairwise_cons] at hp
    rcases List.mem_cons.1 ht with e1 | ht' <;> rcases List.mem_cons.1 hu with e2 | hu'
    · rw [e1, e2]
    · subst e1; exact absurd ⟨hc, huc⟩ (hp.1 u hu')
    · subst e2; exact absurd ⟨huc, hc⟩ (hp.1 t ht')
    · exact ih hp.2 ht' hc u hu' huc

/-- **C319** in an accepted table all outputs and the next state are those of the enabled transition `t` -/
theorem outputs_consistent {wb : Nat} {ns : List Nat} {tt : List (List Trans)} (hs : ∀ ts ∈ tt, ∀ t ∈ ts, PatShape wb ns t.input)
    (hd : deterministic tt = true) {regs : List (List RegVal)} (hr : ValShape wb ns regs) {st : Nat} (hst : st < tt.length) {t : Trans}
    (ht : t ∈ tt.getD st []) (hc : t.cond regs = true) (rdy : Bool) :
    outs wb ns (tt.getD st []) regs =
      { valid := t.mux.any Option.isSome || t.rd.all id
        keep := some t.outKeep
        last := some t.last
        mux := (List.range wb).map fun b => some (t.mux.getD b none)
        rd := (List.range ns.length).map fun i => t.rd.getD i false
        masks := (List.range ns.length).map fun i => (List.range (ns.getD i 0)).map fun r => (t.keepMask.getD i []).getD r [] } ∧
    nextState (tt.getD st []) regs rdy st = if rdy then t.next else st := by
  have hmem : tt.getD st [] ∈ tt := by
    rw [List.getD_eq_getElem?_getD, List.getElem?_eq_getElem hst]; exact List.getElem_mem hst
  have hu := pairwise_unique ((det_iff tt hs).1 hd regs hr _ hmem) ht hc
  have hdr : ∀ {V : Type} [DecidableEq V] (key : Trans → V), drive key regs (tt.getD st []) = some (key t) :=
    fun key => drive_eq key regs _ t ht hc hu
  constructor
  · unfold outs
    simp only [hdr, Option.getD_some]
  · unfold nextState
    rw [hdr, Option.getD_some]

/-- **C319** if no transition is enabled nothing is sent, nothing is consumed and the state is kept -/
theorem outputs_idle (wb : Nat) (ns : List Nat) (ts : List Trans) (regs : List (List RegVal)) (h : ∀ t ∈ ts, t.cond regs = false)
    (rdy : Bool) (st : Nat) :
    (outs wb ns ts regs).valid = false ∧ (∀ r ∈ (outs wb ns ts regs).rd, r = false) ∧ nextState ts regs rdy st = st := by
  have hdr : ∀ {V : Type} [DecidableEq V] (key : Trans → V), drive key regs ts = none := fun key => drive_none key regs ts h
  refine ⟨?_, ?_, ?_⟩
  · show (drive _ _ _).getD false = false
    rw [hdr]; rfl
  · intro r hr
    have e : (outs wb ns ts regs).rd = (List.range ns.length).map fun i => (drive (fun t => t.rd.getD i false) regs ts).getD false := rfl
    rw [e, List.mem_map] at hr
    obtain ⟨i, -, rfl⟩ := hr
    rw [hdr]; rfl
  · unfold nextState
    rw [hdr]
    cases rdy <;> rfl

/-- the order of transitions of an accepted table is not observable -/
theorem drive_perm {V : Type} [DecidableEq V] (key : Trans → V) (regs : List (List RegVal)) (ts ts' : List Trans)
    (hp : ∀ t, t ∈ ts ↔ t ∈ ts') (hu : ts.Pairwise fun a b => ¬ (a.cond regs = true ∧ b.cond regs = true)) :
    drive key regs ts = drive key regs ts' := by
  by_cases h : ∃ t ∈ ts, t.cond regs = true
  · obtain ⟨t, ht, hc⟩ := h
    have hun := pairwise_unique hu ht hc
    rw [drive_eq key regs ts t ht hc hun, drive_eq key regs ts' t ((hp t).1 ht) hc fun u hu' huc => hun u ((hp u).2 hu') huc]
  · have h1 : ∀ t ∈ ts, t.cond regs = false := fun t ht => by
      cases hc : t.cond regs with
      | false => rfl
      | true => exact absurd ⟨t, ht, hc⟩ h
    rw [drive_none key regs ts h1, drive_none key regs ts' fun t ht => h1 t ((hp t).2 ht)]

/-- two streams of bytes in words of 2 bytes: the table is accepted -/
def exTable : List Nat × List (List Trans) := (table 2 [⟨1, 1, none, [0]⟩, ⟨2, 1, some 1, [0]⟩] 0).getD ([], [])

example : (deterministic exTable.2, exTable.2.map List.length) = (true, [3, 2]) := by decide

end Verif.FrameJoinFsm
