import Verif.TypeSep
/-!
# C382: split of a type on the specified fields
-/
namespace Verif.TypeSep

theorem leavesF_append (p : List Nat) : ∀ (a b : Fs), leavesF (a.append b) p = leavesF a p ++ leavesF b p
  | .nil, b => by simp [Fs.append, leavesF]
  | .cons n t a, b => by
    rw [Fs.append, leavesF, leavesF, leavesF_append p a b, List.append_assoc]

theorem isNil_leaves {l : Fs} (h : l.isNil = true) (p : List Nat) : leavesF l p = [] := by
  cases l with
  | nil => rfl
  | cons => cases h

/-- items of all pieces -/
def all (ps : List (Bool × Ty)) (p : List Nat) : List (List Nat × Nat) := ps.flatMap fun x => leaves x.2 p

theorem all_append (a b : List (Bool × Ty)) (p : List Nat) : all (a ++ b) p = all a p ++ all b p := by
  unfold all; rw [List.flatMap_append]

theorem all_cons (x : Bool × Ty) (b : List (Bool × Ty)) (p : List Nat) : all (x :: b) p = leaves x.2 p ++ all b p := rfl

theorem flush_all (l : Fs) (p : List Nat) : all (if l.isNil then [] else [(false, .struct l)]) p = leavesF l p := by
  cases h : l.isNil with
  | true => simp [all, isNil_leaves h p]
  | false => simp [all, leaves]

theorem stepPieces_leaves (n : Nat) (p : List Nat) : ∀ (ps : List (Bool × Ty)) (l : Fs),
    all (stepPieces n ps l).1 p ++ leavesF (stepPieces n ps l).2 p = leavesF l p ++ all ps (p ++ [n]) := by
  intro ps
  induction ps with
  | nil => intro l; simp [stepPieces, all]
  | cons x ps ih =>
    intro l
    obtain ⟨b, t⟩ := x
    cases b with
    | true =>
      rw [stepPieces]
      simp only
      rw [all_append, flush_all, all_cons, all_cons, List.append_assoc, List.append_assoc, ih .nil]
      simp [leaves, leavesF]
    | false =>
      rw [stepPieces, ih, leavesF_append, all_cons]
      simp [leavesF]

mutual
theorem sep_leaves (q : Ty → Bool) (p : List Nat) : ∀ t, all (sep q t) p = leaves t p
  | .prim k => by
    rw [sep]; split <;> simp [all]
  | .struct fs => by
    rw [sep]
    split
    · simp [all]
    · simp only
      split
      · rw [all_append, flush_all, sepFields_leaves q p fs .nil]; rfl
      · simp [all]
theorem sepFields_leaves (q : Ty → Bool) (p : List Nat) : ∀ fs l,
    all (sepFields q fs l).1 p ++ leavesF (sepFields q fs l).2 p = leavesF l p ++ leavesF fs p
  | .nil, l => by simp [sepFields, all, leavesF]
  | .cons n t fs, l => by
    rw [sepFields]
    simp only
    rw [all_append, List.append_assoc, sepFields_leaves q p fs, ← List.append_assoc, stepPieces_leaves, leavesF,
      sep_leaves q (p ++ [n]) t, List.append_assoc]
end

/-- **C382** Each item of the type is in exactly one piece, with the same path; the order of the items is kept. -/
theorem sep_complete (q : Ty → Bool) (t : Ty) :
    (sep q t).flatMap (fun x => leaves x.2 []) = leaves t [] := sep_leaves q [] t

/-! ## the pieces marked for separation -/

theorem noSepF_append (q : Ty → Bool) : ∀ (a b : Fs), NoSepF q a → NoSepF q b → NoSepF q (a.append b)
  | .nil, _, _, h => h
  | .cons _ _ a, b, h1, h2 => ⟨h1.1, noSepF_append q a b h1.2 h2⟩

/-- a piece is marked right -/
def Right (q : Ty → Bool) (x : Bool × Ty) : Prop := if x.1 = true then Single q x.2 else NoSep q x.2

theorem stepPieces_right (q : Ty → Bool) (n : Nat) : ∀ (ps : List (Bool × Ty)) (l : Fs), (∀ x ∈ ps, Right q x) → NoSepF q l →
    (∀ x ∈ (stepPieces n ps l).1, Right q x) ∧ NoSepF q (stepPieces n ps l).2 := by
  intro ps
  induction ps with
  | nil => intro l _ hl; exact ⟨by simp [stepPieces], hl⟩
  | cons x ps ih =>
    intro l h hl
    obtain ⟨b, t⟩ := x
    have hx := h (b, t) List.mem_cons_self
    have hr : ∀ x ∈ ps, Right q x := fun x hx => h x (List.mem_cons_of_mem _ hx)
    cases b with
    | true =>
      rw [stepPieces]
      simp only
      obtain ⟨i1, i2⟩ := ih .nil hr trivial
      refine ⟨?_, i2⟩
      intro y hy
      rcases List.mem_append.1 hy with hy | hy
      · split at hy
        · cases hy
        · rw [List.mem_singleton] at hy; subst hy; exact hl
      · rcases List.mem_cons.1 hy with e | hy
        · subst e; exact Single.field hx
        · exact i1 y hy
    | false =>
      rw [stepPieces]
      exact ih _ hr (noSepF_append q l _ hl ⟨hx, trivial⟩)

/-- no piece is marked: nothing was separated -/
theorem stepPieces_none (n : Nat) : ∀ (ps : List (Bool × Ty)) (l : Fs),
    (stepPieces n ps l).1.any Prod.fst = ps.any Prod.fst := by
  intro ps
  induction ps with
  | nil => intro l; rfl
  | cons x ps ih =>
    intro l
    obtain ⟨b, t⟩ := x
    cases b with
    | true => rw [stepPieces]; simp
    | false => rw [stepPieces, ih]; simp

mutual
theorem sep_right (q : Ty → Bool) (hq : ∀ fs, q (.struct fs) = false) : ∀ t, ∀ x ∈ sep q t, Right q x
  | .prim k => by
    intro x hx
    rw [sep] at hx
    split at hx
    · next h => rw [List.mem_singleton] at hx; subst hx; exact Single.here h
    · next h => rw [List.mem_singleton] at hx; subst hx; simpa [Right, NoSep] using h
  | .struct fs => by
    intro x hx
    rw [sep, hq fs] at hx
    simp only [Bool.false_eq_true, if_false] at hx
    obtain ⟨h1, h2, h3⟩ := sepFields_right q hq fs .nil trivial
    split at hx
    · rcases List.mem_append.1 hx with h | h
      · exact h1 x h
      · split at h
        · cases h
        · rw [List.mem_singleton] at h; subst h; exact h2
    · next h =>
      rw [List.mem_singleton] at hx
      subst hx
      exact h3 (by simpa using h)
theorem sepFields_right (q : Ty → Bool) (hq : ∀ fs, q (.struct fs) = false) : ∀ fs l, NoSepF q l →
    (∀ x ∈ (sepFields q fs l).1, Right q x) ∧ NoSepF q (sepFields q fs l).2 ∧
      ((sepFields q fs l).1.any Prod.fst = false → NoSepF q fs)
  | .nil, l => fun hl => ⟨by simp [sepFields], hl, fun _ => trivial⟩
  | .cons n t fs, l => fun hl => by
    have ht := sep_right q hq t
    obtain ⟨a1, a2⟩ := stepPieces_right q n (sep q t) l ht hl
    obtain ⟨b1, b2, b3⟩ := sepFields_right q hq fs _ a2
    rw [sepFields]
    simp only
    refine ⟨?_, b2, ?_⟩
    · intro x hx
      rcases List.mem_append.1 hx with h | h
      · exact a1 x h
      · exact b1 x h
    · intro h
      rw [List.any_append, Bool.or_eq_false_iff, stepPieces_none] at h
      refine ⟨?_, b3 h.2⟩
      exact noSep_of_none q hq t h.1
theorem noSep_of_none (q : Ty → Bool) (hq : ∀ fs, q (.struct fs) = false) : ∀ t, (sep q t).any Prod.fst = false → NoSep q t
  | .prim k => by
    rw [sep]
    split
    · intro h; cases h
    · next h => intro _; simpa [NoSep] using h
  | .struct fs => by
    rw [sep, hq fs]
    simp only [Bool.false_eq_true, if_false]
    split
    · next h =>
      intro h'
      rw [List.any_append, Bool.or_eq_false_iff] at h'
      rw [h'.1] at h
      cases h
    · next h =>
      intro _
      exact (sepFields_right q hq fs .nil trivial).2.2 (by simpa using h)
end

/-- **C382** (`separate_streams`: the query holds only for types without fields) A piece marked for separation is a single item
which satisfies the query, the other pieces do not contain such an item. -/
theorem sep_marks (q : Ty → Bool) (hq : ∀ fs, q (.struct fs) = false) (t : Ty) (b : Bool) (p : Ty) (h : (b, p) ∈ sep q t) :
    if b = true then Single q p else NoSep q p := sep_right q hq t (b, p) h

/-! ## names of fields -/

/-- no two adjacent pieces are not marked -/
def noAdj : List (Bool × Ty) → Prop
  | (false, _) :: (false, t) :: ps => False ∧ noAdj ((false, t) :: ps)
  | _ :: ps => noAdj ps
  | [] => True

theorem noAdj_true (t : Ty) (ps : List (Bool × Ty)) : noAdj ((true, t) :: ps) ↔ noAdj ps := by
  cases ps <;> simp [noAdj]

theorem noAdj_tail {x : Bool × Ty} {ps : List (Bool × Ty)} (h : noAdj (x :: ps)) : noAdj ps := by
  obtain ⟨b, t⟩ := x
  cases ps with
  | nil => trivial
  | cons y ps =>
    obtain ⟨b', t'⟩ := y
    cases b <;> cases b' <;> simp [noAdj] at h ⊢ <;> exact h

/-- `noAdj` and the last piece is marked (or there is none) -/
inductive Closed : List (Bool × Ty) → Prop
  | nil : Closed []
  | one {t : Ty} {ps : List (Bool × Ty)} : Closed ps → Closed ((true, t) :: ps)
  | two {s t : Ty} {ps : List (Bool × Ty)} : Closed ps → Closed ((false, s) :: (true, t) :: ps)

theorem Closed.append {a b : List (Bool × Ty)} (ha : Closed a) (hb : Closed b) : Closed (a ++ b) := by
  induction ha with
  | nil => exact hb
  | one _ ih => exact .one ih
  | two _ ih => exact .two ih

theorem Closed.last {a : List (Bool × Ty)} (ha : Closed a) (s : Ty) : noAdj (a ++ [(false, s)]) ∧ noAdj a := by
  induction ha with
  | nil => exact ⟨by simp [noAdj], trivial⟩
  | one _ ih => exact ⟨(noAdj_true _ _).2 ih.1, (noAdj_true _ _).2 ih.2⟩
  | two _ ih =>
    exact ⟨by simp only [List.cons_append, noAdj]; exact ih.1, by simp only [noAdj]; exact ih.2⟩

theorem stepPieces_closed (n : Nat) : ∀ (ps : List (Bool × Ty)) (l : Fs), Closed (stepPieces n ps l).1 := by
  intro ps
  induction ps with
  | nil => intro l; exact .nil
  | cons x ps ih =>
    intro l
    obtain ⟨b, t⟩ := x
    cases b with
    | true =>
      rw [stepPieces]
      simp only
      split
      · exact .one (ih _)
      · exact .two (ih _)
    | false => rw [stepPieces]; exact ih _

theorem sepFields_closed (q : Ty → Bool) : ∀ fs l, Closed (sepFields q fs l).1
  | .nil, l => .nil
  | .cons n t fs, l => by
    rw [sepFields]
    exact (stepPieces_closed n _ _).append (sepFields_closed q fs _)

theorem sep_noAdj (q : Ty → Bool) (t : Ty) : noAdj (sep q t) := by
  cases t with
  | prim k => rw [sep]; split <;> simp [noAdj]
  | struct fs =>
    rw [sep]
    split
    · simp [noAdj]
    · simp only
      split
      · split
        · rw [List.append_nil]; exact ((sepFields_closed q fs .nil).last (.prim 0)).2
        · exact ((sepFields_closed q fs .nil).last _).1
      · simp [noAdj]

theorem names_append : ∀ (a b : Fs), (a.append b).names = a.names ++ b.names
  | .nil, _ => rfl
  | .cons n t a, b => by simp [Fs.append, Fs.names, names_append a b]

theorem wff_append : ∀ (a b : Fs), WFF a → WFF b → WFF (a.append b)
  | .nil, _, _, h => h
  | .cons _ _ a, b, h1, h2 => ⟨h1.1, wff_append a b h1.2 h2⟩

theorem stepPieces_wf (n : Nat) : ∀ (ps : List (Bool × Ty)) (l : Fs), (∀ x ∈ ps, WF x.2) → noAdj ps →
    l.names.Nodup → WFF l → (∀ t ps', ps = (false, t) :: ps' → n ∉ l.names) →
    (∀ x ∈ (stepPieces n ps l).1, WF x.2) ∧ (stepPieces n ps l).2.names.Nodup ∧ WFF (stepPieces n ps l).2 ∧
      ∀ m ∈ (stepPieces n ps l).2.names, m = n ∨ m ∈ l.names := by
  intro ps
  induction ps with
  | nil => intro l _ _ h1 h2 _; exact ⟨by simp [stepPieces], h1, h2, fun m hm => Or.inr hm⟩
  | cons x ps ih =>
    intro l hw ha hn hl hh
    obtain ⟨b, t⟩ := x
    have hx : WF t := hw (b, t) List.mem_cons_self
    have hr : ∀ x ∈ ps, WF x.2 := fun x hx => hw x (List.mem_cons_of_mem _ hx)
    cases b with
    | true =>
      rw [stepPieces]
      simp only
      obtain ⟨i1, i2, i3, i4⟩ := ih .nil hr (noAdj_tail ha) List.nodup_nil trivial (fun _ _ _ => by simp [Fs.names])
      refine ⟨?_, i2, i3, ?_⟩
      · intro y hy
        rcases List.mem_append.1 hy with hy | hy
        · split at hy
          · cases hy
          · rw [List.mem_singleton] at hy; subst hy; exact ⟨hn, hl⟩
        · rcases List.mem_cons.1 hy with e | hy
          · subst e; exact ⟨by simp [Fs.names], hx, trivial⟩
          · exact i1 y hy
      · intro m hm
        rcases i4 m hm with e | e
        · exact Or.inl e
        · cases e
    | false =>
      rw [stepPieces]
      have hnl := hh t ps rfl
      obtain ⟨i1, i2, i3, i4⟩ := ih (l.append (.cons n t .nil)) hr (noAdj_tail ha)
        (by rw [names_append, List.nodup_append]
            refine ⟨hn, by simp [Fs.names], ?_⟩
            intro a ha b hb e
            simp [Fs.names] at hb
            subst hb; subst e
            exact hnl ha)
        (wff_append _ _ hl ⟨hx, trivial⟩)
        (by intro t' ps' e
            subst e
            exact absurd ha (by simp [noAdj]))
      refine ⟨i1, i2, i3, ?_⟩
      intro m hm
      rcases i4 m hm with e | e
      · exact Or.inl e
      · rw [names_append] at e
        rcases List.mem_append.1 e with e | e
        · exact Or.inr e
        · simp [Fs.names] at e; exact Or.inl e

mutual
theorem sep_wf (q : Ty → Bool) : ∀ t, WF t → ∀ x ∈ sep q t, WF x.2
  | .prim k => by
    intro _ x hx
    rw [sep] at hx
    split at hx <;> (rw [List.mem_singleton] at hx; subst hx; trivial)
  | .struct fs => by
    intro h x hx
    rw [sep] at hx
    split at hx
    · rw [List.mem_singleton] at hx; subst hx; exact h
    · simp only at hx
      split at hx
      · obtain ⟨h1, h2, h3⟩ := sepFields_wf q fs .nil h.1 h.2 List.nodup_nil trivial (fun _ _ h => by cases h)
        rcases List.mem_append.1 hx with hx | hx
        · exact h1 x hx
        · split at hx
          · cases hx
          · rw [List.mem_singleton] at hx; subst hx; exact ⟨h2, h3⟩
      · rw [List.mem_singleton] at hx; subst hx; exact h
theorem sepFields_wf (q : Ty → Bool) : ∀ fs l, fs.names.Nodup → WFF fs → l.names.Nodup → WFF l →
    (∀ m ∈ fs.names, m ∈ l.names → False) →
    (∀ x ∈ (sepFields q fs l).1, WF x.2) ∧ (sepFields q fs l).2.names.Nodup ∧ WFF (sepFields q fs l).2
  | .nil, l => fun _ _ h1 h2 _ => ⟨by simp [sepFields], h1, h2⟩
  | .cons n t fs, l => fun hn hw hln hlw hd => by
    rw [Fs.names, List.nodup_cons] at hn
    obtain ⟨a1, a2, a3, a4⟩ := stepPieces_wf n (sep q t) l (sep_wf q t hw.1) (sep_noAdj q t) hln hlw
      (fun _ _ _ h => hd n (by simp [Fs.names]) h)
    obtain ⟨b1, b2, b3⟩ := sepFields_wf q fs (stepPieces n (sep q t) l).2 hn.2 hw.2 a2 a3 (by
      intro m hm hm'
      rcases a4 m hm' with e | e
      · subst e; exact hn.1 hm
      · exact hd m (by simp [Fs.names, hm]) e)
    rw [sepFields]
    simp only
    refine ⟨?_, b2, b3⟩
    intro x hx
    rcases List.mem_append.1 hx with h | h
    · exact a1 x h
    · exact b1 x h
end

/-- **C382** The pieces are structs with distinct names of fields if the original structs are (a field which is split appears at
most once in each piece). -/
theorem sep_names (q : Ty → Bool) (t : Ty) (h : WF t) (x : Bool × Ty) (hx : x ∈ sep q t) : WF x.2 := sep_wf q t h x hx

-- non-vacuity: struct a { 0: {10: bits, 11: stream, 12: bits}, 1: bits, 2: stream }, streams have odd numbers
def exTy : Ty :=
  .struct (.cons 0 (.struct (.cons 10 (.prim 0) (.cons 11 (.prim 1) (.cons 12 (.prim 2) .nil))))
    (.cons 1 (.prim 4) (.cons 2 (.prim 3) .nil)))
def exQ : Ty → Bool
  | .prim k => k % 2 == 1
  | .struct _ => false

example : sep exQ exTy =
    [(false, .struct (.cons 0 (.struct (.cons 10 (.prim 0) .nil)) .nil)),
     (true, .struct (.cons 0 (.struct (.cons 11 (.prim 1) .nil)) .nil)),
     (false, .struct (.cons 0 (.struct (.cons 12 (.prim 2) .nil)) (.cons 1 (.prim 4) .nil))),
     (true, .struct (.cons 2 (.prim 3) .nil))] := by
  simp [sep, sepFields, stepPieces, exTy, exQ, Fs.append, Fs.isNil]
example : WF exTy := by simp [WF, WFF, exTy, Fs.names]
example : ∀ fs, exQ (.struct fs) = false := fun _ => rfl

end Verif.TypeSep
