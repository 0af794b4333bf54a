import Verif.AxiMatrix
import Mathlib.Data.List.ProdSigma
import Mathlib.Data.List.Nodup
import Mathlib.Data.List.Basic
/-!
# Invariant of the data crossbar of the AXI interconnect matrix
-/
namespace Verif.AxiMatrix

universe u v
variable {β : Type v}

theorem filter_unique {n : Nat} {f : Nat → Bool} (h : ¬ 1 < ((List.range n).filter f).length)
    {a b : Nat} (ha : a < n) (hb : b < n) (fa : f a = true) (fb : f b = true) : a = b := by
  have ma : a ∈ (List.range n).filter f := List.mem_filter.2 ⟨List.mem_range.2 ha, fa⟩
  have mb : b ∈ (List.range n).filter f := List.mem_filter.2 ⟨List.mem_range.2 hb, fb⟩
  generalize (List.range n).filter f = l at h ma mb
  match l, h, ma, mb with
  | [], _, ma, _ => simp at ma
  | [z], _, ma, mb => simp at ma mb; omega
  | _ :: _ :: _, h, _, _ => simp at h

theorem out_unique {c : XCfg} {i o o' : Nat} (h : hasA c i = false) (ho : o < c.nO) (ho' : o' < c.nO)
    (k : c.con i o = true) (k' : c.con i o' = true) : o = o' := by
  have h := of_decide_eq_false (show decide (1 < (outsOf c i).length) = false from h)
  exact filter_unique (f := fun o => c.con i o) h ho ho' k k'

theorem in_unique {c : XCfg} {i i' o : Nat} (h : hasB c o = false) (hi : i < c.nI) (hi' : i' < c.nI)
    (k : c.con i o = true) (k' : c.con i' o = true) : i = i' := by
  have h := of_decide_eq_false (show decide (1 < (insOf c o).length) = false from h)
  exact filter_unique (f := fun i => c.con i o) h hi hi' k k'

/-! ## Transfers -/

/-- A word goes from input `i` to output `o` in this cycle. -/
structure Xfer (c : XCfg) (s : XSt) (x : XIn β) (i o : Nat) : Prop where
  hi : i < c.nI
  ho : o < c.nO
  con : c.con i o = true
  vld : x.vld i = true
  rd : x.rd o = true
  a : hasA c i = true → aVld s x i = true ∧ aData s x i = o
  b : hasB c o = true → bVld s x o = true ∧ bData s x o = i

theorem xfer_iff_rd {c : XCfg} {s : XSt} {x : XIn β} {i : Nat} (hi : i < c.nI) :
    (x.vld i && xRd c s x i) = true ↔ ∃ o, Xfer c s x i o := by
  simp only [xRd, xSelRd, xRdFrom, outsOf, Bool.and_eq_true, Bool.or_eq_true, Bool.not_eq_true',
    List.any_eq_true, List.mem_filter, List.mem_range, beq_iff_eq]
  constructor
  · rintro ⟨hv, ha, o, ⟨ho, hc⟩, ⟨hr, ha'⟩, hb⟩
    refine ⟨o, hi, ho, hc, hv, hr, fun h => ?_, fun h => ?_⟩
    · rcases ha with ha | ha
      · simp [ha] at h
      · rcases ha' with ha' | ha'
        · simp [ha'] at h
        · exact ⟨ha, ha'⟩
    · rcases hb with hb | hb
      · simp [hb] at h
      · exact ⟨hb.2, hb.1⟩
  · rintro ⟨o, h⟩
    refine ⟨h.vld, ?_, o, ⟨h.ho, h.con⟩, ⟨h.rd, ?_⟩, ?_⟩
    · rcases Bool.eq_false_or_eq_true (hasA c i) with e | e
      · exact Or.inr (h.a e).1
      · exact Or.inl e
    · rcases Bool.eq_false_or_eq_true (hasA c i) with e | e
      · exact Or.inr (h.a e).2
      · exact Or.inl e
    · rcases Bool.eq_false_or_eq_true (hasB c o) with e | e
      · exact Or.inr ⟨(h.b e).2, (h.b e).1⟩
      · exact Or.inl e

theorem xfer_iff_vld {c : XCfg} {s : XSt} {x : XIn β} {o : Nat} (ho : o < c.nO) :
    (xVld c s x o && x.rd o) = true ↔ ∃ i, Xfer c s x i o := by
  simp only [xVld, xSelVld, xVldFrom, insOf, Bool.and_eq_true, Bool.or_eq_true, Bool.not_eq_true',
    List.any_eq_true, List.mem_filter, List.mem_range, beq_iff_eq]
  constructor
  · rintro ⟨⟨⟨i, ⟨hi, hc⟩, ⟨hv, hb⟩, ha⟩, hb'⟩, hr⟩
    refine ⟨i, hi, ho, hc, hv, hr, fun h => ?_, fun h => ?_⟩
    · rcases ha with ha | ha
      · simp [ha] at h
      · exact ha
    · rcases hb with hb | hb
      · simp [hb] at h
      · rcases hb' with hb' | hb'
        · simp [hb'] at h
        · exact ⟨hb', hb⟩
  · rintro ⟨i, h⟩
    refine ⟨⟨⟨i, ⟨h.hi, h.con⟩, ⟨h.vld, ?_⟩, ?_⟩, ?_⟩, h.rd⟩
    · rcases Bool.eq_false_or_eq_true (hasB c o) with e | e
      · exact Or.inr (h.b e).2
      · exact Or.inl e
    · rcases Bool.eq_false_or_eq_true (hasA c i) with e | e
      · exact Or.inr (h.a e)
      · exact Or.inl e
    · rcases Bool.eq_false_or_eq_true (hasB c o) with e | e
      · exact Or.inr (h.b e).1
      · exact Or.inl e

theorem xfer_fun {c : XCfg} {s : XSt} {x : XIn β} {i o o' : Nat} (h : Xfer c s x i o) (h' : Xfer c s x i o') :
    o = o' := by
  rcases Bool.eq_false_or_eq_true (hasA c i) with e | e
  · rw [← (h.a e).2, (h'.a e).2]
  · exact out_unique e h.ho h'.ho h.con h'.con

theorem xfer_inj {c : XCfg} {s : XSt} {x : XIn β} {i i' o : Nat} (h : Xfer c s x i o) (h' : Xfer c s x i' o) :
    i = i' := by
  rcases Bool.eq_false_or_eq_true (hasB c o) with e | e
  · rw [← (h.b e).2, (h'.b e).2]
  · exact in_unique e h.hi h'.hi h.con h'.con

theorem xfer_beat {c : XCfg} {s : XSt} {x : XIn β} {i o : Nat} (h : Xfer c s x i o) :
    xBeat c s x o = some (x.beat i) := by
  unfold xBeat
  rcases Bool.eq_false_or_eq_true (hasB c o) with e | e
  · rw [if_pos e, (h.b e).2, if_pos h.hi]
  · rw [if_neg (by simp [e])]
    have m : i ∈ insOf c o := List.mem_filter.2 ⟨List.mem_range.2 h.hi, h.con⟩
    have : (insOf c o).head? = some i := by
      match hl : insOf c o, m with
      | z :: l, _ =>
        have mz : z ∈ insOf c o := by rw [hl]; exact List.mem_cons_self
        obtain ⟨z1, z2⟩ := List.mem_filter.1 mz
        simp only [List.head?_cons, Option.some.injEq]
        exact in_unique e (List.mem_range.1 z1) h.hi z2 h.con
    rw [this]; rfl

theorem popA_iff {c : XCfg} {s : XSt} {x : XIn β} {i : Nat} (hi : i < c.nI) :
    xPopA c s x i = true ↔ hasA c i = true ∧ (∃ o, Xfer c s x i o) ∧ (x.beat i).last = true := by
  rw [← xfer_iff_rd hi]
  simp only [xPopA, xRd, Bool.and_eq_true, Bool.or_eq_true, Bool.not_eq_true']
  constructor
  · rintro ⟨h, h1, ⟨h2, h3⟩, h4⟩; exact ⟨h, ⟨h2, Or.inr h1, h4⟩, h3⟩
  · rintro ⟨h, ⟨h2, h1, h4⟩, h3⟩
    rcases h1 with h1 | h1
    · simp [h] at h1
    · exact ⟨h, h1, ⟨h2, h3⟩, h4⟩

theorem popB_iff {c : XCfg} {s : XSt} {x : XIn β} {o : Nat} (ho : o < c.nO) :
    xPopB c s x o = true ↔ hasB c o = true ∧ ∃ i, Xfer c s x i o ∧ (x.beat i).last = true := by
  constructor
  · intro h
    simp only [xPopB, Bool.and_eq_true] at h
    obtain ⟨h, h1, ⟨h2, h3⟩, h4⟩ := h
    have : (xVld c s x o && x.rd o) = true := by simp [xVld, h2, h1, h4]
    obtain ⟨i, hx⟩ := (xfer_iff_vld ho).1 this
    refine ⟨h, i, hx, ?_⟩
    simp only [xSelLast, List.any_eq_true, Bool.and_eq_true, Bool.or_eq_true, Bool.not_eq_true', beq_iff_eq] at h3
    obtain ⟨j, _, ⟨_, hl⟩, hb⟩ := h3
    rcases hb with hb | hb
    · simp [h] at hb
    · have : j = i := by rw [← hb.2, (hx.b h).2]
      exact this ▸ hl
  · rintro ⟨h, i, hx, hl⟩
    have h2 := (xfer_iff_vld ho).2 ⟨i, hx⟩
    simp only [xVld, Bool.and_eq_true] at h2
    simp only [xPopB, Bool.and_eq_true]
    refine ⟨h, (hx.b h).1, ⟨h2.1.1, ?_⟩, hx.rd⟩
    simp only [xSelLast, List.any_eq_true, Bool.and_eq_true, Bool.or_eq_true, Bool.not_eq_true', beq_iff_eq]
    exact ⟨i, List.mem_filter.2 ⟨List.mem_range.2 hx.hi, hx.con⟩, ⟨hx.vld, hl⟩, Or.inr (hx.b h)⟩

theorem aData_head {s : XSt} {x : XIn β} {i o : Nat} (h : aVld s x i = true) (e : aData s x i = o) :
    ∃ l, s.A i = o :: l := by
  unfold aData at e
  rw [if_pos h] at e
  simp only [aVld, Bool.and_eq_true, Bool.not_eq_true'] at h
  match hA : s.A i with
  | [] => rw [hA] at h; simp at h
  | z :: l => rw [hA] at e; simp at e; exact ⟨l, by rw [e]⟩

theorem bData_head {s : XSt} {x : XIn β} {i o : Nat} (h : bVld s x o = true) (e : bData s x o = i) :
    ∃ l, s.B o = i :: l := by
  unfold bData at e
  rw [if_pos h] at e
  simp only [bVld, Bool.and_eq_true, Bool.not_eq_true'] at h
  match hA : s.B o with
  | [] => rw [hA] at h; simp at h
  | z :: l => rw [hA] at e; simp at e; exact ⟨l, by rw [e]⟩

/-! ## Bursts and transactions -/

/-- A burst: `last` is set for the last word and only for it. -/
def IsBurst (l : List (Beat β)) : Prop := ∃ h b, l = h ++ [b] ∧ b.last = true ∧ ∀ z ∈ h, z.last = false

theorem isBurst_cons {b : Beat β} {t : List (Beat β)} (h : IsBurst (b :: t)) :
    (b.last = true ∧ t = []) ∨ (b.last = false ∧ t ≠ [] ∧ IsBurst t) := by
  obtain ⟨l, z, e, hz, hl⟩ := h
  match l with
  | [] => simp at e; left; exact ⟨e.1 ▸ hz, e.2⟩
  | y :: l =>
    simp at e
    right
    refine ⟨e.1 ▸ hl y (by simp), by rw [e.2]; simp, l, z, e.2, hz, fun w hw => hl w (by simp [hw])⟩

theorem isBurst_ne {l : List (Beat β)} (h : IsBurst l) : l ≠ [] := by
  obtain ⟨h, b, e, _⟩ := h
  rw [e]; simp

/-- Transactions `(input, output)` with the ordinal number among the transactions of the input, `n` of them were before. -/
def tagFrom (n : Nat → Nat) : List (Nat × Nat) → List (Nat × Nat × Nat)
  | [] => []
  | (i, o) :: G => (i, o, n i) :: tagFrom (upd n i (n i + 1)) G

/-- Words which the output `o` has to give for the transactions `G` if `plan i k` is the `k`-th burst of input `i`. -/
def expected (plan : Nat → Nat → List (Beat β)) (G : List (Nat × Nat)) (o : Nat) : List (Beat β) :=
  ((tagFrom (fun _ => 0) G).filter (fun t => t.2.1 == o)).flatMap (fun t => plan t.1 t.2.2)

/-- Number of transactions of an input. -/
def cnt (G : List (Nat × Nat)) (i : Nat) : Nat := (G.filter (fun t => t.1 == i)).length

/-- Words of the first `n` bursts of an input. -/
def firstBursts (plan : Nat → Nat → List (Beat β)) (i n : Nat) : List (Beat β) := (List.range n).flatMap (plan i)

theorem tagFrom_append (n : Nat → Nat) (G H : List (Nat × Nat)) :
    tagFrom n (G ++ H) = tagFrom n G ++ tagFrom (fun i => n i + cnt G i) H := by
  induction G generalizing n with
  | nil => simp [tagFrom, cnt]
  | cons g G ih =>
    obtain ⟨i, o⟩ := g
    simp only [List.cons_append, tagFrom, ih, List.cons.injEq, true_and]
    congr 2
    funext j
    simp only [upd, cnt, List.filter_cons]
    by_cases e : j = i
    · subst e; simp; omega
    · simp [e, Ne.symm e]

theorem tagFrom_filter (n : Nat → Nat) (T : List (Nat × Nat)) (i : Nat) (f : Nat → List (Beat β)) :
    ((tagFrom n T).filter (fun t => t.1 == i)).flatMap (fun t => f t.2.2)
      = (List.range (cnt T i)).flatMap (fun k => f (n i + k)) := by
  induction T generalizing n with
  | nil => simp [tagFrom, cnt]
  | cons g T ih =>
    obtain ⟨j, o⟩ := g
    simp only [tagFrom, List.filter_cons, cnt]
    by_cases e : j = i
    · subst e
      simp only [beq_self_eq_true, if_true, List.flatMap_cons, ih, List.length_cons, List.range_succ_eq_map,
        List.flatMap_map, upd_same]
      simp only [cnt, Nat.add_zero]
      congr 2
      funext k
      congr 1; omega
    · simp only [beq_iff_eq, e, if_false]
      rw [ih, upd_ne _ _ _ _ (Ne.symm e)]
      rfl

theorem tagFrom_fst (n : Nat → Nat) (T : List (Nat × Nat)) :
    (tagFrom n T).map (fun t => (t.1, t.2.1)) = T := by
  induction T generalizing n with
  | nil => rfl
  | cons g T ih => obtain ⟨i, o⟩ := g; simp [tagFrom, ih]

theorem cnt_append (G T : List (Nat × Nat)) (i : Nat) : cnt (G ++ T) i = cnt G i + cnt T i := by
  simp [cnt]

theorem firstBursts_add (plan : Nat → Nat → List (Beat β)) (i n k : Nat) :
    firstBursts plan i (n + k) = firstBursts plan i n ++ (List.range k).flatMap (fun j => plan i (n + j)) := by
  simp only [firstBursts, List.range_add, List.flatMap_append, List.flatMap_map]

/-! ## Outstanding transactions -/

structure Ent (β : Type v) where
  i : Nat
  o : Nat
  rest : List (Beat β)

/-- What remains of a transaction after one word. -/
def stepEnt (i o : Nat) : List (Beat β) → List (Ent β)
  | _ :: b :: t => [⟨i, o, b :: t⟩]
  | _ => []

/-- One word of the first transaction is done. -/
def advHead : List (Ent β) → List (Ent β)
  | [] => []
  | e :: l => stepEnt e.i e.o e.rest ++ l

/-- One word of the first transaction of an input is done. -/
def adv (i : Nat) : List (Ent β) → List (Ent β)
  | [] => []
  | e :: l => if e.i = i then advHead (e :: l) else e :: adv i l

abbrev ofI (i : Nat) (O : List (Ent β)) : List (Ent β) := O.filter (fun e => e.i == i)
abbrev ofO (o : Nat) (O : List (Ent β)) : List (Ent β) := O.filter (fun e => e.o == o)

theorem advHead_filter (f : Ent β → Bool) (hf : ∀ a b, a.i = b.i → a.o = b.o → f a = f b) (e : Ent β)
    (l : List (Ent β)) :
    (advHead (e :: l)).filter f = if f e then advHead (e :: l.filter f) else l.filter f := by
  obtain ⟨i, o, r⟩ := e
  have h : ∀ r', f ⟨i, o, r'⟩ = f ⟨i, o, r⟩ := fun r => hf _ _ rfl rfl
  match r, h with
  | [], _ => simp [advHead, stepEnt]
  | [_], _ => simp [advHead, stepEnt]
  | _ :: b :: t, h =>
    simp only [advHead, stepEnt, List.singleton_append, List.filter_cons, h]

theorem adv_ofI (i j : Nat) (O : List (Ent β)) :
    ofI j (adv i O) = if j = i then advHead (ofI j O) else ofI j O := by
  induction O with
  | nil => simp [adv, advHead]
  | cons e O ih =>
    unfold adv
    by_cases h : e.i = i
    · rw [if_pos h, ofI, advHead_filter _ (by intro a b h _; simp [h])]
      by_cases hj : j = i
      · subst hj; simp [h]
      · simp only [beq_iff_eq, hj, if_false, List.filter_cons]
        have : ¬ e.i = j := fun k => hj (by omega)
        rw [if_neg this, if_neg this]
    · rw [if_neg h]
      simp only [ofI, List.filter_cons] at ih ⊢
      rw [ih]
      by_cases hj : j = i
      · subst hj; simp [h]
      · simp [hj]

theorem adv_ofO (i o p : Nat) (O : List (Ent β)) (r r' : List (Beat β)) (hi : (ofI i O).head? = some ⟨i, o, r⟩)
    (ho : (ofO o O).head? = some ⟨i, o, r'⟩) :
    ofO p (adv i O) = if p = o then advHead (ofO p O) else ofO p O := by
  induction O with
  | nil => simp at hi
  | cons e O ih =>
    unfold adv
    by_cases h : e.i = i
    · rw [if_pos h, ofO, advHead_filter _ (by intro a b _ h; simp [h])]
      simp only [ofI, List.filter_cons, h, beq_self_eq_true, if_true, List.head?_cons, Option.some.injEq] at hi
      have eo : e.o = o := by rw [hi]
      by_cases hp : p = o
      · subst hp; simp [eo]
      · have : ¬ e.o = p := fun k => hp (by omega)
        simp [hp, this]
    · rw [if_neg h]
      have hne : ¬ e.o = o := by
        intro k
        simp only [ofO, List.filter_cons, k, beq_self_eq_true, if_true, List.head?_cons, Option.some.injEq] at ho
        exact h (by rw [ho])
      have ih := ih (by simpa [ofI, List.filter_cons, h] using hi) (by simpa [ofO, List.filter_cons, hne] using ho)
      simp only [ofO, List.filter_cons] at ih ⊢
      rw [ih]
      by_cases hp : p = o
      · subst hp; simp [hne]
      · simp [hp]

theorem mem_adv {i : Nat} {O : List (Ent β)} {e : Ent β} (h : e ∈ adv i O) :
    e ∈ O ∨ ∃ b, ⟨e.i, e.o, b :: e.rest⟩ ∈ O ∧ e.rest ≠ [] := by
  induction O with
  | nil => simp [adv] at h
  | cons f O ih =>
    unfold adv at h
    split at h
    · rcases List.mem_append.1 (show e ∈ stepEnt f.i f.o f.rest ++ O from h) with h | h
      · obtain ⟨i, o, r⟩ := f
        match r, h with
        | x :: b :: t, h =>
          simp only [stepEnt, List.mem_singleton] at h
          subst h
          exact Or.inr ⟨x, List.mem_cons_self, by simp⟩
      · exact Or.inl (List.mem_cons_of_mem _ h)
    · rcases List.mem_cons.1 h with rfl | h
      · exact Or.inl List.mem_cons_self
      · rcases ih h with h | ⟨b, h, h'⟩
        · exact Or.inl (List.mem_cons_of_mem _ h)
        · exact Or.inr ⟨b, List.mem_cons_of_mem _ h, h'⟩

def advs (L : List (Nat × Nat)) (O : List (Ent β)) : List (Ent β) := L.foldl (fun O p => adv p.1 O) O

theorem advs_spec (L : List (Nat × Nat)) : ∀ (O : List (Ent β)),
    L.Pairwise (fun a b => a.1 ≠ b.1 ∧ a.2 ≠ b.2) →
    (∀ p ∈ L, ∃ r r', (ofI p.1 O).head? = some ⟨p.1, p.2, r⟩ ∧ (ofO p.2 O).head? = some ⟨p.1, p.2, r'⟩) →
    (∀ e ∈ O, IsBurst e.rest) →
    (∀ j, (∃ p ∈ L, p.1 = j) → ofI j (advs L O) = advHead (ofI j O)) ∧
    (∀ j, (¬ ∃ p ∈ L, p.1 = j) → ofI j (advs L O) = ofI j O) ∧
    (∀ q, (∃ p ∈ L, p.2 = q) → ofO q (advs L O) = advHead (ofO q O)) ∧
    (∀ q, (¬ ∃ p ∈ L, p.2 = q) → ofO q (advs L O) = ofO q O) ∧
    (∀ e ∈ advs L O, IsBurst e.rest ∧ ∃ r, ⟨e.i, e.o, r⟩ ∈ O) := by
  induction L with
  | nil => intro O _ _ hb; simp [advs]; intro e h; exact ⟨hb e h, e.rest, h⟩
  | cons p L ih =>
    intro O hp hh hb
    obtain ⟨hp1, hp2⟩ := List.pairwise_cons.1 hp
    obtain ⟨r, r', h1, h2⟩ := hh p List.mem_cons_self
    have fo := fun q => adv_ofO p.1 p.2 q O r r' h1 h2
    have fi := fun j => adv_ofI p.1 j O
    have hb' : ∀ e ∈ adv p.1 O, IsBurst e.rest ∧ ∃ r, ⟨e.i, e.o, r⟩ ∈ O := by
      intro e he
      rcases mem_adv he with h | ⟨b, h, hn⟩
      · exact ⟨hb e h, e.rest, h⟩
      · refine ⟨?_, _, h⟩
        rcases isBurst_cons (hb _ h) with ⟨_, k⟩ | ⟨_, _, k⟩
        · exact absurd k hn
        · exact k
    obtain ⟨a1, a2, a3, a4, a5⟩ := ih (adv p.1 O) hp2 (by
      intro q hq
      obtain ⟨r, r', k1, k2⟩ := hh q (List.mem_cons_of_mem _ hq)
      refine ⟨r, r', ?_, ?_⟩
      · rw [fi, if_neg (hp1 q hq).1.symm]; exact k1
      · rw [fo, if_neg (hp1 q hq).2.symm]; exact k2) (fun e he => (hb' e he).1)
    have eq : advs (p :: L) O = advs L (adv p.1 O) := rfl
    rw [eq]
    refine ⟨fun j hj => ?_, fun j hj => ?_, fun q hq => ?_, fun q hq => ?_, fun e he => ?_⟩
    · by_cases e : p.1 = j
      · rw [a2 j (by rintro ⟨z, hz, k⟩; exact (hp1 z hz).1 (by omega)), fi, if_pos e.symm]
      · obtain ⟨z, hz, k⟩ := hj
        rcases List.mem_cons.1 hz with rfl | hz
        · exact absurd k e
        · rw [a1 j ⟨z, hz, k⟩, fi, if_neg (Ne.symm e)]
    · have e : ¬ p.1 = j := fun k => hj ⟨p, List.mem_cons_self, k⟩
      rw [a2 j (fun ⟨z, hz, k⟩ => hj ⟨z, List.mem_cons_of_mem _ hz, k⟩), fi, if_neg (Ne.symm e)]
    · by_cases e : p.2 = q
      · rw [a4 q (by rintro ⟨z, hz, k⟩; exact (hp1 z hz).2 (by omega)), fo, if_pos e.symm]
      · obtain ⟨z, hz, k⟩ := hq
        rcases List.mem_cons.1 hz with rfl | hz
        · exact absurd k e
        · rw [a3 q ⟨z, hz, k⟩, fo, if_neg (Ne.symm e)]
    · have e : ¬ p.2 = q := fun k => hq ⟨p, List.mem_cons_self, k⟩
      rw [a4 q (fun ⟨z, hz, k⟩ => hq ⟨z, List.mem_cons_of_mem _ hz, k⟩), fo, if_neg (Ne.symm e)]
    · obtain ⟨h, r, hr⟩ := a5 e he
      exact ⟨h, (hb' _ hr).2⟩

theorem advHead_map {γ : Type} (f : Ent β → γ) (hf : ∀ a b : Ent β, a.i = b.i → a.o = b.o → f a = f b)
    {e : Ent β} {b : Beat β} {t : List (Beat β)} {l : List (Ent β)} (he : e.rest = b :: t) (hb : IsBurst e.rest) :
    (advHead (e :: l)).map f = if b.last then ((e :: l).map f).tail else (e :: l).map f := by
  obtain ⟨i, o, r⟩ := e
  simp only at he hb
  subst he
  rcases isBurst_cons hb with ⟨h, k⟩ | ⟨h, k, _⟩
  · subst k; simp [advHead, stepEnt, h]
  · match t, k with
    | z :: t, _ =>
      simp only [advHead, stepEnt, List.singleton_append, List.map_cons, h, Bool.false_eq_true, if_false]
      rw [hf ⟨i, o, z :: t⟩ ⟨i, o, b :: z :: t⟩ rfl rfl]

theorem advHead_flat {e : Ent β} {b : Beat β} {t : List (Beat β)} {l : List (Ent β)} (he : e.rest = b :: t) :
    (e :: l).flatMap Ent.rest = b :: (advHead (e :: l)).flatMap Ent.rest := by
  obtain ⟨i, o, r⟩ := e
  simp only at he
  subst he
  match t with
  | [] => simp [advHead, stepEnt]
  | z :: t => simp [advHead, stepEnt]

/-! ## Invariant -/

/-- The input has no direct connection: each of its transfers uses an order fifo. -/
def Ordered (c : XCfg) (i o : Nat) : Prop := hasA c i = true ∨ hasB c o = true

structure XInv (c : XCfg) (plan : Nat → Nat → List (Beat β)) (G : List (Nat × Nat)) (s : XSt)
    (din : Nat → List (Beat β)) (dout : Nat → List (Option (Beat β))) (O : List (Ent β)) : Prop where
  ent : ∀ e ∈ O, e.i < c.nI ∧ e.o < c.nO ∧ c.con e.i e.o = true ∧ Ordered c e.i e.o
  burst : ∀ e ∈ O, IsBurst e.rest
  dinEq : ∀ i, i < c.nI → (∀ o, o < c.nO → c.con i o = true → Ordered c i o) →
    din i ++ (ofI i O).flatMap Ent.rest = firstBursts plan i (cnt G i)
  doutEq : ∀ o, o < c.nO → (∀ i, i < c.nI → c.con i o = true → Ordered c i o) →
    dout o ++ ((ofO o O).flatMap Ent.rest).map some = (expected plan G o).map some
  aEq : ∀ i, i < c.nI → hasA c i = true → s.A i = (ofI i O).map Ent.o
  bEq : ∀ o, o < c.nO → hasB c o = true → s.B o = (ofO o O).map Ent.i

/-- All connections of the ends of an ordered connection are ordered. -/
theorem ordered_in {c : XCfg} {i o : Nat} (ho : o < c.nO) (k : c.con i o = true) (h : Ordered c i o) :
    ∀ o', o' < c.nO → c.con i o' = true → Ordered c i o' := by
  intro o' ho' k'
  rcases Bool.eq_false_or_eq_true (hasA c i) with e | e
  · exact Or.inl e
  · exact out_unique e ho ho' k k' ▸ h

theorem ordered_out {c : XCfg} {i o : Nat} (hi : i < c.nI) (k : c.con i o = true) (h : Ordered c i o) :
    ∀ i', i' < c.nI → c.con i' o = true → Ordered c i' o := by
  intro i' hi' k'
  rcases Bool.eq_false_or_eq_true (hasB c o) with e | e
  · exact Or.inr e
  · exact in_unique e hi hi' k k' ▸ h

theorem ofI_first {i o : Nat} : ∀ {O : List (Ent β)} {e : Ent β}, (ofI i O).head? = some e → e.o = o →
    (O.filter (fun e => e.i == i && e.o == o)).head? = some e := by
  intro O
  induction O with
  | nil => intro e h; simp at h
  | cons f O ih =>
    intro e h ho
    by_cases hi : f.i = i
    · simp [ofI, hi] at h; subst h; simp [hi, ho]
    · simp only [ofI, List.filter_cons, beq_iff_eq, hi, if_false] at h
      have := ih h ho
      simpa [List.filter_cons, hi] using this

theorem ofO_first {i o : Nat} : ∀ {O : List (Ent β)} {e : Ent β}, (ofO o O).head? = some e → e.i = i →
    (O.filter (fun e => e.i == i && e.o == o)).head? = some e := by
  intro O
  induction O with
  | nil => intro e h; simp at h
  | cons f O ih =>
    intro e h ho
    by_cases hi : f.o = o
    · simp [ofO, hi] at h; subst h; simp [hi, ho]
    · simp only [ofO, List.filter_cons, beq_iff_eq, hi, if_false] at h
      have := ih h ho
      simpa [List.filter_cons, hi] using this

/-- A transfer over an order fifo belongs to the first outstanding transaction of both its ends. -/
theorem XInv.head {c : XCfg} {plan : Nat → Nat → List (Beat β)} {G : List (Nat × Nat)} {s : XSt}
    {din : Nat → List (Beat β)} {dout : Nat → List (Option (Beat β))} {O : List (Ent β)} (h : XInv c plan G s din dout O) {x : XIn β} {i o : Nat}
    (hx : Xfer c s x i o) (ho : Ordered c i o) :
    ∃ e l l', ofI i O = e :: l ∧ ofO o O = e :: l' ∧ e.i = i ∧ e.o = o ∧ e ∈ O := by
  -- an outstanding transaction of this pair is in the list
  have hex : ∃ e ∈ O, e.i = i ∧ e.o = o := by
    rcases ho with ha | hb
    · obtain ⟨k1, k2⟩ := hx.a ha
      obtain ⟨l, hl⟩ := aData_head k1 k2
      rw [h.aEq i hx.hi ha] at hl
      have : o ∈ (ofI i O).map Ent.o := by rw [hl]; simp
      obtain ⟨e, he, eo⟩ := List.mem_map.1 this
      obtain ⟨m, ei⟩ := List.mem_filter.1 he
      exact ⟨e, m, by simpa using ei, eo⟩
    · obtain ⟨k1, k2⟩ := hx.b hb
      obtain ⟨l, hl⟩ := bData_head k1 k2
      rw [h.bEq o hx.ho hb] at hl
      have : i ∈ (ofO o O).map Ent.i := by rw [hl]; simp
      obtain ⟨e, he, eo⟩ := List.mem_map.1 this
      obtain ⟨m, ei⟩ := List.mem_filter.1 he
      exact ⟨e, m, eo, by simpa using ei⟩
  obtain ⟨z, hz, zi, zo⟩ := hex
  have hI : ∃ e l, ofI i O = e :: l ∧ e.o = o := by
    match hl : ofI i O with
    | [] =>
      have : z ∈ ofI i O := List.mem_filter.2 ⟨hz, by simp [zi]⟩
      rw [hl] at this; simp at this
    | e :: l =>
      refine ⟨e, l, rfl, ?_⟩
      have me : e ∈ ofI i O := by rw [hl]; simp
      obtain ⟨mO, ei⟩ := List.mem_filter.1 me
      have ei : e.i = i := by simpa using ei
      rcases Bool.eq_false_or_eq_true (hasA c i) with ha | ha
      · obtain ⟨k1, k2⟩ := hx.a ha
        obtain ⟨l2, hl2⟩ := aData_head k1 k2
        rw [h.aEq i hx.hi ha, hl] at hl2
        simp at hl2; exact hl2.1
      · obtain ⟨_, eo, ec, _⟩ := h.ent e mO
        rw [ei] at ec
        exact out_unique ha eo hx.ho ec hx.con
  have hO : ∃ e l, ofO o O = e :: l ∧ e.i = i := by
    match hl : ofO o O with
    | [] =>
      have : z ∈ ofO o O := List.mem_filter.2 ⟨hz, by simp [zo]⟩
      rw [hl] at this; simp at this
    | e :: l =>
      refine ⟨e, l, rfl, ?_⟩
      have me : e ∈ ofO o O := by rw [hl]; simp
      obtain ⟨mO, eo⟩ := List.mem_filter.1 me
      have eo : e.o = o := by simpa using eo
      rcases Bool.eq_false_or_eq_true (hasB c o) with hb | hb
      · obtain ⟨k1, k2⟩ := hx.b hb
        obtain ⟨l2, hl2⟩ := bData_head k1 k2
        rw [h.bEq o hx.ho hb, hl] at hl2
        simp at hl2; exact hl2.1
      · obtain ⟨ei, _, ec, _⟩ := h.ent e mO
        rw [eo] at ec
        exact in_unique hb ei hx.hi ec hx.con
  obtain ⟨e, l, k1, k2⟩ := hI
  obtain ⟨e', l', k1', k2'⟩ := hO
  have f1 := ofI_first (O := O) (i := i) (e := e) (by rw [k1]; rfl) k2
  have f2 := ofO_first (O := O) (o := o) (e := e') (by rw [k1']; rfl) k2'
  rw [f1] at f2
  simp only [Option.some.injEq] at f2
  subst f2
  have me : e ∈ ofI i O := by rw [k1]; simp
  obtain ⟨mO, ei⟩ := List.mem_filter.1 me
  exact ⟨e, l, l', k1, k1', by simpa using ei, k2, mO⟩

open Classical in
/-- The pairs of this cycle which transfer over an order fifo. -/
noncomputable def xfers (c : XCfg) (s : XSt) (x : XIn β) : List (Nat × Nat) :=
  ((List.range c.nI).product (List.range c.nO)).filter (fun p => decide (Xfer c s x p.1 p.2 ∧ Ordered c p.1 p.2))

theorem mem_xfers {c : XCfg} {s : XSt} {x : XIn β} {p : Nat × Nat} :
    p ∈ xfers c s x ↔ Xfer c s x p.1 p.2 ∧ Ordered c p.1 p.2 := by
  classical
  unfold xfers
  rw [List.mem_filter, decide_eq_true_iff]
  constructor
  · exact fun h => h.2
  · intro h
    refine ⟨?_, h⟩
    obtain ⟨a, b⟩ := p
    exact List.mem_product.2 ⟨List.mem_range.2 h.1.hi, List.mem_range.2 h.1.ho⟩

theorem xfers_pairwise (c : XCfg) (s : XSt) (x : XIn β) :
    (xfers c s x).Pairwise (fun a b => a.1 ≠ b.1 ∧ a.2 ≠ b.2) := by
  classical
  have hn : (xfers c s x).Nodup := (List.Nodup.product List.nodup_range List.nodup_range).filter _
  refine hn.imp_of_mem ?_
  intro a b ha hb hab
  have ha := (mem_xfers.1 ha).1
  have hb := (mem_xfers.1 hb).1
  refine ⟨fun e => ?_, fun e => ?_⟩
  · exact hab (Prod.ext e (xfer_fun (e ▸ ha) hb))
  · exact hab (Prod.ext (xfer_inj (e ▸ ha) hb) e)

/-- Words taken from the input in this cycle. -/
def took (c : XCfg) (s : XSt) (x : XIn β) (i : Nat) : List (Beat β) := given (x.vld i && xRd c s x i) (x.beat i)
/-- Words given by the output in this cycle. -/
def gave (c : XCfg) (s : XSt) (x : XIn β) (o : Nat) : List (Option (Beat β)) :=
  given (xVld c s x o && x.rd o) (xBeat c s x o)

theorem prefix_head {a : List (Beat β)} {b z : Beat β} {r t E : List (Beat β)} (h1 : a ++ [b] <+: E)
    (h2 : a ++ (z :: r) ++ t = E) : b = z := by
  obtain ⟨q, hq⟩ := h1
  rw [← h2] at hq
  simp only [List.append_assoc, List.append_cancel_left_eq, List.cons_append, List.nil_append,
    List.cons.injEq] at hq
  exact hq.1

theorem firstBursts_mono {plan : Nat → Nat → List (Beat β)} {i n k : Nat} (h : n ≤ k) :
    firstBursts plan i n <+: firstBursts plan i k := by
  obtain ⟨d, rfl⟩ := Nat.exists_eq_add_of_le h
  rw [firstBursts_add]
  exact List.prefix_append _ _

/-- Entries of the new transactions which use an order fifo. -/
def newEnts (c : XCfg) (plan : Nat → Nat → List (Beat β)) (n : Nat → Nat) (T : List (Nat × Nat)) : List (Ent β) :=
  ((tagFrom n T).filter (fun t => hasA c t.1 || hasB c t.2.1)).map (fun t => ⟨t.1, t.2.1, plan t.1 t.2.2⟩)

theorem mem_tagFrom {n : Nat → Nat} {T : List (Nat × Nat)} {t : Nat × Nat × Nat} (h : t ∈ tagFrom n T) :
    (t.1, t.2.1) ∈ T := by
  have := List.mem_map_of_mem (f := fun t : Nat × Nat × Nat => (t.1, t.2.1)) h
  rwa [tagFrom_fst] at this

theorem newEnts_ofI {c : XCfg} {plan : Nat → Nat → List (Beat β)} {n : Nat → Nat} {T : List (Nat × Nat)} {i : Nat}
    (hT : ∀ t ∈ T, t.1 < c.nI ∧ t.2 < c.nO ∧ c.con t.1 t.2 = true)
    (ho : ∀ o, o < c.nO → c.con i o = true → Ordered c i o) :
    ofI i (newEnts c plan n T)
      = ((tagFrom n T).filter (fun t => t.1 == i)).map (fun t => ⟨t.1, t.2.1, plan t.1 t.2.2⟩) := by
  unfold newEnts ofI
  rw [List.filter_map, List.filter_filter]
  congr 1
  refine List.filter_congr fun t ht => ?_
  obtain ⟨_, h2, h3⟩ := hT _ (mem_tagFrom ht)
  simp only [Function.comp_apply]
  by_cases e : t.1 = i
  · have : Ordered c t.1 t.2.1 := by rw [e] at h3 ⊢; exact ho _ h2 h3
    rcases this with k | k <;> simp [e, k] <;> simp [← e, k]
  · simp [e]

theorem newEnts_ofO {c : XCfg} {plan : Nat → Nat → List (Beat β)} {n : Nat → Nat} {T : List (Nat × Nat)} {o : Nat}
    (hT : ∀ t ∈ T, t.1 < c.nI ∧ t.2 < c.nO ∧ c.con t.1 t.2 = true)
    (ho : ∀ i, i < c.nI → c.con i o = true → Ordered c i o) :
    ofO o (newEnts c plan n T)
      = ((tagFrom n T).filter (fun t => t.2.1 == o)).map (fun t => ⟨t.1, t.2.1, plan t.1 t.2.2⟩) := by
  unfold newEnts ofO
  rw [List.filter_map, List.filter_filter]
  congr 1
  refine List.filter_congr fun t ht => ?_
  obtain ⟨h1, _, h3⟩ := hT _ (mem_tagFrom ht)
  simp only [Function.comp_apply]
  by_cases e : t.2.1 = o
  · have : Ordered c t.1 t.2.1 := by rw [e] at h3 ⊢; exact ho _ h1 h3
    rcases this with k | k <;> simp [e, k] <;> simp [← e, k]
  · simp [e]

theorem tag_ofI (n : Nat → Nat) (T : List (Nat × Nat)) (i : Nat) :
    ((tagFrom n T).filter (fun t => t.1 == i)).map (fun t => t.2.1) = (T.filter (fun t => t.1 == i)).map Prod.snd := by
  conv => rhs; rw [← tagFrom_fst n T]
  rw [List.filter_map, List.map_map]
  rfl

theorem tag_ofO (n : Nat → Nat) (T : List (Nat × Nat)) (o : Nat) :
    ((tagFrom n T).filter (fun t => t.2.1 == o)).map (fun t => t.1) = (T.filter (fun t => t.2 == o)).map Prod.fst := by
  conv => rhs; rw [← tagFrom_fst n T]
  rw [List.filter_map, List.map_map]
  rfl

/-- The word which is transferred is the next word of the first outstanding transaction. -/
theorem XInv.next {c : XCfg} {plan : Nat → Nat → List (Beat β)} {G : List (Nat × Nat)} {s : XSt}
    {din : Nat → List (Beat β)} {dout : Nat → List (Option (Beat β))} {O : List (Ent β)}
    (h : XInv c plan G s din dout O) {x : XIn β}
    (henv : ∀ i, i < c.nI → (∀ o, o < c.nO → c.con i o = true → Ordered c i o) →
      ∃ n, din i ++ took c s x i <+: firstBursts plan i n) {i o : Nat}
    (hx : Xfer c s x i o) (ho : Ordered c i o) :
    ∃ e l l' t, ofI i O = e :: l ∧ ofO o O = e :: l' ∧ e.i = i ∧ e.o = o ∧ e ∈ O ∧ e.rest = x.beat i :: t := by
  obtain ⟨e, l, l', h1, h2, h3, h4, h5⟩ := h.head hx ho
  have hoi := ordered_in hx.ho hx.con ho
  obtain ⟨n, hn⟩ := henv i hx.hi hoi
  have ht : took c s x i = [x.beat i] := by
    unfold took; rw [(xfer_iff_rd hx.hi).2 ⟨o, hx⟩]; rfl
  have hd := h.dinEq i hx.hi hoi
  match hr : e.rest with
  | [] => exact absurd hr (isBurst_ne (h.burst e h5))
  | b :: t =>
    refine ⟨e, l, l', t, h1, h2, h3, h4, h5, ?_⟩
    have hb : x.beat i = b := by
      rw [ht] at hn
      have hE := (firstBursts_mono (plan := plan) (i := i) (Nat.le_max_right (cnt G i) n))
      have hE' := (firstBursts_mono (plan := plan) (i := i) (Nat.le_max_left (cnt G i) n))
      obtain ⟨q, hq⟩ := hE'
      rw [← hd, h1, List.flatMap_cons, hr] at hq
      exact prefix_head (a := din i) (r := t) (t := l.flatMap Ent.rest ++ q) (hn.trans hE)
        (by rw [← hq]; simp only [List.append_assoc])
    rw [hr, hb]

theorem XInv.step {c : XCfg} {plan : Nat → Nat → List (Beat β)} {G : List (Nat × Nat)} {s : XSt}
    {din : Nat → List (Beat β)} {dout : Nat → List (Option (Beat β))} {O : List (Ent β)}
    (h : XInv c plan G s din dout O) (hplan : ∀ i k, IsBurst (plan i k)) (x : XIn β) (T : List (Nat × Nat))
    (pA pB : Nat → Option Nat) (hT : ∀ t ∈ T, t.1 < c.nI ∧ t.2 < c.nO ∧ c.con t.1 t.2 = true)
    (hA : ∀ i, i < c.nI → hasA c i = true → (pA i).toList = (T.filter (fun t => t.1 == i)).map Prod.snd)
    (hB : ∀ o, o < c.nO → hasB c o = true → (pB o).toList = (T.filter (fun t => t.2 == o)).map Prod.fst)
    (henv : ∀ i, i < c.nI → (∀ o, o < c.nO → c.con i o = true → Ordered c i o) →
      ∃ n, din i ++ took c s x i <+: firstBursts plan i n) :
    ∃ O', XInv c plan (G ++ T) (xNext c s x pA pB) (fun i => din i ++ took c s x i)
      (fun o => dout o ++ gave c s x o) O' := by
  have hnext := fun {i o} => h.next (i := i) (o := o) henv
  obtain ⟨a1, a2, a3, a4, a5⟩ := advs_spec (xfers c s x) O (xfers_pairwise c s x) (by
    intro p hp
    obtain ⟨hx, ho⟩ := mem_xfers.1 hp
    obtain ⟨e, l, l', t, h1, h2, h3, h4, _, _⟩ := hnext hx ho
    refine ⟨e.rest, e.rest, ?_, ?_⟩
    · rw [h1, List.head?_cons, ← h3, ← h4]
    · rw [h2, List.head?_cons, ← h3, ← h4]) h.burst
  refine ⟨advs (xfers c s x) O ++ newEnts c plan (fun i => 0 + cnt G i) T, ?_, ?_, ?_, ?_, ?_, ?_⟩
  · intro e he
    rcases List.mem_append.1 he with he | he
    · obtain ⟨_, r, hr⟩ := a5 e he
      exact h.ent ⟨e.i, e.o, r⟩ hr
    · obtain ⟨t, ht, rfl⟩ := List.mem_map.1 he
      obtain ⟨ht, ho⟩ := List.mem_filter.1 ht
      obtain ⟨k1, k2, k3⟩ := hT _ (mem_tagFrom ht)
      exact ⟨k1, k2, k3, by simpa [Ordered] using ho⟩
  · intro e he
    rcases List.mem_append.1 he with he | he
    · exact (a5 e he).1
    · obtain ⟨t, _, rfl⟩ := List.mem_map.1 he
      exact hplan _ _
  · intro i hi ho
    have hd := h.dinEq i hi ho
    rw [ofI, List.filter_append, List.flatMap_append, ← ofI, ← ofI, newEnts_ofI hT ho, List.flatMap_map,
      cnt_append, firstBursts_add, ← hd]
    have hnew : ((tagFrom (fun i => 0 + cnt G i) T).filter (fun t => t.1 == i)).flatMap (fun t => plan t.1 t.2.2)
        = (List.range (cnt T i)).flatMap (fun j => plan i (cnt G i + j)) := by
      have := tagFrom_filter (fun i => 0 + cnt G i) T i (plan i)
      simp only [Nat.zero_add] at this ⊢
      rw [← this]
      refine List.flatMap_congr fun t ht => ?_
      have : t.1 = i := by simpa using (List.mem_filter.1 ht).2
      rw [this]
    rw [hnew, ← List.append_assoc]
    congr 1
    by_cases hf : ∃ o, Xfer c s x i o
    · obtain ⟨o, hx⟩ := hf
      have hoo := ho o hx.ho hx.con
      obtain ⟨e, l, l', t, h1, _, _, _, _, h6⟩ := hnext hx hoo
      have ht : took c s x i = [x.beat i] := by
        unfold took; rw [(xfer_iff_rd hi).2 ⟨o, hx⟩]; rfl
      rw [a1 i ⟨(i, o), mem_xfers.2 ⟨hx, hoo⟩, rfl⟩, h1, ht, advHead_flat h6, List.append_assoc]
      rfl
    · have ht : took c s x i = [] := by
        unfold took
        have : (x.vld i && xRd c s x i) = false := by
          rw [← Bool.not_eq_true, xfer_iff_rd hi]; exact hf
        rw [this]; rfl
      rw [a2 i (by rintro ⟨p, hp, rfl⟩; exact hf ⟨p.2, (mem_xfers.1 hp).1⟩), ht, List.append_nil]
  · intro o hlo ho
    have hd := h.doutEq o hlo ho
    have hexp : expected plan (G ++ T) o = expected plan G o
        ++ ((tagFrom (fun i => 0 + cnt G i) T).filter (fun t => t.2.1 == o)).flatMap (fun t => plan t.1 t.2.2) := by
      unfold expected
      rw [tagFrom_append, List.filter_append, List.flatMap_append]
    rw [ofO, List.filter_append, List.flatMap_append, ← ofO, ← ofO, newEnts_ofO hT ho, List.flatMap_map,
      hexp, List.map_append, List.map_append, ← hd, ← List.append_assoc]
    congr 1
    by_cases hf : ∃ i, Xfer c s x i o
    · obtain ⟨i, hx⟩ := hf
      have hoo := ho i hx.hi hx.con
      obtain ⟨e, l, l', t, _, h2, _, _, _, h6⟩ := hnext hx hoo
      have ht : gave c s x o = [some (x.beat i)] := by
        unfold gave; rw [(xfer_iff_vld hlo).2 ⟨i, hx⟩, xfer_beat hx]; rfl
      rw [a3 o ⟨(i, o), mem_xfers.2 ⟨hx, hoo⟩, rfl⟩, h2, ht, advHead_flat h6, List.append_assoc]
      rfl
    · have ht : gave c s x o = [] := by
        unfold gave
        have : (xVld c s x o && x.rd o) = false := by
          rw [← Bool.not_eq_true, xfer_iff_vld hlo]; exact hf
        rw [this]; rfl
      rw [a4 o (by rintro ⟨p, hp, rfl⟩; exact hf ⟨p.1, (mem_xfers.1 hp).1⟩), ht, List.append_nil]
  · intro i hi ha
    have hoi : ∀ o, o < c.nO → c.con i o = true → Ordered c i o := fun _ _ _ => Or.inl ha
    have he := h.aEq i hi ha
    rw [ofI, List.filter_append, List.map_append, ← ofI, ← ofI, newEnts_ofI hT hoi, List.map_map]
    show _ ++ (pA i).toList = _ ++ List.map (fun t : Nat × Nat × Nat => t.2.1) _
    rw [tag_ofI, hA i hi ha]
    congr 1
    by_cases hf : ∃ o, Xfer c s x i o
    · have hp := popA_iff (s := s) (x := x) hi
      obtain ⟨o, hx⟩ := hf
      have hoo := hoi o hx.ho hx.con
      obtain ⟨e, l, l', t, h1, _, _, _, h5, h6⟩ := hnext hx hoo
      rw [a1 i ⟨(i, o), mem_xfers.2 ⟨hx, hoo⟩, rfl⟩, he, h1,
        advHead_map Ent.o (fun a b _ k => k) h6 (h.burst e h5)]
      have : xPopA c s x i = (x.beat i).last := by
        rw [Bool.eq_iff_iff, hp]
        exact ⟨fun k => k.2.2, fun k => ⟨ha, ⟨o, hx⟩, k⟩⟩
      rw [this]
    · rw [a2 i (by rintro ⟨p, hp, rfl⟩; exact hf ⟨p.2, (mem_xfers.1 hp).1⟩), ← he, if_neg]
      rw [popA_iff hi]; exact fun k => hf k.2.1
  · intro o hlo hb
    have hoi : ∀ i, i < c.nI → c.con i o = true → Ordered c i o := fun _ _ _ => Or.inr hb
    have he := h.bEq o hlo hb
    rw [ofO, List.filter_append, List.map_append, ← ofO, ← ofO, newEnts_ofO hT hoi, List.map_map]
    show _ ++ (pB o).toList = _ ++ List.map (fun t : Nat × Nat × Nat => t.1) _
    rw [tag_ofO, hB o hlo hb]
    congr 1
    by_cases hf : ∃ i, Xfer c s x i o
    · have hp := popB_iff (s := s) (x := x) hlo
      obtain ⟨i, hx⟩ := hf
      have hoo := hoi i hx.hi hx.con
      obtain ⟨e, l, l', t, _, h2, _, _, h5, h6⟩ := hnext hx hoo
      rw [a3 o ⟨(i, o), mem_xfers.2 ⟨hx, hoo⟩, rfl⟩, he, h2,
        advHead_map Ent.i (fun a b k _ => k) h6 (h.burst e h5)]
      have : xPopB c s x o = (x.beat i).last := by
        rw [Bool.eq_iff_iff, hp]
        refine ⟨fun ⟨_, j, k, k'⟩ => ?_, fun k => ⟨hb, i, hx, k⟩⟩
        rw [xfer_inj hx k]; exact k'
      rw [this]
    · rw [a4 o (by rintro ⟨p, hp, rfl⟩; exact hf ⟨p.1, (mem_xfers.1 hp).1⟩), ← he, if_neg]
      rw [popB_iff hlo]; exact fun k => hf ⟨k.2.choose, k.2.choose_spec.1⟩

theorem xInv_init (c : XCfg) (plan : Nat → Nat → List (Beat β)) :
    XInv c plan [] xInit (fun _ => []) (fun _ => []) [] := by
  refine ⟨by simp, by simp, ?_, ?_, ?_, ?_⟩
  · intro i _ _; simp [firstBursts, cnt]
  · intro o _ _; simp [expected, tagFrom]
  · intro i _ _; rfl
  · intro o _ _; rfl

end Verif.AxiMatrix
