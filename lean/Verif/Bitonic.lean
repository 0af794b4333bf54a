import Mathlib.Order.Lattice
import Mathlib.Order.BoundedOrder.Basic
import Mathlib.Order.Monotone.Basic
import Mathlib.Data.List.Basic
import Mathlib.Order.MinMax
import Mathlib.Data.Bool.Basic
import Verif.Common
/-!
# Model of `BitonicSorter` (hwtLib/logic/bitonicSorter.py)

Comparator network over a linearly ordered type with the default comparison `x < y`; `ITEMS = 2^k`.
-/
namespace Verif.Bitonic

universe u v
variable {α : Type u} [LinearOrder α]

/-- `cmpFn` after an even (`neg = false`) or odd (`neg = true`) number of negations by
`lambda x, y: ~cmpFn(x, y)` (logic/bitonicSorter.py:20, :52). -/
def cmp (neg : Bool) (x y : α) : Bool := neg ^^ decide (x < y)

/-- The two outputs of a comparator, logic/bitonicSorter.py:76-83. -/
def lo (neg : Bool) (x y : α) : α := if cmp neg x y then x else y
def hi (neg : Bool) (x y : α) : α := if cmp neg x y then y else x

/-- logic/bitonicSorter.py:72-84 (even number of items) -/
def compare (neg : Bool) (x : List α) : List α :=
  let dist := x.length / 2
  List.zipWith (lo neg) (x.take dist) (x.drop dist) ++ List.zipWith (hi neg) (x.take dist) (x.drop dist)

/-- logic/bitonicSorter.py:58-70 for `2^k` items -/
def merge (neg : Bool) : Nat → List α → List α
  | 0, x => x
  | k + 1, x =>
    let y := compare neg x
    let off := y.length / 2
    merge neg k (y.take off) ++ merge neg k (y.drop off)

/-- logic/bitonicSorter.py:43-56 for `2^k` items -/
def sort (neg : Bool) : Nat → List α → List α
  | 0, x => x
  | k + 1, x =>
    let off := x.length / 2
    merge neg (k + 1) (sort neg k (x.take off) ++ sort (!neg) k (x.drop off))

/-! ## Length and permutation -/

theorem compare_length (neg : Bool) {x : List α} {m : Nat} (h : x.length = 2 * m) :
    (compare neg x).length = 2 * m := by
  simp [compare, h]; omega

theorem lo_hi_cases (neg : Bool) (x y : α) :
    (lo neg x y = x ∧ hi neg x y = y) ∨ (lo neg x y = y ∧ hi neg x y = x) := by
  unfold lo hi
  cases cmp neg x y <;> simp

theorem zip_perm (neg : Bool) : ∀ (a b : List α), a.length = b.length →
    (List.zipWith (lo neg) a b ++ List.zipWith (hi neg) a b).Perm (a ++ b) := by
  intro a
  induction a with
  | nil => intro b h; cases b with
    | nil => simp
    | cons _ _ => simp at h
  | cons x a ih =>
    intro b h
    cases b with
    | nil => simp at h
    | cons y b =>
      have hi' := ih b (by simpa using h)
      simp only [List.zipWith_cons_cons, List.cons_append]
      rcases lo_hi_cases neg x y with ⟨h1, h2⟩ | ⟨h1, h2⟩ <;> rw [h1, h2]
      · exact List.Perm.cons _ ((List.perm_middle.trans (List.Perm.cons _ hi')).trans
          List.perm_middle.symm)
      · have h3 : (List.zipWith (lo neg) a b ++ x :: List.zipWith (hi neg) a b).Perm
            (x :: (a ++ b)) := List.perm_middle.trans (List.Perm.cons _ hi')
        have h4 : (x :: (a ++ y :: b)).Perm (x :: y :: (a ++ b)) :=
          List.Perm.cons _ List.perm_middle
        exact ((List.Perm.cons y h3).trans (List.Perm.swap x y _)).trans h4.symm

theorem compare_perm (neg : Bool) {x : List α} {m : Nat} (h : x.length = 2 * m) :
    (compare neg x).Perm x := by
  have h1 := zip_perm neg (x.take (x.length / 2)) (x.drop (x.length / 2)) (by simp [h]; omega)
  rw [List.take_append_drop] at h1
  exact h1

theorem merge_perm (neg : Bool) : ∀ (k : Nat) (x : List α), x.length = 2 ^ k →
    (merge neg k x).Perm x := by
  intro k
  induction k with
  | zero => intro x _; exact List.Perm.refl _
  | succ k ih =>
    intro x h
    have hx : x.length = 2 * 2 ^ k := by rw [h, Nat.pow_succ]; omega
    have hc := compare_length neg hx
    have e : (compare neg x).length / 2 = 2 ^ k := by omega
    unfold merge
    simp only [e]
    have h1 := ih ((compare neg x).take (2 ^ k)) (by simp [hc]; omega)
    have h2 := ih ((compare neg x).drop (2 ^ k)) (by simp [hc]; omega)
    have h3 := h1.append h2
    rw [List.take_append_drop] at h3
    exact h3.trans (compare_perm neg hx)

theorem sort_perm : ∀ (k : Nat) (neg : Bool) (x : List α), x.length = 2 ^ k →
    (sort neg k x).Perm x := by
  intro k
  induction k with
  | zero => intro neg x _; exact List.Perm.refl _
  | succ k ih =>
    intro neg x h
    have hx : x.length = 2 * 2 ^ k := by rw [h, Nat.pow_succ]; omega
    have e : x.length / 2 = 2 ^ k := by omega
    unfold sort
    simp only [e]
    have h1 := ih neg (x.take (2 ^ k)) (by simp [hx]; omega)
    have h2 := ih (!neg) (x.drop (2 ^ k)) (by simp [hx]; omega)
    have h3 := h1.append h2
    rw [List.take_append_drop] at h3
    exact (merge_perm neg (k + 1) _ (by rw [h3.length_eq, h])).trans h3

/-! ## Comparators commute with monotone maps (0-1 principle) -/

variable {β : Type v} [LinearOrder β]

theorem lo_false (x y : α) : lo false x y = min x y := by
  unfold lo cmp
  by_cases h : x < y
  · simp [h, min_eq_left h.le]
  · simp [h, min_eq_right (not_lt.1 h)]

theorem hi_false (x y : α) : hi false x y = max x y := by
  unfold hi cmp
  by_cases h : x < y
  · simp [h, max_eq_right h.le]
  · simp [h, max_eq_left (not_lt.1 h)]

theorem lo_true (x y : α) : lo true x y = max x y := by
  unfold lo cmp
  by_cases h : x < y
  · simp [h, max_eq_right h.le]
  · simp [h, max_eq_left (not_lt.1 h)]

theorem hi_true (x y : α) : hi true x y = min x y := by
  unfold hi cmp
  by_cases h : x < y
  · simp [h, min_eq_left h.le]
  · simp [h, min_eq_right (not_lt.1 h)]

theorem lo_map {f : α → β} (hf : Monotone f) (neg : Bool) (x y : α) :
    f (lo neg x y) = lo neg (f x) (f y) := by
  cases neg
  · rw [lo_false, lo_false, hf.map_min]
  · rw [lo_true, lo_true, hf.map_max]

theorem hi_map {f : α → β} (hf : Monotone f) (neg : Bool) (x y : α) :
    f (hi neg x y) = hi neg (f x) (f y) := by
  cases neg
  · rw [hi_false, hi_false, hf.map_max]
  · rw [hi_true, hi_true, hf.map_min]

omit [LinearOrder α] [LinearOrder β] in
theorem map_zip {f : α → β} {g : α → α → α} {g' : β → β → β} (h : ∀ x y, f (g x y) = g' (f x) (f y)) :
    ∀ (a b : List α), (List.zipWith g a b).map f = List.zipWith g' (a.map f) (b.map f) := by
  intro a
  induction a with
  | nil => intro b; simp
  | cons x a ih =>
    intro b
    cases b with
    | nil => simp
    | cons y b => simp [h, ih]

theorem compare_map {f : α → β} (hf : Monotone f) (neg : Bool) (x : List α) :
    (compare neg x).map f = compare neg (x.map f) := by
  unfold compare
  simp only [List.map_append, List.length_map]
  rw [map_zip (lo_map hf neg), map_zip (hi_map hf neg), List.map_take, List.map_drop]

theorem merge_map {f : α → β} (hf : Monotone f) (neg : Bool) : ∀ (k : Nat) (x : List α),
    (merge neg k x).map f = merge neg k (x.map f) := by
  intro k
  induction k with
  | zero => intro x; rfl
  | succ k ih =>
    intro x
    unfold merge
    simp only [List.map_append, ih, List.map_take, List.map_drop, compare_map hf]
    rw [← compare_map hf, List.length_map]

theorem sort_map {f : α → β} (hf : Monotone f) : ∀ (k : Nat) (neg : Bool) (x : List α),
    (sort neg k x).map f = sort neg k (x.map f) := by
  intro k
  induction k with
  | zero => intro neg x; rfl
  | succ k ih =>
    intro neg x
    unfold sort
    simp only [merge_map hf, List.map_append, ih, List.map_take, List.map_drop, List.length_map]

/-! ## Bool inputs -/

theorem not_not_map (x : List Bool) : (x.map (!·)).map (!·) = x := by
  rw [List.map_map]
  have : ((fun x => !x) ∘ fun x => !x : Bool → Bool) = id := by funext b; simp
  rw [this, List.map_id]

/-- negation of all bits exchanges the two directions -/
theorem lo_not (neg x y : Bool) : (!lo neg x y) = lo (!neg) (!x) (!y) := by
  revert neg x y; decide
theorem hi_not (neg x y : Bool) : (!hi neg x y) = hi (!neg) (!x) (!y) := by
  revert neg x y; decide

theorem compare_not (neg : Bool) (x : List Bool) :
    (compare neg x).map (!·) = compare (!neg) (x.map (!·)) := by
  unfold compare
  simp only [List.map_append, List.length_map]
  rw [map_zip (lo_not neg), map_zip (hi_not neg), List.map_take, List.map_drop]

theorem merge_not (neg : Bool) : ∀ (k : Nat) (x : List Bool),
    (merge neg k x).map (!·) = merge (!neg) k (x.map (!·)) := by
  intro k
  induction k with
  | zero => intro x; rfl
  | succ k ih =>
    intro x
    unfold merge
    simp only [List.map_append, ih, List.map_take, List.map_drop, compare_not]
    rw [← compare_not, List.length_map]

theorem sort_not : ∀ (k : Nat) (neg : Bool) (x : List Bool),
    (sort neg k x).map (!·) = sort (!neg) k (x.map (!·)) := by
  intro k
  induction k with
  | zero => intro neg x; rfl
  | succ k ih =>
    intro neg x
    unfold sort
    simp only [merge_not, List.map_append, ih, List.map_take, List.map_drop, List.length_map]

/-- value pattern `v…v ¬v…¬v v…v` -/
def Bito (x : List Bool) : Prop :=
  ∃ (v : Bool) (p q : Nat), ∀ i (h : i < x.length), x[i] = (v ^^ decide (p ≤ i ∧ i < q))

theorem bito_not {x : List Bool} (h : Bito x) : Bito (x.map (!·)) := by
  obtain ⟨v, p, q, h⟩ := h
  refine ⟨!v, p, q, fun i hi => ?_⟩
  rw [List.getElem_map, h]
  simp

theorem bito_const {x : List Bool} {v : Bool} (h : ∀ b ∈ x, b = v) : Bito x :=
  ⟨v, 0, 0, fun i hi => by rw [h _ (List.getElem_mem hi)]; simp⟩

theorem compare_take (neg : Bool) {x : List α} {m : Nat} (hx : x.length = 2 * m) :
    (compare neg x).take m = List.zipWith (lo neg) (x.take m) (x.drop m) := by
  have e : x.length / 2 = m := by omega
  unfold compare
  simp only [e]
  rw [List.take_append_of_le_length (by simp; omega), List.take_of_length_le (by simp)]

theorem compare_drop (neg : Bool) {x : List α} {m : Nat} (hx : x.length = 2 * m) :
    (compare neg x).drop m = List.zipWith (hi neg) (x.take m) (x.drop m) := by
  have e : x.length / 2 = m := by omega
  unfold compare
  simp only [e]
  rw [List.drop_append_of_le_length (by simp; omega), List.drop_of_length_le (by simp)]
  rfl

/-- halves of a compared bitonic sequence of the form `0…01…10…0` -/
theorem compare_bito_false {x : List Bool} {m p q : Nat} (hx : x.length = 2 * m)
    (hq : q ≤ 2 * m)
    (h : ∀ i (h : i < x.length), x[i] = decide (p ≤ i ∧ i < q)) :
    ((∀ b ∈ (compare false x).take m, b = false) ∧ Bito ((compare false x).drop m)) ∨
    (Bito ((compare false x).take m) ∧ (∀ b ∈ (compare false x).drop m, b = true)) := by
  rw [compare_take false hx, compare_drop false hx]
  have lo_and : ∀ a b : Bool, lo false a b = (a && b) := by decide
  have hi_or : ∀ a b : Bool, hi false a b = (a || b) := by decide
  have gl : ∀ i (hi : i < (List.zipWith (lo false) (x.take m) (x.drop m)).length),
      (List.zipWith (lo false) (x.take m) (x.drop m))[i]
        = (decide (p ≤ i ∧ i < q) && decide (p ≤ m + i ∧ m + i < q)) := by
    intro i hi
    simp only [List.length_zipWith, List.length_take, List.length_drop] at hi
    rw [List.getElem_zipWith, List.getElem_take, List.getElem_drop, lo_and, h, h]
  have gh : ∀ i (h' : i < (List.zipWith (hi false) (x.take m) (x.drop m)).length),
      (List.zipWith (hi false) (x.take m) (x.drop m))[i]
        = (decide (p ≤ i ∧ i < q) || decide (p ≤ m + i ∧ m + i < q)) := by
    intro i hi
    simp only [List.length_zipWith, List.length_take, List.length_drop] at hi
    rw [List.getElem_zipWith, List.getElem_take, List.getElem_drop, hi_or, h, h]
  have hl1 : (List.zipWith (lo false) (x.take m) (x.drop m)).length = m := by simp; omega
  have hl2 : (List.zipWith (hi false) (x.take m) (x.drop m)).length = m := by simp; omega
  have bool_iff : ∀ (a b : Bool), (a = true ↔ b = true) → a = b := by decide
  rcases Nat.lt_or_ge p (q - m) with hpq | hpq
  · -- the ones cover more than a half: low part is an interval, high part is all ones
    by_cases hqm : m ≤ q
    · right
      refine ⟨⟨false, p, q - m, fun i hi => ?_⟩, ?_⟩
      · rw [gl]
        rw [hl1] at hi
        apply bool_iff
        simp only [Bool.and_eq_true, decide_eq_true_eq, Bool.false_xor]
        omega
      · intro b hb
        obtain ⟨i, hi, rfl⟩ := List.getElem_of_mem hb
        rw [gh]
        rw [hl2] at hi
        simp only [Bool.or_eq_true, decide_eq_true_eq]
        omega
    · omega
  · left
    refine ⟨?_, ?_⟩
    · intro b hb
      obtain ⟨i, hi, rfl⟩ := List.getElem_of_mem hb
      rw [gl]
      rw [hl1] at hi
      rw [← Bool.not_eq_true]
      simp only [Bool.and_eq_true, decide_eq_true_eq]
      omega
    · rcases Nat.lt_or_ge m q with hqm | hqm
      · rcases Nat.lt_or_ge p m with hpm | hpm
        · refine ⟨true, q - m, p, fun i hi => ?_⟩
          rw [gh]
          rw [hl2] at hi
          apply bool_iff
          simp only [Bool.or_eq_true, decide_eq_true_eq, Bool.true_xor, Bool.not_eq_true',
            decide_eq_false_iff_not]
          omega
        · refine ⟨false, p - m, q - m, fun i hi => ?_⟩
          rw [gh]
          rw [hl2] at hi
          apply bool_iff
          simp only [Bool.or_eq_true, decide_eq_true_eq, Bool.false_xor]
          omega
      · refine ⟨false, p, q, fun i hi => ?_⟩
        rw [gh]
        rw [hl2] at hi
        apply bool_iff
        simp only [Bool.or_eq_true, decide_eq_true_eq, Bool.false_xor]
        omega

theorem compare_bito {x : List Bool} {m : Nat} (hx : x.length = 2 * m) (h : Bito x) :
    ((∀ b ∈ (compare false x).take m, b = false) ∧ Bito ((compare false x).drop m)) ∨
    (Bito ((compare false x).take m) ∧ (∀ b ∈ (compare false x).drop m, b = true)) := by
  obtain ⟨v, p, q, h⟩ := h
  have h' : ∀ i (h : i < x.length), x[i] = (v ^^ decide (p ≤ i ∧ i < min q (2 * m))) := by
    intro i hi
    rw [h i hi]
    congr 1
    have : (p ≤ i ∧ i < q) ↔ (p ≤ i ∧ i < min q (2 * m)) := by omega
    simp only [this]
  clear h
  generalize hq' : min q (2 * m) = q' at h'
  have hq : q' ≤ 2 * m := by omega
  clear hq'
  cases v with
  | false => exact compare_bito_false hx hq (by simpa using h')
  | true =>
    -- dual of the other case
    have hlen : (x.map (!·)).length = 2 * m := by simpa using hx
    -- the high half of `x` is the negated low half of the negation, via `compare true`
    have e : x.length / 2 = m := by omega
    have swap : compare false x = (compare true (x.map (!·))).map (!·) := by
      rw [compare_not, not_not_map]; rfl
    have hT : ∀ y : List Bool, y.length = 2 * m →
        (compare true y).take m = (compare false y).drop m ∧
        (compare true y).drop m = (compare false y).take m := by
      intro y hy
      have e1 : lo true = hi (α := Bool) false := by funext a b; revert a b; decide
      have e2 : hi true = lo (α := Bool) false := by funext a b; revert a b; decide
      rw [compare_take true hy, compare_drop true hy, compare_take false hy, compare_drop false hy,
        e1, e2]
      exact ⟨rfl, rfl⟩
    obtain ⟨t1, t2⟩ := hT _ hlen
    have hc := compare_bito_false (x := x.map (!·)) (p := p) hlen hq (by
      intro i hi
      rw [List.getElem_map, h']
      simp)
    rw [swap, ← List.map_take, ← List.map_drop, t1, t2]
    rcases hc with ⟨h1, h2⟩ | ⟨h1, h2⟩
    · right
      refine ⟨bito_not h2, ?_⟩
      intro b hb
      obtain ⟨c, hc, rfl⟩ := List.mem_map.1 hb
      rw [h1 c hc]; rfl
    · left
      refine ⟨?_, bito_not h1⟩
      intro b hb
      obtain ⟨c, hc, rfl⟩ := List.mem_map.1 hb
      rw [h2 c hc]; rfl

/-- merging a bitonic Bool sequence sorts it -/
theorem merge_bito : ∀ (k : Nat) (x : List Bool), x.length = 2 ^ k → Bito x →
    (merge false k x).Pairwise (· ≤ ·) := by
  intro k
  induction k with
  | zero =>
    intro x h _
    match x, h with
    | [a], _ => simp [merge]
  | succ k ih =>
    intro x h hb
    have hx : x.length = 2 * 2 ^ k := by rw [h, Nat.pow_succ]; omega
    have hc := compare_length false hx
    have e : (compare false x).length / 2 = 2 ^ k := by omega
    unfold merge
    simp only [e]
    have l1 : ((compare false x).take (2 ^ k)).length = 2 ^ k := by simp [hc]; omega
    have l2 : ((compare false x).drop (2 ^ k)).length = 2 ^ k := by simp [hc]; omega
    have p1 := merge_perm false k _ l1
    have p2 := merge_perm false k _ l2
    rw [List.pairwise_append]
    rcases compare_bito hx hb with ⟨h1, h2⟩ | ⟨h1, h2⟩
    · refine ⟨ih _ l1 (bito_const h1), ih _ l2 h2, ?_⟩
      intro a ha b _
      rw [h1 a (p1.mem_iff.1 ha)]
      exact Bool.false_le b
    · refine ⟨ih _ l1 h1, ih _ l2 (bito_const h2), ?_⟩
      intro a _ b hb
      rw [h2 b (p2.mem_iff.1 hb)]
      exact Bool.le_true a

/-- sorted Bool list: zeros then ones -/
theorem sorted_threshold : ∀ (x : List Bool), x.Pairwise (· ≤ ·) →
    ∃ p, p ≤ x.length ∧ ∀ i (h : i < x.length), x[i] = decide (p ≤ i) := by
  intro x
  induction x with
  | nil => intro _; exact ⟨0, Nat.le_refl _, fun i h => by simp at h⟩
  | cons a x ih =>
    intro h
    rw [List.pairwise_cons] at h
    cases a with
    | false =>
      obtain ⟨p, hp, hx⟩ := ih h.2
      refine ⟨p + 1, by simp; omega, ?_⟩
      intro i hi
      cases i with
      | zero => simp
      | succ i => simpa using hx i (by simpa using hi)
    | true =>
      refine ⟨0, Nat.zero_le _, ?_⟩
      intro i hi
      cases i with
      | zero => simp
      | succ i =>
        have hi' : i < x.length := by simpa using hi
        have hle := h.1 x[i] (List.getElem_mem _)
        have : x[i] = true := by
          revert hle
          cases x[i] <;> decide
        simpa using this

theorem sort_bool : ∀ (k : Nat) (x : List Bool), x.length = 2 ^ k →
    (sort false k x).Pairwise (· ≤ ·) := by
  intro k
  induction k with
  | zero =>
    intro x h
    match x, h with
    | [a], _ => simp [sort]
  | succ k ih =>
    intro x h
    have hx : x.length = 2 * 2 ^ k := by rw [h, Nat.pow_succ]; omega
    have e : x.length / 2 = 2 ^ k := by omega
    unfold sort
    simp only [e]
    have l1 : (x.take (2 ^ k)).length = 2 ^ k := by simp [hx]; omega
    have l2 : (x.drop (2 ^ k)).length = 2 ^ k := by simp [hx]; omega
    have p1 := (sort_perm k false _ l1).length_eq
    have p2 := (sort_perm k true _ l2).length_eq
    rw [l1] at p1
    rw [l2] at p2
    -- ascending part
    obtain ⟨p, hp, h1⟩ := sorted_threshold _ (ih _ l1)
    -- descending part
    have hneg : sort true k (x.drop (2 ^ k)) = (sort false k ((x.drop (2 ^ k)).map (!·))).map (!·) := by
      rw [sort_not, not_not_map]; rfl
    obtain ⟨q, hq, h2⟩ := sorted_threshold _ (ih ((x.drop (2 ^ k)).map (!·)) (by simpa using l2))
    apply merge_bito
    · rw [List.length_append, p1]
      show _ + (sort true k _).length = _
      rw [p2, Nat.pow_succ]; omega
    · refine ⟨false, p, 2 ^ k + q, ?_⟩
      intro i hi
      rw [List.length_append, p1] at hi
      change i < 2 ^ k + (sort true k _).length at hi
      rw [p2] at hi
      rw [p1] at hp
      rcases Nat.lt_or_ge i (2 ^ k) with hlt | hge
      · rw [List.getElem_append_left (by omega), h1]
        simp only [Bool.false_xor]
        congr 1
        apply propext
        omega
      · rw [List.getElem_append_right (by omega)]
        simp only [p1, Bool.not_false]
        have h3 : ∀ (j : Nat) (hj : j < (sort true k (x.drop (2 ^ k))).length),
            (sort true k (x.drop (2 ^ k)))[j] = decide (j < q) := by
          intro j hj
          simp only [hneg]
          rw [List.getElem_map, h2]
          by_cases hjq : j < q
          · simp [hjq]
          · simp [hjq, Nat.le_of_not_lt hjq]
        rw [h3]
        simp only [Bool.false_xor]
        congr 1
        apply propext
        omega

end Verif.Bitonic
