import Verif.ExReg
/-!
# Properties of the examples of registers and of the search for a zero bit
-/
namespace Verif.ExReg

/-- a variable which is written by some events holds the last written value, or the first one -/
theorem last_write {S E : Type} (step : S → E → S) (w : E → Option S)
    (h : ∀ s e, step s e = (w e).getD s) (s v : S) : ∀ es : List E, es.foldl step s = v ↔
    (∃ l e r, es = l ++ e :: r ∧ w e = some v ∧ ∀ x ∈ r, w x = none) ∨ (s = v ∧ ∀ x ∈ es, w x = none) := by
  intro es
  induction es generalizing s with
  | nil =>
    constructor
    · intro q; exact Or.inr ⟨q, fun x hx => absurd hx List.not_mem_nil⟩
    · rintro (⟨l, e, r, q, _⟩ | ⟨q, _⟩)
      · cases l <;> cases q
      · exact q
  | cons a es ih =>
    rw [List.foldl_cons, ih (step s a), h s a]
    constructor
    · rintro (⟨l, e, r, q, q1, q2⟩ | ⟨q, q1⟩)
      · exact Or.inl ⟨a :: l, e, r, by rw [q]; rfl, q1, q2⟩
      · cases ha : w a with
        | none =>
          rw [ha] at q
          refine Or.inr ⟨q, ?_⟩
          intro x hx
          rcases List.mem_cons.1 hx with rfl | hx
          · exact ha
          · exact q1 x hx
        | some y =>
          rw [ha] at q
          have q : y = v := q
          subst q
          exact Or.inl ⟨[], a, es, rfl, ha, q1⟩
    · rintro (⟨l, e, r, q, q1, q2⟩ | ⟨q, q1⟩)
      · cases l with
        | nil =>
          rw [List.nil_append] at q
          injection q with qa qb
          subst qa; subst qb
          exact Or.inr ⟨by rw [q1]; rfl, q2⟩
        | cons b l =>
          rw [List.cons_append] at q
          injection q with qa qb
          exact Or.inl ⟨l, e, r, qb, q1, q2⟩
      · refine Or.inr ⟨?_, fun x hx => q1 x (List.mem_cons_of_mem _ hx)⟩
        rw [q1 a (List.mem_cons_self ..)]; exact q

/-! ## C467: asynchronous reset, latch and double data rate -/

theorem async_last (s v : Option Bool) (es : List Ev) : es.foldl asyncStep s = v ↔
    (∃ l e r, es = l ++ e :: r ∧ (if e.rst then some (some false) else if e.edge = some .rise then some (some e.din) else none) = some v ∧
      ∀ x ∈ r, (if x.rst then some (some false) else if x.edge = some .rise then some (some x.din) else none) = none) ∨
    (s = v ∧ ∀ x ∈ es, (if x.rst then some (some false) else if x.edge = some .rise then some (some x.din) else none) = none) := by
  refine last_write asyncStep _ ?_ s v es
  intro s e
  unfold asyncStep
  by_cases h1 : e.rst
  · rw [if_pos h1, if_pos h1]; rfl
  · rw [if_neg h1, if_neg h1]
    by_cases h2 : e.edge = some .rise
    · rw [if_pos h2, if_pos h2]; rfl
    · rw [if_neg h2, if_neg h2]; rfl

/-- nothing is written by an event without reset and rising edge -/
def Quiet (x : Ev) : Prop := x.rst = false ∧ x.edge ≠ some .rise

theorem quiet_iff (x : Ev) : (if x.rst then some (some false) else if x.edge = some .rise then some (some x.din) else none)
    = (none : Option (Option Bool)) ↔ Quiet x := by
  unfold Quiet
  by_cases h1 : x.rst
  · simp [h1]
  · by_cases h2 : x.edge = some .rise
    · simp [h1, h2]
    · simp [h1, h2]

/-- C467: the output of both registers with an asynchronous reset is 1 exactly if the last rising edge had 1 on the
input, not in reset, and there was no reset since, whatever the other events are. -/
theorem async_one (es : List Ev) : (asyncReset es = some true ↔ ∃ l e r, es = l ++ e :: r ∧ e.rst = false ∧
      e.edge = some .rise ∧ e.din = true ∧ ∀ x ∈ r, Quiet x) ∧ (asyncRst es = some true ↔ asyncReset es = some true) := by
  have key : ∀ s : Option Bool, s ≠ some true → (es.foldl asyncStep s = some true ↔ ∃ l e r, es = l ++ e :: r ∧ e.rst = false ∧
      e.edge = some .rise ∧ e.din = true ∧ ∀ x ∈ r, Quiet x) := by
    intro s hs
    rw [async_last]
    constructor
    · rintro (⟨l, e, r, h1, h2, h3⟩ | ⟨h, _⟩)
      · refine ⟨l, e, r, h1, ?_⟩
        by_cases h4 : e.rst
        · rw [if_pos h4] at h2; injection h2 with h2; injection h2 with h2; cases h2
        · rw [if_neg h4] at h2
          by_cases h5 : e.edge = some .rise
          · rw [if_pos h5] at h2
            injection h2 with h2; injection h2 with h2
            exact ⟨by simpa using h4, h5, h2, fun x hx => (quiet_iff x).1 (h3 x hx)⟩
          · rw [if_neg h5] at h2; cases h2
      · exact absurd h hs
    · rintro ⟨l, e, r, h1, h2, h3, h4, h5⟩
      refine Or.inl ⟨l, e, r, h1, ?_, fun x hx => (quiet_iff x).2 (h5 x hx)⟩
      rw [if_neg (by rw [h2]; decide), if_pos h3, h4]
  refine ⟨key (some false) (by decide), ?_⟩
  exact (key none (by decide)).trans (key (some false) (by decide)).symm

/-- C467: without a default value the output is undefined until the first reset or rising edge, then it is the same. -/
theorem async_undef (es : List Ev) : (asyncRst es = none ↔ ∀ x ∈ es, Quiet x) ∧ (asyncRst es ≠ none → asyncRst es = asyncReset es) ∧
    asyncReset es ≠ none := by
  have h1 : asyncRst es = none ↔ ∀ x ∈ es, Quiet x := by
    unfold asyncRst
    rw [async_last]
    constructor
    · rintro (⟨l, e, r, _, h2, _⟩ | ⟨_, h⟩)
      · by_cases h4 : e.rst
        · rw [if_pos h4] at h2; cases h2
        · rw [if_neg h4] at h2
          by_cases h5 : e.edge = some .rise
          · rw [if_pos h5] at h2; cases h2
          · rw [if_neg h5] at h2; cases h2
      · exact fun x hx => (quiet_iff x).1 (h x hx)
    · exact fun h => Or.inr ⟨rfl, fun x hx => (quiet_iff x).2 (h x hx)⟩
  have h2 : asyncReset es ≠ none := by
    intro h
    unfold asyncReset at h
    rw [async_last] at h
    rcases h with ⟨l, e, r, _, h2, _⟩ | ⟨h, _⟩
    · by_cases h4 : e.rst
      · rw [if_pos h4] at h2; cases h2
      · rw [if_neg h4] at h2
        by_cases h5 : e.edge = some .rise
        · rw [if_pos h5] at h2; cases h2
        · rw [if_neg h5] at h2; cases h2
    · cases h
  refine ⟨h1, ?_, h2⟩
  intro h
  have h3 := (async_one es).2
  cases ha : asyncRst es with
  | none => exact absurd ha h
  | some a =>
    cases hb : asyncReset es with
    | none => exact absurd hb h2
    | some b =>
      rw [ha, hb] at h3
      cases a <;> cases b <;> simp_all

/-- C467: while reset is 1 the output is 0, and it stays 0 until a rising edge after it. -/
theorem async_reset (l r : List Ev) (e : Ev) (he : e.rst = true) (hr : ∀ x ∈ r, Quiet x) :
    asyncRst (l ++ e :: r) = some false ∧ asyncReset (l ++ e :: r) = some false := by
  have : ∀ s, (l ++ e :: r).foldl asyncStep s = some false := by
    intro s
    rw [async_last]
    exact Or.inl ⟨l, e, r, rfl, by rw [if_pos he], fun x hx => (quiet_iff x).2 (hr x hx)⟩
  exact ⟨this _, this _⟩

/-- C467: the output of the double data rate register: the higher bit is the input of the last rising edge, the lower
bit of the last falling one, and 0 before them; reset has no effect. -/
theorem ddr_bits (es : List Ev) (e : Edge) : (ddr es).testBit (if e = .rise then 1 else 0) = true ↔
    ∃ l x r, es = l ++ x :: r ∧ x.edge = some e ∧ x.din = true ∧ ∀ y ∈ r, y.edge ≠ some e := by
  have h1 : ∀ (es : List Ev) (s : Bool × Bool), es.foldl ddrStep s =
      (es.foldl (fun r x => if x.edge = some .rise then x.din else r) s.1,
       es.foldl (fun r x => if x.edge = some .fall then x.din else r) s.2) := by
    intro es
    induction es with
    | nil => intro s; rfl
    | cons a es ih => intro s; rw [List.foldl_cons, ih]; rfl
  have h2 : ∀ (e : Edge), es.foldl (fun r x => if x.edge = some e then x.din else r) false = true ↔
      ∃ l x r, es = l ++ x :: r ∧ x.edge = some e ∧ x.din = true ∧ ∀ y ∈ r, y.edge ≠ some e := by
    intro e
    rw [last_write (fun r (x : Ev) => if x.edge = some e then x.din else r)
      (fun x => if x.edge = some e then some x.din else none)
      (fun s x => by by_cases h : x.edge = some e <;> simp [h])]
    constructor
    · rintro (⟨l, x, r, q1, q2, q3⟩ | ⟨q, _⟩)
      · by_cases h : x.edge = some e
        · rw [if_pos h] at q2
          injection q2 with q2
          refine ⟨l, x, r, q1, h, q2, fun y hy hq => ?_⟩
          have := q3 y hy
          rw [if_pos hq] at this; cases this
        · rw [if_neg h] at q2; cases q2
      · cases q
    · rintro ⟨l, x, r, q1, q2, q3, q4⟩
      exact Or.inl ⟨l, x, r, q1, by rw [if_pos q2, q3], fun y hy => if_neg (q4 y hy)⟩
  have h3 : ∀ a b : Bool, (2 * a.toNat + b.toNat).testBit 1 = a ∧ (2 * a.toNat + b.toNat).testBit 0 = b := by decide
  unfold ddr
  rw [h1]
  dsimp only
  cases e with
  | rise => rw [if_pos rfl, (h3 _ _).1]; exact h2 .rise
  | fall => rw [if_neg (by decide), (h3 _ _).2]; exact h2 .fall

/-- C467: after each whole clock the output is the pair of bits of that clock. -/
theorem ddr_pair (es : List Ev) (a b r1 r2 : Bool) : ddr (es ++ [⟨r1, some .rise, a⟩, ⟨r2, some .fall, b⟩]) = 2 * a.toNat + b.toNat := by
  unfold ddr
  rw [List.foldl_append]
  rfl

/-- C467: the latch passes its input while enabled and then keeps the last value of it; undefined before. -/
theorem latch_spec (es : List (Bool × Bool)) (v : Bool) : (latch es = some v ↔
      ∃ l r, es = l ++ (true, v) :: r ∧ ∀ x ∈ r, x.1 = false) ∧ (latch es = none ↔ ∀ x ∈ es, x.1 = false) := by
  have hw : ∀ (s : Option Bool) (e : Bool × Bool), latchStep s e = (if e.1 then some (some e.2) else none).getD s := by
    intro s e
    unfold latchStep
    by_cases h : e.1 <;> simp [h]
  have hn : ∀ x : Bool × Bool, (if x.1 then some (some x.2) else none) = (none : Option (Option Bool)) ↔ x.1 = false := by
    intro x
    cases hx : x.1 <;> simp
  unfold latch
  constructor
  · rw [last_write latchStep _ hw]
    constructor
    · rintro (⟨l, e, r, q1, q2, q3⟩ | ⟨q, _⟩)
      · obtain ⟨en, d⟩ := e
        cases en with
        | false => cases q2
        | true =>
          injection q2 with q2; injection q2 with q2
          subst q2
          exact ⟨l, r, q1, fun x hx => (hn x).1 (q3 x hx)⟩
      · cases q
    · rintro ⟨l, r, q1, q2⟩
      exact Or.inl ⟨l, _, r, q1, rfl, fun x hx => (hn x).2 (q2 x hx)⟩
  · rw [last_write latchStep _ hw]
    constructor
    · rintro (⟨l, e, r, q1, q2, q3⟩ | ⟨_, q⟩)
      · obtain ⟨en, d⟩ := e
        cases en <;> cases q2
      · exact fun x hx => (hn x).1 (q x hx)
    · exact fun q => Or.inr ⟨rfl, fun x hx => (hn x).2 (q x hx)⟩

example : ddr [⟨false, some .rise, true⟩, ⟨true, some .fall, false⟩, ⟨false, none, true⟩] = 2 ∧
    asyncRst [⟨false, some .rise, true⟩, ⟨false, some .fall, false⟩] = some true ∧
    asyncRst [⟨false, some .rise, true⟩, ⟨true, none, true⟩] = some false ∧
    latch [(true, false), (true, true), (false, false)] = some true := by decide

/-! ## C468: delays -/

/-- C468: the output of DReg is the input of the clock before, of DoubleDReg the input two clocks before; 0 while the reset of
the clocks between is 1. -/
theorem dreg_delay (s : Bool) (t : Bool × Bool) (is : List (Bool × Bool)) (a b c : Bool × Bool) :
    dreg.out (dreg.final s (is ++ [a])) b = (!a.1 && a.2) ∧
    dreg2.out (dreg2.final t (is ++ [a, b])) c = (!a.1 && !b.1 && a.2) := by
  have h1 : ∀ (S : Type) (m : Machine S (Bool × Bool) Bool) (s : S) (is : List (Bool × Bool)) (a : Bool × Bool),
      m.final s (is ++ [a]) = m.next (m.final s is) a := by
    intro S m s is a
    induction is generalizing s with
    | nil => rfl
    | cons x is ih => exact ih _
  constructor
  · rw [h1]
    obtain ⟨a1, a2⟩ := a
    cases a1 <;> cases a2 <;> rfl
  · rw [show is ++ [a, b] = (is ++ [a]) ++ [b] by simp, h1, h1]
    obtain ⟨a1, a2⟩ := a
    obtain ⟨b1, b2⟩ := b
    cases a1 <;> cases a2 <;> cases b1 <;> rfl

example : dreg2.out (dreg2.final (false, false) [(true, true), (false, true), (false, false)]) (false, false) = true := by decide

/-! ## C469: search for a zero bit -/

theorem tree_step (s : Nat → Bool) : ∀ (n t : Nat), ∃ k, (List.range n).reverse.foldl (fun top i => match top with
    | none => some i
    | some t => some (if s i = false then i else t)) (some t) = some k ∧
    ((k < n ∧ s k = false ∧ ∀ j, j < k → s j = true) ∨ (k = t ∧ ∀ j, j < n → s j = true))
  | 0, t => ⟨t, rfl, Or.inr ⟨rfl, fun j hj => absurd hj (Nat.not_lt_zero j)⟩⟩
  | n + 1, t => by
      rw [List.range_succ, List.reverse_append, List.reverse_singleton, List.singleton_append, List.foldl_cons]
      obtain ⟨k, h1, h2⟩ := tree_step s n (if s n = false then n else t)
      refine ⟨k, h1, ?_⟩
      rcases h2 with ⟨h3, h4, h5⟩ | ⟨h3, h4⟩
      · exact Or.inl ⟨by omega, h4, h5⟩
      · by_cases hn : s n = false
        · rw [if_pos hn] at h3
          subst h3
          exact Or.inl ⟨by omega, hn, h4⟩
        · rw [if_neg hn] at h3
          refine Or.inr ⟨h3, ?_⟩
          intro j hj
          by_cases hjn : j = n
          · subst hjn; simpa using hn
          · exact h4 j (by omega)

/-- C469, full statement: if a bit of the 64 bits of the input is 0, the output is the index of the lowest such bit. -/
def ZeroFull : Prop := ∀ s : Nat → Bool, (∃ j, j < 64 ∧ s j = false) →
  ∃ k, leadingZero s = some k ∧ s k = false ∧ ∀ j, j < k → s j = true

/-- C469: for an input with the lowest 8 bits set the output is 7, although that bit is not 0 -/
theorem zero_violated : leadingZero (fun j => decide (j < 8)) = some 7 ∧ ¬ ZeroFull := by
  have h : leadingZero (fun j => decide (j < 8)) = some 7 := by decide
  refine ⟨h, ?_⟩
  intro q
  obtain ⟨k, h1, h2, _⟩ := q (fun j => decide (j < 8)) ⟨8, by decide, by decide⟩
  rw [h] at h1
  injection h1 with h1
  subst h1
  cases h2

/-- C469: it is so for a zero among the lowest 8 bits; otherwise the output is 7. -/
theorem zero_partial (s : Nat → Bool) : ∃ k, leadingZero s = some k ∧ k < 8 ∧
    ((∃ j, j < 8 ∧ s j = false) → s k = false ∧ ∀ j, j < k → s j = true) ∧ ((∀ j, j < 8 → s j = true) → k = 7) := by
  have h0 : leadingZero s = (List.range 7).reverse.foldl (fun top i => match top with
    | none => some i
    | some t => some (if s i = false then i else t)) (some 7) := rfl
  obtain ⟨k, h1, h2⟩ := tree_step s 7 7
  refine ⟨k, h0.trans h1, ?_⟩
  rcases h2 with ⟨h3, h4, h5⟩ | ⟨h3, h4⟩
  · refine ⟨by omega, fun _ => ⟨h4, h5⟩, ?_⟩
    intro q
    rw [q k (by omega)] at h4
    cases h4
  · subst h3
    refine ⟨by omega, ?_, fun _ => rfl⟩
    rintro ⟨j, hj, hz⟩
    by_cases h7 : j = 7
    · subst h7; exact ⟨hz, h4⟩
    · rw [h4 j (by omega)] at hz; cases hz

example : leadingZero (fun j => decide (j = 0 ∨ j = 1 ∨ j = 4)) = some 2 := by decide

end Verif.ExReg
