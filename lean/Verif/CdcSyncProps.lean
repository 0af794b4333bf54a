import Verif.Cdc
import Mathlib.Data.List.Induction
/-!
# Properties of `Cdc`, `CdcPulseGen` and `VldSyncedCdc`
-/
namespace Verif.Cdc

universe u
variable {α : Type u}

/-! ## `Cdc` (C77) -/

/-- The values the input domain had, oldest first: INIT_VAL and then the sampled `dataIn`. -/
def sampled (x : α) (es : List (Ev α)) : List α := x :: (es.filter fun e => e.ci).map Ev.data

/-- `dataOut` as seen by the output domain: its value at each edge of the output clock. -/
def observed (tr : List (Ev α × Option α)) : List (Option α) :=
  (tr.filter fun e => e.1.co).map Prod.snd

/-- Number of edges of the input clock. -/
def edgesIn (es : List (Ev α)) : Nat := es.countP fun e => e.ci
/-- Number of edges of the output clock. -/
def edgesOut (es : List (Ev α)) : Nat := es.countP fun e => e.co

/-- All registers hold sampled values, older ones towards the end; `js` are their ordinals. -/
private structure CInv (x : α) (es : List (Ev α)) (s : St α) (js : List Nat) : Prop where
  reg : (sampled x es)[edgesIn es]? = some s.inReg
  outs : js.map (fun j => (sampled x es)[j]?) = s.outs.map some
  desc : js.Pairwise (fun a b => b ≤ a)
  top : ∀ j ∈ js, j ≤ edgesIn es

private theorem sampled_snoc (x : α) (es : List (Ev α)) (e : Ev α) :
    sampled x (es ++ [e]) = sampled x es ++ if e.ci then [e.data] else [] := by
  unfold sampled
  rw [List.filter_append, List.map_append]
  cases h : e.ci <;> simp [h]

private theorem sampled_length (x : α) (es : List (Ev α)) : (sampled x es).length = edgesIn es + 1 := by
  unfold sampled edgesIn
  simp [List.countP_eq_length_filter]

private theorem edgesIn_snoc (es : List (Ev α)) (e : Ev α) :
    edgesIn (es ++ [e]) = edgesIn es + if e.ci then 1 else 0 := by
  unfold edgesIn
  rw [List.countP_append]; simp [List.countP_cons]

private theorem edgesOut_snoc (es : List (Ev α)) (e : Ev α) :
    edgesOut (es ++ [e]) = edgesOut es + if e.co then 1 else 0 := by
  unfold edgesOut
  rw [List.countP_append]; simp [List.countP_cons]

private theorem sampled_keep (x : α) (es : List (Ev α)) (e : Ev α) (j : Nat) (h : j ≤ edgesIn es) :
    (sampled x (es ++ [e]))[j]? = (sampled x es)[j]? := by
  rw [sampled_snoc, List.getElem?_append_left (by rw [sampled_length]; omega)]

/-- Ordinals after one event. -/
private def jNext (es : List (Ev α)) (e : Ev α) (js : List Nat) : List Nat :=
  if e.co then shift (if e.ci && e.late then edgesIn es + 1 else edgesIn es) js else js

private theorem shift_map {β γ : Type _} (f : β → γ) (x : β) (l : List β) : (shift x l).map f = shift (f x) (l.map f) := by
  unfold shift
  rw [List.map_dropLast]; rfl

private theorem mem_shift {β : Type _} {x y : β} {l : List β} (h : y ∈ shift x l) : y = x ∨ y ∈ l := by
  unfold shift at h
  have := (List.dropLast_sublist _).mem h
  rw [List.mem_cons] at this
  exact this

private theorem CInv.step {x : α} {es : List (Ev α)} {s : St α} {js : List Nat} (h : CInv x es s js) (e : Ev α) :
    CInv x (es ++ [e]) (next s e) (jNext es e js) := by
  have hreg : (sampled x (es ++ [e]))[edgesIn (es ++ [e])]? = some (next s e).inReg := by
    unfold next inNext
    rw [edgesIn_snoc]
    cases hc : e.ci
    · simpa [sampled_snoc, hc] using h.reg
    · rw [sampled_snoc, List.getElem?_append_right (by rw [sampled_length]; simp), sampled_length]
      simp [hc]
  have htop' : ∀ j ∈ js, j ≤ edgesIn (es ++ [e]) := by
    intro j hj; have := h.top j hj; rw [edgesIn_snoc]; omega
  have hkeep : js.map (fun j => (sampled x (es ++ [e]))[j]?) = s.outs.map some := by
    rw [← h.outs]
    exact List.map_congr_left fun j hj => sampled_keep x es e j (h.top j hj)
  unfold jNext
  cases hco : e.co
  · have ho : (next s e).outs = s.outs := by unfold next; simp [hco]
    exact ⟨hreg, by rw [ho]; simpa using hkeep, by simpa using h.desc, by simpa using htop'⟩
  · have ho : (next s e).outs = shift (crossing s e) s.outs := by unfold next; simp [hco]
    have hnew : (sampled x (es ++ [e]))[if e.ci && e.late then edgesIn es + 1 else edgesIn es]?
        = some (crossing s e) := by
      unfold crossing
      cases hl : e.late
      · rw [if_neg (by simp), if_neg (by simp), sampled_keep x es e _ (Nat.le_refl _)]
        exact h.reg
      · cases hci : e.ci
        · rw [if_neg (by simp), if_pos rfl, sampled_keep x es e _ (Nat.le_refl _)]
          simpa [inNext, hci] using h.reg
        · rw [if_pos (by simp), if_pos rfl]
          have := hreg
          rw [edgesIn_snoc, hci] at this
          exact this
    refine ⟨hreg, ?_, ?_, ?_⟩
    · simp only [if_true]
      rw [ho, shift_map, shift_map, hnew, hkeep]
    · simp only [if_true]
      refine List.Pairwise.sublist (List.dropLast_sublist _) (List.pairwise_cons.2 ⟨?_, h.desc⟩)
      intro j hj
      have := h.top j hj
      split <;> omega
    · simp only [if_true]
      intro j hj
      rcases mem_shift hj with rfl | hj
      · rw [edgesIn_snoc]
        cases e.ci <;> cases e.late <;> simp
      · exact htop' j hj

/-- Ordinals of the registers of the output domain after a history. -/
private def ords (n : Nat) (es : List (Ev α)) : List Nat :=
  (es.foldl (fun a e => (a.1 ++ [e], jNext a.1 e a.2)) (([] : List (Ev α)), List.replicate n 0)).2

private theorem ords_fst (n : Nat) (es : List (Ev α)) :
    (es.foldl (fun a e => (a.1 ++ [e], jNext a.1 e a.2)) (([] : List (Ev α)), List.replicate n 0)).1 = es := by
  have : ∀ (es pre : List (Ev α)) (js : List Nat),
      (es.foldl (fun a e => (a.1 ++ [e], jNext a.1 e a.2)) (pre, js)).1 = pre ++ es := by
    intro es
    induction es with
    | nil => intro pre js; simp
    | cons e es ih => intro pre js; rw [List.foldl_cons, ih]; simp
  simpa using this es [] (List.replicate n 0)

private theorem ords_snoc (n : Nat) (es : List (Ev α)) (e : Ev α) :
    ords n (es ++ [e]) = jNext es e (ords n es) := by
  unfold ords
  rw [List.foldl_append, List.foldl_cons, List.foldl_nil, ords_fst]

private theorem cinv (n : Nat) (x : α) (es : List (Ev α)) : CInv x es (cdc.final (init n x) es) (ords n es) := by
  induction es using List.reverseRecOn with
  | nil =>
    refine ⟨rfl, ?_, ?_, ?_⟩
    · show (List.replicate n 0).map _ = (List.replicate n x).map some
      simp [sampled]
    · exact List.pairwise_replicate.2 (Or.inr (Nat.le_refl _))
    · intro j hj
      have := List.eq_of_mem_replicate hj
      omega
  | append_singleton es e ih =>
    rw [ords_snoc, Machine.final_append]
    exact ih.step e

private theorem ords_length (n : Nat) (es : List (Ev α)) : (ords n es).length = n := by
  induction es using List.reverseRecOn with
  | nil => simp [ords]
  | append_singleton es e ih =>
    rw [ords_snoc]; unfold jNext
    split
    · simp [shift, ih]
    · exact ih

/-- After `k` more edges of the output clock the first `k` registers hold newer values and the others are shifted. -/
private theorem ords_append (n : Nat) (a b : List (Ev α)) :
    ∃ p, ords n (a ++ b) = p ++ (ords n a).take (n - edgesOut b) ∧ p.length = min (edgesOut b) n ∧
      ∀ j ∈ p, edgesIn a ≤ j := by
  induction b using List.reverseRecOn with
  | nil =>
    refine ⟨[], ?_, by simp [edgesOut], by simp⟩
    rw [List.append_nil, List.nil_append, List.take_of_length_le (by rw [ords_length]; simp [edgesOut])]
  | append_singleton b e ih =>
    obtain ⟨p, h1, h2, h3⟩ := ih
    rw [← List.append_assoc, ords_snoc, edgesOut_snoc]
    unfold jNext
    have hmono : edgesIn a ≤ edgesIn (a ++ b) := by
      unfold edgesIn; rw [List.countP_append]; omega
    cases hco : e.co
    · exact ⟨p, by simpa using h1, by simpa using h2, h3⟩
    · simp only [if_true]
      generalize hv : (if e.ci && e.late then edgesIn (a ++ b) + 1 else edgesIn (a ++ b)) = v
      have hv' : edgesIn a ≤ v := by rw [← hv]; split <;> omega
      rw [h1]
      rcases Nat.lt_or_ge (edgesOut b) n with hlt | hge
      · refine ⟨v :: p, ?_, by simp; omega, ?_⟩
        · unfold shift
          rw [← List.cons_append, List.dropLast_append_of_ne_nil]
          · congr 1
            rw [List.dropLast_eq_take, List.length_take, ords_length, List.take_take]
            congr 1; omega
          · intro h
            have := congrArg List.length h
            rw [List.length_take, ords_length] at this
            simp at this; omega
        · intro j hj
          rcases List.mem_cons.1 hj with rfl | hj
          · exact hv'
          · exact h3 j hj
      · have e1 : n - edgesOut b = 0 := by omega
        have e2 : n - (edgesOut b + 1) = 0 := by omega
        rw [e1, e2, List.take_zero, List.append_nil]
        refine ⟨shift v p, by simp, ?_, ?_⟩
        · simp [shift]; omega
        · intro j hj
          rcases mem_shift hj with rfl | hj
          · exact hv'
          · exact h3 j hj

/-- Ordinal of the value of `dataOut`. -/
private theorem out_ord (n : Nat) (hn : 0 < n) (x : α) (es : List (Ev α)) (e : Ev α) :
    ∃ j, (ords n es).getLast? = some j ∧ cdc.outAfter (init n x) es e = (sampled x es)[j]? ∧ j ≤ edgesIn es := by
  have h := cinv n x es
  have hne : ords n es ≠ [] := by
    intro h; have := ords_length n es; rw [h] at this; simp at this; omega
  refine ⟨(ords n es).getLast hne, List.getLast?_eq_some_getLast hne, ?_, h.top _ (List.getLast_mem hne)⟩
  have h2 := congrArg List.getLast? h.outs
  rw [List.getLast?_map, List.getLast?_map, List.getLast?_eq_some_getLast hne] at h2
  show (cdc.final (init n x) es).outs.getLast? = _
  cases h3 : (cdc.final (init n x) es).outs.getLast? with
  | none => rw [h3] at h2; simp at h2
  | some y => rw [h3] at h2; simp at h2; exact h2.symm

/-- **C77** At any time `dataOut` is a value of `dataIn` which was sampled by the input clock (or INIT_VAL): after
`OUT_REG_CNT` edges of the output clock at least as new as the value sampled last before them, and not newer than it
if there were fewer edges of the output clock (each value passes through OUT_REG_CNT registers). -/
theorem cdc_latency (n : Nat) (hn : 0 < n) (x : α) (a b : List (Ev α)) (e : Ev α) :
    ∃ j y, cdc.outAfter (init n x) (a ++ b) e = some y ∧ (sampled x (a ++ b))[j]? = some y ∧
      (n ≤ edgesOut b → edgesIn a ≤ j) ∧ (edgesOut b < n → j ≤ edgesIn a) := by
  obtain ⟨j, h1, h2, h3⟩ := out_ord n hn x (a ++ b) e
  have hlt : j < (sampled x (a ++ b)).length := by rw [sampled_length]; omega
  refine ⟨j, _, by rw [h2, List.getElem?_eq_getElem hlt], List.getElem?_eq_getElem hlt, ?_, ?_⟩
  · intro hb
    obtain ⟨p, q1, q2, q3⟩ := ords_append n a b
    rw [q1, show n - edgesOut b = 0 by omega, List.take_zero, List.append_nil] at h1
    exact q3 j (List.mem_of_getLast? h1)
  · intro hb
    obtain ⟨p, q1, q2, q3⟩ := ords_append n a b
    have hne : (ords n a).take (n - edgesOut b) ≠ [] := by
      intro h
      have := congrArg List.length h
      rw [List.length_take, ords_length] at this
      simp at this; omega
    rw [q1, List.getLast?_append, List.getLast?_eq_some_getLast hne, Option.some_or] at h1
    have := List.getLast_mem hne
    rw [Option.some.inj h1] at this
    exact (cinv n x a).top j (List.mem_of_mem_take this)

/-- **C77** The values seen by the output domain are sampled values in their order (none is seen again after a newer
one). -/
theorem cdc_monotone (n : Nat) (hn : 0 < n) (x : α) (es : List (Ev α)) :
    ∃ js : List Nat, js.Pairwise (· ≤ ·) ∧ (∀ j ∈ js, j ≤ edgesIn es) ∧
      observed (cdc.trace (init n x) es) = js.map fun j => (sampled x es)[j]? := by
  suffices h : ∃ js : List Nat, js.Pairwise (· ≤ ·) ∧ (∀ j ∈ js, ∀ l, (ords n es).getLast? = some l → j ≤ l) ∧
      observed (cdc.trace (init n x) es) = js.map fun j => (sampled x es)[j]? by
    obtain ⟨js, h1, h2, h3⟩ := h
    have hne : ords n es ≠ [] := by
      intro h; have := ords_length n es; rw [h] at this; simp at this; omega
    refine ⟨js, h1, fun j hj => ?_, h3⟩
    exact Nat.le_trans (h2 j hj _ (List.getLast?_eq_some_getLast hne)) ((cinv n x es).top _ (List.getLast_mem hne))
  induction es using List.reverseRecOn with
  | nil => exact ⟨[], List.Pairwise.nil, by simp, rfl⟩
  | append_singleton es e ih =>
    obtain ⟨js, h1, h2, h3⟩ := ih
    obtain ⟨j, hj, ho, hle⟩ := out_ord n hn x es e
    have htop : ∀ i ∈ js, i ≤ edgesIn es := fun i hi => Nat.le_trans (h2 i hi j hj) hle
    have hkeep : js.map (fun j => (sampled x (es ++ [e]))[j]?) = js.map (fun j => (sampled x es)[j]?) :=
      List.map_congr_left fun i hi => sampled_keep x es e i (htop i hi)
    have hmono : ∀ l, (ords n (es ++ [e])).getLast? = some l → j ≤ l := by
      intro l hl
      obtain ⟨p, q1, q2, q3⟩ := ords_append n es [e]
      rw [q1] at hl
      rcases List.mem_append.1 (List.mem_of_getLast? hl) with h | h
      · exact Nat.le_trans hle (q3 l h)
      · have hmem := List.mem_of_mem_take h
        have hd := (cinv n x es).desc
        obtain ⟨ini, hini⟩ := List.getLast?_eq_some_iff.1 hj
        rw [hini] at hd hmem
        rcases List.mem_append.1 hmem with h | h
        · exact (List.pairwise_append.1 hd).2.2 l h j (by simp)
        · simp at h; omega
    have htr : cdc.trace (init n x) (es ++ [e]) = cdc.trace (init n x) es ++ [(e, cdc.outAfter (init n x) es e)] :=
      Machine.trace_snoc _ _ _ _
    cases hco : e.co
    · refine ⟨js, h1, fun i hi l hl => Nat.le_trans (h2 i hi j hj) (hmono l hl), ?_⟩
      rw [htr, hkeep, ← h3]
      unfold observed
      simp [hco]
    · refine ⟨js ++ [j], ?_, ?_, ?_⟩
      · refine List.pairwise_append.2 ⟨h1, List.pairwise_singleton _ _, ?_⟩
        intro a ha b hb
        simp at hb; subst hb
        exact h2 a ha b hj
      · intro i hi l hl
        rcases List.mem_append.1 hi with hi | hi
        · exact Nat.le_trans (h2 i hi j hj) (hmono l hl)
        · simp at hi; subst hi; exact hmono l hl
      · rw [htr, List.map_append, hkeep, ← h3]
        unfold observed
        rw [List.filter_append, List.map_append]
        congr 1
        simp only [List.filter_cons, hco, if_true, List.filter_nil, List.map_cons, List.map_nil]
        rw [ho, sampled_keep x es e j hle]

/-- Non-vacuity: three values cross two registers while the clocks tick alternately. -/
example : observed (cdc.trace (init 2 0) [⟨true, false, 5, false⟩, ⟨false, true, 0, false⟩, ⟨true, true, 6, false⟩,
      ⟨true, true, 7, true⟩, ⟨false, true, 0, false⟩, ⟨false, true, 0, false⟩])
    = [some 0, some 0, some 5, some 5, some 7] ∧
    edgesOut ([⟨false, true, 0, false⟩, ⟨false, true, 0, false⟩] : List (Ev Nat)) = 2 := by decide

/-! ## `CdcPulseGen` (C78) -/

/-- Number of changes of the input as sampled by the input clock; `prev` is the value sampled before. -/
def changes : Bool → List (Ev Bool) → Nat
  | _, [] => 0
  | prev, e :: es => (if e.ci ∧ e.data ≠ prev then 1 else 0) + changes (if e.ci then e.data else prev) es

/-- Between any two changes of the sampled input there is an edge of the output clock (`seen`: there was one since the
last change). -/
def Held : Bool → Bool → List (Ev Bool) → Prop
  | _, _, [] => True
  | prev, seen, e :: es =>
    (e.ci = true → e.data ≠ prev → seen = true) ∧
    Held (if e.ci then e.data else prev) (if e.ci ∧ e.data ≠ prev then false else (seen || e.co)) es

instance : ∀ prev seen es, Decidable (Held prev seen es)
  | _, _, [] => .isTrue trivial
  | prev, seen, e :: es =>
    have := instDecidableHeld (if e.ci then e.data else prev)
      (if e.ci ∧ e.data ≠ prev then false else (seen || e.co)) es
    inferInstanceAs (Decidable ((e.ci = true → e.data ≠ prev → seen = true) ∧ _))

/-- Number of cycles of the output clock with `dataOut_en`. -/
def pulses (tr : List (Ev Bool × Bool)) : Nat := tr.countP fun e => e.1.co && e.2

private def inFlight (s : St Bool) : Nat :=
  (s.outs.getD 1 false ^^ s.outs.getD 2 false).toNat + (s.outs.getD 0 false ^^ s.outs.getD 1 false).toNat +
    (s.inReg ^^ s.outs.getD 0 false).toNat

private theorem inFlight_le (s : St Bool) : inFlight s ≤ 3 := by
  have : ∀ b : Bool, b.toNat ≤ 1 := by decide
  unfold inFlight
  have h1 := this (s.outs.getD 1 false ^^ s.outs.getD 2 false)
  have h2 := this (s.outs.getD 0 false ^^ s.outs.getD 1 false)
  have h3 := this (s.inReg ^^ s.outs.getD 0 false)
  omega

private theorem pulses_cons (s : St Bool) (e : Ev Bool) (es : List (Ev Bool)) :
    pulses (pulseGen.trace s (e :: es))
      = (if e.co && (s.outs.getD 1 false ^^ s.outs.getD 2 false) then 1 else 0) + pulses (pulseGen.trace (next s e) es) := by
  rw [Machine.trace_cons]
  unfold pulses
  rw [List.countP_cons, Nat.add_comm]
  rfl

private theorem pulse_step (i a b c : Bool) (e : Ev Bool) (seen : Bool) (hs : seen = true → a = i)
    (hh : e.ci = true → e.data ≠ i → seen = true) :
    (if e.co && (b ^^ c) then 1 else 0) + inFlight (next ⟨i, [a, b, c]⟩ e)
      = inFlight ⟨i, [a, b, c]⟩ + (if e.ci ∧ e.data ≠ i then 1 else 0) := by
  obtain ⟨ci, co, d, l⟩ := e
  revert hs hh
  cases seen <;> cases i <;> cases a <;> cases b <;> cases c <;> cases ci <;> cases co <;> cases d <;> cases l <;>
    decide

private theorem pulse_step_le (i a b c : Bool) (e : Ev Bool) :
    (if e.co && (b ^^ c) then 1 else 0) + inFlight (next ⟨i, [a, b, c]⟩ e)
      ≤ inFlight ⟨i, [a, b, c]⟩ + (if e.ci ∧ e.data ≠ i then 1 else 0) := by
  obtain ⟨ci, co, d, l⟩ := e
  cases i <;> cases a <;> cases b <;> cases c <;> cases ci <;> cases co <;> cases d <;> cases l <;> decide

private theorem next_shape (i a b c : Bool) (e : Ev Bool) : ∃ a' b' c',
    next ⟨i, [a, b, c]⟩ e = ⟨if e.ci then e.data else i, [a', b', c']⟩ ∧
    (∀ seen, (seen = true → a = i) →
      (if e.ci ∧ e.data ≠ i then false else (seen || e.co)) = true → a' = if e.ci then e.data else i) := by
  obtain ⟨ci, co, d, l⟩ := e
  cases co
  · refine ⟨a, b, c, rfl, ?_⟩
    intro seen
    cases ci <;> cases d <;> cases i <;> cases seen <;> cases a <;> cases l <;> decide
  · refine ⟨crossing ⟨i, [a, b, c]⟩ ⟨ci, true, d, l⟩, a, b, rfl, ?_⟩
    intro seen
    cases ci <;> cases d <;> cases i <;> cases seen <;> cases a <;> cases l <;> cases b <;> cases c <;> decide

private theorem pulse_run (es : List (Ev Bool)) : ∀ (i a b c seen : Bool), (seen = true → a = i) → Held i seen es →
    inFlight ⟨i, [a, b, c]⟩ + changes i es
      = pulses (pulseGen.trace ⟨i, [a, b, c]⟩ es) + inFlight (pulseGen.final ⟨i, [a, b, c]⟩ es) := by
  induction es with
  | nil => intro i a b c seen _ _; simp [changes, pulses]
  | cons e es ih =>
    intro i a b c seen hs hh
    obtain ⟨a', b', c', hn, hs'⟩ := next_shape i a b c e
    have h1 := pulse_step i a b c e seen hs hh.1
    rw [pulses_cons]
    show _ = _ + inFlight (pulseGen.final (next ⟨i, [a, b, c]⟩ e) es)
    rw [hn] at h1 ⊢
    have h2 := ih _ a' b' c' _ (hs' seen hs) hh.2
    simp only [List.getD_cons_succ, List.getD_cons_zero] at h1 ⊢
    unfold changes
    omega

private theorem pulse_run_le (es : List (Ev Bool)) : ∀ (i a b c : Bool),
    pulses (pulseGen.trace ⟨i, [a, b, c]⟩ es) + inFlight (pulseGen.final ⟨i, [a, b, c]⟩ es)
      ≤ inFlight ⟨i, [a, b, c]⟩ + changes i es := by
  induction es with
  | nil => intro i a b c; simp [changes, pulses]
  | cons e es ih =>
    intro i a b c
    obtain ⟨a', b', c', hn, hs'⟩ := next_shape i a b c e
    have h1 := pulse_step_le i a b c e
    rw [pulses_cons]
    show _ + inFlight (pulseGen.final (next ⟨i, [a, b, c]⟩ e) es) ≤ _
    rw [hn] at h1 ⊢
    have h2 := ih (if e.ci then e.data else i) a' b' c'
    simp only [List.getD_cons_succ, List.getD_cons_zero] at h1 ⊢
    unfold changes
    omega

/-- **C78** There are never more pulses than changes of the input, whatever the clocks do. -/
theorem pulseGen_no_spurious (x : Bool) (es : List (Ev Bool)) :
    pulses (pulseGen.trace (init 3 x) es) ≤ changes x es := by
  have := pulse_run_le es x x x x
  have e : inFlight ⟨x, [x, x, x]⟩ = 0 := by cases x <;> rfl
  rw [e, Nat.zero_add] at this
  exact Nat.le_trans (Nat.le_add_right _ _) this

/-- **C78** If between two changes of the sampled input there is an edge of the output clock, no pulse is lost: at most
three changes are still on the way. -/
theorem pulseGen_counts (x : Bool) (es : List (Ev Bool)) (h : Held x true es) :
    ∃ k, k ≤ 3 ∧ changes x es = pulses (pulseGen.trace (init 3 x) es) + k := by
  have := pulse_run es x x x x true (fun _ => rfl) h
  have e : inFlight ⟨x, [x, x, x]⟩ = 0 := by cases x <;> rfl
  rw [e, Nat.zero_add] at this
  exact ⟨_, inFlight_le _, this⟩

/-- No change for some edges of the output clock: the chain is drained. -/
private theorem drain (b : List (Ev Bool)) : ∀ (i c0 c1 c2 : Bool) (k : Nat), changes i b = 0 →
    (1 ≤ k → c0 = i) → (2 ≤ k → c1 = i) → (3 ≤ k → c2 = i) → 3 ≤ k + edgesOut b →
    inFlight (pulseGen.final ⟨i, [c0, c1, c2]⟩ b) = 0 := by
  induction b with
  | nil =>
    intro i c0 c1 c2 k _ h1 h2 h3 hk
    have hk : 3 ≤ k := by simpa [edgesOut] using hk
    rw [h1 (by omega), h2 (by omega), h3 (by omega)]
    cases i <;> rfl
  | cons e b ih =>
    intro i c0 c1 c2 k hc h1 h2 h3 hk
    unfold changes at hc
    have hc1 : ¬ (e.ci = true ∧ e.data ≠ i) := by
      intro h; rw [if_pos h] at hc; omega
    have hi : (if e.ci then e.data else i) = i := by
      cases hci : e.ci
      · rfl
      · apply Classical.byContradiction
        intro hne; exact hc1 ⟨hci, by simpa using hne⟩
    rw [hi] at hc
    have hout : edgesOut (e :: b) = edgesOut b + if e.co then 1 else 0 := by
      unfold edgesOut; rw [List.countP_cons]
    show inFlight (pulseGen.final (next ⟨i, [c0, c1, c2]⟩ e) b) = 0
    have hn : next ⟨i, [c0, c1, c2]⟩ e = ⟨i, if e.co then [i, c0, c1] else [c0, c1, c2]⟩ := by
      unfold next crossing inNext shift
      simp only [hi]
      cases e.co <;> cases e.late <;> rfl
    rw [hn]
    cases hco : e.co
    · refine ih i c0 c1 c2 k (by omega) h1 h2 h3 ?_
      rw [hout, hco] at hk; simpa using hk
    · refine ih i i c0 c1 (k + 1) (by omega) (fun _ => rfl) (fun h => h1 (by omega)) (fun h => h2 (by omega)) ?_
      rw [hout, hco] at hk; simp at hk; omega

private theorem changes_append (a b : List (Ev Bool)) : ∀ x, changes x (a ++ b)
    = changes x a + changes (pulseGen.final (init 3 x) a).inReg b := by
  have : ∀ (a : List (Ev Bool)) (s : St Bool), changes s.inReg (a ++ b)
      = changes s.inReg a + changes (pulseGen.final s a).inReg b := by
    intro a
    induction a with
    | nil => intro s; simp [changes]
    | cons e a ih =>
      intro s
      have h := ih (next s e)
      have hi : (next s e).inReg = if e.ci then e.data else s.inReg := rfl
      rw [hi] at h
      show changes s.inReg (e :: (a ++ b)) = changes s.inReg (e :: a) + changes (pulseGen.final (next s e) a).inReg b
      rw [changes, changes]
      omega
  intro x
  exact this a (init 3 x)

private theorem final_shape (es : List (Ev Bool)) : ∀ i a b c, ∃ i' a' b' c',
    pulseGen.final ⟨i, [a, b, c]⟩ es = ⟨i', [a', b', c']⟩ := by
  induction es with
  | nil => intro i a b c; exact ⟨i, a, b, c, rfl⟩
  | cons e es ih =>
    intro i a b c
    obtain ⟨a', b', c', hn, _⟩ := next_shape i a b c e
    obtain ⟨i2, a2, b2, c2, h⟩ := ih (if e.ci then e.data else i) a' b' c'
    refine ⟨i2, a2, b2, c2, ?_⟩
    show pulseGen.final (next ⟨i, [a, b, c]⟩ e) es = _
    rw [hn, h]

/-- **C78** After three edges of the output clock without a further change there was exactly one pulse per change. -/
theorem pulseGen_exact (x : Bool) (a b : List (Ev Bool)) (h : Held x true (a ++ b))
    (hb : changes x (a ++ b) = changes x a) (h3 : 3 ≤ edgesOut b) :
    pulses (pulseGen.trace (init 3 x) (a ++ b)) = changes x a := by
  have hr := pulse_run (a ++ b) x x x x true (fun _ => rfl) h
  have e : inFlight ⟨x, [x, x, x]⟩ = 0 := by cases x <;> rfl
  have hz : inFlight (pulseGen.final ⟨x, [x, x, x]⟩ (a ++ b)) = 0 := by
    rw [Machine.final_append]
    have hc := changes_append a b x
    rw [hb] at hc
    have hc : changes (pulseGen.final ⟨x, [x, x, x]⟩ a).inReg b = 0 := by
      show changes (pulseGen.final (init 3 x) a).inReg b = 0
      omega
    obtain ⟨i', a', b', c', hf⟩ := final_shape a x x x x
    rw [hf] at hc ⊢
    exact drain b i' a' b' c' 0 hc (by omega) (by omega) (by omega) (by omega)
  rw [hz, e, hb] at hr
  have : pulses (pulseGen.trace (init 3 x) (a ++ b)) = pulses (pulseGen.trace ⟨x, [x, x, x]⟩ (a ++ b)) := rfl
  omega

/-- Non-vacuity: two changes, each seen by the slower output clock. -/
example : Held false true [⟨true, false, true, false⟩, ⟨false, true, true, false⟩, ⟨true, true, false, true⟩,
      ⟨false, true, false, false⟩, ⟨true, true, false, false⟩, ⟨false, true, false, false⟩] ∧
    changes false [⟨true, false, true, false⟩, ⟨false, true, true, false⟩, ⟨true, true, false, true⟩,
      ⟨false, true, false, false⟩, ⟨true, true, false, false⟩, ⟨false, true, false, false⟩] = 2 ∧
    pulses (pulseGen.trace (init 3 false) [⟨true, false, true, false⟩, ⟨false, true, true, false⟩,
      ⟨true, true, false, true⟩, ⟨false, true, false, false⟩, ⟨true, true, false, false⟩,
      ⟨false, true, false, false⟩]) = 2 := by decide

/-- Two changes within one cycle of the output clock give no pulse: the condition is needed. -/
example : ¬ Held false true [⟨true, false, true, false⟩, ⟨true, false, false, false⟩] := by decide

/-! ## `VldSyncedCdc` (C79) -/

def vAccepted (tr : List (VEv α × (Bool × α))) : List α :=
  tr.filterMap fun e => if e.1.ci && e.1.vld then some e.1.data else none
def vDelivered (tr : List (VEv α × (Bool × α))) : List α :=
  tr.filterMap fun e => if e.1.co && e.2.1 then some e.2.2 else none

/-- Full statement of **C79**: if the output clock is not slower (an edge of the output clock with each edge of the input
clock), the words on `dataOut` are the words given on `dataIn`, in order, some of the last ones on the way. -/
def VldCdcCorrect : Prop := ∀ (d0 o0 : Nat) (es : List (VEv Nat)), (∀ e ∈ es, e.ci = true → e.co = true) →
  vDelivered (vldCdc.trace (vInit d0 o0) es) <+: vAccepted (vldCdc.trace (vInit d0 o0) es)

/-- **C79** is false even if both clocks are the same: word 1 followed by words 2, 3 comes out as 3, because the data
register of the output is enabled two cycles late. -/
theorem vldCdc_wrong_data : ¬ VldCdcCorrect := by
  intro h
  have := h 0 0 ((List.range 6).map fun k => ⟨true, true, true, k, false⟩) (by decide)
  revert this
  decide

/-- **C79** fails also for held data if the output clock is faster: a word comes out twice. -/
theorem vldCdc_duplicates : ∃ es : List (VEv Nat), (∀ e ∈ es, e.ci = true → e.co = true) ∧
    (∀ e ∈ es, e.data = 7) ∧
    vAccepted (vldCdc.trace (vInit 0 0) es) = [7] ∧ vDelivered (vldCdc.trace (vInit 0 0) es) = [7, 7] :=
  ⟨[⟨true, true, true, 7, false⟩, ⟨false, true, false, 7, false⟩, ⟨true, true, false, 7, false⟩,
    ⟨false, true, false, 7, false⟩, ⟨true, true, false, 7, false⟩, ⟨false, true, false, 7, false⟩,
    ⟨true, true, false, 7, false⟩], by decide⟩

/-- **C79**, what holds: with both clocks the same, `vld` comes out four cycles later, with the data which was at the
input two cycles after the word. So the words are transferred if each is held for two more cycles. Missing: other words
(`vldCdc_wrong_data`) and other ratios of clocks (`vldCdc_duplicates`). -/
theorem vldCdc_same_clock_partial (s : VSt α) (h : List (VEv α)) (v : Fin 4 → Bool) (d : Fin 4 → α) (e : VEv α) :
    let w := fun k => (⟨true, true, v k, d k, false⟩ : VEv α)
    let o := vldCdc.outAfter s (h ++ [w 0, w 1, w 2, w 3]) e
    o.1 = v 0 ∧ (v 0 = true → o.2 = d 2 ∧ (d 2 = d 0 → o.2 = d 0)) := by
  intro w o
  have ho : o = vldCdc.out (vldCdc.final (vldCdc.final s h) [w 0, w 1, w 2, w 3]) e := by
    show vldCdc.outAfter s (h ++ [w 0, w 1, w 2, w 3]) e = _
    rw [Machine.outAfter, Machine.final_append]
  have h1 : o.1 = v 0 := by rw [ho]; rfl
  refine ⟨h1, fun hv => ?_⟩
  have h2 : o.2 = d 2 := by
    rw [ho]
    show (if (true && v 0) = true then _ else _) = d 2
    rw [hv]; rfl
  exact ⟨h2, fun h => by rw [h2, h]⟩

end Verif.Cdc
