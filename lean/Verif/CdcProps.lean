import Verif.Cdc
/-!
# Properties of the clock domain crossings
-/
namespace Verif.Cdc

universe u
variable {α : Type u}

/-! ## `HandshakedCdc` (C75, C76) -/

/-- Words accepted at `dataIn` (edge of the input clock with vld and rd). -/
def hAccepted (tr : List (HEv α × HOut α)) : List α :=
  tr.filterMap fun e => if e.1.ci && e.1.vld && e.2.rd then some e.1.din else none

/-- Words taken at `dataOut` (edge of the output clock with vld and rd). -/
def hDelivered (tr : List (HEv α × HOut α)) : List α :=
  tr.filterMap fun e => if e.1.co && e.2.vld && e.1.rd then some e.2.data else none

/-- Run from reset. -/
abbrev hRun (d0 o0 : α) (es : List (HEv α)) : List (HEv α × HOut α) := hsCdc.trace (hInit d0 o0) es

/-- Full statement of **C75**: for any interleaving of the two clocks and any producer and consumer, the words taken
are the words accepted, in order; at most one is on the way. -/
def HsCdcCorrect (α : Type u) : Prop := ∀ (d0 o0 : α) (es : List (HEv α)),
  ∃ pending : List α, pending.length ≤ 1 ∧
    hAccepted (hRun d0 o0 es) = hDelivered (hRun d0 o0 es) ++ pending

/-- The consumer is ready at each edge of its clock. -/
def AlwaysReady (es : List (HEv α)) : Prop := ∀ e ∈ es, e.co = true → e.rd = true

private def HInv (s : HSt α) : Prop := ∃ ph p d o, ph ≤ 9 ∧ s = conc ph p d o ∧ (ph = 6 → o = d)

private def pend (s : HSt α) : List α := if !s.rdT && (s.ai == s.a2) then [s.data] else []

private theorem pend_conc (ph : Nat) (p : Bool) (d o : α) :
    pend (conc ph p d o) = if 1 ≤ ph ∧ ph ≤ 6 then [d] else [] := by
  unfold pend conc
  have h1 : decide (ph = 0) = !decide (1 ≤ ph) := by
    rw [← decide_not]; exact decide_eq_decide.2 (by omega)
  have h2 : ((p ^^ decide (7 ≤ ph)) == p) = decide (ph ≤ 6) := by
    have : decide (7 ≤ ph) = !decide (ph ≤ 6) := by rw [← decide_not]; exact decide_eq_decide.2 (by omega)
    rw [this]; cases p <;> cases decide (ph ≤ 6) <;> rfl
  simp only [h1, h2]
  by_cases a : 1 ≤ ph <;> by_cases b : ph ≤ 6 <;> simp [a, b]

private theorem h_conserve (es : List (HEv α)) (s : HSt α) (hi : HInv s) (hr : AlwaysReady es) :
    HInv (hsCdc.final s es) ∧
    pend s ++ hAccepted (hsCdc.trace s es) = hDelivered (hsCdc.trace s es) ++ pend (hsCdc.final s es) := by
  refine Machine.conserve hsCdc HInv (fun e => e.1.co = true → e.1.rd = true) pend
    (fun e => if e.1.ci && e.1.vld && e.2.rd then some e.1.din else none)
    (fun e => if e.1.co && e.2.vld && e.1.rd then some e.2.data else none) ?_ es s hi ?_
  · rintro s e ⟨ph, p, d, o, h, rfl, ho⟩ hr
    have hn := conc_next ph h p d o e hr
    have hout : hsCdc.out (conc ph p d o) e = ⟨decide (ph = 0), decide (ph = 6), o⟩ := rfl
    refine ⟨⟨phNext ph e, _, _, _, phNext_le ph e h, hn, ?_⟩, ?_⟩
    · intro h6
      by_cases h5 : ph = 5
      · subst h5
        have : e.co = true := by
          revert h6; unfold phNext; cases e.co <;> simp
        simp [this]
      · have : ph = 6 := by
          revert h6; unfold phNext; split <;> (repeat' split) <;> simp_all
        subst this
        simpa using ho rfl
    · show pend _ ++ _ = _ ++ pend (hNext (conc ph p d o) e)
      rw [hn, pend_conc, pend_conc, hout]
      obtain ⟨ci, co, vld, din, rd, le, la⟩ := e
      have : ph = 0 ∨ ph = 1 ∨ ph = 2 ∨ ph = 3 ∨ ph = 4 ∨ ph = 5 ∨ ph = 6 ∨ ph = 7 ∨ ph = 8 ∨ ph = 9 := by
        omega
      simp only at hr
      rcases this with h | h | h | h | h | h | h | h | h | h <;> subst h <;>
        cases ci <;> cases co <;> (try (have hr := hr rfl; subst hr)) <;> cases vld <;> cases le <;> cases la <;>
        simp_all [phNext]
  · intro e he
    have : ∀ (es : List (HEv α)) (s : HSt α), ∀ e ∈ hsCdc.trace s es, e.1 ∈ es := by
      intro es
      induction es with
      | nil => intro s e he; cases he
      | cons a as ih =>
        intro s e he
        rw [Machine.trace_cons, List.mem_cons] at he
        rcases he with rfl | he
        · exact List.mem_cons_self
        · exact List.mem_cons_of_mem _ (ih _ _ he)
    exact hr _ (this _ _ _ he)

private theorem hInit_inv (d0 o0 : α) : HInv (hInit d0 o0) := ⟨0, false, d0, o0, by omega, rfl, by omega⟩

/-- **C75** for a consumer which is always ready. Missing: consumers which stall (`hsCdc_backpressure_broken`). -/
theorem hsCdc_order_partial (d0 o0 : α) (es : List (HEv α)) (hr : AlwaysReady es) :
    ∃ pending : List α, pending.length ≤ 1 ∧
      hAccepted (hRun d0 o0 es) = hDelivered (hRun d0 o0 es) ++ pending := by
  obtain ⟨-, h⟩ := h_conserve es _ (hInit_inv d0 o0) hr
  refine ⟨pend (hsCdc.final (hInit d0 o0) es), ?_, ?_⟩
  · unfold pend; split <;> simp
  · rw [← h]; rfl

private theorem hDelivered_append (a b : List (HEv α × HOut α)) :
    hDelivered (a ++ b) = hDelivered a ++ hDelivered b := List.filterMap_append

private theorem hAccepted_append (a b : List (HEv α × HOut α)) :
    hAccepted (a ++ b) = hAccepted a ++ hAccepted b := List.filterMap_append

private theorem ready_cons {e : HEv α} {es : List (HEv α)} (h : AlwaysReady (e :: es)) :
    (e.co = true → e.rd = true) ∧ AlwaysReady es :=
  ⟨h e List.mem_cons_self, fun x hx => h x (List.mem_cons_of_mem _ hx)⟩

private theorem deliver_step (ph : Nat) (p : Bool) (d o : α) (e : HEv α) (es : List (HEv α)) :
    hDelivered (hsCdc.trace (conc ph p d o) (e :: es))
      = (if e.co && decide (ph = 6) && e.rd then [o] else [])
        ++ hDelivered (hsCdc.trace (hNext (conc ph p d o) e) es) := by
  rw [Machine.trace_cons, hDelivered, List.filterMap_cons]
  show (match (if e.co && decide (ph = 6) && e.rd then some o else none) with
    | none => _ | some b => _) = _
  by_cases h : (e.co && decide (ph = 6) && e.rd) = true
  · rw [if_pos h, if_pos h]; rfl
  · rw [if_neg h, if_neg h]; rfl

/-- From phases 2 to 6 enough edges of the output clock deliver the word. -/
private theorem deliver_out (es : List (HEv α)) : ∀ (ph : Nat) (p : Bool) (d o : α), 2 ≤ ph → ph ≤ 6 →
    AlwaysReady es → 7 ≤ ph + es.countP (fun e => e.co) → 1 ≤ (hDelivered (hsCdc.trace (conc ph p d o) es)).length := by
  induction es with
  | nil => intro ph p d o h1 h2 _ h; simp at h; omega
  | cons e es ih =>
    intro ph p d o h1 h2 hr hc
    obtain ⟨hr1, hr2⟩ := ready_cons hr
    rw [deliver_step, conc_next ph (by omega) p d o e hr1, List.length_append]
    by_cases h6 : ph = 6
    · subst h6
      by_cases hco : e.co = true
      · simp [hco, hr1 hco]
      · have hco : e.co = false := by simpa using hco
        have hph : phNext 6 e = 6 := by unfold phNext; simp [hco]
        rw [hph]
        rw [List.countP_cons, hco] at hc
        have := ih 6 (if 6 = 9 ∧ e.ci = true then !p else p) (if 6 = 0 ∧ e.ci = true ∧ e.vld = true then e.din else d)
          (if 6 = 5 ∧ e.co = true then d else o) h1 h2 hr2 (by simpa using hc)
        omega
    · by_cases hco : e.co = true
      · have hph : phNext ph e = ph + 1 := by
          have : ph = 2 ∨ ph = 3 ∨ ph = 4 ∨ ph = 5 := by omega
          rcases this with h | h | h | h <;> subst h <;> simp [phNext, hco]
        rw [hph]
        rw [List.countP_cons, if_pos hco] at hc
        have := ih (ph + 1) (if ph = 9 ∧ e.ci = true then !p else p)
          (if ph = 0 ∧ e.ci = true ∧ e.vld = true then e.din else d)
          (if ph = 5 ∧ e.co = true then d else o) (by omega) (by omega) hr2 (by omega)
        omega
      · have hco : e.co = false := by simpa using hco
        have hph : phNext ph e = ph := by
          have : ph = 2 ∨ ph = 3 ∨ ph = 4 ∨ ph = 5 := by omega
          rcases this with h | h | h | h <;> subst h <;> simp [phNext, hco]
        rw [hph]
        rw [List.countP_cons, hco] at hc
        have := ih ph (if ph = 9 ∧ e.ci = true then !p else p)
          (if ph = 0 ∧ e.ci = true ∧ e.vld = true then e.din else d)
          (if ph = 5 ∧ e.co = true then d else o) h1 h2 hr2 (by simpa using hc)
        omega

/-- From phases 1 to 6, after an edge of the input clock the word is delivered or in phases 2 to 6. -/
private theorem deliver_in (es : List (HEv α)) : ∀ (ph : Nat) (p : Bool) (d o : α), 1 ≤ ph → ph ≤ 6 →
    AlwaysReady es → 2 ≤ ph + es.countP (fun e => e.ci) →
    1 ≤ (hDelivered (hsCdc.trace (conc ph p d o) es)).length ∨
      ∃ ph' p' d' o', 2 ≤ ph' ∧ ph' ≤ 6 ∧ hsCdc.final (conc ph p d o) es = conc ph' p' d' o' := by
  induction es with
  | nil => intro ph p d o h1 h2 _ h; simp at h; exact Or.inr ⟨ph, p, d, o, by omega, h2, rfl⟩
  | cons e es ih =>
    intro ph p d o h1 h2 hr hc
    obtain ⟨hr1, hr2⟩ := ready_cons hr
    have hn := conc_next ph (by omega) p d o e hr1
    rw [deliver_step, Machine.final_cons]
    show _ ∨ ∃ ph' p' d' o', 2 ≤ ph' ∧ ph' ≤ 6 ∧ hsCdc.final (hNext (conc ph p d o) e) es = conc ph' p' d' o'
    rw [hn, List.length_append]
    rw [List.countP_cons] at hc
    by_cases h6 : ph = 6 ∧ e.co = true
    · left
      obtain ⟨rfl, hco⟩ := h6
      simp [hco, hr1 hco]
    · have hle : phNext ph e ≤ 6 := by
        have : ph = 1 ∨ ph = 2 ∨ ph = 3 ∨ ph = 4 ∨ ph = 5 ∨ (ph = 6 ∧ e.co = false) := by
          by_cases h : ph = 6
          · right; right; right; right; right
            exact ⟨h, by simpa [h] using h6⟩
          · omega
        rcases this with h | h | h | h | h | ⟨h, hco⟩ <;> subst h <;> unfold phNext <;> (try simp [hco]) <;>
          (repeat' split) <;> omega
      have hge : ph ≤ phNext ph e ∧ (e.ci = true → 2 ≤ phNext ph e) := by
        have : ph = 1 ∨ ph = 2 ∨ ph = 3 ∨ ph = 4 ∨ ph = 5 ∨ ph = 6 := by omega
        rcases this with h | h | h | h | h | h <;> subst h <;> unfold phNext <;> cases e.ci <;> cases e.co <;>
          cases e.lateE <;> cases e.lateA <;> simp
      have hc' : 2 ≤ phNext ph e + es.countP (fun e => e.ci) := by
        by_cases hci : e.ci = true
        · have := hge.2 hci; omega
        · rw [if_neg hci] at hc; omega
      rcases ih (phNext ph e) (if ph = 9 ∧ e.ci = true then !p else p)
          (if ph = 0 ∧ e.ci = true ∧ e.vld = true then e.din else d)
          (if ph = 5 ∧ e.co = true then d else o) (by omega) hle hr2 hc' with h | h
      · left; omega
      · exact Or.inr h

/-- **C76** An accepted word is delivered after one edge of the input clock followed by five edges of the output
clock, whatever the ratio of the clocks. -/
theorem hsCdc_progress (d0 o0 : α) (es xs ys : List (HEv α)) (hr : AlwaysReady (es ++ (xs ++ ys)))
    (hx : 1 ≤ xs.countP fun e => e.ci) (hy : 5 ≤ ys.countP fun e => e.co) :
    (hAccepted (hRun d0 o0 es)).length ≤ (hDelivered (hRun d0 o0 (es ++ (xs ++ ys)))).length := by
  have hr1 : AlwaysReady es := fun e he => hr e (by simp [he])
  have hr2 : AlwaysReady xs := fun e he => hr e (by simp [he])
  have hr3 : AlwaysReady ys := fun e he => hr e (by simp [he])
  obtain ⟨⟨ph, p, d, o, hph, hs, _⟩, h⟩ := h_conserve es _ (hInit_inv d0 o0) hr1
  have hp0 : pend (hInit d0 o0) = [] := rfl
  have hl := congrArg List.length h
  rw [hp0, List.nil_append, List.length_append] at hl
  unfold hRun
  rw [hl, Machine.trace_append, hDelivered_append, List.length_append, hs, pend_conc]
  by_cases hq : 1 ≤ ph ∧ ph ≤ 6
  · rw [if_pos hq, Machine.trace_append, hDelivered_append, List.length_append]
    rcases deliver_in xs ph p d o hq.1 hq.2 hr2 (by omega) with h | ⟨ph', p', d', o', h2, h6, hf⟩
    · simp only [List.length_singleton]; omega
    · rw [hf]
      have := deliver_out ys ph' p' d' o' h2 h6 hr3 (by omega)
      simp only [List.length_singleton]; omega
  · rw [if_neg hq]
    simp only [List.length_nil]; omega

private theorem rd_of_zero (p : Bool) (d o : α) (e : HEv α) : (hsCdc.out (conc 0 p d o) e).rd = true := rfl

/-- From phases 7 to 9 (and 0) enough edges of the input clock make the input ready at some point. -/
private theorem ready_in (es : List (HEv α)) : ∀ (ph : Nat) (p : Bool) (d o : α), (7 ≤ ph ∨ ph = 10) → ph ≤ 10 →
    AlwaysReady es → 10 ≤ ph + es.countP (fun e => e.ci) →
    ∃ a b, es = a ++ b ∧ ∃ p' d' o', hsCdc.final (conc (ph % 10) p d o) a = conc 0 p' d' o' := by
  induction es with
  | nil =>
    intro ph p d o h1 h2 _ h
    have : ph = 10 := by simp at h; omega
    subst this
    exact ⟨[], [], rfl, p, d, o, rfl⟩
  | cons e es ih =>
    intro ph p d o h1 h2 hr hc
    obtain ⟨hr1, hr2⟩ := ready_cons hr
    by_cases h10 : ph = 10
    · subst h10; exact ⟨[], e :: es, rfl, p, d, o, rfl⟩
    · have hmod : ph % 10 = ph := by omega
      rw [hmod]
      have hn := conc_next ph (by omega) p d o e hr1
      rw [List.countP_cons] at hc
      have hph : phNext ph e = (if e.ci = true then ph + 1 else ph) % 10 := by
        have : ph = 7 ∨ ph = 8 ∨ ph = 9 := by omega
        rcases this with h | h | h <;> subst h <;> unfold phNext <;> cases e.ci <;> simp
      obtain ⟨a, b, hab, hf⟩ := ih (if e.ci = true then ph + 1 else ph) (if ph = 9 ∧ e.ci = true then !p else p)
          (if ph = 0 ∧ e.ci = true ∧ e.vld = true then e.din else d)
          (if ph = 5 ∧ e.co = true then d else o) (by split <;> omega) (by split <;> omega) hr2
          (by split <;> rename_i h <;> simp only [h] at hc <;> simp at hc <;> omega)
      refine ⟨e :: a, b, by rw [hab]; rfl, ?_⟩
      rw [Machine.final_cons]
      show ∃ p' d' o', hsCdc.final (hNext (conc ph p d o) e) a = conc 0 p' d' o'
      rw [hn, hph]
      exact hf

/-- Phases 1 to 6 end in 7 to 9 or the transfer is already over. -/
private theorem phase_out (es : List (HEv α)) : ∀ (ph : Nat) (p : Bool) (d o : α), 1 ≤ ph → ph ≤ 9 →
    AlwaysReady es → (∃ a b, es = a ++ b ∧ ∃ p' d' o', hsCdc.final (conc ph p d o) a = conc 0 p' d' o') ∨
    ∃ ph' p' d' o', hsCdc.final (conc ph p d o) es = conc ph' p' d' o' ∧ ph' ≤ 9 ∧
      (2 ≤ ph ∨ 1 ≤ es.countP (fun e => e.ci) → 2 ≤ ph') ∧
      (2 ≤ ph → 7 ≤ ph + es.countP (fun e => e.co) → 7 ≤ ph') ∧ ph ≤ ph' := by
  induction es with
  | nil =>
    intro ph p d o h1 h2 _
    right
    refine ⟨ph, p, d, o, rfl, by omega, ?_, ?_, by omega⟩ <;> simp <;> omega
  | cons e es ih =>
    intro ph p d o h1 h2 hr
    obtain ⟨hr1, hr2⟩ := ready_cons hr
    have hn := conc_next ph (by omega) p d o e hr1
    have hfin : ∀ a, hsCdc.final (conc ph p d o) (e :: a) = hsCdc.final (hNext (conc ph p d o) e) a := fun _ => rfl
    by_cases h0 : phNext ph e = 0
    · left
      refine ⟨[e], es, rfl, ?_⟩
      rw [hfin, hn, h0]
      exact ⟨_, _, _, rfl⟩
    · have hfacts : ph ≤ phNext ph e ∧ (e.ci = true → 2 ≤ phNext ph e) ∧
          (2 ≤ ph → ph ≤ 6 → e.co = true → ph + 1 ≤ phNext ph e) := by
        have : ph = 1 ∨ ph = 2 ∨ ph = 3 ∨ ph = 4 ∨ ph = 5 ∨ ph = 6 ∨ ph = 7 ∨ ph = 8 ∨ ph = 9 := by omega
        rcases this with h | h | h | h | h | h | h | h | h <;> subst h <;> revert h0 <;> unfold phNext <;>
          cases e.ci <;> cases e.co <;> cases e.lateE <;> cases e.lateA <;> simp
      rcases ih (phNext ph e) (if ph = 9 ∧ e.ci = true then !p else p)
          (if ph = 0 ∧ e.ci = true ∧ e.vld = true then e.din else d)
          (if ph = 5 ∧ e.co = true then d else o) (by omega) (phNext_le ph e h2) hr2 with
        ⟨a, b, hab, hf⟩ | ⟨ph', p', d', o', hf, h9, hA, hB, hC⟩
      · left
        refine ⟨e :: a, b, by rw [hab]; rfl, ?_⟩
        rw [hfin, hn]; exact hf
      · right
        refine ⟨ph', p', d', o', by rw [hfin, hn]; exact hf, h9, ?_, ?_, by omega⟩
        · intro h
          rw [List.countP_cons] at h
          by_cases hci : e.ci = true
          · have := hfacts.2.1 hci; omega
          · rw [if_neg hci] at h
            exact hA (by omega)
        · intro h h'
          rw [List.countP_cons] at h'
          by_cases h7 : 7 ≤ ph
          · omega
          · by_cases hco : e.co = true
            · have := hfacts.2.2 h (by omega) hco
              rw [if_pos hco] at h'
              exact hB (by omega) (by omega)
            · rw [if_neg hco] at h'
              exact hB (by omega) (by omega)

/-- **C76** After a word was accepted `dataIn` is ready again within one edge of the input clock, five edges of the
output clock and three edges of the input clock (in this order). -/
theorem hsCdc_ready_again (d0 o0 : α) (es xs ys zs : List (HEv α)) (hr : AlwaysReady (es ++ (xs ++ (ys ++ zs))))
    (hx : 1 ≤ xs.countP fun e => e.ci) (hy : 5 ≤ ys.countP fun e => e.co) (hz : 3 ≤ zs.countP fun e => e.ci) :
    ∃ a b, xs ++ (ys ++ zs) = a ++ b ∧ ∀ e, (hsCdc.outAfter (hInit d0 o0) (es ++ a) e).rd = true := by
  have hr1 : AlwaysReady es := fun e he => hr e (by simp [he])
  have hr2 : AlwaysReady xs := fun e he => hr e (by simp [he])
  have hr3 : AlwaysReady ys := fun e he => hr e (by simp [he])
  have hr4 : AlwaysReady zs := fun e he => hr e (by simp [he])
  obtain ⟨⟨ph, p, d, o, hph, hs, _⟩, -⟩ := h_conserve es _ (hInit_inv d0 o0) hr1
  have fin : ∀ a, (∃ p' d' o', hsCdc.final (conc ph p d o) a = conc 0 p' d' o') →
      ∀ e, (hsCdc.outAfter (hInit d0 o0) (es ++ a) e).rd = true := by
    rintro a ⟨p', d', o', h⟩ e
    rw [Machine.outAfter, Machine.final_append, hs, h]
    rfl
  by_cases h0 : ph = 0
  · subst h0
    exact ⟨[], _, rfl, fin [] ⟨p, d, o, rfl⟩⟩
  · rcases phase_out xs ph p d o (by omega) hph hr2 with ⟨a, b, hab, hf⟩ | ⟨ph1, p1, d1, o1, hf1, h91, hA1, _, _⟩
    · exact ⟨a, b ++ (ys ++ zs), by rw [hab, List.append_assoc], fin a hf⟩
    · have h2 := hA1 (Or.inr hx)
      rcases phase_out ys ph1 p1 d1 o1 (by omega) h91 hr3 with
        ⟨a, b, hab, hf⟩ | ⟨ph2, p2, d2, o2, hf2, h92, _, hB2, _⟩
      · refine ⟨xs ++ a, b ++ zs, by rw [hab]; simp, fin _ ?_⟩
        rw [Machine.final_append, hf1]; exact hf
      · have h7 := hB2 h2 (by omega)
        obtain ⟨a, b, hab, hf⟩ := ready_in zs ph2 p2 d2 o2 (Or.inl h7) (by omega) hr4 (by omega)
        rw [Nat.mod_eq_of_lt (by omega)] at hf
        refine ⟨xs ++ (ys ++ a), b, by rw [hab]; simp, fin _ ?_⟩
        rw [Machine.final_append, hf1, Machine.final_append, hf2]; exact hf

/-- Both clocks at once, with a word `d` offered or not, and the consumer ready or not. -/
def tick (vld : Bool) (d : Nat) (rd : Bool) : HEv Nat := ⟨true, true, vld, d, rd, false, false⟩

/-- **C75** is false: one word 7 is sent, the consumer is not ready in one cycle; it gets the undefined content of the
data register before the word. -/
theorem hsCdc_backpressure_broken : ¬ HsCdcCorrect Nat := by
  intro h
  obtain ⟨pending, _, h⟩ := h 0 99 (tick true 7 true :: (List.replicate 4 (tick false 0 true) ++
    [tick false 0 false] ++ List.replicate 3 (tick false 0 true)))
  have h1 : hAccepted (hRun 0 99 (tick true 7 true :: (List.replicate 4 (tick false 0 true) ++
    [tick false 0 false] ++ List.replicate 3 (tick false 0 true)))) = [7] := by decide
  have h2 : hDelivered (hRun 0 99 (tick true 7 true :: (List.replicate 4 (tick false 0 true) ++
    [tick false 0 false] ++ List.replicate 3 (tick false 0 true)))) = [99, 7] := by decide
  rw [h1, h2] at h
  simp at h

/-- **C75** The word can also be lost: the consumer takes the undefined word and is not ready in the next cycle. -/
theorem hsCdc_backpressure_loses :
    let es := tick true 7 true :: (List.replicate 4 (tick false 0 true) ++
      [tick false 0 false, tick false 0 true, tick false 0 false] ++ List.replicate 30 (tick false 0 true))
    hAccepted (hRun 0 99 es) = [7] ∧ hDelivered (hRun 0 99 es) = [99] := by decide

/-! Non-vacuity. -/

def exEvents : List (HEv Nat) := List.flatten (List.replicate 12
  [⟨true, false, true, 5, false, false, false⟩, ⟨false, true, false, 0, true, false, false⟩,
   ⟨true, true, true, 6, true, true, false⟩, ⟨true, true, false, 0, true, false, true⟩])

set_option maxRecDepth 4096 in
example : (∀ e ∈ exEvents, e.co = true → e.rd = true) ∧
    hAccepted (hRun 0 9 exEvents) = [5, 5, 5, 5] ∧ hDelivered (hRun 0 9 exEvents) = [5, 5, 5, 5] := by
  decide

end Verif.Cdc
