import Verif.Timers
/-!
# Properties of the shared timers (C69, C70)
-/
namespace Verif.Timers

open BusMap (isPow2)

/-- Number of enabled clock cycles of the history `h` which come after the last cycle with reset. -/
def enabledSinceReset (h : List In) : Nat := (h.reverse.takeWhile fun i => !i.rst).countP fun i => i.en

theorem enabledSinceReset_snoc (h : List In) (i : In) :
    enabledSinceReset (h ++ [i]) = kNext (enabledSinceReset h) i := by
  unfold enabledSinceReset kNext
  rw [List.reverse_append]
  cases hr : i.rst <;> cases he : i.en <;> simp [hr, he]

theorem reg_final (ps : List Nat) (hps : ∀ p ∈ ps, 0 < p) (h : List In) :
    Reg ps (enabledSinceReset h) ((machine ps).final (init ps) h) := by
  have gen : ∀ (n : Nat) (h : List In), h.length = n →
      Reg ps (enabledSinceReset h) ((machine ps).final (init ps) h) := by
    intro n
    induction n with
    | zero =>
      intro h hn
      rw [List.eq_nil_of_length_eq_zero hn]
      exact reg_init ps
    | succ n ih =>
      intro h hn
      have hne : h ≠ [] := by intro e; rw [e] at hn; cases hn
      rw [← List.dropLast_concat_getLast hne, enabledSinceReset_snoc, Machine.final_append]
      exact reg_next ps hps (ih _ (by rw [List.length_dropLast]; omega)) _
  exact gen _ h rfl

theorem out_getElem (ps : List Nat) (cnt : Nat → Nat) (i : In) (t : Nat) (ht : t < ps.length) :
    ((machine ps).out cnt i)[t]? = some (tick (fun t => ps.getD t 0) (parent ps) cnt i (depth ps) t) := by
  show ((List.range ps.length).map _)[t]? = _
  rw [List.getElem?_map, List.getElem?_range ht]
  rfl

/-- **C69**: whatever list of periods is requested together, and however the timers are shared, the
timer with period `p` ticks in an enabled clock cycle exactly if this is the `p`-th, `2p`-th, `3p`-th, …
enabled cycle after the last reset, and it does not tick in a cycle which is not enabled. -/
theorem timers_period (ps : List Nat) (hps : ∀ p ∈ ps, 0 < p) (h : List In) (i : In) (hi : i.rst = false)
    (t p : Nat) (ht : ps[t]? = some p) :
    ((machine ps).outAfter (init ps) h i)[t]? = some (i.en && decide (p ∣ enabledSinceReset h + 1)) := by
  have hlt : t < ps.length := by
    rcases Nat.lt_or_ge t ps.length with h | h
    · exact h
    · rw [List.getElem?_eq_none h] at ht; cases ht
  rw [Machine.outAfter, out_getElem ps _ _ _ hlt, tick_eq ps hps (reg_final ps hps h) i hi t hlt,
    List.getD_eq_getElem?_getD, ht]
  congr 2
  rw [Bool.eq_iff_iff]
  simp [Nat.dvd_iff_mod_eq_zero]

/-- **C69**, for a timer without enable and reset: ticks come every `p` clock cycles. -/
theorem timers_free_running (ps : List Nat) (hps : ∀ p ∈ ps, 0 < p) (n t p : Nat) (ht : ps[t]? = some p) :
    ((machine ps).outAfter (init ps) (List.replicate n ⟨true, false⟩) ⟨true, false⟩)[t]?
      = some (decide (p ∣ n + 1)) := by
  rw [timers_period ps hps _ _ rfl t p ht]
  have e : enabledSinceReset (List.replicate n ⟨true, false⟩) = n := by
    unfold enabledSinceReset
    simp [List.countP_replicate]
  rw [e]; simp

/-- **C69**: the tick of a timer does not depend on the timers requested together with it. -/
theorem timers_independent (ps qs : List Nat) (hps : ∀ p ∈ ps, 0 < p) (hqs : ∀ p ∈ qs, 0 < p)
    (h : List In) (i : In) (hi : i.rst = false) (t u p : Nat) (ht : ps[t]? = some p) (hu : qs[u]? = some p) :
    ((machine ps).outAfter (init ps) h i)[t]? = ((machine qs).outAfter (init qs) h i)[u]? := by
  rw [timers_period ps hps h i hi t p ht, timers_period qs hqs h i hi u p hu]

/-- The full statement of C70: while the reset signal of the timers is active, no timer ticks. -/
def NoTickInReset : Prop :=
  ∀ (ps : List Nat), (∀ p ∈ ps, 1 < p) → ∀ (h : List In) (i : In), i.rst = true →
    ∀ b ∈ (machine ps).outAfter (init ps) h i, b = false

/-- **C70** is false: timer 2 next to timer 4 is a low bit of the counter of timer 4, and its tick is not
masked by the reset. -/
theorem timers_tick_in_reset : ¬ NoTickInReset := by
  intro h
  have := h [2, 4] (by decide) [⟨true, false⟩] ⟨true, true⟩ rfl true (by decide)
  cases this

/-- **C70**, what holds: a timer which has its own counter does not tick during the reset; in particular a
timer requested alone and each timer whose period is not a power of two. Missing: powers of two which are
taken from the counter of a longer timer (`timers_tick_in_reset`), and period 1. -/
theorem timers_no_tick_in_reset_partial (ps : List Nat) (hps : ∀ p ∈ ps, 1 < p) (h : List In) (i : In)
    (hi : i.rst = true) (t p : Nat) (ht : ps[t]? = some p) (hp : (∀ k, p ≠ 2 ^ k) ∨ ps = [p]) :
    ((machine ps).outAfter (init ps) h i)[t]? = some false := by
  have hlt : t < ps.length := by
    rcases Nat.lt_or_ge t ps.length with h | h
    · exact h
    · rw [List.getElem?_eq_none h] at ht; cases ht
  have hget : ps.getD t 0 = p := by rw [List.getD_eq_getElem?_getD, ht]; rfl
  have hp1 : 1 < p := hps p (List.mem_of_getElem? ht)
  rw [Machine.outAfter, out_getElem ps _ _ _ hlt]
  generalize (machine ps).final (init ps) h = cnt
  have root : ∀ f u, parent ps u = none → ps.getD u 0 ≠ 1 →
      tick (fun t => ps.getD t 0) (parent ps) cnt i (f + 1) u = false := by
    intro f u hu h1
    unfold tick
    rw [hu]
    simp only
    rw [if_neg h1, hi]; simp
  rcases hp with hp | hp
  · have hnp : isPow2 (ps.getD t 0) = false := by
      rw [hget]
      cases hb : isPow2 p with
      | false => rfl
      | true => exact absurd (by simpa [isPow2] using hb) (hp _)
    -- along the chain of parents of timers which are not powers of two
    have gen : ∀ (f u : Nat), u ∈ order ps → isPow2 (ps.getD u 0) = false →
        tick (fun t => ps.getD t 0) (parent ps) cnt i f u = false := by
      intro f
      induction f with
      | zero => intros; rfl
      | succ f ih =>
        intro u hu hnu
        cases hpu : parent ps u with
        | none => exact root f u hpu (mem_order.1 hu).2
        | some q =>
          obtain ⟨a, b, hab⟩ := order_split ps hu
          rcases parent_shared ps a u b hab q hpu with ⟨c1, _⟩ | ⟨_, c2, c3⟩
          · simp only at c1; rw [hnu] at c1; cases c1
          · have hqo : q ∈ order ps := by rw [hab]; simp [c2]
            have hupos : 0 < ps.getD u 0 :=
              per_pos ps (fun p hp => by have := hps p hp; omega) (mem_order.1 hu).1
            have hle : ps.getD q 0 ≤ ps.getD u 0 := Nat.le_of_dvd hupos (Nat.dvd_of_mod_eq_zero c3)
            unfold tick
            rw [hpu]
            simp only
            by_cases he : ps.getD q 0 = ps.getD u 0
            · rw [if_pos he]; exact ih q hqo (by rw [he]; exact hnu)
            · rw [if_neg he, if_pos (by omega), hi]; simp
    rw [gen _ t (mem_order.2 ⟨hlt, by rw [hget]; omega⟩) hnp]
  · subst hp
    have h0 : t = 0 := by simp at hlt; omega
    subst h0
    rw [show depth [p] = 2 + 1 from rfl, root 2 0 (parent_single p) (by rw [hget]; omega)]

/-! Non-vacuity. -/

/-- All three ways of sharing occur: 12 is clocked by 4, 4 is taken from 16, the second 4 shares with it. -/
example : (order [4, 16, 12, 1, 4]).map (parent [4, 16, 12, 1, 4]) = [none, some 0, some 1, some 1] ∧
    order [4, 16, 12, 1, 4] = [1, 2, 0, 4] := by decide
example : ((machine [4, 16, 12, 1, 4]).outAfter (init [4, 16, 12, 1, 4])
    (List.replicate 11 ⟨true, false⟩) ⟨true, false⟩) = [true, false, true, true, true] := by decide
/-- Reset and disabled cycles in the history. -/
example : enabledSinceReset [⟨true, false⟩, ⟨true, true⟩, ⟨true, false⟩, ⟨false, false⟩] = 1 ∧
    ((machine [2, 6]).outAfter (init [2, 6]) [⟨true, false⟩, ⟨true, true⟩, ⟨true, false⟩, ⟨false, false⟩]
      ⟨true, false⟩) = [true, false] := by decide
example : ∃ t p : Nat, [2, 6][t]? = some p ∧ ∀ k, p ≠ 2 ^ k := by
  refine ⟨1, 6, rfl, fun k h => ?_⟩
  rcases Nat.lt_or_ge k 3 with hk | hk
  · have : k = 0 ∨ k = 1 ∨ k = 2 := by omega
    rcases this with rfl | rfl | rfl <;> simp at h
  · have := Nat.pow_le_pow_right (show 0 < 2 by omega) hk
    omega

end Verif.Timers
