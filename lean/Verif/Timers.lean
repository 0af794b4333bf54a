import Verif.BusMap
/-!
# Model of the shared timers (hwtLib/clocking/timers.py `TimerInfo`, hwtLib/clocking/clkBuilder.py:28-63)

A timer is identified by its position in the list of periods given to `ClkBuilder.timers`.
`TimerInfo.resolveSharing` picks for some timers a parent timer; `TimerInfo.instantiate` then builds
either an own counter, a counter clocked by the tick of the parent, or takes low bits of the counter of
the parent. A missing enable signal is `en = true`, a missing reset signal is `rst = false`
(timers.py:122-149 gives the same logic then).
-/
namespace Verif.Timers

open BusMap (isPow2)

/-! ## resolveSharing -/

def insertDesc (key : Nat → Nat) (x : Nat) : List Nat → List Nat
  | [] => [x]
  | y :: ys => if key y ≤ key x then x :: y :: ys else y :: insertDesc key x ys

/-- timers.py:40-41 `sorted(..., key=lambda t: t.maxVal, reverse=True)` (stable) -/
def sortDesc (key : Nat → Nat) : List Nat → List Nat
  | [] => []
  | x :: xs => insertDesc key x (sortDesc key xs)

/-- timers.py:42-60: one pass over the sorted timers; `done` are the timers before the current one. -/
def resolveGo (per : Nat → Nat) : List Nat → List Nat → (Nat → Option Nat) → Nat → Option Nat
  | _, [], par => par
  | done, t :: rest, par =>
    resolveGo per (done ++ [t]) rest (upd par t
      (if isPow2 (per t) then done.find? fun q => per q % per t == 0 && (par q).isNone
       else rest.find? fun q => per t % per q == 0 && !(par q == some t)))

/-- timers.py:39-41: timers with period 1 take no part in sharing. -/
def order (ps : List Nat) : List Nat :=
  sortDesc (fun t => ps.getD t 0) ((List.range ps.length).filter fun t => ps.getD t 0 != 1)

/-- timers.py:37-60 -/
def parent (ps : List Nat) : Nat → Option Nat :=
  resolveGo (fun t => ps.getD t 0) [] (order ps) fun _ => none

/-! ## The instantiated hardware -/

structure In where
  en : Bool
  rst : Bool
deriving DecidableEq

/-- `timer.cntrRegister`: the timer which owns the register (timers.py:69-71, :79, :103). The first
argument bounds the depth of the chain of parents. -/
def regOf (per : Nat → Nat) (par : Nat → Option Nat) : Nat → Nat → Nat
  | 0, t => t
  | f + 1, t => match par t with
    | none => t
    | some p => if per p = per t then regOf per par f p
      else if per p < per t then t else regOf per par f p

/-- `timer.tick`. Root: timers.py:172-198 with :121, :151-155; equal period: :69-71; counter clocked by
the parent: :74-98; low bits of the counter of the parent: :100-109. -/
def tick (per : Nat → Nat) (par : Nat → Option Nat) (cnt : Nat → Nat) (i : In) : Nat → Nat → Bool
  | 0, _ => false
  | f + 1, t => match par t with
    | none => if per t = 1 then i.en else cnt t == 0 && i.en && !i.rst
    | some p =>
      if per p = per t then tick per par cnt i f p
      else if per p < per t then
        (cnt t == 0 && (tick per par cnt i f p && i.en) && !i.rst) && tick per par cnt i f p
      else cnt (regOf per par f p) % 2 ^ log2ceil (per t) == 0 && i.en

/-- Reload value of the register owned by `t` (timers.py:173, :74). -/
def top (per : Nat → Nat) (par : Nat → Option Nat) (t : Nat) : Nat :=
  match par t with
  | none => per t - 1
  | some p => per t / per p - 1

/-- Enable of the register owned by `t` (timers.py:85-87). -/
def cntEn (per : Nat → Nat) (par : Nat → Option Nat) (cnt : Nat → Nat) (i : In) (f t : Nat) : Bool :=
  match par t with
  | none => i.en
  | some p => tick per par cnt i f p && i.en

/-- timers.py:121-149 -/
def nextCnt (per : Nat → Nat) (par : Nat → Option Nat) (f : Nat) (cnt : Nat → Nat) (i : In) : Nat → Nat :=
  fun t =>
    if i.rst || (cntEn per par cnt i f t && cnt t == 0) then top per par t
    else if cntEn per par cnt i f t then cnt t - 1 else cnt t

/-- Depth of parent chains which is always sufficient (theorem `tick_eq`). -/
def depth (ps : List Nat) : Nat := ps.length + 2

/-- `ClkBuilder.timers(ps, enableSig, rstSig)`: output is the list of tick signals. -/
def machine (ps : List Nat) : Machine (Nat → Nat) In (List Bool) where
  out cnt i := (List.range ps.length).map
    (tick (fun t => ps.getD t 0) (parent ps) cnt i (depth ps))
  next cnt i := nextCnt (fun t => ps.getD t 0) (parent ps) (depth ps) cnt i

/-- Reset values of the registers (timers.py:79-83, :184-188). -/
def init (ps : List Nat) : Nat → Nat := top (fun t => ps.getD t 0) (parent ps)

/-! ## Lemmas about sorting and sharing -/

theorem insertDesc_perm (key : Nat → Nat) (x : Nat) (l : List Nat) : (insertDesc key x l).Perm (x :: l) := by
  induction l with
  | nil => exact List.Perm.refl _
  | cons y ys ih =>
    unfold insertDesc
    split
    · exact List.Perm.refl _
    · exact (List.Perm.cons y ih).trans (List.Perm.swap x y ys)

theorem sortDesc_perm (key : Nat → Nat) (l : List Nat) : (sortDesc key l).Perm l := by
  induction l with
  | nil => exact List.Perm.refl _
  | cons x xs ih => exact (insertDesc_perm key x _).trans (List.Perm.cons x ih)

theorem order_nodup (ps : List Nat) : (order ps).Nodup :=
  (sortDesc_perm _ _).nodup_iff.2 (List.nodup_range.sublist List.filter_sublist)

theorem mem_order {ps : List Nat} {t : Nat} : t ∈ order ps ↔ t < ps.length ∧ ps.getD t 0 ≠ 1 := by
  unfold order
  rw [(sortDesc_perm _ _).mem_iff]
  simp

theorem length_order (ps : List Nat) : (order ps).length ≤ ps.length := by
  unfold order
  rw [(sortDesc_perm _ _).length_eq]
  exact Nat.le_trans (List.length_filter_le _ _) (by simp)

/-- What sharing guarantees about the parents of timers `l` (in processing order). -/
def Shared (per : Nat → Nat) (par : Nat → Option Nat) (l : List Nat) : Prop :=
  ∀ a t b, l = a ++ t :: b → ∀ p, par t = some p →
    (isPow2 (per t) = true ∧ p ∈ a ∧ per p % per t = 0 ∧ par p = none) ∨
    (isPow2 (per t) = false ∧ p ∈ b ∧ per t % per p = 0)

theorem resolveGo_keep (per : Nat → Nat) : ∀ (rest done : List Nat) (par : Nat → Option Nat) (q : Nat),
    q ∉ rest → resolveGo per done rest par q = par q := by
  intro rest
  induction rest with
  | nil => intros; rfl
  | cons t rest ih =>
    intro done par q hq
    rw [resolveGo, ih _ _ _ (fun h => hq (List.mem_cons_of_mem _ h)), upd_ne]
    intro h; exact hq (h ▸ List.mem_cons_self)

theorem resolveGo_shared (per : Nat → Nat) (l : List Nat) (hl : l.Nodup) :
    ∀ (rest done : List Nat) (par : Nat → Option Nat), l = done ++ rest →
    (∀ a t b, l = a ++ t :: b → t ∈ done → ∀ p, par t = some p →
      (isPow2 (per t) = true ∧ p ∈ a ∧ per p % per t = 0 ∧ par p = none) ∨
      (isPow2 (per t) = false ∧ p ∈ b ∧ per t % per p = 0)) →
    (∀ t ∈ rest, par t = none) →
    Shared per (resolveGo per done rest par) l := by
  intro rest
  induction rest with
  | nil =>
    intro done par h1 h2 _ a t b e p hp
    refine h2 a t b e ?_ p hp
    rw [List.append_nil] at h1
    rw [← h1, e]; simp
  | cons t rest ih =>
    intro done par h1 h2 h3
    rw [resolveGo]
    have hn : (done ++ t :: rest).Nodup := h1 ▸ hl
    have hd : t ∉ done ∧ t ∉ rest := by
      rw [List.nodup_append] at hn
      obtain ⟨_, hb, hc⟩ := hn
      exact ⟨fun h => hc t h t List.mem_cons_self rfl, (List.nodup_cons.1 hb).1⟩
    have split : ∀ a x b, l = a ++ x :: b → x = t → a = done ∧ b = rest := by
      intro a x b e hx
      subst hx
      rw [h1] at e
      have := List.append_eq_append_iff.1 e
      rcases this with ⟨c, rfl, hc⟩ | ⟨c, rfl, hc⟩
      · cases c with
        | nil => simp at hc; exact ⟨by simp, hc.symm⟩
        | cons y ys =>
          simp at hc
          exact absurd (by rw [hc.2]; simp) hd.2
      · cases c with
        | nil => simp at hc; exact ⟨by simp, hc⟩
        | cons y ys =>
          simp at hc
          exact absurd (by rw [hc.1]; simp) hd.1
    refine ih _ _ (by rw [h1]; simp) ?_ ?_
    · intro a x b e hx p hp
      by_cases hxt : x = t
      · obtain ⟨rfl, rfl⟩ := split a x b e hxt
        subst hxt
        rw [upd_same] at hp
        split at hp
        · next hpw =>
          have hm := List.mem_of_find?_eq_some hp
          have hc := List.find?_some hp
          rw [Bool.and_eq_true, beq_iff_eq, Option.isNone_iff_eq_none] at hc
          refine Or.inl ⟨hpw, hm, hc.1, ?_⟩
          rw [upd_ne _ _ _ _ (fun h : p = x => hd.1 (h ▸ hm))]
          exact hc.2
        · next hpw =>
          have hm := List.mem_of_find?_eq_some hp
          have hc := List.find?_some hp
          rw [Bool.and_eq_true, beq_iff_eq] at hc
          exact Or.inr ⟨by simpa using hpw, hm, hc.1⟩
      · rw [upd_ne _ _ _ _ hxt] at hp
        have hxd : x ∈ done := by simpa [hxt] using hx
        rcases h2 a x b e hxd p hp with ⟨c1, c2, c3, c4⟩ | h
        · refine Or.inl ⟨c1, c2, c3, ?_⟩
          by_cases hpt : p = t
          · subst hpt
            -- p ∈ a, a is a prefix of done
            exfalso
            rw [h1] at e
            rcases List.append_eq_append_iff.1 e with ⟨c, rfl, hc⟩ | ⟨c, rfl, hc⟩
            · -- a = done ++ c with c starting by p
              cases c with
              | nil => exact hd.1 (by simpa using c2)
              | cons y ys =>
                simp at hc
                have : x ∈ rest := by rw [hc.2]; simp
                rw [List.nodup_append] at hn
                exact hn.2.2 x hxd x (List.mem_cons_of_mem _ this) rfl
            · exact hd.1 (by simp [c2])
          · rw [upd_ne _ _ _ _ hpt]; exact c4
        · exact Or.inr h
    · intro x hx
      rw [upd_ne _ _ _ _ (fun h : x = t => hd.2 (h ▸ hx))]
      exact h3 x (List.mem_cons_of_mem _ hx)

theorem parent_shared (ps : List Nat) : Shared (fun t => ps.getD t 0) (parent ps) (order ps) := by
  unfold parent
  exact resolveGo_shared _ _ (order_nodup ps) _ [] _ rfl (by simp) (by simp)

theorem parent_mem (ps : List Nat) {t p : Nat} (h : parent ps t = some p) : t ∈ order ps := by
  apply Classical.byContradiction
  intro hn
  unfold parent at h
  rw [resolveGo_keep _ _ _ _ _ hn] at h
  cases h

theorem parent_single (p : Nat) : parent [p] 0 = none := by
  cases hq : parent [p] 0 with
  | none => rfl
  | some q =>
    obtain ⟨a, b, hab⟩ := List.append_of_mem (parent_mem [p] hq)
    have hl := length_order [p]
    rw [hab] at hl
    simp only [List.length_append, List.length_cons, List.length_nil] at hl
    have ha : a = [] := List.eq_nil_of_length_eq_zero (by omega)
    have hb : b = [] := List.eq_nil_of_length_eq_zero (by omega)
    rcases parent_shared [p] a 0 b hab q hq with ⟨_, c2, _⟩ | ⟨_, c2, _⟩
    · rw [ha] at c2; cases c2
    · rw [hb] at c2; cases c2

/-! ## Arithmetic -/

theorem zero_iff {P : Nat} (hP : 0 < P) (k : Nat) : P - 1 - k % P = 0 ↔ (k + 1) % P = 0 := by
  have h1 := Nat.mod_lt k hP
  rw [Nat.add_mod]
  rcases Nat.lt_or_ge 1 P with h | h
  · rw [Nat.mod_eq_of_lt h]
    rcases Nat.lt_or_ge (k % P + 1) P with h2 | h2
    · rw [Nat.mod_eq_of_lt h2]; omega
    · rw [show k % P + 1 = P by omega, Nat.mod_self]; omega
  · have : P = 1 := by omega
    subst this; simp; omega

theorem succ_div_of_dvd {d k : Nat} (hd : 0 < d) (h : (k + 1) % d = 0) : (k + 1) / d = k / d + 1 := by
  obtain ⟨q, hq⟩ := Nat.dvd_of_mod_eq_zero h
  cases q with
  | zero => omega
  | succ q =>
    rw [hq, Nat.mul_div_cancel_left _ hd]
    have : k = (d - 1) + d * q := by rw [Nat.mul_succ] at hq; omega
    rw [this, Nat.add_mul_div_left _ _ hd, Nat.div_eq_of_lt (by omega)]
    omega

theorem succ_div_of_not_dvd {d k : Nat} (hd : 0 < d) (h : (k + 1) % d ≠ 0) : (k + 1) / d = k / d := by
  have h0 := Nat.div_add_mod k d
  have h1 := Nat.mod_lt k hd
  have h2 : k % d + 1 < d := by
    rcases Nat.lt_or_ge (k % d + 1) d with h2 | h2
    · exact h2
    · exfalso; apply h
      have : k + 1 = d + d * (k / d) := by omega
      rw [this]; simp
  have : k + 1 = (k % d + 1) + d * (k / d) := by omega
  rw [this, Nat.add_mul_div_left _ _ hd, Nat.div_eq_of_lt h2]
  have e : k % d + 1 + d * (k / d) - 1 = k := by omega
  omega

theorem divided_iff {d m : Nat} (hd : 0 < d) (hm : 0 < m) (k : Nat) :
    ((k + 1) % d = 0 ∧ m - 1 - k / d % m = 0) ↔ (k + 1) % (d * m) = 0 := by
  rw [zero_iff hm]
  constructor
  · rintro ⟨h1, h2⟩
    rw [← succ_div_of_dvd hd h1] at h2
    rw [Nat.mod_mul, h1, h2]; omega
  · intro h
    have h1 : (k + 1) % d = 0 :=
      Nat.mod_eq_zero_of_dvd (Nat.dvd_trans (Nat.dvd_mul_right d m) (Nat.dvd_of_mod_eq_zero h))
    refine ⟨h1, ?_⟩
    rw [← succ_div_of_dvd hd h1]
    rw [Nat.mod_mul, h1] at h
    have : d * ((k + 1) / d % m) = 0 := by omega
    rcases Nat.mul_eq_zero.1 this with h | h
    · omega
    · exact h

theorem lowbits_iff {P q : Nat} (hP : 0 < P) (h : P % q = 0) (k : Nat) :
    (P - 1 - k % P) % q = 0 ↔ (k + 1) % q = 0 := by
  have h1 := Nat.mod_lt k hP
  have e : (P - 1 - k % P) + (k % P + 1) = P := by omega
  have hd := Nat.dvd_of_mod_eq_zero h
  have h2 : q ∣ (P - 1 - k % P) ↔ q ∣ (k % P + 1) := by
    constructor
    · intro hx; exact (Nat.dvd_add_iff_right hx).2 (by rw [e]; exact hd)
    · intro hx; exact (Nat.dvd_add_iff_left hx).2 (by rw [e]; exact hd)
  have h3 : q ∣ (k % P + 1) ↔ q ∣ (k + 1) := by
    have e2 : k + 1 = (k % P + 1) + P * (k / P) := by
      have := Nat.mod_add_div k P; omega
    rw [e2]
    exact Nat.dvd_add_iff_left (Nat.dvd_trans hd (Nat.dvd_mul_right _ _))
  rw [← Nat.dvd_iff_mod_eq_zero, ← Nat.dvd_iff_mod_eq_zero, h2, h3]

/-- A down counter which reloads `T` at zero. -/
theorem wrap (T x : Nat) :
    T - (x + 1) % (T + 1) = if T - x % (T + 1) = 0 then T else T - x % (T + 1) - 1 := by
  have hx := Nat.mod_lt x (show 0 < T + 1 by omega)
  rw [Nat.add_mod]
  rcases Nat.eq_zero_or_pos T with h0 | h0
  · subst h0; simp [Nat.mod_one]
  rw [Nat.mod_eq_of_lt (show 1 < T + 1 by omega)]
  split
  · next h => rw [show x % (T + 1) = T by omega, Nat.mod_self]; rfl
  · rw [Nat.mod_eq_of_lt (show x % (T + 1) + 1 < T + 1 by omega)]; omega

theorem isPow2_eq {n : Nat} (h : isPow2 n = true) (h1 : n ≠ 1) : n = 2 ^ log2ceil n := by
  have h0 := BusMap.isPow2_pos h
  have e : n = 2 ^ BusMap.bitLength (n - 1) := by simpa [isPow2] using h
  rw [show log2ceil n = BusMap.bitLength (n - 1) by
    unfold log2ceil BusMap.bitLength
    rw [if_neg (by omega), if_neg (by omega)]]
  exact e

/-! ## Closed form of the registers -/

/-- Number of enabled cycles per step of the register owned by `t`. -/
def dv (per : Nat → Nat) (par : Nat → Option Nat) (t : Nat) : Nat :=
  match par t with
  | none => 1
  | some p => per p

/-- Timers with a register. -/
def Own (per : Nat → Nat) (par : Nat → Option Nat) (t : Nat) : Prop :=
  match par t with
  | none => True
  | some p => per p < per t

/-- After `k` enabled cycles without reset. -/
def Reg (ps : List Nat) (k : Nat) (cnt : Nat → Nat) : Prop :=
  ∀ t, t < ps.length → Own (fun t => ps.getD t 0) (parent ps) t →
    cnt t = top (fun t => ps.getD t 0) (parent ps) t
      - k / dv (fun t => ps.getD t 0) (parent ps) t % (ps.getD t 0 / dv (fun t => ps.getD t 0) (parent ps) t)

section
variable (ps : List Nat) (hps : ∀ p ∈ ps, 0 < p)
include hps

theorem per_pos {t : Nat} (h : t < ps.length) : 0 < ps.getD t 0 := by
  apply hps
  rw [List.getD_eq_getElem?_getD, List.getElem?_eq_getElem h]
  exact List.getElem_mem _

theorem tick_root {k : Nat} {cnt : Nat → Nat} (hr : Reg ps k cnt) (i : In) (hi : i.rst = false) (f t : Nat)
    (ht : t < ps.length) (hp : parent ps t = none) :
    tick (fun t => ps.getD t 0) (parent ps) cnt i (f + 1) t = (i.en && ((k + 1) % ps.getD t 0 == 0)) := by
  have hpos := per_pos ps hps ht
  unfold tick
  rw [hp]
  simp only
  by_cases h1 : ps.getD t 0 = 1
  · rw [if_pos h1, h1, Nat.mod_one]; simp
  · rw [if_neg h1]
    have e := hr t ht (by unfold Own; rw [hp]; trivial)
    unfold top dv at e
    rw [hp] at e
    simp only [Nat.div_one] at e
    rw [e, hi, Bool.not_false, Bool.and_true, Bool.and_comm]
    congr 1
    rw [Bool.eq_iff_iff, beq_iff_eq, beq_iff_eq]
    exact zero_iff hpos k

omit hps in
theorem order_split {t : Nat} (h : t ∈ order ps) : ∃ a b, order ps = a ++ t :: b := List.append_of_mem h

theorem tick_pow2 {k : Nat} {cnt : Nat → Nat} (hr : Reg ps k cnt) (i : In) (hi : i.rst = false) (f t : Nat)
    (ht : t < ps.length) (h2 : isPow2 (ps.getD t 0) = true) :
    tick (fun t => ps.getD t 0) (parent ps) cnt i (f + 2) t = (i.en && ((k + 1) % ps.getD t 0 == 0)) := by
  cases hp : parent ps t with
  | none => exact tick_root ps hps hr i hi _ t ht hp
  | some p =>
    have hpos := per_pos ps hps ht
    have hto := parent_mem ps hp
    obtain ⟨a, b, hab⟩ := order_split ps hto
    rcases parent_shared ps a t b hab p hp with ⟨_, c2, c3, c4⟩ | ⟨c1, _⟩
    · have hpo : p ∈ order ps := by rw [hab]; simp [c2]
      have hpl := (mem_order.1 hpo).1
      have hppos := per_pos ps hps hpl
      have hle : ps.getD t 0 ≤ ps.getD p 0 := Nat.le_of_dvd hppos (Nat.dvd_of_mod_eq_zero c3)
      unfold tick
      rw [hp]
      simp only
      by_cases he : ps.getD p 0 = ps.getD t 0
      · rw [if_pos he, tick_root ps hps hr i hi f p hpl c4, he]
      · rw [if_neg he, if_neg (by omega)]
        have er : regOf (fun t => ps.getD t 0) (parent ps) (f + 1) p = p := by
          unfold regOf; rw [c4]
        rw [er, ← isPow2_eq h2 (mem_order.1 hto).2]
        have e := hr p hpl (by unfold Own; rw [c4]; trivial)
        unfold top dv at e
        rw [c4] at e
        simp only [Nat.div_one] at e
        rw [e, Bool.and_comm]
        congr 1
        rw [Bool.eq_iff_iff, beq_iff_eq, beq_iff_eq]
        exact lowbits_iff hppos c3 k
    · rw [h2] at c1; cases c1

theorem tick_suffix {k : Nat} {cnt : Nat → Nat} (hr : Reg ps k cnt) (i : In) (hi : i.rst = false) :
    ∀ (b a : List Nat) (t f : Nat), order ps = a ++ t :: b → b.length + 2 ≤ f →
    tick (fun t => ps.getD t 0) (parent ps) cnt i f t = (i.en && ((k + 1) % ps.getD t 0 == 0)) := by
  intro b
  induction hn : b.length using Nat.strongRecOn generalizing b with
  | _ n ih =>
    intro a t f hab hf
    have hto : t ∈ order ps := by rw [hab]; simp
    have ht := (mem_order.1 hto).1
    have hpos := per_pos ps hps ht
    obtain ⟨g, rfl⟩ : ∃ g, f = g + 2 := ⟨f - 2, by omega⟩
    cases hp : parent ps t with
    | none => exact tick_root ps hps hr i hi _ t ht hp
    | some p =>
      rcases parent_shared ps a t b hab p hp with ⟨c1, _⟩ | ⟨_, c2, c3⟩
      · exact tick_pow2 ps hps hr i hi g t ht c1
      · have hpo : p ∈ order ps := by rw [hab]; simp [c2]
        have hpl := (mem_order.1 hpo).1
        have hppos := per_pos ps hps hpl
        have hle : ps.getD p 0 ≤ ps.getD t 0 := Nat.le_of_dvd hpos (Nat.dvd_of_mod_eq_zero c3)
        obtain ⟨b1, b2, rfl⟩ := List.append_of_mem c2
        have hlen : (b1 ++ p :: b2).length = b1.length + (b2.length + 1) := by simp
        have htp : tick (fun t => ps.getD t 0) (parent ps) cnt i (g + 1) p
            = (i.en && ((k + 1) % ps.getD p 0 == 0)) := by
          refine ih b2.length (by omega) b2 rfl (a ++ t :: b1) p (g + 1) (by rw [hab]; simp) (by omega)
        unfold tick
        rw [hp]
        simp only
        by_cases he : ps.getD p 0 = ps.getD t 0
        · rw [if_pos he, htp, he]
        · have hlt : ps.getD p 0 < ps.getD t 0 := by omega
          rw [if_neg he, if_pos hlt, htp, hi]
          have e := hr t ht (by unfold Own; rw [hp]; exact hlt)
          unfold top dv at e
          rw [hp] at e
          simp only at e
          have hm : 0 < ps.getD t 0 / ps.getD p 0 := Nat.div_pos hle hppos
          have hmul : ps.getD p 0 * (ps.getD t 0 / ps.getD p 0) = ps.getD t 0 :=
            Nat.mul_div_cancel' (Nat.dvd_of_mod_eq_zero c3)
          have key := divided_iff hppos hm k
          rw [hmul] at key
          rw [Bool.eq_iff_iff]
          simp only [Bool.and_eq_true, beq_iff_eq, Bool.not_false, and_true]
          rw [e, ← key]
          constructor
          · rintro ⟨⟨h1, ⟨h2, h3⟩, _⟩, _⟩; exact ⟨h2, h3, h1⟩
          · rintro ⟨h1, h2, h3⟩; exact ⟨⟨h3, ⟨h1, h2⟩, h1⟩, h1, h2⟩

/-- Every timer ticks as if it had its own counter, however it is built. -/
theorem tick_eq {k : Nat} {cnt : Nat → Nat} (hr : Reg ps k cnt) (i : In) (hi : i.rst = false) (t : Nat)
    (ht : t < ps.length) :
    tick (fun t => ps.getD t 0) (parent ps) cnt i (depth ps) t = (i.en && ((k + 1) % ps.getD t 0 == 0)) := by
  by_cases h1 : t ∈ order ps
  · obtain ⟨a, b, hab⟩ := order_split ps h1
    refine tick_suffix ps hps hr i hi b a t _ hab ?_
    have := length_order ps
    rw [hab] at this
    simp only [List.length_append, List.length_cons] at this
    unfold depth; omega
  · refine tick_root ps hps hr i hi (ps.length + 1) t ht ?_
    cases hp : parent ps t with
    | none => rfl
    | some p => exact absurd (parent_mem ps hp) h1

omit hps in
theorem reg_init : Reg ps 0 (init ps) := by
  intro t _ _
  simp [init]

theorem top_succ {t : Nat} (ht : t < ps.length) (ho : Own (fun t => ps.getD t 0) (parent ps) t) :
    top (fun t => ps.getD t 0) (parent ps) t + 1
      = ps.getD t 0 / dv (fun t => ps.getD t 0) (parent ps) t := by
  have hpos := per_pos ps hps ht
  unfold Own at ho
  unfold top dv
  cases hp : parent ps t with
  | none => simp only [Nat.div_one]; omega
  | some p =>
    rw [hp] at ho
    simp only at ho ⊢
    have hpo : 0 < ps.getD p 0 := by
      obtain ⟨a, b, hab⟩ := order_split ps (parent_mem ps hp)
      apply per_pos ps hps
      apply (mem_order.1 (?_ : p ∈ order ps)).1
      rcases parent_shared ps a t b hab p hp with ⟨_, c2, _⟩ | ⟨_, c2, _⟩ <;> rw [hab] <;> simp [c2]
    have := Nat.div_pos (Nat.le_of_lt ho) hpo
    omega

theorem dv_pos {t : Nat} : 0 < dv (fun t => ps.getD t 0) (parent ps) t := by
  unfold dv
  cases hp : parent ps t with
  | none => simp
  | some p =>
    simp only
    obtain ⟨a, b, hab⟩ := order_split ps (parent_mem ps hp)
    apply per_pos ps hps
    apply (mem_order.1 (?_ : p ∈ order ps)).1
    rcases parent_shared ps a t b hab p hp with ⟨_, c2, _⟩ | ⟨_, c2, _⟩ <;> rw [hab] <;> simp [c2]

theorem cntEn_eq {k : Nat} {cnt : Nat → Nat} (hr : Reg ps k cnt) (i : In) (hi : i.rst = false) (t : Nat) :
    cntEn (fun t => ps.getD t 0) (parent ps) cnt i (depth ps) t
      = (i.en && ((k + 1) % dv (fun t => ps.getD t 0) (parent ps) t == 0)) := by
  unfold cntEn dv
  cases hp : parent ps t with
  | none => simp [Nat.mod_one]
  | some p =>
    simp only
    obtain ⟨a, b, hab⟩ := order_split ps (parent_mem ps hp)
    have hpl : p < ps.length := by
      apply (mem_order.1 (?_ : p ∈ order ps)).1
      rcases parent_shared ps a t b hab p hp with ⟨_, c2, _⟩ | ⟨_, c2, _⟩ <;> rw [hab] <;> simp [c2]
    rw [tick_eq ps hps hr i hi p hpl]
    cases i.en <;> simp

/-- Enabled cycles since reset, after one more cycle. -/
def kNext (k : Nat) (i : In) : Nat := if i.rst then 0 else if i.en then k + 1 else k

theorem reg_next {k : Nat} {cnt : Nat → Nat} (hr : Reg ps k cnt) (i : In) :
    Reg ps (kNext k i) ((machine ps).next cnt i) := by
  intro t ht ho
  show nextCnt _ _ _ cnt i t = _
  unfold nextCnt kNext
  cases hi : i.rst with
  | true => simp
  | false =>
    have e := hr t ht ho
    have hm := top_succ ps hps ht ho
    have hd := dv_pos ps hps (t := t)
    rw [cntEn_eq ps hps hr i hi t]
    generalize hT : top (fun t => ps.getD t 0) (parent ps) t = T at *
    generalize hD : dv (fun t => ps.getD t 0) (parent ps) t = d at *
    rw [← hm] at e ⊢
    cases hen : i.en with
    | false => simp [e]
    | true =>
      by_cases h : (k + 1) % d = 0
      · simp only [h, Bool.false_or, Bool.true_and, beq_self_eq_true, beq_iff_eq,
          Bool.false_eq_true, if_false, if_true, e]
        rw [succ_div_of_dvd hd h]
        exact (wrap T (k / d)).symm
      · simp [h, e, succ_div_of_not_dvd hd h]

end

end Verif.Timers
