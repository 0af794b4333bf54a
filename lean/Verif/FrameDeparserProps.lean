import Verif.FrameDeparser
import Verif.FrameParserProps
import Mathlib.Data.List.Induction

/-!
# Properties of `Axi4S_frameDeparser` (C207 - C210)
-/

namespace Verif.FrameDeparser

open Verif

abbrev Tr := List (In × Out)
abbrev Val := Nat → Bool

/-- words (and `last`) which were sent -/
def sent (tr : Tr) : List ((Nat → Option Bool) × Bool) :=
  tr.filterMap fun p => if p.2.valid && p.1.ready then some (p.2.word, p.2.last) else none

/-- values of field `f` which were read -/
def taken (f : Nat) (tr : Tr) : List Val :=
  tr.filterMap fun p => if p.1.vld f && p.2.rd f then some (p.1.data f) else none

/-- the sources keep the value until it is read -/
def Stable (c : Cfg) (tr : Tr) : Prop :=
  ∀ pre p q post, tr = pre ++ p :: q :: post → ∀ f < c.m, p.1.vld f = true → p.2.rd f = false →
    q.1.vld f = true ∧ q.1.data f = p.1.data f

/-- field `f` ends in a word from which field `g` continues to the next word -/
def Mixes (c : Cfg) (f g : Nat) : Prop := firstw c g ≤ lastw c f ∧ lastw c f < lastw c g

/-- a field is valid only together with the fields which cross the end of its last word -/
def Together (c : Cfg) (tr : Tr) : Prop :=
  ∀ p ∈ tr, ∀ f < c.m, ∀ g < c.m, Mixes c f g → p.1.vld f = true → p.1.vld g = true

/-- The words are the frames of the values: of each field a value is read for each frame which contains its end, and word `q`
contains the bits of the value of frame `q / n`. -/
def Framed (c : Cfg) (tr : Tr) : Prop :=
  (∀ f < c.m, (taken f tr).length = (sent tr).length / n c + if lastw c f < (sent tr).length % n c then 1 else 0) ∧
  (∀ q w l, (sent tr)[q]? = some (w, l) →
    (l = true ↔ (q + 1) % n c = 0) ∧
    (∀ f < c.m, ∀ v, (taken f tr)[q / n c]? = some v → ∀ b < c.DW, c.st f ≤ q % n c * c.DW + b → q % n c * c.DW + b < c.en f →
      w b = some (v (q % n c * c.DW + b - c.st f))) ∧
    (∀ b < c.DW, (∀ f < c.m, ¬(c.st f ≤ q % n c * c.DW + b ∧ q % n c * c.DW + b < c.en f)) → w b = none))

/-- full statement: every value of a field is sent, in any order in which the values come -/
def AllSent (c : Cfg) : Prop :=
  ∀ is : List In, Stable c ((machine c).trace (init c) is) → Framed c ((machine c).trace (init c) is)

theorem n_pos {c : Cfg} (hw : Wf c) : 0 < n c := by
  have h1 := hw.dw
  have h2 := hw.t
  unfold n
  exact Nat.div_pos (by omega) h1

theorem lastw_lt {c : Cfg} (hw : Wf c) {f : Nat} (hf : f < c.m) : lastw c f < n c := by
  have h1 := hw.lt f hf
  have h2 := hw.le f hf
  have h3 := hw.dw
  unfold lastw n
  rw [Nat.div_lt_iff_lt_mul h3]
  have := Nat.div_add_mod (c.T + c.DW - 1) c.DW
  have h4 := Nat.mod_lt (c.T + c.DW - 1) h3
  rw [Nat.mul_comm]
  omega

theorem firstw_le {c : Cfg} (hw : Wf c) {f : Nat} (hf : f < c.m) : firstw c f ≤ lastw c f := by
  have h1 := hw.lt f hf
  exact Nat.div_le_div_right (by omega)

/-- a field with a bit in word `i` is an input of the word -/
theorem inPort_of_bit {c : Cfg} (hw : Wf c) {f i b : Nat} (hb : b < c.DW) (h1 : c.st f ≤ i * c.DW + b)
    (h2 : i * c.DW + b < c.en f) : inPort c i f = true := by
  have h0 := hw.dw
  have e : (i * c.DW + b) / c.DW = i := by
    rw [Nat.mul_comm, Nat.mul_add_div h0, Nat.div_eq_of_lt hb]; rfl
  have a1 : firstw c f ≤ i := by
    have := Nat.div_le_div_right (c := c.DW) h1
    rw [e] at this; exact this
  have a2 : i ≤ lastw c f := by
    have := Nat.div_le_div_right (c := c.DW) (show i * c.DW + b ≤ c.en f - 1 by omega)
    rw [e] at this; exact this
  simp [inPort, a1, a2]

theorem word_bit {c : Cfg} (hw : Wf c) (i : Nat) (d : Nat → Nat → Bool) {f b : Nat} (hf : f < c.m)
    (h1 : c.st f ≤ i * c.DW + b) (h2 : i * c.DW + b < c.en f) : word c i d b = some (d f (i * c.DW + b - c.st f)) := by
  unfold word
  cases h : (List.range c.m).find? fun f => decide (c.st f ≤ i * c.DW + b) && decide (i * c.DW + b < c.en f) with
  | none =>
    have := List.find?_eq_none.1 h f (List.mem_range.2 hf)
    simp [h1, h2] at this
  | some g =>
    have hp := List.find?_some h
    have hm := List.mem_range.1 (List.mem_of_find?_eq_some h)
    simp only [Bool.and_eq_true, decide_eq_true_eq] at hp
    by_cases e : f = g
    · subst e; rfl
    · rcases hw.disj f hf g hm e with h' | h' <;> omega

theorem word_pad (c : Cfg) (i : Nat) (d : Nat → Nat → Bool) {b : Nat}
    (h : ∀ f < c.m, ¬(c.st f ≤ i * c.DW + b ∧ i * c.DW + b < c.en f)) : word c i d b = none := by
  unfold word
  rw [List.find?_eq_none.2]
  · rfl
  · intro f hf
    have := h f (List.mem_range.1 hf)
    simpa using this

/-! ## Invariant -/

/-- the value which waits at field `f` -/
def held (f : Nat) (tr : Tr) : Option Val :=
  tr.getLast?.bind fun p => if p.1.vld f && !p.2.rd f then some (p.1.data f) else none

def items (f : Nat) (tr : Tr) : List Val := taken f tr ++ (held f tr).toList

theorem sent_snoc (tr : Tr) (p : In × Out) :
    sent (tr ++ [p]) = sent tr ++ if p.2.valid && p.1.ready then [(p.2.word, p.2.last)] else [] := by
  simp only [sent, List.filterMap_append, List.filterMap_cons, List.filterMap_nil]
  cases p.2.valid && p.1.ready <;> rfl

theorem taken_snoc (f : Nat) (tr : Tr) (p : In × Out) :
    taken f (tr ++ [p]) = taken f tr ++ if p.1.vld f && p.2.rd f then [p.1.data f] else [] := by
  simp only [taken, List.filterMap_append, List.filterMap_cons, List.filterMap_nil]
  cases p.1.vld f && p.2.rd f <;> rfl

theorem items_snoc (f : Nat) (tr : Tr) (p : In × Out) :
    items f (tr ++ [p]) = taken f tr ++ if p.1.vld f then [p.1.data f] else [] := by
  simp only [items, taken_snoc, held, List.getLast?_append, List.getLast?_singleton]
  cases h1 : p.1.vld f <;> cases h2 : p.2.rd f <;> simp [h1, h2]

/-- nothing which was offered is changed -/
theorem items_mono {c : Cfg} {tr : Tr} {p : In × Out} (hs : Stable c (tr ++ [p])) {f : Nat} (hf : f < c.m) {k : Nat} {v : Val}
    (h : (items f tr)[k]? = some v) : (items f (tr ++ [p]))[k]? = some v := by
  rw [items_snoc]
  unfold items at h
  by_cases hk : k < (taken f tr).length
  · rw [List.getElem?_append_left hk] at h ⊢
    exact h
  · rw [List.getElem?_append_right (by omega)] at h ⊢
    cases hh : held f tr with
    | none => rw [hh] at h; simp at h
    | some u =>
      rw [hh] at h
      unfold held at hh
      rcases List.eq_nil_or_concat tr with e | ⟨pre, q, e⟩
      · subst e; simp at hh
      · subst e
        simp only [List.concat_eq_append, List.getLast?_append, List.getLast?_singleton, Option.some_or, Option.bind_some] at hh
        split at hh
        · rename_i hc
          simp only [Bool.and_eq_true, Bool.not_eq_true'] at hc
          have := hs pre q p [] (by simp) f hf hc.1 hc.2
          rw [if_pos this.1, this.2]
          injection hh with hh
          rw [hh]; exact h
        · simp at hh

structure Inv (c : Cfg) (tr : Tr) (s : St) : Prop where
  cnt : s.cnt + (sent tr).length % n c + 1 = n c
  len : ∀ f < c.m, (taken f tr).length = (sent tr).length / n c + if lastw c f < (sent tr).length % n c then 1 else 0
  last : ∀ q w l, (sent tr)[q]? = some (w, l) → (l = true ↔ (q + 1) % n c = 0)
  data : ∀ q w l, (sent tr)[q]? = some (w, l) → ∀ f < c.m, ∀ b < c.DW, c.st f ≤ q % n c * c.DW + b → q % n c * c.DW + b < c.en f →
    ∃ v, (items f tr)[q / n c]? = some v ∧ w b = some (v (q % n c * c.DW + b - c.st f))
  pad : ∀ q w l, (sent tr)[q]? = some (w, l) → ∀ b < c.DW,
    (∀ f < c.m, ¬(c.st f ≤ q % n c * c.DW + b ∧ q % n c * c.DW + b < c.en f)) → w b = none

theorem ack_iff (c : Cfg) (i : Nat) (x : In) : ack c i x = true ↔ ∀ f < c.m, inPort c i f = true → x.vld f = true := by
  unfold ack
  rw [List.all_eq_true]
  constructor
  · intro h f hf hi
    have := h f (List.mem_range.2 hf)
    simpa [hi] using this
  · intro h f hf
    have := h f (List.mem_range.1 hf)
    cases hi : inPort c i f with
    | false => rfl
    | true => simp [this hi]

theorem rd_iff (c : Cfg) (s : St) (x : In) (f : Nat) :
    rd c s x f = true ↔ s.cnt < n c ∧ lastw c f = idx c s ∧ x.ready = true ∧
      ∀ g < c.m, g ≠ f → lastw c g = idx c s → x.vld g = true := by
  simp only [rd, known, lastPort, Bool.and_eq_true, decide_eq_true_eq, beq_iff_eq, List.all_eq_true, List.mem_range,
    Bool.or_eq_true, Bool.not_eq_true', beq_eq_false_iff_ne, and_assoc]
  constructor
  · rintro ⟨h1, h2, h3, h4⟩
    refine ⟨h1, h2, h3, fun g hg hne hl => ?_⟩
    rcases h4 g hg with (h | h) | h
    · exact absurd h hne
    · exact absurd hl h
    · exact h
  · rintro ⟨h1, h2, h3, h4⟩
    refine ⟨h1, h2, h3, fun g hg => ?_⟩
    by_cases e : g = f
    · exact Or.inl (Or.inl e)
    · by_cases el : lastw c g = idx c s
      · exact Or.inr (h4 g hg e el)
      · exact Or.inl (Or.inr el)

theorem mod_succ' {L N : Nat} (hN : 0 < N) :
    ((L + 1) % N = if L % N + 1 = N then 0 else L % N + 1) ∧ ((L + 1) / N = if L % N + 1 = N then L / N + 1 else L / N) := by
  have h1 := Nat.div_add_mod L N
  have h2 := Nat.mod_lt L hN
  split
  · rename_i h
    have e : L + 1 = N * (L / N + 1) := by rw [Nat.mul_add]; omega
    rw [e]
    exact ⟨Nat.mul_mod_right _ _, Nat.mul_div_cancel_left _ hN⟩
  · rename_i h
    have e : L + 1 = N * (L / N) + (L % N + 1) := by omega
    constructor
    · rw [e, Nat.mul_add_mod, Nat.mod_eq_of_lt (by omega)]
    · have h3 : (L % N + 1) / N = 0 := Nat.div_eq_of_lt (by omega)
      rw [e, Nat.mul_add_div hN, h3]; rfl

theorem inv_step {c : Cfg} (hw : Wf c) {tr : Tr} {s : St} {x : In} (hi : Inv c tr s)
    (hs : Stable c (tr ++ [(x, out c s x)]))
    (ht : ∀ f < c.m, ∀ g < c.m, Mixes c f g → x.vld f = true → x.vld g = true) :
    Inv c (tr ++ [(x, out c s x)]) (next c s x) := by
  have hn := n_pos hw
  have hcnt := hi.cnt
  have hk : s.cnt < n c := by omega
  have hkn : known c s = true := by simp [known, hk]
  have hidx : idx c s = (sent tr).length % n c := by unfold idx; omega
  obtain ⟨hm1, hd1⟩ := mod_succ' (L := (sent tr).length) hn
  -- reading a field which ends in the word is the same as sending the word
  have key : ∀ f < c.m, (x.vld f && rd c s x f) = (ack c (idx c s) x && x.ready && decide (lastw c f = idx c s)) := by
    intro f hf
    rw [Bool.eq_iff_iff, Bool.and_eq_true, Bool.and_eq_true, Bool.and_eq_true, rd_iff, ack_iff, decide_eq_true_eq]
    constructor
    · rintro ⟨h1, _, h3, h4, h5⟩
      refine ⟨⟨fun g hg hin => ?_, h4⟩, h3⟩
      simp only [inPort, Bool.and_eq_true, decide_eq_true_eq] at hin
      by_cases e : g = f
      · rw [e]; exact h1
      · by_cases el : lastw c g = idx c s
        · exact h5 g hg e el
        · exact ht f hf g hg ⟨by rw [h3]; exact hin.1, by rw [h3]; omega⟩ h1
    · rintro ⟨⟨h1, h2⟩, h3⟩
      have hp : ∀ g < c.m, lastw c g = idx c s → x.vld g = true := fun g hg e => h1 g hg (by
        have := firstw_le hw hg
        rw [e] at this
        simp [inPort, this, e])
      exact ⟨hp f hf h3, hk, h3, h2, fun g hg _ e => hp g hg e⟩
  have hsn : sent (tr ++ [(x, out c s x)]) = sent tr ++
      if ack c (idx c s) x && x.ready then [(word c (idx c s) x.data, s.cnt == 0)] else [] := by
    rw [sent_snoc]
    simp [out, hkn]
  have htn : ∀ f < c.m, taken f (tr ++ [(x, out c s x)]) = taken f tr ++
      if ack c (idx c s) x && x.ready && decide (lastw c f = idx c s) then [x.data f] else [] := by
    intro f hf
    rw [taken_snoc, ← key f hf]
    rfl
  cases ha : ack c (idx c s) x && x.ready with
  | false =>
    have e1 : sent (tr ++ [(x, out c s x)]) = sent tr := by rw [hsn, ha]; simp
    have e2 : next c s x = s := by
      rw [Bool.and_comm] at ha
      simp [next, hkn, ha]
    rw [e2]
    refine ⟨by rw [e1]; exact hi.cnt, fun f hf => ?_, by rw [e1]; exact hi.last, ?_, by rw [e1]; exact hi.pad⟩
    · rw [e1, htn f hf, ha]
      simpa using hi.len f hf
    · rw [e1]
      intro q w l h f hf b hb h1 h2
      obtain ⟨v, hv, hwv⟩ := hi.data q w l h f hf b hb h1 h2
      exact ⟨v, items_mono hs hf hv, hwv⟩
  | true =>
    have e1 : sent (tr ++ [(x, out c s x)]) = sent tr ++ [(word c (idx c s) x.data, s.cnt == 0)] := by rw [hsn, ha]; rfl
    have hl1 : (sent (tr ++ [(x, out c s x)])).length = (sent tr).length + 1 := by rw [e1]; simp
    have e2 : (next c s x).cnt = if idx c s == n c - 1 then n c - 1 else s.cnt - 1 := by
      rw [Bool.and_comm] at ha
      simp [next, hkn, ha]
    have hget : ∀ q w l, (sent (tr ++ [(x, out c s x)]))[q]? = some (w, l) →
        (sent tr)[q]? = some (w, l) ∨ (q = (sent tr).length ∧ w = word c (idx c s) x.data ∧ l = (s.cnt == 0)) := by
      intro q w l h
      rw [e1] at h
      by_cases hq : q < (sent tr).length
      · rw [List.getElem?_append_left hq] at h; exact Or.inl h
      · rw [List.getElem?_append_right (by omega)] at h
        have : q - (sent tr).length = 0 := by
          by_contra hne
          rw [List.getElem?_eq_none (by simp; omega)] at h
          simp at h
        rw [this] at h
        simp only [List.getElem?_cons_zero, Option.some.injEq, Prod.mk.injEq] at h
        exact Or.inr ⟨by omega, h.1.symm, h.2.symm⟩
    refine ⟨?_, fun f hf => ?_, ?_, ?_, ?_⟩
    · rw [hl1, e2, hm1]
      simp only [beq_iff_eq]
      split <;> split <;> omega
    · rw [hl1, htn f hf, ha, hm1, hd1, List.length_append, hi.len f hf]
      have hlw := lastw_lt hw hf
      simp only [Bool.true_and, decide_eq_true_eq, hidx]
      split <;> split <;> split <;> simp <;> omega
    · intro q w l h
      rcases hget q w l h with h | ⟨hq, -, hl⟩
      · exact hi.last q w l h
      · rw [hl, hq, beq_iff_eq, hm1]
        split <;> omega
    · intro q w l h f hf b hb h1 h2
      rcases hget q w l h with h | ⟨hq, hwd, -⟩
      · obtain ⟨v, hv, hwv⟩ := hi.data q w l h f hf b hb h1 h2
        exact ⟨v, items_mono hs hf hv, hwv⟩
      · subst hq
        rw [← hidx] at h1 h2 ⊢
        have hip := inPort_of_bit hw hb h1 h2
        simp only [Bool.and_eq_true] at ha
        have hv := (ack_iff c _ x).1 ha.1 f hf hip
        refine ⟨x.data f, ?_, ?_⟩
        · rw [items_snoc]
          simp only [hv, if_true]
          have hle := hi.len f hf
          simp only [inPort, Bool.and_eq_true, decide_eq_true_eq] at hip
          rw [← hidx, if_neg (by omega)] at hle
          rw [List.getElem?_append_right (by omega), hle]
          simp
        · rw [hwd]; exact word_bit hw _ _ hf h1 h2
    · intro q w l h b hb hno
      rcases hget q w l h with h | ⟨hq, hwd, -⟩
      · exact hi.pad q w l h b hb hno
      · subst hq
        rw [← hidx] at hno
        rw [hwd]; exact word_pad c _ _ hno

theorem stable_of {c : Cfg} {tr : Tr} {p : In × Out} (h : Stable c (tr ++ [p])) : Stable c tr := by
  intro pre a b post e
  exact h pre a b (post ++ [p]) (by rw [e]; simp)

theorem inv_run {c : Cfg} (hw : Wf c) (is : List In) (hs : Stable c ((machine c).trace (init c) is))
    (ht : Together c ((machine c).trace (init c) is)) :
    Inv c ((machine c).trace (init c) is) ((machine c).final (init c) is) := by
  induction is using List.reverseRecOn with
  | nil =>
    have hn := n_pos hw
    refine ⟨?_, ?_, ?_, ?_, ?_⟩
    · simp [sent, init]; omega
    · intro f _; simp [sent, taken]
    all_goals intro q w l h; simp [sent] at h
  | append_singleton is x ih =>
    rw [Machine.trace_snoc] at hs ht ⊢
    rw [Machine.final_append]
    refine inv_step hw (ih (stable_of hs) fun p hp => ht p (List.mem_append_left _ hp)) hs ?_
    intro f hf g hg hm hv
    exact ht _ (List.mem_append_right _ (List.mem_singleton.2 rfl)) f hf g hg hm hv

/-- C207: if a field is valid only together with the fields which continue to the next word from the word where it ends, then the sent words
are the frames of the values of the fields and each value is read for exactly one frame. -/
theorem frames_partial (c : Cfg) (hw : Wf c) (is : List In) (hs : Stable c ((machine c).trace (init c) is))
    (ht : Together c ((machine c).trace (init c) is)) : Framed c ((machine c).trace (init c) is) := by
  have hi := inv_run hw is hs ht
  refine ⟨hi.len, fun q w l h => ⟨hi.last q w l h, fun f hf v hv b hb h1 h2 => ?_, hi.pad q w l h⟩⟩
  obtain ⟨u, hu, hwu⟩ := hi.data q w l h f hf b hb h1 h2
  have hk : q / n c < (taken f ((machine c).trace (init c) is)).length := by
    by_contra hne
    rw [List.getElem?_eq_none (by omega)] at hv
    simp at hv
  unfold items at hu
  rw [List.getElem?_append_left hk, hv] at hu
  injection hu with hu
  rw [hwu, hu]

/-- C208: if no field ends in a word from which another one continues, no assumption about the order of values is needed -/
theorem frames_aligned (c : Cfg) (hw : Wf c) (ha : ∀ f < c.m, ∀ g < c.m, ¬Mixes c f g) : AllSent c :=
  fun is hs => frames_partial c hw is hs fun _ _ f hf g hg hm => absurd hm (ha f hf g hg)

/-! ## A field of 4 bits followed by a field of 8 bits, words of 8 bits -/

def mixCfg : Cfg := { DW := 8, T := 16, m := 2, st := fun f => if f = 0 then 0 else 4, en := fun f => if f = 0 then 4 else 12 }

theorem mix_wf : Wf mixCfg := by
  refine ⟨by decide, by decide, ?_, ?_, ?_⟩ <;> decide

/-- the first field comes before the second one -/
def lostIn : List In := [⟨true, fun f => f == 0, fun _ _ => true⟩]

/-- C207: the value of the first field is read and it is not sent -/
theorem frames_fails : ¬AllSent mixCfg := by
  intro h
  have h1 := h lostIn (by
    intro pre p q post e
    have := congrArg List.length e
    simp [Machine.trace, lostIn] at this
    omega)
  have h2 := h1.1 0 (by decide)
  revert h2
  decide

/-- C207: a value of a field is lost whenever the other fields which end in the word are valid and a field which continues
to the next word is not -/
theorem value_lost (c : Cfg) (s : St) (x : In) {f g : Nat} (hf : f < c.m) (hg : g < c.m) (hm : Mixes c f g)
    (hk : s.cnt < n c) (he : lastw c f = idx c s) (hr : x.ready = true)
    (hv : ∀ k < c.m, lastw c k = idx c s → x.vld k = true) (hn : x.vld g = false) :
    (out c s x).rd f = true ∧ x.vld f = true ∧ (out c s x).valid = false ∧ next c s x = s := by
  have ha : ack c (idx c s) x = false := by
    rw [Bool.eq_false_iff]
    intro h
    have := (ack_iff c _ x).1 h g hg (by
      obtain ⟨h1, h2⟩ := hm
      rw [he] at h1 h2
      simp [inPort, h1, Nat.le_of_lt h2])
    rw [hn] at this
    exact absurd this (by decide)
  refine ⟨(rd_iff c s x f).2 ⟨hk, he, hr, fun k hk' _ e => hv k hk' e⟩, hv f hf he, by simp [out, ha], ?_⟩
  simp [next, known, hk, ha]

example : Mixes mixCfg 0 1 := by unfold Mixes; decide

example : (out mixCfg (init mixCfg) ⟨true, fun f => f == 0, fun _ _ => true⟩).rd 0 = true ∧
    (out mixCfg (init mixCfg) ⟨true, fun f => f == 0, fun _ _ => true⟩).valid = false :=
  let h := value_lost mixCfg (init mixCfg) ⟨true, fun f => f == 0, fun _ _ => true⟩ (f := 0) (g := 1) (by decide) (by decide)
    (by unfold Mixes; decide) (by decide) (by decide) rfl (by decide) rfl
  ⟨h.1, h.2.2.1⟩
example : (taken 0 ((machine mixCfg).trace (init mixCfg) lostIn)).length = 1 ∧ sent ((machine mixCfg).trace (init mixCfg) lostIn) = [] := by
  constructor
  · decide
  · rfl

/-- both fields come together, the second frame is not complete -/
def okIn : List In :=
  let x : In := ⟨true, fun _ => true, fun f b => (f + b) % 2 == 0⟩
  [x, { x with ready := false }, x, x]

example : Together mixCfg ((machine mixCfg).trace (init mixCfg) okIn) := by
  intro p hp f hf g hg _ _
  simp only [okIn, Machine.trace, List.mem_cons, List.not_mem_nil, or_false] at hp
  rcases hp with h | h | h | h <;> rw [h]

example : (sent ((machine mixCfg).trace (init mixCfg) okIn)).map (fun p => ((List.range 8).map p.1, p.2)) =
    [([some true, some false, some true, some false, some false, some true, some false, some true], false),
     ([some false, some true, some false, some true, none, none, none, none], true),
     ([some true, some false, some true, some false, some false, some true, some false, some true], false)] := by decide

/-- two fields in one word, then a field of two words -/
def alCfg : Cfg := { DW := 8, T := 24, m := 3, st := fun f => [0, 4, 8].getD f 0, en := fun f => [4, 8, 24].getD f 0 }

example : Wf alCfg := by
  refine ⟨by decide, by decide, ?_, ?_, ?_⟩ <;> decide
example : ∀ f < alCfg.m, ∀ g < alCfg.m, ¬Mixes alCfg f g := by unfold Mixes; decide

/-- C209: the word is valid as soon as its fields are valid, independent of `ready` -/
theorem valid_independent (c : Cfg) (s : St) (x : In) (r : Bool) :
    (out c s x).valid = (out c s { x with ready := r }).valid ∧ (out c s x).word = (out c s { x with ready := r }).word ∧
      (out c s x).last = (out c s { x with ready := r }).last := ⟨rfl, rfl, rfl⟩

/-- C209: a word which was not accepted stays -/
theorem word_stable (c : Cfg) (s : St) (x y : In) (hw : Wf c) (hv : (out c s x).valid = true) (hr : x.ready = false)
    (hs : ∀ f < c.m, x.vld f = true → (out c s x).rd f = false → y.vld f = true ∧ y.data f = x.data f) :
    (out c (next c s x) y).valid = true ∧ (out c (next c s x) y).last = (out c s x).last ∧
      ∀ b < c.DW, (out c (next c s x) y).word b = (out c s x).word b := by
  have hk : known c s = true := by
    cases h : known c s with
    | true => rfl
    | false => simp [out, h] at hv
  have hx : next c s x = s := by simp [next, hk, hr]
  have ha : ack c (idx c s) x = true := by simpa [out, hk] using hv
  have hall : ∀ f < c.m, inPort c (idx c s) f = true → y.vld f = true ∧ y.data f = x.data f := by
    intro f hf hi
    refine hs f hf ((ack_iff c _ x).1 ha f hf hi) ?_
    simp [out, rd, hr]
  rw [hx]
  refine ⟨?_, rfl, fun b hb => ?_⟩
  · have : ack c (idx c s) y = true := (ack_iff c _ y).2 fun f hf hi => (hall f hf hi).1
    simp [out, hk, this]
  · simp only [out, hk, if_true]
    by_cases he : ∃ f < c.m, c.st f ≤ idx c s * c.DW + b ∧ idx c s * c.DW + b < c.en f
    · obtain ⟨f, hf, h1, h2⟩ := he
      rw [word_bit hw _ _ hf h1 h2, word_bit hw _ _ hf h1 h2, (hall f hf (inPort_of_bit hw hb h1 h2)).2]
    · have h' : ∀ f < c.m, ¬(c.st f ≤ idx c s * c.DW + b ∧ idx c s * c.DW + b < c.en f) := fun f hf h => he ⟨f, hf, h⟩
      rw [word_pad c _ _ h', word_pad c _ _ h']

example : (out mixCfg (init mixCfg) ⟨false, fun _ => true, fun _ _ => true⟩).valid = true := by decide

/-! ## `Axi4S_frameParser` reads the values from the frame -/

/-- the parser of the same struct -/
def parserCfg (c : Cfg) (over under : Bool) : FrameParser.Cfg :=
  { DW := c.DW, T := c.T, m := c.m, st := c.st, en := c.en, over := over, under := under }

/-- the words of frame `k`, undefined bits have any value -/
structure IsFrame (c : Cfg) (tr : Tr) (k : Nat) (ws : List FrameParser.Word) : Prop where
  len : ws.length = n c
  sent : ∀ i w, ws[i]? = some w → ∃ u l, (sent tr)[k * n c + i]? = some (u, l) ∧ ∀ b < c.DW, ∀ v, u b = some v → w b = v

/-- C210: the value of a field parsed from a frame of the deparser is the value which was read for the frame by the deparser -/
theorem roundtrip_partial (c : Cfg) (hw : Wf c) (is : List In) (hs : Stable c ((machine c).trace (init c) is))
    (ht : Together c ((machine c).trace (init c) is)) (over under : Bool) (k : Nat) (ws : List FrameParser.Word)
    (hf : IsFrame c ((machine c).trace (init c) is) k ws) (f : Nat) (hm : f < c.m) :
    ∃ v, (taken f ((machine c).trace (init c) is))[k]? = some v ∧
      FrameParser.fieldVal (parserCfg c over under) f ws = some ((List.range (c.en f - c.st f)).map v) := by
  obtain ⟨hlen, hfr⟩ := frames_partial c hw is hs ht
  generalize (machine c).trace (init c) is = tr at *
  have hn := n_pos hw
  have hlw := lastw_lt hw hm
  have hd0 := hw.dw
  -- the whole frame was sent
  have hL : k * n c + n c ≤ (sent tr).length := by
    have h1 : n c - 1 < ws.length := by rw [hf.len]; omega
    obtain ⟨u, l, hu, -⟩ := hf.sent (n c - 1) _ (List.getElem?_eq_getElem h1)
    by_contra hne
    rw [List.getElem?_eq_none (by omega)] at hu
    simp at hu
  have hk : k < (taken f tr).length := by
    rw [hlen f hm]
    have : k + 1 ≤ (sent tr).length / n c := by
      rw [Nat.le_div_iff_mul_le hn, Nat.add_mul, Nat.one_mul]; exact hL
    omega
  refine ⟨_, List.getElem?_eq_getElem hk, ?_⟩
  have hlw' : FrameParser.lastw (parserCfg c over under) f < ws.length := by rw [hf.len]; exact hlw
  unfold FrameParser.fieldVal
  rw [if_pos hlw']
  congr 1
  apply List.map_congr_left
  intro j hj
  have hj' : j < c.en f - c.st f := List.mem_range.1 hj
  have hlt := hw.lt f hm
  have hle := hw.le f hm
  show (ws.getD ((c.st f + j) / c.DW) fun _ => false) ((c.st f + j) % c.DW) = _
  have hi : (c.st f + j) / c.DW < n c := by
    have : (c.st f + j) / c.DW ≤ lastw c f := Nat.div_le_div_right (by omega)
    omega
  have hb := Nat.mod_lt (c.st f + j) hd0
  have hdm := Nat.div_add_mod (c.st f + j) c.DW
  generalize (c.st f + j) / c.DW = i at *
  generalize (c.st f + j) % c.DW = b at *
  have hi' : i < ws.length := by rw [hf.len]; exact hi
  obtain ⟨u, l, hu, hub⟩ := hf.sent i _ (List.getElem?_eq_getElem hi')
  have e1 : (k * n c + i) % n c = i := by
    rw [Nat.mul_comm, Nat.mul_add_mod, Nat.mod_eq_of_lt hi]
  have e2 : (k * n c + i) / n c = k := by
    rw [Nat.mul_comm, Nat.mul_add_div hn, Nat.div_eq_of_lt hi]; rfl
  have h3 := (hfr _ _ _ hu).2.1 f hm _ (by rw [e2]; exact List.getElem?_eq_getElem hk) b hb
  rw [e1, Nat.mul_comm i] at h3
  have h4 := hub b hb _ (h3 (by omega) (by omega))
  have e3 : c.DW * i + b - c.st f = j := by omega
  rw [e3] at h4
  rw [List.getD_eq_getElem?_getD, List.getElem?_eq_getElem hi']
  exact h4

example : IsFrame mixCfg ((machine mixCfg).trace (init mixCfg) okIn) 0
    [fun b => [true, false, true, false, false, true, false, true].getD b false,
     fun b => [false, true, false, true, true, true, true, true].getD b false] := by
  refine ⟨by decide, fun i w h => ?_⟩
  match i with
  | 0 =>
    injection h with h
    refine ⟨_, _, rfl, ?_⟩
    rw [← h]
    decide
  | 1 =>
    injection h with h
    refine ⟨_, _, rfl, ?_⟩
    rw [← h]
    decide
  | i + 2 => simp at h

end Verif.FrameDeparser
