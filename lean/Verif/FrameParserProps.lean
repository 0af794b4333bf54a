import Verif.FrameParser
import Mathlib.Data.List.Induction

/-!
# Properties of `Axi4S_frameParser` (C202 - C206)
-/

namespace Verif.FrameParser

open Verif

abbrev Tr := List (In × Out)

/-- words (and `last`) which were accepted -/
def accepted (tr : Tr) : List (Word × Bool) :=
  tr.filterMap fun p => if p.1.valid && p.2.ready then some (p.1.word, p.1.last) else none

/-- values which were read from field `f` -/
def fieldOut (f : Nat) (tr : Tr) : List (List Bool) :=
  tr.filterMap fun p => if p.2.vld f && p.1.rd f then some (p.2.data f) else none

/-- a frame ends with `last`, without `OVERFLOW_SUPPORT`, `UNDERFLOW_SUPPORT` after `n` words -/
def frameEnd (c : Cfg) (cur : List Word) (last : Bool) : Bool := if c.over || c.under then last else cur.length + 1 == n c

def fStep (c : Cfg) (P : List (List Word) × List Word) (w : Word × Bool) : List (List Word) × List Word :=
  if frameEnd c P.2 w.2 then (P.1 ++ [P.2 ++ [w.1]], []) else (P.1, P.2 ++ [w.1])

/-- complete frames and the words of the current one -/
def frames (c : Cfg) (tr : Tr) : List (List Word) × List Word := (accepted tr).foldl (fStep c) ([], [])

/-- bit of a frame -/
def bit (c : Cfg) (ws : List Word) (i : Nat) : Bool := (ws.getD (i / c.DW) fun _ => false) (i % c.DW)

/-- value of the field in a frame, `none` if the frame is too short -/
def fieldVal (c : Cfg) (f : Nat) (ws : List Word) : Option (List Bool) :=
  if lastw c f < ws.length then some ((List.range (c.en f - c.st f)).map fun j => bit c ws (c.st f + j)) else none

def expected (c : Cfg) (f : Nat) (P : List (List Word) × List Word) : List (List Bool) :=
  P.1.filterMap (fieldVal c f) ++ (fieldVal c f P.2).toList

def stalled (p : In × Out) : Bool := p.1.valid && !p.2.ready

/-- the source keeps the word until it is accepted -/
def Stable (tr : Tr) : Prop :=
  ∀ pre p q post, tr = pre ++ p :: q :: post → stalled p = true → q.1.valid = true ∧ q.1.word = p.1.word

/-- the frames are not longer than the struct -/
def Fits (c : Cfg) (P : List (List Word) × List Word) : Prop := (∀ p ∈ P.1, p.length ≤ n c) ∧ P.2.length < n c

/-! ## Bits -/

def bitsFrom (g : Nat → Bool) (s k : Nat) : List Bool := (List.range k).map fun j => g (s + j)

theorem bitsFrom_add (g : Nat → Bool) (s a b : Nat) : bitsFrom g s (a + b) = bitsFrom g s a ++ bitsFrom g (s + a) b := by
  simp only [bitsFrom, List.range_add, List.map_append, List.map_map]
  congr 1
  apply List.map_congr_left
  intro j _
  simp [Nat.add_assoc]

theorem lastw_lt {c : Cfg} (hw : Wf c) {f : Nat} (hf : f < c.m) : lastw c f < n c := by
  have h1 := hw.lt f hf
  have h2 := hw.le f hf
  have h3 := hw.dw
  unfold lastw n
  rw [Nat.div_lt_iff_lt_mul h3]
  have := Nat.div_add_mod (c.T + c.DW - 1) c.DW
  have h4 := Nat.mod_lt (c.T + c.DW - 1) h3
  rw [Nat.mul_comm]
  omega

theorem firstw_le {c : Cfg} (hw : Wf c) {f : Nat} (hf : f < c.m) : firstw c f ≤ lastw c f := by
  have h1 := hw.lt f hf
  exact Nat.div_le_div_right (by omega)

theorem bit_word (c : Cfg) (ws : List Word) (w r : Nat) (hr : r < c.DW) :
    bit c ws (w * c.DW + r) = (ws.getD w fun _ => false) r := by
  have h0 : 0 < c.DW := by omega
  have h1 : (w * c.DW + r) / c.DW = w := by
    rw [Nat.mul_comm, Nat.mul_add_div h0, Nat.div_eq_of_lt hr]; rfl
  have h2 : (w * c.DW + r) % c.DW = r := by
    rw [Nat.mul_comm, Nat.mul_add_mod]; exact Nat.mod_eq_of_lt hr
  rw [bit, h1, h2]

theorem partBits_eq (c : Cfg) (f w : Nat) (ws : List Word) :
    partBits c f w (ws.getD w fun _ => false) = bitsFrom (bit c ws) (max (c.st f) (w * c.DW))
      (min (c.en f) ((w + 1) * c.DW) - max (c.st f) (w * c.DW)) := by
  simp only [partBits, bitsFrom]
  have e : (w + 1) * c.DW = w * c.DW + c.DW := by rw [Nat.add_mul, Nat.one_mul]
  rw [e]
  have el : min (c.en f) (w * c.DW + c.DW) - w * c.DW - (max (c.st f) (w * c.DW) - w * c.DW) =
      min (c.en f) (w * c.DW + c.DW) - max (c.st f) (w * c.DW) := by omega
  rw [el]
  apply List.map_congr_left
  intro j hj
  rw [List.mem_range] at hj
  have : max (c.st f) (w * c.DW) + j = w * c.DW + (max (c.st f) (w * c.DW) - w * c.DW + j) := by omega
  rw [this, bit_word]
  omega

theorem parts_eq {c : Cfg} (hw : Wf c) {f : Nat} (hf : f < c.m) (ws : List Word) (k : Nat)
    (hk : firstw c f + k ≤ lastw c f + 1) :
    ((List.range k).flatMap fun i => partBits c f (firstw c f + i) (ws.getD (firstw c f + i) fun _ => false)) =
      bitsFrom (bit c ws) (c.st f) (min (c.en f) ((firstw c f + k) * c.DW) - c.st f) := by
  have h1 := hw.lt f hf
  have h3 := hw.dw
  have hfst : firstw c f * c.DW ≤ c.st f := Nat.div_mul_le_self _ _
  have hlst : lastw c f * c.DW ≤ c.en f - 1 := Nat.div_mul_le_self _ _
  have hfst2 : c.st f < (firstw c f + 1) * c.DW := by
    have := Nat.lt_div_mul_add (a := c.st f) h3
    rw [Nat.add_mul, Nat.one_mul]; exact this
  induction k with
  | zero =>
    have : min (c.en f) ((firstw c f + 0) * c.DW) - c.st f = 0 := by rw [Nat.add_zero]; omega
    rw [this]; rfl
  | succ k ih =>
    rw [List.range_succ, List.flatMap_append, ih (by omega)]
    simp only [List.flatMap_cons, List.flatMap_nil, List.append_nil]
    rw [partBits_eq]
    have e : (firstw c f + k + 1) * c.DW = (firstw c f + k) * c.DW + c.DW := by rw [Nat.add_mul, Nat.one_mul]
    have hle : (firstw c f + k) * c.DW ≤ lastw c f * c.DW := Nat.mul_le_mul_right _ (by omega)
    have e2 : (firstw c f + (k + 1)) = firstw c f + k + 1 := by omega
    rw [e2, e]
    rcases Nat.eq_zero_or_pos k with h0 | h0
    · subst h0
      simp only [Nat.add_zero] at *
      have ea : min (c.en f) (firstw c f * c.DW) - c.st f = 0 := by omega
      have eb : max (c.st f) (firstw c f * c.DW) = c.st f := by omega
      rw [ea, eb]; rfl
    · have hge : (firstw c f + 1) * c.DW ≤ (firstw c f + k) * c.DW := Nat.mul_le_mul_right _ (by omega)
      have ea : min (c.en f) ((firstw c f + k) * c.DW) = (firstw c f + k) * c.DW := by omega
      have eb : max (c.st f) ((firstw c f + k) * c.DW) = (firstw c f + k) * c.DW := by omega
      rw [ea, eb]
      have ec : (firstw c f + k) * c.DW = c.st f + ((firstw c f + k) * c.DW - c.st f) := by omega
      conv_lhs => arg 2; arg 2; rw [ec]
      rw [← bitsFrom_add]
      congr 1
      omega

/-- the parts of the field are its bits -/
theorem data_eq {c : Cfg} (hw : Wf c) {f : Nat} (hf : f < c.m) (ws : List Word) :
    ((List.range (lastw c f - firstw c f)).flatMap fun i =>
      partBits c f (firstw c f + i) (ws.getD (firstw c f + i) fun _ => false)) ++
        partBits c f (lastw c f) (ws.getD (lastw c f) fun _ => false) =
      bitsFrom (bit c ws) (c.st f) (c.en f - c.st f) := by
  have h1 := hw.lt f hf
  have hle := firstw_le hw hf
  have := parts_eq hw hf ws (lastw c f - firstw c f + 1) (by omega)
  rw [List.range_succ, List.flatMap_append] at this
  simp only [List.flatMap_cons, List.flatMap_nil, List.append_nil] at this
  have e : firstw c f + (lastw c f - firstw c f) = lastw c f := by omega
  rw [e] at this
  rw [this]
  congr 1
  have h4 := Nat.lt_div_mul_add (a := c.en f - 1) hw.dw
  have e2 : (firstw c f + (lastw c f - firstw c f + 1)) * c.DW = lastw c f * c.DW + c.DW := by
    rw [← Nat.add_assoc, e, Nat.add_mul, Nat.one_mul]
  rw [e2]
  unfold lastw
  omega

theorem bit_append {c : Cfg} (ws vs : List Word) (i : Nat) (h : i / c.DW < ws.length) :
    bit c (ws ++ vs) i = bit c ws i := by
  simp only [bit, List.getD_eq_getElem?_getD, List.getElem?_append_left h]

theorem fieldVal_snoc {c : Cfg} (hw : Wf c) {f : Nat} (hf : f < c.m) (ws : List Word) (w : Word) :
    fieldVal c f (ws ++ [w]) =
      if lastw c f = ws.length then some (bitsFrom (bit c (ws ++ [w])) (c.st f) (c.en f - c.st f)) else fieldVal c f ws := by
  have h1 := hw.lt f hf
  by_cases h : lastw c f = ws.length
  · simp [fieldVal, h, bitsFrom]
  · rw [if_neg h]
    simp only [fieldVal, List.length_append, List.length_cons, List.length_nil]
    by_cases h2 : lastw c f < ws.length
    · rw [if_pos h2, if_pos (by omega)]
      congr 1
      apply List.map_congr_left
      intro j hj
      rw [List.mem_range] at hj
      refine bit_append ws [w] _ ?_
      have : (c.st f + j) / c.DW ≤ lastw c f := Nat.div_le_div_right (by omega)
      omega
    · rw [if_neg h2, if_neg (by omega)]

/-! ## Invariant -/

structure Inv (c : Cfg) (s : St) (tr : Tr) : Prop where
  idx : s.idx = if c.over then min (frames c tr).2.length (n c) else (frames c tr).2.length
  len : c.over = false → (frames c tr).2.length < n c
  part : ∀ f < c.m, ∀ w, w < lastw c f → w < (frames c tr).2.length →
    s.part f w = partBits c f w ((frames c tr).2.getD w fun _ => false)
  cons : ∀ f < c.m, s.consumed f = true → lastw c f = (frames c tr).2.length ∧
    ∃ pre p, tr = pre ++ [p] ∧ stalled p = true ∧
      fieldOut f tr = expected c f (frames c tr) ++ (fieldVal c f ((frames c tr).2 ++ [p.1.word])).toList
  free : ∀ f < c.m, s.consumed f = false → fieldOut f tr = expected c f (frames c tr)

theorem fieldOut_snoc (f : Nat) (tr : Tr) (p : In × Out) :
    fieldOut f (tr ++ [p]) = fieldOut f tr ++ given (p.2.vld f && p.1.rd f) (p.2.data f) := by
  simp only [fieldOut, List.filterMap_append, List.filterMap_cons, List.filterMap_nil]
  cases p.2.vld f && p.1.rd f <;> rfl

theorem frames_snoc (c : Cfg) (tr : Tr) (p : In × Out) :
    frames c (tr ++ [p]) = if p.1.valid && p.2.ready then fStep c (frames c tr) (p.1.word, p.1.last) else frames c tr := by
  simp only [frames, accepted, List.filterMap_append, List.foldl_append, List.filterMap_cons, List.filterMap_nil]
  cases p.1.valid && p.2.ready <;> rfl

theorem expected_step {c : Cfg} (P : List (List Word) × List Word) (f : Nat) (w : Word × Bool) :
    expected c f (fStep c P w) = P.1.filterMap (fieldVal c f) ++ (fieldVal c f (P.2 ++ [w.1])).toList := by
  simp only [fStep, expected]
  split
  · simp only [List.filterMap_append]
    have : fieldVal c f [] = none := by simp [fieldVal]
    rw [this]
    cases h : fieldVal c f (P.2 ++ [w.1]) <;> simp [h]
  · rfl

theorem fits_init {c : Cfg} {P : List (List Word) × List Word} {w : Word × Bool} (h : Fits c (fStep c P w)) : Fits c P := by
  obtain ⟨h1, h2⟩ := h
  simp only [fStep] at h1 h2
  split at h1
  · rename_i hc
    refine ⟨fun p hp => h1 p (by simp [hp]), ?_⟩
    have := h1 (P.2 ++ [w.1]) (by simp)
    simp at this
    omega
  · rename_i hc
    rw [if_neg hc] at h2
    simp at h2
    exact ⟨h1, by omega⟩

/-- the supported use: the struct is aligned if there is overflow support, frames are not longer than the struct if there is only underflow
support -/
def Supported (c : Cfg) (P : List (List Word) × List Word) : Prop :=
  (c.over = true → aligned c = true) ∧ (c.over = false → c.under = true → Fits c P)

theorem inv_step {c : Cfg} (hw : Wf c) (s : St) (tr : Tr) (x : In) (hi : Inv c s tr)
    (hst : ∀ pre p, tr = pre ++ [p] → stalled p = true → x.valid = true ∧ x.word = p.1.word)
    (hsup : Supported c (frames c (tr ++ [(x, out c s x)]))) : Inv c (next c s x) (tr ++ [(x, out c s x)]) := by
  have hn : 0 < n c := Nat.lt_of_le_of_lt (Nat.zero_le _) (lastw_lt hw hw.m)
  obtain ⟨i1, i2, i3, i4, i5⟩ := hi
  have hF := frames_snoc c tr (x, out c s x)
  have hO := fun f => fieldOut_snoc f tr (x, out c s x)
  have hov : c.over = true → overflow c s = (s.idx == n c) := by
    intro h
    simp [overflow, h, hsup.1 h, wmax]
  have hov2 : c.over = false → overflow c s = false := by
    intro h; simp [overflow, h]
  have hlt : overflow c s = false → s.idx = (frames c tr).2.length ∧ s.idx < n c := by
    intro h
    cases ho : c.over with
    | false => rw [ho] at i1; simp at i1; have := i2 ho; omega
    | true =>
      rw [hov ho] at h
      rw [ho] at i1
      simp at i1 h
      omega
  have hge : overflow c s = true → c.over = true ∧ n c ≤ (frames c tr).2.length ∧ s.idx = n c := by
    intro h
    cases ho : c.over with
    | false => rw [hov2 ho] at h; cases h
    | true =>
      rw [hov ho] at h
      rw [ho] at i1
      simp at i1 h
      exact ⟨rfl, by omega, h⟩
  have hdata : overflow c s = false → ∀ f < c.m, lastw c f = s.idx →
      data c s x f = bitsFrom (bit c ((frames c tr).2 ++ [x.word])) (c.st f) (c.en f - c.st f) := by
    intro ho f hf hl
    have hidx := (hlt ho).1
    rw [← data_eq hw hf, data]
    congr 1
    · rw [List.flatMap_def, List.flatMap_def]
      congr 1
      apply List.map_congr_left
      intro k hk
      rw [List.mem_range] at hk
      rw [i3 f hf _ (by omega) (by omega)]
      simp only [List.getD_eq_getElem?_getD]
      rw [List.getElem?_append_left (by omega)]
    · have : ((frames c tr).2 ++ [x.word]).getD (lastw c f) (fun _ => false) = x.word := by
        rw [hl, hidx]; simp
      rw [this]
  cases hv : x.valid with
  | false =>
    have hF' : frames c (tr ++ [(x, out c s x)]) = frames c tr := by rw [hF]; simp [hv]
    have hO' : ∀ f, fieldOut f (tr ++ [(x, out c s x)]) = fieldOut f tr := by
      intro f; rw [hO]; simp [out, vld, hv]
    have hnc : ∀ f < c.m, s.consumed f = false := by
      intro f hf
      cases hc : s.consumed f with
      | false => rfl
      | true =>
        obtain ⟨_, pre, p, hp, hs, _⟩ := i4 f hf hc
        have := (hst pre p hp hs).1
        rw [hv] at this; cases this
    refine ⟨?_, ?_, ?_, ?_, ?_⟩
    · rw [hF']; simp only [next, hv, Bool.and_false, Bool.false_and, Bool.false_eq_true, if_false]; exact i1
    · rw [hF']; exact i2
    · rw [hF']; intro f hf w h1 h2; simp only [next, hv, Bool.false_and, Bool.false_eq_true, if_false]; exact i3 f hf w h1 h2
    · intro f hf h
      simp only [next, hv, Bool.and_false, Bool.false_eq_true, if_false] at h
      rw [hnc f hf] at h; cases h
    · intro f hf h
      rw [hF', hO']; exact i5 f hf (hnc f hf)
  | true =>
    cases hr : ready c s x with
    | false =>
      have hF' : frames c (tr ++ [(x, out c s x)]) = frames c tr := by rw [hF]; simp [out, hr]
      have hov0 : overflow c s = false := by
        simp only [ready, Bool.or_eq_false_iff] at hr; exact hr.2
      obtain ⟨hidx, hidxn⟩ := hlt hov0
      have hnr : ∀ f < c.m, lastw c f = s.idx → ack s x f = true → ackOthers c s x f = false := by
        intro f hf hl ha
        cases hb : ackOthers c s x f with
        | false => rfl
        | true =>
          exfalso
          have : outReady c s x = true := by
            simp only [outReady, Bool.and_eq_true, decide_eq_true_eq, List.all_eq_true, List.mem_range, Bool.or_eq_true, bne_iff_ne]
            refine ⟨hidxn, fun g hg => ?_⟩
            simp only [ackOthers, List.all_eq_true, List.mem_range, Bool.or_eq_true, bne_iff_ne, beq_iff_eq] at hb
            rcases hb g hg with (h | h) | h
            · subst h; exact Or.inr ha
            · left; rw [← hl]; exact h
            · exact Or.inr h
          simp [ready, this] at hr
      refine ⟨?_, ?_, ?_, ?_, ?_⟩
      · rw [hF']; simp only [next, hr, Bool.and_false, Bool.false_eq_true, if_false]; exact i1
      · rw [hF']; exact i2
      · rw [hF']; intro f hf w h1 h2
        have : (s.idx == w) = false := by simp; omega
        simp only [next, this, Bool.and_false, Bool.false_and, Bool.false_eq_true, if_false]; exact i3 f hf w h1 h2
      · intro f hf h
        rw [hF', hO]
        simp only [next, hov0, Bool.not_false, Bool.true_and, hv, Bool.and_true, beq_iff_eq] at h
        by_cases hl : s.idx = lastw c f
        · rw [if_pos hl] at h
          cases hc : s.consumed f with
          | true =>
            obtain ⟨h1, pre, p, hp, hs, h2⟩ := i4 f hf hc
            refine ⟨h1, tr, _, rfl, by simp [stalled, hv, out, hr], ?_⟩
            rw [h2, (hst pre p hp hs).2]
            simp [out, vld, hc]
          | false =>
            rw [hc] at h
            simp at h
            refine ⟨by omega, tr, _, rfl, by simp [stalled, hv, out, hr], ?_⟩
            rw [i5 f hf hc, fieldVal_snoc hw hf, if_pos (by omega)]
            have hvd : (out c s x).vld f = true := by simp [out, vld, hov0, hl, hc, hv]
            simp only [hvd, h.2, Bool.and_self, given_true, Option.toList_some]
            rw [← hdata hov0 f hf hl.symm]
            rfl
        · rw [if_neg hl] at h
          obtain ⟨h1, _⟩ := i4 f hf h
          omega
      · intro f hf h
        rw [hF', hO]
        simp only [next, hov0, Bool.not_false, Bool.true_and, hv, Bool.and_true, beq_iff_eq] at h
        by_cases hl : s.idx = lastw c f
        · rw [if_pos hl] at h
          cases hc : s.consumed f with
          | true =>
            have := hnr f hf hl.symm (by simp [ack, hc])
            simp [hc, this] at h
          | false =>
            have hrd : x.rd f = false := by
              cases hrd : x.rd f with
              | false => rfl
              | true =>
                have := hnr f hf hl.symm (by simp [ack, hrd])
                simp [hc, this, hrd] at h
            rw [i5 f hf hc]
            simp [hrd]
        · rw [if_neg hl] at h
          rw [i5 f hf h]
          have hvd : (out c s x).vld f = false := by simp [out, vld, hl]
          simp [hvd]
    | true =>
      have hF' : frames c (tr ++ [(x, out c s x)]) = fStep c (frames c tr) (x.word, x.last) := by rw [hF]; simp [out, hr, hv]
      have hlen' : c.over = false → (fStep c (frames c tr) (x.word, x.last)).2.length < n c := by
        intro ho
        cases hu : c.under with
        | true => have := (hsup.2 ho hu).2; rw [hF'] at this; exact this
        | false =>
          have h1 := i2 ho
          simp only [fStep, frameEnd, ho, hu, Bool.or_self, Bool.false_eq_true, if_false]
          split
          · simpa using hn
          · rename_i h
            simp only [beq_iff_eq] at h
            simp only [List.length_append, List.length_cons, List.length_nil]
            omega
      have hidx' : (next c s x).idx =
          if c.over then min (fStep c (frames c tr) (x.word, x.last)).2.length (n c)
          else (fStep c (frames c tr) (x.word, x.last)).2.length := by
        cases ho : c.over with
        | true =>
          rw [ho] at i1
          simp only [if_true] at i1
          have hm : multi c = true := by simp [multi, wmax, ho, hn]
          simp only [next, hm, hv, hr, Bool.and_self, if_true, ho, Bool.true_or, fStep, frameEnd, wmax]
          cases x.last with
          | true => simp
          | false =>
            simp only [Bool.false_eq_true, if_false, List.length_append, List.length_cons, List.length_nil]
            by_cases h : s.idx = n c
            · rw [if_neg (by simpa using h)]; omega
            · rw [if_pos h]; omega
        | false =>
          have h1 := i2 ho
          have h2 := hlen' ho
          rw [ho] at i1
          simp only [Bool.false_eq_true, if_false] at i1 ⊢
          have hend : (if c.under then x.last else s.idx == n c - 1) = frameEnd c (frames c tr).2 x.last := by
            simp only [frameEnd, ho, Bool.false_or, i1]
            split
            · rfl
            · rw [Bool.eq_iff_iff]; simp; omega
          simp only [fStep] at h2 ⊢
          simp only [next, ho, Bool.false_or, hend, hv, hr, Bool.and_true, Bool.false_eq_true, if_false]
          cases he : frameEnd c (frames c tr).2 x.last with
          | true =>
            simp only [if_true, List.length_nil]
            cases hm : multi c with
            | true => rfl
            | false => simp [multi, wmax, ho] at hm; simp; omega
          | false =>
            simp only [he, Bool.false_eq_true, if_false, List.length_append, List.length_cons, List.length_nil] at h2 ⊢
            have hm : multi c = true := by simp [multi, wmax, ho]; omega
            rw [hm, if_pos rfl, Nat.mod_eq_of_lt]
            · omega
            · have := le_two_pow_log2ceil (wmax c + 1)
              simp only [wmax, ho, Bool.false_eq_true, if_false] at this ⊢
              omega
      have hcur : ∀ w, w < (fStep c (frames c tr) (x.word, x.last)).2.length →
          (fStep c (frames c tr) (x.word, x.last)).2 = (frames c tr).2 ++ [x.word] := by
        intro w
        simp only [fStep]
        split <;> simp
      have hcons : ∀ f < c.m, (next c s x).consumed f = false := by
        intro f hf
        cases ho : overflow c s with
        | true =>
          have : s.consumed f = false := by
            cases hc : s.consumed f with
            | false => rfl
            | true =>
              have := (i4 f hf hc).1
              have := lastw_lt hw hf
              have := (hge ho).2.1
              omega
          simp [next, ho, this]
        | false =>
          by_cases hl : s.idx = lastw c f
          · have hall : ∀ g < c.m, lastw c g = s.idx → ack s x g = true := by
              simp only [ready, ho, Bool.or_false, outReady, Bool.and_eq_true, List.all_eq_true, List.mem_range, Bool.or_eq_true,
                bne_iff_ne] at hr
              intro g hg hgl
              rcases hr.2 g hg with h | h
              · exact absurd hgl h
              · exact h
            have : ackOthers c s x f = true := by
              simp only [ackOthers, List.all_eq_true, List.mem_range, Bool.or_eq_true, bne_iff_ne, beq_iff_eq]
              intro g hg
              by_cases h : lastw c g = lastw c f
              · exact Or.inr (hall g hg (by omega))
              · exact Or.inl (Or.inr h)
            cases hc : s.consumed f <;> simp [next, ho, hl, hv, this, hc]
          · have : s.consumed f = false := by
              cases hc : s.consumed f with
              | false => rfl
              | true =>
                have := (i4 f hf hc).1
                have := (hlt ho).1
                omega
            simp [next, hl, this]
      refine ⟨?_, ?_, ?_, ?_, ?_⟩
      · rw [hF', hidx']
      · rw [hF']; exact hlen'
      · rw [hF']
        intro f hf w h1 h2
        have hc' := hcur w h2
        rw [hc'] at h2 ⊢
        simp only [List.length_append, List.length_cons, List.length_nil] at h2
        simp only [next, hv, Bool.true_and]
        cases ho : overflow c s with
        | true =>
          have h3 := lastw_lt hw hf
          have h4 := (hge ho).2
          have : (s.idx == w) = false := by simp; omega
          simp only [this, Bool.false_and, Bool.false_eq_true, if_false]
          rw [i3 f hf w h1 (by omega)]
          simp only [List.getD_eq_getElem?_getD]
          rw [List.getElem?_append_left (by omega)]
        | false =>
          have h4 := hlt ho
          by_cases hwi : s.idx = w
          · subst hwi
            simp [h4.1]
            intro; omega
          · have : (s.idx == w) = false := by simp; omega
            simp only [this, Bool.false_and, Bool.false_eq_true, if_false]
            rw [i3 f hf w h1 (by omega)]
            simp only [List.getD_eq_getElem?_getD]
            rw [List.getElem?_append_left (by omega)]
      · intro f hf h
        rw [hcons f hf] at h; cases h
      · intro f hf _
        rw [hF', hO, expected_step, fieldVal_snoc hw hf]
        cases ho : overflow c s with
        | true =>
          have h3 := lastw_lt hw hf
          have h4 := (hge ho).2
          rw [if_neg (by omega)]
          have hc : s.consumed f = false := by
            cases hc : s.consumed f with
            | false => rfl
            | true => have := (i4 f hf hc).1; omega
          have hvd : (out c s x).vld f = false := by simp [out, vld, ho]
          rw [i5 f hf hc]
          simp [hvd, expected]
        | false =>
          have h4 := hlt ho
          by_cases hl : s.idx = lastw c f
          · rw [if_pos (by omega)]
            have h5 : fieldVal c f (frames c tr).2 = none := by simp [fieldVal]; omega
            cases hc : s.consumed f with
            | true =>
              obtain ⟨h1, pre, p, hp, hs, h2⟩ := i4 f hf hc
              have hvd : (out c s x).vld f = false := by simp [out, vld, hc]
              rw [h2, fieldVal_snoc hw hf, if_pos h1, (hst pre p hp hs).2]
              simp [hvd, expected, h5]
            | false =>
              have hrd : x.rd f = true := by
                simp only [ready, ho, Bool.or_false, outReady, Bool.and_eq_true, List.all_eq_true, List.mem_range, Bool.or_eq_true,
                  bne_iff_ne] at hr
                rcases hr.2 f hf with h | h
                · exact absurd hl.symm h
                · simpa [ack, hc] using h
              have hvd : (out c s x).vld f = true := by simp [out, vld, ho, hl, hc, hv]
              rw [i5 f hf hc, ← hdata ho f hf hl.symm]
              simp only [hvd, hrd, Bool.and_self, given_true, Option.toList_some, expected, h5, Option.toList_none, List.append_nil]
              rfl
          · rw [if_neg (by omega)]
            have hc : s.consumed f = false := by
              cases hc : s.consumed f with
              | false => rfl
              | true => have := (i4 f hf hc).1; omega
            have hvd : (out c s x).vld f = false := by simp [out, vld, hl]
            rw [i5 f hf hc]
            simp [hvd, expected]

theorem fits_snoc {c : Cfg} {tr : Tr} {p : In × Out} (h : Fits c (frames c (tr ++ [p]))) : Fits c (frames c tr) := by
  rw [frames_snoc] at h
  split at h
  · exact fits_init h
  · exact h

theorem stable_init {tr : Tr} {p : In × Out} (h : Stable (tr ++ [p])) : Stable tr := by
  intro pre a b post he
  exact h pre a b (post ++ [p]) (by rw [he]; simp)

theorem inv_all {c : Cfg} (hw : Wf c) (s₀ : St) (h0 : IsInit s₀) (is : List In) (hst : Stable ((machine c).trace s₀ is))
    (hsup : Supported c (frames c ((machine c).trace s₀ is))) :
    Inv c ((machine c).final s₀ is) ((machine c).trace s₀ is) := by
  induction is using List.reverseRecOn with
  | nil =>
    have hn : 0 < n c := Nat.lt_of_le_of_lt (Nat.zero_le _) (lastw_lt hw hw.m)
    refine ⟨?_, ?_, ?_, ?_, ?_⟩
    · simp [frames, accepted, h0.idx]
    · simpa [frames, accepted] using fun _ => hn
    · simp [frames, accepted]
    · intro f _ h; simp [h0.consumed] at h
    · intro f _ _; simp [frames, accepted, fieldOut, expected, fieldVal]
  | append_singleton is x ih =>
    rw [Machine.trace_snoc] at hst hsup ⊢
    rw [Machine.final_append]
    refine inv_step hw _ _ x (ih (stable_init hst) ⟨hsup.1, fun h1 h2 => fits_snoc (hsup.2 h1 h2)⟩) ?_ hsup
    intro pre p hp hs
    exact hst pre p _ [] (by rw [hp]; simp; rfl) hs

/-! ## C202 - C204 -/

/-- the last offered word was accepted -/
def Settled (tr : Tr) : Prop := ∀ pre p, tr = pre ++ [p] → stalled p = false

theorem fields_supported {c : Cfg} (hw : Wf c) (s₀ : St) (h0 : IsInit s₀) (is : List In)
    (hst : Stable ((machine c).trace s₀ is)) (hsup : Supported c (frames c ((machine c).trace s₀ is)))
    (he : Settled ((machine c).trace s₀ is)) (f : Nat) (hf : f < c.m) :
    fieldOut f ((machine c).trace s₀ is) = expected c f (frames c ((machine c).trace s₀ is)) := by
  have hi := inv_all hw s₀ h0 is hst hsup
  cases hc : ((machine c).final s₀ is).consumed f with
  | false => exact hi.free f hf hc
  | true =>
    obtain ⟨_, pre, p, hp, hs, _⟩ := hi.cons f hf hc
    rw [he pre p hp] at hs
    cases hs

/-- C202: every field is delivered once for each frame, with the value of the frame. -/
theorem fields_delivered {c : Cfg} (hw : Wf c) (ho : c.over = false) (hu : c.under = false) (s₀ : St) (h0 : IsInit s₀)
    (is : List In) (hst : Stable ((machine c).trace s₀ is)) (he : Settled ((machine c).trace s₀ is)) (f : Nat)
    (hf : f < c.m) :
    fieldOut f ((machine c).trace s₀ is) = expected c f (frames c ((machine c).trace s₀ is)) :=
  fields_supported hw s₀ h0 is hst ⟨by simp [ho], by simp [hu]⟩ he f hf

/-- every field is delivered once for each frame in which it is contained -/
def FieldsOk (c : Cfg) : Prop :=
  ∀ s₀ is f, IsInit s₀ → Stable ((machine c).trace s₀ is) → Settled ((machine c).trace s₀ is) → f < c.m →
    fieldOut f ((machine c).trace s₀ is) = expected c f (frames c ((machine c).trace s₀ is))

/-- C203: with overflow support if the size of the struct is a multiple of the width of data. -/
theorem over_partial {c : Cfg} (hw : Wf c) (ho : c.over = true) (ha : aligned c = true) : FieldsOk c := by
  intro s₀ is f h0 hst he hf
  exact fields_supported hw s₀ h0 is hst ⟨fun _ => ha, by simp [ho]⟩ he f hf

/-- Otherwise the fields which end in the last word are never delivered. -/
theorem over_lost {c : Cfg} (ho : c.over = true) (ha : aligned c = false) (s : St) (is : List In) (f : Nat)
    (hl : lastw c f = n c - 1) : fieldOut f ((machine c).trace s is) = [] := by
  induction is generalizing s with
  | nil => rfl
  | cons x is ih =>
    have hv : ((machine c).out s x).vld f = false := by
      show vld c s x f = false
      by_cases h : s.idx = lastw c f
      · have : overflow c s = true := by
          simp only [overflow, ho, ha, Bool.true_and, Bool.false_eq_true, if_false, decide_eq_true_eq]
          omega
        simp [vld, this]
      · simp [vld, h]
    have := ih ((machine c).next s x)
    simp only [fieldOut, Machine.trace_cons, List.filterMap_cons, hv, Bool.false_and, Bool.false_eq_true, if_false] at this ⊢
    exact this

def s0 : St := ⟨0, fun _ _ => [], fun _ => false⟩
theorem s0_init : IsInit s0 := ⟨rfl, fun _ => rfl⟩

theorem stable_of {tr : Tr} (h : ∀ p ∈ tr, stalled p = false) : Stable tr := by
  intro pre p q post he hs
  rw [h p (by rw [he]; simp)] at hs
  cases hs

theorem settled_of {tr : Tr} (h : ∀ p ∈ tr, stalled p = false) : Settled tr := by
  intro pre p he
  exact h p (by rw [he]; simp)

/-- a word from a number, all consumers are ready -/
def feed (v : Nat) (last : Bool) : In := ⟨true, v.testBit, last, fun _ => true⟩

def nibble : Cfg := ⟨8, 4, 1, fun _ => 0, fun _ => 4, true, false⟩
theorem nibble_wf : Wf nibble := by
  refine ⟨by decide, by decide, ?_, ?_⟩ <;> intro f _ <;> simp [nibble]

theorem over_fails : ∃ c, Wf c ∧ c.over = true ∧ ¬ FieldsOk c := by
  refine ⟨nibble, nibble_wf, rfl, fun h => ?_⟩
  have h1 := h s0 [feed 5 true] 0 s0_init (stable_of (by decide)) (settled_of (by decide)) (by decide)
  rw [over_lost rfl (by decide) _ _ _ (by decide)] at h1
  revert h1
  decide

/-- C204: with underflow support, if the frames are not longer than the struct. -/
theorem under_partial {c : Cfg} (hw : Wf c) (ho : c.over = false) (s₀ : St) (h0 : IsInit s₀)
    (is : List In) (hst : Stable ((machine c).trace s₀ is)) (hfit : Fits c (frames c ((machine c).trace s₀ is)))
    (he : Settled ((machine c).trace s₀ is)) (f : Nat) (hf : f < c.m) :
    fieldOut f ((machine c).trace s₀ is) = expected c f (frames c ((machine c).trace s₀ is)) :=
  fields_supported hw s₀ h0 is hst ⟨by simp [ho], fun _ _ => hfit⟩ he f hf

def two : Cfg := ⟨8, 16, 1, fun _ => 0, fun _ => 8, false, true⟩
theorem two_wf : Wf two := by
  refine ⟨by decide, by decide, ?_, ?_⟩ <;> intro f _ <;> simp [two]

/-- The third word of a frame is parsed as the first one. -/
theorem under_fails : ∃ c, Wf c ∧ c.over = false ∧ c.under = true ∧ ¬ FieldsOk c := by
  refine ⟨two, two_wf, rfl, rfl, fun h => ?_⟩
  have h1 := h s0 [feed 5 false, feed 6 false, feed 7 true] 0 s0_init (stable_of (by decide)) (settled_of (by decide)) (by decide)
  revert h1
  decide

theorem stuck {c : Cfg} (ho : c.over = false) (s : St) (hs : s.idx = n c) (js : List In) :
    ∀ p ∈ (machine c).trace s js, p.2.ready = false := by
  induction js generalizing s with
  | nil => intro p hp; cases hp
  | cons x js ih =>
    have hr : ready c s x = false := by simp [ready, outReady, overflow, hs, ho]
    intro p hp
    rw [Machine.trace_cons, List.mem_cons] at hp
    rcases hp with hp | hp
    · rw [hp]; exact hr
    · refine ih _ ?_ p hp
      show (next c s x).idx = n c
      simp [next, hr, hs]

/-- If the number of words is not a power of 2, the parser stops forever after `n` words of a longer frame. -/
theorem under_deadlock {c : Cfg} (hw : Wf c) (ho : c.over = false) (hu : c.under = true) (hp : n c < 2 ^ log2ceil (n c))
    (h1 : 1 < n c) (s₀ : St) (h0 : IsInit s₀) (is : List In) (hst : Stable ((machine c).trace s₀ is))
    (hfit : Fits c (frames c ((machine c).trace s₀ is))) (hlen : (frames c ((machine c).trace s₀ is)).2.length + 1 = n c) (x : In)
    (hv : x.valid = true) (hr : ((machine c).outAfter s₀ is x).ready = true) (hl : x.last = false) (js : List In) :
    ∀ p ∈ (machine c).trace ((machine c).final s₀ (is ++ [x])) js, p.2.ready = false := by
  have hi := (inv_all hw s₀ h0 is hst ⟨by simp [ho], fun _ _ => hfit⟩).idx
  rw [Machine.final_append]
  refine stuck ho _ ?_ js
  show (next c ((machine c).final s₀ is) x).idx = n c
  have hr' : ready c ((machine c).final s₀ is) x = true := hr
  rw [ho] at hi
  simp only [Bool.false_eq_true, if_false] at hi
  have hm : multi c = true := by simp [multi, wmax, ho]; omega
  have e : wmax c + 1 = n c := by simp [wmax, ho]; omega
  simp only [next, hm, hv, hr', Bool.and_self, if_true, ho, hu, Bool.or_true, hl, Bool.false_eq_true, if_false, e, hi, hlen]
  exact Nat.mod_eq_of_lt hp

def three : Cfg := ⟨8, 24, 2, fun f => 12 * f, fun f => 12 * f + 12, false, true⟩
theorem three_wf : Wf three := by
  refine ⟨by decide, by decide, ?_, ?_⟩ <;> intro f hf <;> simp only [three] at * <;> omega

example : Stable ((machine three).trace s0 [feed 5 false, feed 6 false]) ∧
    Fits three (frames three ((machine three).trace s0 [feed 5 false, feed 6 false])) ∧
    (frames three ((machine three).trace s0 [feed 5 false, feed 6 false])).2.length + 1 = n three ∧
    n three < 2 ^ log2ceil (n three) ∧ ((machine three).outAfter s0 [feed 5 false, feed 6 false] (feed 7 false)).ready = true := by
  refine ⟨stable_of (by decide), ⟨?_, by decide⟩, by decide, by decide, by decide⟩
  intro p hp
  exact absurd hp (by have : (frames three ((machine three).trace s0 [feed 5 false, feed 6 false])).1 = [] := rfl
                      rw [this]; simp)

/-- two fields of 12 bits in words of 8 bits; the consumer of the first is ready in the last cycle -/
def twelve : Cfg := { three with under := false }
def demo : List In :=
  [feed 0x21 false, ⟨true, Nat.testBit 0x43, false, fun _ => false⟩, feed 0x43 false, ⟨false, fun _ => true, true, fun _ => true⟩,
    feed 0x65 true]

example : Stable ((machine twelve).trace s0 demo) ∧ Settled ((machine twelve).trace s0 demo) ∧
    fieldOut 0 ((machine twelve).trace s0 demo) = [(List.range 12).map (Nat.testBit 0x321)] ∧
    fieldOut 1 ((machine twelve).trace s0 demo) = [(List.range 12).map (Nat.testBit 0x654)] := by
  refine ⟨?_, ?_, by decide, by decide⟩
  · intro pre p q post he hs
    match pre with
    | [] => simp [demo, machine] at he; rw [← he.1] at hs; exact absurd hs (by decide)
    | [_] => simp [demo, machine] at he; rw [← he.2.2.1, ← he.2.1]; exact ⟨rfl, rfl⟩
    | [_, _] => simp [demo, machine] at he; rw [← he.2.2.1] at hs; exact absurd hs (by decide)
    | [_, _, _] => simp [demo, machine] at he; rw [← he.2.2.2.1] at hs; exact absurd hs (by decide)
    | _ :: _ :: _ :: _ :: p => have := congrArg List.length he; simp [demo] at this; omega
  · intro pre p he
    have : p = ((machine twelve).trace s0 demo).getLast (by simp [demo]) := by simp [he]
    rw [this]; decide

/-! ## C205 -/

/-- `error_underflow` exactly for the last word of a frame which is shorter than the struct -/
def UnderflowOk (c : Cfg) : Prop :=
  ∀ s₀ is x, IsInit s₀ → Stable ((machine c).trace s₀ (is ++ [x])) →
    ((machine c).outAfter s₀ is x).underflow = (x.valid && ((machine c).outAfter s₀ is x).ready && x.last &&
      decide ((frames c ((machine c).trace s₀ is)).2.length + 1 < n c))

theorem underflow_partial {c : Cfg} (hw : Wf c) (hu : c.under = true) (ha : c.over = true → aligned c = true) (s₀ : St)
    (h0 : IsInit s₀) (is : List In) (x : In) (hst : Stable ((machine c).trace s₀ is))
    (hfit : Fits c (frames c ((machine c).trace s₀ is))) :
    ((machine c).outAfter s₀ is x).underflow = (x.valid && ((machine c).outAfter s₀ is x).ready && x.last &&
      decide ((frames c ((machine c).trace s₀ is)).2.length + 1 < n c)) := by
  have hi := (inv_all hw s₀ h0 is hst ⟨ha, fun _ _ => hfit⟩).idx
  have hlt := hfit.2
  have hidx : ((machine c).final s₀ is).idx = (frames c ((machine c).trace s₀ is)).2.length := by
    rw [hi]; split <;> omega
  show (out c ((machine c).final s₀ is) x).underflow = _
  have e : ((machine c).outAfter s₀ is x).ready = ready c ((machine c).final s₀ is) x := rfl
  rw [e]
  simp only [out, hu, Bool.and_true, hidx]
  have e2 : (if aligned c then (frames c ((machine c).trace s₀ is)).2.length != n c - 1
      else decide ((frames c ((machine c).trace s₀ is)).2.length < n c - 1)) =
      decide ((frames c ((machine c).trace s₀ is)).2.length + 1 < n c) := by
    split
    · rw [Bool.eq_iff_iff]; simp; omega
    · rw [Bool.eq_iff_iff]; simp; omega
  rw [e2]
  by_cases hm : (frames c ((machine c).trace s₀ is)).2.length + 1 < n c
  · have : multi c = true := by
      have : 0 < wmax c := by unfold wmax; split <;> omega
      simp [multi, this]
    simp [this, hm]
  · simp [hm]

def byteOU : Cfg := ⟨8, 8, 1, fun _ => 0, fun _ => 8, true, true⟩
theorem byteOU_wf : Wf byteOU := by
  refine ⟨by decide, by decide, ?_, ?_⟩ <;> intro f _ <;> simp [byteOU]

/-- A frame which is longer than the struct is reported. -/
theorem underflow_fails : ∃ c, Wf c ∧ c.under = true ∧ aligned c = true ∧ ¬ UnderflowOk c := by
  refine ⟨byteOU, byteOU_wf, rfl, by decide, fun h => ?_⟩
  have h1 := h s0 [feed 5 false] (feed 6 true) s0_init (stable_of (by decide))
  revert h1
  decide

example : ((machine three).outAfter s0 [feed 5 false] (feed 6 true)).underflow = true := by decide

/-! ## C206 -/

theorem wait_step {c : Cfg} (s : St) (x : In) (hv : x.valid = true) (hr : ready c s x = false) (hlt : s.idx < n c) :
    (next c s x).idx = s.idx ∧ ∀ f < c.m, lastw c f = s.idx → ack s x f = true → (next c s x).consumed f = true := by
  refine ⟨by simp [next, hr], fun f hf hl ha => ?_⟩
  simp only [ready, Bool.or_eq_false_iff] at hr
  have hb : ackOthers c s x f = false := by
    cases hb : ackOthers c s x f with
    | false => rfl
    | true =>
      exfalso
      have : outReady c s x = true := by
        simp only [outReady, Bool.and_eq_true, decide_eq_true_eq, List.all_eq_true, List.mem_range, Bool.or_eq_true, bne_iff_ne]
        refine ⟨hlt, fun g hg => ?_⟩
        simp only [ackOthers, List.all_eq_true, List.mem_range, Bool.or_eq_true, bne_iff_ne, beq_iff_eq] at hb
        rcases hb g hg with (h | h) | h
        · subst h; exact Or.inr ha
        · left; rw [← hl]; exact h
        · exact Or.inr h
      rw [this] at hr
      cases hr.1
  simp only [ack, Bool.or_eq_true] at ha
  cases hc : s.consumed f with
  | true => simp [next, hb, hc]
  | false =>
    rw [hc] at ha
    simp at ha
    simp [next, hb, hr.2, hl, hv, ha]

theorem wait_all {c : Cfg} (s : St) (js : List In) (x : In) (hlt : s.idx < n c) (hv : ∀ y ∈ js, y.valid = true)
    (hr : ∀ p ∈ (machine c).trace s js, p.2.ready = false)
    (hrd : ∀ f < c.m, lastw c f = s.idx → s.consumed f = true ∨ ∃ y ∈ js ++ [x], y.rd f = true) :
    ready c ((machine c).final s js) x = true := by
  induction js generalizing s with
  | nil =>
    have : outReady c s x = true := by
      simp only [outReady, Bool.and_eq_true, decide_eq_true_eq, List.all_eq_true, List.mem_range, Bool.or_eq_true, bne_iff_ne]
      refine ⟨hlt, fun g hg => ?_⟩
      by_cases hl : lastw c g = s.idx
      · right
        rcases hrd g hg hl with h | ⟨y, hy, h⟩
        · simp [ack, h]
        · simp at hy; rw [hy] at h; simp [ack, h]
      · exact Or.inl hl
    show ready c s x = true
    simp [ready, this]
  | cons y js ih =>
    have hr0 : ready c s y = false := hr (y, out c s y) (by rw [Machine.trace_cons]; exact List.mem_cons_self)
    obtain ⟨h1, h2⟩ := wait_step s y (hv y (by simp)) hr0 hlt
    rw [Machine.final_cons]
    refine ih (next c s y) (by rw [h1]; exact hlt) (fun z hz => hv z (by simp [hz]))
      (fun p hp => hr p (by rw [Machine.trace_cons]; exact List.mem_cons_of_mem _ hp)) ?_
    intro f hf hl
    rw [h1] at hl
    rcases hrd f hf hl with h | ⟨z, hz, h⟩
    · exact Or.inl (h2 f hf hl (by simp [ack, h]))
    · rw [List.cons_append, List.mem_cons] at hz
      rcases hz with hz | hz
      · rw [hz] at h; exact Or.inl (h2 f hf hl (by simp [ack, h]))
      · exact Or.inr ⟨z, hz, h⟩

/-- A word is accepted if each consumer was ready at least once since it is offered, not necessarily at the same time. -/
theorem ready_independent {c : Cfg} (hw : Wf c) (s₀ : St) (h0 : IsInit s₀) (is js : List In) (x : In)
    (hst : Stable ((machine c).trace s₀ is)) (hsup : Supported c (frames c ((machine c).trace s₀ is)))
    (hv : ∀ y ∈ js, y.valid = true) (hr : ∀ p ∈ (machine c).trace ((machine c).final s₀ is) js, p.2.ready = false)
    (hrd : ∀ f < c.m, ∃ y ∈ js ++ [x], y.rd f = true) :
    ((machine c).outAfter s₀ (is ++ js) x).ready = true := by
  have hi := inv_all hw s₀ h0 is hst hsup
  show ready c ((machine c).final s₀ (is ++ js)) x = true
  rw [Machine.final_append]
  by_cases hlt : ((machine c).final s₀ is).idx < n c
  · exact wait_all _ js x hlt hv hr fun f hf _ => Or.inr (hrd f hf)
  · have ho : c.over = true := by
      cases ho : c.over with
      | true => rfl
      | false => have h1 := hi.idx; have h2 := hi.len ho; rw [ho] at h1; simp at h1; omega
    have hidx : ((machine c).final s₀ is).idx = n c := by
      have h1 := hi.idx; rw [ho] at h1; simp at h1; omega
    have hov : overflow c ((machine c).final s₀ is) = true := by simp [overflow, ho, hsup.1 ho, hidx, wmax]
    cases js with
    | nil => show ready c ((machine c).final s₀ is) x = true; simp [ready, hov]
    | cons y js =>
      have := hr (y, out c ((machine c).final s₀ is) y) (by rw [Machine.trace_cons]; exact List.mem_cons_self)
      simp [out, ready, hov] at this

/-- four fields in one word: the consumers are ready one after another -/
def nibbles : Cfg := ⟨16, 16, 4, fun f => 4 * f, fun f => 4 * f + 4, false, false⟩
example : Wf nibbles := by
  refine ⟨by decide, by decide, ?_, ?_⟩ <;> intro f hf <;> simp only [nibbles] at * <;> omega
def oneByOne (k : Nat) : In := ⟨true, Nat.testBit 0x4321, false, fun f => f == k⟩
example : (∀ p ∈ (machine nibbles).trace s0 [oneByOne 2, oneByOne 0, oneByOne 3], p.2.ready = false) ∧
    (∀ f < 4, ∃ y ∈ [oneByOne 2, oneByOne 0, oneByOne 3] ++ [oneByOne 1], y.rd f = true) ∧
    ((machine nibbles).outAfter s0 [oneByOne 2, oneByOne 0, oneByOne 3] (oneByOne 1)).ready = true ∧
    (∀ f < 4, (fieldOut f ((machine nibbles).trace s0 [oneByOne 2, oneByOne 0, oneByOne 3, oneByOne 1])).length = 1) := by
  decide

end Verif.FrameParser
