import Verif.FifoMeasuring
import Verif.ArrayItemGetter
import Mathlib.Data.List.Induction
import Mathlib.Data.List.Forall2

/-! # C171, C172: sizes reported by `Axi4S_fifoMeasuring` -/

namespace Verif.FifoMeas

open Verif

/-! ## What is observed -/

def accepted (tr : List (In α × Out α)) : List (Word α) := tr.filterMap (·.2.acc)
def sizes (tr : List (In α × Out α)) : List Nat := tr.filterMap (·.2.size)
def delivered (tr : List (In α × Out α)) : List (Word α) := tr.filterMap (·.2.dat)

/-- Complete frames of a stream of words and the words after the last complete frame. -/
def parse (ws : List (Word α)) : List (List (Word α)) × List (Word α) :=
  ws.foldl (fun p w => if w.last then (p.1 ++ [p.2 ++ [w]], []) else (p.1, p.2 ++ [w])) ([], [])

def frames (ws : List (Word α)) : List (List (Word α)) := (parse ws).1

/-- Number of bytes of a frame. -/
def byteCount (c : Cfg) (f : List (Word α)) : Nat :=
  if c.useStrb then (f.map fun w => w.strb.count true).sum else c.n * f.length

/-- All words but the last have all lanes enabled, the last one has the lowest `m` lanes. -/
def Aligned (c : Cfg) (f : List (Word α)) : Prop :=
  ∃ (g : List (Word α)) (w : Word α), f = g ++ [w] ∧ (∀ x ∈ g, x.strb = List.replicate c.n true) ∧
    ∃ m ≤ c.n, w.strb = List.replicate m true ++ List.replicate (c.n - m) false

/-- Full statement: the k-th reported size is the number of bytes of the k-th delivered frame. -/
def SizesExact (α : Type) (c : Cfg) : Prop :=
  ∀ (is : List (In α)) (k : Nat) (f : List (Word α)) (s : Nat),
    (frames (delivered ((machine c).trace init is)))[k]? = some f →
    (sizes ((machine c).trace init is))[k]? = some s →
    Aligned c f → s = byteCount c f

/-- **C171** fails for `DATA_WIDTH = 8`: a frame of one byte is reported as two bytes. -/
theorem sizes_byte_fails : ¬ SizesExact Nat ⟨1, 15, true⟩ := by
  intro h
  have := h [⟨some ⟨7, [true], true⟩, true, true, false, false⟩, ⟨none, true, true, true, true⟩]
    0 [⟨7, [true], true⟩] 2 (by decide) (by decide)
    ⟨[], ⟨7, [true], true⟩, rfl, by simp, 1, by decide, rfl⟩
  exact absurd this (by decide)

/-! ## Lemmas -/

theorem parse_snoc (ws : List (Word α)) (w : Word α) :
    parse (ws ++ [w]) = if w.last then ((parse ws).1 ++ [(parse ws).2 ++ [w]], [])
      else ((parse ws).1, (parse ws).2 ++ [w]) := by
  simp [parse]

theorem frames_prefix (a b : List (Word α)) : frames a <+: frames (a ++ b) := by
  induction b using List.reverseRecOn with
  | nil => simp
  | append_singleton b w ih =>
    rw [← List.append_assoc]
    unfold frames at *
    rw [parse_snoc]
    split
    · exact ih.trans (List.prefix_append _ _)
    · exact ih

theorem parse_frame (ws : List (Word α)) : ∀ f ∈ frames ws, f ≠ [] := by
  induction ws using List.reverseRecOn with
  | nil => simp [frames, parse]
  | append_singleton ws w ih =>
    unfold frames at *
    rw [parse_snoc]
    split
    · intro f hf
      simp only [List.mem_append, List.mem_singleton] at hf
      rcases hf with hf | rfl
      · exact ih f hf
      · simp
    · exact ih

/-- What is written to the fifo of sizes for a frame. -/
def frameSize (c : Cfg) (f : List (Word α)) : Option Nat :=
  f.getLast?.map fun w => sizeOf c (f.length - 1) w

theorem cntrMod_gt (c : Cfg) : c.maxLen + 1 < cntrMod c + 1 := by
  have h := le_two_pow_log2ceil c.maxLen
  have : 1 ≤ 2 ^ log2ceil c.maxLen := Nat.one_le_two_pow
  unfold cntrMod
  rw [Nat.pow_succ]
  omega

theorem parse_rest (ws : List (Word α)) :
    (parse ws).2 <:+ ws ∧ ∀ x ∈ (parse ws).2, x.last = false := by
  induction ws using List.reverseRecOn with
  | nil => simp [parse]
  | append_singleton ws w ih =>
    rw [parse_snoc]
    rcases Bool.eq_false_or_eq_true w.last with hl | hl
    · simp [hl]
    · simp only [hl, Bool.false_eq_true, if_false]
      refine ⟨?_, ?_⟩
      · obtain ⟨t, ht⟩ := ih.1
        exact ⟨t, by rw [← List.append_assoc, ht]⟩
      · intro x hx
        simp only [List.mem_append, List.mem_singleton] at hx
        rcases hx with hx | rfl
        · exact ih.2 x hx
        · exact hl

/-- Where `last` was added, the `MAX_LEN` words before belong to the same frame. -/
def CutOnlyLong (L : Nat) (A P : List (Word α)) : Prop :=
  ∀ (k : Nat) (a p : Word α), A[k]? = some a → P[k]? = some p → p.last = true → a.last = false →
    L ≤ k ∧ ∀ (j : Nat) (q : Word α), j < k → k ≤ j + L → P[j]? = some q → q.last = false

theorem cut_snoc (L : Nat) (A P : List (Word α)) (a p : Word α) (hl : A.length = P.length)
    (h : CutOnlyLong L A P)
    (hp : p.last = true → a.last = false → (parse P).2.length = L) :
    CutOnlyLong L (A ++ [a]) (P ++ [p]) := by
  intro k a' p' ha hp' h1 h2
  obtain ⟨⟨t, ht⟩, hr⟩ := parse_rest P
  have hkl : k < P.length + 1 := by simpa using (List.getElem?_eq_some_iff.1 hp').1
  have hold : ∀ j < P.length, (P ++ [p])[j]? = P[j]? := fun j hj =>
    List.getElem?_append_left hj
  rcases Nat.lt_or_ge k P.length with hk | hk
  · rw [List.getElem?_append_left (by omega)] at ha hp'
    obtain ⟨g1, g2⟩ := h k a' p' ha hp' h1 h2
    refine ⟨g1, fun j q hj hj2 hq => g2 j q hj hj2 ?_⟩
    rw [hold j (by omega)] at hq
    exact hq
  · have hk' : k = P.length := by omega
    subst hk'
    rw [← hl, List.getElem?_concat_length] at ha
    rw [List.getElem?_concat_length] at hp'
    simp only [Option.some.injEq] at ha hp'
    subst ha hp'
    have hL := hp h1 h2
    have hlen : P.length = t.length + L := by rw [← ht, List.length_append, hL]
    refine ⟨by omega, fun j q hj hj2 hq => ?_⟩
    rw [hold j hj] at hq
    rw [← ht, List.getElem?_append_right (by omega)] at hq
    exact hr q (List.mem_of_getElem? hq)

structure Inv (c : Cfg) (tr : List (In α × Out α)) (s : St α) : Prop where
  dat : ∃ P, delivered tr ++ s.db = P ∧
    (sizes tr ++ s.sb).map some = (frames P).map (frameSize c) ∧
    (parse P).2.length = s.wordCntr ∧
    (∀ f ∈ frames P, f.length ≤ c.maxLen + 1) ∧
    P.map (fun w => (w.data, w.strb)) = (accepted tr).map (fun w => (w.data, w.strb)) ∧
    List.Forall₂ (fun a p => a.last = true → p.last = true) (accepted tr) P ∧
    CutOnlyLong c.maxLen (accepted tr) P
  wc : s.wordCntr ≤ c.maxLen

theorem sizeOf_last (c : Cfg) (wc : Nat) (w : Word α) (h : lastOf c wc w = true) :
    sizeOf c wc { w with last := true } = sizeOf c wc w := by
  simp [sizeOf, lastOf] at *
  simp [h]

theorem head_tail (l : List β) (p : Bool) :
    (if p then l.head? else none).toList ++ (if p then l.tail else l) = l := by
  cases p <;> cases l <;> simp

theorem inv_step (c : Cfg) (tr : List (In α × Out α)) (s : St α) (i : In α) (h : Inv c tr s) :
    Inv c (tr ++ [(i, out s i)]) (next c s i) := by
  obtain ⟨⟨P, hP, hS, hwc, hml, hacc, hlast, hcut⟩, hw⟩ := h
  have eD : delivered (tr ++ [(i, out s i)]) = delivered tr ++ (out s i).dat.toList := by
    unfold delivered; rw [List.filterMap_append]; cases h : (out s i).dat <;> simp [h]
  have eS : sizes (tr ++ [(i, out s i)]) = sizes tr ++ (out s i).size.toList := by
    unfold sizes; rw [List.filterMap_append]; cases h : (out s i).size <;> simp [h]
  have eA : accepted (tr ++ [(i, out s i)]) = accepted tr ++ (out s i).acc.toList := by
    unfold accepted; rw [List.filterMap_append]; cases h : (out s i).acc <;> simp [h]
  have hd : delivered (tr ++ [(i, out s i)]) ++ (next c s i).db = P ++ pushD c s i := by
    rw [eD]
    show delivered tr ++ _ ++ ((if i.dPop then s.db.tail else s.db) ++ _) = _
    rw [List.append_assoc, ← List.append_assoc (Option.toList _)]
    show delivered tr ++ ((if i.dPop then s.db.head? else none).toList ++ _ ++ _) = _
    rw [head_tail, ← hP, List.append_assoc]
  have hs : sizes (tr ++ [(i, out s i)]) ++ (next c s i).sb = (sizes tr ++ s.sb) ++ pushS c s i := by
    rw [eS]
    show sizes tr ++ _ ++ ((if i.sPop then s.sb.tail else s.sb) ++ _) = _
    rw [List.append_assoc, ← List.append_assoc (Option.toList _)]
    show sizes tr ++ ((if i.sPop then s.sb.head? else none).toList ++ _ ++ _) = _
    rw [head_tail, List.append_assoc]
  have hm := cntrMod_gt c
  rcases hwd : i.w with _ | w
  · refine ⟨⟨P, ?_, ?_, ?_, hml, ?_, ?_, ?_⟩, ?_⟩
    · rw [hd]; simp [pushD, hwd]
    · rw [hs]; simpa [pushS, hwd] using hS
    · simpa [next, hwd] using hwc
    · rw [eA]; simpa [out, hwd] using hacc
    · rw [eA]; simpa [out, hwd] using hlast
    · rw [eA]; simpa [out, hwd] using hcut
    · simpa [next, hwd] using hw
  · rcases Bool.eq_false_or_eq_true (i.sbRd && i.dbRd) with ha | ha
    · have hnw : (next c s i).wordCntr =
          if lastOf c s.wordCntr w then 0 else (s.wordCntr + 1) % cntrMod c := by
        simp only [next, hwd, ha, if_true]
      have hpd : pushD c s i = [{ w with last := lastOf c s.wordCntr w }] := by
        simp only [pushD, hwd, ha, if_true]
      have hps : pushS c s i = if lastOf c s.wordCntr w then [sizeOf c s.wordCntr w] else [] := by
        simp only [pushS, hwd, ha, Bool.true_and]
      have hac : (out s i).acc = some w := by simp only [out, hwd, ha, if_true]
      rcases Bool.eq_false_or_eq_true (lastOf c s.wordCntr w) with hl | hl
      · refine ⟨⟨_, hd, ?_, ?_, ?_, ?_, ?_, ?_⟩, ?_⟩
        · rw [hs, hpd, hps]
          unfold frames at *
          rw [parse_snoc, hl]
          simp only [if_true, List.map_append, hS, List.map_cons, List.map_nil]
          congr 2
          simp only [frameSize, List.getLast?_append, List.getLast?_singleton, Option.some_or,
            Option.map_some, List.length_append, List.length_singleton, Nat.add_sub_cancel, hwc,
            sizeOf_last c _ _ hl]
        · rw [hpd, parse_snoc, hl, hnw, hl]; rfl
        · rw [hpd]
          unfold frames at *
          rw [parse_snoc, hl]
          intro f hf
          simp only [if_true, List.mem_append, List.mem_singleton] at hf
          rcases hf with hf | rfl
          · exact hml f hf
          · simp; omega
        · rw [eA, hac, hpd]; simp [hacc]
        · rw [eA, hac, hpd]
          exact List.rel_append hlast (by simp [lastOf]; tauto)
        · rw [eA, hac, hpd]
          refine cut_snoc _ _ _ _ _ (by simpa using (congrArg List.length hacc).symm) hcut ?_
          intro h1 h2
          simp [lastOf, h2] at h1
          rw [hwc, h1]
        · rw [hnw, hl]; simp
      · have hne : s.wordCntr ≠ c.maxLen := by
          intro h; simp [lastOf, h] at hl
        have hmod : (s.wordCntr + 1) % cntrMod c = s.wordCntr + 1 := Nat.mod_eq_of_lt (by omega)
        refine ⟨⟨_, hd, ?_, ?_, ?_, ?_, ?_, ?_⟩, ?_⟩
        · rw [hs, hpd, hps]
          unfold frames at *
          rw [parse_snoc, hl]
          simpa using hS
        · rw [hpd, parse_snoc, hl, hnw, hl]
          simp [hmod, hwc]
        · rw [hpd]
          unfold frames at *
          rw [parse_snoc, hl]
          simpa using hml
        · rw [eA, hac, hpd]; simp [hacc]
        · rw [eA, hac, hpd]
          exact List.rel_append hlast (by simp [lastOf]; tauto)
        · rw [eA, hac, hpd]
          refine cut_snoc _ _ _ _ _ (by simpa using (congrArg List.length hacc).symm) hcut ?_
          intro h1 h2
          simp [lastOf, h2] at h1
          rw [hwc, h1]
        · rw [hnw, hl]; simp [hmod]; omega
    · refine ⟨⟨P, ?_, ?_, ?_, hml, ?_, ?_, ?_⟩, ?_⟩
      · rw [hd]; simp [pushD, hwd, ha]
      · rw [hs]; simpa [pushS, hwd, ha] using hS
      · simpa [next, hwd, ha] using hwc
      · rw [eA]; simpa [out, hwd, ha] using hacc
      · rw [eA]; simpa [out, hwd, ha] using hlast
      · rw [eA]; simpa [out, hwd, ha] using hcut
      · simpa [next, hwd, ha] using hw

theorem inv_run (c : Cfg) (is : List (In α)) :
    Inv c ((machine c).trace init is) ((machine c).final init is) := by
  induction is using List.reverseRecOn with
  | nil => exact ⟨⟨[], rfl, rfl, rfl, by simp [frames, parse], rfl, .nil, by intro k a p h; simp [accepted] at h⟩, by simp [Machine.final_nil, init]⟩
  | append_singleton is x ih =>
    rw [Machine.trace_snoc, Machine.final_append]
    exact inv_step c _ _ x ih

theorem find_rev (p : Nat → Bool) (n k : Nat) (hk : k < n) (h : p k = true)
    (hn : ∀ j, k < j → j < n → p j = false) : (List.range n).reverse.find? p = some k := by
  induction n with
  | zero => omega
  | succ n ih =>
    rw [List.range_succ, List.reverse_append]
    simp only [List.reverse_cons, List.reverse_nil, List.nil_append, List.singleton_append,
      List.find?_cons]
    by_cases e : k = n
    · subst e; simp [h]
    · rw [hn n (by omega) (by omega)]
      exact ih (by omega) (fun j a b => hn j a (by omega))

theorem lane (n m i : Nat) :
    (List.replicate m true ++ List.replicate (n - m) false).getD i false = decide (i < m) := by
  simp only [List.getD_eq_getElem?_getD]
  by_cases hi : i < m
  · rw [List.getElem?_append_left (by simpa)]; simp [hi]
  · rw [List.getElem?_append_right (by simp; omega)]
    simp only [List.length_replicate, List.getElem?_replicate]
    split <;> simp [hi]

theorem rem_low (c : Cfg) (m : Nat) (h : m ≤ c.n) :
    remOf c (List.replicate m true ++ List.replicate (c.n - m) false) =
      if m = c.n then 0 else m := by
  unfold remOf
  have e : (fun i => (List.replicate m true ++ List.replicate (c.n - m) false).getD i false)
      = fun i => decide (i < m) := funext fun i => lane _ _ i
  rw [e]
  by_cases h0 : m = 0
  · subst h0
    rw [List.find?_eq_none.2 (by simp)]
    simp
  · rw [find_rev _ c.n (m - 1) (by omega) (by simp; omega) (by simp; omega)]
    simp only
    split <;> split <;> omega

theorem full_low (c : Cfg) (m : Nat) (h : m ≤ c.n) :
    full c (List.replicate m true ++ List.replicate (c.n - m) false) = decide (m = c.n) := by
  unfold full
  have e : (fun i => (List.replicate m true ++ List.replicate (c.n - m) false).getD i false)
      = fun i => decide (i < m) := funext fun i => lane _ _ i
  rw [e]
  rw [Bool.eq_iff_iff]
  simp only [List.all_eq_true, List.mem_range, decide_eq_true_eq]
  constructor
  · intro g
    rcases Nat.lt_or_ge m c.n with hl | hl
    · have := g m hl; omega
    · omega
  · rintro rfl x hx; exact hx

theorem frame_last (ws : List (Word α)) :
    ∀ f ∈ frames ws, ∃ g w, f = g ++ [w] ∧ w.last = true ∧ ∀ x ∈ g, x.last = false := by
  have : (∀ x ∈ (parse ws).2, x.last = false) ∧
      ∀ f ∈ frames ws, ∃ g w, f = g ++ [w] ∧ w.last = true ∧ ∀ x ∈ g, x.last = false := by
    induction ws using List.reverseRecOn with
    | nil => simp [frames, parse]
    | append_singleton ws w ih =>
      unfold frames at *
      rw [parse_snoc]
      rcases Bool.eq_false_or_eq_true w.last with hl | hl
      · simp only [hl, if_true]
        refine ⟨by simp, fun f hf => ?_⟩
        simp only [List.mem_append, List.mem_singleton] at hf
        rcases hf with hf | rfl
        · exact ih.2 f hf
        · exact ⟨_, w, rfl, hl, ih.1⟩
      · simp only [hl]
        refine ⟨?_, ih.2⟩
        intro x hx
        simp only [Bool.false_eq_true, if_false, List.mem_append, List.mem_singleton] at hx
        rcases hx with hx | rfl
        · exact ih.1 x hx
        · exact hl
  exact this.2

theorem size_exact (c : Cfg) (p : Nat) (hp : 1 ≤ p) (hn : c.n = 2 ^ p) (g : List (Word α)) (w : Word α)
    (hl : w.last = true) (hlen : g.length ≤ c.maxLen)
    (hg : ∀ x ∈ g, x.strb = List.replicate c.n true) (m : Nat) (hm : m ≤ c.n)
    (hw : w.strb = List.replicate m true ++ List.replicate (c.n - m) false) :
    sizeOf c g.length w = byteCount c (g ++ [w]) := by
  have hlog : 2 ^ log2ceil c.n = c.n := by rw [hn, ArrayItemGetter.log2ceil_pow hp]
  have hmod : (g.length + 1) % cntrMod c = g.length + 1 := by
    apply Nat.mod_eq_of_lt
    have h := le_two_pow_log2ceil c.maxLen
    have h1 : 2 ≤ 2 ^ log2ceil c.maxLen := by
      have : 1 ≤ log2ceil c.maxLen := by unfold log2ceil; split <;> omega
      calc 2 = 2 ^ 1 := rfl
        _ ≤ _ := Nat.pow_le_pow_right (by decide) this
    unfold cntrMod
    rw [Nat.pow_succ]
    omega
  have hsum : (g.map fun w => w.strb.count true).sum = g.length * c.n := by
    clear hlen hmod
    induction g with
    | nil => simp
    | cons x g ih =>
      rw [List.map_cons, List.sum_cons, ih (fun y hy => hg y (by simp [hy])), hg x (by simp)]
      simp [Nat.add_mul]; omega
  unfold sizeOf byteCount
  cases hu : c.useStrb
  · simp only [Bool.false_eq_true, if_false, hmod, hlog, List.length_append, List.length_singleton]
    exact Nat.mul_comm _ _
  · simp only [if_true, hlog, hmod, List.map_append, List.sum_append, hsum, hw, rem_low c m hm,
      full_low c m hm, lastOf, hl, Bool.true_or, Bool.true_and]
    have hc : w.strb.count true = m := by
      rw [hw, List.count_append, List.count_replicate_self, List.count_replicate]; simp
    by_cases e : m = c.n
    · simp [e, Nat.add_mul, hc]
    · simp [e, hc]

/-- **C171** (partial: data width of at least two bytes) The k-th item on `sizes` is the number of bytes of
the k-th frame on `dataOut`, for every traffic on all interfaces. -/
theorem sizes_exact_partial (c : Cfg) (p : Nat) (hp : 1 ≤ p) (hn : c.n = 2 ^ p) : SizesExact α c := by
  intro is k f s hf hs ⟨g, w, hfe, hg, m, hm, hw⟩
  obtain ⟨⟨P, hP, hS, _, hml, _, _, _⟩, _⟩ := inv_run c is
  have hpre := frames_prefix (delivered ((machine c).trace init is)) ((machine c).final init is).db
  rw [hP] at hpre
  have hfk : (frames P)[k]? = some f := by
    obtain ⟨t, ht⟩ := hpre
    rw [← ht, List.getElem?_append_left (by
      rcases Nat.lt_or_ge k (frames (delivered ((machine c).trace init is))).length with h | h
      · exact h
      · rw [List.getElem?_eq_none h] at hf; simp at hf)]
    exact hf
  have hsk : (sizes ((machine c).trace init is) ++ ((machine c).final init is).sb)[k]? = some s := by
    rw [List.getElem?_append_left (by
      rcases Nat.lt_or_ge k (sizes ((machine c).trace init is)).length with h | h
      · exact h
      · rw [List.getElem?_eq_none h] at hs; simp at hs)]
    exact hs
  have := congrArg (·[k]?) hS
  simp only [List.getElem?_map, hfk, hsk, Option.map_some, Option.some.injEq] at this
  have hmem := List.mem_of_getElem? hfk
  obtain ⟨g', w', he, hl, _⟩ := frame_last P f hmem
  have hlen := hml f hmem
  subst hfe
  obtain ⟨rfl, hww⟩ := List.append_inj' he rfl
  simp only [List.cons.injEq, and_true] at hww
  subst hww
  simp only [List.length_append, List.length_singleton] at hlen
  simp only [frameSize, List.getLast?_append, List.getLast?_singleton, Option.some_or,
    Option.map_some, List.length_append, List.length_singleton, Nat.add_sub_cancel,
    Option.some.injEq] at this
  rw [this]
  exact size_exact c p hp hn g w hl (by omega) hg m hm hw

/-- **C172** `dataOut` carries the words of `dataIn` in order (data and strb), keeps their `last` and
adds it so that no frame has more than `MAX_LEN + 1` words, only after `MAX_LEN` words without `last`;
the sizes delivered so far never outnumber the
frames put to the data fifo. -/
theorem measured_data (c : Cfg) (is : List (In α)) :
    let tr := (machine c).trace init is
    let s := (machine c).final init is
    (delivered tr).map (fun w => (w.data, w.strb)) <+: (accepted tr).map (fun w => (w.data, w.strb)) ∧
    (∀ (k : Nat) (a p : Word α), (accepted tr)[k]? = some a → (delivered tr)[k]? = some p → a.last = true →
      p.last = true) ∧
    CutOnlyLong c.maxLen (accepted tr) (delivered tr) ∧
    (∀ f ∈ frames (delivered tr), f.length ≤ c.maxLen + 1) ∧
    (sizes tr).length + s.sb.length = (frames (delivered tr ++ s.db)).length := by
  intro tr s
  obtain ⟨⟨P, hP, hS, _, hml, hacc, hlast, hcut⟩, _⟩ := inv_run c is
  refine ⟨?_, ?_, ?_, ?_, ?_⟩
  · rw [← hacc, ← hP, List.map_append]
    exact List.prefix_append _ _
  · intro k a p ha hp h
    have hpk : P[k]? = some p := by
      rw [← hP, List.getElem?_append_left (List.getElem?_eq_some_iff.1 hp).1]
      exact hp
    rw [List.forall₂_iff_get] at hlast
    obtain ⟨ha1, ha2⟩ := List.getElem?_eq_some_iff.1 ha
    obtain ⟨hp1, hp2⟩ := List.getElem?_eq_some_iff.1 hpk
    have := hlast.2 k ha1 hp1
    have ha3 : (accepted ((machine c).trace init is))[k] = a := ha2
    simp only [List.get_eq_getElem, ha3, hp2] at this
    exact this h
  · have hold : ∀ (k : Nat) q, (delivered tr)[k]? = some q → P[k]? = some q := by
      intro k q hq
      rw [← hP, List.getElem?_append_left (List.getElem?_eq_some_iff.1 hq).1]
      exact hq
    intro k a p ha hp h1 h2
    obtain ⟨g1, g2⟩ := hcut k a p ha (hold k p hp) h1 h2
    exact ⟨g1, fun j q hj hj2 hq => g2 j q hj hj2 (hold j q hq)⟩
  · intro f hf
    have hpre := frames_prefix (delivered tr) s.db
    rw [hP] at hpre
    exact hml f (hpre.subset hf)
  · have := congrArg List.length hS
    simp only [List.length_map, List.length_append] at this
    rw [hP]
    exact this

/-- **C172** `errorAlignment` is set exactly if a word without all lanes which is not the last one of its
frame was offered before. -/
theorem alignment_error (c : Cfg) (is : List (In α)) (i : In α) :
    ((machine c).outAfter init is i).err = true ↔
      ∃ x ∈ is, ∃ w, x.w = some w ∧ w.last = false ∧ ∃ j < c.n, w.strb.getD j false = false := by
  have h : ((machine c).final (init : St α) is).errReg = true ↔
      ∃ x ∈ is, ∃ w, x.w = some w ∧ w.last = false ∧ ∃ j < c.n, w.strb.getD j false = false := by
    induction is using List.reverseRecOn with
    | nil => simp [Machine.final_nil, init]
    | append_singleton is x ih =>
      rw [Machine.final_append]
      show (next c _ x).errReg = true ↔ _
      simp only [List.mem_append, List.mem_singleton, or_and_right, exists_or, exists_eq_left, ← ih]
      have hf : ∀ l, full c l = false ↔ ∃ j < c.n, l.getD j false = false := by
        intro l; simp [full, List.all_eq_false]
      rcases hx : x.w with _ | w
      · simp [next, hx]
      · simp only [next, hx, Bool.or_eq_true, Bool.and_eq_true, Bool.not_eq_true', hf,
          Option.some.injEq, exists_eq_left']
        tauto
  exact h

/-- Two frames of 6 and 4 bytes in words of four bytes. -/
example :
    let c : Cfg := ⟨4, 3, true⟩
    let t := [true, true, true, true]
    let tr := (machine c).trace init
      [⟨some ⟨1, t, false⟩, true, true, false, false⟩, ⟨some ⟨2, [true, true, false, false], true⟩, false, true, true, true⟩,
       ⟨some ⟨2, [true, true, false, false], true⟩, true, true, true, true⟩, ⟨some ⟨3, t, true⟩, true, true, true, true⟩,
       ⟨none, true, true, true, true⟩]
    sizes tr = [6, 4] ∧ (frames (delivered tr)).map List.length = [2, 1] := by decide

end Verif.FifoMeas
