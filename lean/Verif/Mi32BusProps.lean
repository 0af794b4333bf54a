import Verif.Mi32Bus
import Verif.BusMapProps
import Verif.AxiResizeProps
import Mathlib.Data.List.Induction

/-!
# Properties of `Mi32InterconnectMatrix` and `Mi32SlidingWindow` (C226 - C229)
-/

namespace Verif.Mi32Bus

open Verif

variable {P D : Type}

/-- the address is in the region -/
def InRegion (p : Nat × Nat) (a : Nat) : Prop := p.1 ≤ a ∧ a < p.1 + p.2

/-- accepted configuration -/
def Valid (c : Cfg) : Prop := (∃ ss, BusMap.normalizeSlaves ss = .ok c.slaves) ∧ ∀ p ∈ c.slaves, 2 ≤ p.2

theorem cs_iff {c : Cfg} (h : Valid c) (i a : Nat) (p : Nat × Nat) (hp : c.slaves[i]? = some p) : cs c i a = true ↔ InRegion p a := by
  obtain ⟨⟨ss, hss⟩, h2⟩ := h
  obtain ⟨-, h3, -⟩ := BusMap.slaves_normalized ss _ hss
  have hm := List.mem_of_getElem? hp
  obtain ⟨⟨e, he⟩, hal⟩ := h3 p hm
  have h2' := h2 p hm
  obtain ⟨off, size⟩ := p
  simp only at he hal h2'
  have he1 : 1 ≤ e := by
    rcases Nat.eq_zero_or_pos e with h0 | h0
    · subst h0; simp at he; omega
    · exact h0
  have hb : 2 ^ bits size = size := by rw [bits, he, AxiResize.log2ceil_pred he1]
  unfold cs InRegion
  rw [hp]
  simp only [beq_iff_eq, hb]
  have hpos : 0 < size := by omega
  obtain ⟨k, hk⟩ : size ∣ off := Nat.dvd_of_mod_eq_zero hal
  subst hk
  rw [Nat.mul_div_cancel_left _ hpos, Nat.div_eq_iff hpos]
  have hc : k * size = size * k := Nat.mul_comm ..
  rw [hc]
  omega

theorem saddr_eq {c : Cfg} (h : Valid c) (i a : Nat) (p : Nat × Nat) (hp : c.slaves[i]? = some p) (ha : InRegion p a) :
    a % 2 ^ bits p.2 = a - p.1 := by
  obtain ⟨⟨ss, hss⟩, h2⟩ := h
  obtain ⟨-, h3, -⟩ := BusMap.slaves_normalized ss _ hss
  have hm := List.mem_of_getElem? hp
  obtain ⟨⟨e, he⟩, hal⟩ := h3 p hm
  have h2' := h2 p hm
  obtain ⟨off, size⟩ := p
  simp only at he hal h2'
  have he1 : 1 ≤ e := by
    rcases Nat.eq_zero_or_pos e with h0 | h0
    · subst h0; simp at he; omega
    · exact h0
  have hb : 2 ^ bits size = size := by rw [bits, he, AxiResize.log2ceil_pred he1]
  simp only [hb]
  obtain ⟨h4, h5⟩ := ha
  simp only at h4 h5
  obtain ⟨k, hk⟩ : size ∣ off := Nat.dvd_of_mod_eq_zero hal
  subst hk
  have : a = (a - size * k) + size * k := by omega
  conv_lhs => rw [this]
  rw [Nat.add_mul_mod_self_left]
  exact Nat.mod_eq_of_lt (by omega)

theorem cs_excl {c : Cfg} (h : Valid c) {i j a : Nat} (hi : cs c i a = true) (hj : cs c j a = true) : i = j := by
  have h' := h
  obtain ⟨⟨ss, hss⟩, h2⟩ := h
  obtain ⟨-, -, h3, -⟩ := BusMap.slaves_normalized ss _ hss
  cases hp : c.slaves[i]? with
  | none => simp [cs, hp] at hi
  | some p =>
    cases hq : c.slaves[j]? with
    | none => simp [cs, hq] at hj
    | some r =>
      have h4 := (cs_iff h' i a p hp).1 hi
      have h5 := (cs_iff h' j a r hq).1 hj
      obtain ⟨hi1, hi2⟩ := List.getElem?_eq_some_iff.1 hp
      obtain ⟨hj1, hj2⟩ := List.getElem?_eq_some_iff.1 hq
      unfold InRegion at h4 h5
      rcases Nat.lt_trichotomy i j with hlt | he | hlt
      · have := List.pairwise_iff_getElem.1 h3 i j hi1 hj1 hlt
        rw [hi2, hj2] at this
        exact absurd ⟨a, h4.1, h4.2, h5.1, h5.2⟩ this
      · exact he
      · have := List.pairwise_iff_getElem.1 h3 j i hj1 hi1 hlt
        rw [hi2, hj2] at this
        exact absurd ⟨a, h5.1, h5.2, h4.1, h4.2⟩ this

theorem cs_lt {c : Cfg} {i a : Nat} (h : cs c i a = true) : i < n c := by
  unfold cs at h
  split at h
  · next h' => exact (List.getElem?_eq_some_iff.1 h').1
  · cases h

/-- C226: A request goes to the slave of its address only, with the address relative to the beginning of the slave and unchanged data,
it is accepted by the interconnect exactly when the slave accepts it, and it is accepted whenever the slave is ready and
there is a space in the fifo of the reads. -/
theorem routing (c : Cfg) (h : Valid c) (s : St D) (x : In P D) (i : Nat) (p : Nat × Nat) (hp : c.slaves[i]? = some p) :
    let o := out c s x
    (InRegion p x.addr → o.saddr i = x.addr - p.1 ∧ o.spay i = x.pay ∧
      ((o.srd i && x.ardy i) = (x.rd && o.ardy)) ∧ ((o.swr i && x.ardy i) = (x.wr && o.ardy))) ∧
    (¬InRegion p x.addr → o.srd i = false ∧ o.swr i = false) := by
  intro o
  have hcs := cs_iff h i x.addr p hp
  refine ⟨fun ha => ?_, fun ha => ?_⟩
  · have hc := hcs.2 ha
    have hack : addrAck c x = x.ardy i := by
      rw [Bool.eq_iff_iff]
      unfold addrAck en
      simp only [List.any_eq_true, List.mem_range, Bool.and_eq_true]
      constructor
      · rintro ⟨j, -, hj, hj2⟩
        rw [cs_excl h hc hj]; exact hj2
      · intro h1
        exact ⟨i, cs_lt hc, hc, h1⟩
    refine ⟨?_, rfl, ?_, ?_⟩
    · show (match c.slaves[i]? with | some (_, size) => x.addr % 2 ^ bits size | none => 0) = _
      rw [hp]
      exact saddr_eq h i x.addr p hp ha
    · simp only [o, out, hc, hack]
      cases x.rd <;> cases ordRd s <;> cases x.ardy i <;> rfl
    · simp only [o, out, hc, hack]
      cases x.rd <;> cases x.wr <;> cases ordRd s <;> cases x.ardy i <;> rfl
  · have hc : cs c i x.addr = false := by
      rw [Bool.eq_false_iff]; intro h1; exact ha (hcs.1 h1)
    simp [o, out, hc]

/-- C226: a request which is in no slave is never accepted -/
theorem unmapped (c : Cfg) (h : Valid c) (s : St D) (x : In P D) (ha : ∀ p ∈ c.slaves, ¬InRegion p x.addr) : (out c s x).ardy = false := by
  have : addrAck c x = false := by
    rw [Bool.eq_false_iff]
    intro h1
    unfold addrAck at h1
    simp only [List.any_eq_true, List.mem_range, en, Bool.and_eq_true] at h1
    obtain ⟨i, hi, hc, -⟩ := h1
    have hp : c.slaves[i]? = some c.slaves[i] := List.getElem?_eq_getElem hi
    exact ha _ (List.getElem_mem hi) ((cs_iff h i x.addr _ hp).1 hc)
  simp [out, this]

/-! ## Reads -/

abbrev Tr (P D : Type) := List (In P D × Out P D)

/-- slaves to which reads were issued, in order -/
def reads (c : Cfg) (tr : Tr P D) : List Nat := tr.flatMap fun e => (List.range (n c)).filter fun i => e.2.srd i && e.1.ardy i
/-- read data of the slave `i` -/
def sdata (i : Nat) (tr : Tr P D) : List D := tr.flatMap fun e => if e.1.drdy i then [e.1.drd i] else []
/-- read data on the master -/
def answers (tr : Tr P D) : List (Option D) := tr.flatMap fun e => if e.2.drdy then [e.2.drd] else []

/-- the k-th answer is the answer of the slave of the k-th read to this read -/
def Answered (c : Cfg) (tr : Tr P D) : Prop :=
  ∀ (k : Nat) (d : Option D), (answers tr)[k]? = some d →
    ∃ (i : Nat) (v : D), d = some v ∧ (reads c tr)[k]? = some i ∧ (sdata i tr)[((reads c tr).take k).count i]? = some v

/-- a slave does not answer more than it was asked for -/
def Honest (c : Cfg) (tr : Tr P D) : Prop := ∀ pre, pre <+: tr → ∀ i < n c, (sdata i pre).length ≤ (reads c pre).count i

/-- full statement -/
def ReadsAnswered (c : Cfg) : Prop :=
  ∀ (s : St Nat), IsInit c s → ∀ is : List (In Unit Nat), Honest c ((machine c).trace s is) → Answered c ((machine c).trace s is)

/-- slaves answer in the cycle after the read was accepted: `p` are the slaves read in the previous cycle -/
def Latency1 (c : Cfg) : List Nat → Tr P D → Prop
  | _, [] => True
  | p, e :: tr => (∀ i < n c, e.1.drdy i = p.contains i) ∧ Latency1 c ((List.range (n c)).filter fun i => e.2.srd i && e.1.ardy i) tr

/-- slaves read in the last cycle -/
def lastReads (c : Cfg) (tr : Tr P D) : List Nat :=
  match tr.getLast? with
  | none => []
  | some e => (List.range (n c)).filter fun i => e.2.srd i && e.1.ardy i

theorem latency1_snoc (c : Cfg) (tr : Tr P D) (e : In P D × Out P D) :
    ∀ p, Latency1 c p (tr ++ [e]) ↔ Latency1 c p tr ∧ ∀ i < n c, e.1.drdy i = (if tr = [] then p else lastReads c tr).contains i := by
  induction tr with
  | nil => intro p; simp [Latency1]
  | cons f tr ih =>
    intro p
    simp only [List.cons_append, Latency1, ih, and_assoc]
    cases tr with
    | nil => simp [lastReads]
    | cons g tr => simp [lastReads, List.getLast?_cons_cons]

/-- all answers of slaves, in the order of time -/
def given' (c : Cfg) (tr : Tr P D) : List (Nat × D) :=
  tr.flatMap fun e => (List.range (n c)).filterMap fun i => if e.1.drdy i then some (i, e.1.drd i) else none

theorem reads_snoc (c : Cfg) (tr : Tr P D) (e : In P D × Out P D) :
    reads c (tr ++ [e]) = reads c tr ++ (List.range (n c)).filter fun i => e.2.srd i && e.1.ardy i := by
  simp [reads]

theorem lastReads_snoc (c : Cfg) (tr : Tr P D) (e : In P D × Out P D) :
    lastReads c (tr ++ [e]) = (List.range (n c)).filter fun i => e.2.srd i && e.1.ardy i := by
  simp [lastReads]

theorem filter_range_one (m : Nat) (f : Nat → Bool) (h : ∀ i j, f i = true → f j = true → i = j) :
    (List.range m).filter f = ((List.range m).find? f).toList := by
  induction m with
  | zero => rfl
  | succ m ih =>
    rw [List.range_succ, List.filter_append, ih, List.find?_append]
    cases hf : (List.range m).find? f with
    | none => rcases Bool.eq_false_or_eq_true (f m) with hm | hm <;> simp [hm]
    | some j =>
      have hj := List.find?_some hf
      have hlt := List.mem_range.1 (List.mem_of_find?_eq_some hf)
      have : f m = false := by
        rw [Bool.eq_false_iff]; intro hm; have := h j m hj hm; omega
      simp [this]

/-- the read which is accepted -/
def acc (c : Cfg) (s : St D) (x : In P D) : Option Nat := if x.rd && ordRd s then (List.range (n c)).find? (en c x) else none

theorem filter_acc {c : Cfg} (h : Valid c) (s : St D) (x : In P D) :
    ((List.range (n c)).filter fun i => (out c s x).srd i && x.ardy i) = (acc c s x).toList := by
  rw [filter_range_one]
  · unfold acc
    simp only [out]
    cases x.rd <;> cases ordRd s <;> simp
    rfl
  · intro i j hi hj
    simp only [out, Bool.and_eq_true] at hi hj
    exact cs_excl h hi.1.1.2 hj.1.1.2

structure RInv (c : Cfg) (tr : Tr P D) (s : St D) : Prop where
  fifo : HsFifo.Inv c.depth s.order
  one : (lastReads c tr).length ≤ 1
  q : Fifo.queue (c.depth - 1) s.order.fifo = lastReads c tr
  lt : ∀ i ∈ lastReads c tr, i < n c
  reads : reads c tr = (given' c tr).map Prod.fst ++ lastReads c tr
  ans : ∃ p2 : Option (Nat × D), (given' c tr).map (fun p => some p.2) = answers tr ++ (p2.map fun p => some p.2).toList ∧
    s.order.outVld = p2.isSome ∧ (∀ p, p2 = some p → s.order.fifo.dout = p.1 ∧ p.1 < n c ∧ s.rv p.1 = true ∧ s.rdat p.1 = p.2) ∧
    (p2 = none → ∀ i < n c, s.rv i = false)

theorem fm_one (m : Nat) (f : Nat → Bool) (g : Nat → D) (o : Option Nat) (ho : ∀ i, o = some i → i < m)
    (hf : ∀ i < m, f i = o.toList.contains i) :
    ((List.range m).filterMap fun i => if f i then some (i, g i) else none) = (o.map fun i => (i, g i)).toList := by
  have : ∀ k ≤ m, ((List.range k).filterMap fun i => if f i then some (i, g i) else none) =
      (match o with | some i => if i < k then [(i, g i)] else [] | none => []) := by
    intro k hk
    induction k with
    | zero => cases o <;> rfl
    | succ k ih =>
      rw [List.range_succ, List.filterMap_append, ih (by omega)]
      simp only [List.filterMap_cons, List.filterMap_nil, hf k (by omega)]
      cases o with
      | none => simp
      | some i =>
        simp only [Option.toList_some, List.contains_cons, List.contains_nil, Bool.or_false]
        by_cases h1 : k = i
        · subst h1; simp
        · have h2 : (k == i) = false := by simpa using h1
          have h3 : (i < k + 1) = (i < k) := by apply propext; omega
          simp [h2, h3]
  rw [this m (Nat.le_refl _)]
  cases o with
  | none => rfl
  | some i => simp [ho i rfl]

theorem rinv_step {c : Cfg} (hc : Valid c) {tr : Tr P D} {s : St D} (x : In P D) (h : RInv c tr s)
    (hl : ∀ i < n c, x.drdy i = (lastReads c tr).contains i) : RInv c (tr ++ [(x, out c s x)]) (next c s x) := by
  obtain ⟨p, hp⟩ : ∃ p : Option Nat, lastReads c tr = p.toList := by
    cases hq : lastReads c tr with
    | nil => exact ⟨none, rfl⟩
    | cons a l =>
      have := h.one
      rw [hq] at this
      simp at this
      subst this
      exact ⟨some a, rfl⟩
  obtain ⟨p2, ha, hv, hd, hn⟩ := h.ans
  have hlast : lastReads c (tr ++ [(x, out c s x)]) = (acc c s x).toList := by rw [lastReads_snoc]; exact filter_acc hc s x
  have hplt : ∀ i, p = some i → i < n c := by
    intro i hi; exact h.lt i (by rw [hp, hi]; simp)
  rw [hp] at hl
  have hG : given' c (tr ++ [(x, out c s x)]) = given' c tr ++ (p.map fun i => (i, x.drd i)).toList := by
    simp only [given', List.flatMap_append, List.flatMap_cons, List.flatMap_nil, List.append_nil]
    congr 1
    exact fm_one (n c) x.drdy x.drd p hplt hl
  have hany : anyData c s = s.order.outVld := by
    rw [hv]
    cases p2 with
    | none =>
      simp only [Option.isSome_none]
      rw [Bool.eq_false_iff]
      intro h1
      unfold anyData at h1
      simp only [List.any_eq_true, List.mem_range] at h1
      obtain ⟨i, hi, h2⟩ := h1
      rw [hn rfl i hi] at h2; cases h2
    | some r =>
      obtain ⟨-, h2, h3, -⟩ := hd r rfl
      simp only [Option.isSome_some, anyData, List.any_eq_true, List.mem_range]
      exact ⟨_, h2, h3⟩
  -- the fifo
  have hpr := HsFifo.proto s.order (fifoIn c s x)
  have hq := Fifo.step_queue h.fifo hpr
  have hrw : Fifo.readWait s.order.fifo = p.isNone := by
    have h1 := Fifo.readWait_iff h.fifo
    have h2 : (Fifo.queue (c.depth - 1) s.order.fifo).length = Fifo.len (c.depth - 1) s.order.fifo := by simp [Fifo.queue]
    rw [h.q, hp] at h2
    rw [← h2] at h1
    rw [Bool.eq_iff_iff, h1]
    cases p <;> simp
  have hren : (HsFifo.fifoIn s.order (fifoIn c s x)).ren = p.isSome := by
    simp only [HsFifo.fifoIn, fifoIn, hany, hrw]
    cases s.order.outVld <;> cases p <;> rfl
  have hov : (next c s x).order.outVld = p.isSome := by
    simp only [next, HsFifo.next, fifoIn, hany, hrw]
    cases s.order.outVld <;> cases p <;> rfl
  have hwen : (if (HsFifo.fifoIn s.order (fifoIn c s x)).wen then [(HsFifo.fifoIn s.order (fifoIn c s x)).data] else []) =
      (acc c s x).toList := by
    simp only [HsFifo.fifoIn, fifoIn, acc, ordRd]
    cases hf : (List.range (n c)).find? (en c x) with
    | none =>
      have : addrAck c x = false := by
        unfold addrAck
        rw [Bool.eq_false_iff]
        intro h1
        rw [List.any_eq_true] at h1
        obtain ⟨i, hi, h2⟩ := h1
        exact List.find?_eq_none.1 hf i hi h2
      simp [this]
    | some i =>
      have : addrAck c x = true := by
        unfold addrAck
        exact List.any_eq_true.2 ⟨i, List.mem_of_find?_eq_some hf, List.find?_some hf⟩
      simp only [this, sel, hf]
      cases x.rd <;> rcases Bool.eq_false_or_eq_true (Fifo.writeWait s.order.fifo) with hw | hw <;> simp [hw]
  rw [hwen, hren, h.q, hp] at hq
  have hfn : (next c s x).order.fifo = Fifo.next (c.depth - 1) s.order.fifo (HsFifo.fifoIn s.order (fifoIn c s x)) := rfl
  have hacclt : ∀ i ∈ (acc c s x).toList, i < n c := by
    intro i hi
    rw [← filter_acc hc s x] at hi
    exact List.mem_range.1 (List.mem_filter.1 hi).1
  have hq' : Fifo.queue (c.depth - 1) (next c s x).order.fifo = (acc c s x).toList ∧
      ∀ i, p = some i → (next c s x).order.fifo.dout = i := by
    rw [← hfn] at hq
    cases p with
    | none => simp at hq; exact ⟨hq.symm, by simp⟩
    | some i =>
      simp at hq
      exact ⟨hq.2.symm, by rintro j hj; cases hj; exact hq.1.symm⟩
  refine ⟨Fifo.step_inv h.fifo hpr, ?_, ?_, ?_, ?_, ?_⟩
  · rw [hlast]; cases acc c s x <;> simp
  · rw [hlast]; exact hq'.1
  · rw [hlast]; exact hacclt
  · rw [reads_snoc, hlast, hG, h.reads, hp, List.map_append]
    have := filter_acc hc s x
    simp only [this]
    congr 1
    congr 1
    cases p <;> rfl
  · refine ⟨p.map fun i => (i, x.drd i), ?_, ?_, ?_, ?_⟩
    · rw [hG, List.map_append, ha]
      have : answers (tr ++ [(x, out c s x)]) = answers tr ++ (p2.map fun p => some p.2).toList := by
        simp only [answers, List.flatMap_append, List.flatMap_cons, List.flatMap_nil, List.append_nil]
        congr 1
        simp only [out, hv]
        cases p2 with
        | none => simp
        | some r =>
          obtain ⟨h1, h2, -, h4⟩ := hd r rfl
          simp [h1, h2, h4]
      rw [this]
      cases p <;> simp
    · rw [hov]; cases p <;> rfl
    · intro r hr
      cases p with
      | none => cases hr
      | some i =>
        simp only [Option.map_some, Option.some.injEq] at hr
        subst hr
        refine ⟨hq'.2 i rfl, hplt i rfl, ?_, rfl⟩
        show x.drdy i = true
        rw [hl i (hplt i rfl)]; simp
    · intro hr i hi
      cases p with
      | some _ => cases hr
      | none =>
        show x.drdy i = false
        rw [hl i hi]; rfl

theorem rinv_run {c : Cfg} (hc : Valid c) (hd : 2 ≤ c.depth) {s : St D} (hs : IsInit c s) (is : List (In P D))
    (hl : Latency1 c [] ((machine c).trace s is)) : RInv c ((machine c).trace s is) ((machine c).final s is) := by
  induction is using List.reverseRecOn with
  | nil =>
    obtain ⟨m, d, hm⟩ := hs.order
    have hq := HsFifo.init_queue (D := c.depth) [] (by simp; omega) m d
    have hov : s.order.outVld = false := by rw [hm]; simp [HsFifo.init]; omega
    refine ⟨?_, by simp [lastReads, Machine.trace_nil], ?_, by simp [lastReads, Machine.trace_nil],
      by simp [reads, given', lastReads, Machine.trace_nil], none, by simp [given', answers, Machine.trace_nil], ?_, by simp, ?_⟩
    · rw [Machine.final_nil, hm]; exact HsFifo.init_inv [] (by simp; omega) m d
    · rw [Machine.final_nil]
      rw [← hm] at hq
      unfold HsFifo.queue at hq
      rw [hov] at hq
      simpa [lastReads, Machine.trace_nil] using hq
    · rw [Machine.final_nil, hov]; rfl
    · intro _ i _; exact hs.rv i
  | append_singleton is x ih =>
    rw [Machine.trace_snoc] at *
    simp only [Machine.final_append, Machine.final_cons, Machine.final_nil]
    rw [latency1_snoc] at hl
    refine rinv_step hc x (ih hl.1) ?_
    intro i hi
    have := hl.2 i hi
    split at this
    · next h => rw [this, h]; rfl
    · exact this

theorem count_lemma : ∀ (l : List (Nat × D)) (k : Nat) (i : Nat) (d : D), l[k]? = some (i, d) →
    ((l.filter fun p => p.1 == i).map Prod.snd)[((l.map Prod.fst).take k).count i]? = some d
  | [], k, i, d, h => by simp at h
  | p :: l, 0, i, d, h => by
    simp at h
    subst h
    simp
  | p :: l, k + 1, i, d, h => by
    have ih := count_lemma l k i d (by simpa using h)
    simp only [List.map_cons, List.take_succ_cons, List.count_cons, List.filter_cons]
    by_cases hp : p.1 = i
    · simp only [hp, beq_self_eq_true, if_true, List.map_cons, List.getElem?_cons_succ]
      exact ih
    · have : (p.1 == i) = false := by simpa using hp
      simp only [this, Bool.false_eq_true, if_false, Nat.add_zero]
      exact ih

theorem sdata_given {c : Cfg} (tr : Tr P D) (i : Nat) (hi : i < n c) :
    sdata i tr = ((given' c tr).filter fun p => p.1 == i).map Prod.snd := by
  induction tr with
  | nil => rfl
  | cons e tr ih =>
    simp only [sdata, given', List.flatMap_cons, List.filter_append, List.map_append] at ih ⊢
    rw [ih]
    congr 1
    have : ∀ m, (((List.range m).filterMap fun j => if e.1.drdy j then some (j, e.1.drd j) else none).filter fun p => p.1 == i).map Prod.snd =
        if i < m ∧ e.1.drdy i = true then [e.1.drd i] else [] := by
      intro m
      induction m with
      | zero => simp
      | succ m ihm =>
        rw [List.range_succ, List.filterMap_append, List.filter_append, List.map_append, ihm]
        simp only [List.filterMap_cons, List.filterMap_nil]
        by_cases h1 : m = i
        · subst h1
          cases e.1.drdy m <;> simp
        · have h3 : (i < m + 1) ↔ (i < m) := by omega
          simp only [h3]
          cases e.1.drdy m <;> simp [h1]
    rw [this]
    simp [hi]

/-- C227: reads are answered by the right data in order if each slave answers in the next cycle -/
theorem reads_partial (c : Cfg) (hc : Valid c) (hd : 2 ≤ c.depth) (s : St D) (hs : IsInit c s) (is : List (In P D))
    (hl : Latency1 c [] ((machine c).trace s is)) :
    Answered c ((machine c).trace s is) ∧
    (reads c ((machine c).trace s is)).length ≤ (answers ((machine c).trace s is)).length + 2 := by
  have h := rinv_run hc hd hs is hl
  generalize (machine c).trace s is = tr at *
  obtain ⟨p2, ha, -, -, -⟩ := h.ans
  refine ⟨?_, ?_⟩
  · intro k d hk
    have hk' : ((given' c tr).map fun p => some p.2)[k]? = some d := by
      rw [ha, List.getElem?_append_left (List.getElem?_eq_some_iff.1 hk).1]; exact hk
    rw [List.getElem?_map] at hk'
    cases hg : (given' c tr)[k]? with
    | none => rw [hg] at hk'; cases hk'
    | some p =>
      rw [hg] at hk'
      simp at hk'
      have hklt := (List.getElem?_eq_some_iff.1 hg).1
      have hr : (reads c tr)[k]? = some p.1 := by
        rw [h.reads, List.getElem?_append_left (by simpa using hklt), List.getElem?_map, hg]; rfl
      have hlt : p.1 < n c := by
        have := List.mem_of_getElem? hg
        simp only [given', List.mem_flatMap, List.mem_filterMap, List.mem_range] at this
        obtain ⟨e, -, i, hi, h2⟩ := this
        split at h2
        · cases h2; exact hi
        · cases h2
      refine ⟨p.1, p.2, hk'.symm, hr, ?_⟩
      rw [sdata_given tr p.1 hlt, h.reads, List.take_append_of_le_length (by simp; omega)]
      exact count_lemma _ k p.1 p.2 hg
  · rw [h.reads]
    have := congrArg List.length ha
    simp only [List.length_map, List.length_append] at this
    simp only [List.length_map, List.length_append]
    have h1 := h.one
    have h2 : ((p2.map fun p => some p.2).toList : List (Option D)).length ≤ 1 := by cases p2 <;> simp
    omega

/-! ### examples and counterexamples -/

def cEx2 : Cfg := ⟨[(0, 16), (16, 16), (0x1000, 0x1000)], 4⟩

theorem cEx2_valid : Valid cEx2 := ⟨⟨[⟨some 0, 16⟩, ⟨none, 16⟩, ⟨some 0x1000, 0x1000⟩], by decide +kernel⟩, by decide⟩

def s0 : St Nat := ⟨HsFifo.init 4 [] (fun _ => 0) 0, fun _ => false, fun _ => 0⟩

theorem s0_init : IsInit cEx2 s0 := ⟨⟨_, _, rfl⟩, fun _ => rfl⟩

/-- read of the address, slaves ready, data of slaves in this cycle -/
def rdIn (rd : Bool) (a : Nat) (d : Nat → Option Nat) : In Unit Nat := ⟨rd, false, a, (), fun _ => true, fun i => (d i).isSome, fun i => (d i).getD 77⟩

def isOk : List (In Unit Nat) :=
  [rdIn true 4 (fun _ => none), rdIn true 0x1004 (fun i => if i = 0 then some 5 else none), rdIn true 20 (fun i => if i = 2 then some 6 else none),
   rdIn false 20 (fun i => if i = 1 then some 7 else none), rdIn true 0x2000 (fun _ => none), rdIn false 0 (fun _ => none)]

example : InRegion (0x1000, 0x1000) 0x1004 ∧ (out cEx2 s0 (rdIn true 0x1004 fun _ => none)).saddr 2 = 4 ∧
    (out cEx2 s0 (rdIn true 0x1004 fun _ => none)).srd 2 = true ∧ (out cEx2 s0 (rdIn true 0x1004 fun _ => none)).ardy = true := by
  unfold InRegion; decide +kernel

example : (∀ p ∈ cEx2.slaves, ¬InRegion p 0x2000) := by unfold InRegion; decide

theorem isOk_latency : Latency1 cEx2 [] ((machine cEx2).trace s0 isOk) := by
  simp only [isOk, Machine.trace_cons, Machine.trace_nil, Latency1]
  decide +kernel

example : reads cEx2 ((machine cEx2).trace s0 isOk) = [0, 2, 1] ∧ answers ((machine cEx2).trace s0 isOk) = [some 5, some 6, some 7] := by
  decide +kernel

/-- the slave answers after 2 cycles -/
def isLate : List (In Unit Nat) :=
  [rdIn true 4 (fun _ => none), rdIn false 0 (fun _ => none), rdIn false 0 (fun i => if i = 0 then some 5 else none), rdIn false 0 (fun _ => none)]

theorem prefix_take {α : Type} {a b : List α} (h : a <+: b) : ∃ k < b.length + 1, a = b.take k :=
  ⟨a.length, by have := h.length_le; omega, (List.prefix_iff_eq_take.1 h)⟩

/-- C227: the answer is marked as valid even if the data of the slave was not received yet -/
theorem reads_fails : Valid cEx2 ∧ ¬ReadsAnswered cEx2 := by
  refine ⟨cEx2_valid, fun h => ?_⟩
  have h1 := h s0 s0_init isLate (by
    intro pre hp
    obtain ⟨k, hk, rfl⟩ := prefix_take hp
    clear hp
    revert k
    decide +kernel)
  obtain ⟨i, v, hv, hr, hd⟩ := h1 0 (some 77) (by decide +kernel)
  have e1 : reads cEx2 ((machine cEx2).trace s0 isLate) = [0] := by decide +kernel
  have e2 : sdata 0 ((machine cEx2).trace s0 isLate) = [5] := by decide +kernel
  rw [e1] at hr hd
  simp at hr hv
  subst hr hv
  rw [e2] at hd
  simp at hd

/-- the slave answers in the cycle of the request -/
def isEarly : List (In Unit Nat) :=
  [rdIn true 4 (fun i => if i = 0 then some 5 else none), rdIn false 0 (fun _ => none), rdIn false 0 (fun _ => none), rdIn false 0 (fun _ => none)]

/-- C227: if a slave answers in the same cycle its data are lost, and the answer to the master is repeated -/
theorem early_fails : Honest cEx2 ((machine cEx2).trace s0 isEarly) ∧ reads cEx2 ((machine cEx2).trace s0 isEarly) = [0] ∧
    sdata 0 ((machine cEx2).trace s0 isEarly) = [5] ∧ answers ((machine cEx2).trace s0 isEarly) = [some 77, some 77] := by
  refine ⟨?_, by decide +kernel, by decide +kernel, by decide +kernel⟩
  intro pre hp
  obtain ⟨k, hk, rfl⟩ := prefix_take hp
  clear hp
  revert k
  decide +kernel

/-! ## `Mi32SlidingWindow` -/

namespace Window

/-- accepted request -/
structure Req where
  wr : Bool
  addr : Nat
  dwr : Nat
  be : Nat
deriving DecidableEq

def sReqs (tr : List (In D × Out D)) : List Req :=
  tr.flatMap fun e => if (e.1.rd || e.1.wr) && e.2.ardy then [⟨e.1.wr, e.1.addr, e.1.dwr, e.1.be⟩] else []
def mReqs (tr : List (In D × Out D)) : List Req :=
  tr.flatMap fun e => if (e.2.rd || e.2.wr) && e.1.ardy then [⟨e.2.wr, e.2.addr, e.2.dwr, e.2.be⟩] else []

/-- a write to the address of the offset register -/
def isOffset (W : Nat) (r : Req) : Bool := r.wr && r.addr == W

/-- offset after requests: the last written value -/
def offsetAfter (W : Nat) (rs : List Req) : Nat := (((rs.filter (isOffset W)).getLast?).map (·.dwr)).getD 0

/-- requests through the window: each one is relative to the last offset written before it -/
def Translated (c : Cfg) (sr mr : List Req) : Prop :=
  mr = (List.range sr.length).flatMap fun k => match sr[k]? with
    | some r => if isOffset c.W r then [] else [{ r with addr := (offsetAfter c.W (sr.take k) + r.addr) % 2 ^ c.MA }]
    | none => []

/-- read data of both sides -/
def sData (tr : List (In D × Out D)) : List D := tr.flatMap fun e => if e.2.drdy then [e.2.drd] else []
def mData (tr : List (In D × Out D)) : List D := tr.flatMap fun e => if e.1.drdy then [e.1.drd] else []

theorem translated_snoc {c : Cfg} {sr mr : List Req} (h : Translated c sr mr) (r : Req) :
    Translated c (sr ++ [r]) (mr ++ if isOffset c.W r then [] else [{ r with addr := (offsetAfter c.W sr + r.addr) % 2 ^ c.MA }]) := by
  unfold Translated at *
  rw [List.length_append, List.length_singleton, List.range_succ, List.flatMap_append, h]
  congr 1
  · rw [List.flatMap_def, List.flatMap_def]
    congr 1
    apply List.map_congr_left
    intro k hk
    rw [List.mem_range] at hk
    rw [List.getElem?_append_left hk, List.take_append_of_le_length (by omega)]
  · simp

theorem offsetAfter_snoc (W : Nat) (sr : List Req) (r : Req) :
    offsetAfter W (sr ++ [r]) = if isOffset W r then r.dwr else offsetAfter W sr := by
  unfold offsetAfter
  rw [List.filter_append]
  cases h : isOffset W r <;> simp [h]

theorem sReqs_snoc (tr : List (In D × Out D)) (e : In D × Out D) :
    sReqs (tr ++ [e]) = sReqs tr ++ if (e.1.rd || e.1.wr) && e.2.ardy then [⟨e.1.wr, e.1.addr, e.1.dwr, e.1.be⟩] else [] := by simp [sReqs]
theorem mReqs_snoc (tr : List (In D × Out D)) (e : In D × Out D) :
    mReqs (tr ++ [e]) = mReqs tr ++ if (e.2.rd || e.2.wr) && e.1.ardy then [⟨e.2.wr, e.2.addr, e.2.dwr, e.2.be⟩] else [] := by simp [mReqs]

theorem step_req (c : Cfg) (off : Nat) (x : In D) (hx : ¬(x.rd = true ∧ x.wr = true)) :
    ((if (x.rd || x.wr) && (out c off x).ardy then [(⟨x.wr, x.addr, x.dwr, x.be⟩ : Req)] else []) = [] ∧
      (if ((out c off x).rd || (out c off x).wr) && x.ardy then [(⟨(out c off x).wr, (out c off x).addr, (out c off x).dwr, (out c off x).be⟩ : Req)] else []) = [] ∧
      next c off x = off) ∨
    ∃ r, (if (x.rd || x.wr) && (out c off x).ardy then [(⟨x.wr, x.addr, x.dwr, x.be⟩ : Req)] else []) = [r] ∧
      (if ((out c off x).rd || (out c off x).wr) && x.ardy then [(⟨(out c off x).wr, (out c off x).addr, (out c off x).dwr, (out c off x).be⟩ : Req)] else []) =
        (if isOffset c.W r then [] else [{ r with addr := (off + r.addr) % 2 ^ c.MA }]) ∧
      next c off x = if isOffset c.W r then r.dwr % 2 ^ c.MA else off := by
  obtain ⟨addr, rd, wr, dwr, be, ardy, drdy, drd⟩ := x
  simp only [out, next, offsetEn, isOffset] at *
  by_cases ha : addr = c.W
  · subst ha
    cases rd <;> cases wr <;> cases ardy <;> simp at hx ⊢
  · have : (addr == c.W) = false := by simpa using ha
    cases rd <;> cases wr <;> cases ardy <;> simp [ha] at hx ⊢

/-- C228: requests accepted from `s` go to `m` in order, each one with the address relative to the offset written last before it,
writes of the offset do not go there. The offset write is accepted immediately. Read data are passed. -/
theorem window (c : Cfg) (is : List (In D)) (hp : ∀ x ∈ is, ¬(x.rd = true ∧ x.wr = true)) :
    Translated c (sReqs ((machine c).trace 0 is)) (mReqs ((machine c).trace 0 is)) ∧
    sData ((machine c).trace 0 is) = mData ((machine c).trace 0 is) ∧
    ∀ e ∈ (machine c).trace 0 is, e.1.wr = true → e.1.addr = c.W → e.2.ardy = true ∧ e.2.wr = false := by
  have key : Translated c (sReqs ((machine c).trace 0 is)) (mReqs ((machine c).trace 0 is)) ∧
      (machine c).final 0 is = offsetAfter c.W (sReqs ((machine c).trace 0 is)) % 2 ^ c.MA ∧
      sData ((machine c).trace 0 is) = mData ((machine c).trace 0 is) ∧
      ∀ e ∈ (machine c).trace 0 is, e.1.wr = true → e.1.addr = c.W → e.2.ardy = true ∧ e.2.wr = false := by
    induction is using List.reverseRecOn with
    | nil => exact ⟨rfl, (Nat.zero_mod _).symm, rfl, by simp [Machine.trace_nil]⟩
    | append_singleton is x ih =>
      obtain ⟨h1, h2, h3, h4⟩ := ih (fun y hy => hp y (by simp [hy]))
      have hx := hp x (by simp)
      rw [Machine.trace_snoc]
      simp only [Machine.final_append, Machine.final_cons, Machine.final_nil, show (machine c).outAfter 0 is x = out c ((machine c).final 0 is) x from rfl]
      generalize (machine c).final 0 is = off at *
      generalize (machine c).trace 0 is = tr at *
      subst h2
      have hstep := step_req c (offsetAfter c.W (sReqs tr) % 2 ^ c.MA) x hx
      rw [sReqs_snoc, mReqs_snoc]
      refine ⟨?_, ?_, ?_, ?_⟩
      · rcases hstep with ⟨e1, e2, -⟩ | ⟨r, e1, e2, -⟩
        · simp only [e1, e2, List.append_nil]; exact h1
        · simp only [e1, e2]
          have := translated_snoc h1 r
          rw [Nat.mod_add_mod]
          exact this
      · rcases hstep with ⟨e1, -, e3⟩ | ⟨r, e1, -, e3⟩
        · simp only [machine, e1, List.append_nil]; exact e3
        · simp only [machine, e1, offsetAfter_snoc]
          rw [e3]
          split <;> rfl
      · simp only [sData, mData, List.flatMap_append] at h3 ⊢
        rw [h3]; rfl
      · intro e he hw ha
        rw [List.mem_append] at he
        rcases he with he | he
        · exact h4 e he hw ha
        · simp at he
          subst he
          simp only at hw ha
          simp [out, offsetEn, hw, ha]
  exact ⟨key.1, key.2.2⟩

def cW : Cfg := ⟨16, 12, 8⟩

example : let is : List (In Nat) := [⟨16, false, true, 0x40, 15, false, false, 0⟩, ⟨4, false, true, 7, 15, false, false, 0⟩,
      ⟨4, false, true, 7, 15, true, false, 0⟩, ⟨8, true, false, 0, 15, true, true, 3⟩]
    (∀ x ∈ is, ¬(x.rd = true ∧ x.wr = true)) ∧
    mReqs ((machine cW).trace 0 is) = [⟨true, 0x44, 7, 15⟩, ⟨false, 0x48, 0, 15⟩] := by decide +kernel

/-- the address of `m` can be accessed through the window, writable values have `DATA_WIDTH` bits -/
def Reachable (c : Cfg) (A : Nat) : Prop :=
  ∃ is : List (In Unit), (∀ x ∈ is, x.dwr < 2 ^ c.DATA_WIDTH) ∧
    ∃ e ∈ (machine c).trace 0 is, e.1.addr < c.W ∧ e.1.rd = true ∧ e.2.rd = true ∧ e.2.addr = A

/-- full statement: "allows to address bigger address space than available on input interface", all of it -/
def AllReachable (c : Cfg) : Prop := ∀ A < 2 ^ c.MA, Reachable c A

theorem addr_le (c : Cfg) (is : List (In Unit)) (h : ∀ x ∈ is, x.dwr < 2 ^ c.DATA_WIDTH) :
    (machine c).final 0 is < 2 ^ c.DATA_WIDTH ∧ ∀ e ∈ (machine c).trace 0 is, e.2.addr < 2 ^ c.DATA_WIDTH + e.1.addr := by
  induction is using List.reverseRecOn with
  | nil => exact ⟨Nat.two_pow_pos _, by simp [Machine.trace_nil]⟩
  | append_singleton is x ih =>
    obtain ⟨h1, h2⟩ := ih (fun y hy => h y (by simp [hy]))
    have hx := h x (by simp)
    rw [Machine.trace_snoc]
    simp only [Machine.final_append, Machine.final_cons, Machine.final_nil, show (machine c).outAfter 0 is x = out c ((machine c).final 0 is) x from rfl]
    generalize (machine c).final 0 is = off at *
    refine ⟨?_, ?_⟩
    · simp only [machine, next]
      split
      · exact Nat.lt_of_le_of_lt (Nat.mod_le _ _) hx
      · exact h1
    · intro e he
      rw [List.mem_append] at he
      rcases he with he | he
      · exact h2 e he
      · simp at he
        subst he
        simp only [out]
        have := Nat.mod_le (off + x.addr) (2 ^ c.MA)
        omega

/-- C229: which configurations allow to access whole address space of `m` -/
theorem reach_iff (c : Cfg) (hW : 0 < c.W) : AllReachable c ↔ 2 ^ c.MA ≤ 2 ^ c.DATA_WIDTH + c.W - 1 := by
  constructor
  · intro h
    by_contra hlt
    obtain ⟨is, hd, e, he, h1, -, -, h2⟩ := h (2 ^ c.DATA_WIDTH + c.W - 1) (by omega)
    have := (addr_le c is hd).2 e he
    omega
  · intro h A hA
    -- the offset is A, or the biggest offset and the rest by the address in the window
    by_cases hlt : A < 2 ^ c.DATA_WIDTH
    · refine ⟨[⟨c.W, false, true, A, 0, true, false, ()⟩, ⟨0, true, false, 0, 0, true, false, ()⟩], ?_, ?_⟩
      · intro x hx
        simp at hx
        rcases hx with rfl | rfl
        · exact hlt
        · exact Nat.two_pow_pos _
      · refine ⟨(⟨0, true, false, 0, 0, true, false, ()⟩, out c (A % 2 ^ c.MA) ⟨0, true, false, 0, 0, true, false, ()⟩), ?_, hW, rfl, rfl, ?_⟩
        · simp [Machine.trace_cons, Machine.trace_nil, machine, next, offsetEn]
        · simp [out, Nat.mod_eq_of_lt hA]
    · refine ⟨[⟨c.W, false, true, 2 ^ c.DATA_WIDTH - 1, 0, true, false, ()⟩, ⟨A - (2 ^ c.DATA_WIDTH - 1), true, false, 0, 0, true, false, ()⟩], ?_, ?_⟩
      · have := Nat.two_pow_pos c.DATA_WIDTH
        intro x hx
        simp at hx
        rcases hx with rfl | rfl
        · show 2 ^ c.DATA_WIDTH - 1 < _; omega
        · exact this
      · refine ⟨(⟨A - (2 ^ c.DATA_WIDTH - 1), true, false, 0, 0, true, false, ()⟩,
          out c ((2 ^ c.DATA_WIDTH - 1) % 2 ^ c.MA) ⟨A - (2 ^ c.DATA_WIDTH - 1), true, false, 0, 0, true, false, ()⟩), ?_, ?_, rfl, rfl, ?_⟩
        · simp [Machine.trace_cons, Machine.trace_nil, machine, next, offsetEn]
        · show A - (2 ^ c.DATA_WIDTH - 1) < c.W; omega
        · show ((2 ^ c.DATA_WIDTH - 1) % 2 ^ c.MA + (A - (2 ^ c.DATA_WIDTH - 1))) % 2 ^ c.MA = A
          rw [Nat.mod_add_mod]
          have : 2 ^ c.DATA_WIDTH - 1 + (A - (2 ^ c.DATA_WIDTH - 1)) = A := by omega
          rw [this, Nat.mod_eq_of_lt hA]

/-- C229: in the default configuration (`ADDR_WIDTH = DATA_WIDTH = 32`, `M_ADDR_WIDTH = 33`, `WINDOW_SIZE = 4096`) not all addresses are reachable -/
theorem reach_fails : ¬AllReachable ⟨4096, 33, 32⟩ := by
  rw [reach_iff _ (by decide)]; decide

/-- C229: with the offset register at least as wide as the address all addresses are reachable -/
theorem reach_partial (c : Cfg) (hW : 0 < c.W) (h : c.MA ≤ c.DATA_WIDTH) : AllReachable c := by
  rw [reach_iff c hW]
  have := Nat.pow_le_pow_right (show 0 < 2 by omega) h
  omega

example : AllReachable ⟨4096, 32, 32⟩ := reach_partial _ (by decide) (by decide)

end Window

end Verif.Mi32Bus
