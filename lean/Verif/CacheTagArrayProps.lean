import Verif.CacheTagArray
import Mathlib.Data.List.Induction

/-!
# Properties of `AxiCacheTagArray` (C217 - C219)
-/

namespace Verif.CacheTagArray

open Verif

/-- the records after all updates of the cycles `is` (an update sets all ways which are enabled) -/
def content (c : Cfg) (m : Mem) (is : List In) : Mem :=
  is.foldl (fun m x => fun i w =>
    if x.upd.vld = true ∧ i = idxOf c x.upd.addr ∧ x.upd.wayEn w = true then ⟨tagOf c x.upd.addr, !x.upd.delete⟩ else m i w) m

/-- way `w` has the line with address `a` -/
def Holds (c : Cfg) (m : Mem) (a w : Nat) : Prop := m (idxOf c a) w = ⟨tagOf c a, true⟩

structure Inv (c : Cfg) (m : Mem) (s : St) : Prop where
  mem : s.mem = m
  upd : s.upd.vld = true → ∀ w, s.upd.wayEn w = true → m (idxOf c s.upd.addr) w = ⟨tagOf c s.upd.addr, !s.upd.delete⟩
  dout : s.lkVld = true → ∀ w, ¬(s.upd.vld = true ∧ idxOf c s.lkAddr = idxOf c s.upd.addr ∧ s.upd.wayEn w = true) →
    s.dout w = m (idxOf c s.lkAddr) w

theorem content_snoc (c : Cfg) (m : Mem) (is : List In) (x : In) : content c m (is ++ [x]) = write c x.upd (content c m is) := by
  simp only [content, List.foldl_append, List.foldl_cons, List.foldl_nil]
  funext i w
  simp only [write, Bool.and_eq_true, beq_iff_eq, and_assoc]

theorem inv_step {c : Cfg} {m : Mem} {t : St} (hi : Inv c m t) (x : In) : Inv c (write c x.upd m) (next c t x) := by
  obtain ⟨h1, h2, h3⟩ := hi
  refine ⟨by show write c x.upd t.mem = _; rw [h1], ?_, ?_⟩
  · intro hv w hw
    have hv' : x.upd.vld = true := hv
    have hw' : x.upd.wayEn w = true := hw
    show write c x.upd m (idxOf c x.upd.addr) w = _
    simp only [write, hv', hw', beq_self_eq_true, Bool.and_self, if_true]
    rfl
  · intro hv w hn
    have hv' : (x.vld || (t.lkVld && !x.rd)) = true := hv
    have ha : idxOf c (next c t x).lkAddr = rdIdx c t x := by
      show idxOf c (if lkRd t x then x.addr else t.lkAddr) = _
      unfold rdIdx lkRd
      cases t.lkVld <;> cases x.rd <;> rfl
    rw [ha] at hn ⊢
    have hn' : ¬(x.upd.vld = true ∧ rdIdx c t x = idxOf c x.upd.addr ∧ x.upd.wayEn w = true) := hn
    show (if x.vld || (t.lkVld && !x.rd) then
      if x.upd.vld && rdIdx c t x == idxOf c x.upd.addr && x.upd.wayEn w then x.junk w else t.mem (rdIdx c t x) w else t.dout w) = _
    have hf : (x.upd.vld && rdIdx c t x == idxOf c x.upd.addr && x.upd.wayEn w) = false := by
      rw [Bool.eq_false_iff]
      intro h
      simp only [Bool.and_eq_true, beq_iff_eq, and_assoc] at h
      exact hn' h
    rw [hv', if_pos rfl, hf, h1]
    simp [write, hf]

theorem inv_run (c : Cfg) (s : St) (hs : IsInit s) (is : List In) : Inv c (content c s.mem is) ((machine c).final s is) := by
  induction is using List.reverseRecOn with
  | nil =>
    refine ⟨rfl, ?_, ?_⟩
    · intro h; rw [Machine.final_nil, hs.upd] at h; cases h
    · intro h; rw [Machine.final_nil, hs.lk] at h; cases h
  | append_singleton is x ih =>
    rw [Machine.final_append, content_snoc]
    simp only [Machine.final_cons, Machine.final_nil]
    generalize (machine c).final s is = t at *
    generalize content c s.mem is = m at *
    exact inv_step ih x

theorem found_iff {c : Cfg} {m : Mem} {s : St} (hi : Inv c m s) (hv : s.lkVld = true) (w : Nat) :
    found c s w = true ↔ Holds c m s.lkAddr w := by
  unfold Holds
  by_cases hc : s.upd.vld = true ∧ idxOf c s.lkAddr = idxOf c s.upd.addr ∧ s.upd.wayEn w = true
  · have hu := hi.upd hc.1 w hc.2.2
    rw [← hc.2.1] at hu
    rw [hu]
    simp only [found, justUpdated, hc.1, hc.2.1, hc.2.2]
    cases s.upd.delete <;> simp
    exact eq_comm
  · have hd := hi.dout hv w hc
    have hj : (justUpdated c s && s.upd.wayEn w) = false := by
      rw [Bool.eq_false_iff]
      intro h
      simp only [justUpdated, Bool.and_eq_true, beq_iff_eq, and_assoc] at h
      exact hc h
    rw [← hd]
    have hj2 : (!justUpdated c s || (s.upd.vld && !s.upd.wayEn w)) = true := by
      cases h1 : justUpdated c s with
      | false => rfl
      | true =>
        rw [h1] at hj
        simp only [Bool.true_and] at hj
        simp only [justUpdated, Bool.and_eq_true] at h1
        simp [hj, h1.1]
    unfold found
    rw [hj2, hj]
    cases h : s.dout w with
    | mk t v => cases v <;> simp

/-- C217: the result of a lookup says whether a way has the line after all updates before the current cycle, and which way it is -/
theorem lookup_correct (c : Cfg) (s : St) (hs : IsInit s) (is : List In) (x : In) :
    let o := (machine c).outAfter s is x
    o.vld = true →
      (o.found = true ↔ ∃ w < c.WAY_CNT, Holds c (content c s.mem is) o.addr w) ∧
      (o.found = true → o.way < c.WAY_CNT ∧ Holds c (content c s.mem is) o.addr o.way ∧
        ∀ w < o.way, ¬Holds c (content c s.mem is) o.addr w) := by
  intro o hv
  have hi := inv_run c s hs is
  have ho : o = out c ((machine c).final s is) x := rfl
  generalize (machine c).final s is = t at *
  generalize content c s.mem is = m at *
  rw [ho] at hv ⊢
  have hf := found_iff hi hv
  have h1 : (out c t x).found = true ↔ ∃ w < c.WAY_CNT, Holds c m t.lkAddr w := by
    show (List.range c.WAY_CNT).any (found c t) = true ↔ _
    rw [List.any_eq_true]
    constructor
    · rintro ⟨w, hw, h⟩
      exact ⟨w, List.mem_range.1 hw, (hf w).1 h⟩
    · rintro ⟨w, hw, h⟩
      exact ⟨w, List.mem_range.2 hw, (hf w).2 h⟩
  refine ⟨h1, fun h => ?_⟩
  obtain ⟨w₀, hw₀, hh₀⟩ := h1.1 h
  show firstSet c.WAY_CNT (found c t) < _ ∧ Holds c m t.lkAddr (firstSet c.WAY_CNT (found c t)) ∧
    ∀ w < firstSet c.WAY_CNT (found c t), ¬Holds c m t.lkAddr w
  unfold firstSet
  cases he : (List.range c.WAY_CNT).find? (found c t) with
  | none =>
    have := List.find?_eq_none.1 he w₀ (List.mem_range.2 hw₀)
    exact absurd ((hf w₀).2 hh₀) this
  | some w =>
    obtain ⟨hp, i, hi1, hi2, hi3⟩ := List.find?_eq_some_iff_getElem.1 he
    simp only [List.length_range, List.getElem_range] at hi1 hi2 hi3
    subst hi2
    refine ⟨hi1, (hf i).1 hp, fun v hv' hh => ?_⟩
    have := hi3 v hv'
    rw [(hf v).2 hh] at this
    cases this

/-- accepted lookups and taken results -/
def lookups (tr : List (In × Out)) : List (Nat × Nat) := tr.filterMap fun p => if p.1.vld && p.2.rd then some (p.1.id, p.1.addr) else none
def results (tr : List (In × Out)) : List (Nat × Nat) := tr.filterMap fun p => if p.2.vld && p.1.rd then some (p.2.id, p.2.addr) else none

/-- C218: each lookup gets one result, in order -/
theorem lookups_answered (c : Cfg) (s : St) (hs : IsInit s) (is : List In) :
    ∃ pend : List (Nat × Nat), pend.length ≤ 1 ∧ lookups ((machine c).trace s is) = results ((machine c).trace s is) ++ pend := by
  have h := Machine.conserve (machine c) (fun _ => True) (fun _ => True) (fun s => if s.lkVld then [(s.lkId, s.lkAddr)] else [])
    (fun p => if p.1.vld && p.2.rd then some (p.1.id, p.1.addr) else none)
    (fun p => if p.2.vld && p.1.rd then some (p.2.id, p.2.addr) else none)
    (by
      intro s x _ _
      refine ⟨trivial, ?_⟩
      simp only [machine, out, next, lkRd]
      obtain ⟨mem, upd, lkVld, lkAddr, lkId, dout⟩ := s
      obtain ⟨u, vld, addr, id, rd, junk⟩ := x
      cases lkVld <;> cases rd <;> cases vld <;> simp)
    is s trivial (fun _ _ => trivial)
  refine ⟨if ((machine c).final s is).lkVld then [(((machine c).final s is).lkId, ((machine c).final s is).lkAddr)] else [], ?_, ?_⟩
  · split <;> simp
  · have h2 := h.2
    rw [hs.lk] at h2
    exact h2

/-- C218: a result waits with unchanged address and `id`, a lookup is accepted if there is no result or it is taken, and the result
is there in the next cycle -/
theorem lookup_latency (c : Cfg) (s : St) (is : List In) (x y : In) :
    let o := (machine c).outAfter s is x
    let o' := (machine c).outAfter s (is ++ [x]) y
    (o.vld = true → x.rd = false → o'.vld = true ∧ o'.addr = o.addr ∧ o'.id = o.id) ∧
    (o.vld = false ∨ x.rd = true → o.rd = true) ∧
    (x.vld = true → o.rd = true → o'.vld = true ∧ o'.addr = x.addr ∧ o'.id = x.id) := by
  unfold Machine.outAfter
  simp only [Machine.final_append, Machine.final_cons, Machine.final_nil]
  generalize (machine c).final s is = t
  simp only [machine, out, next, lkRd]
  obtain ⟨mem, upd, lkVld, lkAddr, lkId, dout⟩ := t
  obtain ⟨u, vld, addr, id, rd, junk⟩ := x
  cases lkVld <;> cases rd <;> cases vld <;> simp

/-- full statement: `tags` of the result are the records of the set -/
def TagsExact (c : Cfg) : Prop :=
  ∀ (s : St), IsInit s → ∀ is x, ((machine c).outAfter s is x).vld = true →
    ∀ w < c.WAY_CNT, ((machine c).outAfter s is x).tags w = content c s.mem is (idxOf c ((machine c).outAfter s is x).addr) w

/-- C219: `tags` are the records of the set if it was not updated in the previous cycle -/
theorem tags_partial (c : Cfg) (s : St) (hs : IsInit s) (is : List In) (x y : In)
    (hu : ¬(x.upd.vld = true ∧ idxOf c ((machine c).outAfter s (is ++ [x]) y).addr = idxOf c x.upd.addr))
    (hv : ((machine c).outAfter s (is ++ [x]) y).vld = true) (w : Nat) :
    ((machine c).outAfter s (is ++ [x]) y).tags w = content c s.mem (is ++ [x]) (idxOf c ((machine c).outAfter s (is ++ [x]) y).addr) w := by
  have hi := inv_run c s hs (is ++ [x])
  refine hi.dout hv w ?_
  rintro ⟨h1, h2, -⟩
  rw [Machine.final_append] at h1 h2
  refine hu ⟨h1, ?_⟩
  unfold Machine.outAfter
  rw [Machine.final_append]
  exact h2

/-! ## Example: two ways, two sets -/

def exCfg : Cfg := { WAY_CNT := 2, INDEX_W := 1, OFFSET_W := 1 }
def noUpd : Upd := ⟨false, 0, false, fun _ => false⟩
def exSt : St := ⟨fun _ _ => ⟨0, false⟩, noUpd, false, 0, 0, fun _ => ⟨0, false⟩⟩
/-- the line 22 (tag 5, set 1) is stored to way 1 in the cycle in which it is looked up, the memory returns the old records -/
def exIn : List In := [⟨⟨true, 22, false, fun w => w == 1⟩, true, 22, 7, true, fun _ => ⟨0, false⟩⟩]
def exNop : In := ⟨noUpd, false, 0, 0, false, fun _ => ⟨0, false⟩⟩

example : IsInit exSt := ⟨rfl, rfl⟩
example : ((machine exCfg).outAfter exSt exIn exNop).vld = true ∧ ((machine exCfg).outAfter exSt exIn exNop).found = true ∧
    ((machine exCfg).outAfter exSt exIn exNop).way = 1 ∧ ((machine exCfg).outAfter exSt exIn exNop).id = 7 := by decide
example : Holds exCfg (content exCfg exSt.mem exIn) 22 1 := by unfold Holds; decide

/-- C219: `tags` do not have the record which was just stored, although `found` has it -/
theorem tags_fails : ¬TagsExact exCfg := by
  intro h
  have := h exSt ⟨rfl, rfl⟩ exIn exNop rfl 1 (by decide)
  revert this
  decide

example : ((machine exCfg).outAfter exSt (exIn ++ [exNop]) exNop).vld = true ∧
    ((machine exCfg).outAfter exSt (exIn ++ [exNop]) exNop).tags 1 = ⟨5, true⟩ := by decide

end Verif.CacheTagArray
