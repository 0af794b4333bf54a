import Verif.Mmu
/-! Properties C153-C155 of `MMU_2pageLvl`. -/
namespace Verif.Mmu

/-- request made for a virtual address -/
abbrev req (c : Cfg) (v : Nat) : Nat × Nat := (entry1 c v, v / 2 ^ c.off % 2 ^ c.lvl2)

/-- While there is no segfault the queues hold the addresses which are on the way: `l2` in the getter, `l1` before it. -/
structure Flow (c : Cfg) (tr : List (In × Out)) (s : St) (d l2 l1 : List Nat) : Prop where
  acc : accepted tr = d ++ l2 ++ l1
  del : delivered tr = d.map (translate c)
  map : ∀ v ∈ d, Mapped c v
  ok : ∀ v ∈ d ++ l2, entry1 c v % 2 = 0
  ask : asked tr = (d ++ l2).map (req c)
  q2 : s.q2 = l2.map (req c)
  q1 : s.q1 = l1.map (entry1 c)
  qi : s.qi = l1.map (idx2 c)
  qo : s.qo = (l2 ++ l1).map (offset c)

structure Inv (c : Cfg) (tr : List (In × Out)) (s : St) : Prop where
  flow : s.seg = false → ∃ d l2 l1, Flow c tr s d l2 l1
  del : ∃ d, d <+: accepted tr ∧ delivered tr = d.map (translate c) ∧ ∀ v ∈ d, Mapped c v
  ask : ∃ d, d <+: accepted tr ∧ asked tr = d.map (req c) ∧ ∀ v ∈ d.dropLast, entry1 c v % 2 = 0
  bad : s.seg = true → ∃ v ∈ accepted tr, ¬ Mapped c v

theorem idx1_eq (c : Cfg) (v : Nat) : c.t (idx1 c v) = entry1 c v := by
  unfold idx1 entry1; rw [Nat.add_comm]

theorem inv_step (c : Cfg) (tr : List (In × Out)) (s : St) (x : In) (h : Inv c tr s) :
    Inv c (tr ++ [(x, out c s x)]) (next c s x) := by
  have eA : accepted (tr ++ [(x, out c s x)]) = accepted tr ++ given (take x) x.virt := by
    simp [accepted, take, out]
  have eD : delivered (tr ++ [(x, out c s x)]) = delivered tr ++ given ((out c s x).vld && x.rd) (out c s x).phys := by
    simp [delivered]
  have eQ : asked (tr ++ [(x, out c s x)]) = asked tr ++ given ((out c s x).reqVld && x.a2) ((out c s x).base, (out c s x).index) := by
    simp [asked]
  have eN : ∀ f : Nat → Nat, given (take x) (f x.virt) = (given (take x) x.virt).map f := by
    intro f; cases take x <;> simp [given]
  generalize tr ++ [(x, out c s x)] = tr' at *
  by_cases hs : s.seg = true
  · have e1 : (out c s x).vld = false := by simp [out, hs]
    have e2 : (out c s x).reqVld = false := by simp [out, hs]
    rw [e1] at eD
    rw [e2] at eQ
    simp only [Bool.false_and, given_false, List.append_nil] at eD eQ
    have es : (next c s x).seg = true := by simp [next, hs]
    refine ⟨fun e => by rw [es] at e; exact absurd e (by decide), ?_, ?_, ?_⟩
    · obtain ⟨d, h1, h2, h3⟩ := h.del
      exact ⟨d, by rw [eA]; exact h1.trans (List.prefix_append ..), by rw [eD, h2], h3⟩
    · obtain ⟨d, h1, h2, h3⟩ := h.ask
      exact ⟨d, by rw [eA]; exact h1.trans (List.prefix_append ..), by rw [eQ, h2], h3⟩
    · intro _
      obtain ⟨v, h1, h2⟩ := h.bad hs
      exact ⟨v, by rw [eA]; exact List.mem_append_left _ h1, h2⟩
  · have hs : s.seg = false := by simpa using hs
    obtain ⟨d, l2, l1, F⟩ := h.flow hs
    -- the level 1 side
    obtain ⟨m, r1, hm1, hmq, hmi, hmh, hml⟩ : ∃ m r1, l1 = m ++ r1 ∧ (if move s x then s.q1.tail else s.q1) = r1.map (entry1 c) ∧
        (if move s x then s.qi.tail else s.qi) = r1.map (idx2 c) ∧
        given (move s x) (s.q1.headD 0, s.qi.headD 0) = m.map (req c) ∧ m.length ≤ 1 := by
      by_cases hm : move s x = true
      · cases hl : l1 with
        | nil => simp [move, vld1, F.q1, hl] at hm
        | cons v l => exact ⟨[v], l, rfl, by simp [hm, F.q1, hl], by simp [hm, F.qi, hl], by simp [hm, F.q1, F.qi, hl, given, idx2], by simp⟩
      · exact ⟨[], l1, rfl, by simp [hm, F.q1], by simp [hm, F.qi], by simp [hm, given], by simp⟩
    have hreq : ((out c s x).reqVld && x.a2) = move s x := by simp [out, hs, move]
    have eQ' : asked tr' = (d ++ l2 ++ m).map (req c) := by
      rw [eQ, hreq, F.ask, List.map_append (l₁ := d ++ l2), ← hmh]; rfl
    -- the level 2 side
    obtain ⟨e, r2, he1, heq, heo, hed, hem⟩ : ∃ e r2, l2 = e ++ r2 ∧ (if emit s x then s.q2.tail else s.q2) = r2.map (req c) ∧
        (if emit s x then s.qo.tail else s.qo) = (r2 ++ l1).map (offset c) ∧
        ((∀ v ∈ e, entry2 c v % 2 = 0) → given ((out c s x).vld && x.rd) (out c s x).phys = e.map (translate c)) ∧
        ((∃ v ∈ e, entry2 c v % 2 = 1) → (out c s x).vld = false ∧ (next c s x).seg = true) := by
      by_cases hm : emit s x = true
      · cases hl : l2 with
        | nil => simp [emit, vld2, F.q2, hl] at hm
        | cons v l =>
          have hi : item c s = entry2 c v := by simp [item, F.q2, hl, entry2]
          refine ⟨[v], l, rfl, by simp [hm, F.q2, hl], by simp [hm, F.qo, hl], ?_, ?_⟩
          · intro hv
            have hv := hv v (by simp)
            simp only [emit, Bool.and_eq_true] at hm
            simp [out, hm.1.1, hm.1.2, hm.2, hs, hi, hv, given, translate, F.qo, hl, offset]
          · intro hv
            obtain ⟨w, hw, hv⟩ := hv
            simp only [List.mem_singleton] at hw
            subst hw
            simp only [emit, Bool.and_eq_true] at hm
            simp [out, next, hi, hv, hm.1.1]
      · refine ⟨[], l2, rfl, by simp [hm, F.q2], by simp [hm, F.qo], ?_, by simp⟩
        intro _
        have : ((out c s x).vld && x.rd) = false := by
          cases hc : ((out c s x).vld && x.rd)
          · rfl
          · simp only [out, Bool.and_eq_true] at hc
            exact absurd (by simp [emit, hc.1.1.1, hc.1.1.2, hc.2]) hm
        simp [this]
    -- what is observed
    have hdel : ∃ d', d' <+: accepted tr' ∧ delivered tr' = d'.map (translate c) ∧ (∀ v ∈ d', Mapped c v) ∧
        ((next c s x).seg = false → d' = d ++ e) := by
      by_cases hv : ∀ v ∈ e, entry2 c v % 2 = 0
      · refine ⟨d ++ e, ?_, by rw [eD, F.del, hed hv, List.map_append], ?_, fun _ => rfl⟩
        · rw [eA, F.acc, he1]; simp only [List.append_assoc]; rw [← List.append_assoc d e]; exact List.prefix_append ..
        · intro v hvm
          rcases List.mem_append.1 hvm with h1 | h1
          · exact F.map v h1
          · exact ⟨F.ok v (by rw [he1]; simp [h1]), hv v h1⟩
      · obtain ⟨w, hw1, hw2⟩ : ∃ v ∈ e, entry2 c v % 2 = 1 := by
          simp only [not_forall] at hv
          obtain ⟨w, a, b⟩ := hv
          exact ⟨w, a, by omega⟩
        obtain ⟨h1, h2⟩ := hem ⟨w, hw1, hw2⟩
        refine ⟨d, ?_, by rw [eD, F.del, h1]; simp, F.map, fun h => by rw [h2] at h; exact absurd h (by decide)⟩
        rw [eA, F.acc]; simp only [List.append_assoc]; exact List.prefix_append ..
    have hok : (next c s x).seg = false → ∀ v ∈ m, entry1 c v % 2 = 0 := by
      intro hn v hv
      by_cases hm : move s x = true
      · simp only [move, Bool.and_eq_true] at hm
        have h1 : s.q1.headD 0 = entry1 c v := by
          rw [F.q1, hm1]
          match m, hml, hv with
          | [w], _, hv => simp only [List.mem_singleton] at hv; subst hv; rfl
        simp only [next, hs, hm.1.1, h1, Bool.false_or, Bool.true_and, Bool.or_eq_false_iff, beq_eq_false_iff_ne] at hn
        omega
      · rw [show move s x = false by simpa using hm] at hmh
        simp only [given_false] at hmh
        rw [List.map_eq_nil_iff.1 hmh.symm] at hv
        simp at hv
    refine ⟨?_, ?_, ?_, ?_⟩
    · intro hn
      obtain ⟨d', _, hd2, hd3, hd4⟩ := hdel
      rw [hd4 hn] at hd2 hd3
      refine ⟨d ++ e, r2 ++ m, r1 ++ given (take x) x.virt, ?_⟩
      constructor
      · rw [eA, F.acc, he1, hm1]; simp only [List.append_assoc]
      · exact hd2
      · exact hd3
      · intro v hv
        have : v ∈ d ++ l2 ∨ v ∈ m := by
          rw [he1]; simp only [List.mem_append] at hv ⊢; tauto
        rcases this with h1 | h1
        · exact F.ok v h1
        · exact hok hn v h1
      · rw [eQ', he1]; simp only [List.append_assoc]
      · simp only [next, hs, Bool.not_false, Bool.and_true]
        rw [heq, hmh, ← List.map_append]
      · simp only [next]
        rw [hmq, idx1_eq, eN (entry1 c), ← List.map_append]
      · simp only [next]
        rw [hmi, eN (idx2 c), ← List.map_append]
      · simp only [next]
        rw [heo, eN (offset c), ← List.map_append, hm1]; simp only [List.append_assoc]
    · obtain ⟨d', a, b, c', _⟩ := hdel
      exact ⟨d', a, b, c'⟩
    · refine ⟨d ++ l2 ++ m, ?_, eQ', ?_⟩
      · rw [eA, F.acc, hm1, ← List.append_assoc, List.append_assoc (d ++ l2 ++ m)]; exact List.prefix_append ..
      · intro v hv
        refine F.ok v ?_
        match m, hml with
        | [], _ => simpa using List.dropLast_subset _ hv
        | [w], _ => simpa using hv
    · intro hn
      simp only [next, hs, Bool.false_or, Bool.or_eq_true, Bool.and_eq_true, beq_iff_eq] at hn
      rw [eA, F.acc]
      rcases hn with ⟨h1, h2⟩ | ⟨h1, h2⟩
      · cases hl : l1 with
        | nil => simp [vld1, F.q1, hl] at h1
        | cons v l =>
          refine ⟨v, by simp, fun h => ?_⟩
          rw [F.q1, hl] at h2
          have := h.1
          simp only [List.map_cons, List.headD_cons] at h2
          omega
      · cases hl : l2 with
        | nil => simp [vld2, F.q2, hl] at h1
        | cons v l =>
          refine ⟨v, by simp, fun h => ?_⟩
          have hi : item c s = entry2 c v := by simp [item, F.q2, hl, entry2]
          have := h.2
          omega

theorem inv (c : Cfg) (is : List In) : Inv c ((machine c).trace init is) ((machine c).final init is) := by
  induction is using List.reverseRecOn with
  | nil => exact ⟨fun _ => ⟨[], [], [], by constructor <;> simp [accepted, delivered, asked, init, Machine.trace, Machine.final]⟩, ⟨[], by simp [delivered, Machine.trace]⟩,
      ⟨[], by simp [asked, Machine.trace]⟩, fun h => by simp [init, Machine.final] at h⟩
  | append_singleton is x ih =>
    rw [Machine.trace_snoc, Machine.final_append]
    exact inv_step c _ _ x ih

/-! ## C153: translation -/

/-- **C153** `physOut` carries the translations of the addresses from `virtIn`, in order, each of them once, and only for addresses which
are mapped and which follow no unmapped address. -/
theorem mmu_translates (c : Cfg) (is : List In) : ∃ d, d <+: accepted ((machine c).trace init is) ∧
    delivered ((machine c).trace init is) = d.map (translate c) ∧ ∀ v ∈ d, Mapped c v := (inv c is).del

/-! ## C154: memory accesses -/

/-- full property: the memory is never read for an address which is not mapped on the first level -/
def NoBadRead (c : Cfg) : Prop := ∀ is, ∀ r ∈ asked ((machine c).trace init is), r.1 % 2 = 0

/-- 4 B pages with tables of two items; the item of the first level 1 is `8`, the second one is invalid -/
def demo : Cfg where
  off := 2
  lvl2 := 1
  t i := if i = 0 then 8 else 2 ^ 32 - 1
  get b i := if b = 8 then (if i = 0 then 32 else 48) else 64

def virt (v : Nat) : In := ⟨true, v, true, true, true, true, true, true, true, true, true⟩
def idle : In := ⟨false, 0, true, true, true, true, true, true, true, true, true⟩

/-- **C154** (the full property fails) The request for an invalid item of the level 1 table is sent in the cycle in which the item
appears: the flag which stops it is a register. -/
theorem mmu_bad_read : ¬ NoBadRead demo := fun h =>
  absurd (h [virt 8, idle, idle] (2 ^ 32 - 1, 0) (by decide)) (by decide)

/-- **C154** The memory is read for the addresses from `virtIn` in order, and only the last read may be for an address which is not mapped on
the first level. -/
theorem mmu_reads_partial (c : Cfg) (is : List In) : ∃ d, d <+: accepted ((machine c).trace init is) ∧
    asked ((machine c).trace init is) = d.map (fun v => (entry1 c v, v / 2 ^ c.off % 2 ^ c.lvl2)) ∧
    ∀ v ∈ d.dropLast, entry1 c v % 2 = 0 := (inv c is).ask

/-! ## C155: segfault -/

/-- everything is ready, nothing new arrives -/
def Quiet (x : In) : Prop := x.vld = false ∧ x.rd = true ∧ x.a2 = true ∧ x.v1 = true ∧ x.vi = true ∧ x.vo = true ∧ x.v2 = true

theorem drain_step (c : Cfg) (s : St) (x : In) (hq : Quiet x) (n m : Nat) (h1 : s.q1.length = n) (hi : s.qi.length = n) (h2 : s.q2.length = m)
    (ho : s.qo.length = m + n) (hp : 0 < 2 * n + m) : 2 * (next c s x).q1.length + (next c s x).q2.length < 2 * n + m := by
  obtain ⟨a, b, d, e, f, g, i⟩ := hq
  have ht : take x = false := by simp [take, a]
  have hg : ∀ z : Nat × Nat, ∀ b : Bool, (given b z).length ≤ 1 := by intro z b; cases b <;> simp [given]
  have hm : n ≠ 0 → move s x = true := by
    intro hn
    have e1 : s.q1 ≠ [] := fun h => hn (by rw [← h1, h]; rfl)
    have e2 : s.qi ≠ [] := fun h => hn (by rw [← hi, h]; rfl)
    simp [move, vld1, vldI, d, e, f, e1, e2]
  have hm0 : n = 0 → move s x = false := by
    intro hn
    have e1 : s.q1 = [] := List.eq_nil_of_length_eq_zero (by omega)
    simp [move, vld1, e1]
  have he : m ≠ 0 → emit s x = true := by
    intro hn
    have e1 : s.q2 ≠ [] := fun h => hn (by rw [← h2, h]; rfl)
    have e2 : s.qo ≠ [] := fun h => by rw [h] at ho; simp at ho; omega
    simp [emit, vld2, vldO, b, g, i, e1, e2]
  have hl1 : (next c s x).q1.length = n - 1 := by
    simp only [next, ht, given_false, List.append_nil]
    by_cases hn : n = 0
    · rw [hm0 hn]; simp [h1, hn]
    · rw [hm hn]; simp [h1]
  have hl2 : (next c s x).q2.length ≤ (m - 1) + (if n = 0 then 0 else 1) := by
    simp only [next, List.length_append]
    have e1 : (if emit s x = true then s.q2.tail else s.q2).length ≤ m - 1 := by
      by_cases hn : m = 0
      · have : s.q2 = [] := List.eq_nil_of_length_eq_zero (by omega)
        simp [this]
      · rw [he hn]; simp [h2]
    by_cases hn : n = 0
    · rw [hm0 hn]; simp [hn, e1]
    · have := hg (s.q1.headD 0, s.qi.headD 0) (move s x && !s.seg)
      simp only [hn, if_false]
      omega
  rw [hl1]
  split at hl2 <;> omega

theorem accepted_quiet (c : Cfg) (s : St) (qs : List In) (hq : ∀ x ∈ qs, Quiet x) : accepted ((machine c).trace s qs) = [] := by
  induction qs generalizing s with
  | nil => rfl
  | cons x qs ih =>
    rw [Machine.trace_cons]
    have := ih ((machine c).next s x) (fun y hy => hq y (List.mem_cons_of_mem _ hy))
    simp only [accepted, List.flatMap_cons] at *
    rw [this]
    simp [(hq x List.mem_cons_self).1]

theorem seg_mono (c : Cfg) (s : St) (qs : List In) (h : s.seg = true) : ((machine c).final s qs).seg = true := by
  induction qs generalizing s with
  | nil => exact h
  | cons x qs ih => rw [Machine.final_cons]; exact ih _ (by simp [machine, next, h])

theorem drain (c : Cfg) (is qs : List In) (hq : ∀ x ∈ qs, Quiet x) (hs : ((machine c).final init (is ++ qs)).seg = false) :
    2 * ((machine c).final init (is ++ qs)).q1.length + ((machine c).final init (is ++ qs)).q2.length ≤
      2 * (accepted ((machine c).trace init is)).length - qs.length := by
  induction qs using List.reverseRecOn with
  | nil =>
    simp only [List.append_nil, List.length_nil, Nat.sub_zero] at *
    obtain ⟨d, l2, l1, F⟩ := (inv c is).flow hs
    rw [F.acc, F.q1, F.q2]
    simp only [List.length_append, List.length_map]
    omega
  | append_singleton qs x ih =>
    rw [← List.append_assoc] at hs ⊢
    rw [Machine.final_append (a := is ++ qs)] at hs ⊢
    have hs' : ((machine c).final init (is ++ qs)).seg = false := by
      cases h : ((machine c).final init (is ++ qs)).seg
      · rfl
      · rw [seg_mono c _ [x] h] at hs; exact hs
    have ih := ih (fun y hy => hq y (List.mem_append_left _ hy)) hs'
    obtain ⟨d, l2, l1, F⟩ := (inv c (is ++ qs)).flow hs'
    generalize (machine c).final init (is ++ qs) = s at *
    have en : (machine c).final s [x] = next c s x := rfl
    rw [en] at *
    have hx := hq x (by simp)
    rw [List.length_append, List.length_singleton]
    by_cases hp : 0 < 2 * s.q1.length + s.q2.length
    · have := drain_step c s x hx s.q1.length s.q2.length rfl (by rw [F.qi, F.q1]; simp) rfl
        (by rw [F.qo, F.q1, F.q2]; simp) hp
      omega
    · have h1 : s.q1 = [] := List.eq_nil_of_length_eq_zero (by omega)
      have h2 : s.q2 = [] := List.eq_nil_of_length_eq_zero (by omega)
      simp [next, take, hx.1, move, vld1, emit, vld2, h1, h2]

/-- **C155** `segfault` is raised only if an address which is not mapped was accepted; from then on nothing is sent to `physOut`. -/
theorem mmu_segfault_sound (c : Cfg) (is : List In) (x : In) (h : ((machine c).outAfter init is x).segfault = true) :
    (∃ v ∈ accepted ((machine c).trace init is), ¬ Mapped c v) ∧ ((machine c).outAfter init is x).vld = false ∧
    ∀ js y, ((machine c).outAfter init (is ++ js) y).segfault = true := by
  have hs : ((machine c).final init is).seg = true := h
  refine ⟨(inv c is).bad hs, ?_, fun js y => ?_⟩
  · show (out c ((machine c).final init is) x).vld = false
    simp [out, hs]
  · show ((machine c).final init (is ++ js)).seg = true
    rw [Machine.final_append]
    exact seg_mono c _ js hs

/-- **C155** Once the environment has answered everything: if all addresses are mapped each of them has been translated, otherwise `segfault` is
high. -/
theorem mmu_drains (c : Cfg) (is qs : List In) (hq : ∀ x ∈ qs, Quiet x)
    (hn : 2 * (accepted ((machine c).trace init is)).length ≤ qs.length) (x : In) :
    ((∀ v ∈ accepted ((machine c).trace init is), Mapped c v) →
      delivered ((machine c).trace init (is ++ qs)) = (accepted ((machine c).trace init is)).map (translate c) ∧
      ((machine c).outAfter init (is ++ qs) x).segfault = false) ∧
    ((∃ v ∈ accepted ((machine c).trace init is), ¬ Mapped c v) → ((machine c).outAfter init (is ++ qs) x).segfault = true) := by
  have hacc : accepted ((machine c).trace init (is ++ qs)) = accepted ((machine c).trace init is) := by
    rw [Machine.trace_append]
    have := accepted_quiet c ((machine c).final init is) qs hq
    simp only [accepted, List.flatMap_append] at *
    rw [this, List.append_nil]
  have key : ((machine c).final init (is ++ qs)).seg = false →
      delivered ((machine c).trace init (is ++ qs)) = (accepted ((machine c).trace init is)).map (translate c) ∧
      ∀ v ∈ accepted ((machine c).trace init is), Mapped c v := by
    intro hs
    have := drain c is qs hq hs
    obtain ⟨d, l2, l1, F⟩ := (inv c (is ++ qs)).flow hs
    rw [F.q1, F.q2] at this
    simp only [List.length_map] at this
    have h1 : l1 = [] := List.eq_nil_of_length_eq_zero (by omega)
    have h2 : l2 = [] := List.eq_nil_of_length_eq_zero (by omega)
    have ha := F.acc
    rw [hacc, h1, h2, List.append_nil, List.append_nil] at ha
    rw [F.del, ha]
    exact ⟨rfl, F.map⟩
  have hseg : ((machine c).outAfter init (is ++ qs) x).segfault = ((machine c).final init (is ++ qs)).seg := rfl
  rw [hseg]
  refine ⟨fun hm => ?_, fun ⟨v, h1, h2⟩ => ?_⟩
  · have hs : ((machine c).final init (is ++ qs)).seg = false := by
      cases h : ((machine c).final init (is ++ qs)).seg
      · rfl
      · obtain ⟨v, h1, h2⟩ := (inv c (is ++ qs)).bad h
        rw [hacc] at h1
        exact absurd (hm v h1) h2
    exact ⟨(key hs).1, hs⟩
  · cases h : ((machine c).final init (is ++ qs)).seg
    · exact absurd ((key h).2 v h1) h2
    · rfl

/-- two addresses of mapped pages; the second item of the level 1 table is not mapped -/
example : delivered ((machine demo).trace init [virt 1, virt 6, idle, idle, idle]) = [33, 50] := by decide
example : translate demo 6 = 50 := by decide
example : ((machine demo).outAfter init [virt 1, virt 9, idle, idle, idle, idle] idle).segfault = true := by decide
example : Quiet idle := by unfold Quiet idle; decide

end Verif.Mmu
