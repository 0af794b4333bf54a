import Verif.LinkedListWriter
/-! Properties C144-C148 of `CLinkedListWriter`. -/
namespace Verif.LinkedListWriter

theorem requests_append (a b : List (In × Out)) : requests (a ++ b) = requests a ++ requests b := by simp [requests]
theorem written_append (a b : List (In × Out)) : written (a ++ b) = written a ++ written b := by simp [written]
theorem accepted_append (a b : List (In × Out)) : accepted (a ++ b) = accepted a ++ accepted b := by simp [accepted]
theorem acks_append (a b : List (In × Out)) : acks (a ++ b) = acks a ++ acks b := by simp [acks]
theorem freed_append (c : Cfg) (a b : List (In × Out)) : freed c (a ++ b) = freed c a + freed c b := by simp [freed]
theorem total_append (a b : List Req) : total (a ++ b) = total a + total b := by simp [total]
theorem places_append (c : Cfg) (a b : List (In × Out)) : places c (a ++ b) = places c a ++ places c b := by
  simp [places, requests_append]

/-- **C147** The words sent to the datapump are the words taken on `dataIn`, in order, none lost or doubled. -/
theorem writer_order {c : Cfg} {s0 : St} (h0 : IsInit c s0) (is : List In) :
    ((written ((machine c).trace s0 is)).map Prod.fst) <+: accepted ((machine c).trace s0 is) := by
  suffices h : (written ((machine c).trace s0 is)).map Prod.fst ++ ((machine c).final s0 is).f =
      accepted ((machine c).trace s0 is) from ⟨_, h⟩
  induction is using List.reverseRecOn with
  | nil => simp [Machine.trace_nil, Machine.final_nil, written, accepted, h0.f]
  | append_singleton is x ih =>
    rw [Machine.trace_snoc, Machine.final_append, written_append, accepted_append]
    have eo : (machine c).outAfter s0 is x = out c ((machine c).final s0 is) x := rfl
    have en : (machine c).final ((machine c).final s0 is) [x] = next c ((machine c).final s0 is) x := rfl
    rw [eo, en, ← ih]
    generalize (machine c).final s0 is = s
    simp only [List.map_append, List.append_assoc, List.append_cancel_left_eq]
    rcases s with ⟨fsm, nb, baseB, nextBase, base, dataCntr, reqLenB, rem, rd, wr, tmo, f⟩
    rcases Bool.eq_false_or_eq_true (x.fv) with hv | hv <;> rcases Bool.eq_false_or_eq_true x.wRd with hw | hw <;>
    rcases f with _ | ⟨a, f⟩ <;> by_cases hs : fsm = .send <;>
      simp [written, accepted, out, next, move, fVld, hv, hw, hs, given]

/-! ### Addresses -/

structure Ctg (c : Cfg) (b0 : Nat) (tr : List (In × Out)) (s : St) : Prop where
  lt : s.base < 2 ^ c.INDEX_WIDTH
  base : (s.base + (if s.fsm = .prepare then s.reqLenB + 1 else 0)) % 2 ^ c.INDEX_WIDTH =
    (b0 + total (requests tr)) % 2 ^ c.INDEX_WIDTH
  plc : places c tr = (List.range (total (requests tr))).map fun k => (b0 + k) % 2 ^ c.INDEX_WIDTH

theorem ctg_holds {c : Cfg} {s0 : St} (h0 : IsInit c s0) (is : List In) (hr : Running is) :
    Ctg c s0.base ((machine c).trace s0 is) ((machine c).final s0 is) := by
  induction is using List.reverseRecOn with
  | nil => exact ⟨h0.base, by simp [Machine.trace_nil, Machine.final_nil, h0.fsm, requests, total], by
      simp [Machine.trace_nil, places, requests, total]⟩
  | append_singleton is x ih =>
    have hx := hr x (by simp)
    have ih := ih fun y hy => hr y (by simp [hy])
    rw [Machine.trace_snoc, Machine.final_append]
    have eo : (machine c).outAfter s0 is x = out c ((machine c).final s0 is) x := rfl
    have en : (machine c).final ((machine c).final s0 is) [x] = next c ((machine c).final s0 is) x := rfl
    rw [eo, en]
    generalize (machine c).final s0 is = s at *
    generalize (machine c).trace s0 is = tr at *
    obtain ⟨i1, i2, i3⟩ := ih
    have hp : 0 < 2 ^ c.INDEX_WIDTH := Nat.two_pow_pos _
    have eR : requests (tr ++ [(x, out c s x)]) = requests tr ++ given (decide (s.fsm = .reqPending) && x.reqRd)
        ⟨s.base * 2 ^ c.ALIGN_BITS, reqLen c s⟩ := by simp [requests, out]
    have eP : places c (tr ++ [(x, out c s x)]) = places c tr ++ (given (decide (s.fsm = .reqPending) && x.reqRd)
        (⟨s.base * 2 ^ c.ALIGN_BITS, reqLen c s⟩ : Req)).flatMap fun q => (List.range (q.len + 1)).map fun t => (q.addr / 2 ^ c.ALIGN_BITS + t) % 2 ^ c.INDEX_WIDTH := by
      rw [places, eR, List.flatMap_append]; rfl
    refine ⟨?_, ?_, ?_⟩
    · simp only [next, hx.1]
      split
      · exact Nat.mod_lt _ hp
      · rw [show transition c s = false by simp [transition, *]]; simpa using i1
    · rw [eR, total_append]
      rcases hf : s.fsm <;> simp [next, nextFsm, hf, hx.1, transition, given, total] at i2 ⊢
      · split <;> simp_all
      · split
        · simp [*]; rw [Nat.add_mod, i2, ← Nat.add_mod]; congr 1; omega
        · simp [*]
      · rw [← i2, Nat.add_assoc]
      · split <;> simp_all
      · split <;> simp_all
    · rw [eR, eP, i3]
      rcases Bool.eq_false_or_eq_true (decide (s.fsm = .reqPending) && x.reqRd) with hg | hg
      · rw [hg]
        have hf : s.fsm = .reqPending := by simp at hg; exact hg.1
        simp [hf] at i2
        rw [total_append]
        simp only [given_true, total, List.map_cons, List.map_nil, List.sum_cons, List.sum_nil, Nat.add_zero]
        rw [List.range_add, List.map_append]
        simp only [List.flatMap_cons, List.flatMap_nil, List.append_nil, List.map_map, List.append_cancel_left_eq]
        apply List.map_congr_left
        intro t _
        simp only [Function.comp]
        rw [Nat.mul_div_cancel _ (Nat.two_pow_pos _), Nat.add_mod, i2, ← Nat.add_mod, Nat.add_assoc]
        rfl
      · rw [hg]; simp [given]

/-- The full claim C144 for given parameters: the items are written to the places of the items of the linked list. -/
def WritesNodes (c : Cfg) : Prop :=
  ∀ (mem : Nat → Nat) (s0 : St) (is : List In), IsInit c s0 → Running is → Answers c mem ((machine c).trace s0 is) →
    AcksOk c ((machine c).trace s0 is) →
    places c ((machine c).trace s0 is) =
      (List.range (total (requests ((machine c).trace s0 is)))).map (place c mem s0.base)

/-- **C144, partial**: the items are written to consecutive words from the address of the first node; these are the right places
for the items of the first node. -/
theorem writer_places_partial {c : Cfg} {s0 : St} (h0 : IsInit c s0) (is : List In) (hr : Running is) (mem : Nat → Nat) :
    places c ((machine c).trace s0 is) =
      ((List.range (total (requests ((machine c).trace s0 is)))).map fun k => (s0.base + k) % 2 ^ c.INDEX_WIDTH) ∧
    (places c ((machine c).trace s0 is)).take c.ITEMS_IN_BLOCK =
      ((List.range (total (requests ((machine c).trace s0 is)))).map (place c mem s0.base)).take c.ITEMS_IN_BLOCK := by
  have h := (ctg_holds h0 is hr).plc
  refine ⟨h, ?_⟩
  rw [h, ← List.map_take, ← List.map_take, List.take_range]
  apply List.map_congr_left
  intro k hk
  have hk : k < c.ITEMS_IN_BLOCK := by simp at hk; omega
  simp [place, Nat.div_eq_of_lt hk, Nat.mod_eq_of_lt hk, node]

/-- 5 items in a node, bursts of 2 words -/
def small : Cfg := ⟨5, 4, 4, 16, 3, 8, 3, 100⟩
theorem small_ok : small.Ok := ⟨by decide, by decide, by decide, by decide⟩
/-- node at word 16, 15 free places -/
def small0 : St := ⟨.idle, .required, 16, 0, 16, 0, 0, 5, 0, 0, 100, []⟩
theorem small0_init : IsInit small small0 :=
  ⟨rfl, rfl, rfl, by decide, rfl, by decide, by decide, rfl, rfl⟩

/-- a cycle with everything ready, `dataIn` valid with `d` -/
def cyc (d : Nat) : In := ⟨none, none, none, true, false, 3, 0, true, true, false, 3, true, d, true, true, 0, 2⟩
/-- as before, the address 8 * 100 of the next node comes -/
def cycN (d : Nat) : In := { cyc d with rVld := true, rData := 800 }
/-- as before, with an acknowledge -/
def cycA (d : Nat) : In := { cyc d with ackVld := true }
/-- as before, the datapump does not take the word -/
def cycS (d : Nat) : In := { cyc d with wRd := false }

def nodesRun : List In :=
  [cyc 1, cyc 2, cycN 3, cyc 4, cyc 5, cycA 6,
   cyc 1, cyc 2, cyc 3, cyc 4, cyc 5, cycA 6,
   cyc 1, cyc 2]

theorem acksOk_iff (c : Cfg) (tr : List (In × Out)) :
    AcksOk c tr ↔ ∀ n (h : n < tr.length), tr[n].1.ackVld = true →
      tr[n].1.ackId = c.ID ∧ (acks (tr.take n)).length < ((written (tr.take n)).filter fun w => w.2).length := by
  constructor
  · intro h n hn ha
    refine h (tr.take n) tr[n] ?_ ha
    rw [List.take_append_getElem]
    exact List.take_prefix _ _
  · rintro h pre e ⟨suf, rfl⟩ ha
    have := h pre.length (by simp) (by simpa using ha)
    simpa using this

/-- **C144 does not hold**: after the 5 items of the first node, the pointer to the next node is overwritten and the following
items are not written to the next node. -/
theorem writer_nodes_fails : ¬ WritesNodes small := by
  intro h
  have := h (fun _ => 800) small0 nodesRun small0_init (by unfold Running; decide) (by unfold Answers; decide)
    (by rw [acksOk_iff]; decide)
  exact absurd this (by decide)

/-! ### Free places -/

theorem space_zero_iff {c : Cfg} {s : St} (hr : s.rd < 2 ^ c.PTR_WIDTH) (hw : s.wr < 2 ^ c.PTR_WIDTH) :
    queueHasSpace c s = true ↔ 1 ≤ space c s.rd s.wr := by
  unfold queueHasSpace space
  generalize 2 ^ c.PTR_WIDTH = P at *
  simp only [bne_iff_ne, ne_eq]
  rcases Nat.lt_or_ge (s.wr + 1) P with h | h
  · rw [Nat.mod_eq_of_lt h]
    rcases Nat.lt_or_ge s.rd (s.wr + 1) with h2 | h2
    · rw [show s.rd + 2 * P - s.wr - 1 = (s.rd + P - s.wr - 1) + P by omega, Nat.add_mod_right, Nat.mod_eq_of_lt (by omega)]; omega
    · rw [show s.rd + 2 * P - s.wr - 1 = (s.rd - s.wr - 1) + P + P by omega, Nat.add_mod_right, Nat.add_mod_right, Nat.mod_eq_of_lt (by omega)]; omega
  · rw [show s.wr + 1 = P by omega, Nat.mod_self, show s.rd + 2 * P - s.wr - 1 = s.rd + P by omega, Nat.add_mod_right, Nat.mod_eq_of_lt (by omega)]; omega

theorem space_eq {c : Cfg} {r w : Nat} (hr : r < 2 ^ c.PTR_WIDTH) (hw : w < 2 ^ c.PTR_WIDTH) :
    space c r w = if w < r then r - w - 1 else r + 2 ^ c.PTR_WIDTH - w - 1 := by
  unfold space
  generalize 2 ^ c.PTR_WIDTH = P at *
  split
  · rw [show r + 2 * P - w - 1 = (r - w - 1) + P + P by omega, Nat.add_mod_right, Nat.add_mod_right, Nat.mod_eq_of_lt (by omega)]
  · rw [show r + 2 * P - w - 1 = (r + P - w - 1) + P by omega, Nat.add_mod_right, Nat.mod_eq_of_lt (by omega)]

theorem lenByPtrs_eq {c : Cfg} {s : St} (hr : s.rd < 2 ^ c.PTR_WIDTH) (hw : s.wr < 2 ^ c.PTR_WIDTH) (h : 1 ≤ space c s.rd s.wr) :
    lenByPtrs c s + 1 = space c s.rd s.wr := by
  rw [space_eq hr hw] at *
  unfold lenByPtrs
  generalize 2 ^ c.PTR_WIDTH = P at *
  split at h
  · rw [show s.rd + 2 * P - s.wr - 2 = (s.rd - s.wr - 2) + P + P by omega, Nat.add_mod_right, Nat.add_mod_right, Nat.mod_eq_of_lt (by omega)]
    simp [*]; omega
  · rw [show s.rd + 2 * P - s.wr - 2 = (s.rd + P - s.wr - 2) + P by omega, Nat.add_mod_right, Nat.mod_eq_of_lt (by omega)]
    simp [*]; omega

theorem reqLen_le {c : Cfg} (s : St) : reqLen c s ≤ c.maxLen ∧ reqLen c s ≤ lenByPtrs c s := by
  have h1 : constraingLen c s ≤ lenByPtrs c s := by unfold constraingLen; split <;> omega
  have h2 := Nat.mod_le (constraingLen c s) (2 ^ c.LEN_WIDTH)
  unfold reqLen; split <;> omega

/-- moving the write pointer -/
theorem space_wr {c : Cfg} {r w d : Nat} (hr : r < 2 ^ c.PTR_WIDTH) (hw : w < 2 ^ c.PTR_WIDTH) (hd : d ≤ space c r w) :
    space c r ((w + d) % 2 ^ c.PTR_WIDTH) = space c r w - d := by
  have hp : 0 < 2 ^ c.PTR_WIDTH := Nat.two_pow_pos _
  rw [space_eq hr (Nat.mod_lt _ hp)]
  rw [space_eq hr hw] at *
  generalize 2 ^ c.PTR_WIDTH = P at *
  split at hd
  · rw [Nat.mod_eq_of_lt (a := w + d) (by omega)]; split <;> omega
  · rcases Nat.lt_or_ge (w + d) P with h | h
    · rw [Nat.mod_eq_of_lt h]; split <;> omega
    · rw [show w + d = (w + d - P) + P by omega, Nat.add_mod_right, Nat.mod_eq_of_lt (by omega)]; split <;> omega

/-- moving the read pointer -/
theorem space_rd {c : Cfg} {r w v : Nat} (hr : r < 2 ^ c.PTR_WIDTH) (hw : w < 2 ^ c.PTR_WIDTH) (hv : v < 2 ^ c.PTR_WIDTH)
    (h : dist c v r + space c r w < 2 ^ c.PTR_WIDTH) : space c v w = dist c v r + space c r w := by
  rw [space_eq hr hw] at *
  rw [space_eq hv hw]
  unfold dist at *
  generalize 2 ^ c.PTR_WIDTH = P at *
  rcases Nat.lt_or_ge v r with h2 | h2
  · rw [Nat.mod_eq_of_lt (a := v + P - r) (by omega)] at *
    split <;> split at h <;> simp [*] <;> omega
  · rw [show v + P - r = (v - r) + P by omega, Nat.add_mod_right, Nat.mod_eq_of_lt (a := v - r) (by omega)] at *
    split <;> split at h <;> simp [*] <;> omega

structure Spc (c : Cfg) (s0 : St) (tr : List (In × Out)) (s : St) : Prop where
  rd : s.rd < 2 ^ c.PTR_WIDTH
  wr : s.wr < 2 ^ c.PTR_WIDTH
  eq : space c s.rd s.wr + total (requests tr) =
    space c s0.rd s0.wr + freed c tr + (if s.fsm = .idle ∨ s.fsm = .reqPending then 0 else s.reqLenB + 1)
  req : s.fsm = .reqPending → 1 ≤ space c s.rd s.wr
  tmo : s.tmo = 0 → s.fsm = .idle → 1 ≤ space c s.rd s.wr
  burst : s.fsm ≠ .idle → s.fsm ≠ .reqPending → s.reqLenB + 1 ≤ space c s.rd s.wr
  ptr : ∃ ac rest, requests tr = ac ++ rest ∧ ac.length = (acks tr).length ∧ s.wr = (s0.wr + total ac) % 2 ^ c.PTR_WIDTH ∧
    if s.fsm = .idle ∨ s.fsm = .reqPending then rest = [] else ∃ q, rest = [q] ∧ q.len = s.reqLenB
  last : ((written tr).filter fun w => w.2).length ≤ (acks tr).length + (if s.fsm = .waitForAck then 1 else 0)


theorem spc_holds {c : Cfg} (ht : 0 < c.TIMEOUT) {s0 : St} (h0 : IsInit c s0) (is : List In) (hr : Running is)
    (ha : AcksOk c ((machine c).trace s0 is)) (ho : NoOverrun c ((machine c).trace s0 is)) :
    Spc c s0 ((machine c).trace s0 is) ((machine c).final s0 is) := by
  induction is using List.reverseRecOn with
  | nil =>
    refine ⟨h0.rd, h0.wr, ?_, ?_, ?_, ?_, ?_, ?_⟩ <;>
      simp [Machine.trace_nil, Machine.final_nil, requests, total, freed, h0.fsm, written, h0.tmo, acks, Nat.mod_eq_of_lt h0.wr]
    omega
  | append_singleton is x ih =>
    have hx := hr x (by simp)
    rw [Machine.trace_snoc] at ha ho ⊢
    have ih := ih (fun y hy => hr y (by simp [hy])) (fun pre e hp => ha pre e (hp.trans (List.prefix_append _ _)))
      fun e he => ho e (by simp [he])
    replace ha := ha _ _ List.prefix_rfl
    replace ho := ho (x, (machine c).outAfter s0 is x) (by simp)
    rw [Machine.final_append]
    have eo : (machine c).outAfter s0 is x = out c ((machine c).final s0 is) x := rfl
    have en : (machine c).final ((machine c).final s0 is) [x] = next c ((machine c).final s0 is) x := rfl
    rw [eo] at ha ho ⊢
    rw [en]
    generalize (machine c).final s0 is = s at *
    generalize (machine c).trace s0 is = tr at *
    obtain ⟨i1, i2, i3, i4, i5, i6, ⟨ac, rest, j1, j2, j3, j4⟩, i7⟩ := ih
    simp only [out] at ha ho
    have hp : 0 < 2 ^ c.PTR_WIDTH := Nat.two_pow_pos _
    -- acknowledges come only when they are waited for
    have hack : x.ackVld = true → gotWriteAck c x = true ∧ s.fsm = .waitForAck := by
      intro h
      obtain ⟨h1, h2⟩ := ha h
      refine ⟨by simp [gotWriteAck, h, h1], ?_⟩
      rcases hf : s.fsm <;> simp [hf] at i7 ⊢ <;> omega
    have hga : gotWriteAck c x = x.ackVld := by
      rcases Bool.eq_false_or_eq_true x.ackVld with h | h
      · rw [h, (hack h).1]
      · simp [gotWriteAck, h]
    -- the pointers
    have hrd' : (next c s x).rd < 2 ^ c.PTR_WIDTH := by
      simp only [next]; split
      · exact Nat.mod_lt _ hp
      · exact i1
    have hwr : (next c s x).wr = if x.ackVld then (s.wr + (s.reqLenB + 1)) % 2 ^ c.PTR_WIDTH else s.wr := by
      simp [next, hx.2, hga, Nat.add_assoc]
    have eF : freed c (tr ++ [(x, out c s x)]) = freed c tr + (match x.rdSet with
        | some v => dist c (v % 2 ^ c.PTR_WIDTH) s.rd
        | none => 0) := by rw [freed_append]; simp [freed, out]; rfl
    have hs1 : space c (next c s x).rd s.wr = space c s.rd s.wr + (match x.rdSet with
        | some v => dist c (v % 2 ^ c.PTR_WIDTH) s.rd
        | none => 0) := by
      rcases hset : x.rdSet with _ | v
      · simp [next, hset]
      · have := space_rd i1 i2 (Nat.mod_lt v hp) (ho v hset)
        simp [next, hset]; omega
    have hw' : (next c s x).wr < 2 ^ c.PTR_WIDTH := by
      rw [hwr]; split
      · exact Nat.mod_lt _ hp
      · exact i2
    have hsp : space c (next c s x).rd (next c s x).wr + (if x.ackVld then s.reqLenB + 1 else 0) =
        space c (next c s x).rd s.wr := by
      rw [hwr]
      rcases Bool.eq_false_or_eq_true x.ackVld with h | h
      · have := i6 (by simp [(hack h).2]) (by simp [(hack h).2])
        simp only [h, if_true]
        rw [space_wr hrd' i2 (by omega)]
        omega
      · simp [h]
    have eR : requests (tr ++ [(x, out c s x)]) = requests tr ++ given (decide (s.fsm = .reqPending) && x.reqRd)
        ⟨s.base * 2 ^ c.ALIGN_BITS, reqLen c s⟩ := by simp [requests, out]
    have eA : (acks (tr ++ [(x, out c s x)])).length = (acks tr).length + if x.ackVld then 1 else 0 := by
      rw [acks_append]
      rcases Bool.eq_false_or_eq_true x.ackVld with h | h
      · simp [acks, out, h, (hack h).2, given]
      · simp [acks, h, given]
    have eW : ((written (tr ++ [(x, out c s x)])).filter fun w => w.2).length =
        ((written tr).filter fun w => w.2).length + if move s x && s.dataCntr == 0 then 1 else 0 := by
      rw [written_append, List.filter_append, List.length_append]
      simp only [written, out, move, List.flatMap_cons, List.flatMap_nil, List.append_nil]
      rcases Bool.eq_false_or_eq_true (fVld s x) with h1 | h1 <;> rcases Bool.eq_false_or_eq_true x.wRd with h2 | h2 <;>
        by_cases h3 : s.fsm = .send <;> by_cases h4 : s.dataCntr = 0 <;> simp [h1, h2, h3, h4, given]
    have hreq : s.fsm = .reqPending → reqLen c s + 1 ≤ space c s.rd s.wr := by
      intro h
      have := (reqLen_le (c := c) s).2
      have := lenByPtrs_eq i1 i2 (i4 h)
      omega
    generalize hm : (match x.rdSet with
        | some v => dist c (v % 2 ^ c.PTR_WIDTH) s.rd
        | none => 0) = d at *
    have hno : s.fsm ≠ .waitForAck → x.ackVld = false := by
      intro h
      rcases Bool.eq_false_or_eq_true x.ackVld with h' | h'
      · exact absurd (hack h').2 h
      · exact h'
    have hqs := space_zero_iff i1 i2
    have nI : s.fsm = .idle → nextFsm c s x = .idle ∨ nextFsm c s x = .reqPending := by
      intro h; simp only [nextFsm, h]; split <;> simp
    have nS : s.fsm = .send → nextFsm c s x = .send ∨ nextFsm c s x = .waitForAck := by
      intro h; simp only [nextFsm, h]; split <;> simp
    refine ⟨hrd', hw', ?_, ?_, ?_, ?_, ?_, ?_⟩
    · rw [eR, total_append, eF]
      have en : (next c s x).fsm = nextFsm c s x := rfl
      have er : (next c s x).reqLenB = if s.fsm = .reqPending ∧ x.reqRd = true then reqLen c s else s.reqLenB := rfl
      rw [en, er]
      rcases hf : s.fsm
      · have hv := hno (by simp [hf])
        rcases nI hf with h | h <;> simp [hf, hv, h, given, total] at i3 hsp ⊢ <;> omega
      · have hv := hno (by simp [hf])
        rcases Bool.eq_false_or_eq_true x.reqRd with h | h <;> simp [hf, hv, h, nextFsm, given, total] at i3 hsp ⊢ <;> omega
      · have hv := hno (by simp [hf])
        simp [hf, hv, nextFsm, given, total] at i3 hsp ⊢
        omega
      · have hv := hno (by simp [hf])
        rcases nS hf with h | h <;> simp [hf, hv, h, given, total] at i3 hsp ⊢ <;> omega
      · rcases Bool.eq_false_or_eq_true x.ackVld with h | h <;> simp [hf, h, hga, nextFsm, given, total] at i3 hsp ⊢ <;> omega
    · intro h
      have h : nextFsm c s x = .reqPending := h
      rcases hf : s.fsm
      · have hv := hno (by simp [hf])
        simp [hf, nextFsm, hv] at h hsp
        have : 1 ≤ space c s.rd s.wr := by
          by_cases h0 : s.tmo = 0
          · exact i5 h0 hf
          · exact hqs.1 (h h0).2
        omega
      · have hv := hno (by simp [hf])
        have := i4 hf
        simp [hv] at hsp
        omega
      · simp [hf, nextFsm] at h
      · rcases nS hf with h' | h' <;> simp [h'] at h
      · simp only [nextFsm, hf] at h
        split at h <;> simp at h
    · intro h1 h2
      have h1 : (if s.fsm ≠ .idle then c.TIMEOUT
        else if s.tmo ≠ 0 ∧ x.size ≠ 0 ∧ queueHasSpace c s = true then s.tmo - 1 else s.tmo) = 0 := h1
      have h2 : nextFsm c s x = .idle := h2
      split at h1
      · omega
      · rename_i hi
        have hi : s.fsm = .idle := by simpa using hi
        have hv := hno (by simp [hi])
        simp [hv] at hsp
        split at h1
        · rename_i hc
          have := hqs.1 hc.2.2
          omega
        · have := i5 h1 hi
          omega
    · intro h1 h2
      have h1 : nextFsm c s x ≠ .idle := h1
      have h2 : nextFsm c s x ≠ .reqPending := h2
      have er : (next c s x).reqLenB = if s.fsm = .reqPending ∧ x.reqRd = true then reqLen c s else s.reqLenB := rfl
      rw [er]
      rcases hf : s.fsm
      · simp [hf, nextFsm] at h1 h2; simp_all
      · have hv := hno (by simp [hf])
        have := hreq hf
        simp [hv] at hsp
        simp [hf, nextFsm] at h1 h2 ⊢
        simp [h2]; omega
      · have hv := hno (by simp [hf])
        have := i6 (by simp [hf]) (by simp [hf])
        simp [hv] at hsp ⊢
        omega
      · have hv := hno (by simp [hf])
        have := i6 (by simp [hf]) (by simp [hf])
        simp [hv] at hsp ⊢
        omega
      · have := i6 (by simp [hf]) (by simp [hf])
        simp [hf, nextFsm, hga] at h1
        simp [h1] at hsp ⊢
        omega
    · rw [eR, hwr, j1]
      have en : (next c s x).fsm = nextFsm c s x := rfl
      have er : (next c s x).reqLenB = if s.fsm = .reqPending ∧ x.reqRd = true then reqLen c s else s.reqLenB := rfl
      rw [en, er, eA]
      rcases hf : s.fsm
      · have hv := hno (by simp [hf])
        simp [hf] at j4
        refine ⟨ac, [], ?_⟩
        rcases nI hf with h | h <;> simp [hv, h, given, j4, j2, j3]
      · have hv := hno (by simp [hf])
        simp [hf] at j4
        rcases Bool.eq_false_or_eq_true x.reqRd with h | h
        · exact ⟨ac, [⟨s.base * 2 ^ c.ALIGN_BITS, reqLen c s⟩], by simp [j4, h, given], by simp [hv, j2], by simp [hv, j3], by simp [nextFsm, hf, h]⟩
        · exact ⟨ac, [], by simp [j4, h, given], by simp [hv, j2], by simp [hv, j3], by simp [nextFsm, hf, h]⟩
      · have hv := hno (by simp [hf])
        simp [hf] at j4
        exact ⟨ac, rest, by simp [given], by simp [hv, j2], by simp [hv, j3], by simpa [nextFsm, hf] using j4⟩
      · have hv := hno (by simp [hf])
        simp [hf] at j4
        exact ⟨ac, rest, by simp [given], by simp [hv, j2], by simp [hv, j3], by rcases nS hf with h | h <;> simpa [h] using j4⟩
      · simp [hf] at j4
        rcases Bool.eq_false_or_eq_true x.ackVld with h | h
        · obtain ⟨q, rfl, hq⟩ := j4
          refine ⟨ac ++ [q], [], by simp [given], by simp [h, j2], ?_, by simp [nextFsm, hf, hga, h]⟩
          rw [total_append]
          simp only [h, if_true, j3, total, List.map_cons, List.map_nil, List.sum_cons, List.sum_nil, hq, Nat.mod_add_mod]
          congr 1
          omega
        · exact ⟨ac, rest, by simp [given], by simp [h, j2], by simp [h, j3], by simpa [nextFsm, hf, hga, h] using j4⟩
    · rw [eA, eW]
      have en : (next c s x).fsm = nextFsm c s x := rfl
      rw [en]
      rcases hf : s.fsm
      · have hv := hno (by simp [hf])
        simp [hf, hv, move] at i7 ⊢; omega
      · have hv := hno (by simp [hf])
        simp [hf, hv, move] at i7 ⊢; omega
      · have hv := hno (by simp [hf])
        simp [hf, hv, move] at i7 ⊢; omega
      · have hv := hno (by simp [hf])
        by_cases h : s.dataCntr = 0
        · simp [hf, hv, move, nextFsm, transition, h] at i7 ⊢
          split <;> omega
        · simp [hf, hv, move, nextFsm, transition, h] at i7 ⊢
          omega
      · rcases Bool.eq_false_or_eq_true x.ackVld with h | h <;> simp [hf, h, hga, move, nextFsm] at i7 ⊢ <;> omega

/-- **C146** The writer never requests to write more items than there are free places: the places free at start and the ones
freed by the driver. -/
theorem writer_space {c : Cfg} (ht : 0 < c.TIMEOUT) {s0 : St} (h0 : IsInit c s0) (is : List In) (hr : Running is)
    (ha : AcksOk c ((machine c).trace s0 is)) (ho : NoOverrun c ((machine c).trace s0 is)) :
    total (requests ((machine c).trace s0 is)) ≤ space c s0.rd s0.wr + freed c ((machine c).trace s0 is) := by
  have h := spc_holds ht h0 is hr ha ho
  have h1 := h.eq
  by_cases hb : ((machine c).final s0 is).fsm = .idle ∨ ((machine c).final s0 is).fsm = .reqPending
  · simp [hb] at h1; omega
  · have := h.burst (by simp at hb; exact hb.1) (by simp at hb; exact hb.2)
    simp [hb] at h1; omega

/-- **C146**, the write pointer: when all requests have been acknowledged `wrPtr` has moved by the number of their items; while
one of them is not acknowledged, its items are not counted. -/
theorem writer_ptr {c : Cfg} (ht : 0 < c.TIMEOUT) {s0 : St} (h0 : IsInit c s0) (is : List In) (hr : Running is)
    (ha : AcksOk c ((machine c).trace s0 is)) (ho : NoOverrun c ((machine c).trace s0 is)) (x : In) :
    (acks ((machine c).trace s0 is)).length ≤ (requests ((machine c).trace s0 is)).length ∧
    ((machine c).outAfter s0 is x).wrPtr = (s0.wr +
      total ((requests ((machine c).trace s0 is)).take (acks ((machine c).trace s0 is)).length)) % 2 ^ c.PTR_WIDTH := by
  obtain ⟨ac, rest, h1, h2, h3, -⟩ := (spc_holds ht h0 is hr ha ho).ptr
  rw [h1, ← h2]
  simp only [List.take_left]
  exact ⟨by simp, h3⟩

/-- non-vacuity of C144-C147: three bursts of two words, two of them acknowledged -/
example : IsInit small small0 ∧ Running nodesRun ∧ AcksOk small ((machine small).trace small0 nodesRun) ∧
    NoOverrun small ((machine small).trace small0 nodesRun) ∧
    written ((machine small).trace small0 nodesRun) = [(1, false), (2, true), (3, false), (4, true)] ∧
    requests ((machine small).trace small0 nodesRun) = [⟨128, 1⟩, ⟨144, 1⟩, ⟨160, 1⟩] ∧
    acks ((machine small).trace small0 nodesRun) = [3, 3] :=
  ⟨small0_init, by unfold Running; decide, by rw [acksOk_iff]; decide, fun e he v hv => by
    have h : ∀ e ∈ (machine small).trace small0 nodesRun, e.1.rdSet = none := by decide
    rw [h e he] at hv; exact absurd hv (by simp), by decide, by decide, by decide⟩

/-! ### Complete bursts -/

/-- The full claim C145 for given parameters: when the writer waits for an acknowledge all the requested words have been sent,
the final one of every burst with `last`. -/
def CompleteBursts (c : Cfg) : Prop :=
  ∀ (s0 : St) (is : List In) (x : In), IsInit c s0 → Running is → AcksOk c ((machine c).trace s0 is) →
    ((machine c).outAfter s0 is x).ackRd = true →
    (written ((machine c).trace s0 is)).map Prod.snd = (requests ((machine c).trace s0 is)).flatMap lasts

/-- **C145 does not hold**: the datapump does not take the final word in the first cycle, the writer waits for an acknowledge of a
burst which is not complete. -/
theorem writer_bursts_fails : ¬ CompleteBursts small := by
  intro h
  have := h small0 [cyc 1, cyc 2, cyc 3, cyc 4, cycS 5] (cyc 6) small0_init (by unfold Running; decide)
    (by rw [acksOk_iff]; decide) (by decide)
  exact absurd this (by decide)

/-- The final word of each burst moves in the first cycle in which it is possible (it is in the fifo and the datapump is ready). -/
def LastTaken (c : Cfg) (s0 : St) (is : List In) : Prop :=
  ∀ pre x, pre ++ [x] <+: is → ((machine c).final s0 pre).fsm = .send → ((machine c).outAfter s0 pre x).wLast = true →
    ((machine c).outAfter s0 pre x).wVld = true ∧ x.wRd = true

/-- the words to be sent yet -/
def pendingWords (s : St) : List Bool :=
  match s.fsm with
  | .prepare => List.replicate s.reqLenB false ++ [true]
  | .send => List.replicate s.dataCntr false ++ [true]
  | _ => []

theorem bursts_hold {c : Cfg} (hc : c.Ok) {s0 : St} (h0 : IsInit c s0) (is : List In) (hl : LastTaken c s0 is) :
    (written ((machine c).trace s0 is)).map Prod.snd ++ pendingWords ((machine c).final s0 is) =
      (requests ((machine c).trace s0 is)).flatMap lasts ∧
    (((machine c).final s0 is).fsm = .prepare → ((machine c).final s0 is).reqLenB ≤ c.maxLen) ∧
    (((machine c).final s0 is).fsm = .send → ((machine c).final s0 is).dataCntr ≤ c.maxLen) := by
  induction is using List.reverseRecOn with
  | nil => simp [Machine.trace_nil, Machine.final_nil, written, requests, pendingWords, h0.fsm]
  | append_singleton is x ih =>
    obtain ⟨i1, i2, i3⟩ := ih fun pre y hp => hl pre y (hp.trans (List.prefix_append _ _))
    replace hl := hl is x List.prefix_rfl
    rw [Machine.trace_snoc, Machine.final_append]
    have eo : (machine c).outAfter s0 is x = out c ((machine c).final s0 is) x := rfl
    have en : (machine c).final ((machine c).final s0 is) [x] = next c ((machine c).final s0 is) x := rfl
    rw [eo] at hl ⊢
    rw [en]
    generalize (machine c).final s0 is = s at *
    generalize (machine c).trace s0 is = tr at *
    have hcw : c.maxLen < 2 ^ c.cntrWidth := by
      have := le_two_pow_log2ceil (c.BUFFER_CAPACITY / 2 + 1)
      have := hc.burst
      unfold Cfg.maxLen Cfg.cntrWidth; omega
    have eR : requests (tr ++ [(x, out c s x)]) = requests tr ++ given (decide (s.fsm = .reqPending) && x.reqRd)
        ⟨s.base * 2 ^ c.ALIGN_BITS, reqLen c s⟩ := by simp [requests, out]
    have eW : (written (tr ++ [(x, out c s x)])).map Prod.snd = (written tr).map Prod.snd ++ given (move s x) (s.dataCntr == 0) := by
      rw [written_append, List.map_append]
      simp only [written, out, move, List.flatMap_cons, List.flatMap_nil, List.append_nil]
      rcases Bool.eq_false_or_eq_true (fVld s x) with h1 | h1 <;> rcases Bool.eq_false_or_eq_true x.wRd with h2 | h2 <;>
        by_cases h3 : s.fsm = .send <;> simp [h1, h2, h3, given]
    rw [eR, eW, List.flatMap_append, ← i1]
    have n1 : (next c s x).fsm = nextFsm c s x := rfl
    have n2 : (next c s x).reqLenB = if s.fsm = .reqPending ∧ x.reqRd = true then reqLen c s else s.reqLenB := rfl
    have n3 : (next c s x).dataCntr = if s.fsm = .prepare then s.reqLenB % 2 ^ c.cntrWidth
      else if move s x then (s.dataCntr + 2 ^ c.cntrWidth - 1) % 2 ^ c.cntrWidth else s.dataCntr := rfl
    unfold pendingWords
    rw [n1, n2, n3]
    rcases hf : s.fsm
    · have : nextFsm c s x = .idle ∨ nextFsm c s x = .reqPending := by simp only [nextFsm, hf]; split <;> simp
      rcases this with h | h <;> simp [h, move, hf, given]
    · have := (reqLen_le (c := c) s).1
      rcases Bool.eq_false_or_eq_true x.reqRd with h | h <;> simp [nextFsm, h, move, hf, given, lasts]
      exact this
    · have := i2 hf
      have e : s.reqLenB % 2 ^ c.cntrWidth = s.reqLenB := Nat.mod_eq_of_lt (by omega)
      simp [nextFsm, move, hf, given, e, this]
    · have i3 := i3 hf
      by_cases hz : s.dataCntr = 0
      · have hm : move s x = true := by
          have := hl hf (by simp [out, hz])
          simpa [out, move, hf, this.2] using this.1
        simp [nextFsm, hf, hm, hz, given, transition]
      · rcases Bool.eq_false_or_eq_true (move s x) with h | h
        · have e : (s.dataCntr + 2 ^ c.cntrWidth - 1) % 2 ^ c.cntrWidth = s.dataCntr - 1 := by
            rw [show s.dataCntr + 2 ^ c.cntrWidth - 1 = (s.dataCntr - 1) + 2 ^ c.cntrWidth by omega, Nat.add_mod_right, Nat.mod_eq_of_lt (by omega)]
          obtain ⟨d, hd⟩ : ∃ d, s.dataCntr = d + 1 := ⟨s.dataCntr - 1, by omega⟩
          simp [nextFsm, hf, h, hz, given, transition, e]
          refine ⟨?_, by omega⟩
          rw [hd]
          simp [List.replicate_succ]
        · simp [nextFsm, hf, h, hz, given, transition, i3]
    · rcases Bool.eq_false_or_eq_true (gotWriteAck c x) with h | h <;> simp [nextFsm, h, move, hf, given]

/-- **C145, partial**: it holds if the final word of each burst is not delayed. -/
theorem writer_bursts_partial {c : Cfg} (hc : c.Ok) {s0 : St} (h0 : IsInit c s0) (is : List In) (hl : LastTaken c s0 is) (x : In) :
    ((written ((machine c).trace s0 is)).map Prod.snd <+: (requests ((machine c).trace s0 is)).flatMap lasts) ∧
    (((machine c).outAfter s0 is x).ackRd = true →
      (written ((machine c).trace s0 is)).map Prod.snd = (requests ((machine c).trace s0 is)).flatMap lasts) := by
  have h := (bursts_hold hc h0 is hl).1
  refine ⟨⟨_, h⟩, fun ha => ?_⟩
  have ha : decide (((machine c).final s0 is).fsm = .waitForAck) = true := ha
  rw [← h]
  simp at ha
  simp [pendingWords, ha]

/-- non-vacuity of `writer_bursts_partial` -/
example : LastTaken small small0 nodesRun := by
  have h : ∀ n (_ : n < nodesRun.length), ((machine small).final small0 (nodesRun.take n)).fsm = .send →
      ((machine small).outAfter small0 (nodesRun.take n) (nodesRun.getD n (cyc 0))).wLast = true →
      ((machine small).outAfter small0 (nodesRun.take n) (nodesRun.getD n (cyc 0))).wVld = true ∧ (nodesRun.getD n (cyc 0)).wRd = true := by
    decide
  rintro pre x ⟨suf, hs⟩
  have := h pre.length (by rw [← hs]; simp)
  rw [← hs] at this
  simpa using this

/-! ### Timeout -/

/-- the exported size of the fifo is the number of its items -/
def HonestSize (c : Cfg) (s0 : St) (is : List In) : Prop :=
  ∀ pre x, pre ++ [x] <+: is → x.size = ((machine c).final s0 pre).f.length

/-- nothing comes, everything is ready -/
def Quiet (x : In) : Prop :=
  x.vld = false ∧ x.rdSet = none ∧ x.reqRd = true ∧ x.wRd = true ∧ x.fv = true ∧ x.rReqRd = true

/-- The full claim C148 for given parameters: if there are free places, items in the buffer are written after some time even if
no other items come. -/
def Flushes (c : Cfg) : Prop :=
  ∀ (s0 : St) (is : List In), IsInit c s0 → Running is → AcksOk c ((machine c).trace s0 is) → HonestSize c s0 is →
    (accepted ((machine c).trace s0 is)).length ≤ space c s0.rd s0.wr →
    ∃ N, ∀ js, N ≤ js.length → (∀ x ∈ js, Quiet x) → Running js → AcksOk c ((machine c).trace s0 (is ++ js)) →
      HonestSize c s0 (is ++ js) →
      total (requests ((machine c).trace s0 (is ++ js))) = (written ((machine c).trace s0 (is ++ js))).length

/-- nothing comes, the fifo is empty -/
def quiet : In := ⟨none, none, none, true, false, 3, 0, true, true, false, 3, false, 0, true, true, 0, 0⟩
/-- timeout of one cycle -/
def hasty : Cfg := { small with TIMEOUT := 1 }
def hasty0 : St := { small0 with tmo := 1 }
/-- one item comes -/
def oneItem : List In :=
  [{ cyc 7 with size := 0 }, { quiet with size := 1 }, { quiet with size := 1 }, { quiet with size := 1 }, { quiet with size := 1 },
    { quiet with size := 1 }]

theorem quiet_stays {c : Cfg} (s : St) (hf : s.f = []) (n : Nat) :
    ((machine c).final s (List.replicate n quiet)).f = [] ∧ written ((machine c).trace s (List.replicate n quiet)) = [] ∧
    ∀ e ∈ (machine c).trace s (List.replicate n quiet), e.1 = quiet := by
  induction n generalizing s with
  | zero => simp [Machine.final_nil, Machine.trace_nil, hf, written]
  | succ n ih =>
    have hn : ((machine c).next s quiet).f = [] := by simp [machine, next, hf, move, fVld, quiet, given]
    obtain ⟨h1, h2, h3⟩ := ih _ hn
    rw [List.replicate_succ, Machine.final_cons, Machine.trace_cons]
    refine ⟨h1, ?_, ?_⟩
    · rw [← List.singleton_append, written_append, h2]
      simp [written, machine, out, fVld, hf, given]
    · intro e he
      rcases List.mem_cons.1 he with rfl | he
      · rfl
      · exact h3 e he

/-- **C148 does not hold**: the length of the burst started by the timeout does not depend on the number of items in the buffer. -/
theorem writer_flush_fails : ¬ Flushes hasty := by
  intro h
  have hi : IsInit hasty hasty0 := ⟨rfl, rfl, rfl, by decide, rfl, by decide, by decide, rfl, rfl⟩
  have hon : ∀ n (_ : n < oneItem.length), (oneItem.getD n quiet).size = ((machine hasty).final hasty0 (oneItem.take n)).f.length := by
    decide
  obtain ⟨N, hN⟩ := h hasty0 oneItem hi (by unfold Running; decide) (by rw [acksOk_iff]; decide)
    (by
      rintro pre x ⟨suf, hs⟩
      have := hon pre.length (by rw [← hs]; simp)
      rw [← hs] at this
      simpa using this) (by decide)
  have hf : ((machine hasty).final hasty0 oneItem).f = [] := by decide
  have hw : (written ((machine hasty).trace hasty0 oneItem)).length = 1 := by decide
  have hq : total (requests ((machine hasty).trace hasty0 oneItem)) = 2 := by decide
  obtain ⟨-, h2, h3⟩ := quiet_stays (c := hasty) _ hf N
  have := hN (List.replicate N quiet) (by simp) (fun x hx => by rw [List.eq_of_mem_replicate hx]; simp [Quiet, quiet])
    (fun x hx => by rw [List.eq_of_mem_replicate hx]; simp [quiet])
    (by
      have hno : ∀ e ∈ (machine hasty).trace hasty0 (oneItem ++ List.replicate N quiet), e.1.ackVld = false := by
        intro e he
        rw [Machine.trace_append] at he
        rcases List.mem_append.1 he with he | he
        · have : ∀ e ∈ (machine hasty).trace hasty0 oneItem, e.1.ackVld = false := by decide
          exact this e he
        · rw [h3 e he]; rfl
      intro pre e hp ha
      rw [hno e (hp.subset (by simp))] at ha
      simp at ha)
    (by
      rintro pre x ⟨suf, hs⟩
      rw [List.append_assoc] at hs
      rcases List.append_eq_append_iff.1 hs with ⟨a, ha, hb⟩ | ⟨a, ha, hb⟩
      · rcases a with _ | ⟨y, a⟩
        · have hx : x ∈ List.replicate N quiet := by
            rw [List.nil_append] at hb; rw [← hb]; simp
          rw [List.append_nil] at ha
          rw [← ha, hf, List.eq_of_mem_replicate hx]; rfl
        · simp at hb
          obtain ⟨rfl, -⟩ := hb
          have := hon pre.length (by rw [ha]; simp)
          rw [ha] at this
          simpa using this
      · have hx : x = quiet := List.eq_of_mem_replicate (n := N) (by rw [hb]; simp)
        have haq : a = List.replicate a.length quiet := by
          refine List.eq_replicate_iff.2 ⟨rfl, fun y hy => List.eq_of_mem_replicate (n := N) (by rw [hb]; simp [hy])⟩
        rw [ha, Machine.final_append, haq, (quiet_stays _ hf _).1, hx]; rfl)
  rw [Machine.trace_append, requests_append, written_append, total_append, h2, hq, List.append_nil, hw] at this
  omega

/-- **C148, partial**: a request is made after the timeout if there are items in the buffer and free places. -/
theorem writer_timeout_partial {c : Cfg} {s : St} (hi : s.fsm = .idle) (hr : s.rd < 2 ^ c.PTR_WIDTH) (hw : s.wr < 2 ^ c.PTR_WIDTH)
    (hs : 1 ≤ space c s.rd s.wr) {js : List In} (hj : s.tmo + 2 ≤ js.length)
    (h : ∀ x ∈ js, x.size ≠ 0 ∧ x.rdSet = none ∧ x.wrSet = none ∧ x.ackVld = false) :
    ∃ e ∈ (machine c).trace s js, e.2.reqVld = true := by
  induction js generalizing s with
  | nil => simp at hj
  | cons x js ih =>
    rw [Machine.trace_cons]
    obtain ⟨h1, h2, h3, h4⟩ := h x (by simp)
    have en : (machine c).next s x = next c s x := rfl
    by_cases hn : nextFsm c s x = .reqPending
    · rcases js with _ | ⟨y, js⟩
      · simp at hj
      · refine ⟨(y, out c (next c s x) y), ?_, ?_⟩
        · rw [Machine.trace_cons]; simp [machine]
        · have : (next c s x).fsm = .reqPending := hn
          simp [out, this]
    · have hi' : nextFsm c s x = .idle := by
        have : nextFsm c s x = .idle ∨ nextFsm c s x = .reqPending := by simp only [nextFsm, hi]; split <;> simp
        exact this.resolve_right hn
      have ht : s.tmo ≠ 0 := by
        intro h0
        simp [nextFsm, hi, h0] at hn
      have hq := (space_zero_iff hr hw).2 hs
      have e1 : (next c s x).tmo = s.tmo - 1 := by simp [next, hi, ht, h1, hq]
      have e2 : (next c s x).rd = s.rd := by simp [next, h2]
      have e3 : (next c s x).wr = s.wr := by simp [next, h3, gotWriteAck, h4]
      simp only [List.length_cons] at hj
      obtain ⟨e, he, hv⟩ := ih (s := (machine c).next s x) hi' (by rw [en, e2]; exact hr) (by rw [en, e3]; exact hw)
        (by rw [en, e2, e3]; exact hs) (by rw [en, e1]; omega) fun y hy => h y (by simp [hy])
      exact ⟨e, by simp [he], hv⟩

/-- non-vacuity of `writer_timeout_partial` -/
example : ∃ e ∈ (machine hasty).trace hasty0 (List.replicate 3 { quiet with size := 1 }), e.2.reqVld = true :=
  writer_timeout_partial rfl (by decide) (by decide) (by decide) (by decide) (by decide)

end Verif.LinkedListWriter
