import Verif.StrictOrder
/-!
# Properties C136 - C138 of the strict order interconnects of the datapumps
-/
namespace Verif.StrictOrder
open Verif.SplitJoin (anyN isSelected prioInit rol1 OneHot joinFairOut JoinIn JoinOut)

universe u v
variable {α : Type u} {β γ : Type v}

theorem read_prio {n : Nat} (h2 : 2 ≤ n) (is : List (RIn α β)) : PrioOk n ((readIc n).final rInit is).p := by
  induction is using List.reverseRecOn with
  | nil => exact ⟨0, by omega, SplitJoin.init_oneHot n⟩
  | append_singleton is i ih =>
    rw [Machine.final_append]
    exact prioOk_next ih

theorem write_prio {n : Nat} (h2 : 2 ≤ n) (is : List (WIn α β γ)) : PrioOk n ((writeIc n).final wInit is).p := by
  induction is using List.reverseRecOn with
  | nil => exact ⟨0, by omega, SplitJoin.init_oneHot n⟩
  | append_singleton is i ih =>
    rw [Machine.final_append]
    exact prioOk_next ih

/-- **C136** Each request which a driver hands over is given to the datapump once, in the same order; read. -/
theorem strict_requests_read {n : Nat} (h2 : 2 ≤ n) (is : List (RIn α β)) :
    rSent ((readIc n).trace rInit is) = (rHanded n ((readIc n).trace rInit is)).map fun e => some e.2 := by
  induction is using List.reverseRecOn with
  | nil => rfl
  | append_singleton is i ih =>
    rw [Machine.trace_snoc]
    simp only [rSent, rHanded, List.flatMap_append, List.flatMap_cons, List.flatMap_nil, List.append_nil, List.map_append] at ih ⊢
    rw [ih]
    congr 1
    rcases req_step h2 (read_prio h2 is) i.q with ⟨e1, e3, _⟩ | ⟨k, _, e1, e3, _⟩
    · show sent i.q (qOut n _ i.q) = (handed n i.q (qOut n _ i.q)).map _
      rw [e1, e3]; rfl
    · show sent i.q (qOut n _ i.q) = (handed n i.q (qOut n _ i.q)).map _
      rw [e1, e3]; rfl

section
/-- both drivers of two request; then the order fifo shows its item and data come -/
abbrev exR : List (RIn Nat Nat) :=
  [⟨⟨fun _ => true, fun k => k + 5, true, true⟩, true, 9, false, ⟨0, false⟩, fun _ => true⟩,
   ⟨⟨fun _ => true, fun k => k + 5, true, true⟩, true, 9, true, ⟨1, false⟩, fun _ => true⟩,
   ⟨⟨fun _ => false, fun k => k + 5, true, true⟩, true, 9, true, ⟨2, true⟩, fun _ => true⟩,
   ⟨⟨fun _ => false, fun k => k + 5, true, true⟩, true, 9, true, ⟨3, true⟩, fun _ => true⟩]

abbrev exPlan : Nat → List (Beat Nat) := fun k => if k = 0 then [⟨1, false⟩, ⟨2, true⟩] else [⟨3, true⟩]

/-- non-vacuity of C136: two requests of different drivers -/
example : rHanded 2 ((readIc 2).trace rInit exR) = [(0, 5), (1, 6)] := by decide

/-- non-vacuity of C137: three words, for the first and the second driver -/
example : (∀ k, IsBurst (exPlan k)) ∧ rTaken ((readIc 2).trace rInit exR) <+: (List.range 2).flatMap exPlan ∧
    rGiven 2 ((readIc 2).trace rInit exR) = [(0, ⟨1, false⟩), (0, ⟨2, true⟩), (1, ⟨3, true⟩)] := by
  refine ⟨fun k => ?_, by decide, by decide⟩
  unfold exPlan
  split
  · exact ⟨[⟨1, false⟩], ⟨2, true⟩, rfl, rfl, by simp⟩
  · exact ⟨[], ⟨3, true⟩, rfl, rfl, by simp⟩
end

/-- **C136** the same for the write interconnect. -/
theorem strict_requests_write {n : Nat} (h2 : 2 ≤ n) (is : List (WIn α β γ)) :
    wSent ((writeIc n).trace wInit is) = (wHanded n ((writeIc n).trace wInit is)).map fun e => some e.2 := by
  induction is using List.reverseRecOn with
  | nil => rfl
  | append_singleton is i ih =>
    rw [Machine.trace_snoc]
    simp only [wSent, wHanded, List.flatMap_append, List.flatMap_cons, List.flatMap_nil, List.append_nil, List.map_append] at ih ⊢
    rw [ih]
    congr 1
    rcases req_step h2 (write_prio h2 is) i.q with ⟨e1, e3, _⟩ | ⟨k, _, e1, e3, _⟩
    · show sent i.q (qOut n _ i.q) = (handed n i.q (qOut n _ i.q)).map _
      rw [e1, e3]; rfl
    · show sent i.q (qOut n _ i.q) = (handed n i.q (qOut n _ i.q)).map _
      rw [e1, e3]; rfl

/-! ### C137 read data -/

structure RInv (n : Nat) (plan : Nat → List (Beat β)) (ow : List Nat) (tk : List (Beat β)) (gv : List (Nat × Beat β)) (s : RSt)
    (O : List (Nat × List (Beat β))) : Prop where
  f : s.f = O.map Prod.fst
  lt : ∀ e ∈ O, e.1 < n
  burst : ∀ e ∈ O, IsBurst e.2
  out : gv ++ restOf O = tagged plan ow
  eq : gv.map Prod.snd = tk

theorem restOf_append (a b : List (Nat × List (Beat β))) : restOf (a ++ b) = restOf a ++ restOf b := by simp [restOf]

/-- What moves in one cycle on the read data channel. -/
theorem read_move {n : Nat} (s : RSt) (x : RIn α β) (hlt : ∀ i ∈ s.f, i < n) :
    (∃ i f, s.f = i :: f ∧ given (x.vld && (rOut n s x).rd) x.beat = [x.beat] ∧
      ((List.range n).filterMap fun k => if (rOut n s x).vld k && x.rd k then some (k, (rOut n s x).beat k) else none) = [(i, x.beat)] ∧
      (rfVld s x && rPop n s x) = x.beat.last) ∨
    (given (x.vld && (rOut n s x).rd) x.beat = [] ∧
      ((List.range n).filterMap fun k => if (rOut n s x).vld k && x.rd k then some (k, (rOut n s x).beat k) else none) = [] ∧
      (rfVld s x && rPop n s x) = false) := by
  cases hv : rfVld s x
  · right
    refine ⟨by simp [rOut, hv], filterMap_range_none fun j _ => by simp [rOut, hv], by simp⟩
  · obtain ⟨i, f, hf⟩ : ∃ i f, s.f = i :: f := by
      cases h : s.f with
      | nil => simp [rfVld, h] at hv
      | cons i f => exact ⟨i, f, rfl⟩
    have hi : i < n := hlt i (by rw [hf]; simp)
    have hd : rfData s x = i := by simp [rfData, hv, hf]
    have hs : selectedDriverReady n s x = x.rd i := by
      unfold selectedDriverReady
      rw [hd, Bool.eq_iff_iff, List.any_eq_true]
      constructor
      · rintro ⟨k, _, h⟩
        simp at h
        rw [h.1]; exact h.2
      · intro h
        exact ⟨i, List.mem_range.2 hi, by simp [h]⟩
    cases ht : x.vld && x.rd i
    · right
      refine ⟨by simp [rOut, hv, hs, ht], filterMap_range_none fun j _ => ?_, ?_⟩
      · simp only [rOut, hv, hd]
        by_cases hj : j = i
        · subst hj; simpa using ht
        · have : (i == j) = false := by simpa using fun h => hj h.symm
          simp [this]
      · rw [Bool.and_eq_false_iff] at ht
        rcases ht with h | h <;> simp [rPop, hs, h]
    · left
      have ht' := ht
      rw [Bool.and_eq_true] at ht'
      refine ⟨i, f, hf, by simp [rOut, hv, hs, ht'], ?_, by simp [rPop, hs, ht']⟩
      apply filterMap_range_single (f := fun k => (k, (rOut n s x).beat k)) hi
      · simp [rOut, hv, hd, ht']
      · intro j _ h
        simp [rOut, hv, hd] at h
        exact h.1.2.symm

theorem prefix_take {l m : List β} (h : l <+: m) : l = m.take l.length := List.prefix_iff_eq_take.1 h

theorem read_inv {n : Nat} (h2 : 2 ≤ n) {plan : Nat → List (Beat β)} (hplan : ∀ k, IsBurst (plan k)) (K : Nat) (is : List (RIn α β))
    (hK : ((tagged plan ((rHanded n ((readIc n).trace rInit is)).map Prod.fst)).map Prod.snd) <+: (List.range K).flatMap plan)
    (henv : rTaken ((readIc n).trace rInit is) <+: (List.range K).flatMap plan) :
    ∃ O, RInv n plan ((rHanded n ((readIc n).trace rInit is)).map Prod.fst) (rTaken ((readIc n).trace rInit is))
      (rGiven n ((readIc n).trace rInit is)) ((readIc n).final rInit is) O := by
  induction is using List.reverseRecOn with
  | nil => exact ⟨[], by constructor <;> simp [rInit, rHanded, rTaken, rGiven, restOf, tagged]⟩
  | append_singleton is x ih =>
    rw [Machine.trace_snoc] at hK henv ⊢
    rw [Machine.final_append]
    have eo : (readIc n).outAfter rInit is x = rOut n ((readIc n).final rInit is) x := rfl
    have en : (readIc n).final ((readIc n).final rInit is) [x] = rNext n ((readIc n).final rInit is) x := rfl
    rw [eo] at hK henv ⊢
    rw [en]
    have hp := read_prio h2 is
    simp only [rHanded, rTaken, rGiven, List.flatMap_append, List.flatMap_cons, List.flatMap_nil, List.append_nil, List.map_append]
      at hK henv ih ⊢
    generalize hs : (readIc n).final rInit is = s at *
    generalize hH : (List.flatMap (fun e : RIn α β × ROut α β => handed n e.1.q e.2.q) ((readIc n).trace rInit is)).map Prod.fst = H at *
    obtain ⟨O, h⟩ := ih ((List.IsPrefix.map Prod.snd (tagged_prefix plan (List.prefix_append _ _))).trans hK)
      ((List.prefix_append _ _).trans henv)
    -- data
    have key : ∃ O', (if rfVld s x && rPop n s x then s.f.tail else s.f) = O'.map Prod.fst ∧ (∀ e ∈ O', e.1 < n) ∧
        (∀ e ∈ O', IsBurst e.2) ∧
        ((List.flatMap (fun e => (List.range n).filterMap fun i => if e.2.vld i && e.1.rd i then some (i, e.2.beat i) else none)
          ((readIc n).trace rInit is)) ++ ((List.range n).filterMap fun k => if (rOut n s x).vld k && x.rd k then
            some (k, (rOut n s x).beat k) else none)) ++ restOf O' = tagged plan H ∧
        ((List.range n).filterMap fun k => if (rOut n s x).vld k && x.rd k then some (k, (rOut n s x).beat k) else none).map Prod.snd =
          given (x.vld && (rOut n s x).rd) x.beat := by
      have hlt : ∀ i ∈ s.f, i < n := by
        intro i hi
        rw [h.f, List.mem_map] at hi
        obtain ⟨e, he, rfl⟩ := hi
        exact h.lt e he
      rcases read_move s x hlt with ⟨i, f, hf, t1, t2, t3⟩ | ⟨t1, t2, t3⟩
      · rw [t1, t2, t3]
        rw [t1] at henv
        have hO := h.f
        rw [hf] at hO
        obtain ⟨⟨i', l⟩, O1, rfl⟩ : ∃ a O1, O = a :: O1 := by
          cases O with
          | nil => cases hO
          | cons a O => exact ⟨a, O, rfl⟩
        simp at hO
        obtain ⟨rfl, hO⟩ := hO
        have hb := h.burst (i, l) (by simp)
        obtain ⟨b, l, rfl⟩ : ∃ b l', l = b :: l' := by
          cases l with
          | nil => exact absurd rfl (isBurst_ne hb)
          | cons b l => exact ⟨b, l, rfl⟩
        obtain ⟨a1, a2, a3⟩ := adv_step h.burst
        have hout := h.out
        rw [a1] at hout
        have hbeat : x.beat = b := by
          rw [← h.eq] at henv
          have h3 := (List.IsPrefix.map Prod.snd (tagged_prefix plan (List.prefix_append _ _))).trans hK
          rw [← hout, List.map_append, List.map_cons] at h3
          exact head_eq henv h3
        refine ⟨adv ((i, b :: l) :: O1), ?_, ?_, a3, ?_, by simp⟩
        · rw [a2, hbeat, hf, hO]; simp
        · intro e he
          have : e.1 ∈ (adv ((i, b :: l) :: O1)).map Prod.fst := List.mem_map.2 ⟨e, he, rfl⟩
          rw [a2] at this
          have h4 : e.1 ∈ ((i, b :: l) :: O1).map Prod.fst := by
            split at this
            · exact List.mem_of_mem_tail this
            · exact this
          obtain ⟨e', he', h5⟩ := List.mem_map.1 h4
          rw [← h5]; exact h.lt e' he'
        · rw [hbeat, List.append_assoc]
          exact hout
      · rw [t1, t2, t3]
        exact ⟨O, by simpa using h.f, h.lt, h.burst, by simpa using h.out, rfl⟩
    obtain ⟨O', o1, o2, o3, o4, o5⟩ := key
    have heq := h.eq
    -- request
    rcases req_step h2 hp x.q with ⟨e1, _, e4⟩ | ⟨k, hk, e1, _, e4⟩
    · refine ⟨O', ?_, o2, o3, ?_, ?_⟩
      · show (if rfVld s x && rPop n s x then s.f.tail else s.f) ++ push n s.p x.q = _
        rw [e4, o1]; simp
      · show _ = tagged plan (H ++ (handed n x.q (qOut n s.p x.q)).map Prod.fst)
        rw [e1, o4]; simp
      · rw [List.map_append, heq, o5]
    · refine ⟨O' ++ [(k, plan H.length)], ?_, ?_, ?_, ?_, ?_⟩
      · show (if rfVld s x && rPop n s x then s.f.tail else s.f) ++ push n s.p x.q = _
        rw [e4, o1]; simp
      · intro e he
        rcases List.mem_append.1 he with he | he
        · exact o2 e he
        · simp at he; rw [he]; exact hk
      · intro e he
        rcases List.mem_append.1 he with he | he
        · exact o3 e he
        · simp at he; rw [he]; exact hplan _
      · show _ = tagged plan (H ++ (handed n x.q (qOut n s.p x.q)).map Prod.fst)
        rw [e1, restOf_append, ← List.append_assoc, o4]
        simp only [List.map_cons, List.map_nil]
        rw [tagged_snoc]
        simp [restOf]
      · rw [List.map_append, heq, o5]

theorem tagged_snd (plan : Nat → List (Beat β)) (ow : List Nat) : (tagged plan ow).map Prod.snd = (List.range ow.length).flatMap plan := by
  induction ow using List.reverseRecOn with
  | nil => rfl
  | append_singleton ow i ih =>
    rw [tagged_snoc, List.map_append, ih, List.length_append, List.length_singleton, List.range_succ, List.flatMap_append]
    simp [Function.comp_def]

/-- **C137** If the datapump answers the requests in order with one burst for each then every word goes to the driver of its
request, in the same cycle, and no word is lost or doubled. -/
theorem strict_read_data {n : Nat} (h2 : 2 ≤ n) {plan : Nat → List (Beat β)} (hplan : ∀ k, IsBurst (plan k)) (is : List (RIn α β))
    (K : Nat) (henv : rTaken ((readIc n).trace rInit is) <+: (List.range K).flatMap plan) :
    rGiven n ((readIc n).trace rInit is) <+: tagged plan ((rHanded n ((readIc n).trace rInit is)).map Prod.fst) ∧
    (rGiven n ((readIc n).trace rInit is)).map Prod.snd = rTaken ((readIc n).trace rInit is) := by
  have hmono : ∀ a b : Nat, a ≤ b → (List.range a).flatMap plan <+: (List.range b).flatMap plan := by
    intro a b hab
    obtain ⟨c, rfl⟩ := Nat.exists_eq_add_of_le hab
    rw [List.range_add, List.flatMap_append]
    exact List.prefix_append _ _
  obtain ⟨O, h⟩ := read_inv h2 hplan (max K (rHanded n ((readIc n).trace rInit is)).length) is
    (by rw [tagged_snd, List.length_map]; exact hmono _ _ (Nat.le_max_right _ _))
    (henv.trans (hmono _ _ (Nat.le_max_left _ _)))
  exact ⟨⟨_, h.out⟩, h.eq⟩

/-! ### C138 write data and acknowledges -/

/-- Words of the bursts in the order of the requests: the k-th request of driver `i` belongs to the burst `bursts i k`. -/
def merged (bursts : Nat → Nat → List (Beat β)) (owners : List Nat) : List (Nat × Beat β) :=
  owners.zipIdx.flatMap fun e => (bursts e.1 ((owners.take e.2).count e.1)).map fun b => (e.1, b)

theorem merged_snoc (bursts : Nat → Nat → List (Beat β)) (o : List Nat) (i : Nat) :
    merged bursts (o ++ [i]) = merged bursts o ++ (bursts i (o.count i)).map fun b => (i, b) := by
  unfold merged
  rw [List.zipIdx_append, List.flatMap_append]
  congr 1
  · apply List.flatMap_congr
    intro e he
    have : e.2 < o.length := by
      have := List.snd_lt_of_mem_zipIdx he
      simpa using this
    rw [List.take_append_of_le_length (by omega)]
  · simp

theorem ofDriver_append (i : Nat) (a b : List (Nat × β)) : ofDriver i (a ++ b) = ofDriver i a ++ ofDriver i b := by simp [ofDriver]

theorem ofDriver_same (i : Nat) (l : List β) : ofDriver i (l.map fun b => (i, b)) = l := by
  induction l with
  | nil => rfl
  | cons a l ih => simp [ofDriver] at ih ⊢; exact ih

theorem ofDriver_other {i j : Nat} (h : j ≠ i) (l : List β) : ofDriver i (l.map fun b => (j, b)) = [] := by
  simp [ofDriver, h]

theorem ofDriver_merged (bursts : Nat → Nat → List (Beat β)) (i : Nat) (o : List Nat) :
    ofDriver i (merged bursts o) = (List.range (o.count i)).flatMap (bursts i) := by
  induction o using List.reverseRecOn with
  | nil => rfl
  | append_singleton o j ih =>
    rw [merged_snoc, ofDriver_append, ih]
    by_cases h : j = i
    · subst h
      rw [ofDriver_same, List.count_append]
      simp [List.range_succ]
    · rw [ofDriver_other h, List.count_append]
      simp [h]

/-- Drivers of the finished bursts. -/
def finished (l : List (Nat × Beat β)) : List Nat := (l.filter fun e => e.2.last).map Prod.fst

structure WInv (n : Nat) (bursts : Nat → Nat → List (Beat β)) (ow : List Nat) (tk : Nat → List (Beat β)) (gv : List (Option (Beat β)))
    (at' : List γ) (ag : List (Nat × γ)) (s : WSt) (O : List (Nat × List (Beat β))) (g : List (Nat × Beat β)) : Prop where
  f : s.f = O.map Prod.fst
  lt : ∀ e ∈ O, e.1 < n
  burst : ∀ e ∈ O, IsBurst e.2
  out : g ++ restOf O = merged bursts ow
  gv : gv = g.map fun e => some e.2
  tk : ∀ i, i < n → tk i = ofDriver i g
  fin : finished g = ag.map Prod.fst ++ s.a
  ow : finished g ++ s.f = ow
  ltg : ∀ i ∈ s.a, i < n
  ack : ag.map Prod.snd = at'

theorem any_range_eq {n i : Nat} (hi : i < n) (c : Nat → Bool) : ((List.range n).any fun k => i == k && c k) = c i := by
  rw [Bool.eq_iff_iff, List.any_eq_true]
  constructor
  · rintro ⟨k, _, h⟩
    simp at h
    rw [h.1]; exact h.2
  · intro h
    exact ⟨i, List.mem_range.2 hi, by simp [h]⟩

/-- What moves in one cycle on the write data channel. -/
theorem write_move {n : Nat} (s : WSt) (x : WIn α β γ) (hlt : ∀ i ∈ s.f, i < n) :
    (∃ i f, i < n ∧ s.f = i :: f ∧ given ((wOut n s x).wVld && x.wRd) (wOut n s x).wBeat = [some (x.wBeat i)] ∧
      (∀ k, given (x.wVld k && (wOut n s x).wRd k) (x.wBeat k) = if k = i then [x.wBeat i] else []) ∧
      (wfVld s x && wPop n s x) = (x.wBeat i).last ∧
      given (aPush n s x && x.aRd) (wfData s x) = if (x.wBeat i).last then [i] else []) ∨
    (given ((wOut n s x).wVld && x.wRd) (wOut n s x).wBeat = [] ∧
      (∀ k, given (x.wVld k && (wOut n s x).wRd k) (x.wBeat k) = []) ∧
      (wfVld s x && wPop n s x) = false ∧ given (aPush n s x && x.aRd) (wfData s x) = []) := by
  cases hv : wfVld s x
  · right
    refine ⟨by simp [wOut, hv], fun k => by simp [wOut, hv], by simp, by simp [aPush, hv]⟩
  · obtain ⟨i, f, hf⟩ : ∃ i f, s.f = i :: f := by
      cases h : s.f with
      | nil => simp [wfVld, h] at hv
      | cons i f => exact ⟨i, f, rfl⟩
    have hi : i < n := hlt i (by rw [hf]; simp)
    have hd : wfData s x = i := by simp [wfData, hv, hf]
    have hs : selVld n s x = x.wVld i := by
      unfold selVld; rw [hd]; exact any_range_eq hi _
    have hl : selLast n s x = (x.wBeat i).last := by
      unfold selLast; rw [hd]; exact any_range_eq hi fun k => (x.wBeat k).last
    cases ht : x.wVld i && x.wRd && x.aRd
    · right
      refine ⟨?_, fun k => ?_, ?_, ?_⟩
      · have : ((wOut n s x).wVld && x.wRd) = false := by
          simp only [wOut, hs, hv]
          rw [← ht]
          cases x.wVld i <;> cases x.wRd <;> simp
        rw [this]; rfl
      · have : (x.wVld k && (wOut n s x).wRd k) = false := by
          simp only [wOut, hv, hd]
          by_cases h : k = i
          · subst h
            rw [← ht]
            cases x.wVld k <;> cases x.wRd <;> simp
          · have : (i == k) = false := by simpa using fun h' => h h'.symm
            simp [this]
        rw [this]; rfl
      · simp only [wPop, hs, Bool.true_and]
        rw [← Bool.not_eq_true]
        intro h
        simp at h ht
        have := ht h.1.1.1 h.1.2
        rw [this] at h
        exact absurd h.2 (by simp)
      · have : (aPush n s x && x.aRd) = false := by
          rw [← Bool.not_eq_true]
          intro h
          simp [aPush, hs, hv] at h ht
          have := ht h.1.1.1 h.1.2
          rw [this] at h
          exact absurd h.2 (by simp)
        rw [this]; rfl
    · left
      simp only [Bool.and_eq_true] at ht
      refine ⟨i, f, hi, hf, by simp [wOut, hv, hs, ht, hd, hi], fun k => ?_, by simp [wPop, hs, hl, ht], ?_⟩
      · by_cases h : k = i
        · subst h; simp [wOut, hv, hd, ht]
        · have : (i == k) = false := by simpa using fun h' => h h'.symm
          simp [wOut, hd, this, h]
      · simp only [aPush, hs, hl, ht, hv, hd]
        cases (x.wBeat i).last <;> simp

/-- What moves in one cycle on the acknowledge channel. -/
theorem ack_move {n : Nat} (s : WSt) (x : WIn α β γ) (hlt : ∀ i ∈ s.a, i < n) :
    (∃ i f, s.a = i :: f ∧ given (x.ackVld && (wOut n s x).ackRd) x.ack = [x.ack] ∧
      ((List.range n).filterMap fun k => if (wOut n s x).ackVld k && x.ackRd k then some (k, (wOut n s x).ack k) else none) =
        [(i, x.ack)] ∧ (waVld s x && aPop n s x) = true) ∨
    (given (x.ackVld && (wOut n s x).ackRd) x.ack = [] ∧
      ((List.range n).filterMap fun k => if (wOut n s x).ackVld k && x.ackRd k then some (k, (wOut n s x).ack k) else none) = [] ∧
      (waVld s x && aPop n s x) = false) := by
  cases hv : waVld s x
  · right
    refine ⟨by simp [wOut, hv], filterMap_range_none fun j _ => by simp [wOut, hv], by simp⟩
  · obtain ⟨i, f, hf⟩ : ∃ i f, s.a = i :: f := by
      cases h : s.a with
      | nil => simp [waVld, h] at hv
      | cons i f => exact ⟨i, f, rfl⟩
    have hi : i < n := hlt i (by rw [hf]; simp)
    have hd : waData s x = i := by simp [waData, hv, hf]
    have hs : selAckRd n s x = x.ackRd i := by
      unfold selAckRd; rw [hd]; exact any_range_eq hi _
    cases ht : x.ackVld && x.ackRd i
    · right
      refine ⟨by simp [wOut, hv, hs, ht], filterMap_range_none fun j _ => ?_, by simp [aPop, hs, ht]⟩
      simp only [wOut, hv, hd]
      by_cases hj : j = i
      · subst hj; simpa using ht
      · have : (i == j) = false := by simpa using fun h => hj h.symm
        simp [this]
    · left
      have ht' := ht
      rw [Bool.and_eq_true] at ht'
      refine ⟨i, f, hf, by simp [wOut, hv, hs, ht'], ?_, by simp [aPop, hs, ht']⟩
      apply filterMap_range_single (f := fun k => (k, (wOut n s x).ack k)) hi
      · simp [wOut, hv, hd, ht']
      · intro j _ h
        simp [wOut, hv, hd] at h
        exact h.1.2.symm

theorem finished_append (a b : List (Nat × Beat β)) : finished (a ++ b) = finished a ++ finished b := by simp [finished]

theorem flatMap_range_mono (f : Nat → List β) {a b : Nat} (hab : a ≤ b) : (List.range a).flatMap f <+: (List.range b).flatMap f := by
  obtain ⟨c, rfl⟩ := Nat.exists_eq_add_of_le hab
  rw [List.range_add, List.flatMap_append]
  exact List.prefix_append _ _

theorem write_inv {n : Nat} (h2 : 2 ≤ n) {bursts : Nat → Nat → List (Beat β)} (hb : ∀ i k, IsBurst (bursts i k)) (K : Nat)
    (is : List (WIn α β γ)) (hK : (wHanded n ((writeIc n).trace wInit is)).length ≤ K)
    (henv : ∀ i, i < n → wTaken ((writeIc n).trace wInit is) i <+: (List.range K).flatMap (bursts i)) :
    ∃ O g, WInv n bursts ((wHanded n ((writeIc n).trace wInit is)).map Prod.fst) (wTaken ((writeIc n).trace wInit is))
      (wGiven ((writeIc n).trace wInit is)) (ackTaken ((writeIc n).trace wInit is)) (ackGiven n ((writeIc n).trace wInit is))
      ((writeIc n).final wInit is) O g := by
  induction is using List.reverseRecOn with
  | nil =>
    exact ⟨[], [], by
      constructor <;> simp [wInit, wHanded, wTaken, wGiven, ackTaken, ackGiven, restOf, merged, finished, ofDriver]⟩
  | append_singleton is x ih =>
    rw [Machine.trace_snoc] at hK henv ⊢
    rw [Machine.final_append]
    have eo : (writeIc n).outAfter wInit is x = wOut n ((writeIc n).final wInit is) x := rfl
    have en : (writeIc n).final ((writeIc n).final wInit is) [x] = wNext n ((writeIc n).final wInit is) x := rfl
    rw [eo] at hK henv ⊢
    rw [en]
    have hp := write_prio h2 is
    generalize hs : (writeIc n).final wInit is = s at *
    generalize (writeIc n).trace wInit is = tr at *
    have eH : wHanded n (tr ++ [(x, wOut n s x)]) = wHanded n tr ++ handed n x.q (qOut n s.p x.q) := by
      simp [wHanded, wOut]
    have eT : ∀ i, wTaken (tr ++ [(x, wOut n s x)]) i = wTaken tr i ++ given (x.wVld i && (wOut n s x).wRd i) (x.wBeat i) := by
      simp [wTaken]
    have eG : wGiven (tr ++ [(x, wOut n s x)]) = wGiven tr ++ given ((wOut n s x).wVld && x.wRd) (wOut n s x).wBeat := by
      simp [wGiven]
    have eA : ackTaken (tr ++ [(x, wOut n s x)]) = ackTaken tr ++ given (x.ackVld && (wOut n s x).ackRd) x.ack := by
      simp [ackTaken]
    have eB : ackGiven n (tr ++ [(x, wOut n s x)]) = ackGiven n tr ++ ((List.range n).filterMap fun k =>
        if (wOut n s x).ackVld k && x.ackRd k then some (k, (wOut n s x).ack k) else none) := by
      simp [ackGiven]
    rw [eH, List.length_append] at hK
    obtain ⟨O, g, h⟩ := ih (by omega) fun i hi => by
      have := henv i hi
      rw [eT] at this
      exact (List.prefix_append _ _).trans this
    -- data
    have hltf : ∀ i ∈ s.f, i < n := by
      intro i hi
      rw [h.f, List.mem_map] at hi
      obtain ⟨e, he, rfl⟩ := hi
      exact h.lt e he
    have key : ∃ O' g', (if wfVld s x && wPop n s x then s.f.tail else s.f) = O'.map Prod.fst ∧ (∀ e ∈ O', e.1 < n) ∧
        (∀ e ∈ O', IsBurst e.2) ∧ g ++ g' ++ restOf O' = merged bursts ((wHanded n tr).map Prod.fst) ∧
        given ((wOut n s x).wVld && x.wRd) (wOut n s x).wBeat = (g'.map fun e => some e.2) ∧
        (∀ i, given (x.wVld i && (wOut n s x).wRd i) (x.wBeat i) = ofDriver i g') ∧
        finished g' = given (aPush n s x && x.aRd) (wfData s x) ∧ (∀ i ∈ finished g', i < n) ∧
        finished g' ++ (if wfVld s x && wPop n s x then s.f.tail else s.f) = s.f := by
      rcases write_move s x hltf with ⟨i, f, hi, hf, t1, t2, t3, t4⟩ | ⟨t1, t2, t3, t4⟩
      · have hO := h.f
        rw [hf] at hO
        obtain ⟨⟨i', l⟩, O1, rfl⟩ : ∃ a O1, O = a :: O1 := by
          cases O with
          | nil => cases hO
          | cons a O => exact ⟨a, O, rfl⟩
        simp at hO
        obtain ⟨rfl, hO⟩ := hO
        have hbu := h.burst (i, l) (by simp)
        obtain ⟨b, l, rfl⟩ : ∃ b l', l = b :: l' := by
          cases l with
          | nil => exact absurd rfl (isBurst_ne hbu)
          | cons b l => exact ⟨b, l, rfl⟩
        obtain ⟨a1, a2, a3⟩ := adv_step h.burst
        have hout := h.out
        rw [a1] at hout
        have hbeat : x.wBeat i = b := by
          have e1 := henv i hi
          rw [eT, t2, if_pos rfl, h.tk i hi] at e1
          have e2 : ofDriver i (merged bursts ((wHanded n tr).map Prod.fst)) <+: (List.range K).flatMap (bursts i) := by
            rw [ofDriver_merged]
            apply flatMap_range_mono
            have := List.count_le_length (a := i) (l := (wHanded n tr).map Prod.fst)
            rw [List.length_map] at this
            omega
          rw [← hout, ofDriver_append] at e2
          have e3 : ofDriver i ((i, b) :: restOf (adv ((i, b :: l) :: O1))) = b :: ofDriver i (restOf (adv ((i, b :: l) :: O1))) := by
            simp [ofDriver]
          rw [e3] at e2
          exact head_eq e1 e2
        rw [hbeat] at t1 t2 t3 t4
        refine ⟨adv ((i, b :: l) :: O1), [(i, b)], ?_, ?_, a3, ?_, by simpa using t1, ?_, ?_, ?_, ?_⟩
        · rw [a2, t3, hf, hO]; simp
        · intro e he
          have : e.1 ∈ (adv ((i, b :: l) :: O1)).map Prod.fst := List.mem_map.2 ⟨e, he, rfl⟩
          rw [a2] at this
          have h4 : e.1 ∈ ((i, b :: l) :: O1).map Prod.fst := by
            split at this
            · exact List.mem_of_mem_tail this
            · exact this
          obtain ⟨e', he', h5⟩ := List.mem_map.1 h4
          rw [← h5]; exact h.lt e' he'
        · rw [List.append_assoc]; exact hout
        · intro k
          rw [t2]
          by_cases hk : k = i
          · subst hk; simp [ofDriver]
          · simp [ofDriver, hk, Ne.symm hk]
        · rw [t4]
          cases hl : b.last <;> simp [finished, hl]
        · intro k hk
          cases hl : b.last <;> simp [finished, hl] at hk
          rw [hk]; exact hi
        · rw [t3, hf]
          cases hl : b.last <;> simp [finished, hl]
      · refine ⟨O, [], ?_, h.lt, h.burst, ?_, by rw [t1]; rfl, fun i => by rw [t2]; rfl, by rw [t4]; rfl, by simp [finished], ?_⟩
        · rw [t3]; simpa using h.f
        · simpa using h.out
        · rw [t3]; simp [finished]
    obtain ⟨O', g', o1, o2, o3, o4, o5, o6, o7, o8, o9⟩ := key
    -- acknowledge
    have hack : (((List.range n).filterMap fun k => if (wOut n s x).ackVld k && x.ackRd k then some (k, (wOut n s x).ack k)
          else none).map Prod.fst) ++ (if waVld s x && aPop n s x then s.a.tail else s.a) = s.a ∧
        ((List.range n).filterMap fun k => if (wOut n s x).ackVld k && x.ackRd k then some (k, (wOut n s x).ack k)
          else none).map Prod.snd = given (x.ackVld && (wOut n s x).ackRd) x.ack := by
      rcases ack_move s x h.ltg with ⟨i, f, hf, t1, t2, t3⟩ | ⟨t1, t2, t3⟩
      · rw [t1, t2, t3, hf]; simp
      · rw [t1, t2, t3]; simp
    have hfin : finished (g ++ g') = (ackGiven n (tr ++ [(x, wOut n s x)])).map Prod.fst ++ (wNext n s x).a := by
      rw [finished_append, h.fin, eB, List.map_append]
      show _ = _ ++ ((if waVld s x && aPop n s x then s.a.tail else s.a) ++ given (aPush n s x && x.aRd) (wfData s x))
      rw [← o7]
      conv_lhs => rw [← hack.1]
      simp only [List.append_assoc]
    have hltg : ∀ i ∈ (wNext n s x).a, i < n := by
      intro i hi
      change i ∈ (if waVld s x && aPop n s x then s.a.tail else s.a) ++ given (aPush n s x && x.aRd) (wfData s x) at hi
      rw [← o7] at hi
      rcases List.mem_append.1 hi with hi | hi
      · apply h.ltg
        rw [← hack.1]
        exact List.mem_append_right _ hi
      · exact o8 i hi
    have hak : (ackGiven n (tr ++ [(x, wOut n s x)])).map Prod.snd = ackTaken (tr ++ [(x, wOut n s x)]) := by
      rw [eA, eB, List.map_append, h.ack, hack.2]
    have hgv : wGiven (tr ++ [(x, wOut n s x)]) = (g ++ g').map fun e => some e.2 := by
      rw [eG, h.gv, o5, List.map_append]
    have htk : ∀ i, i < n → wTaken (tr ++ [(x, wOut n s x)]) i = ofDriver i (g ++ g') := by
      intro i hi
      rw [eT, h.tk i hi, o6, ofDriver_append]
    have how : finished (g ++ g') ++ (if wfVld s x && wPop n s x then s.f.tail else s.f) = (wHanded n tr).map Prod.fst := by
      rw [finished_append, List.append_assoc, o9]; exact h.ow
    have enf : (wNext n s x).f = (if wfVld s x && wPop n s x then s.f.tail else s.f) ++ push n s.p x.q := rfl
    rcases req_step h2 hp x.q with ⟨e1, _, e4⟩ | ⟨k, hk, e1, _, e4⟩
    · refine ⟨O', g ++ g', ?_, o2, o3, ?_, hgv, htk, hfin, ?_, hltg, hak⟩
      · rw [enf, e4, o1]; simp
      · rw [eH, e1, o4]; simp
      · rw [enf, e4, eH, e1]; simpa using how
    · refine ⟨O' ++ [(k, bursts k (((wHanded n tr).map Prod.fst).count k))], g ++ g', ?_, ?_, ?_, ?_, hgv, htk, hfin, ?_, hltg, hak⟩
      · rw [enf, e4, o1]; simp
      · intro e he
        rcases List.mem_append.1 he with he | he
        · exact o2 e he
        · simp at he; rw [he]; exact hk
      · intro e he
        rcases List.mem_append.1 he with he | he
        · exact o3 e he
        · simp at he; rw [he]; exact hb _ _
      · rw [eH, e1, restOf_append, ← List.append_assoc, o4, List.map_append]
        simp only [List.map_cons, List.map_nil]
        rw [merged_snoc]
        simp [restOf]
      · rw [enf, e4, eH, e1, ← List.append_assoc, how]; simp

/-- **C138** If every driver sends one burst for each of its requests then the datapump gets the bursts in the order of the requests
without gaps and without words of other drivers between, and the word of each driver is the one it has sent. The acknowledges go
to the drivers of finished bursts in order, no acknowledge is lost or doubled. -/
theorem strict_write_data {n : Nat} (h2 : 2 ≤ n) {bursts : Nat → Nat → List (Beat β)} (hb : ∀ i k, IsBurst (bursts i k))
    (is : List (WIn α β γ)) (K : Nat)
    (henv : ∀ i, i < n → wTaken ((writeIc n).trace wInit is) i <+: (List.range K).flatMap (bursts i)) :
    ∃ g : List (Nat × Beat β), wGiven ((writeIc n).trace wInit is) = (g.map fun e => some e.2) ∧
      g <+: merged bursts ((wHanded n ((writeIc n).trace wInit is)).map Prod.fst) ∧
      (∀ i, i < n → wTaken ((writeIc n).trace wInit is) i = ofDriver i g) ∧
      (ackGiven n ((writeIc n).trace wInit is)).map Prod.fst <+: finished g ∧
      (ackGiven n ((writeIc n).trace wInit is)).map Prod.snd = ackTaken ((writeIc n).trace wInit is) := by
  obtain ⟨O, g, h⟩ := write_inv h2 hb (max K (wHanded n ((writeIc n).trace wInit is)).length) is (Nat.le_max_right _ _)
    fun i hi => (henv i hi).trans (flatMap_range_mono _ (Nat.le_max_left _ _))
  exact ⟨g, h.gv, ⟨_, h.out⟩, h.tk, ⟨_, h.fin.symm⟩, h.ack⟩

abbrev exW : List (WIn Nat Nat Nat) :=
  let x : WIn Nat Nat Nat := ⟨⟨fun _ => false, fun k => k + 5, true, true⟩, true, 9, true, true, 9, fun _ => false, fun k => ⟨k, true⟩, true,
    false, 0, fun _ => true⟩
  [{ x with q := ⟨fun _ => true, fun k => k + 5, true, true⟩ },
   { x with q := ⟨fun _ => true, fun k => k + 5, true, true⟩, wVld := fun _ => true, wBeat := fun k => ⟨k + 20, k == 1⟩ },
   { x with wVld := fun _ => true, wBeat := fun k => ⟨k + 20, true⟩ },
   { x with wVld := fun _ => true, wBeat := fun k => ⟨k + 20, true⟩, ackVld := true, ack := 7 },
   { x with ackVld := true, ack := 8 }]

abbrev exBursts : Nat → Nat → List (Beat Nat) := fun i _ => if i = 0 then [⟨20, false⟩, ⟨20, true⟩] else [⟨21, true⟩]

/-- non-vacuity of C138: two bursts, two acknowledges -/
example : (∀ i k, IsBurst (exBursts i k)) ∧
    (∀ i, i < 2 → wTaken ((writeIc 2).trace wInit exW) i <+: (List.range 1).flatMap (exBursts i)) ∧
    wGiven ((writeIc 2).trace wInit exW) = [some ⟨20, false⟩, some ⟨20, true⟩, some ⟨21, true⟩] ∧
    ackGiven 2 ((writeIc 2).trace wInit exW) = [(0, 7), (1, 8)] := by
  refine ⟨fun i k => ?_, by decide, by decide, by decide⟩
  unfold exBursts
  split
  · exact ⟨[⟨20, false⟩], ⟨20, true⟩, rfl, rfl, by simp⟩
  · exact ⟨[], ⟨21, true⟩, rfl, rfl, by simp⟩

end Verif.StrictOrder
