import Verif.FramePack
/-! Properties C156-C159 of `DataRdVldToAxi4Stream`. -/
namespace Verif.FramePack

variable {α : Type}

theorem openLen_snoc (l : List (α × Bool)) (w : α × Bool) : openLen (l ++ [w]) = if w.2 then 0 else openLen l + 1 := by
  unfold openLen
  rw [List.reverse_append]
  cases h : w.2 <;> simp [h]

theorem idleLen_snoc (tr : List (In α × Out α)) (e : In α × Out α) : idleLen (tr ++ [e]) =
    if (e.1.rd && e.2.word.any fun w => w.2) then 0 else (if e.1.vld then 0 else 1) + idleLen tr := by
  unfold idleLen
  generalize hp : (fun e : In α × Out α => !(e.1.rd && e.2.word.any fun w => w.2)) = p
  have hpe : (e.1.rd && e.2.word.any fun w => w.2) = !p e := by rw [← hp]; simp
  rw [List.reverse_append, hpe]
  cases h : p e
  · simp [h]
  · cases h' : e.1.vld
    · simp [h, h', Nat.add_comm]
    · simp [h, h']

structure Inv (c : Cfg) (tr : List (In α × Out α)) (s : St α) : Prop where
  data : (sent tr).map Prod.fst ++ s.r.toList = accepted tr
  noReg : c.timeout = none → s.r = none
  len : ∀ m ∈ c.max, s.fw = openLen (sent tr) ∧ s.fw ≤ m - 1
  cntr : ∀ t ∈ c.timeout, s.cntr ≤ t - 1 ∧ t - 1 ≤ s.cntr + idleLen tr

theorem inv_step (c : Cfg) (hc : Ok c) (tr : List (In α × Out α)) (s : St α) (x : In α) (h : Inv c tr s) :
    Inv c (tr ++ [(x, out c s x)]) (next c s x) := by
  have eS : sent (tr ++ [(x, out c s x)]) = sent tr ++ if x.rd then (word c s x).toList else [] := by simp [sent, out]
  have eA : accepted (tr ++ [(x, out c s x)]) = accepted tr ++ given (x.vld && (out c s x).rd) x.data := by simp [accepted]
  have eI := idleLen_snoc tr (x, out c s x)
  have eL : openLen (sent (tr ++ [(x, out c s x)])) = if ack c s x then (if last c s then 0 else openLen (sent tr) + 1) else openLen (sent tr) := by
    rw [eS]
    unfold ack
    cases hr : x.rd
    · simp
    · cases hw : word c s x with
      | none => simp
      | some w =>
        have : w.2 = last c s := by
          unfold word at hw
          split at hw
          · rw [Option.map_eq_some_iff] at hw
            obtain ⟨d, _, e⟩ := hw
            rw [← e]
          · exact absurd hw (by simp)
        simp [openLen_snoc, this]
  refine ⟨?_, ?_, ?_, ?_⟩
  · rw [eS, eA]
    have hd := h.data
    cases ht : c.timeout with
    | none =>
      have hr := h.noReg ht
      rw [hr] at hd
      simp only [Option.toList_none, List.append_nil] at hd
      have hn : (next c s x).r = none := by simp [next, ht]
      rw [hn, List.map_append, hd]
      cases hv : x.vld <;> cases hx : x.rd <;> simp [word, cond, src, out, ht, hv, hx, given]
    | some t =>
      rw [← hd, List.map_append]
      have hcs : c.timeout.isSome = true := by simp [ht]
      cases hr : s.r with
      | none =>
        have hw : word c s x = none := by simp [word, src, hcs, hr]
        have ho : (out c s x).rd = true := by simp [out, hcs, hr]
        cases hv : x.vld <;> simp [next, hcs, ho, hw, hv, given]
      | some d =>
        cases hco : cond c s x <;> cases hv : x.vld <;> cases hx : x.rd <;> simp [next, out, word, src, hcs, hr, hco, hv, hx, given]
  · intro ht; simp [next, ht]
  · intro m hm
    obtain ⟨h1, h2⟩ := h.len m hm
    obtain ⟨hm1, hm2⟩ := hc.2.2 m hm
    rw [eL, ← h1]
    show nextFw c s x = _ ∧ nextFw c s x ≤ m - 1
    unfold nextFw
    by_cases ha : ack c s x = true
    · by_cases hl : last c s = true
      · simp [ha, hl]
      · have : s.fw ≠ m - 1 := by
          intro e
          exact hl (by simp [last, lastS, Option.mem_def.1 hm, e])
        simp only [ha, hl, if_true, if_false, Bool.false_eq_true]
        rw [Nat.mod_eq_of_lt (by omega)]
        omega
    · simp [ha, h2]
  · intro t ht
    obtain ⟨h1, h2⟩ := h.cntr t ht
    have ht1 := hc.2.1 t ht
    have ht' := Option.mem_def.1 ht
    rw [eI]
    show nextCntr c s x ≤ t - 1 ∧ t - 1 ≤ nextCntr c s x + _
    unfold nextCntr
    rw [ht']
    simp only
    by_cases hres : ((c.max.isSome && s.r.isNone) || (last c s && x.rd)) = true
    · rw [if_pos hres]
      exact ⟨Nat.le_refl _, by omega⟩
    · rw [if_neg hres]
      have hnl : (x.rd && (out c s x).word.any fun w => w.2) = false := by
        cases hx : x.rd
        · rfl
        · have hl : last c s = false := by
            cases hl : last c s
            · rfl
            · simp [hl, hx] at hres
          simp only [out, word, hl, Bool.true_and]
          split <;> cases src c s x <;> simp
      simp only [hnl, Bool.false_eq_true, if_false]
      by_cases hdec : (!x.vld && s.r.isSome && !last c s) = true
      · rw [if_pos hdec]
        simp only [Bool.and_eq_true, Bool.not_eq_true'] at hdec
        rw [hdec.1.1]
        simp only [Bool.false_eq_true, if_false]
        omega
      · rw [if_neg hdec]
        exact ⟨h1, by omega⟩

theorem inv (c : Cfg) (hc : Ok c) (is : List (In α)) : Inv c ((machine c).trace (init c) is) ((machine c).final (init c) is) := by
  induction is using List.reverseRecOn with
  | nil =>
    refine ⟨rfl, fun _ => rfl, fun m _ => ⟨rfl, Nat.zero_le _⟩, fun t ht => ?_⟩
    have := Option.mem_def.1 ht
    simp [Machine.final, init, this]
  | append_singleton is x ih =>
    rw [Machine.trace_snoc, Machine.final_append]
    exact inv_step c hc _ _ x ih

/-! ## C156: data -/

/-- **C156** The words sent are the words accepted, in order; at most one of them, the last one, waits in the unit, and none without a timeout. -/
theorem pack_data (c : Cfg) (hc : Ok c) (is : List (In α)) : ∃ w, accepted ((machine c).trace (init c) is) =
    (sent ((machine c).trace (init c) is)).map Prod.fst ++ w ∧ w.length ≤ 1 ∧ (c.timeout = none → w = []) := by
  refine ⟨((machine c).final (init c) is).r.toList, (inv c hc is).data.symm, ?_, fun h => ?_⟩
  · cases ((machine c).final (init c) is).r <;> simp
  · rw [(inv c hc is).noReg h]; rfl

/-! ## C157: size of frames -/

/-- **C157** The frame which is not closed yet has always less than `MAX_FRAME_WORDS` words, so no frame is longer than that. -/
theorem pack_size (c : Cfg) (hc : Ok c) (m : Nat) (hm : c.max = some m) (is : List (In α)) :
    openLen (sent ((machine c).trace (init c) is)) < m := by
  obtain ⟨h1, h2⟩ := (inv c hc is).len m hm
  have := (hc.2.2 m hm).1
  omega

/-- **C157** Without a timeout the frames are closed exactly by each `MAX_FRAME_WORDS`-th word. -/
theorem pack_exact (c : Cfg) (hc : Ok c) (m : Nat) (hm : c.max = some m) (ht : c.timeout = none) (is : List (In α)) (x : In α) :
    ∀ w ∈ ((machine c).outAfter (init c) is x).word, (w.2 = true ↔ openLen (sent ((machine c).trace (init c) is)) = m - 1) := by
  intro w hw
  obtain ⟨h1, h2⟩ := (inv c hc is).len m hm
  have eo : (machine c).outAfter (init c) is x = out c ((machine c).final (init c) is) x := rfl
  rw [eo] at hw
  generalize (machine c).final (init c) is = s at *
  rw [← h1]
  simp only [out, word, cond, src, ht, Option.mem_def, Option.isSome_none, Bool.false_eq_true, if_false, if_true] at hw
  rw [Option.map_eq_some_iff] at hw
  obtain ⟨d, _, e⟩ := hw
  rw [← e]
  simp [last, lastT, lastS, ht, hm]

/-! ## C158: the timeout -/

/-- full property: if the consumer is ready and there is no input for `IN_TIMEOUT` cycles everything is sent and the frame is closed -/
def Flushes (c : Cfg) : Prop := ∀ t ∈ c.timeout, ∀ (is js : List (In Nat)), js.length = t → (∀ x ∈ js, x.vld = false ∧ x.rd = true) →
  (sent ((machine c).trace (init c) (is ++ js))).map Prod.fst = accepted ((machine c).trace (init c) (is ++ js))

def put (d : Nat) : In Nat := ⟨true, d, true⟩
def idle : In Nat := ⟨false, 0, true⟩

/-- **C158** (the full property fails) The word which fills the frame up to `MAX_FRAME_WORDS` is not sent by the timeout: its counter does not run
for it. -/
theorem pack_timeout_fails : Ok ⟨some 3, some 2⟩ ∧ ¬ Flushes ⟨some 3, some 2⟩ := by
  refine ⟨by unfold Ok; decide, fun h => ?_⟩
  exact absurd (h 3 rfl [put 1, put 2] [idle, idle, idle] rfl (by decide)) (by decide)

theorem flush_step (c : Cfg) (t : Nat) (ht : c.timeout = some t) (s : St α) (x : In α) (hx : x.vld = false ∧ x.rd = true) (d : α) (hr : s.r = some d)
    (hs : lastS c s = false) :
    (s.cntr ≠ 0 → (next c s x).r = some d ∧ (next c s x).cntr = s.cntr - 1 ∧ (next c s x).fw = s.fw ∧ word c s x = none) ∧
    (s.cntr = 0 → (next c s x).r = none ∧ word c s x = some (d, true)) := by
  constructor
  · intro h
    have hl : lastT c s = false := by simp [lastT, h]
    simp [next, out, nextCntr, nextFw, ack, word, cond, last, ht, hl, hs, hx.1, hx.2, hr]
  · intro h
    have hl : lastT c s = true := by simp [lastT, h, ht]
    simp [next, out, word, cond, src, last, ht, hl, hx.1, hx.2, hr]

theorem flush (c : Cfg) (t : Nat) (ht : c.timeout = some t) : ∀ (js : List (In α)) (s : St α) (d : α), s.r = some d → lastS c s = false →
    (∀ x ∈ js, x.vld = false ∧ x.rd = true) → s.cntr < js.length →
    sent ((machine c).trace s js) = [(d, true)] ∧ ((machine c).final s js).r = none := by
  have empty : ∀ (js : List (In α)) (s : St α), s.r = none → (∀ x ∈ js, x.vld = false ∧ x.rd = true) →
      sent ((machine c).trace s js) = [] ∧ ((machine c).final s js).r = none := by
    intro js
    induction js with
    | nil => intro s hr _; exact ⟨rfl, hr⟩
    | cons x js ih =>
      intro s hr hj
      have hx := hj x List.mem_cons_self
      have hn : ((machine c).next s x).r = none := by simp [machine, next, out, ht, hr, hx.1]
      have hw : ((machine c).out s x).word = none := by simp [machine, out, word, src, ht, hr]
      obtain ⟨a, b⟩ := ih _ hn fun y hy => hj y (List.mem_cons_of_mem _ hy)
      rw [Machine.trace_cons, Machine.final_cons]
      refine ⟨?_, b⟩
      simp only [sent, List.flatMap_cons] at a ⊢
      rw [a, hw]
      simp
  intro js
  induction js with
  | nil => intro s d _ _ _ h; exact absurd h (by simp)
  | cons x js ih =>
    intro s d hr hs hj hl
    have hx := hj x List.mem_cons_self
    obtain ⟨h1, h2⟩ := flush_step c t ht s x hx d hr hs
    have hj' : ∀ y ∈ js, y.vld = false ∧ y.rd = true := fun y hy => hj y (List.mem_cons_of_mem _ hy)
    rw [Machine.trace_cons, Machine.final_cons]
    by_cases h : s.cntr = 0
    · obtain ⟨a, b⟩ := h2 h
      obtain ⟨e, f⟩ := empty js _ a hj'
      refine ⟨?_, f⟩
      have ew : ((machine c).out s x).word = some (d, true) := b
      simp only [sent, List.flatMap_cons] at e ⊢
      show _ ++ List.flatMap _ ((machine c).trace (next c s x) js) = _
      rw [e]
      simp [ew, hx.2]
    · obtain ⟨a, b, e, f⟩ := h1 h
      have hs' : lastS c (next c s x) = false := by unfold lastS at *; rw [e]; exact hs
      obtain ⟨g, i⟩ := ih (next c s x) d a hs' hj' (by rw [b]; simp only [List.length_cons] at hl; omega)
      refine ⟨?_, i⟩
      have ew : ((machine c).out s x).word = none := f
      simp only [sent, List.flatMap_cons] at g ⊢
      show _ ++ List.flatMap _ ((machine c).trace (next c s x) js) = _
      rw [g, ew]
      simp

/-- **C158** If the word which waits does not fill the frame up to `MAX_FRAME_WORDS`, it is sent as the last word of the frame when the consumer is
ready and there is no input for `IN_TIMEOUT` cycles. -/
theorem pack_timeout_partial (c : Cfg) (hc : Ok c) (t : Nat) (ht : c.timeout = some t) (is js : List (In α)) (hl : js.length = t)
    (hj : ∀ x ∈ js, x.vld = false ∧ x.rd = true) (hm : ∀ m ∈ c.max, openLen (sent ((machine c).trace (init c) is)) ≠ m - 1)
    (w : α) (hw : accepted ((machine c).trace (init c) is) = (sent ((machine c).trace (init c) is)).map Prod.fst ++ [w]) :
    sent ((machine c).trace (init c) (is ++ js)) = sent ((machine c).trace (init c) is) ++ [(w, true)] := by
  have hi := inv c hc is
  have hd := hi.data
  rw [hw] at hd
  have hr : ((machine c).final (init c) is).r = some w := by
    have := List.append_cancel_left hd
    cases h : ((machine c).final (init c) is).r with
    | none => rw [h] at this; simp at this
    | some d => rw [h] at this; simp at this; rw [this]
  have hs : lastS c ((machine c).final (init c) is) = false := by
    unfold lastS
    cases h : c.max with
    | none => rfl
    | some m =>
      have h1 := (hi.len m h).1
      have h2 := hm m h
      rw [← h1] at h2
      simpa using h2
  have hcn := (hi.cntr t ht).1
  have := hc.2.1 t ht
  obtain ⟨a, _⟩ := flush c t ht js _ w hr hs hj (by omega)
  rw [Machine.trace_append]
  unfold sent at *
  rw [List.flatMap_append, a]

/-! ## C159: frames are closed only by the timeout -/

/-- full property: a frame shorter than `MAX_FRAME_WORDS` is closed only if there was no input in the last `IN_TIMEOUT - 1` cycles -/
def OnlyTimeout (c : Cfg) : Prop := ∀ t ∈ c.timeout, ∀ (is : List (In Nat)) (x : In Nat),
  (∃ d, ((machine c).outAfter (init c) is x).word = some (d, true)) → (∀ m ∈ c.max, openLen (sent ((machine c).trace (init c) is)) ≠ m - 1) →
  ∀ y ∈ is.drop (is.length - (t - 1)), y.vld = false

/-- **C159** (the full property fails) The counter of the timeout is not reset by an input. -/
theorem pack_early_fails : ¬ OnlyTimeout ⟨some 3, none⟩ := fun h =>
  absurd (h 3 rfl [put 1, idle, put 2, idle] idle ⟨2, by decide⟩ (by simp) (put 2) (by simp)) (by decide)

/-- **C159** A frame shorter than `MAX_FRAME_WORDS` is closed only if there were at least `IN_TIMEOUT - 1` cycles without an input since the end of the
previous frame. -/
theorem pack_early_partial (c : Cfg) (hc : Ok c) (t : Nat) (ht : c.timeout = some t) (is : List (In α)) (x : In α)
    (hl : ∃ d, ((machine c).outAfter (init c) is x).word = some (d, true))
    (hm : ∀ m ∈ c.max, openLen (sent ((machine c).trace (init c) is)) ≠ m - 1) :
    t - 1 ≤ idleLen ((machine c).trace (init c) is) := by
  have hi := inv c hc is
  have eo : (machine c).outAfter (init c) is x = out c ((machine c).final (init c) is) x := rfl
  rw [eo] at hl
  generalize (machine c).final (init c) is = s at *
  have h2 := (hi.cntr t ht).2
  obtain ⟨d, hd⟩ := hl
  simp only [out, word] at hd
  split at hd
  · rw [Option.map_eq_some_iff] at hd
    obtain ⟨e, _, he⟩ := hd
    have hla : last c s = true := congrArg Prod.snd he
    have hs : lastS c s = false := by
      unfold lastS
      cases h : c.max with
      | none => rfl
      | some m =>
        have h1 := (hi.len m h).1
        have h2 := hm m h
        rw [← h1] at h2
        simpa using h2
    simp only [last, hs, Bool.or_false, lastT, Bool.and_eq_true, beq_iff_eq] at hla
    omega
  · exact absurd hd (by simp)

/-- frames of two words; a frame closed by the timeout -/
example : sent ((machine ⟨none, some 2⟩).trace (init ⟨none, some 2⟩) [put 1, put 2, idle, put 3]) = [(1, false), (2, true), (3, false)] := by decide
example : sent ((machine ⟨some 3, some 4⟩).trace (init ⟨some 3, some 4⟩) [put 1, put 2, idle, idle, idle, put 3]) = [(1, false), (2, true)] := by decide
example : Ok ⟨some 3, some 4⟩ := by unfold Ok; decide
example : accepted ((machine ⟨some 3, some 4⟩).trace (init ⟨some 3, some 4⟩) [put 1, put 2]) = (sent ((machine ⟨some 3, some 4⟩).trace (init ⟨some 3, some 4⟩) [put 1, put 2])).map Prod.fst ++ [2] := by
  decide

end Verif.FramePack
