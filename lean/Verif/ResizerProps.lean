import Verif.Resizer
/-!
# Properties C23 - C25
-/
namespace Verif.Resizer

universe u v
variable {α : Type u} {β : Type v}

/-- **C23** For every stall schedule the emitted parts are the parts (least significant first) of
the accepted words in order, and less than two words are incomplete: everything accepted except at
most one word is already completely sent. -/
theorem resizer_down (n : Nat) (hn : 0 < n) (part : Nat → α → β) (junk : α)
    (is : List (HsReg.In α)) :
    downEmitted ((down n part).trace (downInit junk) is) <+:
      (downAccepted ((down n part).trace (downInit junk) is)).flatMap (parts n part) ∧
    ((downAccepted ((down n part).trace (downInit junk) is)).flatMap (parts n part)).length ≤
      (downEmitted ((down n part).trace (downInit junk) is)).length + n := by
  have h := (down n part).conserveL (DownInv n) (fun _ => True) (downQ n part)
    (fun e => (given (e.1.vld && e.2.rd) e.1.data).flatMap (parts n part))
    (fun e => given (e.2.vld && e.1.rd) e.2.data)
    (fun s i hs _ => down_step n hn part s i hs) is (downInit junk) ⟨hn, fun _ => rfl⟩ (by simp)
  have e1 : downEmitted ((down n part).trace (downInit junk) is) =
      ((down n part).trace (downInit junk) is).flatMap
        (fun e => given (e.2.vld && e.1.rd) e.2.data) := by
    generalize (down n part).trace (downInit junk) is = tr
    induction tr with
    | nil => rfl
    | cons a tr ih =>
      rw [List.flatMap_cons, ← ih]
      exact filterMap_cons_ite (fun e : HsReg.In α × DownOut β => e.2.vld && e.1.rd)
        (fun e => e.2.data) a tr
  have e2 : (downAccepted ((down n part).trace (downInit junk) is)).flatMap (parts n part) =
      ((down n part).trace (downInit junk) is).flatMap
        (fun e => (given (e.1.vld && e.2.rd) e.1.data).flatMap (parts n part)) := by
    generalize (down n part).trace (downInit junk) is = tr
    induction tr with
    | nil => rfl
    | cons a tr ih =>
      rw [List.flatMap_cons, ← ih, ← List.flatMap_append]
      congr 1
      exact filterMap_cons_ite (fun e : HsReg.In α × DownOut β => e.1.vld && e.2.rd)
        (fun e => e.1.data) a tr
  rw [e1, e2]
  have h2 := h.2
  have hq0 : downQ n part (downInit junk) = [] := rfl
  rw [hq0, List.nil_append] at h2
  refine ⟨⟨_, h2.symm⟩, ?_⟩
  rw [h2, List.length_append]
  have : (downQ n part ((down n part).final (downInit junk) is)).length ≤ n := by
    unfold downQ
    split <;> simp [parts]
  omega

def exDown : List (HsReg.In (List Nat)) :=
  [⟨true, [1, 2], false⟩, ⟨true, [3, 4], true⟩, ⟨true, [3, 4], false⟩, ⟨true, [3, 4], true⟩,
   ⟨false, [], true⟩]
example : downEmitted ((down 2 (fun k w => w.getD k 0)).trace (downInit []) exDown) = [1, 2, 3] ∧
    downAccepted ((down 2 (fun k w => w.getD k 0)).trace (downInit []) exDown) = [[1, 2], [3, 4]] := by
  decide

/-- Full statement of **C24**: output words are consecutive accepted words, nothing missing. -/
def PacksAll (n : Nat) : Prop :=
  ∀ (junk : Nat → Nat) (is : List (HsReg.In Nat)),
    (upEmitted ((up n).trace (upInit junk) is)).flatten
      <+: upAccepted ((up n).trace (upInit junk) is)

/-- **C24** is violated: a word is accepted while the output is stalled and then overwritten. -/
theorem resizer_up_broken : ¬ PacksAll 2 := by
  intro h
  have := h (fun _ => 0) [⟨true, 1, false⟩, ⟨true, 2, false⟩, ⟨true, 3, true⟩]
  revert this
  decide

/-- **C24** for a consumer which never stalls an offered word.
Missing: stalls of the consumer, in which case the code loses words (`resizer_up_broken`). -/
theorem resizer_up_partial (n : Nat) (hn : 0 < n) (junk : Nat → β) (is : List (HsReg.In β))
    (hok : ∀ e ∈ (up n).trace (upInit junk) is, e.2.vld = true → e.1.rd = true) :
    (upEmitted ((up n).trace (upInit junk) is)).flatten
      <+: upAccepted ((up n).trace (upInit junk) is) ∧
    (∀ w ∈ upEmitted ((up n).trace (upInit junk) is), w.length = n) ∧
    (upAccepted ((up n).trace (upInit junk) is)).length
      < ((upEmitted ((up n).trace (upInit junk) is)).flatten).length + n := by
  have h := (up n).conserveL (fun s : UpSt β => s.cntr < n)
    (fun e => e.2.vld = true → e.1.rd = true) upQ
    (fun e => given (e.1.vld && e.2.rd) e.1.data)
    (fun e => (given (e.2.vld && e.1.rd) e.2.data).flatten)
    (fun s i hs ho => up_step n hn s i hs ho) is (upInit junk) hn hok
  have e1 : (upEmitted ((up n).trace (upInit junk) is)).flatten =
      ((up n).trace (upInit junk) is).flatMap
        (fun e => (given (e.2.vld && e.1.rd) e.2.data).flatten) := by
    generalize (up n).trace (upInit junk) is = tr
    induction tr with
    | nil => rfl
    | cons a tr ih =>
      rw [List.flatMap_cons, ← ih, ← List.flatten_append]
      congr 1
      exact filterMap_cons_ite (fun e : HsReg.In β × UpOut β => e.2.vld && e.1.rd)
        (fun e => e.2.data) a tr
  have e2 : upAccepted ((up n).trace (upInit junk) is) =
      ((up n).trace (upInit junk) is).flatMap (fun e => given (e.1.vld && e.2.rd) e.1.data) := by
    generalize (up n).trace (upInit junk) is = tr
    induction tr with
    | nil => rfl
    | cons a tr ih =>
      rw [List.flatMap_cons, ← ih]
      exact filterMap_cons_ite (fun e : HsReg.In β × UpOut β => e.1.vld && e.2.rd)
        (fun e => e.1.data) a tr
  have hq0 : upQ (upInit junk) = [] := rfl
  have h2 := h.2
  rw [hq0, List.nil_append, ← e1, ← e2] at h2
  refine ⟨⟨_, h2.symm⟩, ?_, ?_⟩
  · intro w hw
    unfold upEmitted at hw
    rw [List.mem_filterMap] at hw
    obtain ⟨e, he, hc⟩ := hw
    have : ∀ (is : List (HsReg.In β)) (s : UpSt β), ∀ e ∈ (up n).trace s is, e.2.data.length = n := by
      intro is
      induction is with
      | nil => simp
      | cons i is ih =>
        intro s e he
        rw [Machine.trace_cons] at he
        rcases List.mem_cons.1 he with rfl | he
        · simp [up, upOut]; omega
        · exact ih _ e he
    have hl := this is _ e he
    split at hc
    · simp only [Option.some.injEq] at hc; rw [← hc]; exact hl
    · simp at hc
  · have hl := congrArg List.length h2
    rw [List.length_append] at hl
    have : (upQ ((up n).final (upInit junk) is)).length < n := by simpa [upQ] using h.1
    omega

example : (upEmitted ((up 2).trace (upInit fun _ => 0)
    [⟨true, 1, false⟩, ⟨false, 0, true⟩, ⟨true, 2, true⟩, ⟨true, 3, false⟩])) = [[1, 2]] ∧
    ∀ e ∈ (up 2).trace (upInit fun _ => 0)
      [⟨true, 1, false⟩, ⟨false, 0, true⟩, ⟨true, 2, true⟩, ⟨true, 3, false⟩],
      e.2.vld = true → e.1.rd = true := by decide

/-! ## C25 -/

theorem burst_core (D : List α) (hD : D ≠ []) (rep : Bool) : ∀ (rds : List Bool) (idx : Nat),
    idx ≤ D.length → ∀ k d,
    (burstEmitted ((burst D rep).trace idx rds))[k]? = some d →
      d = D[(idx + k) % D.length]? ∧ (rep = false → idx + k < D.length) := by
  have hL : 0 < D.length := List.length_pos_iff.2 hD
  intro rds
  induction rds with
  | nil => intro idx _ k d h; simp [burstEmitted] at h
  | cons r rds ih =>
    intro idx hi k d h
    have e : burstEmitted ((burst D rep).trace idx (r :: rds)) =
        given (decide (idx < D.length) && r) D[idx]? ++
        burstEmitted ((burst D rep).trace (burstNext D rep idx r) rds) :=
      filterMap_cons_ite (fun e : Bool × BurstOut α => e.2.vld && e.1) (fun e => e.2.data) _ _
    rw [e] at h
    have hmod : idx < D.length → (idx + 1) % burstMod D.length = idx + 1 := fun hlt =>
      Nat.mod_eq_of_lt (by have := burstMod_gt D.length; omega)
    cases r
    · simp only [Bool.and_false, given_false, List.nil_append] at h
      exact ih idx hi k d h
    · by_cases hlt : idx < D.length
      · have hn : burstNext D rep idx true = idx + 1 := by simp [burstNext, hlt, hmod hlt]
        rw [hn] at h
        simp only [hlt, decide_true, Bool.true_and, given_true, List.singleton_append] at h
        cases k with
        | zero =>
          simp only [List.getElem?_cons_zero, Option.some.injEq] at h
          subst h
          exact ⟨by rw [Nat.add_zero, Nat.mod_eq_of_lt hlt], fun _ => hlt⟩
        | succ k =>
          rw [List.getElem?_cons_succ] at h
          have := ih (idx + 1) hlt k d h
          have e : idx + (k + 1) = idx + 1 + k := by omega
          rw [e]; exact this
      · have hidx : idx = D.length := by omega
        have hg : (decide (idx < D.length)) = false := by simp [hlt]
        rw [hg] at h
        simp only [Bool.false_and, given_false, List.nil_append] at h
        cases rep
        · have hn : burstNext D false idx true = idx := by simp [burstNext, hlt]
          rw [hn] at h
          exact ih idx hi k d h
        · have hn : burstNext D true idx true = 0 := by simp [burstNext, hlt]
          rw [hn] at h
          have := ih 0 (Nat.zero_le _) k d h
          refine ⟨?_, by simp⟩
          rw [hidx, Nat.add_mod_left]
          simpa using this.1

/-- **C25** For every consumer schedule the k-th word delivered is item `k mod len(DATA)` of `DATA`;
without `REPEAT` not more than `len(DATA)` words are delivered. -/
theorem storedBurst_order (D : List α) (hD : D ≠ []) (rep : Bool) (rds : List Bool) (k : Nat)
    (d : Option α) (h : (burstEmitted ((burst D rep).trace 0 rds))[k]? = some d) :
    d = some (D[k % D.length]'(Nat.mod_lt _ (List.length_pos_iff.2 hD))) ∧
    (rep = false → k < D.length) := by
  have := burst_core D hD rep rds 0 (Nat.zero_le _) k d h
  simp only [Nat.zero_add] at this
  rw [this.1]
  exact ⟨List.getElem?_eq_getElem _, this.2⟩

theorem burst_idx (D : List α) (rep : Bool) (rds : List Bool) :
    ∀ idx, idx ≤ D.length → (burst D rep).final idx rds ≤ D.length := by
  induction rds with
  | nil => intro idx h; exact h
  | cons r rds ih =>
    intro idx h
    refine ih _ ?_
    show burstNext D rep idx r ≤ D.length
    unfold burstNext
    cases r
    · simpa
    · by_cases hlt : idx < D.length
      · have : (idx + 1) % burstMod D.length = idx + 1 :=
          Nat.mod_eq_of_lt (by have := burstMod_gt D.length; omega)
        simp [hlt, this]; omega
      · cases rep <;> simp [hlt, h]

/-- **C25** stability under stall. -/
theorem storedBurst_stable (D : List α) (rep : Bool) (rds : List Bool) (r : Bool) :
    (burst D rep).outAfter 0 (rds ++ [false]) r = (burst D rep).outAfter 0 rds false := by
  simp only [Machine.outAfter, Machine.final_append, Machine.final_cons, Machine.final_nil]
  rfl

/-- **C25** progress: without `REPEAT` the number of delivered words is the number of ready cycles
(up to `len(DATA)`); with `REPEAT` there is never more than one cycle with a ready consumer between
two offered words. -/
theorem storedBurst_progress (D : List α) (hD : D ≠ []) (rds : List Bool) :
    (burstEmitted ((burst D false).trace 0 rds)).length = min (rds.count true) D.length ∧
    (∀ r, ((burst D true).outAfter 0 rds true).vld = false →
      ((burst D true).outAfter 0 (rds ++ [true]) r).vld = true) := by
  constructor
  · have : ∀ (rds : List Bool) (idx : Nat), idx ≤ D.length →
        idx + (burstEmitted ((burst D false).trace idx rds)).length
          = min (idx + rds.count true) D.length := by
      intro rds
      induction rds with
      | nil => intro idx h; simp [burstEmitted]; omega
      | cons r rds ih =>
        intro idx h
        have e : burstEmitted ((burst D false).trace idx (r :: rds)) =
            given (decide (idx < D.length) && r) D[idx]? ++
            burstEmitted ((burst D false).trace (burstNext D false idx r) rds) :=
          filterMap_cons_ite (fun e : Bool × BurstOut α => e.2.vld && e.1) (fun e => e.2.data) _ _
        rw [e]
        cases r
        · have hn : burstNext D false idx false = idx := rfl
          rw [hn]
          simpa using ih idx h
        · by_cases hlt : idx < D.length
          · have hn : burstNext D false idx true = idx + 1 := by
              have : (idx + 1) % burstMod D.length = idx + 1 :=
                Nat.mod_eq_of_lt (by have := burstMod_gt D.length; omega)
              simp [burstNext, hlt, this]
            rw [hn]
            have := ih (idx + 1) hlt
            simp only [hlt, decide_true, Bool.true_and, given_true, List.length_append,
              List.length_singleton, List.count_cons_self]
            omega
          · have hn : burstNext D false idx true = idx := by simp [burstNext, hlt]
            rw [hn]
            have := ih idx h
            simp only [hlt, decide_false, Bool.false_and, given_false, List.nil_append,
              List.count_cons_self]
            omega
    have := this rds 0 (Nat.zero_le _)
    simpa using this
  · intro r h
    simp only [Machine.outAfter, Machine.final_append, Machine.final_cons, Machine.final_nil] at *
    generalize (burst D true).final 0 rds = idx at *
    have hge : ¬ idx < D.length := by simpa [burst, burstOut] using h
    have : (burst D true).next idx true = 0 := by simp [burst, burstNext, hge]
    rw [this]
    simpa [burst, burstOut] using List.length_pos_iff.2 hD

example : burstEmitted ((burst [5, 6] true).trace 0 [true, false, true, true, true]) =
    [some 5, some 6, some 5] := by decide
example : ((burst [5, 6] true).outAfter 0 [true, true] true).vld = false := by decide

end Verif.Resizer
