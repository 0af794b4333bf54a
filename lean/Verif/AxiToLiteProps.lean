import Verif.AxiToLite
/-!
# Properties C99 - C101 of `Axi_to_AxiLite`
-/
namespace Verif.AxiToLite

universe u v

private theorem splice {β : Type u} {a x b n y z f : List β} (h1 : a ++ x = b ++ n) (h2 : n ++ y = z ++ f) :
    a ++ (x ++ y) = (b ++ z) ++ f := by
  rw [← List.append_assoc, h1, List.append_assoc, h2, List.append_assoc]

namespace Split
variable {ι : Type u}

/-- `n + 1` consecutive word addresses. -/
def words (AW step a n : Nat) : List Nat := (List.range (n + 1)).map fun k => (a + k * step) % 2 ^ AW

private theorem words_zero (AW step a : Nat) : words AW step a 0 = [a % 2 ^ AW] := by simp [words]

private theorem words_succ (AW step a n : Nat) :
    words AW step a (n + 1) = a % 2 ^ AW :: words AW step ((a + step) % 2 ^ AW) n := by
  unfold words
  rw [List.range_succ_eq_map, List.map_cons, List.map_map]
  congr 1
  · simp
  · apply List.map_congr_left
    intro k _
    simp only [Function.comp]
    rw [Nat.mod_add_mod]
    congr 1
    rw [Nat.succ_eq_add_one, Nat.add_mul]
    omega

/-- **C99** Each accepted transaction of length `len` is sent as `len + 1` consecutive words, in order, none is lost or
repeated for all stalls (words wait only while no transaction can be accepted), and it is stored once in the fifo. -/
theorem axiToLite_split (AW LW step : Nat) (s0 : St) (h0 : s0.vld = false) (is : List (In ι))
    (hok : ∀ i ∈ is, i.addr < 2 ^ AW ∧ i.len < 2 ^ LW) :
    let tr := (machine AW LW step).trace s0 is
    pushed tr = (accepted tr).map (fun i => (i.id, i.len)) ∧
    ∃ rest, (accepted tr).flatMap (fun i => words AW step i.addr i.len) = sent tr ++ rest ∧
      rest.length ≤ 2 ^ LW ∧ ∀ i, ((machine AW LW step).outAfter s0 is i).ready = true → rest = [] := by
  have key : ∀ (is : List (In ι)) (s : St), s.addr < 2 ^ AW ∨ s.vld = false → s.rem < 2 ^ LW ∨ s.vld = false →
      (∀ i ∈ is, i.addr < 2 ^ AW ∧ i.len < 2 ^ LW) →
      pushed ((machine AW LW step).trace s is) =
        (accepted ((machine AW LW step).trace s is)).map (fun i => (i.id, i.len)) ∧
      (if s.vld = true then words AW step s.addr s.rem else []) ++
        (accepted ((machine AW LW step).trace s is)).flatMap (fun i => words AW step i.addr i.len) =
      sent ((machine AW LW step).trace s is) ++
        (if ((machine AW LW step).final s is).vld = true
          then words AW step ((machine AW LW step).final s is).addr ((machine AW LW step).final s is).rem else []) ∧
      (((machine AW LW step).final s is).rem < 2 ^ LW ∨ ((machine AW LW step).final s is).vld = false) := by
    intro is
    induction is with
    | nil => intro s _ hr _; exact ⟨rfl, List.append_nil _, hr⟩
    | cons i is ih =>
      intro s ha hr hok
      have e : (machine AW LW step).trace s (i :: is) = (i, out s i) :: (machine AW LW step).trace (next AW LW step s i) is := rfl
      have ef : (machine AW LW step).final s (i :: is) = (machine AW LW step).final (next AW LW step s i) is := rfl
      rw [e, ef]
      obtain ⟨hi, hok'⟩ := List.forall_mem_cons.1 hok
      have hA := Nat.two_pow_pos AW
      have hL := Nat.two_pow_pos LW
      have ha' : (next AW LW step s i).addr < 2 ^ AW ∨ (next AW LW step s i).vld = false := by
        unfold next
        cases hv : s.vld
        · left; exact Nat.mod_lt _ hA
        · cases i.outReady
          · left; simpa [hv] using ha
          · left; exact Nat.mod_lt _ hA
      have hr' : (next AW LW step s i).rem < 2 ^ LW ∨ (next AW LW step s i).vld = false := by
        unfold next
        cases hv : s.vld
        · left; exact Nat.mod_lt _ hL
        · cases i.outReady
          · left; simpa [hv] using hr
          · left; exact Nat.mod_lt _ hL
      obtain ⟨p, q, hfin⟩ := ih (next AW LW step s i) ha' hr' hok'
      simp only [pushed, accepted, sent, filterMap_cons_ite, List.flatMap_append] at p q ⊢
      refine ⟨?_, splice ?_ q, hfin⟩
      · rw [List.map_append, p]
        congr 1
        show given ((!s.vld && i.valid && i.outReady) && i.fifoRd) (i.id, i.len) =
          List.map _ (given (i.valid && (!s.vld && (i.outReady && i.fifoRd))) i)
        cases s.vld <;> cases i.valid <;> cases i.outReady <;> cases i.fifoRd <;> rfl
      · show (if s.vld = true then words AW step s.addr s.rem else []) ++
            List.flatMap (fun i => words AW step i.addr i.len) (given (i.valid && (!s.vld && (i.outReady && i.fifoRd))) i) =
          given ((s.vld || (i.valid && i.fifoRd)) && i.outReady) (if s.vld = true then s.addr else i.addr) ++
            (if (next AW LW step s i).vld = true then words AW step (next AW LW step s i).addr (next AW LW step s i).rem else [])
        have hsingle : List.flatMap (fun i : In ι => words AW step i.addr i.len) [i] = words AW step i.addr i.len := by
          simp
        cases hv : s.vld
        · have hn : next AW LW step s i = ⟨(i.len + 2 ^ LW - 1) % 2 ^ LW, i.valid && i.len != 0 && i.outReady && i.fifoRd,
              (i.addr + step) % 2 ^ AW⟩ := by unfold next; rw [hv]; rfl
          rw [hn]
          cases h1 : i.valid <;> cases h2 : i.outReady <;> cases h3 : i.fifoRd <;> try (simp; done)
          show [] ++ List.flatMap _ [i] = [i.addr] ++ (if (true && i.len != 0 && true && true) = true then _ else [])
          rw [hsingle]
          rcases Nat.eq_zero_or_pos i.len with hl | hl
          · rw [hl, words_zero, Nat.mod_eq_of_lt hi.1]; rfl
          · have hb : (i.len != 0) = true := by simp; omega
            rw [hb]
            show words AW step i.addr i.len = i.addr :: words AW step ((i.addr + step) % 2 ^ AW) ((i.len + 2 ^ LW - 1) % 2 ^ LW)
            have hm : (i.len + 2 ^ LW - 1) % 2 ^ LW = i.len - 1 := by
              rw [show i.len + 2 ^ LW - 1 = (i.len - 1) + 2 ^ LW by omega, Nat.add_mod_right, Nat.mod_eq_of_lt (by omega)]
            rw [hm]
            obtain ⟨m, hmm⟩ : ∃ m, i.len = m + 1 := ⟨i.len - 1, by omega⟩
            rw [hmm, words_succ, Nat.mod_eq_of_lt hi.1]; rfl
        · have ha : s.addr < 2 ^ AW := by simpa [hv] using ha
          have hr : s.rem < 2 ^ LW := by simpa [hv] using hr
          cases h2 : i.outReady
          · have hn : next AW LW step s i = s := by unfold next; rw [hv, h2]; rfl
            rw [hn, hv]
            cases i.valid <;> cases i.fifoRd <;> simp
          · have hn : next AW LW step s i = ⟨(s.rem + 2 ^ LW - 1) % 2 ^ LW, if s.rem = 0 then false else true,
                (s.addr + step) % 2 ^ AW⟩ := by unfold next; rw [hv, h2]; rfl
            rw [hn]
            have : given (i.valid && (!true && (true && i.fifoRd))) i = [] := by cases i.valid <;> rfl
            rw [this]
            show words AW step s.addr s.rem ++ [] = [s.addr] ++ (if (if s.rem = 0 then false else true) = true then _ else [])
            rw [List.append_nil]
            rcases Nat.eq_zero_or_pos s.rem with hl | hl
            · rw [hl, words_zero, Nat.mod_eq_of_lt ha]; rfl
            · rw [if_neg (c := s.rem = 0) (by omega), if_pos rfl]
              have hm : (s.rem + 2 ^ LW - 1) % 2 ^ LW = s.rem - 1 := by
                rw [show s.rem + 2 ^ LW - 1 = (s.rem - 1) + 2 ^ LW by omega, Nat.add_mod_right, Nat.mod_eq_of_lt (by omega)]
              rw [hm]
              obtain ⟨m, hmm⟩ : ∃ m, s.rem = m + 1 := ⟨s.rem - 1, by omega⟩
              rw [hmm, words_succ, Nat.mod_eq_of_lt ha]; rfl
  obtain ⟨p, q, hfin⟩ := key is s0 (Or.inr h0) (Or.inr h0) hok
  rw [h0] at q
  simp only [Bool.false_eq_true, if_false, List.nil_append] at q
  refine ⟨p, _, q, ?_, ?_⟩
  · split
    · next hv =>
      unfold words
      rw [List.length_map, List.length_range]
      rcases hfin with h | h
      · exact h
      · rw [h] at hv; cases hv
    · exact Nat.zero_le _
  · intro i hr
    have hr : (!((machine AW LW step).final s0 is).vld && (i.outReady && i.fifoRd)) = true := hr
    rw [if_neg]
    intro hv
    rw [hv] at hr
    cases hr

/-- Full statement of **C100**: the words are those of the bursts according to the AXI specification. -/
def SplitSpec : Prop := ∀ (AW LW size : Nat) (s0 : St), s0.vld = false → ∀ is : List (In Nat),
  (∀ i ∈ is, i.addr < 2 ^ AW ∧ i.len < 2 ^ LW ∧ i.size ≤ size) →
  sent ((machine AW LW (2 ^ size)).trace s0 is) <+:
    (accepted ((machine AW LW (2 ^ size)).trace s0 is)).flatMap (beats AW)

/-- **C100** is false: bursts of type FIXED are sent to increasing addresses. -/
theorem axiToLite_fixed_wrong : ¬ SplitSpec := by
  intro h
  have := h 8 8 2 ⟨0, false, 0⟩ rfl [⟨true, 0, 16, 1, .fixed, 2, true, true⟩, ⟨false, 0, 0, 0, .fixed, 2, true, true⟩] (by decide)
  revert this
  decide

/-- **C100** and so are WRAP, narrow and unaligned bursts. -/
theorem axiToLite_wrap_narrow_wrong :
    sent ((machine 8 8 4).trace ⟨0, false, 0⟩ [⟨true, 0, 20, 1, .wrap, 2, true, true⟩, (⟨false, 0, 0, 0, .incr, 2, true, true⟩ : In Nat)])
      = [20, 24] ∧ beats 8 (⟨true, 0, 20, 1, .wrap, 2, true, true⟩ : In Nat) = [20, 16] ∧
    sent ((machine 8 8 4).trace ⟨0, false, 0⟩ [⟨true, 0, 16, 1, .incr, 0, true, true⟩, (⟨false, 0, 0, 0, .incr, 2, true, true⟩ : In Nat)])
      = [16, 20] ∧ beats 8 (⟨true, 0, 16, 1, .incr, 0, true, true⟩ : In Nat) = [16, 17] ∧
    sent ((machine 8 8 4).trace ⟨0, false, 0⟩ [⟨true, 0, 17, 1, .incr, 2, true, true⟩, (⟨false, 0, 0, 0, .incr, 2, true, true⟩ : In Nat)])
      = [17, 21] ∧ beats 8 (⟨true, 0, 17, 1, .incr, 2, true, true⟩ : In Nat) = [17, 20] := by decide

/-- **C100**, what holds: aligned INCR bursts with full words are sent as specified. Missing: FIXED, WRAP, narrow and
unaligned bursts of more than one beat. -/
theorem axiToLite_incr_partial (AW LW size : Nat) (s0 : St) (h0 : s0.vld = false) (is : List (In ι))
    (hok : ∀ i ∈ is, i.addr < 2 ^ AW ∧ i.len < 2 ^ LW ∧
      (i.len = 0 ∧ i.burst ≠ .wrap ∨ i.burst = .incr ∧ i.size = size ∧ i.addr % 2 ^ size = 0)) :
    sent ((machine AW LW (2 ^ size)).trace s0 is) <+:
      (accepted ((machine AW LW (2 ^ size)).trace s0 is)).flatMap (beats AW) := by
  obtain ⟨_, rest, h, _⟩ := axiToLite_split AW LW (2 ^ size) s0 h0 is fun i hi => ⟨(hok i hi).1, (hok i hi).2.1⟩
  have hmem : ∀ (is : List (In ι)) (s : St) (x : In ι), x ∈ accepted ((machine AW LW (2 ^ size)).trace s is) → x ∈ is := by
    intro is
    induction is with
    | nil => intro s x hx; cases hx
    | cons i is ih =>
      intro s x hx
      rw [accepted, Machine.trace_cons, filterMap_cons_ite, List.mem_append] at hx
      rcases hx with hx | hx
      · rw [given_eq] at hx
        split at hx
        · rw [List.mem_singleton] at hx; subst hx; exact List.mem_cons_self ..
        · cases hx
      · exact List.mem_cons_of_mem _ (ih _ x hx)
  have heq : (accepted ((machine AW LW (2 ^ size)).trace s0 is)).flatMap (beats AW) =
      (accepted ((machine AW LW (2 ^ size)).trace s0 is)).flatMap (fun i => words AW (2 ^ size) i.addr i.len) := by
    have hx := fun x hx => hok x (hmem is s0 x hx)
    generalize accepted ((machine AW LW (2 ^ size)).trace s0 is) = l at hx
    induction l with
    | nil => rfl
    | cons x l ih =>
      rw [List.flatMap_cons, List.flatMap_cons, ih (fun y hy => hx y (List.mem_cons_of_mem _ hy))]
      congr 1
      obtain ⟨h1, _, h2⟩ := hx x (List.mem_cons_self ..)
      unfold beats words
      apply List.map_congr_left
      intro k hk
      rcases h2 with ⟨hl, hb⟩ | ⟨hb, hs, hal⟩
      · rw [hl, List.mem_range] at hk
        have : k = 0 := by omega
        subst this
        rw [Nat.zero_mul, Nat.add_zero, Nat.mod_eq_of_lt h1]
        unfold beatAddr
        cases hbb : x.burst
        · rfl
        · rfl
        · exact absurd hbb hb
      · unfold beatAddr
        rw [hb, hs]
        show (if k = 0 then x.addr else (x.addr / 2 ^ size * 2 ^ size + k * 2 ^ size) % 2 ^ AW) = _
        split
        · next hk0 => subst hk0; rw [Nat.zero_mul, Nat.add_zero, Nat.mod_eq_of_lt h1]
        · have := Nat.div_add_mod x.addr (2 ^ size)
          rw [hal, Nat.mul_comm] at this
          rw [Nat.add_zero] at this
          rw [this]
  rw [heq]
  exact ⟨rest, h.symm⟩

/-- A burst of three words with a stall. -/
example : sent ((machine 8 8 4).trace ⟨0, false, 0⟩ ([⟨true, 5, 16, 2, .incr, 2, true, true⟩, ⟨true, 6, 0, 0, .incr, 2, false, true⟩,
    ⟨true, 6, 0, 0, .incr, 2, true, true⟩, ⟨true, 6, 0, 0, .incr, 2, true, true⟩, ⟨true, 6, 0, 0, .incr, 2, true, true⟩] : List (In Nat)))
    = [16, 20, 24, 0] := by decide

end Split

namespace Group
variable {ι : Type u} {ρ : Type v}

/-- Tags which belong to the transaction in progress. -/
private def left (s : St ι) : List (ι × Bool) := if s.vld = true then tags (s.id, s.rem) else []
/-- Tag of the current beat. -/
private def cur (s : St ι) : ι × Bool := (s.id, s.rem == 0)

private theorem tags_zero (x : ι) : tags (x, 0) = [(x, true)] := rfl
private theorem tags_succ (x : ι) (n : Nat) : tags (x, n + 1) = (x, false) :: tags (x, n) := by
  unfold tags
  rw [List.range_succ_eq_map, List.map_cons, List.map_map]
  congr 1
  apply List.map_congr_left
  intro k _
  simp [Function.comp]

/-- **C101** Responses are grouped by the transactions of the fifo: the taken AxiLite responses are, in order, the beats of the
taken transactions; for the read channel all of them are given out with id and last of the transaction, for the write
channel exactly those of the last beat. -/
theorem axiToLite_group (only : Bool) (s0 : St ι) (h0 : s0.vld = false) (is : List (In ι ρ)) :
    let tr := (machine only).trace s0 is
    (taken tr).length ≤ ((popped tr).flatMap tags).length ∧
    givenOut tr = (((popped tr).flatMap tags).zip (taken tr)).filter (fun x => !only || x.1.2) := by
  have key : ∀ (is : List (In ι ρ)) (s : St ι), ∃ T : List (ι × Bool),
      left s ++ (popped ((machine only).trace s is)).flatMap tags = T ++ left ((machine only).final s is) ∧
      T.length = (taken ((machine only).trace s is)).length ∧
      givenOut ((machine only).trace s is) = (T.zip (taken ((machine only).trace s is))).filter (fun x => !only || x.1.2) := by
    intro is
    induction is with
    | nil => intro s; exact ⟨[], List.append_nil _, rfl, rfl⟩
    | cons i is ih =>
      intro s
      have e : (machine only).trace s (i :: is) = (i, out only s i) :: (machine only).trace (next s i) is := rfl
      have ef : (machine only).final s (i :: is) = (machine only).final (next s i) is := rfl
      obtain ⟨T, h1, h2, h3⟩ := ih (next s i)
      rw [e, ef]
      refine ⟨given (i.inValid && (i.outReady && s.vld)) (cur s) ++ T, ?_, ?_, ?_⟩
      · simp only [popped, filterMap_cons_ite, List.flatMap_append] at h1 ⊢
        refine splice ?_ h1
        show left s ++ List.flatMap tags (given (i.fVld && (if s.vld = true then i.inValid && i.outReady && s.rem == 0 else true))
          (i.fId, i.fLen)) = given (i.inValid && (i.outReady && s.vld)) (cur s) ++ left (next s i)
        have hsing : List.flatMap tags [(i.fId, i.fLen)] = tags (i.fId, i.fLen) := by simp
        unfold left next cur
        cases hv : s.vld
        · cases i.fVld <;> cases i.inValid <;> cases i.outReady <;> simp
        · cases i.inValid <;> cases i.outReady <;> try (simp [hv]; done)
          rcases Nat.eq_zero_or_pos s.rem with hr | hr
          · rw [hr]
            cases i.fVld
            · rfl
            · show tags (s.id, 0) ++ List.flatMap tags [(i.fId, i.fLen)] = [(s.id, true)] ++ tags (i.fId, i.fLen)
              rw [hsing]; rfl
          · obtain ⟨m, hm⟩ : ∃ m, s.rem = m + 1 := ⟨s.rem - 1, by omega⟩
            rw [hm, tags_succ]
            cases i.fVld <;> simp
      · simp only [taken, filterMap_cons_ite, List.length_append] at h2 ⊢
        rw [h2]
        congr 1
        show _ = (given (i.inValid && (i.outReady && s.vld)) i.inData).length
        cases (i.inValid && (i.outReady && s.vld)) <;> rfl
      · simp only [taken, givenOut, filterMap_cons_ite] at h3 ⊢
        rw [h3]
        show given ((i.inValid && (if only = true then s.vld && s.rem == 0 else s.vld)) && i.outReady)
            ((s.id, (s.rem == 0) && s.vld), i.inData) ++ _ =
          List.filter _ (List.zip (given (i.inValid && (i.outReady && s.vld)) (cur s) ++ T)
            (given (i.inValid && (i.outReady && s.vld)) i.inData ++ _))
        unfold cur
        cases i.inValid <;> cases i.outReady <;> cases s.vld <;> cases only <;> cases hr : (s.rem == 0) <;> simp
  obtain ⟨T, h1, h2, h3⟩ := key is s0
  have hl : left s0 = [] := by unfold left; rw [h0]; rfl
  rw [hl, List.nil_append] at h1
  refine ⟨?_, ?_⟩
  · show (taken ((machine only).trace s0 is)).length ≤ ((popped ((machine only).trace s0 is)).flatMap tags).length
    rw [h1, List.length_append, h2]; omega
  · show givenOut ((machine only).trace s0 is) =
      (((popped ((machine only).trace s0 is)).flatMap tags).zip (taken ((machine only).trace s0 is))).filter _
    rw [h3, h1]
    congr 1
    have := List.zip_append (r₁ := left ((machine only).final s0 is)) (r₂ := []) h2
    rw [List.append_nil] at this
    rw [this]; simp

/-- A read of three beats and one of one beat, then a write of two beats. -/
example : givenOut ((machine false).trace ⟨0, false, 0⟩ ([⟨false, 0, true, true, 7, 2⟩, ⟨true, 10, true, true, 8, 0⟩, ⟨true, 11, false, true, 8, 0⟩,
      ⟨true, 11, true, true, 8, 0⟩, ⟨true, 12, true, true, 8, 0⟩, ⟨true, 13, true, false, 0, 0⟩] : List (In Nat Nat))) =
      [((7, false), 10), ((7, false), 11), ((7, true), 12), ((8, true), 13)] ∧
    givenOut ((machine true).trace ⟨0, false, 0⟩ ([⟨false, 0, true, true, 7, 1⟩, ⟨true, 10, true, false, 8, 0⟩, ⟨true, 11, true, false, 8, 0⟩] :
      List (In Nat Nat))) = [((7, true), 11)] := by decide

end Group
end Verif.AxiToLite
