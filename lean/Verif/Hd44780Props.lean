import Verif.Hd44780Live
/-!
# Properties C340-C344 of `Hd44780Driver`
-/
namespace Verif.Hd44780

variable {g : Cfg} {s0 : St}

/-! ## Commands on the pins -/

/-- **C341** Behind the strobe at power up the LCD gets the commands of the initialization and of the characters, each once and in
order; the commands of each accepted character are complete and if no character waits there are no others. -/
theorem lcd_commands (hg : Fits g) (h0 : IsInit g s0) (xs : List In) (hh : Holds ((machine g).trace s0 xs)) :
    let tr := (machine g).trace s0 xs
    strobes tr <+: (hd :: (initSeq ++ expand g.C false (chars tr ++ (pending tr).toList))).map pin ∧
    (chars tr ≠ [] → (hd :: (initSeq ++ expand g.C false (chars tr))).map pin <+: strobes tr) ∧
    (chars tr ≠ [] → pending tr = none → strobes tr = (hd :: (initSeq ++ expand g.C false (chars tr))).map pin) := by
  intro tr
  obtain ⟨acc, k, K⟩ := known g hg s0 h0 xs hh
  have hpre : acc <+: initSeq ++ expand g.C false (chars tr ++ (pending tr).toList) := ⟨_, K.q⟩
  have h1 : strobes tr <+: (hd :: (initSeq ++ expand g.C false (chars tr ++ (pending tr).toList))).map pin := by
    rw [show strobes tr = _ from K.str]
    show _ <+: pin hd :: List.map pin _
    unfold strs
    cases ((machine g).final s0 xs).fsm with
    | powerup =>
      simp only
      split
      · exact ⟨_, rfl⟩
      · exact List.nil_prefix
    | idle => exact (List.cons_prefix_cons.2 ⟨rfl, hpre.map _⟩)
    | write =>
      refine List.cons_prefix_cons.2 ⟨rfl, ?_⟩
      split
      · rw [← List.map_append]
        refine List.IsPrefix.map _ ?_
        rw [← K.q]
        exact (List.prefix_append_right_inj _).2 (List.take_prefix _ _)
      · rw [List.append_nil]; exact hpre.map _
  have hdone : chars tr ≠ [] → ((machine g).final s0 xs).fsm ≠ .powerup ∧ ((machine g).final s0 xs).idx = 3 := by
    intro hne
    have hi : ¬ ((machine g).final s0 xs).idx < 3 := fun q => hne (K.t.early q)
    refine ⟨fun hp => ?_, ?_⟩
    · have := (K.pw hp).2.1; omega
    · have := K.t.idx; omega
  have hacc : chars tr ≠ [] → ∃ d, acc = initSeq ++ expand g.C false (chars tr) ++ d ∧ (pending tr = none → d = []) := by
    intro hne
    obtain ⟨-, hi⟩ := hdone hne
    have hq := K.q
    unfold queue at hq
    rw [hi] at hq
    have hq' : acc ++ remP g ((machine g).final s0 xs) (pending tr) =
      initSeq ++ expand g.C false (chars tr ++ (pending tr).toList) := hq
    cases hp : pending tr with
    | none =>
      rw [hp] at hq'
      exact ⟨[], by simpa [remP] using hq', fun _ => rfl⟩
    | some c =>
      rw [hp] at hq'
      have T := K.t
      rw [show pending ((machine g).trace s0 xs) = some c from hp] at T
      obtain ⟨d, hd⟩ := T.rem_suffix
      refine ⟨d, ?_, fun q => by cases q⟩
      have hq2 : acc ++ rem g ((machine g).final s0 xs) c = initSeq ++ expand g.C false (chars tr ++ [c]) := hq'
      rw [expand_snoc, show one g.C (rowOf false (chars tr)) c = d ++ rem g ((machine g).final s0 xs) c from hd,
        ← List.append_assoc, ← List.append_assoc] at hq2
      exact List.append_cancel_right hq2
  refine ⟨h1, ?_, ?_⟩
  · intro hne
    obtain ⟨hf, hi⟩ := hdone hne
    obtain ⟨d, hd', -⟩ := hacc hne
    rw [show strobes tr = _ from K.str]
    show pin hd :: List.map pin _ <+: _
    unfold strs
    cases hfm : ((machine g).final s0 xs).fsm with
    | powerup => exact absurd hfm hf
    | idle =>
      refine List.cons_prefix_cons.2 ⟨rfl, List.IsPrefix.map _ ?_⟩
      rw [hd']; exact List.prefix_append _ _
    | write =>
      refine List.cons_prefix_cons.2 ⟨rfl, ?_⟩
      rw [hd', List.map_append (l₂ := d), List.append_assoc]; exact List.prefix_append _ _
  · intro hne hp
    obtain ⟨hf, hi⟩ := hdone hne
    obtain ⟨d, hd', hd2⟩ := hacc hne
    rw [hd2 hp, List.append_nil] at hd'
    rw [show strobes tr = _ from K.str]
    show _ = pin hd :: List.map pin _
    unfold strs
    cases hfm : ((machine g).final s0 xs).fsm with
    | powerup => exact absurd hfm hf
    | idle => rw [hd']
    | write =>
      exfalso
      rcases K.rdy hfm with q | ⟨c, q, -⟩
      · omega
      · rw [show pending ((machine g).trace s0 xs) = none from hp] at q; cases q

/-! ## Stable pins -/

/-- **C342** The pins do not change while `en` is high and in the cycle of its falling edge. -/
theorem lcd_stable (hg : Fits g) (h0 : IsInit g s0) (xs : List In) (x y : In)
    (hh : Holds ((machine g).trace s0 (xs ++ [x, y]))) (hen : ((machine g).outAfter s0 xs x).en = true) :
    ((machine g).outAfter s0 xs x).pins.isSome = true ∧
    ((machine g).outAfter s0 (xs ++ [x]) y).pins = ((machine g).outAfter s0 xs x).pins := by
  have e1 : (machine g).trace s0 (xs ++ [x, y]) = (machine g).trace s0 (xs ++ [x]) ++
      [(y, (machine g).outAfter s0 (xs ++ [x]) y)] := by
    rw [show xs ++ [x, y] = (xs ++ [x]) ++ [y] by simp, Machine.trace_snoc]
  rw [e1] at hh
  have hy := hh.next
  have hx' := hh.init
  have e2 : (machine g).trace s0 (xs ++ [x]) = (machine g).trace s0 xs ++ [(x, (machine g).outAfter s0 xs x)] := by
    rw [Machine.trace_snoc]
  rw [e2] at hx' hy
  obtain ⟨acc, k, K⟩ := known g hg s0 h0 xs hx'.init
  have K2 : Known g ((machine g).final s0 xs) (chars ((machine g).trace s0 xs)) x.din acc k
      (lastEn ((machine g).trace s0 xs)) (strobes ((machine g).trace s0 xs)) := by
    rcases hx'.next with hp | hp
    · rw [hp] at K; exact K.offer _
    · rw [← hp] at K; exact K
  obtain ⟨acc', K3⟩ := K2.step hg.2 hg.1
  rw [pending_snoc] at hy
  have hpd : pend' g ((machine g).final s0 xs) x = if ((machine g).outAfter s0 xs x).rd then none else x.din := rfl
  have K4 : Known g (next g ((machine g).final s0 xs) x) (chs' g ((machine g).final s0 xs) x (chars ((machine g).trace s0 xs)))
      y.din acc' (k' g ((machine g).final s0 xs) k) ((machine g).final s0 xs).en
      (strobes ((machine g).trace s0 xs) ++
        if (((machine g).final s0 xs).en && !lastEn ((machine g).trace s0 xs)) = true then
          [(out g ((machine g).final s0 xs) x).pins] else []) := by
    rcases hy with hy | hy
    · rw [hpd, hy] at K3; exact K3.offer _
    · rw [hpd, ← show y.din = _ from hy] at K3; exact K3
  have hfin : (machine g).final s0 (xs ++ [x]) = next g ((machine g).final s0 xs) x := by
    rw [Machine.final_append]; rfl
  unfold Machine.outAfter at hen ⊢
  rw [hfin]
  replace hy : pend' g ((machine g).final s0 xs) x = none ∨ y.din = pend' g ((machine g).final s0 xs) x := by rw [hpd]; exact hy
  clear hpd
  generalize (machine g).final s0 xs = s at *
  have hen' : s.en = true := hen
  show ((tmpCmd g s x).map _).isSome = true ∧ (tmpCmd g (next g s x) y).map _ = (tmpCmd g s x).map _
  have hni : s.fsm ≠ .idle := fun q => by rw [K2.idle q] at hen'; cases hen'
  have hk5 : 1 ≤ k ∧ k ≤ 5 := by
    have := (K2.en hni).1
    rw [hen'] at this
    exact decide_eq_true_iff.1 this.symm
  have ht1 := tick_eq (g := g) K2.reg hni (show periods[1]? = some 10 from rfl)
  have ht2 := tick_eq (g := g) K2.reg hni (show periods[2]? = some 410 from rfl)
  have n1 : tick g s 1 = false := by
    rw [ht1]
    have : ((k + 1) % 10 == 0) = false := by rw [beq_eq_false_iff_ne]; omega
    rw [this, Bool.and_false]
  have n2 : tick g s 2 = false := by
    rw [ht2]
    have : ((k + 1) % 410 == 0) = false := by rw [beq_eq_false_iff_ne]; omega
    rw [this, Bool.and_false]
  have hdn : done g s = false := by unfold done; rw [n1, n2]; cases s.isLong <;> rfl
  have htr : tmpRd g s = false := by unfold tmpRd; rw [hdn, Bool.and_false]
  obtain ⟨T, Q, R, E⟩ := K2.t.step hg.2 hg.1 K2.rdy
  rw [htr] at Q
  have hrdy : Ready s x.din := by
    cases hf : s.fsm with
    | powerup => exact Or.inl (by have := (K2.pw hf).2.1; omega)
    | idle => exact absurd hf hni
    | write => exact K2.rdy hf
  have hrdy' := R htr hrdy
  obtain ⟨-, c, c1, q, c2⟩ := K2.t.offered hrdy
  have hrdy2 : Ready (next g s x) y.din := by
    rcases hrdy' with q | ⟨c, q1, q2⟩
    · exact Or.inl q
    · rcases hy with hy | hy
      · rw [hy] at q1; cases q1
      · have hy' : y.din = pend' g s x := hy
        rw [hy']; exact Or.inr ⟨c, q1, q2⟩
  obtain ⟨-, d, d1, r, d2⟩ := K4.t.offered hrdy2
  have hcd : c = d := by
    have Q' : queue g s x.din = queue g (next g s x) (pend' g s x) := by simpa using Q
    rw [c2] at Q'
    rcases hy with hy | hy
    · have hn : pend' g s x = none := hy
      rw [hn] at Q'
      have : queue g (next g s x) y.din = queue g (next g s x) none ++ remP g (next g s x) y.din := by
        unfold queue; simp [remP]
      rw [this, ← Q', List.cons_append] at d2
      exact (List.cons.inj d2).1
    · have hy' : y.din = pend' g s x := hy
      rw [hy', ← Q'] at d2
      exact (List.cons.inj d2).1
  rw [c1, d1, hcd]
  exact ⟨rfl, rfl⟩

/-! ## Progress -/

/-- **C343** A character which is offered is accepted within a bounded number of cycles. -/
theorem lcd_progress (hg : Fits g) (hP : 0 < g.P) (h0 : IsInit g s0) (xs : List In) (hh : Holds ((machine g).trace s0 xs)) (c : Nat)
    (hc : pending ((machine g).trace s0 xs) = none ∨ pending ((machine g).trace s0 xs) = some c) :
    ∃ n, n ≤ (g.C + 6) * (411 * g.P + 2) ∧
      Holds ((machine g).trace s0 (xs ++ List.replicate (n + 1) ⟨some c, false⟩)) ∧
      chars ((machine g).trace s0 (xs ++ List.replicate (n + 1) ⟨some c, false⟩)) = chars ((machine g).trace s0 xs) ++ [c] ∧
      pending ((machine g).trace s0 (xs ++ List.replicate (n + 1) ⟨some c, false⟩)) = none := by
  have key : ∀ m, ∀ xs : List In, Holds ((machine g).trace s0 xs) →
      (pending ((machine g).trace s0 xs) = none ∨ pending ((machine g).trace s0 xs) = some c) →
      (∃ acc k, Known g ((machine g).final s0 xs) (chars ((machine g).trace s0 xs)) (some c) acc k
        (lastEn ((machine g).trace s0 xs)) (strobes ((machine g).trace s0 xs)) ∧
        mu g ((machine g).final s0 xs) c k xs.length ≤ m) →
      ∃ n, n ≤ m ∧ Holds ((machine g).trace s0 (xs ++ List.replicate (n + 1) ⟨some c, false⟩)) ∧
      chars ((machine g).trace s0 (xs ++ List.replicate (n + 1) ⟨some c, false⟩)) = chars ((machine g).trace s0 xs) ++ [c] ∧
      pending ((machine g).trace s0 (xs ++ List.replicate (n + 1) ⟨some c, false⟩)) = none := by
    intro m
    induction m with
    | zero => 
      intro xs hh hc ⟨acc, k, K, hm⟩
      by_cases hr : ((machine g).outAfter s0 xs ⟨some c, false⟩).rd = true
      · refine ⟨0, Nat.le_refl _, ?_, ?_, ?_⟩
        all_goals rw [show List.replicate (0 + 1) (⟨some c, false⟩ : In) = [⟨some c, false⟩] from rfl, Machine.trace_snoc]
        · exact hh.snoc (hc.imp id fun q => q.symm)
        · rw [chars_snoc]
          show _ ++ (if ((machine g).outAfter s0 xs ⟨some c, false⟩).rd = true then [c] else []) = _
          rw [if_pos hr]
        · rw [pending_snoc]
          show (if ((machine g).outAfter s0 xs ⟨some c, false⟩).rd = true then none else some c) = none
          rw [if_pos hr]
      · exfalso
        have hr' : (translate g ((machine g).final s0 xs) ⟨some c, false⟩).rd = false := by
          cases q : (translate g ((machine g).final s0 xs) ⟨some c, false⟩).rd
          · rfl
          · exact absurd q hr
        have := K.progress (x := ⟨some c, false⟩) hg hP rfl (lcd_reg g hP s0 h0 xs) hr'
        omega
    | succ m ih =>
      intro xs hh hc ⟨acc, k, K, hm⟩
      by_cases hr : ((machine g).outAfter s0 xs ⟨some c, false⟩).rd = true
      · refine ⟨0, Nat.zero_le _, ?_, ?_, ?_⟩
        all_goals rw [show List.replicate (0 + 1) (⟨some c, false⟩ : In) = [⟨some c, false⟩] from rfl, Machine.trace_snoc]
        · exact hh.snoc (hc.imp id fun q => q.symm)
        · rw [chars_snoc]
          show _ ++ (if ((machine g).outAfter s0 xs ⟨some c, false⟩).rd = true then [c] else []) = _
          rw [if_pos hr]
        · rw [pending_snoc]
          show (if ((machine g).outAfter s0 xs ⟨some c, false⟩).rd = true then none else some c) = none
          rw [if_pos hr]
      · have hr' : (translate g ((machine g).final s0 xs) ⟨some c, false⟩).rd = false := by
          cases q : (translate g ((machine g).final s0 xs) ⟨some c, false⟩).rd
          · rfl
          · exact absurd q hr
        have hpr := K.progress (x := ⟨some c, false⟩) hg hP rfl (lcd_reg g hP s0 h0 xs) hr'
        obtain ⟨acc', K3⟩ := Known.step (x := ⟨some c, false⟩) hg.2 hg.1 K
        have hrd : ((machine g).outAfter s0 xs ⟨some c, false⟩).rd = false := hr'
        have hpd : pending ((machine g).trace s0 (xs ++ [⟨some c, false⟩])) = some c := by
          rw [Machine.trace_snoc, pending_snoc, hrd]; rfl
        have hch : chars ((machine g).trace s0 (xs ++ [⟨some c, false⟩])) = chars ((machine g).trace s0 xs) := by
          rw [Machine.trace_snoc, chars_snoc, hrd]; simp
        obtain ⟨n, n1, n2, n3, n4⟩ := ih (xs ++ [⟨some c, false⟩])
          (by rw [Machine.trace_snoc]; exact hh.snoc (hc.imp id fun q => q.symm)) (Or.inr hpd) (by
            refine ⟨acc', k' g ((machine g).final s0 xs) k, ?_, ?_⟩
            · rw [Machine.final_append, Machine.trace_snoc, chars_snoc, lastEn_snoc, strobes_snoc]
              have : pend' g ((machine g).final s0 xs) ⟨some c, false⟩ = some c := by unfold pend'; rw [hr']; rfl
              rw [this] at K3
              exact K3
            · rw [Machine.final_append, List.length_append]
              show mu g (next g ((machine g).final s0 xs) ⟨some c, false⟩) c _ (xs.length + 1) ≤ m
              omega)
        have e : xs ++ List.replicate (n + 1 + 1) (⟨some c, false⟩ : In) =
            xs ++ [⟨some c, false⟩] ++ List.replicate (n + 1) ⟨some c, false⟩ := by
          rw [List.replicate_succ]; simp
        refine ⟨n + 1, by omega, ?_, ?_, ?_⟩
        all_goals rw [e]
        · exact n2
        · rw [n3, hch]
        · exact n4
  obtain ⟨acc, k, K⟩ := known g hg s0 h0 xs hh
  have K2 : Known g ((machine g).final s0 xs) (chars ((machine g).trace s0 xs)) (some c) acc k
      (lastEn ((machine g).trace s0 xs)) (strobes ((machine g).trace s0 xs)) := by
    rcases hc with hp | hp
    · rw [hp] at K; exact K.offer _
    · rw [hp] at K; exact K
  exact key _ xs hh hc ⟨acc, k, K2, K2.mu_le hP⟩

/-- Each text can be written. -/
theorem lcd_text (hg : Fits g) (hP : 0 < g.P) (h0 : IsInit g s0) (cs : List Nat) :
    ∃ xs, Holds ((machine g).trace s0 xs) ∧ chars ((machine g).trace s0 xs) = cs ∧ pending ((machine g).trace s0 xs) = none := by
  have key : ∀ n, ∀ cs : List Nat, cs.length = n →
      ∃ xs, Holds ((machine g).trace s0 xs) ∧ chars ((machine g).trace s0 xs) = cs ∧
        pending ((machine g).trace s0 xs) = none := by
    intro n
    induction n with
    | zero =>
      intro cs hn
      have : cs = [] := List.length_eq_zero_iff.1 hn
      subst this
      refine ⟨[], ?_, rfl, rfl⟩
      intro pre e e' post hp
      have hp' : ([] : Run) = pre ++ e :: e' :: post := hp
      cases pre <;> cases hp'
    | succ n ih =>
      intro cs hn
      rcases List.eq_nil_or_concat cs with rfl | ⟨l, c, rfl⟩
      · cases hn
      · rw [List.concat_eq_append] at hn ⊢
        obtain ⟨xs, h1, h2, h3⟩ := ih l (by simpa using hn)
        obtain ⟨n, -, n1, n2, n3⟩ := lcd_progress hg hP h0 xs h1 c (Or.inl h3)
        exact ⟨_, n1, by rw [n2, h2], n3⟩
  exact key _ cs rfl

/-! ## Power up -/

/-- State after reset. -/
def init (g : Cfg) : St := ⟨false, .rowIncr, false, false, 0, 0, .powerup, false, true, false, Timers.init [g.P], Timers.init periods⟩
theorem init_isInit (g : Cfg) : IsInit g (init g) := ⟨rfl, rfl, rfl, rfl, rfl, rfl, rfl, rfl, rfl⟩

/-- C340: the LCD gets no command in the delay after power up (410 LCD clocks). -/
def NoEarlyCommand : Prop :=
  ∀ (g : Cfg) (s0 : St) (xs : List In), Fits g → 0 < g.P → IsInit g s0 → Holds ((machine g).trace s0 xs) → xs.length < 410 * g.P →
    strobes ((machine g).trace s0 xs) = []

theorem holds_idle (n : Nat) (g : Cfg) (s0 : St) : Holds ((machine g).trace s0 (List.replicate n ⟨none, false⟩)) := by
  intro pre e e' post hp hr hs
  have hm : e ∈ (machine g).trace s0 (List.replicate n ⟨none, false⟩) := by rw [hp]; simp
  have : ∀ n s, e ∈ (machine g).trace s (List.replicate n ⟨none, false⟩) → e.1.din = none := by
    intro n
    induction n with
    | zero => intro s h; cases h
    | succ n ih =>
      intro s h
      rw [List.replicate_succ, Machine.trace_cons] at h
      rcases List.mem_cons.1 h with h | h
      · rw [h]
      · exact ih _ h
  rw [this _ _ hm] at hs
  cases hs

/-- **C340** violated: `en` has a pulse with the function set command right after the reset. -/
theorem not_noEarlyCommand : ¬ NoEarlyCommand := by
  intro h
  have := h ⟨16, 2⟩ (init ⟨16, 2⟩) (List.replicate 4 ⟨none, false⟩) ⟨by decide, by decide⟩ (by decide) (init_isInit _) (holds_idle _ _ _)
    (by decide)
  revert this
  decide +kernel

theorem powerup (hP : 0 < g.P) (h0 : IsInit g s0) (xs : List In) (hl : xs.length < 410 * g.P) :
    ((machine g).final s0 xs).fsm = .powerup ∧ Timers.Reg periods (xs.length / g.P) ((machine g).final s0 xs).c2 := by
  have key : ∀ n, ∀ xs : List In, xs.length = n → n < 410 * g.P →
      ((machine g).final s0 xs).fsm = .powerup ∧ Timers.Reg periods (n / g.P) ((machine g).final s0 xs).c2 := by
    intro n
    induction n with
    | zero =>
      intro xs hn _
      have : xs = [] := List.length_eq_zero_iff.1 hn
      subst this
      refine ⟨h0.fsm, ?_⟩
      rw [Nat.zero_div]
      show Timers.Reg periods 0 s0.c2
      rw [h0.c2]
      exact Timers.reg_init _
    | succ n ih =>
      intro xs hn hl
      rcases List.eq_nil_or_concat xs with rfl | ⟨l, x, rfl⟩
      · cases hn
      · rw [List.concat_eq_append] at hn ⊢
        have hln : l.length = n := by simpa using hn
        obtain ⟨hf, hr⟩ := ih l hln (by omega)
        have hc := lcdEn_eq hP (lcd_reg g hP s0 h0 l)
        rw [hln] at hc
        rw [Machine.final_append]
        show (next g ((machine g).final s0 l) x).fsm = _ ∧ Timers.Reg periods _ (next g ((machine g).final s0 l) x).c2
        generalize (machine g).final s0 l = s at *
        have ht2 := tick_eq (g := g) hr (by rw [hf]; decide) (show periods[2]? = some 410 from rfl)
        have hreg : Timers.Reg periods (k' g s (n / g.P)) (next g s x).c2 := Timers.reg_next periods (by decide) hr (timIn g s)
        rw [k'_eq (by rw [hf]; decide), hc] at hreg
        rw [hc] at ht2
        have hdm := Nat.div_add_mod n g.P
        have hml := Nat.mod_lt n hP
        have hlt : n / g.P < 410 := Nat.div_lt_of_lt_mul (by rw [Nat.mul_comm]; omega)
        by_cases hd : (n + 1) % g.P = 0
        · have hq : n % g.P = g.P - 1 := by
            rw [Nat.add_mod] at hd
            by_cases h1 : g.P = 1
            · omega
            · rw [Nat.mod_eq_of_lt (show 1 < g.P by omega)] at hd
              by_cases h2 : n % g.P + 1 < g.P
              · rw [Nat.mod_eq_of_lt h2] at hd; omega
              · omega
          have hn1 : n + 1 = g.P * (n / g.P + 1) := by rw [Nat.mul_add]; omega
          have hdiv : (n + 1) / g.P = n / g.P + 1 := by
            conv => lhs; rw [hn1]
            exact Nat.mul_div_cancel_left _ hP
          have h409 : n / g.P + 1 < 410 := by
            apply Nat.lt_of_mul_lt_mul_left (a := g.P)
            rw [← hn1, Nat.mul_comm]; exact hl
          have hne : ((n / g.P + 1) % 410 == 0) = false := by
            rw [beq_eq_false_iff_ne, Nat.mod_eq_of_lt h409]; exact Nat.succ_ne_zero _
          rw [hne, Bool.and_false] at ht2
          refine ⟨?_, ?_⟩
          · show nextFsm g s x = _
            unfold nextFsm
            rw [hf, ht2]; rfl
          · rw [hdiv]
            rw [hd] at hreg
            exact hreg
        · have hne : ((n + 1) % g.P == 0) = false := by rw [beq_eq_false_iff_ne]; exact hd
          rw [hne] at ht2 hreg
          have hdiv : (n + 1) / g.P = n / g.P := by
            have hq : n % g.P + 1 < g.P := by
              by_cases h2 : n % g.P + 1 < g.P
              · exact h2
              · exfalso
                apply hd
                have : n + 1 = g.P * (n / g.P + 1) := by rw [Nat.mul_add]; omega
                rw [this]; exact Nat.mul_mod_right _ _
            apply Nat.div_eq_of_lt_le
            · rw [Nat.mul_comm]; omega
            · rw [Nat.mul_comm, Nat.mul_add]; omega
          refine ⟨?_, ?_⟩
          · show nextFsm g s x = _
            unfold nextFsm
            rw [hf, ht2]; rfl
          · rw [hdiv]; exact hreg
  exact key _ xs rfl hl

/-- **C340** The only command in the delay after power up is the function set (once) and no character is accepted. -/
theorem lcd_powerup_partial (hg : Fits g) (hP : 0 < g.P) (h0 : IsInit g s0) (xs : List In) (hh : Holds ((machine g).trace s0 xs))
    (hl : xs.length < 410 * g.P) :
    strobes ((machine g).trace s0 xs) <+: [some (false, 0b00111000)] ∧ chars ((machine g).trace s0 xs) = [] := by
  obtain ⟨acc, k, K⟩ := known g hg s0 h0 xs hh
  have hf := (powerup hP h0 xs hl).1
  refine ⟨?_, K.t.early (by have := (K.pw hf).2.1; omega)⟩
  rw [K.str, hf]
  unfold strs
  simp only
  split
  · exact List.prefix_refl _
  · exact List.nil_prefix

/-! ## Screen -/

/-- The screen of a terminal with 2 lines which continues in the other line. -/
def Lcd.put (l : Lcd) (c : Nat) : Lcd :=
  if c = LF then ⟨upd l.scr (1 - l.r) fun _ => 32, 1 - l.r, 0⟩
  else if c = FF then lcd0
  else { l with scr := upd l.scr l.r (upd (l.scr l.r) l.c c), c := l.c + 1 }

/-- No line is longer than the screen, `k` is the length of the current one. -/
def LinesFit (C : Nat) : Nat → List Nat → Prop
  | _, [] => True
  | k, c :: cs => if c = LF ∨ c = FF then LinesFit C 0 cs else k < C ∧ LinesFit C (k + 1) cs

/-- `'\f'` is only in the first line. -/
def FeedsFirst : Bool → List Nat → Prop
  | _, [] => True
  | r, c :: cs => (c = FF → r = false) ∧ FeedsFirst (rowAfter r c) cs

/-- C344: the screen shows the text. -/
def ScreenShowsText : Prop :=
  ∀ (g : Cfg) (s0 : St) (xs : List In), Fits g → g.C % 2 = 0 → 0 < g.P → IsInit g s0 → Holds ((machine g).trace s0 xs) →
    pending ((machine g).trace s0 xs) = none → LinesFit g.C 0 (chars ((machine g).trace s0 xs)) → chars ((machine g).trace s0 xs) ≠ [] →
    Lcd.run g.C (some lcd0) (strobes ((machine g).trace s0 xs)) = some ((chars ((machine g).trace s0 xs)).foldl Lcd.put lcd0)

/-- **C344** violated: `'\f'` in the second line moves the cursor to the first line but the driver does not notice, the next `'\n'`
does not move to the other line. -/
theorem not_screenShowsText : ¬ ScreenShowsText := by
  intro h
  have hf : Fits ⟨2, 1⟩ := ⟨by decide, by decide⟩
  obtain ⟨xs, h1, h2, h3⟩ := lcd_text hf (by decide) (init_isInit _) [LF, FF, LF, 97]
  have := h ⟨2, 1⟩ _ xs hf (by decide) (by decide) (init_isInit _) h1 h3 (by rw [h2]; simp [LinesFit, LF, FF]) (by rw [h2]; decide)
  have hs := (lcd_commands hf (init_isInit _) xs h1).2.2 (by rw [h2]; decide) h3
  rw [hs, h2] at this
  have h4 := congrArg (fun o : Option Lcd => o.map fun l => l.scr 1 0) this
  revert h4
  decide +kernel

theorem Lcd.run_append (C : Nat) (a b : List (Option (Bool × Nat))) : ∀ l, Lcd.run C l (a ++ b) = Lcd.run C (Lcd.run C l a) b := by
  induction a with
  | nil => intro l; rfl
  | cons p a ih => intro l; exact ih _

theorem run_spaces (C : Nat) (n : Nat) : ∀ (scr : Nat → Nat → Nat) (r j : Nat), r < 2 → j + n ≤ C →
    Lcd.run C (some ⟨scr, r, j⟩) (List.replicate n (pin space)) =
      some ⟨upd scr r fun i => if j ≤ i ∧ i < j + n then 32 else scr r i, r, j + n⟩ := by
  induction n with
  | zero =>
    intro scr r j hr hj
    show some _ = some _
    have : upd scr r (fun i => if j ≤ i ∧ i < j + 0 then 32 else scr r i) = scr := by
      funext a
      by_cases ha : a = r
      · subst ha; rw [upd_same]; funext i; rw [if_neg (by omega)]
      · rw [upd_ne _ _ _ _ ha]
    rw [this]; rfl
  | succ n ih =>
    intro scr r j hr hj
    rw [List.replicate_succ]
    show Lcd.run C (Lcd.step C ⟨scr, r, j⟩ (some (true, 32))) _ = _
    unfold Lcd.step
    simp only
    rw [if_pos ⟨hr, by omega⟩, ih _ _ _ hr (by omega)]
    congr 2
    · funext a
      by_cases ha : a = r
      · subst ha
        rw [upd_same, upd_same, upd_same]
        funext i
        by_cases hi : i = j
        · subst hi; rw [upd_same, if_neg (by omega), if_pos (by omega)]
        · rw [upd_ne _ _ _ _ hi]
          by_cases hq : j ≤ i ∧ i < j + (n + 1)
          · rw [if_pos hq, if_pos (by omega)]
          · rw [if_neg hq, if_neg (by omega)]
      · rw [upd_ne _ _ _ _ ha, upd_ne _ _ _ _ ha, upd_ne _ _ _ _ ha]
    · omega

theorem run_addr (C : Nat) (hC : 0 < C) (he : C % 2 = 0) (row : Bool) (l : Lcd) :
    l.step C (pin (addr C row)) = some { l with r := row.toNat, c := 0 } := by
  unfold pin addr Lcd.step
  simp only
  rw [if_pos (by omega)]
  cases row
  · have e : (128 + (if false = true then C else 0) - 128 + C - 1) / C = 0 := by
      rw [if_neg (by simp)]; exact Nat.div_eq_of_lt (by omega)
    rw [e, if_pos (by decide)]
    simp
  · have e : (128 + (if true = true then C else 0) - 128 + C - 1) / C = 1 := by
      rw [if_pos rfl, show 128 + C - 128 + C - 1 = C + (C - 1) by omega, Nat.add_div_left _ hC, Nat.div_eq_of_lt (by omega)]
    rw [e]
    simp [he]

theorem run_one (C : Nat) (hC : 0 < C) (he : C % 2 = 0) (row : Bool) (l : Lcd) (hr : l.r = row.toNat) (c : Nat)
    (hb : ∀ r i, C ≤ i → l.scr r i = 32) (hk : c ≠ LF → c ≠ FF → l.c < C) :
    Lcd.run C (some l) ((one C row c).map pin) = some (l.put c) := by
  unfold one Lcd.put
  by_cases h1 : c = LF
  · rw [if_pos h1, if_pos h1]
    unfold nlSeq
    rw [List.map_cons, List.map_append, List.map_replicate]
    show Lcd.run C (Lcd.step C l (pin (addr C (!row)))) (List.replicate C (pin space) ++ [pin (addr C (!row))]) = _
    rw [run_addr C hC he, Lcd.run_append, run_spaces _ _ _ _ _ (by cases row <;> decide) (by omega)]
    show Lcd.step C _ (pin (addr C (!row))) = _
    rw [run_addr C hC he]
    have e : 1 - l.r = (!row).toNat := by rw [hr]; cases row <;> rfl
    rw [e]
    congr 2
    show upd l.scr _ _ = _
    funext a
    by_cases ha : a = (!row).toNat
    · subst ha
      rw [upd_same, upd_same]
      funext i
      by_cases hi : 0 ≤ i ∧ i < 0 + C
      · rw [if_pos hi]
      · rw [if_neg hi]; exact hb _ _ (by omega)
    · rw [upd_ne _ _ _ _ ha, upd_ne _ _ _ _ ha]
  · rw [if_neg h1, if_neg h1]
    by_cases h2 : c = FF
    · rw [if_pos h2, if_pos h2]; rfl
    · rw [if_neg h2, if_neg h2]
      show Lcd.step C l (some (true, c)) = _
      unfold Lcd.step
      simp only
      rw [if_pos ⟨by rw [hr]; cases row <;> decide, hk h1 h2⟩]

theorem run_expand (C : Nat) (hC : 0 < C) (he : C % 2 = 0) (cs : List Nat) : ∀ (row : Bool) (l : Lcd), l.r = row.toNat →
    (∀ r i, C ≤ i → l.scr r i = 32) → LinesFit C l.c cs → FeedsFirst row cs →
    Lcd.run C (some l) ((expand C row cs).map pin) = some (cs.foldl Lcd.put l) := by
  induction cs with
  | nil => intro row l _ _ _ _; rfl
  | cons c cs ih =>
    intro row l hr hb hl hf
    have hk : c ≠ LF → c ≠ FF → l.c < C ∧ LinesFit C (l.c + 1) cs := by
      intro a b
      unfold LinesFit at hl
      rwa [if_neg (fun q => q.elim a b)] at hl
    show Lcd.run C (some l) ((one C row c ++ expand C (rowAfter row c) cs).map pin) = some (cs.foldl Lcd.put (l.put c))
    rw [List.map_append, Lcd.run_append, run_one C hC he row l hr c hb fun a b => (hk a b).1]
    unfold LinesFit at hl
    have hff := hf.2
    apply ih
    · unfold Lcd.put rowAfter
      by_cases h1 : c = LF
      · rw [if_pos h1, if_pos h1]
        show 1 - l.r = _
        rw [hr]; cases row <;> rfl
      · rw [if_neg h1, if_neg h1]
        by_cases h2 : c = FF
        · rw [if_pos h2, hf.1 h2]; rfl
        · rw [if_neg h2]; exact hr
    · unfold Lcd.put
      intro r i hi
      by_cases h1 : c = LF
      · rw [if_pos h1]
        show upd l.scr _ _ r i = 32
        by_cases ha : r = 1 - l.r
        · subst ha; rw [upd_same]
        · rw [upd_ne _ _ _ _ ha]; exact hb _ _ hi
      · rw [if_neg h1]
        by_cases h2 : c = FF
        · rw [if_pos h2]; rfl
        · rw [if_neg h2]
          show upd l.scr _ _ r i = 32
          have := (hk h1 h2).1
          by_cases ha : r = l.r
          · subst ha; rw [upd_same, upd_ne _ _ _ _ (by omega)]; exact hb _ _ hi
          · rw [upd_ne _ _ _ _ ha]; exact hb _ _ hi
    · unfold Lcd.put
      by_cases h1 : c = LF
      · rw [if_pos h1]; rwa [if_pos (Or.inl h1)] at hl
      · rw [if_neg h1]
        by_cases h2 : c = FF
        · rw [if_pos h2]; rwa [if_pos (Or.inr h2)] at hl
        · rw [if_neg h2]; exact (hk h1 h2).2
    · exact hff

/-- **C344** If `'\f'` is only used in the first line the screen shows the text. -/
theorem lcd_screen_partial (hg : Fits g) (he : g.C % 2 = 0) (h0 : IsInit g s0) (xs : List In) (hh : Holds ((machine g).trace s0 xs))
    (hp : pending ((machine g).trace s0 xs) = none) (hl : LinesFit g.C 0 (chars ((machine g).trace s0 xs)))
    (hf : FeedsFirst false (chars ((machine g).trace s0 xs))) (hne : chars ((machine g).trace s0 xs) ≠ []) :
    Lcd.run g.C (some lcd0) (strobes ((machine g).trace s0 xs)) = some ((chars ((machine g).trace s0 xs)).foldl Lcd.put lcd0) := by
  rw [(lcd_commands hg h0 xs hh).2.2 hne hp, ← List.cons_append, List.map_append, Lcd.run_append]
  exact run_expand g.C hg.1 he _ false lcd0 rfl (fun _ _ _ => rfl) hl hf

/-! ## Examples -/

example : Fits ⟨16, 20⟩ ∧ (16 : Nat) % 2 = 0 := ⟨⟨by decide, by decide⟩, by decide⟩
/-- A text of two lines reaches the screen. -/
example : ∃ xs, let tr := (machine ⟨16, 20⟩).trace (init ⟨16, 20⟩) xs
    Holds tr ∧ chars tr = [72, 105, LF, 72] ∧ pending tr = none ∧ LinesFit 16 0 (chars tr) ∧ FeedsFirst false (chars tr) ∧
    strobes tr = (hd :: (initSeq ++ expand 16 false [72, 105, LF, 72])).map pin := by
  have hf : Fits ⟨16, 20⟩ := ⟨by decide, by decide⟩
  obtain ⟨xs, h1, h2, h3⟩ := lcd_text hf (by decide) (init_isInit _) [72, 105, LF, 72]
  refine ⟨xs, h1, h2, h3, ?_, ?_, ?_⟩
  · rw [h2]; simp [LinesFit, LF, FF]
  · rw [h2]; simp [FeedsFirst, LF, FF]
  · rw [(lcd_commands hf (init_isInit _) xs h1).2.2 (by rw [h2]; decide) h3, h2]
/-- `en` is high while the command is on the pins. -/
example : let g : Cfg := ⟨16, 2⟩
    ((machine g).outAfter (init g) (List.replicate 2 ⟨none, false⟩) ⟨none, false⟩) = ⟨false, true, some (false, 56)⟩ := by
  decide +kernel

end Verif.Hd44780
