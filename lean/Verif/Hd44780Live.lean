import Verif.Hd44780Reach
/-! Progress of the HD44780 driver. -/
namespace Verif.Hd44780

theorem Holds.snoc {tr : Run} (h : Holds tr) {e : In × Out} (he : pending tr = none ∨ e.1.din = pending tr) :
    Holds (tr ++ [e]) := by
  intro pre a b post hp hr hs
  rcases List.eq_nil_or_concat post with rfl | ⟨l, z, rfl⟩
  · have hp' : tr ++ [e] = (pre ++ [a]) ++ [b] := by rw [hp]; simp
    obtain ⟨e1, e2⟩ := List.append_inj' hp' rfl
    have e3 : e = b := by simpa using e2
    subst e1 e3
    rw [pending_snoc, hr] at he
    simp only [Bool.false_eq_true, if_false] at he
    rcases he with he | he
    · rw [he] at hs; cases hs
    · exact he
  · rw [List.concat_eq_append] at hp
    have hp' : tr ++ [e] = (pre ++ a :: b :: l) ++ [z] := by rw [hp]; simp
    obtain ⟨e1, -⟩ := List.append_inj' hp' rfl
    exact h pre a b l e1 hr hs

def wait (P j : Nat) : Nat := P - 1 - j % P

theorem wait_step {P : Nat} (hP : 0 < P) (j : Nat) :
    ((j + 1) % P = 0 ∧ wait P j = 0 ∧ wait P (j + 1) = P - 1) ∨ ((j + 1) % P ≠ 0 ∧ wait P (j + 1) + 1 = wait P j) := by
  unfold wait
  have h1 := Nat.div_add_mod j P
  have h2 := Nat.mod_lt j hP
  by_cases h : (j + 1) % P = 0
  · left
    exact ⟨h, (Timers.zero_iff hP j).2 h, by rw [h]; rfl⟩
  · right
    refine ⟨h, ?_⟩
    rcases Nat.lt_or_ge (j % P + 1) P with q | q
    · have : (j + 1) % P = j % P + 1 := by
        rw [← h1, Nat.add_assoc, Nat.mul_add_mod, Nat.mul_add_mod, Nat.mod_eq_of_lt q, Nat.mod_eq_of_lt h2]
      omega
    · exfalso
      apply h
      have e : j % P + 1 = P := by omega
      rw [← h1, Nat.add_assoc, e, ← Nat.mul_succ]
      exact Nat.mul_mod_right _ _

theorem lcdEn_eq {g : Cfg} (hP : 0 < g.P) {s : St} {j : Nat} (h : Timers.Reg [g.P] j s.c1) :
    lcdEn g s = ((j + 1) % g.P == 0) := by
  unfold lcdEn
  rw [List.getD_eq_getElem?_getD]
  show (((List.range 1).map _)[0]?).getD false = _
  show Timers.tick _ _ _ _ _ _ = _
  have := Timers.tick_eq [g.P] (by simpa using hP) h ⟨true, false⟩ rfl 0 (by simp)
  rw [this]
  simp

theorem lcd_reg (g : Cfg) (hP : 0 < g.P) (s0 : St) (h0 : IsInit g s0) (xs : List In) :
    Timers.Reg [g.P] xs.length ((machine g).final s0 xs).c1 := by
  have key : ∀ n, ∀ xs : List In, xs.length = n → Timers.Reg [g.P] xs.length ((machine g).final s0 xs).c1 := by
    intro n
    induction n with
    | zero =>
      intro xs hn
      have : xs = [] := List.length_eq_zero_iff.1 hn
      subst this
      show Timers.Reg [g.P] 0 s0.c1
      rw [h0.c1]; exact Timers.reg_init _
    | succ n ih =>
      intro xs hn
      rcases List.eq_nil_or_concat xs with rfl | ⟨l, x, rfl⟩
      · cases hn
      · rw [List.concat_eq_append] at hn ⊢
        rw [Machine.final_append, List.length_append]
        exact Timers.reg_next [g.P] (by simpa using hP) (ih l (by simpa using hn)) ⟨true, false⟩
  exact key _ xs rfl

/-- Cycles which are sufficient for one command. -/
def B (g : Cfg) : Nat := 411 * g.P + 2

/-- Upper bound of the remaining cycles for the character `c`. -/
def mu (g : Cfg) (s : St) (c k j : Nat) : Nat :=
  match s.fsm with
  | .powerup => (queue g s (some c)).length * B g + (410 - k) * g.P + wait g.P j + 2
  | .idle => (queue g s (some c)).length * B g + if 3 ≤ s.idx ∧ c = LF ∧ s.nl = .rowIncr then 1 else 0
  | .write => ((queue g s (some c)).length - 1) * B g + ((if s.isLong then 410 else 10) - k) * g.P + wait g.P j + 2

section
variable {g : Cfg} {s : St} {chs : List Nat} {acc : List Cmd} {c k j : Nat} {le : Bool}
  {str : List (Option (Bool × Nat))} {x : In}

theorem Known.progress (hg : Fits g) (hP : 0 < g.P) (h : Known g s chs (some c) acc k le str) (hx : x.din = some c)
    (hj : Timers.Reg [g.P] j s.c1) (hrd : (translate g s x).rd = false) :
    mu g (next g s x) c (k' g s k) (j + 1) < mu g s c k j := by
  rw [← hx] at h
  obtain ⟨T, Q, R, E⟩ := h.t.step hg.2 hg.1 h.rdy
  have hpd : pend' g s x = some c := by unfold pend'; rw [hrd, hx]; rfl
  rw [hpd] at Q R
  have hlcd := lcdEn_eq hP hj
  have hwl : wait g.P (j + 1) < g.P := by unfold wait; omega
  cases hf : s.fsm with
  | idle =>
    have htr : tmpRd g s = false := by unfold tmpRd; rw [hf]; rfl
    have hk : k' g s k = 0 := by unfold k' Timers.kNext timIn; rw [hf]; rfl
    have hf' : (next g s x).fsm = if tmpVld g s x then .write else .idle := by
      show nextFsm g s x = _; unfold nextFsm; rw [hf]
    rw [htr] at Q
    have Q' : queue g s (some c) = queue g (next g s x) (some c) := by rw [← hx]; simpa [hx] using Q
    have hidx : (next g s x).idx = s.idx := by
      show (if tmpRd g s && initVld s then _ else s.idx) = _
      rw [htr]; rfl
    unfold mu
    rw [hf, hf', hk, ← Q']
    cases hv : tmpVld g s x
    · simp only [Bool.false_eq_true, if_false]
      have hnr : ¬ Ready s x.din := by
        intro hr
        have := (h.t.offered hr).1
        rw [hv] at this; cases this
      have hc3 : 3 ≤ s.idx ∧ c = LF ∧ s.nl = .rowIncr := by
        refine ⟨?_, ?_, ?_⟩
        · rcases Nat.lt_or_ge s.idx 3 with q | q
          · exact absurd (Or.inl q) hnr
          · exact q
        · by_cases q : c = LF
          · exact q
          · exact absurd (Or.inr ⟨c, hx, Or.inl q⟩) hnr
        · by_cases q : s.nl = .rowIncr
          · exact q
          · exact absurd (Or.inr ⟨c, hx, Or.inr q⟩) hnr
      rw [if_pos hc3]
      have hn' : (next g s x).nl = .jmp := by
        show nextNl g s x = _; unfold nextNl; rw [hc3.2.2, hx, hc3.2.1]; simp
      rw [hn', if_neg (by simp)]
      omega
    · simp only [if_true]
      obtain ⟨-, c', -, q, hq⟩ := h.t.offered (ready_of_vld hv)
      rw [hx] at hq
      rw [hq]
      have e : (c' :: q).length * B g = ((c' :: q).length - 1) * B g + B g := by
        rw [List.length_cons, Nat.add_sub_cancel, Nat.succ_mul]
      rw [e]
      have : ((if (next g s x).isLong = true then 410 else 10) - 0) * g.P ≤ 410 * g.P :=
        Nat.mul_le_mul_right _ (by split <;> omega)
      have hB : B g = 411 * g.P + 2 := rfl
      omega
  | powerup =>
    have hni : s.fsm ≠ .idle := by rw [hf]; decide
    obtain ⟨p1, p2, p3⟩ := h.pw hf
    have htr : tmpRd g s = false := by unfold tmpRd; rw [hf]; rfl
    have hk := k'_eq (g := g) (k := k) hni
    have ht2 := tick_eq (g := g) h.reg hni (show periods[2]? = some 410 from rfl)
    have hf' : (next g s x).fsm = if tick g s 2 then .idle else .powerup := by
      show nextFsm g s x = _; unfold nextFsm; rw [hf]
    rw [htr] at Q
    have Q' : queue g s (some c) = queue g (next g s x) (some c) := by rw [← hx]; simpa [hx] using Q
    unfold mu
    rw [hf, hf', hk, ← Q']
    cases ht : tick g s 2
    · simp only [Bool.false_eq_true, if_false]
      rcases wait_step hP j with ⟨w1, w2, w3⟩ | ⟨w1, w2⟩
      · have : lcdEn g s = true := by rw [hlcd, w1]; rfl
        rw [if_pos this, w2, w3]
        have e : (410 - k) * g.P = (410 - (k + 1)) * g.P + g.P := by
          rw [show 410 - k = (410 - (k + 1)) + 1 by omega, Nat.succ_mul]
        omega
      · have : lcdEn g s = false := by rw [hlcd, beq_eq_false_iff_ne]; exact w1
        rw [if_neg (by rw [this]; simp)]
        omega
    · simp only [if_true]
      split <;> omega
  | write =>
    have hni : s.fsm ≠ .idle := by rw [hf]; decide
    have hk := k'_eq (g := g) (k := k) hni
    have hkb := h.wr hf
    obtain ⟨-, c', hc, q, hcq⟩ := h.t.offered (h.rdy hf)
    have ht1 := tick_eq (g := g) h.reg hni (show periods[1]? = some 10 from rfl)
    have ht2 := tick_eq (g := g) h.reg hni (show periods[2]? = some 410 from rfl)
    have htr : tmpRd g s = done g s := by unfold tmpRd; rw [hf]; rfl
    have hf' : (next g s x).fsm = if done g s then .idle else .write := by
      show nextFsm g s x = _; unfold nextFsm; rw [hf]
    have hlong' : (next g s x).isLong = s.isLong := by
      show (if s.fsm = .idle then _ else _) = _
      rw [if_neg hni]
    rw [hc, htr] at Q
    unfold mu
    rw [hf, hf', hk, hlong', show queue g s (some c) = c' :: q by rw [← hx]; exact hcq]
    rw [hcq] at Q
    cases hd : done g s
    · rw [hd] at Q
      have Q' : queue g (next g s x) (some c) = c' :: q := by rw [Q]; simp
      simp only [Bool.false_eq_true, if_false]
      rw [Q']
      rcases wait_step hP j with ⟨w1, w2, w3⟩ | ⟨w1, w2⟩
      · have : lcdEn g s = true := by rw [hlcd, w1]; rfl
        rw [if_pos this, w2, w3]
        generalize hD : (if s.isLong then 410 else 10) = D at hkb ⊢
        have e : (D - k) * g.P = (D - (k + 1)) * g.P + g.P := by
          rw [show D - k = (D - (k + 1)) + 1 by omega, Nat.succ_mul]
        omega
      · have : lcdEn g s = false := by rw [hlcd, beq_eq_false_iff_ne]; exact w1
        rw [this]
        simp only [Bool.false_eq_true, if_false]
        omega
    · rw [hd] at Q
      have Q' : queue g (next g s x) (some c) = q := by simpa using Q.symm
      simp only [if_true]
      rw [Q', List.length_cons, Nat.add_sub_cancel]
      split <;> omega

/-- The remaining commands are the end of the commands of the character. -/
theorem Tinv.rem_suffix (h : Tinv g s chs (some c)) : ∃ d, one g.C (rowOf false chs) c = d ++ rem g s c := by
  have hrow := h.row
  unfold rem
  cases hn : s.nl
  · rw [hn, if_pos rfl] at hrow
    exact ⟨[], by simp [hrow]⟩
  all_goals
    have hc : c = LF := Option.some.inj (h.nlp (by rw [hn]; decide))
    subst hc
    rw [hn, if_neg (by decide)] at hrow
    have e1 : one g.C (rowOf false chs) LF = nlSeq g.C s.row := by rw [hrow]; unfold one; rw [if_pos rfl]
    rw [e1]
  · exact ⟨[], rfl⟩
  · obtain ⟨-, -, c3⟩ := h.clean hn
    refine ⟨addr g.C s.row :: List.replicate s.col space, ?_⟩
    unfold nlSeq
    rw [List.cons_append, ← List.append_assoc, List.replicate_append_replicate, show s.col + (g.C - s.col) = g.C by omega]
  · exact ⟨addr g.C s.row :: List.replicate g.C space, by unfold nlSeq; simp⟩

theorem one_length (C : Nat) (r : Bool) (c : Nat) : (one C r c).length ≤ C + 2 := by
  unfold one nlSeq
  split
  · simp
  · split <;> simp

theorem Known.mu_le (hP : 0 < g.P) (h : Known g s chs (some c) acc k le str) : mu g s c k j ≤ (g.C + 6) * B g := by
  obtain ⟨d, hd⟩ := h.t.rem_suffix
  have hl := one_length g.C (rowOf false chs) c
  rw [hd, List.length_append] at hl
  have hq : (queue g s (some c)).length ≤ g.C + 5 := by
    unfold queue
    rw [List.length_append, List.length_drop]
    show 3 - s.idx + (rem g s c).length ≤ _
    omega
  have hq' : (queue g s (some c)).length * B g ≤ (g.C + 5) * B g := Nat.mul_le_mul_right _ hq
  have hq2 : ((queue g s (some c)).length - 1) * B g ≤ (g.C + 5) * B g := Nat.mul_le_mul_right _ (by omega)
  have e : (g.C + 6) * B g = (g.C + 5) * B g + B g := Nat.succ_mul _ _
  have hB : B g = 411 * g.P + 2 := rfl
  have hw : wait g.P j < g.P := by unfold wait; omega
  have h1 : (410 - k) * g.P ≤ 410 * g.P := Nat.mul_le_mul_right _ (by omega)
  have h2 : ((if s.isLong = true then 410 else 10) - k) * g.P ≤ 410 * g.P := Nat.mul_le_mul_right _ (by split <;> omega)
  unfold mu
  rw [e]
  cases s.fsm
  · simp only; omega
  · simp only; split <;> omega
  · simp only; omega

end

end Verif.Hd44780
