import Verif.Hd44780Inv
/-! What is known about each reachable state of the HD44780 driver. -/
namespace Verif.Hd44780

/-- What is on the pins. -/
def pin (c : Cmd) : Option (Bool × Nat) := some (c.rs, c.d)
/-- The rising edge of `en` of the current command was seen. -/
def seen (k : Nat) (le : Bool) : Bool := decide (6 ≤ k) || (decide (1 ≤ k) && le)
def hd : Cmd := ⟨false, false, 0b00111000⟩

/-- Expected list of strobes. -/
def strs (fsm : Fsm) (k : Nat) (le : Bool) (acc q : List Cmd) : List (Option (Bool × Nat)) :=
  match fsm with
  | .powerup => if seen k le then [pin hd] else []
  | .idle => pin hd :: acc.map pin
  | .write => pin hd :: (acc.map pin ++ if seen k le then (q.take 1).map pin else [])

/-- `k`: ticks of the LCD clock in the current command. -/
structure Known (g : Cfg) (s : St) (chs : List Nat) (p : Option Nat) (acc : List Cmd) (k : Nat) (le : Bool)
    (str : List (Option (Bool × Nat))) : Prop where
  t : Tinv g s chs p
  q : acc ++ queue g s p = initSeq ++ expand g.C false (chs ++ p.toList)
  rdy : s.fsm = .write → Ready s p
  lng : s.fsm = .write → ∃ c q, queue g s p = c :: q ∧ s.isLong = c.long
  reg : Timers.Reg periods k s.c2
  pw : s.fsm = .powerup → k < 410 ∧ s.idx = 0 ∧ acc = []
  wr : s.fsm = .write → k < if s.isLong then 410 else 10
  idle : s.fsm = .idle → s.en = false
  en : s.fsm ≠ .idle → s.en = decide (1 ≤ k ∧ k ≤ 5) ∧ s.enF = decide (k < 5)
  str : str = strs s.fsm k le acc (queue g s p)

section
variable {g : Cfg} {s : St} {chs : List Nat} {p : Option Nat} {acc : List Cmd} {k : Nat} {le : Bool}
  {str : List (Option (Bool × Nat))} {x : In}

theorem Known.offer (h : Known g s chs none acc k le str) (p : Option Nat) : Known g s chs p acc k le str := by
  obtain ⟨t1, t2⟩ := h.t.offer p
  have hq : queue g s p = queue g s none ++ remP g s p := by unfold queue; simp [remP]
  have hrow := h.t.row
  rw [t2, if_pos rfl] at hrow
  refine ⟨t1, ?_, fun hw => ?_, fun hw => ?_, h.reg, h.pw, h.wr, h.idle, h.en, ?_⟩
  · rw [hq, ← List.append_assoc, h.q]
    cases p with
    | none => simp [remP]
    | some c =>
      show initSeq ++ expand g.C false (chs ++ []) ++ rem g s c = initSeq ++ expand g.C false (chs ++ [c])
      rw [expand_snoc, List.append_nil, List.append_assoc]
      unfold rem
      rw [t2, hrow]
  · rcases h.rdy hw with q | ⟨c, q, -⟩
    · exact Or.inl q
    · cases q
  · obtain ⟨c, q, e1, e2⟩ := h.lng hw
    exact ⟨c, q ++ remP g s p, by rw [hq, e1]; rfl, e2⟩
  · rw [h.str]
    unfold strs
    cases hf : s.fsm with
    | powerup => rfl
    | idle => rfl
    | write =>
      obtain ⟨c, q, e1, e2⟩ := h.lng hf
      simp only
      rw [hq, e1]
      rfl

theorem tick_eq (hr : Timers.Reg periods k s.c2) (hf : s.fsm ≠ .idle) {t q : Nat} (ht : periods[t]? = some q) :
    tick g s t = (lcdEn g s && ((k + 1) % q == 0)) := by
  have hlt : t < periods.length := by
    rcases Nat.lt_or_ge t periods.length with h | h
    · exact h
    · rw [List.getElem?_eq_none h] at ht; cases ht
  unfold tick
  rw [List.getD_eq_getElem?_getD]
  show (((List.range periods.length).map _)[t]?).getD false = _
  rw [List.getElem?_map, List.getElem?_range hlt]
  show Timers.tick _ _ _ _ _ _ = _
  rw [Timers.tick_eq periods (by decide) hr (timIn g s) (by unfold timIn; simpa using hf) t hlt, List.getD_eq_getElem?_getD, ht]
  rfl

/-- Ticks after the cycle. -/
def k' (g : Cfg) (s : St) (k : Nat) : Nat := Timers.kNext k (timIn g s)

theorem k'_eq (hf : s.fsm ≠ .idle) : k' g s k = if lcdEn g s then k + 1 else k := by
  unfold k' Timers.kNext timIn
  cases h : s.fsm
  · rfl
  · exact absurd h hf
  · rfl

/-- One cycle if the offered character is the pending one. -/
theorem Known.step (hw : g.C - 1 < 2 ^ log2ceil (g.C - 1)) (hC : 0 < g.C)
    (h : Known g s chs x.din acc k le str) :
    ∃ acc', Known g (next g s x) (chs' g s x chs) (pend' g s x) acc' (k' g s k) s.en
      (str ++ if s.en && !le then [(out g s x).pins] else []) := by
  obtain ⟨T, Q, R, E⟩ := h.t.step hw hC h.rdy
  have hreg := Timers.reg_next periods (by decide) h.reg (timIn g s)
  have hreg' : Timers.Reg periods (k' g s k) (next g s x).c2 := hreg
  have hstr := h.str
  cases hf : s.fsm with
  | idle =>
    have hen := h.idle hf
    have htr : tmpRd g s = false := by unfold tmpRd; rw [hf]; rfl
    have hk : k' g s k = 0 := by unfold k' Timers.kNext timIn; rw [hf]; rfl
    rw [hk] at hreg' ⊢
    rw [htr] at Q
    have Q' : queue g s x.din = queue g (next g s x) (pend' g s x) := by simpa using Q
    rw [hen]
    have hf' : (next g s x).fsm = if tmpVld g s x then .write else .idle := by
      show nextFsm g s x = _; unfold nextFsm; rw [hf]
    have hen' : (next g s x).en = false := by
      show (if lcdEn g s then _ else s.en) = false
      rw [hf, hen]; cases lcdEn g s <;> rfl
    have henF : (next g s x).enF = true := by
      show (if s.fsm = .idle then _ else _) = _
      rw [if_pos hf]
    have hlong : (next g s x).isLong = ((tmpCmd g s x).map Cmd.long).getD x.x := by
      show (if s.fsm = .idle then _ else _) = _
      rw [if_pos hf]
    refine ⟨acc, T, ?_, fun hh => ?_, fun hh => ?_, hreg', fun hh => ?_, fun hh => ?_, fun _ => hen', fun _ => ⟨?_, ?_⟩, ?_⟩
    · rw [← Q', h.q, E]
    · rw [hf'] at hh
      cases hv : tmpVld g s x
      · rw [hv] at hh; cases hh
      · exact R htr (ready_of_vld hv)
    · rw [hf'] at hh
      cases hv : tmpVld g s x
      · rw [hv] at hh; cases hh
      · obtain ⟨-, c, h1, q, h2⟩ := h.t.offered (ready_of_vld hv)
        exact ⟨c, q, by rw [← Q', h2], by rw [hlong, h1]; rfl⟩
    · rw [hf'] at hh; split at hh <;> cases hh
    · split <;> decide
    · rw [hen']; rfl
    · rw [henF]; rfl
    · rw [hstr, hf, hf']
      cases tmpVld g s x <;> simp [strs, seen]
  | powerup =>
    obtain ⟨p1, p2, p3⟩ := h.pw hf
    have hni : s.fsm ≠ .idle := by rw [hf]; decide
    obtain ⟨n1, n2⟩ := h.en hni
    have htr : tmpRd g s = false := by unfold tmpRd; rw [hf]; rfl
    have hk := k'_eq (g := g) (k := k) hni
    rw [htr] at Q
    have Q' : queue g s x.din = queue g (next g s x) (pend' g s x) := by simpa using Q
    have ht0 := tick_eq (g := g) h.reg hni (show periods[0]? = some 5 from rfl)
    have ht2 := tick_eq (g := g) h.reg hni (show periods[2]? = some 410 from rfl)
    have hf' : (next g s x).fsm = if tick g s 2 then .idle else .powerup := by
      show nextFsm g s x = _; unfold nextFsm; rw [hf]
    have hen' : (next g s x).en = if lcdEn g s then s.enF else s.en := by
      show (if lcdEn g s then s.fsm != .idle && s.enF else s.en) = _
      rw [hf]; rfl
    have henF' : (next g s x).enF = if s.enF && tick g s 0 then false else s.enF := by
      show (if s.fsm = .idle then true else _) = _
      rw [if_neg hni]
    have hidx : (next g s x).idx = 0 := by
      show (if tmpRd g s && initVld s then _ else s.idx) = _
      rw [htr, p2]; rfl
    have hpins : (out g s x).pins = pin hd := by
      show (tmpCmd g s x).map _ = _
      unfold tmpCmd initVld
      rw [p2]; rfl
    have hfin : tick g s 2 = true → lcdEn g s = true ∧ k = 409 := by
      intro hh
      rw [ht2, Bool.and_eq_true, beq_iff_eq] at hh
      exact ⟨hh.1, by omega⟩
    refine ⟨acc, T, ?_, fun hh => ?_, fun hh => ?_, hreg', fun hh => ⟨?_, hidx, p3⟩, fun hh => ?_, fun hh => ?_,
      fun hh => ⟨?_, ?_⟩, ?_⟩
    · rw [← Q', h.q, E]
    · rw [hf'] at hh; split at hh <;> cases hh
    · rw [hf'] at hh; split at hh <;> cases hh
    · rw [hk]
      split
      · rw [hf', ht2] at hh
        have hl : lcdEn g s = true := by assumption
        rw [hl] at hh
        rcases Nat.lt_or_ge (k + 1) 410 with q | q
        · exact q
        · exfalso
          have : k = 409 := by omega
          subst this
          exact absurd hh (by decide)
      · exact p1
    · rw [hf'] at hh; split at hh <;> cases hh
    · rw [hf'] at hh
      cases hq : tick g s 2
      · rw [hq] at hh; cases hh
      · obtain ⟨q1, q2⟩ := hfin hq
        rw [hen', q1, n2, q2]; rfl
    · rw [hen', hk, n1, n2]
      cases lcdEn g s
      · rfl
      · simp only [if_true]
        rw [decide_eq_decide]; omega
    · rw [henF', hk, n2, ht0]
      cases lcdEn g s
      · simp
      · simp only [Bool.true_and, if_true]
        by_cases q1 : k < 5
        · by_cases q2 : k = 4
          · subst q2; rfl
          · have : ((k + 1) % 5 == 0) = false := by rw [beq_eq_false_iff_ne]; omega
            rw [this]; simp; omega
        · simp [q1]; omega
    · have hs1 : strs s.fsm k le acc (queue g s x.din) = if seen k le then [pin hd] else [] := by rw [hf]; rfl
      have key : (str ++ if s.en && !le then [(out g s x).pins] else []) = if seen (k' g s k) s.en then [pin hd] else [] := by
        rw [hstr, hs1, hpins, hk, n1]
        unfold seen
        rcases Nat.lt_or_ge k 1 with q | q
        · have : k = 0 := by omega
          subst this
          cases lcdEn g s <;> simp
        · rcases Nat.lt_or_ge k 6 with q2 | q2
          · have e1 : decide (1 ≤ k ∧ k ≤ 5) = true := by rw [decide_eq_true_iff]; omega
            have e2 : decide (6 ≤ k) = false := by rw [decide_eq_false_iff_not]; omega
            have e3 : decide (1 ≤ k) = true := by rw [decide_eq_true_iff]; omega
            have e4 : decide (1 ≤ if lcdEn g s = true then k + 1 else k) = true := by
              rw [decide_eq_true_iff]; split <;> omega
            rw [e1, e2, e3, e4]
            cases le <;> simp
          · have e1 : decide (1 ≤ k ∧ k ≤ 5) = false := by rw [decide_eq_false_iff_not]; omega
            have e2 : decide (6 ≤ k) = true := by rw [decide_eq_true_iff]; omega
            have e4 : decide (6 ≤ if lcdEn g s = true then k + 1 else k) = true := by
              rw [decide_eq_true_iff]; split <;> omega
            rw [e1, e2, e4]
            simp
      rw [key, hf']
      cases hq : tick g s 2
      · rfl
      · obtain ⟨q1, q2⟩ := hfin hq
        rw [hk, q1, q2, p3]; rfl
  | write =>
    have hni : s.fsm ≠ .idle := by rw [hf]; decide
    obtain ⟨n1, n2⟩ := h.en hni
    have hk := k'_eq (g := g) (k := k) hni
    have hkb := h.wr hf
    obtain ⟨-, c, hc, q, hcq⟩ := h.t.offered (h.rdy hf)
    have hlng : s.isLong = c.long := by
      obtain ⟨c2, q2, e1, e2⟩ := h.lng hf
      rw [hcq] at e1
      rw [e2, (List.cons.inj e1).1]
    have ht0 := tick_eq (g := g) h.reg hni (show periods[0]? = some 5 from rfl)
    have ht1 := tick_eq (g := g) h.reg hni (show periods[1]? = some 10 from rfl)
    have ht2 := tick_eq (g := g) h.reg hni (show periods[2]? = some 410 from rfl)
    have htr : tmpRd g s = done g s := by unfold tmpRd; rw [hf]; rfl
    have hdone : done g s = (lcdEn g s && ((k + 1) == if s.isLong then 410 else 10)) := by
      unfold done
      rw [ht1, ht2]
      cases hl : s.isLong
      · rw [hl] at hkb
        have hkb' : k < 10 := hkb
        simp only [Bool.false_eq_true, if_false]
        congr 1
        rw [Bool.eq_iff_iff, beq_iff_eq, beq_iff_eq]; omega
      · rw [hl] at hkb
        have hkb' : k < 410 := hkb
        simp only [if_true]
        congr 1
        rw [Bool.eq_iff_iff, beq_iff_eq, beq_iff_eq]; omega
    have hf' : (next g s x).fsm = if done g s then .idle else .write := by
      show nextFsm g s x = _; unfold nextFsm; rw [hf]
    have hen' : (next g s x).en = if lcdEn g s then s.enF else s.en := by
      show (if lcdEn g s then s.fsm != .idle && s.enF else s.en) = _
      rw [hf]; rfl
    have henF' : (next g s x).enF = if s.enF && tick g s 0 then false else s.enF := by
      show (if s.fsm = .idle then true else _) = _
      rw [if_neg hni]
    have hlong' : (next g s x).isLong = s.isLong := by
      show (if s.fsm = .idle then _ else _) = _
      rw [if_neg hni]
    have hpins : (out g s x).pins = pin c := by
      show (tmpCmd g s x).map _ = _
      rw [hc]; rfl
    rw [hc, htr] at Q
    rw [htr] at R
    have hfin : done g s = true → lcdEn g s = true ∧ 9 ≤ k := by
      intro hh
      rw [hdone, Bool.and_eq_true, beq_iff_eq] at hh
      refine ⟨hh.1, ?_⟩
      have := hh.2
      split at this <;> omega
    have key : (str ++ if s.en && !le then [(out g s x).pins] else []) =
        pin hd :: (acc.map pin ++ if seen (k' g s k) s.en then [pin c] else []) := by
      have hs1 : strs s.fsm k le acc (queue g s x.din) = pin hd :: (acc.map pin ++ if seen k le then [pin c] else []) := by
        rw [hf, hcq]; rfl
      rw [hstr, hs1, hpins, hk, n1]
      unfold seen
      rcases Nat.lt_or_ge k 1 with q | q
      · have : k = 0 := by omega
        subst this
        cases lcdEn g s <;> simp
      · rcases Nat.lt_or_ge k 6 with q2 | q2
        · have e1 : decide (1 ≤ k ∧ k ≤ 5) = true := by rw [decide_eq_true_iff]; omega
          have e2 : decide (6 ≤ k) = false := by rw [decide_eq_false_iff_not]; omega
          have e3 : decide (1 ≤ k) = true := by rw [decide_eq_true_iff]; omega
          have e4 : decide (1 ≤ if lcdEn g s = true then k + 1 else k) = true := by
            rw [decide_eq_true_iff]; split <;> omega
          rw [e1, e2, e3, e4]
          cases le <;> simp
        · have e1 : decide (1 ≤ k ∧ k ≤ 5) = false := by rw [decide_eq_false_iff_not]; omega
          have e2 : decide (6 ≤ k) = true := by rw [decide_eq_true_iff]; omega
          have e4 : decide (6 ≤ if lcdEn g s = true then k + 1 else k) = true := by
            rw [decide_eq_true_iff]; split <;> omega
          rw [e1, e2, e4]
          simp
    refine ⟨if done g s then acc ++ [c] else acc, T, ?_, fun hh => ?_, fun hh => ?_, hreg', fun hh => ?_, fun hh => ?_,
      fun hh => ?_, fun hh => ⟨?_, ?_⟩, ?_⟩
    · rw [← E, ← h.q, Q]
      cases done g s <;> simp
    · rw [hf'] at hh
      cases hd' : done g s
      · exact R hd' (h.rdy hf)
      · rw [hd'] at hh; cases hh
    · rw [hf'] at hh
      cases hd' : done g s
      · rw [hd', hcq] at Q
        exact ⟨c, q, by rw [Q]; simp, by rw [hlong', hlng]⟩
      · rw [hd'] at hh; cases hh
    · rw [hf'] at hh; split at hh <;> cases hh
    · rw [hf'] at hh
      cases hd' : done g s
      · rw [hk, hlong']
        rw [hdone] at hd'
        cases hl : lcdEn g s
        · simpa using hkb
        · rw [hl, Bool.true_and, beq_eq_false_iff_ne] at hd'
          simp only [if_true]
          omega
      · rw [hd'] at hh; cases hh
    · rw [hf'] at hh
      cases hd' : done g s
      · rw [hd'] at hh; cases hh
      · obtain ⟨q1, q2⟩ := hfin hd'
        rw [hen', q1, n2]
        simp; omega
    · rw [hen', hk, n1, n2]
      cases lcdEn g s
      · rfl
      · simp only [if_true]
        rw [decide_eq_decide]; omega
    · rw [henF', hk, n2, ht0]
      cases lcdEn g s
      · simp
      · simp only [Bool.true_and, if_true]
        by_cases q1 : k < 5
        · by_cases q2 : k = 4
          · subst q2; rfl
          · have : ((k + 1) % 5 == 0) = false := by rw [beq_eq_false_iff_ne]; omega
            rw [this]; simp; omega
        · simp [q1]; omega
    · rw [key, hf']
      cases hd' : done g s
      · rw [hd', hcq] at Q
        have Q' : queue g (next g s x) (pend' g s x) = c :: q := by rw [Q]; simp
        rw [Q']
        rfl
      · obtain ⟨q1, q2⟩ := hfin hd'
        have : seen (k' g s k) s.en = true := by
          unfold seen
          rw [hk, q1]
          have : decide (6 ≤ k + 1) = true := by rw [decide_eq_true_iff]; omega
          simp only [if_true, this, Bool.true_or]
        rw [this]
        simp [strs]

end

/-! ## Runs -/

theorem chars_snoc (tr : Run) (e : In × Out) : chars (tr ++ [e]) = chars tr ++ if e.2.rd then e.1.din.toList else [] := by
  unfold chars
  rw [List.filterMap_append]
  congr 1
  cases h : e.2.rd <;> cases h2 : e.1.din <;> simp [h, h2]

theorem pending_snoc (tr : Run) (e : In × Out) : pending (tr ++ [e]) = if e.2.rd then none else e.1.din := by
  unfold pending; rw [List.getLast?_append]; rfl

theorem lastEn_snoc (tr : Run) (e : In × Out) : lastEn (tr ++ [e]) = e.2.en := by
  unfold lastEn; rw [List.getLast?_append]; rfl

theorem strobesFrom_snoc (e : In × Out) (tr : Run) : ∀ p, strobesFrom p (tr ++ [e]) =
    strobesFrom p tr ++ if e.2.en && !((tr.getLast?.map fun e => e.2.en).getD p) then [e.2.pins] else [] := by
  induction tr with
  | nil => intro p; simp [strobesFrom]
  | cons a tr ih =>
    intro p
    show _ ++ strobesFrom a.2.en (tr ++ [e]) = (_ ++ strobesFrom a.2.en tr) ++ _
    rw [ih, List.append_assoc]
    congr 3
    cases tr with
    | nil => rfl
    | cons b tr =>
      rw [List.getLast?_cons_cons]
      cases h : (b :: tr).getLast? with
      | none => rw [List.getLast?_eq_none_iff] at h; cases h
      | some l => rfl

theorem strobes_snoc (tr : Run) (e : In × Out) :
    strobes (tr ++ [e]) = strobes tr ++ if e.2.en && !lastEn tr then [e.2.pins] else [] := strobesFrom_snoc e tr false

theorem Holds.init {a b : Run} (h : Holds (a ++ b)) : Holds a := by
  intro pre e e' post he
  exact h pre e e' (post ++ b) (by rw [he]; simp)

theorem Holds.next {tr : Run} {e : In × Out} (h : Holds (tr ++ [e])) : pending tr = none ∨ e.1.din = pending tr := by
  unfold pending
  rcases List.eq_nil_or_concat tr with rfl | ⟨l, a, rfl⟩
  · left; rfl
  · rw [List.concat_eq_append] at h ⊢
    rw [List.getLast?_append]
    show (if a.2.rd then none else a.1.din) = none ∨ e.1.din = (if a.2.rd then none else a.1.din)
    cases hr : a.2.rd
    · simp only [Bool.false_eq_true, if_false]
      cases hd : a.1.din with
      | none => left; rfl
      | some c =>
        right
        rw [← hd]
        exact h l a e [] (by simp) hr (by rw [hd]; rfl)
    · left; rfl

/-- Elaborated configurations: the constant `LCD_COLS - 1` fits into `col` (driver.py:114, 129). -/
def Fits (g : Cfg) : Prop := 0 < g.C ∧ g.C - 1 < 2 ^ log2ceil (g.C - 1)

theorem known (g : Cfg) (hg : Fits g) (s0 : St) (h0 : IsInit g s0) (xs : List In) (hh : Holds ((machine g).trace s0 xs)) :
    ∃ acc k, Known g ((machine g).final s0 xs) (chars ((machine g).trace s0 xs)) (pending ((machine g).trace s0 xs)) acc k
      (lastEn ((machine g).trace s0 xs)) (strobes ((machine g).trace s0 xs)) := by
  have key : ∀ n, ∀ xs : List In, xs.length = n → Holds ((machine g).trace s0 xs) →
      ∃ acc k, Known g ((machine g).final s0 xs) (chars ((machine g).trace s0 xs)) (pending ((machine g).trace s0 xs)) acc k
        (lastEn ((machine g).trace s0 xs)) (strobes ((machine g).trace s0 xs)) := by
    intro n
    induction n with
    | zero =>
      intro xs hn _
      have : xs = [] := List.length_eq_zero_iff.1 hn
      subst this
      obtain ⟨i1, i2, i3, i4, i5, i6, i7, i8, i9⟩ := h0
      refine ⟨[], 0, ⟨?_, ?_, ?_, ?_, fun _ => rfl⟩, ?_, ?_, ?_, ?_, ?_, ?_, ?_, ?_, ?_⟩
      · show s0.idx ≤ 3; omega
      · show s0.row = if s0.nl = _ then _ else _
        rw [i1, i2]; rfl
      · intro q; exact absurd i2 q
      · intro q
        have q' : s0.nl = .clean := q
        rw [i2] at q'; cases q'
      · show queue g s0 none = _
        unfold queue; rw [i4]; rfl
      · intro q
        have q' : s0.fsm = .write := q
        rw [i5] at q'; cases q'
      · intro q
        have q' : s0.fsm = .write := q
        rw [i5] at q'; cases q'
      · show Timers.Reg periods 0 s0.c2
        rw [i9]; exact Timers.reg_init periods
      · intro _; exact ⟨by decide, i4, rfl⟩
      · intro q
        have q' : s0.fsm = .write := q
        rw [i5] at q'; cases q'
      · intro q
        have q' : s0.fsm = .idle := q
        rw [i5] at q'; cases q'
      · intro _; exact ⟨i7, i6⟩
      · show [] = strs s0.fsm 0 false [] _
        rw [i5]; rfl
    | succ n ih =>
      intro xs hn hh
      rcases List.eq_nil_or_concat xs with rfl | ⟨l, x, rfl⟩
      · cases hn
      · rw [List.concat_eq_append] at hn hh ⊢
        rw [Machine.trace_snoc] at hh ⊢
        rw [Machine.final_append]
        obtain ⟨acc, k, K⟩ := ih l (by simpa using hn) hh.init
        have K2 : Known g ((machine g).final s0 l) (chars ((machine g).trace s0 l)) x.din acc k
            (lastEn ((machine g).trace s0 l)) (strobes ((machine g).trace s0 l)) := by
          rcases hh.next with hp | hp
          · rw [hp] at K; exact K.offer _
          · rw [← hp] at K; exact K
        obtain ⟨acc', K3⟩ := K2.step hg.2 hg.1
        rw [chars_snoc, pending_snoc, lastEn_snoc, strobes_snoc]
        exact ⟨acc', _, K3⟩
  exact key _ xs rfl hh

end Verif.Hd44780
