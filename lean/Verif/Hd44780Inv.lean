import Verif.Hd44780
/-! Invariants of the HD44780 driver. -/
namespace Verif.Hd44780

/-! ## Expected commands -/

def nlSeq (C : Nat) (row : Bool) : List Cmd := addr C row :: (List.replicate C space ++ [addr C row])
/-- Commands of one character if the cursor is in `row`. -/
def one (C : Nat) (row : Bool) (c : Nat) : List Cmd :=
  if c = LF then nlSeq C (!row) else if c = FF then [clear] else [char c]
def rowAfter (row : Bool) (c : Nat) : Bool := if c = LF then !row else row
def expand (C : Nat) : Bool → List Nat → List Cmd
  | _, [] => []
  | r, c :: cs => one C r c ++ expand C (rowAfter r c) cs
def rowOf : Bool → List Nat → Bool
  | r, [] => r
  | r, c :: cs => rowOf (rowAfter r c) cs

theorem expand_snoc (C : Nat) (c : Nat) (cs : List Nat) : ∀ r, expand C r (cs ++ [c]) = expand C r cs ++ one C (rowOf r cs) c := by
  induction cs with
  | nil => intro r; simp [expand, rowOf]
  | cons a cs ih => intro r; simp [expand, rowOf, ih]
theorem rowOf_snoc (c : Nat) (cs : List Nat) : ∀ r, rowOf r (cs ++ [c]) = rowAfter (rowOf r cs) c := by
  induction cs with
  | nil => intro r; rfl
  | cons a cs ih => intro r; simp [rowOf, ih]

/-! ## The queue of commands -/

/-- Commands which are not done for the current character. -/
def rem (g : Cfg) (s : St) (c : Nat) : List Cmd :=
  match s.nl with
  | .rowIncr => one g.C s.row c
  | .jmp => nlSeq g.C s.row
  | .clean => List.replicate (g.C - s.col) space ++ [addr g.C s.row]
  | .jmpStart => [addr g.C s.row]
def remP (g : Cfg) (s : St) : Option Nat → List Cmd
  | none => []
  | some c => rem g s c
def queue (g : Cfg) (s : St) (p : Option Nat) : List Cmd := initSeq.drop s.idx ++ remP g s p

structure Tinv (g : Cfg) (s : St) (chs : List Nat) (p : Option Nat) : Prop where
  idx : s.idx ≤ 3
  row : s.row = if s.nl = .rowIncr then rowOf false chs else !rowOf false chs
  nlp : s.nl ≠ .rowIncr → p = some LF
  clean : s.nl = .clean → s.lvld = true ∧ s.lrd = false ∧ s.col < g.C
  early : s.idx < 3 → chs = []

/-- A command is offered. -/
def Ready (s : St) (p : Option Nat) : Prop := s.idx < 3 ∨ ∃ c, p = some c ∧ (c ≠ LF ∨ s.nl ≠ .rowIncr)

section
variable {g : Cfg} {s : St} {chs : List Nat} {p : Option Nat} {x : In}

theorem Tinv.offer (h : Tinv g s chs none) (p : Option Nat) : Tinv g s chs p ∧ s.nl = .rowIncr := by
  have : s.nl = .rowIncr := by
    cases hn : s.nl
    · rfl
    all_goals exact absurd (h.nlp (by rw [hn]; decide)) (by simp)
  exact ⟨⟨h.idx, h.row, fun q => absurd this q, h.clean, h.early⟩, this⟩

theorem initVld_iff : initVld s = true ↔ s.idx < 3 := by
  unfold initVld; rw [decide_eq_true_iff]; exact Iff.rfl

theorem Tinv.offered (h : Tinv g s chs x.din) (hr : Ready s x.din) :
    tmpVld g s x = true ∧ ∃ c, tmpCmd g s x = some c ∧ ∃ q, queue g s x.din = c :: q := by
  unfold tmpVld tmpCmd queue
  by_cases hi : s.idx < 3
  · rw [initVld_iff.2 hi]
    refine ⟨rfl, ?_⟩
    rw [if_pos rfl]
    have : s.idx = 0 ∨ s.idx = 1 ∨ s.idx = 2 := by omega
    rcases this with e | e | e <;> rw [e] <;> exact ⟨_, rfl, _, rfl⟩
  · have h3 : s.idx = 3 := by have := h.idx; omega
    have hv : initVld s = false := by
      cases hv : initVld s
      · rfl
      · exact absurd (initVld_iff.1 hv) hi
    rw [hv, h3, if_neg (by simp)]
    obtain ⟨c, hc, hn⟩ := hr.resolve_left hi
    rw [hc]
    unfold translate
    rw [hc]
    show (_ ∧ ∃ c', _ = some c' ∧ ∃ q, rem g s c = c' :: q)
    unfold rem
    by_cases hl : c = LF
    · subst hl
      cases hnl : s.nl
      · rw [hnl] at hn; simp at hn
      · exact ⟨by simp, _, by simp, _, rfl⟩
      · obtain ⟨c1, c2, c3⟩ := h.clean hnl
        refine ⟨by simp [c1], space, by simp [c1], List.replicate (g.C - s.col - 1) space ++ [addr g.C s.row], ?_⟩
        show List.replicate _ _ ++ _ = _
        rw [show g.C - s.col = (g.C - s.col - 1) + 1 by omega, List.replicate_succ]
        rfl
      · exact ⟨by simp, _, by simp, _, rfl⟩
    · have hnl : s.nl = .rowIncr := by
        cases hnl : s.nl
        · rfl
        all_goals
          have := h.nlp (by rw [hnl]; decide)
          rw [hc] at this
          exact absurd (Option.some.inj this) hl
      rw [hnl]
      show (_ ∧ ∃ c', _ = some c' ∧ ∃ q, one g.C s.row c = c' :: q)
      unfold one
      simp only [if_neg hl]
      by_cases hf : c = FF
      · simp [if_pos hf]
      · simp [if_neg hf]

theorem ready_of_vld (hv : tmpVld g s x = true) : Ready s x.din := by
  unfold tmpVld at hv
  rw [Bool.or_eq_true, initVld_iff] at hv
  rcases hv with hv | hv
  · exact Or.inl hv
  · right
    unfold translate at hv
    cases hd : x.din with
    | none => rw [hd] at hv; cases hv
    | some c =>
      refine ⟨c, rfl, ?_⟩
      rw [hd] at hv
      by_cases hl : c = LF
      · right
        intro hn
        rw [hl] at hv
        simp [hn] at hv
      · exact Or.inl hl

theorem trRd_idx (h : trRd g s = true) : ¬ s.idx < 3 ∧ tmpRd g s = true := by
  unfold trRd at h
  rw [Bool.and_eq_true, Bool.not_eq_true'] at h
  refine ⟨fun hi => ?_, h.1⟩
  rw [initVld_iff.2 hi] at h
  cases h.2

/-- What is pending after a cycle. -/
def pend' (g : Cfg) (s : St) (x : In) : Option Nat := if (translate g s x).rd then none else x.din
def chs' (g : Cfg) (s : St) (x : In) (chs : List Nat) : List Nat :=
  chs ++ if (translate g s x).rd then x.din.toList else []

theorem trRd_false (hq : ¬ (trRd g s = true)) : trRd g s = false := by cases h : trRd g s <;> simp_all

/-- One cycle: an accepted command is taken from the queue, otherwise the queue does not change. -/
theorem Tinv.step (hw : g.C - 1 < 2 ^ log2ceil (g.C - 1)) (hC : 0 < g.C) (h : Tinv g s chs x.din)
    (hr : s.fsm = .write → Ready s x.din) :
    Tinv g (next g s x) (chs' g s x chs) (pend' g s x) ∧
    queue g s x.din = (if tmpRd g s then (tmpCmd g s x).toList else []) ++ queue g (next g s x) (pend' g s x) ∧
    (tmpRd g s = false → Ready s x.din → Ready (next g s x) (pend' g s x)) ∧
    initSeq ++ expand g.C false (chs ++ x.din.toList) =
      initSeq ++ expand g.C false (chs' g s x chs ++ (pend' g s x).toList) := by
  by_cases hq : trRd g s = true
  · -- a command of the translation is accepted
    obtain ⟨hi, ht⟩ := trRd_idx hq
    have hfw : s.fsm = .write := by
      unfold tmpRd at ht
      rw [Bool.and_eq_true, beq_iff_eq] at ht
      exact ht.1
    have h3 : s.idx = 3 := by have := h.idx; omega
    have hv : initVld s = false := by
      cases hv : initVld s
      · rfl
      · exact absurd (initVld_iff.1 hv) hi
    obtain ⟨c, hc, hn⟩ := (hr hfw).resolve_left hi
    obtain ⟨hvl, c', hc', q, hqq⟩ := h.offered (hr hfw)
    rw [if_pos ht, hc']
    have hidx : (next g s x).idx = 3 := by
      show (if tmpRd g s && initVld s then _ else s.idx) = _
      rw [hv, Bool.and_false, if_neg (by simp), h3]
    have hqs : ∀ p, queue g (next g s x) p = remP g (next g s x) p := by
      intro p; unfold queue; rw [hidx]; rfl
    have hqs0 : ∀ p, queue g s p = remP g s p := by
      intro p; unfold queue; rw [h3]; rfl
    rw [hqs, hqq]
    rw [hqs0, hc] at hqq
    refine ⟨?_, ?_, fun hf => (by rw [ht] at hf; cases hf), ?_⟩
    all_goals by_cases hl : c = LF
    · -- Tinv, new line
      subst hl
      cases hnl : s.nl
      · rw [hnl] at hn; simp at hn
      · have hrd : (translate g s x).rd = false := by unfold translate; rw [hc]; simp [hnl]
        have hvd : (translate g s x).vld = true := by unfold translate; rw [hc]; simp [hnl]
        have hnl' : (next g s x).nl = .clean := by show nextNl g s x = _; unfold nextNl; rw [hnl]; simp [hq]
        refine ⟨by rw [hidx]; omega, ?_, fun _ => ?_, fun _ => ⟨hvd, hrd, ?_⟩, fun hh => absurd hh (by rw [hidx]; omega)⟩
        · rw [hnl']
          have h1 := h.row
          rw [hnl] at h1
          show (if _ ∧ s.nl = _ then _ else s.row) = _
          rw [hnl, if_neg (by simp), h1]
          unfold chs'
          rw [hrd]; simp
        · unfold pend'; rw [hrd, hc]; rfl
        · show nextCol g s x < _
          unfold nextCol; rw [hc, hnl]; simpa using hC
      · obtain ⟨c1, c2, c3⟩ := h.clean hnl
        have hrd : (translate g s x).rd = false := by unfold translate; rw [hc]; simp [hnl, c2]
        have hvd : (translate g s x).vld = true := by unfold translate; rw [hc]; simp [hnl, c1]
        have hnl' : (next g s x).nl = if s.col = g.C - 1 then .jmpStart else .clean := by
          show nextNl g s x = _; unfold nextNl; rw [hnl]; simp [hq]
        refine ⟨by rw [hidx]; omega, ?_, fun _ => ?_, fun hcl => ⟨hvd, hrd, ?_⟩, fun hh => absurd hh (by rw [hidx]; omega)⟩
        · have h1 := h.row
          rw [hnl] at h1
          show (if _ ∧ s.nl = _ then _ else s.row) = _
          rw [hnl, if_neg (by simp), h1, hnl']
          unfold chs'
          rw [hrd]
          by_cases hcc : s.col = g.C - 1 <;> simp [hcc]
        · unfold pend'; rw [hrd, hc]; rfl
        · rw [hnl'] at hcl
          show nextCol g s x < _
          unfold nextCol; rw [hc, hnl]
          simp only [hq, if_true]
          have := Nat.mod_le (s.col + 1) (2 ^ log2ceil (g.C - 1))
          split at hcl
          · cases hcl
          · omega
      · have hrd : (translate g s x).rd = true := by unfold translate; rw [hc]; simp [hnl, hq]
        have hnl' : (next g s x).nl = .rowIncr := by show nextNl g s x = _; unfold nextNl; rw [hnl]; simp [hq]
        refine ⟨by rw [hidx]; omega, ?_, fun hh => absurd hnl' hh, fun hh => (by rw [hnl'] at hh; cases hh),
          fun hh => absurd hh (by rw [hidx]; omega)⟩
        rw [hnl']
        have h1 := h.row
        rw [hnl] at h1
        show (if _ ∧ s.nl = _ then _ else s.row) = _
        rw [hnl, if_neg (by simp), h1]
        unfold chs'
        rw [hrd, hc]
        simp [rowOf_snoc, rowAfter]
    · -- Tinv, other
      have hnl : s.nl = .rowIncr := by
        cases hnl : s.nl
        · rfl
        all_goals
          have := h.nlp (by rw [hnl]; decide)
          rw [hc] at this
          exact absurd (Option.some.inj this) hl
      have hrd : (translate g s x).rd = true := by
        unfold translate; rw [hc]; simp only [if_neg hl]; split <;> simp [hq]
      have hnl' : (next g s x).nl = .rowIncr := by
        show nextNl g s x = _; unfold nextNl; rw [hnl, hc]; simp [hl]
      refine ⟨by rw [hidx]; omega, ?_, fun hh => absurd hnl' hh, fun hh => (by rw [hnl'] at hh; cases hh),
          fun hh => absurd hh (by rw [hidx]; omega)⟩
      rw [hnl']
      have h1 := h.row
      rw [hnl] at h1
      show (if _ ∧ s.nl = _ then _ else s.row) = _
      rw [hc, if_neg (by simp [hl]), h1]
      unfold chs'
      rw [hrd, hc]
      simp [rowOf_snoc, rowAfter, hl]
    · -- queue, new line
      subst hl
      show c' :: q = c' :: _
      congr 1
      cases hnl : s.nl
      · rw [hnl] at hn; simp at hn
      · have hrd : (translate g s x).rd = false := by unfold translate; rw [hc]; simp [hnl]
        have hnl' : (next g s x).nl = .clean := by show nextNl g s x = _; unfold nextNl; rw [hnl]; simp [hq]
        have hcol : (next g s x).col = 0 := by show nextCol g s x = _; unfold nextCol; rw [hc, hnl]; simp
        have hrow : (next g s x).row = s.row := by
          show (if _ ∧ s.nl = _ then _ else s.row) = _
          rw [hnl, if_neg (by simp)]
        unfold pend'
        rw [hrd, hc]
        unfold remP rem at hqq
        rw [hnl] at hqq
        show q = rem g (next g s x) LF
        unfold rem
        rw [hnl', hcol, hrow]
        exact ((List.cons.inj hqq).2).symm
      · obtain ⟨c1, c2, c3⟩ := h.clean hnl
        have hrd : (translate g s x).rd = false := by unfold translate; rw [hc]; simp [hnl, c2]
        have hnl' : (next g s x).nl = if s.col = g.C - 1 then .jmpStart else .clean := by
          show nextNl g s x = _; unfold nextNl; rw [hnl]; simp [hq]
        have hrow : (next g s x).row = s.row := by
          show (if _ ∧ s.nl = _ then _ else s.row) = _
          rw [hnl, if_neg (by simp)]
        unfold pend'
        rw [hrd, hc]
        unfold remP rem at hqq
        rw [hnl] at hqq
        show q = rem g (next g s x) LF
        have hqq' : List.replicate (g.C - s.col) space ++ [addr g.C s.row] = c' :: q := hqq
        rw [show g.C - s.col = (g.C - s.col - 1) + 1 by omega, List.replicate_succ] at hqq'
        have hq2 : List.replicate (g.C - s.col - 1) space ++ [addr g.C s.row] = q := (List.cons.inj hqq').2
        unfold rem
        rw [hnl', hrow]
        by_cases hcc : s.col = g.C - 1
        · rw [if_pos hcc]
          rw [← hq2, show g.C - s.col - 1 = 0 by omega]
          rfl
        · rw [if_neg hcc]
          have hcol : (next g s x).col = s.col + 1 := by
            show nextCol g s x = _
            unfold nextCol; rw [hc, hnl]
            simp only [hq, if_true]
            exact Nat.mod_eq_of_lt (by omega)
          rw [hcol, ← hq2, Nat.sub_sub]
      · have hrd : (translate g s x).rd = true := by unfold translate; rw [hc]; simp [hnl, hq]
        unfold pend'
        rw [hrd]
        unfold remP rem at hqq
        rw [hnl] at hqq
        exact ((List.cons.inj hqq).2).symm
    · -- queue, other
      show c' :: q = c' :: _
      congr 1
      have hnl : s.nl = .rowIncr := by
        cases hnl : s.nl
        · rfl
        all_goals
          have := h.nlp (by rw [hnl]; decide)
          rw [hc] at this
          exact absurd (Option.some.inj this) hl
      have hrd : (translate g s x).rd = true := by
        unfold translate; rw [hc]; simp only [if_neg hl]; split <;> simp [hq]
      unfold pend'
      rw [hrd]
      unfold remP rem at hqq
      rw [hnl] at hqq
      have hqq' : one g.C s.row c = c' :: q := hqq
      unfold one at hqq'
      rw [if_neg hl] at hqq'
      split at hqq' <;> exact ((List.cons.inj hqq').2).symm
    all_goals
      unfold chs' pend'
      cases (translate g s x).rd <;> simp
  · -- no command of the translation is accepted
    have hq' := trRd_false hq
    have hrd : x.din ≠ none → (translate g s x).rd = false := by
      intro hne
      unfold translate
      cases hd : x.din with
      | none => exact absurd hd hne
      | some c =>
        by_cases hl : c = LF
        · cases hnl : s.nl
          · simp [hl]
          · simp [hl]
          · simp [hl, (h.clean hnl).2.1]
          · simp [hl, hq']
        · by_cases hf : c = FF
          · simp [hf, hq', show ¬ FF = LF by decide]
          · simp [hl, hf, hq']
    have hp : pend' g s x = x.din := by
      unfold pend'
      cases hd : x.din with
      | none => simp
      | some c => rw [hrd (by rw [hd]; simp)]; simp
    have hch : chs' g s x chs = chs := by
      unfold chs'
      cases hd : x.din with
      | none => simp
      | some c => rw [hrd (by rw [hd]; simp)]; simp
    rw [hp, hch]
    have hnl' : (next g s x).nl = if s.nl = .rowIncr ∧ x.din = some LF then .jmp else s.nl := by
      show nextNl g s x = _
      unfold nextNl
      cases hn : s.nl
      · simp
      all_goals simp [hq']
    have hrow : (next g s x).row = if s.nl = .rowIncr ∧ x.din = some LF then !s.row else s.row := by
      show (if _ ∧ s.nl = _ then _ else s.row) = _
      simp only [and_comm]
    have hidx : tmpRd g s = true → s.idx < 3 := by
      intro ht
      unfold trRd at hq'
      rw [ht, Bool.true_and, Bool.not_eq_false'] at hq'
      exact initVld_iff.1 hq'
    have hidx' : (next g s x).idx = if tmpRd g s then s.idx + 1 else s.idx := by
      show (if tmpRd g s && initVld s then _ else s.idx) = _
      cases ht : tmpRd g s
      · rfl
      · rw [initVld_iff.2 (hidx ht)]; rfl
    have hremP : remP g (next g s x) x.din = remP g s x.din := by
      cases hd : x.din with
      | none => rfl
      | some c =>
        show rem g (next g s x) c = rem g s c
        unfold rem
        rw [hnl', hrow, hd]
        cases hn : s.nl
        · by_cases hl : c = LF
          · simp [hl, one]
          · simp [hl]
        · simp
        · have hcol : (next g s x).col = s.col := by
            show nextCol g s x = _
            unfold nextCol; rw [hn]; simp [hq']
          simp [hcol]
        · simp
    refine ⟨⟨?_, ?_, ?_, ?_, ?_⟩, ?_, ?_, rfl⟩
    · rw [hidx']
      have := h.idx
      split
      · have := hidx (by assumption); omega
      · exact this
    · rw [hnl', hrow]
      have h1 := h.row
      by_cases hh : s.nl = .rowIncr ∧ x.din = some LF
      · rw [if_pos hh, if_pos hh, h1, if_pos hh.1]; simp
      · rw [if_neg hh, if_neg hh, h1]
    · rw [hnl']
      by_cases hh : s.nl = .rowIncr ∧ x.din = some LF
      · exact fun _ => hh.2
      · rw [if_neg hh]; exact h.nlp
    · rw [hnl']
      by_cases hh : s.nl = .rowIncr ∧ x.din = some LF
      · rw [if_pos hh]; intro q; cases q
      · rw [if_neg hh]
        intro hcl
        obtain ⟨c1, c2, c3⟩ := h.clean hcl
        have hd := h.nlp (by rw [hcl]; decide)
        refine ⟨?_, ?_, ?_⟩
        · show (translate g s x).vld = true
          unfold translate; rw [hd]; simp [hcl, c1]
        · show (translate g s x).rd = false
          unfold translate; rw [hd]; simp [hcl, c2]
        · show nextCol g s x < _
          unfold nextCol; rw [hcl]; simp [hq', c3]
    · rw [hidx']
      intro hh
      refine h.early ?_
      split at hh <;> omega
    · unfold queue
      rw [hremP, hidx']
      cases ht : tmpRd g s
      · simp
      · have hi := hidx ht
        have : tmpCmd g s x = initSeq[s.idx]? := by unfold tmpCmd; rw [initVld_iff.2 hi]; simp
        rw [this]
        have : s.idx = 0 ∨ s.idx = 1 ∨ s.idx = 2 := by omega
        rcases this with e | e | e <;> rw [e] <;> rfl
    · intro ht hre
      rcases hre with hre | ⟨c, hc, hn⟩
      · left; rw [hidx', ht]; exact hre
      · right
        refine ⟨c, hc, ?_⟩
        rw [hnl', hc]
        rcases hn with hn | hn
        · exact Or.inl hn
        · right; rw [if_neg (by simp [hn])]; exact hn

end

end Verif.Hd44780
