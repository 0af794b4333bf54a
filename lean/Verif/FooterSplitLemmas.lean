import Verif.FooterSplit

/-! # Movement of the words through the registers of `Axi4S_footerSplit` -/

namespace Verif.FooterSplit

open Verif

variable {β : Type}

theorem ready_succ (c : Cfg) (s : St β) (x : In β) (i : Nat) (h1 : 1 ≤ i) (h2 : i ≤ c.LA + 1) :
    ready c s x i = (!(s.r i).valid || ready c s x (i + 1)) := by
  unfold ready
  obtain ⟨k, hk⟩ : ∃ k, c.LA + 2 - i = k + 1 := ⟨c.LA + 1 - i, by omega⟩
  have e1 : c.LA + 2 - (i + 1) = k := by omega
  have e2 : c.LA + 1 - k = i := by omega
  rw [hk, e1, readyD, e2]

/-- The word of position `i` moves to position `i + 1`; position 0 is `dataIn`, `LA + 2` are the outputs. -/
def mv (c : Cfg) (s : St β) (x : In β) (i : Nat) : Bool :=
  (reg c s x i).valid && ready c s x (i + 1) && (x.vld || canFlush s i)

theorem reg_succ (c : Cfg) (s : St β) (x : In β) (i : Nat) : reg c s x (i + 1) = s.r (i + 1) := by
  simp [reg]

theorem reg_pos (c : Cfg) (s : St β) (x : In β) (i : Nat) (h : 1 ≤ i) : reg c s x i = s.r i := by
  have : i ≠ 0 := by omega
  simp [reg, this]

/-- A frame has no gaps inside. -/
def NoGap (c : Cfg) (s : St β) : Prop :=
  ∀ i, 1 ≤ i → i ≤ c.LA → (s.r (i + 1)).valid = true → (s.r (i + 1)).w.last = false →
    (s.r i).valid = true

theorem canFlush_succ (s : St β) (i : Nat) :
    canFlush s (i + 1) = (((s.r (i + 1)).valid && (s.r (i + 1)).w.last) || canFlush s i) := rfl

theorem canFlush_mono (s : St β) (i : Nat) (h : canFlush s i = true) : canFlush s (i + 1) = true := by
  rw [canFlush_succ, h]; simp

theorem canFlush_mono' (s : St β) (i j : Nat) (hij : i ≤ j) (h : canFlush s i = true) :
    canFlush s j = true := by
  induction j with
  | zero => have : i = 0 := by omega
            subst this; exact h
  | succ j ih =>
    by_cases e : i = j + 1
    · subst e; exact h
    · exact canFlush_mono _ _ (ih (by omega))

theorem canFlush_at (s : St β) (j i : Nat) (h1 : 1 ≤ j) (h2 : j ≤ i) (hv : (s.r j).valid = true)
    (hl : (s.r j).w.last = true) : canFlush s i = true := by
  obtain ⟨k, rfl⟩ : ∃ k, j = k + 1 := ⟨j - 1, by omega⟩
  exact canFlush_mono' s (k + 1) i h2 (by rw [canFlush_succ, hv, hl]; rfl)

theorem canFlush_ex (s : St β) (i : Nat) (h : canFlush s i = true) :
    ∃ j, 1 ≤ j ∧ j ≤ i ∧ (s.r j).valid = true ∧ (s.r j).w.last = true := by
  induction i with
  | zero => simp [canFlush] at h
  | succ i ih =>
    rw [canFlush_succ] at h
    rcases Bool.eq_false_or_eq_true (canFlush s i) with hc | hc
    · obtain ⟨j, a, b, d⟩ := ih hc
      exact ⟨j, a, by omega, d⟩
    · simp only [hc, Bool.or_false, Bool.and_eq_true] at h
      exact ⟨i + 1, by omega, by omega, h⟩

theorem mv_eq (c : Cfg) (s : St β) (x : In β) (i : Nat) : mv c s x i = true ↔
    (reg c s x i).valid = true ∧ ready c s x (i + 1) = true ∧ (x.vld = true ∨ canFlush s i = true) := by
  simp [mv, and_assoc]

theorem mv_up (c : Cfg) (s : St β) (x : In β) (i : Nat) (hi : i ≤ c.LA) (h : mv c s x i = true)
    (hv : (s.r (i + 1)).valid = true) : mv c s x (i + 1) = true := by
  rw [mv_eq] at h ⊢
  obtain ⟨_, h2, h3⟩ := h
  rw [ready_succ c s x (i + 1) (by omega) (by omega), hv] at h2
  refine ⟨by rw [reg_succ]; exact hv, by simpa using h2, ?_⟩
  rcases h3 with h3 | h3
  · exact .inl h3
  · exact .inr (canFlush_mono _ _ h3)

/-- With a movement of a word which is not the last one of its frame the next word of the frame moves too. -/
theorem mv_down (c : Cfg) (s : St β) (x : In β) (hg : NoGap c s) (i : Nat) (hi : i ≤ c.LA)
    (h : mv c s x (i + 1) = true) (hl : (s.r (i + 1)).w.last = false) : mv c s x i = true := by
  rw [mv_eq] at h ⊢
  obtain ⟨h1, h2, h3⟩ := h
  rw [reg_succ] at h1
  have hc : canFlush s (i + 1) = canFlush s i := by rw [canFlush_succ, hl]; simp
  rw [hc] at h3
  refine ⟨?_, ?_, h3⟩
  · by_cases e : i = 0
    · subst e
      simp only [canFlush, Bool.false_eq_true, or_false] at h3
      simp [reg, h3]
    · rw [reg_pos _ _ _ _ (by omega)]
      exact hg i (by omega) hi h1 hl
  · rw [ready_succ c s x (i + 1) (by omega) (by omega), h2]; simp

theorem next_r (c : Cfg) (s : St β) (x : In β) (i : Nat) (hi : i ≤ c.LA) :
    (next c s x).r (i + 1) = nextReg c s x i := by
  have : 1 ≤ i + 1 ∧ i + 1 ≤ c.LA + 1 := by omega
  simp [next, hi]

theorem next_mv (c : Cfg) (s : St β) (x : In β) (i : Nat) (h : mv c s x i = true) :
    nextReg c s x i = ⟨(reg c s x i).w, true,
      if setFoot x && !(reg c s x i).w.last then setVal c x (i + 1) else (reg c s x i).foot⟩ := by
  have hp : prevVld c s x i = true := by
    rw [mv_eq] at h
    simp only [prevVld, h.1, Bool.true_and, Bool.or_eq_true]
    exact h.2.2
  rw [mv_eq] at h
  obtain ⟨h1, h2, _⟩ := h
  simp only [nextReg, h2, if_true, hp, Bool.true_or, h1, Bool.true_and, ite_self]

theorem next_leave (c : Cfg) (s : St β) (x : In β) (hg : NoGap c s) (i : Nat) (hi : i ≤ c.LA)
    (h0 : mv c s x i = false) (h : mv c s x (i + 1) = true) : (nextReg c s x i).valid = false := by
  have hl : (s.r (i + 1)).w.last = true := by
    rcases Bool.eq_false_or_eq_true (s.r (i + 1)).w.last with hl | hl
    · exact hl
    · rw [mv_down c s x hg i hi h hl] at h0; simp at h0
  rw [mv_eq] at h
  obtain ⟨h1, h2, h3⟩ := h
  rw [reg_succ] at h1
  have hr : ready c s x (i + 1) = true := by
    rw [ready_succ c s x (i + 1) (by omega) (by omega), h2]; simp
  have hp : prevVld c s x i = false := by
    rw [← Bool.not_eq_true] at h0 ⊢
    intro hp
    apply h0
    rw [mv_eq]
    simp only [prevVld, Bool.and_eq_true, Bool.or_eq_true] at hp
    exact ⟨hp.1, hr, hp.2⟩
  have hc : canFlush s (i + 1) = true := by rw [canFlush_succ, h1, hl]; rfl
  simp only [nextReg, hr, if_true, hp, Bool.false_eq_true, if_false, hc]
  split
  · rename_i hb
    simp only [setFoot, Bool.and_eq_true] at hb
    simp only [prevVld, hb.1.1, Bool.true_or, Bool.and_true] at hp
    exact hp
  · rfl

theorem next_hold (c : Cfg) (s : St β) (x : In β) (i : Nat) (hi : i ≤ c.LA)
    (_h0 : mv c s x i = false) (h : mv c s x (i + 1) = false) (hv : (s.r (i + 1)).valid = true) :
    nextReg c s x i = s.r (i + 1) := by
  by_cases hr : ready c s x (i + 1) = true
  · have hr2 : ready c s x (i + 2) = true := by
      rw [ready_succ c s x (i + 1) (by omega) (by omega), hv] at hr
      simpa using hr
    have hn : x.vld = false ∧ canFlush s (i + 1) = false := by
      rw [← Bool.not_eq_true, mv_eq, reg_succ] at h
      constructor
      · rw [← Bool.not_eq_true]; intro q; exact h ⟨hv, hr2, .inl q⟩
      · rw [← Bool.not_eq_true]; intro q; exact h ⟨hv, hr2, .inr q⟩
    have hs : setFoot x = false := by simp [setFoot, hn.1]
    have hp : prevVld c s x i = false := by
      have : canFlush s i = false := by
        rw [← Bool.not_eq_true]; intro q
        rw [canFlush_mono _ _ q] at hn; simp at hn
      simp [prevVld, hn.1, this]
    simp only [nextReg, hr, if_true, hp, hn.2, Bool.or_false, hs, Bool.false_and, Bool.false_eq_true,
      if_false]
  · simp only [nextReg, hr, Bool.false_eq_true, if_false]

theorem next_empty (c : Cfg) (s : St β) (x : In β) (i : Nat) (hi : i ≤ c.LA)
    (h0 : mv c s x i = false) (hv : (s.r (i + 1)).valid = false) :
    (nextReg c s x i).valid = false := by
  have hr : ready c s x (i + 1) = true := by
    rw [ready_succ c s x (i + 1) (by omega) (by omega), hv]; simp
  have hp : prevVld c s x i = false := by
    rw [← Bool.not_eq_true] at h0 ⊢
    intro hp
    apply h0
    rw [mv_eq]
    simp only [prevVld, Bool.and_eq_true, Bool.or_eq_true] at hp
    exact ⟨hp.1, hr, hp.2⟩
  simp only [nextReg, hr, if_true, hp, Bool.false_eq_true, if_false, hv, ite_self]
  split
  · rename_i hb
    simp only [setFoot, Bool.and_eq_true] at hb
    simp only [prevVld, hb.1.1, Bool.true_or, Bool.and_true] at hp
    exact hp
  · rfl

/-- The next register is either loaded from the previous one, or it held its word, or it is empty. -/
theorem next_cases (c : Cfg) (s : St β) (x : In β) (hg : NoGap c s) (i : Nat) (hi : i ≤ c.LA)
    (hv : ((next c s x).r (i + 1)).valid = true) :
    (mv c s x i = true ∧ (next c s x).r (i + 1) = ⟨(reg c s x i).w, true,
      if setFoot x && !(reg c s x i).w.last then setVal c x (i + 1) else (reg c s x i).foot⟩) ∨
    (mv c s x i = false ∧ mv c s x (i + 1) = false ∧ (s.r (i + 1)).valid = true ∧
      (next c s x).r (i + 1) = s.r (i + 1)) := by
  rw [next_r c s x i hi] at hv ⊢
  rcases Bool.eq_false_or_eq_true (mv c s x i) with h0 | h0
  · exact .inl ⟨h0, next_mv c s x i h0⟩
  · right
    rcases Bool.eq_false_or_eq_true (mv c s x (i + 1)) with h1 | h1
    · rw [next_leave c s x hg i hi h0 h1] at hv; simp at hv
    · rcases Bool.eq_false_or_eq_true (s.r (i + 1)).valid with h2 | h2
      · exact ⟨h0, h1, h2, next_hold c s x i hi h0 h1 h2⟩
      · rw [next_empty c s x i hi h0 h2] at hv; simp at hv

theorem noGap_next (c : Cfg) (s : St β) (x : In β) (hg : NoGap c s) : NoGap c (next c s x) := by
  intro i h1 h2 hv hl
  obtain ⟨k, rfl⟩ : ∃ k, i = k + 1 := ⟨i - 1, by omega⟩
  rcases next_cases c s x hg (k + 1) h2 hv with ⟨hm, he⟩ | ⟨hm, hm2, hv2, he⟩
  · rw [he] at hl
    rw [reg_succ] at hl
    have := mv_down c s x hg k (by omega) hm hl
    rw [next_r c s x k (by omega), next_mv c s x k this]
  · rw [he] at hl
    have hv3 := hg (k + 1) (by omega) h2 hv2 hl
    have hm0 : mv c s x k = false := by
      rw [← Bool.not_eq_true]
      intro q
      rw [mv_up c s x k (by omega) q hv3] at hm
      simp at hm
    rw [next_r c s x k (by omega), next_hold c s x k (by omega) hm0 hm hv3]
    exact hv3

/-! ## Contents -/

/-- Contents of the registers `i … 1`, the oldest first. -/
def Q (s : St β) (val : Nat → γ) : Nat → List γ
  | 0 => []
  | i + 1 => given (s.r (i + 1)).valid (val (i + 1)) ++ Q s val i

theorem Q_step (c : Cfg) (s : St β) (x : In β) (hg : NoGap c s) (val val' : Nat → γ)
    (hm : ∀ i ≤ c.LA, mv c s x i = true → val' (i + 1) = val i)
    (hh : ∀ i ≤ c.LA, mv c s x i = false → mv c s x (i + 1) = false → (s.r (i + 1)).valid = true →
      val' (i + 1) = val (i + 1)) (i : Nat)
    (hi : i ≤ c.LA + 1) :
    given (mv c s x i) (val i) ++ Q (next c s x) val' i = Q s val i ++ given (mv c s x 0) (val 0) := by
  induction i with
  | zero => simp [Q]
  | succ i ih =>
    specialize ih (by omega)
    simp only [Q]
    rw [List.append_assoc, ← ih]
    have hi' : i ≤ c.LA := by omega
    rcases Bool.eq_false_or_eq_true (mv c s x i) with h0 | h0
    · rw [next_r c s x i hi', next_mv c s x i h0, hm i hi' h0]
      rcases Bool.eq_false_or_eq_true (s.r (i + 1)).valid with hv | hv
      · rw [mv_up c s x i hi' h0 hv, hv, h0]
      · have : mv c s x (i + 1) = false := by
          rw [mv, reg_succ, hv]; rfl
        rw [this, hv, h0]
    · rcases Bool.eq_false_or_eq_true (mv c s x (i + 1)) with h1 | h1
      · have hv : (s.r (i + 1)).valid = true := by
          rw [mv_eq, reg_succ] at h1; exact h1.1
        rw [next_r c s x i hi', next_leave c s x hg i hi' h0 h1, h1, h0, hv]
        simp [given]
      · rcases Bool.eq_false_or_eq_true (s.r (i + 1)).valid with hv | hv
        · rw [next_r c s x i hi', next_hold c s x i hi' h0 h1 hv, h1, h0, hv, hh i hi' h0 h1 hv]
          simp [given]
        · rw [next_r c s x i hi', next_empty c s x i hi' h0 hv, h1, h0, hv]
          simp [given]

/-! ## `can_flush` -/

theorem open_valid (c : Cfg) (s : St β) (hg : NoGap c s) (j : Nat) (hj : j ≤ c.LA + 1)
    (hv : (s.r j).valid = true) (hc : canFlush s j = false) :
    ∀ l, 1 ≤ l → l ≤ j → (s.r l).valid = true := by
  induction j with
  | zero => intro l h1 h2; omega
  | succ j ih =>
    intro l h1 h2
    by_cases e : l = j + 1
    · subst e; exact hv
    · rw [canFlush_succ, hv] at hc
      simp only [Bool.true_and, Bool.or_eq_false_iff] at hc
      exact ih (by omega) (hg j (by omega) (by omega) hv hc.1) hc.2 l h1 (by omega)

theorem ready_chain (c : Cfg) (s : St β) (x : In β) (j : Nat) (hj : j ≤ c.LA + 1)
    (hv : ∀ l, 1 ≤ l → l ≤ j → (s.r l).valid = true) : ready c s x 1 = ready c s x (j + 1) := by
  induction j with
  | zero => rfl
  | succ j ih =>
    rw [ih (by omega) (fun l a b => hv l a (by omega)),
      ready_succ c s x (j + 1) (by omega) (by omega), hv (j + 1) (by omega) (by omega)]
    simp

/-- The words of the frame which is being received move when its next word is accepted. -/
theorem open_moves (c : Cfg) (s : St β) (x : In β) (hg : NoGap c s) (j : Nat) (h1 : 1 ≤ j)
    (hj : j ≤ c.LA + 1) (hv : (s.r j).valid = true) (hc : canFlush s j = false)
    (h0 : mv c s x 0 = true) : mv c s x j = true := by
  rw [mv_eq] at h0 ⊢
  obtain ⟨_, h2, h3⟩ := h0
  refine ⟨by rw [reg_pos _ _ _ _ h1]; exact hv, ?_, ?_⟩
  · rw [← ready_chain c s x j hj (open_valid c s hg j hj hv hc)]; exact h2
  · left; simpa [canFlush] using h3

theorem flush_moved (c : Cfg) (s : St β) (x : In β) (hg : NoGap c s) (i : Nat) (hi : i ≤ c.LA)
    (h : mv c s x i = true) :
    canFlush (next c s x) (i + 1) = (canFlush s i || (mv c s x 0 && setFoot x)) := by
  have hn : (next c s x).r (i + 1) = _ := (next_r c s x i hi).trans (next_mv c s x i h)
  rw [Bool.eq_iff_iff]
  constructor
  · intro q
    obtain ⟨j, j1, j2, jv, jl⟩ := canFlush_ex _ _ q
    obtain ⟨k, rfl⟩ : ∃ k, j = k + 1 := ⟨j - 1, by omega⟩
    rcases next_cases c s x hg k (by omega) jv with ⟨hm, he⟩ | ⟨hm, hm2, hv2, he⟩
    · rw [he] at jl
      by_cases e : k = 0
      · subst e
        simp only [reg, if_true] at jl
        rw [mv_eq] at hm
        have hx : x.vld = true := by simpa [reg] using hm.1
        have : mv c s x 0 = true := by rw [mv_eq]; exact hm
        simp [this, setFoot, hx, jl]
      · rw [reg_pos _ _ _ _ (by omega)] at jl
        have hv : (s.r k).valid = true := by
          rw [mv_eq, reg_pos _ _ _ _ (by omega)] at hm; exact hm.1
        rw [canFlush_at s k i (by omega) (by omega) hv jl]; rfl
    · rw [he] at jl
      by_cases e : k = i
      · subst e; rw [h] at hm; simp at hm
      · rw [canFlush_at s (k + 1) i (by omega) (by omega) hv2 jl]; rfl
  · intro q
    simp only [Bool.or_eq_true, Bool.and_eq_true] at q
    rcases q with q | ⟨q0, qs⟩
    · obtain ⟨j, j1, j2, jv, jl⟩ := canFlush_ex _ _ q
      obtain ⟨k, rfl⟩ : ∃ k, j = k + 1 := ⟨j - 1, by omega⟩
      rcases Bool.eq_false_or_eq_true (mv c s x (k + 1)) with hm | hm
      · have := (next_r c s x (k + 1) (by omega)).trans (next_mv c s x (k + 1) hm)
        refine canFlush_at _ (k + 2) (i + 1) (by omega) (by omega) (by rw [this]) (by rw [this]; rw [reg_succ]; exact jl)
      · have hm0 : mv c s x k = false := by
          rw [← Bool.not_eq_true]; intro z
          rw [mv_up c s x k (by omega) z jv] at hm; simp at hm
        have := (next_r c s x k (by omega)).trans (next_hold c s x k (by omega) hm0 hm jv)
        exact canFlush_at _ (k + 1) (i + 1) (by omega) (by omega) (by rw [this]; exact jv) (by rw [this]; exact jl)
    · have := (next_r c s x 0 (by omega)).trans (next_mv c s x 0 q0)
      refine canFlush_at _ 1 (i + 1) (by omega) (by omega) (by rw [this]) ?_
      rw [this]
      simp only [setFoot, Bool.and_eq_true] at qs
      simpa [reg] using qs.2

theorem flush_held (c : Cfg) (s : St β) (x : In β) (hg : NoGap c s) (i : Nat) (hi : i ≤ c.LA)
    (h0 : mv c s x i = false) (h : mv c s x (i + 1) = false) (hv : (s.r (i + 1)).valid = true) :
    canFlush (next c s x) (i + 1) = canFlush s (i + 1) := by
  rw [Bool.eq_iff_iff]
  constructor
  · intro q
    rw [← Bool.not_eq_false]
    intro hc
    obtain ⟨j, j1, j2, jv, jl⟩ := canFlush_ex _ _ q
    obtain ⟨k, rfl⟩ : ∃ k, j = k + 1 := ⟨j - 1, by omega⟩
    rcases next_cases c s x hg k (by omega) jv with ⟨hm, he⟩ | ⟨hm, hm2, hv2, he⟩
    · rw [he] at jl
      by_cases e : k = 0
      · subst e
        rw [open_moves c s x hg (i + 1) (by omega) (by omega) hv hc hm] at h
        simp at h
      · rw [reg_pos _ _ _ _ (by omega)] at jl
        have hv' : (s.r k).valid = true := by
          rw [mv_eq, reg_pos _ _ _ _ (by omega)] at hm; exact hm.1
        rw [canFlush_at s k (i + 1) (by omega) (by omega) hv' jl] at hc; simp at hc
    · rw [he] at jl
      rw [canFlush_at s (k + 1) (i + 1) (by omega) (by omega) hv2 jl] at hc; simp at hc
  · intro q
    obtain ⟨j, j1, j2, jv, jl⟩ := canFlush_ex _ _ q
    obtain ⟨k, rfl⟩ : ∃ k, j = k + 1 := ⟨j - 1, by omega⟩
    rcases Bool.eq_false_or_eq_true (mv c s x (k + 1)) with hm | hm
    · have hk : k ≠ i := by rintro rfl; rw [hm] at h; simp at h
      have := (next_r c s x (k + 1) (by omega)).trans (next_mv c s x (k + 1) hm)
      refine canFlush_at _ (k + 2) (i + 1) (by omega) (by omega) (by rw [this]) (by rw [this]; rw [reg_succ]; exact jl)
    · have hm0 : mv c s x k = false := by
        rw [← Bool.not_eq_true]; intro z
        rw [mv_up c s x k (by omega) z jv] at hm; simp at hm
      have := (next_r c s x k (by omega)).trans (next_hold c s x k (by omega) hm0 hm jv)
      exact canFlush_at _ (k + 1) (i + 1) (by omega) (by omega) (by rw [this]; exact jv) (by rw [this]; exact jl)

end Verif.FooterSplit
