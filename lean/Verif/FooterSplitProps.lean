import Verif.FooterSplitLemmas
import Mathlib.Data.List.Induction
import Mathlib.Data.List.Forall2

/-! # C173: `Axi4S_footerSplit` splits every frame to prefix and footer -/

namespace Verif.FooterSplit

open Verif

variable {β : Type}

/-! ## What is observed -/

def accepted (tr : List (In β × Out β)) : List (Word β) :=
  tr.flatMap fun e => given (e.1.vld && e.2.rd) e.1.w
/-- Words transferred on `dataOut[0]`: enabled bytes and last. -/
def sent0 (tr : List (In β × Out β)) : List (List β × Bool) :=
  tr.flatMap fun e => if e.1.rd0 then e.2.out0.toList else []
def sent1 (tr : List (In β × Out β)) : List (List β × Bool) :=
  tr.flatMap fun e => if e.1.rd1 then e.2.out1.toList else []

/-- All bytes of a frame. -/
def bytesOf (f : List (Word β)) : List β := f.flatMap (·.bytes)

/-- A frame: all words are full but the last one, which has at least one byte; the frame contains at least the
footer. -/
structure Frame (c : Cfg) (f : List (Word β)) : Prop where
  shape : ∃ g w, f = g ++ [w] ∧ w.last = true ∧ 1 ≤ w.bytes.length ∧ w.bytes.length ≤ c.n ∧
    ∀ x ∈ g, x.last = false ∧ x.bytes.length = c.n
  long : c.F ≤ (bytesOf f).length

/-- Words of exactly one frame on an output. -/
def OneFrame (o : List (List β × Bool)) : Prop :=
  ∃ g b, o = g ++ [(b, true)] ∧ ∀ e ∈ g, e.2 = false

/-- `o0`, `o1` are the prefix and the footer of the frame `f`. -/
structure Splits (c : Cfg) (f : List (Word β)) (o0 o1 : List (List β × Bool)) : Prop where
  one0 : OneFrame o0
  one1 : OneFrame o1
  prefix_ : o0.flatMap (·.1) = (bytesOf f).take ((bytesOf f).length - c.F)
  footer : o1.flatMap (·.1) = (bytesOf f).drop ((bytesOf f).length - c.F)

/-! ## Words with their position in the frame -/

structure E (β : Type) where
  w : Word β
  /-- bytes of the frame before this word -/
  p : Nat
  /-- bytes from this word to the end of the frame -/
  r : Nat

def ann (p : Nat) : List (Word β) → List (E β)
  | [] => []
  | w :: ws => ⟨w, p, (bytesOf (w :: ws)).length⟩ :: ann (p + w.bytes.length) ws

def emit0 (c : Cfg) (e : E β) : List (List β × Bool) :=
  if c.F < e.r then [(e.w.bytes.take (e.r - c.F), decide (e.r ≤ c.F + e.w.bytes.length))]
  else if e.w.last && decide (e.p + e.r = c.F) then [([], true)] else []

def emit1 (c : Cfg) (e : E β) : List (List β × Bool) :=
  if e.r < c.F + e.w.bytes.length then [(e.w.bytes.drop (e.r - c.F), e.w.last)] else []

structure Good (c : Cfg) (e : E β) : Prop where
  pos : 1 ≤ e.w.bytes.length
  le : e.w.bytes.length ≤ c.n
  last : e.w.last = true → e.r = e.w.bytes.length
  full : e.w.last = false → e.w.bytes.length = c.n
  more : e.w.last = false → c.n < e.r
  long : c.F ≤ e.p + e.r

structure Link (c : Cfg) (e f : E β) : Prop where
  r : e.w.last = false → e.r = c.n + f.r
  p : e.w.last = false → f.p = e.p + c.n
  first : e.w.last = true → f.p = 0

/-- Annotated words of a sequence of frames. -/
structure Stream (c : Cfg) (G : List (E β)) : Prop where
  good : ∀ e ∈ G, Good c e
  link : ∀ (k : Nat) e f, G[k]? = some e → G[k + 1]? = some f → Link c e f
  first : ∀ e, G[0]? = some e → e.p = 0
  /-- the last word ends a frame -/
  ends : ∀ e, G.getLast? = some e → e.w.last = true

/-! ## Footer flags -/

theorem lastBytes_eq (c : Cfg) (x : In β) (h1 : 1 ≤ x.w.bytes.length) (h2 : x.w.bytes.length ≤ c.n) :
    lastBytes c x = x.w.bytes.length := by
  unfold lastBytes
  generalize x.w.bytes.length = m at *
  by_cases e : m = c.n
  · rw [List.find?_eq_none.2]
    · simp [e]
    · intro b hb
      simp only [List.mem_map, List.mem_range] at hb
      obtain ⟨a, ha, rfl⟩ := hb
      simp; omega
  · have hsp : (List.range (c.n - 1)).map (· + 1) =
        (List.range (m - 1)).map (· + 1) ++ m :: (List.range (c.n - 1 - m)).map (· + (m + 1)) := by
      have : c.n - 1 = (m - 1) + ((c.n - 1 - m) + 1) := by omega
      conv_lhs => rw [this, List.range_add, List.map_append, List.range_succ_eq_map]
      simp only [List.map_cons, List.map_map, List.append_cancel_left_eq, List.cons.injEq]
      refine ⟨by omega, ?_⟩
      apply List.map_congr_left
      intro a _
      simp only [Function.comp]
      omega
    rw [hsp, List.find?_append, List.find?_eq_none.2]
    · simp
    · intro b hb
      simp only [List.mem_map, List.mem_range] at hb
      obtain ⟨a, ha, rfl⟩ := hb
      simp; omega

theorem LA_bounds (c : Cfg) (hok : Ok c) : c.F ≤ c.LA * c.n ∧ (c.LA - 1) * c.n < c.F ∧ 1 ≤ c.LA := by
  obtain ⟨h1, h2⟩ := hok
  unfold Cfg.LA
  have e := Nat.div_add_mod (c.F + c.n - 1) c.n
  have l := Nat.mod_lt (c.F + c.n - 1) (show c.n > 0 by omega)
  have hq : 1 ≤ (c.F + c.n - 1) / c.n := (Nat.one_le_div_iff (by omega)).2 (by omega)
  generalize (c.F + c.n - 1) / c.n = q at *
  rw [Nat.mul_comm] at e
  refine ⟨by omega, ?_, hq⟩
  rw [Nat.sub_mul]
  omega

/-- Flags written for the word at distance `i` from the input word, which is the last of its frame. -/
theorem setVal_eq (c : Cfg) (hok : Ok c) (x : In β) (h1 : 1 ≤ x.w.bytes.length)
    (h2 : x.w.bytes.length ≤ c.n) (i : Nat) (hi : i ≤ c.LA) (b : Nat) :
    setVal c x (i + 1) b = (decide (i * c.n + x.w.bytes.length ≤ c.F + b) &&
      decide (b < i * c.n + x.w.bytes.length)) := by
  obtain ⟨hF, _, _⟩ := LA_bounds c hok
  have e : (c.LA + 1 - (i + 1)) * c.n = c.LA * c.n - i * c.n := by
    rw [Nat.add_sub_add_right, Nat.sub_mul]
  have le : i * c.n ≤ c.LA * c.n := Nat.mul_le_mul_right _ hi
  simp only [setVal, isFoot, footStart, lastBytes_eq c x h1 h2, Nat.add_eq_zero_iff, Nat.one_ne_zero,
    and_false, if_false, e]
  generalize i * c.n = a at *
  generalize c.LA * c.n = L at *
  rw [Bool.eq_iff_iff]
  simp only [Bool.and_eq_true, decide_eq_true_eq]
  omega

theorem setVal_zero (c : Cfg) (hok : Ok c) (x : In β) (h1 : 1 ≤ x.w.bytes.length)
    (h2 : x.w.bytes.length ≤ c.n) (b : Nat) :
    setVal c x 0 b = (setFoot x && decide (x.w.bytes.length ≤ c.F + b) &&
      decide (b < x.w.bytes.length)) := by
  obtain ⟨hF, _, _⟩ := LA_bounds c hok
  simp only [setVal, isFoot, footStart, lastBytes_eq c x h1 h2, if_true]
  generalize c.LA * c.n = L at *
  rw [Bool.and_assoc]
  congr 1
  rw [Bool.eq_iff_iff]
  simp only [Bool.and_eq_true, decide_eq_true_eq]
  omega

theorem sel_take (p : Nat → Bool) (k : Nat) (l : List β)
    (h : ∀ b < l.length, p b = decide (b < k)) : sel p l = l.take k := by
  suffices H : ∀ (l : List β) (o : Nat), (∀ b, o ≤ b → b < o + l.length → p b = decide (b < k)) →
      ((l.zipIdx o).filter fun e => p e.2).map (·.1) = l.take (k - o) by
    have := H l 0 (fun b _ hb => h b (by omega))
    simpa [sel] using this
  intro l
  induction l with
  | nil => intro o _; simp
  | cons a l ih =>
    intro o ho
    have h0 := ho o (by omega) (by simp)
    have ih' := ih (o + 1) (fun b h1 h2 => ho b (by omega) (by simp only [List.length_cons]; omega))
    rw [List.zipIdx_cons, List.filter_cons]
    by_cases c : o < k
    · have e : k - o = (k - (o + 1)) + 1 := by omega
      simp only [h0, c, decide_true, if_true, List.map_cons, ih', e, List.take_succ_cons]
    · have e : k - o = 0 := by omega
      have e' : k - (o + 1) = 0 := by omega
      simp only [h0, c, decide_false, Bool.false_eq_true, if_false, ih', e, e', List.take_zero]

theorem sel_drop (p : Nat → Bool) (k : Nat) (l : List β)
    (h : ∀ b < l.length, p b = decide (k ≤ b)) : sel p l = l.drop k := by
  suffices H : ∀ (l : List β) (o : Nat), (∀ b, o ≤ b → b < o + l.length → p b = decide (k ≤ b)) →
      ((l.zipIdx o).filter fun e => p e.2).map (·.1) = l.drop (k - o) by
    have := H l 0 (fun b _ hb => h b (by omega))
    simpa [sel] using this
  intro l
  induction l with
  | nil => intro o _; simp
  | cons a l ih =>
    intro o ho
    have h0 := ho o (by omega) (by simp)
    have ih' := ih (o + 1) (fun b h1 h2 => ho b (by omega) (by simp only [List.length_cons]; omega))
    rw [List.zipIdx_cons, List.filter_cons]
    by_cases c : k ≤ o
    · have e : k - o = 0 := by omega
      have e' : k - (o + 1) = 0 := by omega
      simp only [h0, c, decide_true, if_true, List.map_cons, ih', e, e', List.drop_zero]
    · have e : k - o = (k - (o + 1)) + 1 := by omega
      simp only [h0, c, decide_false, Bool.false_eq_true, if_false, ih', e, List.drop_succ_cons]

/-! ## Invariant -/

def val (s : St β) (g : Nat → Nat × Nat) (i : Nat) : E β := ⟨(s.r i).w, (g i).1, (g i).2⟩

structure Inv (c : Cfg) (G : List (E β)) (tr : List (In β × Out β)) (s : St β) (D : List (E β))
    (g : Nat → Nat × Nat) : Prop where
  gap : NoGap c s
  cons : D ++ Q s (val s g) (c.LA + 1) = G.take (accepted tr).length
  s0 : sent0 tr = D.flatMap (emit0 c)
  s1 : sent1 tr = D.flatMap (emit1 c)
  r : ∀ i, 1 ≤ i → i ≤ c.LA → (s.r (i + 1)).valid = true → (s.r (i + 1)).w.last = false →
    (g (i + 1)).2 = c.n + (g i).2
  foot : ∀ i, 1 ≤ i → i ≤ c.LA + 1 → (s.r i).valid = true → ∀ b < c.n, (s.r i).foot b =
    (canFlush s i && decide ((g i).2 ≤ c.F + b) && decide (b < (s.r i).w.bytes.length))
  short : ∀ j, 1 ≤ j → j ≤ c.LA + 1 → (s.r j).valid = true → (s.r j).w.last = true →
    ∀ e, G[(accepted tr).length]? = some e → e.p ≤ c.n * (Q s (val s g) (j - 1)).length
  sof : ∀ e, G[D.length]? = some e → s.sofSeen = (decide (0 < e.p) && decide (c.F < e.p + e.r))

theorem Q_mem (s : St β) (v : Nat → γ) (i j : Nat) (h1 : 1 ≤ j) (h2 : j ≤ i) (hv : (s.r j).valid = true) :
    v j ∈ Q s v i := by
  induction i with
  | zero => omega
  | succ i ih =>
    simp only [Q, List.mem_append]
    by_cases e : j = i + 1
    · subst e; left; simp [hv, given]
    · exact .inr (ih (by omega))

theorem Q_last (s : St β) (v : Nat → γ) (i : Nat) (h1 : 1 ≤ i) (hv : (s.r 1).valid = true) :
    (Q s v i).getLast? = some (v 1) := by
  induction i with
  | zero => omega
  | succ i ih =>
    simp only [Q]
    by_cases e : i = 0
    · subst e; simp [hv, given, Q]
    · rw [List.getLast?_append, ih (by omega)]; simp

theorem Q_congr (s : St β) (v v' : Nat → γ) (i : Nat) (h : ∀ j, 1 ≤ j → v j = v' j) : Q s v i = Q s v' i := by
  induction i with
  | zero => rfl
  | succ i ih => simp only [Q, ih, h (i + 1) (by omega)]

theorem Q_len (s : St β) (v : Nat → γ) (i : Nat) : (Q s v i).length ≤ i := by
  induction i with
  | zero => simp [Q]
  | succ i ih =>
    simp only [Q, List.length_append]
    have : (given (s.r (i + 1)).valid (v (i + 1))).length ≤ 1 := by
      cases (s.r (i + 1)).valid <;> simp [given]
    omega

section

variable {c : Cfg} {G : List (E β)} {tr : List (In β × Out β)} {s : St β} {D : List (E β)}
  {g : Nat → Nat × Nat}

theorem Inv.mem_good (h : Inv c G tr s D g) (hG : Stream c G) (i : Nat) (h1 : 1 ≤ i)
    (h2 : i ≤ c.LA + 1) (hv : (s.r i).valid = true) : Good c (val s g i) := by
  apply hG.good
  apply List.mem_of_mem_take (i := (accepted tr).length)
  rw [← h.cons]
  exact List.mem_append_right _ (Q_mem s _ _ i h1 h2 hv)

theorem Inv.next_link (h : Inv c G tr s D g) (hG : Stream c G) (e : E β)
    (he : G[(accepted tr).length]? = some e) (hv : (s.r 1).valid = true) : Link c (val s g 1) e := by
  have hl := Q_last s (val s g) (c.LA + 1) (by omega) hv
  have h1 : (D ++ Q s (val s g) (c.LA + 1)).getLast? = some (val s g 1) := by
    rw [List.getLast?_append, hl]; rfl
  obtain ⟨hlt, _⟩ := List.getElem?_eq_some_iff.1 he
  rw [h.cons, List.getLast?_eq_getElem?, List.length_take, Nat.min_eq_left (by omega)] at h1
  by_cases h0 : (accepted tr).length = 0
  · rw [h0] at h1; simp at h1
  · obtain ⟨k, hk⟩ : ∃ k, (accepted tr).length = k + 1 := ⟨(accepted tr).length - 1, by omega⟩
    rw [hk] at h1 he
    rw [List.getElem?_take] at h1
    simp only [Nat.add_sub_cancel, Nat.lt_succ_self, if_true] at h1
    exact hG.link k _ _ h1 he

theorem Inv.open_r (h : Inv c G tr s D g) (hG : Stream c G) (e : E β)
    (he : G[(accepted tr).length]? = some e) (j : Nat) (h1 : 1 ≤ j) (h2 : j ≤ c.LA + 1)
    (hv : (s.r j).valid = true) (hc : canFlush s j = false) : (g j).2 = j * c.n + e.r := by
  induction j with
  | zero => omega
  | succ j ih =>
    have hc' := hc
    rw [canFlush_succ, hv] at hc'
    simp only [Bool.true_and, Bool.or_eq_false_iff] at hc'
    by_cases e0 : j = 0
    · subst e0
      have := (h.next_link hG e he hv).r hc'.1
      simpa [val] using this
    · rw [h.r j (by omega) (by omega) hv hc'.1,
        ih (by omega) (by omega) (h.gap j (by omega) (by omega) hv hc'.1) hc'.2, Nat.add_mul]
      omega

/-- The word in the output register is the next one of the stream. -/
theorem Inv.head (h : Inv c G tr s D g) (hv : (s.r (c.LA + 1)).valid = true) :
    G[D.length]? = some (val s g (c.LA + 1)) := by
  have hc := h.cons
  simp only [Q, hv, given] at hc
  have : (G.take (accepted tr).length)[D.length]? = some (val s g (c.LA + 1)) := by
    rw [← hc]; simp
  rw [List.getElem?_take] at this
  split at this
  · exact this
  · simp at this

theorem mv_zero_of_ready (x : In β) (i : Nat) (hi : i ≤ c.LA + 2) (h1 : 1 ≤ i) (hr : ready c s x i = true)
    (hx : x.vld = true) : mv c s x 0 = true := by
  have : ∀ k, k < i → ready c s x (i - k) = true := by
    intro k
    induction k with
    | zero => intro _; exact hr
    | succ k ih =>
      intro hk
      rw [ready_succ c s x (i - (k + 1)) (by omega) (by omega)]
      have : i - (k + 1) + 1 = i - k := by omega
      rw [this, ih (by omega)]; simp
  rw [mv_eq]
  refine ⟨by simp [reg, hx], ?_, .inl hx⟩
  have := this (i - 1) (by omega)
  have e : i - (i - 1) = 0 + 1 := by omega
  rwa [e] at this

variable (c G tr s) in
/-- The next accepted word is the next one of the stream. -/
def Feeds (x : In β) : Prop :=
  mv c s x 0 = true → ∃ e, G[(accepted tr).length]? = some e ∧ e.w = x.w

theorem Inv.foot_out (h : Inv c G tr s D g) (hok : Ok c) (hG : Stream c G) (x : In β)
    (hx : Feeds c G tr s x) (hm : mv c s x (c.LA + 1) = true) (b : Nat) (hb : b < c.n) :
    (s.r (c.LA + 1)).foot b =
      (decide ((g (c.LA + 1)).2 ≤ c.F + b) && decide (b < (s.r (c.LA + 1)).w.bytes.length)) := by
  have hm' := hm
  rw [mv_eq, reg_succ] at hm'
  obtain ⟨hv, hr, hf⟩ := hm'
  rw [h.foot (c.LA + 1) (by omega) (by omega) hv b hb]
  rcases Bool.eq_false_or_eq_true (canFlush s (c.LA + 1)) with hc | hc
  · rw [hc]; simp
  · rw [hc] at hf ⊢
    simp only [Bool.false_eq_true, or_false] at hf
    obtain ⟨e, he, _⟩ := hx (mv_zero_of_ready x (c.LA + 2) (by omega) (by omega) hr hf)
    have := h.open_r hG e he (c.LA + 1) (by omega) (by omega) hv hc
    obtain ⟨hF, _, _⟩ := LA_bounds c hok
    rw [Nat.add_mul] at this
    have : ¬ (g (c.LA + 1)).2 ≤ c.F + b := by omega
    simp [this]

theorem Inv.d1_out (h : Inv c G tr s D g) (hok : Ok c) (hG : Stream c G) (x : In β)
    (hx : Feeds c G tr s x) (hm : mv c s x (c.LA + 1) = true) :
    d1En c s = decide ((g (c.LA + 1)).2 < c.F + (s.r (c.LA + 1)).w.bytes.length) := by
  have hv : (s.r (c.LA + 1)).valid = true := by rw [mv_eq, reg_succ] at hm; exact hm.1
  have gd := h.mem_good hG (c.LA + 1) (by omega) (by omega) hv
  have h1 := gd.pos
  have h2 := gd.le
  simp only [val] at h1 h2
  rw [Bool.eq_iff_iff]
  simp only [d1En, anyFoot, outReg, List.any_eq_true, List.mem_range, decide_eq_true_eq]
  constructor
  · rintro ⟨b, hb, hf⟩
    rw [h.foot_out hok hG x hx hm b hb] at hf
    simp only [Bool.and_eq_true, decide_eq_true_eq] at hf
    omega
  · intro hl
    refine ⟨(s.r (c.LA + 1)).w.bytes.length - 1, by omega, ?_⟩
    rw [h.foot_out hok hG x hx hm _ (by omega)]
    simp only [Bool.and_eq_true, decide_eq_true_eq]
    omega

theorem Inv.foot0_out (h : Inv c G tr s D g) (hok : Ok c) (hG : Stream c G) (x : In β)
    (hx : Feeds c G tr s x) (hm : mv c s x (c.LA + 1) = true) :
    (s.r (c.LA + 1)).foot 0 = decide ((g (c.LA + 1)).2 ≤ c.F) := by
  have hv : (s.r (c.LA + 1)).valid = true := by rw [mv_eq, reg_succ] at hm; exact hm.1
  have h1 := (h.mem_good hG (c.LA + 1) (by omega) (by omega) hv).pos
  simp only [val] at h1
  rw [h.foot_out hok hG x hx hm 0 hok.1]
  have : 0 < (s.r (c.LA + 1)).w.bytes.length := by omega
  simp [this]

theorem Inv.zero_out (h : Inv c G tr s D g) (hok : Ok c) (hG : Stream c G) (x : In β)
    (hx : Feeds c G tr s x) (hm : mv c s x (c.LA + 1) = true) :
    zeroLen c s = (decide ((g (c.LA + 1)).2 ≤ c.F) && (s.r (c.LA + 1)).w.last &&
      decide ((g (c.LA + 1)).1 + (g (c.LA + 1)).2 = c.F)) := by
  have hv : (s.r (c.LA + 1)).valid = true := by rw [mv_eq, reg_succ] at hm; exact hm.1
  have gd := h.mem_good hG (c.LA + 1) (by omega) (by omega) hv
  have h1 := gd.pos
  have h2 := gd.long
  have h3 : s.sofSeen = (decide (0 < (g (c.LA + 1)).1) &&
      decide (c.F < (g (c.LA + 1)).1 + (g (c.LA + 1)).2)) := h.sof _ (h.head hv)
  simp only [val] at h1 h2
  simp only [zeroLen, h.d1_out hok hG x hx hm, outReg, h.foot0_out hok hG x hx hm, hv, h3]
  rcases Bool.eq_false_or_eq_true (s.r (c.LA + 1)).w.last with hl | hl
  · rw [Bool.eq_iff_iff]
    by_cases hp : 0 < (g (c.LA + 1)).1
    · simp only [hl, hp, decide_true, Bool.true_and, Bool.and_eq_true, Bool.not_eq_true',
        decide_eq_false_iff_not, decide_eq_true_eq, Bool.and_true]
      omega
    · simp only [hl, hp, decide_false, Bool.false_and, Bool.not_false, Bool.and_eq_true,
        decide_eq_true_eq, Bool.and_true]
      omega
  · simp [hl]

theorem emit0_mk (w : Word β) (p r : Nat) : emit0 c ⟨w, p, r⟩ =
    if c.F < r then [(w.bytes.take (r - c.F), decide (r ≤ c.F + w.bytes.length))]
    else if w.last && decide (p + r = c.F) then [([], true)] else [] := rfl

theorem Inv.d0_out (h : Inv c G tr s D g) (hok : Ok c) (hG : Stream c G) (x : In β)
    (hx : Feeds c G tr s x) (hm : mv c s x (c.LA + 1) = true) :
    given (d0En c s) (bytes0 c s, last0 c s x) = emit0 c (val s g (c.LA + 1)) := by
  have hm' := hm
  rw [mv_eq, reg_succ] at hm'
  obtain ⟨hv, hr, hf⟩ := hm'
  have gd := h.mem_good hG (c.LA + 1) (by omega) (by omega) hv
  have hz := h.zero_out hok hG x hx hm
  have h0 := h.foot0_out hok hG x hx hm
  have hd1 := h.d1_out hok hG x hx hm
  obtain ⟨hF, _, hLA⟩ := LA_bounds c hok
  unfold val
  rw [emit0_mk]
  simp only [d0En, outReg, h0]
  by_cases hR : c.F < (g (c.LA + 1)).2
  · have hR' : ¬ (g (c.LA + 1)).2 ≤ c.F := by omega
    have hz' : zeroLen c s = false := by rw [hz]; simp [hR']
    simp only [hR, if_true, hR', decide_false, Bool.not_false, Bool.true_or, given]
    congr 2
    · unfold bytes0
      apply sel_take
      intro b hb
      have := gd.le
      simp only [val] at this
      simp only [outReg] at hb ⊢
      rw [h.foot_out hok hG x hx hm b (by omega), hz']
      rw [Bool.eq_iff_iff]
      simp [hb]
      omega
    · unfold last0
      rw [hd1, reg_pos _ _ _ _ hLA]
      rcases Bool.eq_false_or_eq_true (s.r (c.LA + 1)).w.last with hl | hl
      · have hlen := gd.last hl
        have hp := gd.pos
        simp only [val] at hlen hp
        have hF1 := hok.2
        have a : (g (c.LA + 1)).2 < c.F + (s.r (c.LA + 1)).w.bytes.length := by omega
        have b : (g (c.LA + 1)).2 ≤ c.F + (s.r (c.LA + 1)).w.bytes.length := by omega
        simp [a, b]
      · have hlen := gd.full hl
        simp only [val] at hlen
        have hvl := h.gap c.LA hLA (Nat.le_refl _) hv hl
        have hrl := h.r c.LA hLA (Nat.le_refl _) hv hl
        have hpl := (h.mem_good hG c.LA hLA (by omega) hvl).pos
        simp only [val] at hpl
        rw [hvl, h.foot c.LA hLA (by omega) hvl 0 hok.1]
        have hcf : canFlush s (c.LA + 1) = canFlush s c.LA := by rw [canFlush_succ, hl]; simp
        rcases Bool.eq_false_or_eq_true (canFlush s c.LA) with hc | hc
        · rw [hc, Bool.eq_iff_iff]
          simp only [Bool.true_and, Bool.or_eq_true, Bool.and_eq_true, decide_eq_true_eq]
          omega
        · rw [hcf, hc] at hf
          simp only [Bool.false_eq_true, or_false] at hf
          obtain ⟨e, he, _⟩ := hx (mv_zero_of_ready x (c.LA + 2) (by omega) (by omega) hr hf)
          have := h.open_r hG e he (c.LA + 1) (by omega) (by omega) hv (by rw [hcf, hc])
          rw [Nat.add_mul] at this
          have hep : 1 ≤ e.r := by
            have gde := hG.good e (List.mem_of_getElem? he)
            have := gde.pos
            rcases Bool.eq_false_or_eq_true e.w.last with q | q
            · have := gde.last q; omega
            · have := gde.more q; omega
          have a : ¬ (g (c.LA + 1)).2 < c.F + (s.r (c.LA + 1)).w.bytes.length := by omega
          have b : ¬ (g (c.LA + 1)).2 ≤ c.F + (s.r (c.LA + 1)).w.bytes.length := by omega
          simp [hc, a, b]
  · have hR' : (g (c.LA + 1)).2 ≤ c.F := by omega
    simp only [hR, if_false, hR', decide_true, Bool.not_true, Bool.false_or]
    rw [hz]
    simp only [hR', decide_true, Bool.true_and]
    by_cases hcnd : ((s.r (c.LA + 1)).w.last &&
        decide ((g (c.LA + 1)).1 + (g (c.LA + 1)).2 = c.F)) = true
    · rw [hcnd]
      have hp := gd.pos
      simp only [val] at hp
      have a : (g (c.LA + 1)).2 < c.F + (s.r (c.LA + 1)).w.bytes.length := by omega
      have hb : bytes0 c s = [] := by
        unfold bytes0
        rw [sel_take _ 0]
        · simp
        · intro b _
          rw [hz]
          simp only [hR', decide_true, Bool.true_and, hcnd]
          simp
      simp [given, hb, last0, hd1, a]
    · simp only [Bool.not_eq_true] at hcnd
      rw [hcnd]
      simp [given]

theorem Inv.d1_emit (h : Inv c G tr s D g) (hok : Ok c) (hG : Stream c G) (x : In β)
    (hx : Feeds c G tr s x) (hm : mv c s x (c.LA + 1) = true) :
    given (d1En c s) (bytes1 c s, (s.r (c.LA + 1)).w.last) = emit1 c (val s g (c.LA + 1)) := by
  have hv : (s.r (c.LA + 1)).valid = true := by rw [mv_eq, reg_succ] at hm; exact hm.1
  have gd := h.mem_good hG (c.LA + 1) (by omega) (by omega) hv
  simp only [emit1, h.d1_out hok hG x hx hm, val]
  by_cases hR : (g (c.LA + 1)).2 < c.F + (s.r (c.LA + 1)).w.bytes.length
  · simp only [hR, decide_true, given, if_true]
    congr 2
    apply sel_drop
    intro b hb
    have := gd.le
    simp only [val] at this
    simp only [outReg] at hb ⊢
    rw [h.foot_out hok hG x hx hm b (by omega), Bool.eq_iff_iff]
    simp [hb]
    omega
  · simp [hR, given]

/-! ## The step -/

theorem sent0_event (x : In β) : (if x.rd0 then (out c s x).out0.toList else []) =
    if mv c s x (c.LA + 1) then given (d0En c s) (bytes0 c s, last0 c s x) else [] := by
  have e : (valid0 c s x && x.rd0) = (mv c s x (c.LA + 1) && d0En c s) := by
    simp only [valid0, mv, reg_succ, ready, outReg, en, Nat.sub_self, readyD]
    cases (s.r (c.LA + 1)).valid <;> cases d0En c s <;> cases x.rd0 <;> cases d1En c s <;>
      cases x.rd1 <;> cases x.vld <;> cases canFlush s (c.LA + 1) <;> rfl
  simp only [out]
  cases h1 : valid0 c s x <;> cases h2 : x.rd0 <;> cases h3 : mv c s x (c.LA + 1) <;>
    cases h4 : d0En c s <;> simp_all [given]

theorem sent1_event (x : In β) : (if x.rd1 then (out c s x).out1.toList else []) =
    if mv c s x (c.LA + 1) then given (d1En c s) (bytes1 c s, (s.r (c.LA + 1)).w.last) else [] := by
  have e : (valid1 c s x && x.rd1) = (mv c s x (c.LA + 1) && d1En c s) := by
    simp only [valid1, mv, reg_succ, ready, outReg, en, Nat.sub_self, readyD]
    cases (s.r (c.LA + 1)).valid <;> cases d0En c s <;> cases x.rd0 <;> cases d1En c s <;>
      cases x.rd1 <;> cases x.vld <;> cases canFlush s (c.LA + 1) <;> rfl
  simp only [out, outReg]
  cases h1 : valid1 c s x <;> cases h2 : x.rd1 <;> cases h3 : mv c s x (c.LA + 1) <;>
    cases h4 : d1En c s <;> simp_all [given]

theorem sof_next (x : In β) : (next c s x).sofSeen =
    if mv c s x (c.LA + 1) && d1En c s && (s.r (c.LA + 1)).w.last then false
    else if mv c s x (c.LA + 1) && d0En c s then true else s.sofSeen := by
  have e0 : (valid0 c s x && x.rd0) = (mv c s x (c.LA + 1) && d0En c s) := by
    simp only [valid0, mv, reg_succ, ready, outReg, en, Nat.sub_self, readyD]
    cases (s.r (c.LA + 1)).valid <;> cases d0En c s <;> cases x.rd0 <;> cases d1En c s <;>
      cases x.rd1 <;> cases x.vld <;> cases canFlush s (c.LA + 1) <;> rfl
  have e1 : (valid1 c s x && x.rd1) = (mv c s x (c.LA + 1) && d1En c s) := by
    simp only [valid1, mv, reg_succ, ready, outReg, en, Nat.sub_self, readyD]
    cases (s.r (c.LA + 1)).valid <;> cases d0En c s <;> cases x.rd0 <;> cases d1En c s <;>
      cases x.rd1 <;> cases x.vld <;> cases canFlush s (c.LA + 1) <;> rfl
  simp only [next, e0, e1, outReg]

theorem accept_eq (x : In β) : (x.vld && (out c s x).rd) = mv c s x 0 := by
  simp only [out, mv, reg, if_true, canFlush, Bool.or_false]
  cases x.vld <;> cases ready c s x 1 <;> rfl

theorem inv_step (h : Inv c G tr s D g) (hok : Ok c) (hG : Stream c G) (x : In β)
    (hx : Feeds c G tr s x) :
    ∃ D' g', Inv c G (tr ++ [(x, out c s x)]) (next c s x) D' g' := by
  obtain ⟨hF, hF1, hLA⟩ := LA_bounds c hok
  let g0 : Nat × Nat := match G[(accepted tr).length]? with
    | some e => (e.p, e.r)
    | none => (0, 0)
  have hg0 : ∀ e, G[(accepted tr).length]? = some e → g0 = (e.p, e.r) := by
    intro e he; simp only [g0, he]
  clear_value g0
  let gx : Nat → Nat × Nat := fun i => if i = 0 then g0 else g i
  have hgx0 : gx 0 = g0 := rfl
  have hgx : ∀ i, 1 ≤ i → gx i = g i := by
    intro i hi
    have : i ≠ 0 := by omega
    simp only [gx, this, if_false]
  clear_value gx
  let vx : Nat → E β := fun i => ⟨(reg c s x i).w, (gx i).1, (gx i).2⟩
  have hvx : ∀ i, 1 ≤ i → vx i = val s g i := by
    intro i hi
    simp only [vx, val, hgx i hi, reg_pos c s x i hi]
  have hvx0 : vx 0 = ⟨x.w, g0.1, g0.2⟩ := by simp [vx, reg, hgx0]
  let g' : Nat → Nat × Nat := fun i => if mv c s x (i - 1) then gx (i - 1) else g i
  have hg'm : ∀ i, mv c s x i = true → g' (i + 1) = gx i := by
    intro i hi; simp [g', hi]
  have hg'h : ∀ i, mv c s x i = false → g' (i + 1) = g (i + 1) := by
    intro i hi; simp [g', hi]
  clear_value g'
  have hQ := Q_step c s x h.gap vx (val (next c s x) g')
    (by intro i hi hm
        have := (next_r c s x i hi).trans (next_mv c s x i hm)
        simp only [val, this, hg'm i hm, vx])
    (by intro i hi h0 h1 hv
        have := (next_r c s x i hi).trans (next_hold c s x i hi h0 h1 hv)
        rw [hvx (i + 1) (by omega)]
        simp only [val, this, hg'h i h0])
  clear_value vx
  have hQc : ∀ i, Q s vx i = Q s (val s g) i := fun i => Q_congr s _ _ i hvx
  simp only [hQc] at hQ
  have hA : accepted (tr ++ [(x, out c s x)]) = accepted tr ++ given (mv c s x 0) x.w := by
    simp [accepted, accept_eq]
  have hS0 : sent0 (tr ++ [(x, out c s x)]) = sent0 tr ++
      if mv c s x (c.LA + 1) then given (d0En c s) (bytes0 c s, last0 c s x) else [] := by
    rw [← sent0_event]; simp [sent0]
  have hS1 : sent1 (tr ++ [(x, out c s x)]) = sent1 tr ++
      if mv c s x (c.LA + 1) then given (d1En c s) (bytes1 c s, (s.r (c.LA + 1)).w.last) else [] := by
    rw [← sent1_event]; simp [sent1]
  have hlenA : (accepted (tr ++ [(x, out c s x)])).length =
      (accepted tr).length + if mv c s x 0 then 1 else 0 := by
    rw [hA, List.length_append]; cases mv c s x 0 <;> simp [given]
  have hqlen : ∀ i, i ≤ c.LA + 1 → (if mv c s x i then 1 else 0) +
      (Q (next c s x) (val (next c s x) g') i).length =
      (Q s (val s g) i).length + if mv c s x 0 then 1 else 0 := by
    intro i hi
    have := congrArg List.length (hQ i hi)
    rw [List.length_append, List.length_append] at this
    have e1 : (given (mv c s x i) (vx i)).length = if mv c s x i then 1 else 0 := by
      cases mv c s x i <;> rfl
    have e2 : (given (mv c s x 0) (vx 0)).length = if mv c s x 0 then 1 else 0 := by
      cases mv c s x 0 <;> rfl
    rw [e1, e2] at this
    exact this
  -- the accepted word
  have hacc : mv c s x 0 = true → ∃ e, G[(accepted tr).length]? = some e ∧ e.w = x.w ∧ g0 = (e.p, e.r) := by
    intro h0
    obtain ⟨e, he, hw⟩ := hx h0
    exact ⟨e, he, hw, hg0 e he⟩
  refine ⟨D ++ given (mv c s x (c.LA + 1)) (val s g (c.LA + 1)), g', noGap_next c s x h.gap, ?_, ?_, ?_,
    ?_, ?_, ?_, ?_⟩
  · -- cons
    have := hQ (c.LA + 1) (Nat.le_refl _)
    rw [hvx (c.LA + 1) (by omega)] at this
    rw [List.append_assoc, this, ← List.append_assoc, h.cons, hlenA]
    rcases Bool.eq_false_or_eq_true (mv c s x 0) with h0 | h0
    · obtain ⟨e, he, hw, hg⟩ := hacc h0
      rw [h0]
      simp only [given, if_true]
      rw [List.take_add_one, he, hvx0]
      simp only [Option.toList_some, hg, ← hw]
    · rw [h0]; simp [given]
  · -- s0
    rw [hS0, List.flatMap_append, h.s0]
    congr 1
    rcases Bool.eq_false_or_eq_true (mv c s x (c.LA + 1)) with hm | hm
    · rw [hm, if_pos rfl, h.d0_out hok hG x hx hm]; simp [given]
    · rw [hm]; simp [given]
  · -- s1
    rw [hS1, List.flatMap_append, h.s1]
    congr 1
    rcases Bool.eq_false_or_eq_true (mv c s x (c.LA + 1)) with hm | hm
    · rw [hm, if_pos rfl, h.d1_emit hok hG x hx hm]; simp [given]
    · rw [hm]; simp [given]
  · -- r
    intro i h1 h2 hv hl
    obtain ⟨k, rfl⟩ : ∃ k, i = k + 1 := ⟨i - 1, by omega⟩
    rcases next_cases c s x h.gap (k + 1) h2 hv with ⟨hm, he⟩ | ⟨hm, hm2, hv2, he⟩
    · rw [he] at hl
      simp only [reg_succ] at hl
      have hmk := mv_down c s x h.gap k (by omega) hm hl
      have hvk : (s.r (k + 1)).valid = true := by rw [mv_eq, reg_succ] at hm; exact hm.1
      rw [hg'm _ hm, hg'm _ hmk, hgx (k + 1) (by omega)]
      by_cases e0 : k = 0
      · subst e0
        obtain ⟨e, he, hw, hg⟩ := hacc hmk
        rw [hgx0, hg]
        exact (h.next_link hG e he hvk).r hl
      · rw [hgx k (by omega)]
        exact h.r k (by omega) (by omega) hvk hl
    · rw [he] at hl
      have hv3 := h.gap (k + 1) (by omega) h2 hv2 hl
      have hm0 : mv c s x k = false := by
        rw [← Bool.not_eq_true]
        intro q
        rw [mv_up c s x k (by omega) q hv3] at hm
        simp at hm
      rw [hg'h _ hm, hg'h _ hm0]
      exact h.r (k + 1) (by omega) h2 hv2 hl
  · -- foot
    intro i h1 h2 hv b hb
    obtain ⟨k, rfl⟩ : ∃ k, i = k + 1 := ⟨i - 1, by omega⟩
    rcases next_cases c s x h.gap k (by omega) hv with ⟨hm, he⟩ | ⟨hm, hm2, hv2, he⟩
    · rw [flush_moved c s x h.gap k (by omega) hm, he, hg'm _ hm]
      simp only
      by_cases e0 : k = 0
      · subst e0
        obtain ⟨e, hge, hw, hg⟩ := hacc hm
        have gde := hG.good e (List.mem_of_getElem? hge)
        have hp := gde.pos
        have hle := gde.le
        rw [hw] at hp hle
        have : (setFoot x && !x.w.last) = false := by
          unfold setFoot; cases x.vld <;> cases x.w.last <;> rfl
        rw [hgx0, hg]
        simp only [reg, if_true, this, Bool.false_eq_true, if_false, setVal_zero c hok x hp hle,
          canFlush, hm, Bool.true_and, Bool.false_or]
        rcases Bool.eq_false_or_eq_true (setFoot x) with hs | hs
        · have : x.w.last = true := by
            unfold setFoot at hs; simp at hs; exact hs.2
          have hr := gde.last (by rw [hw]; exact this)
          rw [hr, hw]
        · simp [hs]
      · have hvk : (s.r k).valid = true := by
          rw [mv_eq, reg_pos _ _ _ _ (by omega)] at hm; exact hm.1
        rw [hgx k (by omega), reg_pos c s x k (by omega)]
        rcases Bool.eq_false_or_eq_true (setFoot x && !(s.r k).w.last) with hs | hs
        · rw [hs, if_pos rfl]
          simp only [setFoot, Bool.and_eq_true, Bool.not_eq_true'] at hs
          obtain ⟨⟨hxv, hxl⟩, hl⟩ := hs
          have h0 : mv c s x 0 = true := by
            have := (mv_eq c s x k).1 hm
            exact mv_zero_of_ready x (k + 1) (by omega) (by omega) this.2.1 hxv
          obtain ⟨e, hge, hw, hg⟩ := hacc h0
          have gde := hG.good e (List.mem_of_getElem? hge)
          have hp := gde.pos
          have hle := gde.le
          have hr := gde.last (by rw [hw]; exact hxl)
          have hlong := gde.long
          rw [hw] at hp hle hr
          have hc : canFlush s k = false := by
            rw [← Bool.not_eq_true]
            intro q
            obtain ⟨j, j1, j2, jv, jl⟩ := canFlush_ex _ _ q
            have hjk : j ≠ k := by rintro rfl; rw [jl] at hl; simp at hl
            have hsh := h.short j j1 (by omega) jv jl e hge
            have hql := Q_len s (val s g) (j - 1)
            have b1 : c.n * (Q s (val s g) (j - 1)).length ≤ c.n * (c.LA - 2) :=
              Nat.mul_le_mul_left _ (by omega)
            have b2 : (c.LA - 1) * c.n = c.n * (c.LA - 2) + c.n := by
              have : c.LA - 1 = (c.LA - 2) + 1 := by omega
              rw [this, Nat.add_mul, Nat.mul_comm]; omega
            omega
          have hR := h.open_r hG e hge k (by omega) (by omega) hvk hc
          have hlk := (h.mem_good hG k (by omega) (by omega) hvk).full hl
          simp only [val] at hlk
          have b3 : c.n ≤ k * c.n := Nat.le_mul_of_pos_left _ (by omega)
          have hsf : setFoot x = true := by simp [setFoot, hxv, hxl]
          rw [setVal_eq c hok x hp hle k (by omega) b, hR, hr, hlk, h0, hsf]
          rw [Bool.eq_iff_iff]
          simp only [Bool.and_self, Bool.or_true, Bool.true_and, Bool.and_eq_true, decide_eq_true_eq]
          omega
        · rw [hs]
          simp only [Bool.false_eq_true, if_false]
          rw [h.foot k (by omega) (by omega) hvk b hb]
          rcases Bool.eq_false_or_eq_true (canFlush s k) with hc | hc
          · rw [hc]; simp
          · have hl : (s.r k).w.last = false := by
              rw [← Bool.not_eq_true]; intro q
              rw [canFlush_at s k k (by omega) (Nat.le_refl _) hvk q] at hc; simp at hc
            have : setFoot x = false := by
              rw [hl] at hs; simpa using hs
            rw [hc, this]; simp
    · rw [flush_held c s x h.gap k (by omega) hm hm2 hv2, he, hg'h _ hm]
      exact h.foot (k + 1) (by omega) h2 hv2 b hb
  · -- short
    intro j h1 h2 hv hl e' he'
    rw [hlenA] at he'
    obtain ⟨k, rfl⟩ : ∃ k, j = k + 1 := ⟨j - 1, by omega⟩
    simp only [Nat.add_sub_cancel]
    rcases next_cases c s x h.gap k (by omega) hv with ⟨hm, he⟩ | ⟨hm, hm2, hv2, he⟩
    · rw [he] at hl
      simp only at hl
      by_cases e0 : k = 0
      · subst e0
        obtain ⟨e, hge, hw, hg⟩ := hacc hm
        rw [hm, if_pos rfl] at he'
        have := (hG.link _ _ _ hge he').first (by rw [hw]; simpa [reg] using hl)
        omega
      · rw [reg_pos c s x k (by omega)] at hl
        have hvk : (s.r k).valid = true := by
          rw [mv_eq, reg_pos _ _ _ _ (by omega)] at hm; exact hm.1
        have hq := hqlen k (by omega)
        rw [hm, if_pos rfl] at hq
        have hqk : (Q s (val s g) k).length = 1 + (Q s (val s g) (k - 1)).length := by
          obtain ⟨m, rfl⟩ : ∃ m, k = m + 1 := ⟨k - 1, by omega⟩
          simp [Q, hvk, given]; omega
        rcases Bool.eq_false_or_eq_true (mv c s x 0) with h0 | h0
        · obtain ⟨e, hge, hw, hg⟩ := hacc h0
          rw [h0, if_pos rfl] at he' hq
          have hsh := h.short k (by omega) (by omega) hvk hl e hge
          have hlk := hG.link _ _ _ hge he'
          have : (Q (next c s x) (val (next c s x) g') k).length =
              (Q s (val s g) (k - 1)).length + 1 := by omega
          rw [this, Nat.mul_add]
          rcases Bool.eq_false_or_eq_true e.w.last with q | q
          · have := hlk.first q; omega
          · have := hlk.p q; omega
        · rw [h0] at he' hq
          simp only [Bool.false_eq_true, if_false, Nat.add_zero] at he' hq
          have hsh := h.short k (by omega) (by omega) hvk hl e' he'
          have : (Q (next c s x) (val (next c s x) g') k).length =
              (Q s (val s g) (k - 1)).length := by omega
          rw [this]; exact hsh
    · rw [he] at hl
      have hq := hqlen k (by omega)
      rw [hm] at hq
      simp only [Bool.false_eq_true, if_false, Nat.zero_add] at hq
      rw [hq]
      rcases Bool.eq_false_or_eq_true (mv c s x 0) with h0 | h0
      · obtain ⟨e, hge, hw, hg⟩ := hacc h0
        rw [h0, if_pos rfl] at he' ⊢
        have hsh := h.short (k + 1) (by omega) h2 hv2 hl e hge
        simp only [Nat.add_sub_cancel] at hsh
        have hlk := hG.link _ _ _ hge he'
        rw [Nat.mul_add]
        rcases Bool.eq_false_or_eq_true e.w.last with q | q
        · have := hlk.first q; omega
        · have := hlk.p q; omega
      · rw [h0] at he' ⊢
        simp only [Bool.false_eq_true, if_false, Nat.add_zero] at he' ⊢
        exact h.short (k + 1) (by omega) h2 hv2 hl e' he'
  · -- sof
    intro e' he'
    rw [sof_next]
    rcases Bool.eq_false_or_eq_true (mv c s x (c.LA + 1)) with hm | hm
    · rw [hm] at he' ⊢
      have hv : (s.r (c.LA + 1)).valid = true := by rw [mv_eq, reg_succ] at hm; exact hm.1
      have hlen : (D ++ given true (val s g (c.LA + 1))).length = D.length + 1 := by simp [given]
      rw [hlen] at he'
      have hlk := hG.link _ _ _ (h.head hv) he'
      have gd := h.mem_good hG (c.LA + 1) (by omega) (by omega) hv
      rw [h.d1_out hok hG x hx hm]
      rcases Bool.eq_false_or_eq_true (s.r (c.LA + 1)).w.last with hl | hl
      · have h1 := gd.last hl
        have h2 := gd.pos
        have h3 := hlk.first hl
        have hF2 := hok.2
        simp only [val] at h1 h2
        have : (g (c.LA + 1)).2 < c.F + (s.r (c.LA + 1)).w.bytes.length := by omega
        simp [hl, this, h3]
      · have h1 := hlk.r hl
        have h2 := hlk.p hl
        simp only [val] at h1 h2
        have h3 : s.sofSeen = (decide (0 < (g (c.LA + 1)).1) &&
          decide (c.F < (g (c.LA + 1)).1 + (g (c.LA + 1)).2)) := h.sof _ (h.head hv)
        have hz := h.zero_out hok hG x hx hm
        rw [hl] at hz
        simp only [Bool.and_false, Bool.false_and] at hz
        simp only [hl, Bool.and_false, Bool.false_eq_true, if_false, Bool.true_and, d0En, outReg, hz,
          Bool.or_false, h.foot0_out hok hG x hx hm, h3]
        have hn := hok.1
        by_cases hR : (g (c.LA + 1)).2 ≤ c.F
        · simp only [hR, decide_true, Bool.not_true, Bool.false_eq_true, if_false]
          rw [Bool.eq_iff_iff]
          simp only [Bool.and_eq_true, decide_eq_true_eq]
          omega
        · simp only [hR, decide_false, Bool.not_false, if_true]
          rw [Bool.eq_iff_iff]
          simp only [Bool.and_eq_true, decide_eq_true_eq, true_iff]
          omega
    · rw [hm] at he' ⊢
      simp only [given, List.append_nil] at he'
      simp only [Bool.false_and, Bool.false_eq_true, if_false]
      exact h.sof e' he'

end

end Verif.FooterSplit
