import Verif.FooterSplitProps

/-! # C173, C174: `Axi4S_footerSplit`, frames -/

namespace Verif.FooterSplit

open Verif

variable {β : Type}

/-! ## Annotated frames -/

structure Shape (c : Cfg) (g : List (Word β)) (w : Word β) : Prop where
  last : w.last = true
  pos : 1 ≤ w.bytes.length
  le : w.bytes.length ≤ c.n
  full : ∀ x ∈ g, x.last = false ∧ x.bytes.length = c.n

theorem Shape.tail {c : Cfg} {x : Word β} {g w} (h : Shape c (x :: g) w) : Shape c g w :=
  ⟨h.last, h.pos, h.le, fun y hy => h.full y (List.mem_cons_of_mem _ hy)⟩

theorem bytesOf_cons (x : Word β) (f : List (Word β)) :
    (bytesOf (x :: f)).length = x.bytes.length + (bytesOf f).length := by
  simp [bytesOf]

theorem Shape.r_pos {c : Cfg} {g : List (Word β)} {w} (h : Shape c g w) : 1 ≤ (bytesOf (g ++ [w])).length := by
  have := h.pos
  simp [bytesOf]; omega

theorem ann_good {c : Cfg} {g : List (Word β)} {w : Word β} (h : Shape c g w) (hn : 1 ≤ c.n) (p : Nat)
    (hp : c.F ≤ p + (bytesOf (g ++ [w])).length) : ∀ e ∈ ann p (g ++ [w]), Good c e := by
  induction g generalizing p with
  | nil =>
    intro e he
    simp only [List.nil_append, ann, List.mem_singleton] at he
    subst he
    refine ⟨h.pos, h.le, ?_, ?_, ?_, hp⟩
    · intro _; simp [bytesOf]
    · intro q; rw [h.last] at q; simp at q
    · intro q; rw [h.last] at q; simp at q
  | cons x g ih =>
    intro e he
    obtain ⟨hl, hx⟩ := h.full x (by simp)
    have hr := h.tail.r_pos
    rw [List.cons_append] at hp
    simp only [List.cons_append, ann, List.mem_cons] at he
    rcases he with rfl | he
    · refine ⟨by simp only [hx]; exact hn, by simp only [hx]; omega, ?_, fun _ => hx, ?_, hp⟩
      · intro q; simp only [hl] at q; simp at q
      · intro _; simp only [bytesOf_cons, hx]; omega
    · refine ih h.tail (p + x.bytes.length) ?_ e he
      rw [bytesOf_cons] at hp; omega

theorem ann_head (p : Nat) (f : List (Word β)) (rest : List (E β)) (hf : f ≠ []) (e : E β)
    (he : (ann p f ++ rest)[0]? = some e) : e.p = p ∧ e.r = (bytesOf f).length := by
  cases f with
  | nil => exact absurd rfl hf
  | cons x f =>
    simp [ann] at he
    subst he
    exact ⟨rfl, rfl⟩

theorem ann_link {c : Cfg} {g : List (Word β)} {w : Word β} (h : Shape c g w) (p : Nat) (rest : List (E β))
    (hl : ∀ (k : Nat) e f, rest[k]? = some e → rest[k + 1]? = some f → Link c e f)
    (h0 : ∀ e, rest[0]? = some e → e.p = 0) :
    ∀ (k : Nat) e f, (ann p (g ++ [w]) ++ rest)[k]? = some e →
      (ann p (g ++ [w]) ++ rest)[k + 1]? = some f → Link c e f := by
  induction g generalizing p with
  | nil =>
    intro k e f he hf
    simp only [List.nil_append, ann, List.cons_append, List.nil_append, List.getElem?_cons_succ] at he hf
    cases k with
    | zero =>
      simp only [List.getElem?_cons_zero, Option.some.injEq] at he
      subst he
      refine ⟨?_, ?_, fun _ => h0 f hf⟩ <;>
      · intro q; simp only [h.last] at q; simp at q
    | succ k =>
      rw [List.getElem?_cons_succ] at he
      exact hl k e f he hf
  | cons x g ih =>
    intro k e f he hf
    obtain ⟨hxl, hx⟩ := h.full x (by simp)
    simp only [List.cons_append, ann, List.getElem?_cons_succ] at he hf
    cases k with
    | zero =>
      simp only [List.getElem?_cons_zero, Option.some.injEq] at he
      subst he
      obtain ⟨e1, e2⟩ := ann_head _ _ _ (by simp) f hf
      refine ⟨?_, ?_, ?_⟩
      · intro _; simp only [bytesOf_cons, e2, hx]
      · intro _; simp only [e1, hx]
      · intro q; simp only [hxl] at q; simp at q
    | succ k =>
      rw [List.getElem?_cons_succ] at he
      exact ih h.tail _ k e f he hf

theorem ann_map (p : Nat) (f : List (Word β)) : (ann p f).map (·.w) = f := by
  induction f generalizing p with
  | nil => rfl
  | cons x f ih => simp [ann, ih]

theorem frames_map (fs : List (List (Word β))) : (fs.flatMap (ann 0)).map (·.w) = fs.flatten := by
  induction fs with
  | nil => rfl
  | cons f fs ih => simp only [List.flatMap_cons, List.map_append, ann_map, ih, List.flatten_cons]

theorem frames_first (fs : List (List (Word β))) (hf : ∀ f ∈ fs, f ≠ []) (e : E β)
    (he : (fs.flatMap (ann 0))[0]? = some e) : e.p = 0 := by
  cases fs with
  | nil => simp at he
  | cons f fs =>
    rw [List.flatMap_cons] at he
    exact (ann_head 0 f _ (hf f (by simp)) e he).1

theorem Frame.ne {c : Cfg} {f : List (Word β)} (h : Frame c f) : f ≠ [] := by
  obtain ⟨g, w, rfl, _⟩ := h.shape; simp

theorem frames_stream (c : Cfg) (hok : Ok c) (fs : List (List (Word β))) (hf : ∀ f ∈ fs, Frame c f) :
    Stream c (fs.flatMap (ann 0)) := by
  refine ⟨?_, ?_, frames_first fs fun f h => (hf f h).ne, ?_⟩
  · intro e he
    rw [List.mem_flatMap] at he
    obtain ⟨f, hm, he⟩ := he
    have hfr := hf f hm
    obtain ⟨g, w, rfl, h1, h2, h3, h4⟩ := hfr.shape
    exact ann_good ⟨h1, h2, h3, h4⟩ hok.1 0 (by have := hfr.long; omega) e he
  · induction fs with
    | nil => intro k e f he; simp at he
    | cons f fs ih =>
      obtain ⟨g, w, rfl, h1, h2, h3, h4⟩ := (hf f (by simp)).shape
      rw [List.flatMap_cons]
      exact ann_link ⟨h1, h2, h3, h4⟩ 0 _ (ih fun f h => hf f (by simp [h]))
        (frames_first fs fun f h => (hf f (by simp [h])).ne)
  · intro e he
    have h1 : ((fs.flatMap (ann 0)).map (·.w)).getLast? = some e.w := by rw [List.getLast?_map, he]; rfl
    rw [frames_map] at h1
    cases fs using List.reverseRecOn with
    | nil => simp at h1
    | append_singleton fs f =>
      obtain ⟨g, w, rfl, h2, _⟩ := (hf f (by simp)).shape
      simp at h1
      rw [← h1]; exact h2

/-! ## One frame -/

theorem emit1_bytes (c : Cfg) (f : List (Word β)) (p : Nat) :
    ((ann p f).flatMap (emit1 c)).flatMap (·.1) = (bytesOf f).drop ((bytesOf f).length - c.F) := by
  induction f generalizing p with
  | nil => simp [ann, bytesOf]
  | cons x f ih =>
    have e := bytesOf_cons x f
    simp only [ann, List.flatMap_cons, List.flatMap_append, ih]
    have : bytesOf (x :: f) = x.bytes ++ bytesOf f := by simp [bytesOf]
    simp only [emit1]
    rw [this] at e ⊢
    simp only [e]
    rw [List.drop_append]
    split
    next h =>
      simp only [List.flatMap_cons, List.flatMap_nil, List.append_nil]
      congr 2; omega
    next h =>
      have e1 : List.drop (x.bytes.length + (bytesOf f).length - c.F) x.bytes = [] :=
        List.drop_of_length_le (by omega)
      rw [e1]
      simp only [List.flatMap_nil, List.nil_append]
      congr 1; omega

theorem emit0_bytes (c : Cfg) (f : List (Word β)) (p : Nat) :
    ((ann p f).flatMap (emit0 c)).flatMap (·.1) = (bytesOf f).take ((bytesOf f).length - c.F) := by
  induction f generalizing p with
  | nil => simp [ann, bytesOf]
  | cons x f ih =>
    have e := bytesOf_cons x f
    simp only [ann, List.flatMap_cons, List.flatMap_append, ih]
    have : bytesOf (x :: f) = x.bytes ++ bytesOf f := by simp [bytesOf]
    simp only [emit0]
    rw [this] at e ⊢
    simp only [e]
    rw [List.take_append]
    split
    next h =>
      simp only [List.flatMap_cons, List.flatMap_nil, List.append_nil]
      congr 2; omega
    next h =>
      have e1 : x.bytes.length + (bytesOf f).length - c.F = 0 := by omega
      have e2 : (bytesOf f).length - c.F = 0 := by omega
      rw [e1, e2]
      split <;> simp

theorem emit1_one {c : Cfg} {g : List (Word β)} {w : Word β} (h : Shape c g w) (hF : 1 ≤ c.F) (p : Nat) :
    OneFrame ((ann p (g ++ [w])).flatMap (emit1 c)) := by
  induction g generalizing p with
  | nil =>
    refine ⟨[], w.bytes.drop (w.bytes.length - c.F), ?_, by simp⟩
    have : w.bytes.length < c.F + w.bytes.length := by omega
    simp [ann, emit1, bytesOf, h.last]; omega
  | cons x g ih =>
    obtain ⟨g', b, e, hl⟩ := ih h.tail (p + x.bytes.length)
    simp only [List.cons_append, ann, List.flatMap_cons, e]
    refine ⟨_, b, (List.append_assoc _ _ _).symm, ?_⟩
    intro y hy
    rcases List.mem_append.1 hy with hy | hy
    · simp only [emit1] at hy
      split at hy
      · simp only [List.mem_singleton] at hy
        rw [hy]; exact (h.full x (by simp)).1
      · simp at hy
    · exact hl y hy

theorem emit0_short {c : Cfg} {g : List (Word β)} {w : Word β} (h : Shape c g w) (p : Nat)
    (hr : (bytesOf (g ++ [w])).length ≤ c.F) :
    (ann p (g ++ [w])).flatMap (emit0 c) =
      if p + (bytesOf (g ++ [w])).length = c.F then [([], true)] else [] := by
  induction g generalizing p with
  | nil =>
    have : ¬ c.F < (bytesOf ([] ++ [w])).length := by omega
    simp only [List.nil_append] at this
    simp only [List.nil_append, ann, List.flatMap_cons, List.flatMap_nil, List.append_nil, emit0, this, if_false,
      h.last, Bool.true_and, decide_eq_true_eq]
  | cons x g ih =>
    rw [List.cons_append, bytesOf_cons] at hr
    have : ¬ c.F < (bytesOf (x :: (g ++ [w]))).length := by rw [bytesOf_cons]; omega
    simp only [List.cons_append, ann, List.flatMap_cons, emit0, this, if_false, (h.full x (by simp)).1,
      Bool.false_and, Bool.false_eq_true, List.nil_append]
    rw [ih h.tail _ (by omega)]
    simp only [Nat.add_assoc, bytesOf_cons]

theorem emit0_long {c : Cfg} {g : List (Word β)} {w : Word β} (h : Shape c g w) (p : Nat)
    (hr : c.F < (bytesOf (g ++ [w])).length) : OneFrame ((ann p (g ++ [w])).flatMap (emit0 c)) := by
  induction g generalizing p with
  | nil =>
    simp only [List.nil_append] at hr
    refine ⟨[], w.bytes.take (w.bytes.length - c.F), ?_, by simp⟩
    have : (bytesOf [w]).length = w.bytes.length := by simp [bytesOf]
    rw [this] at hr
    simp [ann, emit0, hr, this]
  | cons x g ih =>
    rw [List.cons_append] at hr
    have hb := bytesOf_cons x (g ++ [w])
    simp only [List.cons_append, ann, List.flatMap_cons, emit0, hr, if_true]
    by_cases q : c.F < (bytesOf (g ++ [w])).length
    · obtain ⟨g', b, e, hl⟩ := ih h.tail (p + x.bytes.length) q
      have : ¬ (bytesOf (x :: (g ++ [w]))).length ≤ c.F + x.bytes.length := by omega
      rw [e]
      refine ⟨_ :: g', b, rfl, ?_⟩
      intro y hy
      rcases List.mem_cons.1 hy with hy | hy
      · rw [hy]; simpa using this
      · exact hl y hy
    · have e := emit0_short h.tail (p + x.bytes.length) (by omega)
      rw [if_neg (by omega)] at e
      have : (bytesOf (x :: (g ++ [w]))).length ≤ c.F + x.bytes.length := by omega
      rw [e]
      exact ⟨[], _, by simp [this]; rfl, by simp⟩

theorem frame_splits (c : Cfg) (hok : Ok c) (f : List (Word β)) (hf : Frame c f) :
    Splits c f ((ann 0 f).flatMap (emit0 c)) ((ann 0 f).flatMap (emit1 c)) := by
  have hlong := hf.long
  obtain ⟨g, w, rfl, h1, h2, h3, h4⟩ := hf.shape
  have hs : Shape c g w := ⟨h1, h2, h3, h4⟩
  refine ⟨?_, emit1_one hs hok.2 0, emit0_bytes _ _ _, emit1_bytes _ _ _⟩
  by_cases q : c.F < (bytesOf (g ++ [w])).length
  · exact emit0_long hs 0 q
  · rw [emit0_short hs 0 (by omega), if_pos (by omega)]
    exact ⟨[], [], rfl, by simp⟩

/-! ## Runs -/

theorem inv_init (c : Cfg) (G : List (E β)) (hG : Stream c G) (s : St β) (hs : IsInit s) :
    Inv c G [] s [] (fun _ => (0, 0)) := by
  have hv := hs.valid
  refine ⟨?_, ?_, rfl, rfl, ?_, ?_, ?_, ?_⟩
  · intro i _ _ h; rw [hv] at h; simp at h
  · have : ∀ i, Q s (val s fun _ => (0, 0)) i = [] := by
      intro i
      induction i with
      | zero => rfl
      | succ i ih => simp [Q, ih, hv, given]
    simp [this, accepted]
  · intro i _ _ h; rw [hv] at h; simp at h
  · intro i _ _ h; rw [hv] at h; simp at h
  · intro i _ _ h; rw [hv] at h; simp at h
  · intro e he
    rw [hs.sof, hG.first e he]; rfl

theorem inv_run (c : Cfg) (hok : Ok c) (G : List (E β)) (hG : Stream c G) (s : St β) (hs : IsInit s)
    (is : List (In β)) (ha : accepted ((machine c).trace s is) <+: G.map (·.w)) :
    ∃ D g, Inv c G ((machine c).trace s is) ((machine c).final s is) D g := by
  induction is using List.reverseRecOn with
  | nil => exact ⟨_, _, inv_init c G hG s hs⟩
  | append_singleton is x ih =>
    rw [Machine.trace_snoc] at ha ⊢
    rw [Machine.final_append]
    have ea : ∀ (t : List (In β × Out β)) e, accepted (t ++ [e]) =
        accepted t ++ given (e.1.vld && e.2.rd) e.1.w := by
      intro t e; simp [accepted]
    rw [ea] at ha
    obtain ⟨D, g, h⟩ := ih ((List.prefix_append _ _).trans ha)
    refine inv_step h hok hG x ?_
    intro hm
    have e1 : (x.vld && ((machine c).out ((machine c).final s is) x).rd) = true := by
      rw [← hm]; exact accept_eq x
    have e2 : (x.vld && ((machine c).outAfter s is x).rd) = true := e1
    rw [e2, given_true] at ha
    obtain ⟨t, ht⟩ := ha
    have : (G.map (·.w))[(accepted ((machine c).trace s is)).length]? = some x.w := by
      rw [← ht]; simp
    rw [List.getElem?_map, Option.map_eq_some_iff] at this
    exact this

/-! ## Draining -/

theorem Q_inv (s : St β) (v : Nat → γ) (i : Nat) (e : γ) (h : e ∈ Q s v i) :
    ∃ j, 1 ≤ j ∧ j ≤ i ∧ (s.r j).valid = true ∧ v j = e := by
  induction i with
  | zero => simp [Q] at h
  | succ i ih =>
    simp only [Q, List.mem_append] at h
    rcases h with h | h
    · refine ⟨i + 1, by omega, Nat.le_refl _, ?_⟩
      cases hv : (s.r (i + 1)).valid <;> rw [hv] at h <;> simp [given] at h
      exact ⟨rfl, h.symm⟩
    · obtain ⟨j, h1, h2, h3⟩ := ih h
      exact ⟨j, h1, by omega, h3⟩

theorem Q_getLast (s : St β) (v : Nat → γ) (i j : Nat) (hij : i ≤ j) (h : Q s v i ≠ []) :
    (Q s v j).getLast? = (Q s v i).getLast? := by
  induction j with
  | zero => have : i = 0 := by omega
            rw [this]
  | succ j ih =>
    by_cases e : i = j + 1
    · rw [e]
    · simp only [Q]
      rw [List.getLast?_append, ih (by omega)]
      obtain ⟨y, hy⟩ : ∃ y, (Q s v i).getLast? = some y :=
        ⟨_, List.getLast?_eq_some_getLast h⟩
      rw [hy]; rfl

theorem all_flush {c : Cfg} {G : List (E β)} {tr : List (In β × Out β)} {s : St β} {D : List (E β)}
    {g : Nat → Nat × Nat} (h : Inv c G tr s D g) (hG : Stream c G) (ha : accepted tr = G.map (·.w))
    (i : Nat) (h1 : 1 ≤ i) (h2 : i ≤ c.LA + 1) (hv : (s.r i).valid = true) : canFlush s i = true := by
  have hc := h.cons
  rw [ha, List.length_map, List.take_length] at hc
  have hm := Q_mem s (val s g) i i h1 (Nat.le_refl _) hv
  have hne : Q s (val s g) i ≠ [] := List.ne_nil_of_mem hm
  have hgl := Q_getLast s (val s g) i (c.LA + 1) h2 hne
  obtain ⟨y, hy⟩ : ∃ y, (Q s (val s g) i).getLast? = some y := ⟨_, List.getLast?_eq_some_getLast hne⟩
  have : G.getLast? = some y := by
    rw [← hc, List.getLast?_append, hgl, hy]; rfl
  have hl := hG.ends y this
  obtain ⟨j, j1, j2, jv, rfl⟩ := Q_inv s _ i y (List.mem_of_getLast? hy)
  exact canFlush_at s j i j1 j2 jv hl

def Idle (x : In β) : Prop := x.vld = false ∧ x.rd0 = true ∧ x.rd1 = true

theorem readyD_all (c : Cfg) (s : St β) (x : In β) (h0 : x.rd0 = true) (h1 : x.rd1 = true) (k : Nat) :
    readyD c s x k = true := by
  induction k with
  | zero => simp [readyD, h0, h1]
  | succ k ih => simp [readyD, ih]

theorem accepted_idle (c : Cfg) (s : St β) (is : List (In β)) (h : ∀ x ∈ is, Idle x) :
    accepted ((machine c).trace s is) = [] := by
  induction is generalizing s with
  | nil => rfl
  | cons x is ih =>
    rw [Machine.trace_cons]
    simp only [accepted, List.flatMap_cons] at ih ⊢
    rw [ih _ (fun y hy => h y (by simp [hy]))]
    simp [(h x (by simp)).1, given]

theorem sent_append (a b : List (In β × Out β)) : accepted (a ++ b) = accepted a ++ accepted b := by
  simp [accepted]

theorem drain_valid (c : Cfg) (hok : Ok c) (G : List (E β)) (hG : Stream c G) (s : St β) (hs : IsInit s)
    (is : List (In β)) (ha : accepted ((machine c).trace s is) = G.map (·.w)) (idle : List (In β))
    (hi : ∀ x ∈ idle, Idle x) : ∀ i, 1 ≤ i → i ≤ c.LA + 1 →
      (((machine c).final s (is ++ idle)).r i).valid = true → idle.length < i := by
  induction idle using List.reverseRecOn with
  | nil => intro i h1 _ _; simp; omega
  | append_singleton idle x ih =>
    specialize ih fun y hy => hi y (by simp [hy])
    intro i h1 h2 hv
    have ha' : accepted ((machine c).trace s (is ++ idle)) = G.map (·.w) := by
      rw [Machine.trace_append, sent_append, ha, accepted_idle _ _ _ fun y hy => hi y (by simp [hy])]
      simp
    obtain ⟨D, g, h⟩ := inv_run c hok G hG s hs (is ++ idle) (by rw [ha']; exact List.prefix_rfl)
    rw [← List.append_assoc, Machine.final_append] at hv
    obtain ⟨hx1, hx2, hx3⟩ := hi x (by simp)
    have hflush := all_flush h hG ha'
    generalize (machine c).final s (is ++ idle) = t at *
    have hv' : ((next c t x).r i).valid = true := hv
    obtain ⟨k, rfl⟩ : ∃ k, i = k + 1 := ⟨i - 1, by omega⟩
    rcases next_cases c t x h.gap k (by omega) hv' with ⟨hm, _⟩ | ⟨_, hm, hvk, _⟩
    · rw [mv_eq] at hm
      by_cases e0 : k = 0
      · subst e0
        have := hm.1
        simp only [reg, if_true, hx1] at this
        simp at this
      · rw [reg_pos _ _ _ _ (by omega)] at hm
        have := ih k (by omega) (by omega) hm.1
        simp; omega
    · exfalso
      have : mv c t x (k + 1) = true := by
        rw [mv_eq, reg_succ]
        exact ⟨hvk, readyD_all c t x hx2 hx3 _, .inr (hflush (k + 1) (by omega) h2 hvk)⟩
      rw [this] at hm; simp at hm

/-! ## C173 -/

theorem prefix_flatMap {γ δ : Type} (f : γ → List δ) {a b : List γ} (h : a <+: b) :
    a.flatMap f <+: b.flatMap f := by
  obtain ⟨t, rfl⟩ := h
  rw [List.flatMap_append]
  exact List.prefix_append _ _

/-- For every sequence of frames there is a prefix frame and a footer frame for each of them, and whatever the
handshakes do the outputs carry just these frames; once everything was accepted, `LA + 1` clocks with ready
outputs deliver all of it. -/
theorem footer_split (c : Cfg) (hok : Ok c) (fs : List (List (Word β))) (hf : ∀ f ∈ fs, Frame c f) :
    ∃ os : List (List (List β × Bool) × List (List β × Bool)),
      List.Forall₂ (fun f o => Splits c f o.1 o.2) fs os ∧
      ∀ s : St β, IsInit s → ∀ is : List (In β), accepted ((machine c).trace s is) <+: fs.flatten →
        sent0 ((machine c).trace s is) <+: os.flatMap (·.1) ∧
        sent1 ((machine c).trace s is) <+: os.flatMap (·.2) ∧
        (accepted ((machine c).trace s is) = fs.flatten → ∀ idle : List (In β), (∀ x ∈ idle, Idle x) →
          c.LA + 1 ≤ idle.length →
          sent0 ((machine c).trace s (is ++ idle)) = os.flatMap (·.1) ∧
          sent1 ((machine c).trace s (is ++ idle)) = os.flatMap (·.2)) := by
  have hG := frames_stream c hok fs hf
  refine ⟨fs.map fun f => ((ann 0 f).flatMap (emit0 c), (ann 0 f).flatMap (emit1 c)), ?_, ?_⟩
  · clear hG
    induction fs with
    | nil => exact .nil
    | cons f fs ih =>
      exact .cons (frame_splits c hok f (hf f (by simp))) (ih fun f h => hf f (by simp [h]))
  · intro s hs is ha
    have e0 : (fs.map fun f => ((ann 0 f).flatMap (emit0 c), (ann 0 f).flatMap (emit1 c))).flatMap (·.1) =
        (fs.flatMap (ann 0)).flatMap (emit0 c) := by
      rw [List.flatMap_map, List.flatMap_assoc]
    have e1 : (fs.map fun f => ((ann 0 f).flatMap (emit0 c), (ann 0 f).flatMap (emit1 c))).flatMap (·.2) =
        (fs.flatMap (ann 0)).flatMap (emit1 c) := by
      rw [List.flatMap_map, List.flatMap_assoc]
    rw [e0, e1]
    rw [← frames_map] at ha ⊢
    generalize fs.flatMap (ann 0) = G at *
    obtain ⟨D, g, h⟩ := inv_run c hok G hG s hs is ha
    have hD : D <+: G := (List.prefix_append D _).trans (h.cons ▸ List.take_prefix _ _)
    refine ⟨?_, ?_, ?_⟩
    · rw [h.s0]; exact prefix_flatMap _ hD
    · rw [h.s1]; exact prefix_flatMap _ hD
    · intro ha' idle hi hlen
      have hv := drain_valid c hok G hG s hs is ha' idle hi
      have ha2 : accepted ((machine c).trace s (is ++ idle)) = G.map (·.w) := by
        rw [Machine.trace_append, sent_append, ha', accepted_idle _ _ _ hi]; simp
      obtain ⟨D, g, h⟩ := inv_run c hok G hG s hs (is ++ idle) (by rw [ha2]; exact List.prefix_rfl)
      have hc := h.cons
      rw [ha2, List.length_map, List.take_length] at hc
      have hq : Q ((machine c).final s (is ++ idle)) (val ((machine c).final s (is ++ idle)) g)
          (c.LA + 1) = [] := by
        rw [List.eq_nil_iff_forall_not_mem]
        intro e he
        obtain ⟨j, j1, j2, jv, _⟩ := Q_inv _ _ _ e he
        have := hv j j1 j2 jv
        omega
      rw [hq, List.append_nil] at hc
      rw [h.s0, h.s1, hc]
      exact ⟨rfl, rfl⟩

/-- Input is accepted always when both outputs are ready. -/
theorem footer_ready (c : Cfg) (s : St β) (x : In β) (h0 : x.rd0 = true) (h1 : x.rd1 = true) :
    (out c s x).rd = true := readyD_all c s x h0 h1 _

section

def st0 : St Nat := ⟨fun _ => ⟨⟨[], false⟩, false, fun _ => false⟩, false⟩
def exW (b : List Nat) (l r0 r1 : Bool) : In Nat := ⟨true, ⟨b, l⟩, r0, r1⟩
def exI (r0 r1 : Bool) : In Nat := ⟨false, ⟨[], false⟩, r0, r1⟩
def exC : Cfg := ⟨2, 3⟩
def exF1 : List (Word Nat) := [⟨[1, 2], false⟩, ⟨[3, 4], false⟩, ⟨[5], true⟩]
def exF2 : List (Word Nat) := [⟨[6, 7], false⟩, ⟨[8], true⟩]

theorem exF1_frame : Frame exC exF1 :=
  ⟨⟨[⟨[1, 2], false⟩, ⟨[3, 4], false⟩], ⟨[5], true⟩, rfl, rfl, by decide, by decide, by decide⟩, by decide⟩
theorem exF2_frame : Frame exC exF2 :=
  ⟨⟨[⟨[6, 7], false⟩], ⟨[8], true⟩, rfl, rfl, by decide, by decide, by decide⟩, by decide⟩

def exIs : List (In Nat) := [exW [1, 2] false true true, exW [3, 4] false true true, exI true true,
  exW [5] true true true, exW [6, 7] false false true, exW [6, 7] false true true, exW [8] true true true]

example : Ok exC ∧ IsInit st0 ∧ (∀ f ∈ [exF1, exF2], Frame exC f) ∧
    accepted ((machine exC).trace st0 exIs) = [exF1, exF2].flatten ∧
    sent0 ((machine exC).trace st0 (exIs ++ List.replicate 3 (exI true true))) =
      [([1, 2], true), ([], true)] ∧
    sent1 ((machine exC).trace st0 (exIs ++ List.replicate 3 (exI true true))) =
      [([3, 4], false), ([5], true), ([6, 7], false), ([8], true)] := by
  refine ⟨by unfold Ok; decide, ⟨fun _ => rfl, fun _ _ => rfl, rfl⟩, ?_, by decide, by decide, by decide⟩
  intro f hf
  rcases List.mem_cons.1 hf with rfl | hf
  · exact exF1_frame
  · rw [List.mem_singleton] at hf; subst hf; exact exF2_frame

end

/-! ## C174: `valid` of the outputs does not wait for `ready` -/

/-- What is offered on the outputs does not depend on `ready` in the same clock. -/
def OfferIndependent (c : Cfg) (β : Type) : Prop :=
  ∀ s : St β, IsInit s → ∀ (is : List (In β)) (x y : In β), x.vld = y.vld → x.w = y.w →
    ((machine c).outAfter s is x).out0.isSome = ((machine c).outAfter s is y).out0.isSome ∧
    ((machine c).outAfter s is x).out1.isSome = ((machine c).outAfter s is y).out1.isSome

/-- It does: the word shared by the prefix and by the footer is offered only to an output whose sibling is
ready. -/
theorem offer_fails : ¬ OfferIndependent exC Nat := by
  intro h
  have := h st0 ⟨fun _ => rfl, fun _ _ => rfl, rfl⟩
    [exW [1, 2] false true true, exW [3, 4] true true true, exI true true]
    (exI true true) (exI true false) rfl rfl
  revert this
  decide

/-- The offers depend only on `ready` of the other output. -/
theorem offer_partial (c : Cfg) (s : St β) (is : List (In β)) (x y : In β) (hv : x.vld = y.vld) (hw : x.w = y.w) :
    (x.rd1 = y.rd1 → ((machine c).outAfter s is x).out0 = ((machine c).outAfter s is y).out0) ∧
    (x.rd0 = y.rd0 → ((machine c).outAfter s is x).out1 = ((machine c).outAfter s is y).out1) := by
  show (x.rd1 = y.rd1 → (out c ((machine c).final s is) x).out0 = (out c ((machine c).final s is) y).out0) ∧
    (x.rd0 = y.rd0 → (out c ((machine c).final s is) x).out1 = (out c ((machine c).final s is) y).out1)
  generalize (machine c).final s is = t
  obtain ⟨_, _, a0, a1⟩ := x
  obtain ⟨_, _, b0, b1⟩ := y
  simp only at hv hw
  subst hv hw
  refine ⟨fun h => ?_, fun h => ?_⟩
  · simp only at h
    subst h
    rfl
  · simp only at h
    subst h
    rfl

example : (exI true true).vld = (exI false true).vld ∧ (exI true true).w = (exI false true).w ∧
    ((machine exC).outAfter st0 [exW [1, 2] false true true, exW [3, 4] true true true, exI true true]
      (exI false true)).out0 = some ([1], true) := by decide

/-- Two consumers which wait for `valid` before they assert `ready` block each other: a word for both of them is
never offered. -/
theorem waiting_consumers_block (c : Cfg) (s : St β) (x : In β) (h0 : (out c s x).out0.isSome = true)
    (h1 : (out c s x).out1.isSome = true) (ys : List (In β)) (hy : ∀ y ∈ ys, y.rd0 = false ∧ y.rd1 = false) :
    ∀ e ∈ (machine c).trace s ys, e.2.out0 = none ∧ e.2.out1 = none := by
  have hv0 : valid0 c s x = true := by
    simp only [out] at h0; split at h0 <;> simp_all
  have hv1 : valid1 c s x = true := by
    simp only [out] at h1; split at h1 <;> simp_all
  simp only [valid0, valid1, Bool.and_eq_true] at hv0 hv1
  have a1 := hv0.1.1.1
  have a2 := hv0.1.1.2
  have a3 := hv1.1.1.2
  clear h0 h1 hv0 hv1 x
  induction ys generalizing s with
  | nil => intro e he; simp [Machine.trace_nil] at he
  | cons y ys ih =>
    obtain ⟨r0, r1⟩ := hy y (by simp)
    have n0 : valid0 c s y = false := by simp [valid0, a3, r1]
    have n1 : valid1 c s y = false := by simp [valid1, a2, r0]
    have hr : ready c s y (c.LA + 1) = false := by
      have e : c.LA + 2 - (c.LA + 1) = 0 + 1 := by omega
      simp only [outReg] at a1
      simp only [ready, e, readyD, Nat.sub_zero, a1, r0, a2]
      rfl
    have ho : (next c s y).r (c.LA + 1) = s.r (c.LA + 1) := by
      rw [next_r c s y c.LA (Nat.le_refl _), nextReg, hr]
      simp
    have hs : (next c s y).sofSeen = s.sofSeen := by simp [next, n0, n1]
    rw [Machine.trace_cons]
    intro e he
    rcases List.mem_cons.1 he with rfl | he
    · show (out c s y).out0 = none ∧ (out c s y).out1 = none
      simp [out, n0, n1]
    · refine ih (next c s y) (fun z hz => hy z (by simp [hz])) ?_ ?_ ?_ e he
      · simpa only [outReg, ho] using a1
      · simpa only [d0En, zeroLen, d1En, outReg, ho, hs] using a2
      · simpa only [d1En, outReg, ho] using a3

example : let s := (machine exC).final st0 [exW [1, 2] false true true, exW [3, 4] true true true, exI true true]
    (out exC s (exI true true)).out0 = some ([1], true) ∧ (out exC s (exI true true)).out1 = some ([2], false) := by
  decide

end Verif.FooterSplit
