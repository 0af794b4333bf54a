import Verif.FrameJoinReg

/-! # Properties of `FrameJoinInputReg` (C315) -/

namespace Verif.FrameJoinReg

open Verif

universe u
variable {β : Type u}

/-- byte or end of frame -/
inductive Tok (β : Type u)
  | byte (b : β)
  | eof
  deriving DecidableEq

/-- selected bytes of a word -/
def bytes (W : Nat) (data : Nat → β) (sel : Nat → Bool) : List (Tok β) := ((List.range W).filter sel).map fun k => .byte (data k)

/-- tokens in a register -/
def content (W : Nat) (r : Reg β) : List (Tok β) :=
  if empty W r then [] else bytes W r.data r.keep ++ given r.last .eof

/-- tokens of an accepted word -/
def wordIn (W : Nat) (i : In β) : List (Tok β) := bytes W i.data i.keep ++ given i.last .eof

/-- tokens taken from the register `k` by the consumer: bytes cleared by the mask and the end if nothing remains -/
def taken (W : Nat) (s : St β) (i : In β) (k : Nat) : List (Tok β) :=
  if i.ready && !empty W (s 0) then
    bytes W (s k).data (fun b => (s k).keep b && !i.masks k b) ++
      given (zero W (rest s i k) && (s k).last && (k == 0 || !zero W (s k).keep)) .eof
  else []

/-- the consumer takes bytes in order -/
def InOrder (n W : Nat) (s : St β) (i : In β) : Prop :=
  ∀ k, k < n →
    (∀ a b, a < b → b < W → (s k).keep a = true → (s k).keep b = true → i.masks k a = true → i.masks k b = true) ∧
    (∀ j, j < k → (zero W (rest s i j) = false ∨ (j ≠ 0 ∧ zero W (s j).keep = true ∧ empty W (s j) = false)) →
      ∀ b, b < W → (s k).keep b = true → i.masks k b = true)

structure Sys (β : Type u) where
  s : St β
  ins : List (Tok β)
  outs : List (Tok β)

def sys (n W : Nat) (y : Sys β) (i : In β) : Sys β where
  s := next n W y.s i
  ins := y.ins ++ if i.valid && inReady n W y.s i then wordIn W i else []
  outs := y.outs ++ (List.range n).flatMap (taken W y.s i)

def run (n W : Nat) (y : Sys β) (is : List (In β)) : Sys β := is.foldl (sys n W) y

def Along (n W : Nat) : Sys β → List (In β) → Prop
  | _, [] => True
  | y, i :: is => InOrder n W y.s i ∧ Along n W (sys n W y i) is

def sys0 (d0 : Nat → Nat → β) : Sys β := ⟨init d0, [], []⟩

/-- C315: consumed bytes and ends of frames followed by those in registers are those which were accepted -/
def C315 : Prop := ∀ (n W : Nat), 0 < n → 0 < W → ∀ (d0 : Nat → Nat → Nat) (is : List (In Nat)), Along n W (sys0 d0) is →
  let y := run n W (sys0 d0) is
  y.outs ++ (List.range n).flatMap (fun k => content W (y.s k)) = y.ins

def exIn (v : Bool) (d : Nat) (rd : Bool) : In Nat := ⟨v, fun _ => d, fun _ => true, false, rd, fun _ _ => true⟩

/-- **C315** (violated) with 3 registers the second word is duplicated while it moves to the output -/
theorem conserved_fails : ¬ C315 := by
  intro h
  have := h 3 1 (by decide) (by decide) (fun _ _ => 0) [exIn true 1 false, exIn true 2 false, exIn false 0 false]
    ⟨?_, ?_, ?_, trivial⟩
  · exact absurd (congrArg List.length this) (by decide)
  all_goals
    intro k _
    exact ⟨fun a b _ _ _ _ _ => rfl, fun j _ _ b _ _ => rfl⟩

theorem zero_iff (W : Nat) (k : Nat → Bool) : zero W k = true ↔ ∀ b, b < W → k b = false := by
  simp [zero]

theorem bytes_zero (W : Nat) (d : Nat → β) (k : Nat → Bool) (h : zero W k = true) : bytes W d k = [] := by
  rw [zero_iff] at h
  unfold bytes
  rw [List.filter_eq_nil_iff.2]
  · rfl
  · intro b hb; simp [h b (List.mem_range.1 hb)]

theorem filter_split {p m : Nat → Bool} : ∀ (l : List Nat),
    l.Pairwise (fun a b => p a = true → p b = true → m a = true → m b = true) →
    l.filter p = l.filter (fun b => p b && !m b) ++ l.filter (fun b => p b && m b) := by
  intro l
  induction l with
  | nil => intro _; rfl
  | cons a l ih =>
    intro h
    obtain ⟨h1, h2⟩ := List.pairwise_cons.1 h
    cases hp : p a with
    | false => simp [hp, ih h2]
    | true =>
      cases hm : m a with
      | false => simp [hp, hm, ih h2]
      | true =>
        have he : l.filter (fun b => p b && !m b) = [] := by
          rw [List.filter_eq_nil_iff]
          intro b hb
          cases hpb : p b with
          | false => simp
          | true => simp [h1 b hb hp hpb hm]
        have := ih h2
        rw [he, List.nil_append] at this
        simp [hp, hm, he, this]

theorem bytes_split (W : Nat) (d : Nat → β) (p m : Nat → Bool)
    (h : ∀ a b, a < b → b < W → p a = true → p b = true → m a = true → m b = true) :
    bytes W d p = bytes W d (fun b => p b && !m b) ++ bytes W d (fun b => p b && m b) := by
  unfold bytes
  rw [filter_split (m := m), List.map_append]
  refine List.Pairwise.imp_of_mem ?_ (List.pairwise_lt_range (n := W))
  intro a b _ hb hab
  exact h a b hab (List.mem_range.1 hb)

theorem bytes_congr (W : Nat) (d : Nat → β) {p q : Nat → Bool} (h : ∀ b, b < W → p b = q b) : bytes W d p = bytes W d q := by
  unfold bytes
  rw [List.filter_congr fun b hb => h b (List.mem_range.1 hb)]

theorem zero_congr (W : Nat) {p q : Nat → Bool} (h : ∀ b, b < W → p b = q b) : zero W p = zero W q := by
  rw [Bool.eq_iff_iff, zero_iff, zero_iff]
  exact ⟨fun hp b hb => (h b hb) ▸ hp b hb, fun hp b hb => (h b hb).symm ▸ hp b hb⟩

/-- bytes of a register which is not empty and its end -/
theorem content_of (W : Nat) (r : Reg β) (h : zero W r.keep = false) : content W r = bytes W r.data r.keep ++ given r.last .eof := by
  simp [content, empty, h]

theorem content_empty (W : Nat) (r : Reg β) (h : empty W r = true) : content W r = [] := by simp [content, h]

/-- register loaded from `dataIn` -/
theorem content_input (n W : Nat) (s : St β) (i : In β) :
    content W (prev n W s i (n - 1)) = if i.valid then wordIn W i else [] := by
  unfold prev
  rw [if_pos rfl]
  cases hv : i.valid with
  | false =>
    have hz : zero W (fun _ => false) = true := by simp [zero]
    simp [content, empty, hz]
  | true =>
    simp only [Bool.and_true, Bool.true_and, if_true, content, empty, wordIn]
    cases hz : zero W i.keep with
    | false => simp
    | true =>
      rw [bytes_zero W i.data i.keep hz]
      cases i.last <;> simp

theorem relict_input (n W : Nat) (s : St β) (i : In β) (h : (prev n W s i (n - 1)).relict = true) :
    zero W (prev n W s i (n - 1)).keep = true := by
  unfold prev at h ⊢
  rw [if_pos rfl] at h ⊢
  simp only [Bool.and_eq_true] at h
  simpa [h.1] using h.2

/-- tokens taken from a register and the rest -/
theorem taken_zero (W : Nat) (s : St β) (i : In β) (ho : InOrder 1 W s i) (hr : i.ready = true) (he : empty W (s 0) = false)
    (hf : zero W (rest s i 0) = true) : taken W s i 0 = content W (s 0) := by
  have hs := bytes_split W (s 0).data (s 0).keep (i.masks 0) (ho 0 Nat.one_pos).1
  have hz : bytes W (s 0).data (fun b => (s 0).keep b && i.masks 0 b) = [] := bytes_zero W _ _ hf
  rw [hz, List.append_nil] at hs
  simp [taken, content, hr, he, hf, hs]

theorem taken_part (W : Nat) (s : St β) (i : In β) (ho : InOrder 1 W s i) (hr : i.ready = true) (he : empty W (s 0) = false)
    (hf : zero W (rest s i 0) = false) :
    taken W s i 0 ++ content W { s 0 with keep := rest s i 0, relict := true } = content W (s 0) := by
  have hs := bytes_split W (s 0).data (s 0).keep (i.masks 0) (ho 0 Nat.one_pos).1
  rw [content_of W _ hf]
  unfold taken content
  simp only [hr, he, hf, Bool.not_false, Bool.and_self, if_true, Bool.false_and, given_false, List.append_nil,
    Bool.false_eq_true, if_false]
  rw [hs, List.append_assoc]
  rfl

theorem inOrder_one {n W : Nat} {s : St β} {i : In β} (hn : 0 < n) (h : InOrder n W s i) : InOrder 1 W s i :=
  fun k hk => h k (by omega)

/-- one register -/
theorem step_one (W : Nat) (s : St β) (i : In β) (ho : InOrder 1 W s i) :
    taken W s i 0 ++ content W (next 1 W s i 0) =
      content W (s 0) ++ (if i.valid && inReady 1 W s i then wordIn W i else []) := by
  have hrd : inReady 1 W s i = load W s i 0 := by
    simp only [inReady, load, consumed]
    cases empty W (s 0) <;> cases i.ready <;> cases zero W (rest s i 0) <;> rfl
  rw [hrd]
  cases hl : load W s i 0 with
  | true =>
    have hnx : next 1 W s i 0 = prev 1 W s i (1 - 1) := by simp [next, hl]
    rw [hnx, content_input, Bool.and_true]
    cases he : empty W (s 0) with
    | true =>
      rw [content_empty _ _ he]
      have : taken W s i 0 = [] := by simp [taken, he]
      rw [this]
    | false =>
      have : (i.ready && consumed W s i 0) = true := by simpa [load, he] using hl
      simp only [consumed, Bool.and_eq_true] at this
      rw [taken_zero W s i ho this.1 he this.2.1]
  | false =>
    have h2 : ((i.ready && consumed W s i 0) || empty W (s 0)) = false := by simpa [load] using hl
    have he : empty W (s 0) = false := (Bool.or_eq_false_iff.1 h2).2
    rw [Bool.and_false, if_neg Bool.false_ne_true, List.append_nil]
    cases hr : i.ready with
    | false =>
      have hnx : next 1 W s i 0 = s 0 := by simp [next, hl, hr]
      have : taken W s i 0 = [] := by simp [taken, hr]
      rw [hnx, this, List.nil_append]
    | true =>
      have hnx : next 1 W s i 0 = { s 0 with keep := rest s i 0, relict := true } := by simp [next, hl, hr]
      have hf : zero W (rest s i 0) = false := by simpa [consumed, hr, he] using h2
      rw [hnx, taken_part W s i ho hr he hf]

/-- the register 1 moves to the register 0 -/
theorem shift_content {W : Nat} (hW : 0 < W) (s : St β) (i : In β) (ho : InOrder 2 W s i)
    (hinv : (s 1).relict = true → zero W (s 1).keep = true)
    (hc : empty W (s 0) = true ∨ (i.ready = true ∧ empty W (s 0) = false)) :
    taken W s i 1 ++ content W (prev 2 W s i 0) = content W (s 1) := by
  have hs := bytes_split W (s 1).data (s 1).keep (i.masks 1) (ho 1 (by omega)).1
  have hp : prev 2 W s i 0 = { data := (s 1).data, keep := fun b => (s 1).keep b && (empty W (s 0) || i.masks 1 b)
                               last := (s 1).last
                               relict := (s 1).relict || ((s 1).last && (s 1).keep 0 && !i.masks 1 0 && !consumed W s i 1) } := by
    simp [prev]
  rw [hp]
  have hk0 : zero W (s 1).keep = true → (s 1).keep 0 = false := fun h => (zero_iff W _).1 h 0 hW
  rcases hc with he | ⟨hr, he⟩
  · have : taken W s i 1 = [] := by simp [taken, he]
    rw [this, List.nil_append]
    simp only [he, Bool.true_or, Bool.and_true]
    cases hz : zero W (s 1).keep with
    | false => simp [content, empty, hz]
    | true => simp [content, empty, hz, hk0 hz]
  · simp only [he, Bool.false_or]
    cases hz : zero W (s 1).keep with
    | true =>
      have hz' : zero W (fun b => (s 1).keep b && i.masks 1 b) = true := by
        rw [zero_iff]; intro b hb; simp [(zero_iff W _).1 hz b hb]
      have hz'' : zero W (fun b => (s 1).keep b && !i.masks 1 b) = true := by
        rw [zero_iff]; intro b hb; simp [(zero_iff W _).1 hz b hb]
      have : taken W s i 1 = [] := by simp [taken, hz, bytes_zero W _ _ hz'']
      rw [this, List.nil_append]
      simp [content, empty, hz, hz', hk0 hz, bytes_zero W _ _ hz, bytes_zero W _ _ hz']
    | false =>
      have hrel : (s 1).relict = false := by
        cases h : (s 1).relict with
        | false => rfl
        | true => rw [hinv h] at hz; exact absurd hz (by decide)
      have hcont := content_of W (s 1) hz
      cases hf : zero W (rest s i 1) with
      | true =>
        have hf' : zero W (fun b => (s 1).keep b && i.masks 1 b) = true := hf
        have hb : bytes W (s 1).data (fun b => (s 1).keep b && i.masks 1 b) = [] := bytes_zero W _ _ hf
        rw [hb, List.append_nil] at hs
        rw [hcont, hs]
        rw [content_empty _ _ (by simp [empty, hf', hrel, consumed, hf])]
        simp [taken, hr, he, hf, hz]
      | false =>
        have hf' : zero W (fun b => (s 1).keep b && i.masks 1 b) = false := hf
        rw [hcont, hs, content_of _ _ hf']
        simp [taken, hr, he, hf]

theorem step_two {W : Nat} (hW : 0 < W) (s : St β) (i : In β) (ho : InOrder 2 W s i)
    (hinv : (s 1).relict = true → zero W (s 1).keep = true) :
    (taken W s i 0 ++ taken W s i 1) ++ (content W (next 2 W s i 0) ++ content W (next 2 W s i 1)) =
      (content W (s 0) ++ content W (s 1)) ++ (if i.valid && inReady 2 W s i then wordIn W i else []) := by
  have ho1 := inOrder_one (by omega) ho
  have hrd : inReady 2 W s i = load W s i 1 := by
    simp only [inReady, load, consumed]
    cases empty W (s 0) <;> cases empty W (s 1) <;> cases i.ready <;> cases zero W (rest s i 0) <;> rfl
  have hld1 : load W s i 1 = true → next 2 W s i 1 = prev 2 W s i (2 - 1) := fun h => by simp [next, h]
  have hld1' : load W s i 1 = false → next 2 W s i 1 = s 1 := fun h => by simp [next, h]
  rw [hrd]
  cases he : empty W (s 0) with
  | true =>
    have h0 : load W s i 0 = true := by simp [load, he]
    have h1 : load W s i 1 = true := by simp [load, he]
    have hsh := shift_content hW s i ho hinv (.inl he)
    have t0 : taken W s i 0 = [] := by simp [taken, he]
    have n0 : next 2 W s i 0 = prev 2 W s i 0 := by simp [next, h0]
    rw [hld1 h1, content_input, n0, t0, content_empty _ _ he, h1, Bool.and_true, ← hsh]
    simp
  | false =>
    cases hr : i.ready with
    | false =>
      have h0 : load W s i 0 = false := by simp [load, he, hr]
      have h1 : load W s i 1 = empty W (s 1) := by simp [load, he, hr]
      have n0 : next 2 W s i 0 = s 0 := by simp [next, h0, hr]
      have t0 : ∀ k, taken W s i k = [] := fun k => by simp [taken, hr]
      rw [t0, t0, n0]
      cases h1' : empty W (s 1) with
      | true =>
        rw [hld1 (h1.trans h1'), content_input, content_empty _ _ h1', h1.trans h1', Bool.and_true]
        simp
      | false =>
        rw [hld1' (h1.trans h1'), h1.trans h1']
        simp
    | true =>
      cases hf : zero W (rest s i 0) with
      | true =>
        have h0 : load W s i 0 = true := by simp [load, he, hr, consumed, hf]
        have h1 : load W s i 1 = true := by simp [load, he, hr, consumed, hf]
        have hsh := shift_content hW s i ho hinv (.inr ⟨hr, he⟩)
        have n0 : next 2 W s i 0 = prev 2 W s i 0 := by simp [next, h0]
        rw [hld1 h1, content_input, n0, taken_zero W s i ho1 hr he hf, h1, Bool.and_true, ← hsh]
        simp
      | false =>
        have h0 : load W s i 0 = false := by simp [load, he, hr, consumed, hf]
        have h1 : load W s i 1 = empty W (s 1) := by simp [load, he, hr, consumed, hf]
        have n0 : next 2 W s i 0 = { s 0 with keep := rest s i 0, relict := true } := by simp [next, h0, hr]
        have hm := (ho 1 (by omega)).2 0 (by omega) (.inl hf)
        have t1 : taken W s i 1 = [] := by
          have hb : bytes W (s 1).data (fun b => (s 1).keep b && !i.masks 1 b) = [] := by
            refine bytes_zero W _ _ ((zero_iff W _).2 fun b hb => ?_)
            cases hk : (s 1).keep b with
            | false => rfl
            | true => simp [hm b hb hk]
          have hz : zero W (rest s i 1) = zero W (s 1).keep := zero_congr W fun b hb => by
            unfold rest
            cases hk : (s 1).keep b with
            | false => rfl
            | true => simp [hm b hb hk]
          unfold taken
          rw [hb, hz]
          cases zero W (s 1).keep <;> simp
        rw [t1, List.append_nil, n0, ← List.append_assoc, taken_part W s i ho1 hr he hf]
        cases h1' : empty W (s 1) with
        | true =>
          rw [hld1 (h1.trans h1'), content_input, content_empty _ _ h1', h1.trans h1', Bool.and_true]
          simp
        | false =>
          rw [hld1' (h1.trans h1'), h1.trans h1']
          simp

theorem run_conserved {n W : Nat} (hn : n = 1 ∨ n = 2) (hW : 0 < W) : ∀ (is : List (In β)) (y : Sys β), Along n W y is →
    ((y.s 1).relict = true → zero W (y.s 1).keep = true) →
    y.outs ++ (List.range n).flatMap (fun k => content W (y.s k)) = y.ins →
    (run n W y is).outs ++ (List.range n).flatMap (fun k => content W ((run n W y is).s k)) = (run n W y is).ins := by
  intro is
  induction is with
  | nil => exact fun _ _ _ h => h
  | cons i is ih =>
    intro y ha hr h
    rcases hn with rfl | rfl
    · -- one register: register 1 does not exist, its contents are not used
      have hst := step_one W y.s i ha.1
      have key : ∀ z : Sys β, z.outs ++ content W (z.s 0) = z.ins → Along 1 W z is →
          (run 1 W z is).outs ++ content W ((run 1 W z is).s 0) = (run 1 W z is).ins := by
        clear ih ha hr h hst
        induction is with
        | nil => exact fun _ h _ => h
        | cons j is ih2 =>
          intro z hz hal
          refine ih2 (sys 1 W z j) ?_ hal.2
          have hs1 := step_one W z.s j hal.1
          show (z.outs ++ (List.range 1).flatMap (taken W z.s j)) ++ content W (next 1 W z.s j 0) = z.ins ++ _
          simp only [List.range_one, List.flatMap_cons, List.flatMap_nil, List.append_nil]
          rw [List.append_assoc, hs1, ← List.append_assoc, hz]
      simp only [List.range_one, List.flatMap_cons, List.flatMap_nil, List.append_nil] at h ⊢
      refine key (sys 1 W y i) ?_ ha.2
      show (y.outs ++ (List.range 1).flatMap (taken W y.s i)) ++ content W (next 1 W y.s i 0) = y.ins ++ _
      simp only [List.range_one, List.flatMap_cons, List.flatMap_nil, List.append_nil]
      rw [List.append_assoc, hst, ← List.append_assoc, h]
    · refine ih (sys 2 W y i) ha.2 ?_ ?_
      · show (next 2 W y.s i 1).relict = true → zero W (next 2 W y.s i 1).keep = true
        cases hl : load W y.s i 1 with
        | true =>
          have : next 2 W y.s i 1 = prev 2 W y.s i (2 - 1) := by simp [next, hl]
          rw [this]
          exact relict_input 2 W y.s i
        | false =>
          have : next 2 W y.s i 1 = y.s 1 := by simp [next, hl]
          rw [this]; exact hr
      · have hst := step_two hW y.s i ha.1 hr
        have e2 : ∀ f : Nat → List (Tok β), (List.range 2).flatMap f = f 0 ++ f 1 := fun f => by
          simp [List.range_succ]
        rw [e2] at h ⊢
        show (y.outs ++ (List.range 2).flatMap (taken W y.s i)) ++ (content W (next 2 W y.s i 0) ++ content W (next 2 W y.s i 1)) =
          y.ins ++ _
        rw [e2, List.append_assoc, hst, ← List.append_assoc, h]

/-- **C315** (partial) with one or two registers nothing is lost, duplicated or reordered -/
theorem conserved_partial {n W : Nat} (hn : n = 1 ∨ n = 2) (hW : 0 < W) (d0 : Nat → Nat → β) (is : List (In β))
    (ha : Along n W (sys0 d0) is) :
    let y := run n W (sys0 d0) is
    y.outs ++ (List.range n).flatMap (fun k => content W (y.s k)) = y.ins := by
  refine run_conserved hn hW is _ ha (fun h => absurd h (by simp [sys0, init])) ?_
  have : ∀ k, content W ((sys0 d0).s k) = [] := fun k => by
    have : zero W (fun _ => false) = true := by simp [zero]
    simp [sys0, init, content, empty, this]
  simp only [this]
  simp [sys0]

/-- non-vacuity: a frame of 3 bytes in words of 2 bytes, the second byte is consumed together with the third one -/
def exW (v : Bool) (k : Nat → Bool) (l : Bool) (rd : Bool) (m : Nat → Nat → Bool) : In Nat := ⟨v, fun b => b, k, l, rd, m⟩

def exRun : List (In Nat) :=
  [exW true (fun _ => true) false false fun _ _ => true, exW true (fun b => b == 0) true false fun _ _ => true,
   exW false (fun _ => true) true true fun k b => k == 1 || b == 1, exW false (fun _ => true) true true fun _ _ => false]

theorem exRun_order : Along 2 2 (sys0 fun _ _ => 0) exRun := by
  refine ⟨?_, ?_, ?_, ?_, trivial⟩
  · intro k _; exact ⟨fun _ _ _ _ _ _ _ => rfl, fun _ _ _ _ _ _ => rfl⟩
  · intro k _; exact ⟨fun _ _ _ _ _ _ _ => rfl, fun _ _ _ _ _ _ => rfl⟩
  · intro k hk
    match k, hk with
    | 0, _ =>
      refine ⟨fun a b h1 h2 _ _ _ => ?_, fun j hj => absurd hj (Nat.not_lt_zero _)⟩
      have : b = 1 := by omega
      subst this; rfl
    | 1, _ => exact ⟨fun _ _ _ _ _ _ _ => rfl, fun _ _ _ _ _ _ => rfl⟩
  · intro k hk
    refine ⟨fun a b h1 h2 _ _ h => absurd h Bool.false_ne_true, fun j hj h => ?_⟩
    match k, hk with
    | 0, _ => exact absurd hj (Nat.not_lt_zero _)
    | 1, _ =>
      have : j = 0 := by omega
      subst this
      rcases h with h | h
      · exact absurd h (by decide)
      · exact absurd rfl h.1

example : (run 2 2 (sys0 fun _ _ => 0) exRun).outs = [.byte 0, .byte 1, .byte 0, .eof] := by decide

end Verif.FrameJoinReg
