import Verif.Cuckoo

/-!
# Properties of the cuckoo hash table (C246 - C250)
-/

set_option linter.unusedSectionVars false

namespace Verif.Cuckoo

universe u v
variable {K : Type u} {D : Type v} [DecidableEq K]

@[simp] theorem beq_fsm (a b : Fsm) : (a == b) = decide (a = b) := rfl
@[simp] theorem bne_fsm (a b : Fsm) : (a != b) = !decide (a = b) := rfl
@[simp] theorem beq_op (a b : Op) : (a == b) = decide (a = b) := rfl
@[simp] theorem bne_op (a b : Op) : (a != b) = !decide (a = b) := rfl

/-! ## The observer: a map, written only in terms of the ports -/

/-- `M` is the content of the table, `cur` the insert which was accepted and not answered yet, `exp` are the expected answers of
accepted lookups: the key and what was stored under it when the lookup was accepted. -/
structure Spec (K : Type u) (D : Type v) where
  M : K → Option D
  cur : Option (K × D)
  exp : List (K × Option D)

def setM (M : K → Option D) (k : K) (d : Option D) : K → Option D := fun k' => if k' = k then d else M k'

/-- The content after the insert `k, d`. -/
def insM (M : K → Option D) (kd : K × D) : K → Option D := setM M kd.1 (some kd.2)

/-- Content and pending insert after one clock cycle. -/
def Spec.content (p : Spec K D) (x : In K D) (o : Out K D) : (K → Option D) × Option (K × D) :=
  if x.clean && o.cleanRd then (fun _ => none, none)
  else match x.del, o.delRd, x.ins, o.insRd with
    | some k, true, _, _ => (setM p.M k none, none)
    | _, _, some kd, true => (p.M, some kd)
    | _, _, _, _ => match p.cur, o.insRes, x.resRd with
      | some kd, some (pop, k', _), true => (if pop then setM (insM p.M kd) k' none else insM p.M kd, none)
      | _, _, _ => (p.M, p.cur)

def Spec.step (p : Spec K D) (x : In K D) (o : Out K D) : Spec K D where
  M := (p.content x o).1
  cur := (p.content x o).2
  exp := (if o.lkRes.isSome && x.lrRd then p.exp.tail else p.exp) ++
    (match x.lk, o.lkRd with | some k, true => [(k, p.M k)] | _, _ => [])

/-- An answer `(found, key, data)` to a lookup of a key under which `m` was stored. -/
def Answers (a : Bool × K × D) (e : K × Option D) : Prop :=
  match e.2 with
  | some d => a = (true, e.1, d)
  | none => a.1 = false

/-- What the outputs have to fulfil in each clock cycle. -/
structure Spec.Ok (p : Spec K D) (o : Out K D) : Prop where
  /-- a result of lookup is the answer to the oldest lookup which was not answered yet -/
  lk : ∀ a, o.lkRes = some a → ∃ e es, p.exp = e :: es ∧ Answers a e
  /-- a result of insert is there only for an accepted insert -/
  ins : ∀ a, o.insRes = some a → ∃ kd, p.cur = some kd ∧
    /- and if it says that an item was removed, the item was stored (or it is the inserted one) -/
    (a.1 = true → insM p.M kd a.2.1 = some a.2.2)

/-- The table together with the observer. -/
abbrev Sys (K : Type u) (D : Type v) := St K D × Spec K D

def Sys.step (c : Cfg K) (y : Sys K D) (x : In K D) : Sys K D := (next c y.1 x, y.2.step x (out c y.1 x))
def Sys.run (c : Cfg K) (y : Sys K D) (xs : List (In K D)) : Sys K D := xs.foldl (Sys.step c) y

/-- `P` holds in each clock cycle of the run. -/
def Along (c : Cfg K) (P : Sys K D → In K D → Prop) : Sys K D → List (In K D) → Prop
  | _, [] => True
  | y, x :: xs => P y x ∧ Along c P (y.step c x) xs

/-- Deleted key is stored in the table, or the table has a free place for it. -/
def DelOk (c : Cfg K) (y : Sys K D) (x : In K D) : Prop :=
  ∀ k, x.del = some k → delRd y.1 x = true →
    y.2.M k ≠ none ∨ ∃ i < c.N, (y.1.mem i (c.hash i k)).vld = false

/-! ## Memory -/

def At (c : Cfg K) (m : Nat → Nat → Item K D) (i : Nat) (k : K) : Prop :=
  (m i (c.hash i k)).vld = true ∧ (m i (c.hash i k)).key = k

def Has (c : Cfg K) (m : Nat → Nat → Item K D) (k : K) (d : D) : Prop :=
  ∃ i < c.N, At c m i k ∧ (m i (c.hash i k)).data = d

structure WF (c : Cfg K) (m : Nat → Nat → Item K D) : Prop where
  place : ∀ i < c.N, ∀ a, a < 2 ^ c.w → (m i a).vld = true → c.hash i (m i a).key = a
  uniq : ∀ i < c.N, ∀ j < c.N, ∀ k, At c m i k → At c m j k → i = j

def Empty (c : Cfg K) (m : Nat → Nat → Item K D) : Prop := ∀ i < c.N, ∀ a, a < 2 ^ c.w → (m i a).vld = false

def OneHot (c : Cfg K) (f : Nat → Bool) (t : Nat) : Prop := t < c.N ∧ ∀ i < c.N, f i = decide (i = t)

/-- `m'` is `m` with one item of the table `t` replaced. -/
def Wr (c : Cfg K) (m m' : Nat → Nat → Item K D) (t : Nat) (k : K) (it : Item K D) : Prop :=
  ∀ i < c.N, ∀ a, m' i a = if i = t ∧ a = c.hash t k then it else m i a

theorem Empty.wf {c : Cfg K} (hc : c.Valid) {m : Nat → Nat → Item K D} (h : Empty c m) : WF c m := by
  refine ⟨fun i hi a ha hv => ?_, fun i hi j hj k ⟨h1, _⟩ _ => ?_⟩
  · rw [h i hi a ha] at hv; cases hv
  · rw [h i hi _ (hc.hash i k)] at h1; cases h1

theorem Empty.has {c : Cfg K} (hc : c.Valid) {m : Nat → Nat → Item K D} (h : Empty c m) (k : K) (d : D) : ¬ Has c m k d := by
  rintro ⟨i, hi, ⟨h1, _⟩, _⟩
  rw [h i hi _ (hc.hash i k)] at h1; cases h1

theorem lowest_onehot {c : Cfg K} {f : Nat → Bool} {t : Nat} (h : OneHot c f t) : lowest c.N f = some t := by
  unfold lowest
  rw [List.find?_range_eq_some]
  refine ⟨by simpa using h.2 t h.1, by simpa using h.1, fun j hj => ?_⟩
  rw [h.2 j (by have := h.1; omega)]
  simp; omega

theorem Has.unique {c : Cfg K} {m : Nat → Nat → Item K D} (hw : WF c m) {k : K} {d d' : D} (h : Has c m k d) (h' : Has c m k d') :
    d = d' := by
  obtain ⟨i, hi, h1, h2⟩ := h
  obtain ⟨j, hj, h3, h4⟩ := h'
  have := hw.uniq i hi j hj k h1 h3
  subst this
  rw [← h2, ← h4]

/-- Keys which are neither in the old nor in the new item are not touched. -/
theorem Wr.at_same {c : Cfg K} {m m' : Nat → Nat → Item K D} {t : Nat} {key : K} {it : Item K D} (h : Wr c m m' t key it)
    {k : K} (h1 : ¬ ((m t (c.hash t key)).vld = true ∧ (m t (c.hash t key)).key = k)) (h2 : ¬ (it.vld = true ∧ it.key = k))
    {i : Nat} (hi : i < c.N) : At c m' i k ↔ At c m i k := by
  unfold At
  rw [h i hi]
  by_cases hx : i = t ∧ c.hash i k = c.hash t key
  · obtain ⟨rfl, e⟩ := hx
    rw [if_pos ⟨rfl, e⟩, e]
    exact ⟨fun a => absurd a h2, fun a => absurd a h1⟩
  · rw [if_neg hx]

theorem Wr.has_same {c : Cfg K} {m m' : Nat → Nat → Item K D} {t : Nat} {key : K} {it : Item K D} (h : Wr c m m' t key it)
    {k : K} (h1 : ¬ ((m t (c.hash t key)).vld = true ∧ (m t (c.hash t key)).key = k)) (h2 : ¬ (it.vld = true ∧ it.key = k))
    (d : D) : Has c m' k d ↔ Has c m k d := by
  unfold Has
  constructor
  all_goals
    rintro ⟨i, hi, ha, hd⟩
    have ha' := ha
    have hd' := hd
    first | rw [h.at_same h1 h2 hi] at ha' | rw [← h.at_same h1 h2 hi] at ha'
    refine ⟨i, hi, ha', ?_⟩
    rw [h i hi] at *
    by_cases hx : i = t ∧ c.hash i k = c.hash t key
    · obtain ⟨rfl, e⟩ := hx
      unfold At at ha ha'
      rw [h i hi] at *
      rw [if_pos ⟨rfl, e⟩] at *
      exact absurd (by assumption) h2
    · simpa only [if_neg hx] using hd

theorem Wr.at_other {c : Cfg K} {m m' : Nat → Nat → Item K D} {t : Nat} {key : K} {it : Item K D} (h : Wr c m m' t key it)
    {k : K} {i : Nat} (hi : i < c.N) (hit : i ≠ t) : At c m' i k ↔ At c m i k := by
  unfold At
  rw [h i hi, if_neg (fun e => hit e.1)]

theorem Wr.at_new {c : Cfg K} {m m' : Nat → Nat → Item K D} {t : Nat} {key : K} {it : Item K D} (h : Wr c m m' t key it)
    (ht : t < c.N) (hv : it.vld = true) (hk : it.key = key) : At c m' t key := by
  unfold At
  rw [h t ht, if_pos ⟨rfl, rfl⟩]
  exact ⟨hv, hk⟩

/-- Item with the key `key` may be written if the key is not in other tables. -/
theorem Wr.wf {c : Cfg K} {m m' : Nat → Nat → Item K D} {t : Nat} {key : K} {it : Item K D} (h : Wr c m m' t key it)
    (hw : WF c m) (hk : it.vld = true → it.key = key) (hn : it.vld = true → ∀ i < c.N, i ≠ t → ¬ At c m i key) : WF c m' := by
  refine ⟨fun i hi a ha hv => ?_, ?_⟩
  · rw [h i hi] at hv ⊢
    by_cases hx : i = t ∧ a = c.hash t key
    · rw [if_pos hx] at hv ⊢
      rw [hk hv, hx.1, hx.2]
    · rw [if_neg hx] at hv ⊢
      exact hw.place i hi a ha hv
  · have key1 : ∀ i < c.N, ∀ k, At c m' i k → At c m i k ∨ (i = t ∧ k = key ∧ it.vld = true) := by
      intro i hi k ha
      by_cases hx : i = t ∧ c.hash i k = c.hash t key
      · unfold At at ha
        rw [h i hi, if_pos hx] at ha
        exact .inr ⟨hx.1, by rw [← ha.2, hk ha.1], ha.1⟩
      · unfold At at ha
        rw [h i hi, if_neg hx] at ha
        exact .inl ha
    intro i hi j hj k ha hb
    rcases key1 i hi k ha with h1 | ⟨h1, h2, h3⟩ <;> rcases key1 j hj k hb with h4 | ⟨h4, h5, h6⟩
    · exact hw.uniq i hi j hj k h1 h4
    · subst h5
      by_cases e : i = t
      · rw [e, h4]
      · exact absurd h1 (hn h6 i hi e)
    · subst h2
      by_cases e : j = t
      · rw [e, h1]
      · exact absurd h4 (hn h3 j hj e)
    · rw [h1, h4]

theorem Wr.has_new {c : Cfg K} {m m' : Nat → Nat → Item K D} {t : Nat} {key : K} {it : Item K D} (h : Wr c m m' t key it)
    (ht : t < c.N) (hv : it.vld = true) (hk : it.key = key) : Has c m' key it.data :=
  ⟨t, ht, h.at_new ht hv hk, by rw [h t ht, if_pos ⟨rfl, rfl⟩]⟩

/-- The old item of the place which was written is not stored any more. -/
theorem Wr.not_has_old {c : Cfg K} (hc : c.Valid) {m m' : Nat → Nat → Item K D} {t : Nat} {key : K} {it : Item K D}
    (h : Wr c m m' t key it) (hw : WF c m) (ht : t < c.N) (hv : (m t (c.hash t key)).vld = true) {k : K}
    (hk : (m t (c.hash t key)).key = k) (hn : ¬ (it.vld = true ∧ it.key = k)) (d : D) : ¬ Has c m' k d := by
  rintro ⟨i, hi, ha, _⟩
  have e : c.hash t k = c.hash t key := by rw [← hk]; exact hw.place t ht _ (hc.hash t key) hv
  have hold : At c m t k := by unfold At; rw [e]; exact ⟨hv, hk⟩
  by_cases hit : i = t
  · subst hit
    unfold At at ha
    rw [h i hi, if_pos ⟨rfl, e⟩] at ha
    exact hn ha
  · exact hit (hw.uniq i hi t ht k ((h.at_other hi hit).1 ha) hold)

/-! ## Invariant -/

/-- What is left to do for the operation in the stash. -/
structure Todo (c : Cfg K) (s : St K D) (p : Spec K D) : Prop where
  wf : WF c s.mem
  hot : (∃ t, OneHot c s.tgt t) ∨ Empty c s.mem
  opc : (s.op = .insert ∧ s.ivld = true ∧ s.cntr ≤ c.maxRe ∧ ∃ kd, p.cur = some kd ∧ insM p.M kd s.key = some s.data ∧
      (s.cntr < c.maxRe → ∀ d, ¬ Has c s.mem s.key d) ∧
      ∀ k, k ≠ s.key → ∀ d, insM p.M kd k = some d ↔ Has c s.mem k d) ∨
    (s.op = .delete ∧ s.ivld = false ∧ p.cur = none ∧ p.M s.key = none ∧
      ((∃ d, Has c s.mem s.key d) ∨ ∃ i < c.N, (s.mem i (c.hash i s.key)).vld = false) ∧
      ∀ k, k ≠ s.key → ∀ d, p.M k = some d ↔ Has c s.mem k d)

def Snap (c : Cfg K) (s : St K D) (r : Res K D) : Prop := ∀ i < c.N, r.it i = s.mem i (c.hash i r.key)

structure Idle (c : Cfg K) (s : St K D) (p : Spec K D) : Prop where
  wf : WF c s.mem
  hot : (∃ t, OneHot c s.tgt t) ∨ Empty c s.mem
  agree : ∀ k d, p.M k = some d ↔ Has c s.mem k d
  cur : p.cur = none
  snap : ∀ r ∈ s.av ++ s.fly, Snap c s r
  exp : p.exp = ((s.av ++ s.fly).map Res.key ++ if s.op = .lookup then [s.key] else []).map fun k => (k, p.M k)
  inprog : s.inprog = p.exp.length

/-- The place for the item in the stash is `t`. -/
structure Unwritten (c : Cfg K) (s : St K D) (p : Spec K D) (t : Nat) : Prop where
  todo : Todo c s p
  res : (At c s.mem t s.key ∧ s.fin = true) ∨
    ((∀ i < c.N, ¬ At c s.mem i s.key) ∧ (s.mem t (c.hash t s.key)).vld = false ∧ s.fin = true) ∨
    ((∀ i < c.N, ¬ At c s.mem i s.key) ∧ (∀ i < c.N, (s.mem i (c.hash i s.key)).vld = true) ∧ s.fin = false)
  snap : ∀ r ∈ s.av, Snap c s r

structure Written (c : Cfg K) (s : St K D) (p : Spec K D) (t : Nat) : Prop where
  wf : WF c s.mem
  le : s.cntr ≤ c.maxRe
  op : s.op = .insert
  fin : s.fin = true
  item : s.mem t (c.hash t s.key) = ⟨s.key, s.data, s.ivld⟩
  ivld : s.ivld = true
  cur : ∃ kd, p.cur = some kd ∧ insM p.M kd s.key = some s.data ∧ ∀ k d, insM p.M kd k = some d ↔ Has c s.mem k d

structure Inv (c : Cfg K) (s : St K D) (p : Spec K D) : Prop where
  caddr : s.st ≠ .cleaning → s.caddr = 0
  busy : s.st ≠ .idle → s.inprog = 0 ∧ p.exp = [] ∧ s.op ≠ .lookup
  idle : s.st = .idle → Idle c s p
  cleaning : s.st = .cleaning → s.ivld = false ∧ s.av = [] ∧ s.fly = [] ∧ (∀ k, p.M k = none) ∧ p.cur = none ∧ s.caddr < c.items ∧
    ∀ i < c.N, ∀ a < s.caddr, (s.mem i a).vld = false
  lookup : s.st = .lookup → Todo c s p ∧ s.av = [] ∧ s.fly = []
  waitRd : s.st = .waitRd → Todo c s p ∧ (s.op = .insert → 0 < s.cntr) ∧ ∃ r, s.av ++ s.fly = [r] ∧ r.key = s.key ∧ Snap c s r
  ack : s.st = .ack → (s.op = .insert → 0 < s.cntr) ∧ s.fly = [] ∧ (∃ r, s.av = [r] ∧ r.key = s.key) ∧
    ∃ t, OneHot c s.tgt t ∧ (Unwritten c s p t ∨ Written c s p t)

/-- The number of items of a table is a power of two, all its places are cleaned. -/
def Cfg.Pow2 (c : Cfg K) : Prop := c.items = 2 ^ c.w

theorem insRes_none {s : St K D} (h : s.st = .idle ∨ s.st = .cleaning ∨ s.st = .waitRd) : insRes s = none := by
  unfold insRes
  rcases h with h | h | h <;> simp [h]

theorem lkRes_none {c : Cfg K} {s : St K D} (h : s.st ≠ .idle) : lkRes c s = none := by
  unfold lkRes
  split
  · exact absurd (by assumption) h
  · rfl

theorem found_at {c : Cfg K} {s : St K D} {r : Res K D} (hs : Snap c s r) {i : Nat} (hi : i < c.N) :
    found r i = true ↔ At c s.mem i r.key := by
  unfold found At
  rw [hs i hi]
  simp only [Bool.and_eq_true, beq_iff_eq]
  exact ⟨fun h => ⟨h.2, h.1.symm⟩, fun h => ⟨h.2.symm, h.1⟩⟩

theorem any_range {N : Nat} {f : Nat → Bool} : (List.range N).any f = true ↔ ∃ i < N, f i = true := by
  simp [List.any_eq_true]

theorem ror_onehot {c : Cfg K} {f : Nat → Bool} {t : Nat} (h : OneHot c f t) :
    ∃ t', OneHot c (fun i => f ((i + 1) % c.N)) t' := by
  obtain ⟨ht, hf⟩ := h
  refine ⟨if t = 0 then c.N - 1 else t - 1, by split <;> omega, fun i hi => ?_⟩
  show f ((i + 1) % c.N) = _
  rw [hf _ (Nat.mod_lt _ (by omega))]
  by_cases e : i + 1 = c.N
  · rw [e, Nat.mod_self]
    congr 1
    apply propext
    split <;> omega
  · rw [Nat.mod_eq_of_lt (by omega)]
    congr 1
    apply propext
    split <;> omega

theorem resolve {c : Cfg K} (hc : c.Valid) {s : St K D} (hw : WF c s.mem) (hh : (∃ t, OneHot c s.tgt t) ∨ Empty c s.mem)
    {r : Res K D} (hs : Snap c s r) (hk : r.key = s.key) :
    ∃ t, OneHot c (resolveTgt c r s.tgt) t ∧
      ((At c s.mem t s.key ∧ resolveFin c r = true) ∨
       ((∀ i < c.N, ¬ At c s.mem i s.key) ∧ (s.mem t (c.hash t s.key)).vld = false ∧ resolveFin c r = true) ∨
       ((∀ i < c.N, ¬ At c s.mem i s.key) ∧ (∀ i < c.N, (s.mem i (c.hash i s.key)).vld = true) ∧ resolveFin c r = false)) := by
  unfold resolveTgt resolveFin
  by_cases hf : (List.range c.N).any (found r) = true
  · rw [if_pos hf, hf]
    obtain ⟨t, ht, h1⟩ := any_range.1 hf
    rw [found_at hs ht] at h1
    refine ⟨t, ⟨ht, fun i hi => ?_⟩, .inl ⟨hk ▸ h1, by simp⟩⟩
    rw [Bool.eq_iff_iff, found_at hs hi, decide_eq_true_iff]
    exact ⟨fun h => hw.uniq i hi t ht _ h h1, fun h => h ▸ h1⟩
  · rw [if_neg hf]
    have hn : ∀ i < c.N, ¬ At c s.mem i s.key := by
      intro i hi h
      rw [← hk, ← found_at hs hi] at h
      exact hf (any_range.2 ⟨i, hi, h⟩)
    simp only [Bool.not_eq_true] at hf
    rw [hf]
    cases hl : lowest c.N (fun i => !(r.it i).vld) with
    | some e =>
      unfold lowest at hl
      rw [List.find?_range_eq_some] at hl
      obtain ⟨h1, h2, h3⟩ := hl
      simp only [List.mem_range] at h2
      refine ⟨e, ⟨h2, fun i hi => ?_⟩, .inr (.inl ⟨hn, ?_, ?_⟩)⟩
      · rfl
      · rw [hs e h2, hk] at h1
        simpa using h1
      · rw [Bool.false_or]
        exact any_range.2 ⟨e, h2, h1⟩
    | none =>
      unfold lowest at hl
      rw [List.find?_eq_none] at hl
      have hv : ∀ i < c.N, (s.mem i (c.hash i s.key)).vld = true := by
        intro i hi
        have := hl i (by simpa using hi)
        rw [hs i hi, hk] at this
        simpa using this
      have hh' : ∃ t, OneHot c s.tgt t := by
        rcases hh with h | h
        · exact h
        · have := hv 0 hc.n
          rw [h 0 hc.n _ (hc.hash _ _)] at this
          cases this
      obtain ⟨t, ht⟩ := hh'
      have ha : (List.range c.N).any s.tgt = true := any_range.2 ⟨t, ht.1, by rw [ht.2 t ht.1]; simp⟩
      simp only [ha, if_true]
      obtain ⟨t', ht'⟩ := ror_onehot ht
      refine ⟨t', ht', .inr (.inr ⟨hn, hv, ?_⟩)⟩
      rw [Bool.false_or, Bool.eq_false_iff]
      intro h
      obtain ⟨i, hi, h⟩ := any_range.1 h
      exact hl i (by simpa using hi) h

theorem nextMem_ack {c : Cfg K} {s : St K D} (h : s.st = .ack) {t : Nat} (ht : OneHot c s.tgt t) {r : Res K D} {l : List (Res K D)}
    (ha : s.av = r :: l) (hk : r.key = s.key) : Wr c s.mem (nextMem c s) t s.key ⟨s.key, s.data, s.ivld⟩ := by
  intro i hi a
  unfold nextMem
  rw [h, lowest_onehot ht, ha]
  simp only
  rw [ht.2 i hi, hk]
  by_cases e : i = t ∧ a = c.hash t s.key
  · rw [if_pos e, if_pos (by simpa using e)]
  · rw [if_neg e, if_neg (by simpa using e)]

/-- The final write of an insert. -/
theorem final_insert {c : Cfg K} {s : St K D} {p : Spec K D} {t : Nat} {m' : Nat → Nat → Item K D}
    (hw : Wr c s.mem m' t s.key ⟨s.key, s.data, s.ivld⟩) (ht : t < c.N) (hu : Unwritten c s p t ∨ Written c s p t)
    (hi : s.op = .insert) (hf : s.fin = true) :
    WF c m' ∧ s.cntr ≤ c.maxRe ∧ m' t (c.hash t s.key) = ⟨s.key, s.data, s.ivld⟩ ∧ s.ivld = true ∧
      ∃ kd, p.cur = some kd ∧ insM p.M kd s.key = some s.data ∧ ∀ k d, insM p.M kd k = some d ↔ Has c m' k d := by
  have hitem : m' t (c.hash t s.key) = ⟨s.key, s.data, s.ivld⟩ := by rw [hw t ht, if_pos ⟨rfl, rfl⟩]
  rcases hu with ⟨⟨wf, hot, opc⟩, res, snap⟩ | ⟨wf, le, op, fin, item, ivld, kd, h1, h2, h3⟩
  · rcases opc with ⟨_, iv, le, kd, h1, h2, _, h3⟩ | ⟨h, _⟩
    rotate_left
    · rw [hi] at h; cases h
    have hold : ∀ k, k ≠ s.key → ¬ ((s.mem t (c.hash t s.key)).vld = true ∧ (s.mem t (c.hash t s.key)).key = k) := by
      intro k hk ⟨a, b⟩
      rcases res with ⟨r, _⟩ | ⟨_, r, _⟩ | ⟨_, _, r⟩
      · exact hk (b.symm.trans r.2)
      · rw [r] at a; cases a
      · rw [hf] at r; cases r
    have hoth : ∀ i < c.N, i ≠ t → ¬ At c s.mem i s.key := by
      intro i hi' hne ha
      rcases res with ⟨r, _⟩ | ⟨r, _⟩ | ⟨r, _⟩
      · exact hne (wf.uniq i hi' t ht _ ha r)
      · exact r i hi' ha
      · exact r i hi' ha
    have wf' : WF c m' := hw.wf wf (fun _ => rfl) (fun _ => hoth)
    refine ⟨wf', le, hitem, iv, kd, h1, h2, fun k d => ?_⟩
    have hnew := hw.has_new ht iv rfl
    by_cases hk : k = s.key
    · subst hk
      rw [h2]
      exact ⟨fun e => by cases e; exact hnew, fun e => congrArg some (hnew.unique wf' e)⟩
    · rw [h3 k hk d, hw.has_same (hold k hk) (fun e => hk e.2.symm)]
  · have e : ∀ i < c.N, ∀ a, m' i a = s.mem i a := by
      intro i hi a
      rw [hw i hi]
      split
      · rename_i h; rw [h.1, h.2, item]
      · rfl
    have eat : ∀ i < c.N, ∀ k, At c m' i k ↔ At c s.mem i k := by
      intro i hi k; unfold At; rw [e i hi]
    refine ⟨⟨?_, ?_⟩, le, hitem, ivld, kd, h1, h2, ?_⟩
    · intro i hi a ha; rw [e i hi]; exact wf.place i hi a ha
    · intro i hi j hj k; rw [eat i hi, eat j hj]; exact wf.uniq i hi j hj k
    · intro k d
      rw [h3]
      unfold Has
      constructor
      · rintro ⟨i, hi, a, b⟩
        exact ⟨i, hi, (eat i hi k).2 a, by rw [e i hi]; exact b⟩
      · rintro ⟨i, hi, a, b⟩
        exact ⟨i, hi, (eat i hi k).1 a, by rw [← e i hi]; exact b⟩

/-- The write of a delete. -/
theorem final_delete {c : Cfg K} (hc : c.Valid) {s : St K D} {p : Spec K D} {t : Nat} {m' : Nat → Nat → Item K D}
    (hw : Wr c s.mem m' t s.key ⟨s.key, s.data, s.ivld⟩) (ht : t < c.N) (hu : Unwritten c s p t)
    (hi : s.op = .delete) :
    WF c m' ∧ p.cur = none ∧ ∀ k d, p.M k = some d ↔ Has c m' k d := by
  obtain ⟨⟨wf, hot, opc⟩, res, snap⟩ := hu
  rcases opc with ⟨h, _⟩ | ⟨_, iv, hcur, hm, hpe, h3⟩
  · rw [hi] at h; cases h
  rw [iv] at hw
  have hold : ∀ k, k ≠ s.key → ¬ ((s.mem t (c.hash t s.key)).vld = true ∧ (s.mem t (c.hash t s.key)).key = k) := by
    intro k hk ⟨a, b⟩
    rcases res with ⟨r, _⟩ | ⟨_, r, _⟩ | ⟨r1, r2, _⟩
    · exact hk (b.symm.trans r.2)
    · rw [r] at a; cases a
    · rcases hpe with ⟨d, i, hi, ha, _⟩ | ⟨i, hi, hv⟩
      · exact r1 i hi ha
      · rw [r2 i hi] at hv; cases hv
  refine ⟨hw.wf wf (fun h => by cases h) (fun h => by cases h), hcur, fun k d => ?_⟩
  by_cases hk : k = s.key
  · subst hk
    rw [hm]
    refine ⟨fun e => (by cases e), fun e => ?_⟩
    exfalso
    by_cases ha : At c s.mem t s.key
    · exact hw.not_has_old hc wf ht ha.1 ha.2 (fun h => by cases h.1) d e
    · rcases res with ⟨r, _⟩ | ⟨r, _⟩ | ⟨r, _⟩
      · exact ha r
      all_goals
        rw [hw.has_same ha (fun h => by cases h.1)] at e
        obtain ⟨i, hi, h, _⟩ := e
        exact r i hi h
  · rw [h3 k hk d, hw.has_same (hold k hk) (fun h => by cases h.1)]

/-- The item in the stash is exchanged with an item in the table. -/
theorem swap {c : Cfg K} (hc : c.Valid) {s : St K D} {p : Spec K D} {t : Nat} {m' : Nat → Nat → Item K D}
    (hw : Wr c s.mem m' t s.key ⟨s.key, s.data, s.ivld⟩) (ht : t < c.N) (hu : Unwritten c s p t)
    (hi : s.op = .insert) (hf : s.fin = false) :
    WF c m' ∧ (s.mem t (c.hash t s.key)).vld = true ∧ ∃ kd, p.cur = some kd ∧
      insM p.M kd (s.mem t (c.hash t s.key)).key = some (s.mem t (c.hash t s.key)).data ∧
      (∀ d, ¬ Has c m' (s.mem t (c.hash t s.key)).key d) ∧
      ∀ k, k ≠ (s.mem t (c.hash t s.key)).key → ∀ d, insM p.M kd k = some d ↔ Has c m' k d := by
  obtain ⟨⟨wf, hot, opc⟩, res, snap⟩ := hu
  rcases opc with ⟨_, iv, _, kd, h1, h2, _, h3⟩ | ⟨h, _⟩
  rotate_left
  · rw [hi] at h; cases h
  rcases res with ⟨_, r⟩ | ⟨_, _, r⟩ | ⟨r1, r2, _⟩
  · rw [hf] at r; cases r
  · rw [hf] at r; cases r
  have hv := r2 t ht
  have hne : (s.mem t (c.hash t s.key)).key ≠ s.key := fun e => r1 t ht ⟨hv, e⟩
  have wf' : WF c m' := hw.wf wf (fun _ => rfl) (fun _ i hi _ => r1 i hi)
  have hpl := wf.place t ht _ (hc.hash t s.key) hv
  refine ⟨wf', hv, kd, h1, ?_, ?_, ?_⟩
  · rw [h3 _ hne]
    exact ⟨t, ht, ⟨by rw [hpl]; exact hv, by rw [hpl]⟩, by rw [hpl]⟩
  · exact hw.not_has_old hc wf ht hv rfl (fun h => hne h.2.symm)
  · intro k hk d
    by_cases e : k = s.key
    · subst e
      rw [h2]
      have hnew := hw.has_new ht iv rfl
      exact ⟨fun e => by cases e; exact hnew, fun e => congrArg some (hnew.unique wf' e)⟩
    · rw [h3 k e, hw.has_same (fun h => hk h.2.symm) (fun h => e h.2.symm)]

/-! ## Steps -/

theorem lkRd_busy {c : Cfg K} {s : St K D} (h : s.st ≠ .idle) (x : In K D) : lkRd c s x = false := by simp [lkRd, h]

theorem nextInprog_busy {c : Cfg K} {s : St K D} (h : s.st ≠ .idle) (x : In K D) : nextInprog c s x = s.inprog := by
  simp [nextInprog, lkRd_busy h, lkRes_none h]

theorem content_busy {c : Cfg K} {s : St K D} (h : s.st ≠ .idle) (p : Spec K D) (x : In K D) :
    p.content x (out c s x) = match p.cur, insRes s, x.resRd with
      | some kd, some (pop, k', _), true => (if pop then setM (insM p.M kd) k' none else insM p.M kd, none)
      | _, _, _ => (p.M, p.cur) := by
  have h1 : (out c s x).cleanRd = false := by simp [out, cleanRd, h]
  have h2 : (out c s x).delRd = false := by simp [out, delRd, h]
  have h3 : (out c s x).insRd = false := by simp [out, insRd, h]
  have h4 : (out c s x).insRes = insRes s := rfl
  unfold Spec.content
  rw [h1, h2, h3, h4, Bool.and_false]
  cases x.del <;> cases x.ins <;> rfl

theorem exp_busy {c : Cfg K} {s : St K D} (h : s.st ≠ .idle) (p : Spec K D) (x : In K D) :
    (p.step x (out c s x)).exp = p.exp := by
  have h1 : (out c s x).lkRd = false := lkRd_busy h x
  have h2 : (out c s x).lkRes = none := lkRes_none h
  unfold Spec.step
  simp only [h1, h2]
  cases x.lk <;> simp

theorem take_drop_one (b : Bool) (l : List (Res K D)) : (if b then l.take 1 else []) ++ (if b then l.drop 1 else l) = l := by
  cases b
  · rfl
  · exact List.take_append_drop 1 l

theorem step_lookup {c : Cfg K} (hc : c.Valid) {s : St K D} {p : Spec K D} (hi : Inv c s p) (h : s.st = .lookup) (x : In K D) :
    Inv c (next c s x) (p.step x (out c s x)) := by
  obtain ⟨ht, hav, hfly⟩ := hi.lookup h
  have hni : s.st ≠ .idle := by simp [h]
  obtain ⟨hip, hexp, hop⟩ := hi.busy hni
  have hca := hi.caddr (by simp [h])
  have hn : next c s x = { s with
      st := nextFsm c s x, inprog := 0, caddr := 0, av := []
      fly := if lookupEn s && x.la then [read c s] else [] } := by
    unfold next
    rw [nextInprog_busy hni, hip]
    simp [h, resNext, hav, hfly, nextMem, hca]
  have hE := exp_busy (c := c) hni p x
  have hC := content_busy (c := c) hni p x
  rw [hexp] at hE
  rw [hn]
  by_cases hz : s.cntr = 0 ∧ s.op = .insert
  · obtain ⟨hz, ho⟩ := hz
    have hen : lookupEn s = false := by simp [lookupEn, h, hz, ho]
    rcases ht.opc with ⟨_, iv, hle, kd, h1, h2, h3, h4⟩ | ⟨o, _⟩
    rotate_left
    · rw [ho] at o; cases o
    have hir : insRes s = some (true, s.key, s.data) := by simp [insRes, h, ho, hz]
    rw [h1, hir] at hC
    cases hr : x.resRd with
    | true =>
      rw [hr] at hC
      have hf : nextFsm c s x = .idle := by simp [nextFsm, h, hz, ho, hr]
      refine ⟨fun _ => rfl, fun e => absurd hf e, fun _ => ?_, ?_, ?_, ?_, ?_⟩
      · refine ⟨ht.wf, ht.hot, fun k d => ?_, ?_, ?_, ?_, ?_⟩
        · show (p.content x (out c s x)).1 k = _ ↔ _
          rw [hC]
          simp only [if_true, setM]
          by_cases e : k = s.key
          · subst e
            rw [if_pos rfl]
            exact ⟨fun a => (by cases a), fun a => absurd a (h3 (by rw [hz]; exact hc.maxRe) d)⟩
          · rw [if_neg e]
            exact h4 k e d
        · show (p.content x (out c s x)).2 = _
          rw [hC]
        · simp [hen]
        · rw [hE]; simp [hen, hop]
        · rw [hE]; rfl
      all_goals
        intro e
        rw [show _ = nextFsm c s x from rfl, hf] at e
        cases e
    | false =>
      rw [hr] at hC
      have hf : nextFsm c s x = .lookup := by simp [nextFsm, h, hz, ho, hr]
      refine ⟨fun _ => rfl, fun _ => ⟨rfl, hE, hop⟩, ?_, ?_, fun _ => ?_, ?_, ?_⟩
      rotate_left 2
      · refine ⟨⟨ht.wf, ht.hot, ?_⟩, rfl, by simp [hen]⟩
        have e1 : (p.step x (out c s x)).M = p.M := congrArg Prod.fst hC
        have e2 : (p.step x (out c s x)).cur = p.cur := (congrArg Prod.snd hC).trans h1.symm
        rw [e1, e2]
        exact ht.opc
      all_goals
        intro e
        rw [show _ = nextFsm c s x from rfl, hf] at e
        cases e
  · have hir : insRes s = none := by
      unfold insRes
      rw [if_neg]
      simp [h]
      exact fun a b => hz ⟨b, a⟩
    rw [hir] at hC
    have hC' : p.content x (out c s x) = (p.M, p.cur) := by
      rw [hC]; cases p.cur <;> rfl
    have e1 : (p.step x (out c s x)).M = p.M := congrArg Prod.fst hC'
    have e2 : (p.step x (out c s x)).cur = p.cur := congrArg Prod.snd hC'
    have hen : lookupEn s = true := by
      rcases ht.opc with ⟨o, _⟩ | ⟨o, _⟩
      · have : s.cntr ≠ 0 := fun e => hz ⟨e, o⟩
        simp [lookupEn, h, this]
      · simp [lookupEn, h, o]
    have hT : ∀ f a y z, Todo c { s with st := f, inprog := 0, caddr := a, av := y, fly := z } (p.step x (out c s x)) := by
      intro f a y z
      refine ⟨ht.wf, ht.hot, ?_⟩
      rw [e1, e2]
      exact ht.opc
    cases hla : x.la with
    | true =>
      have hf : nextFsm c s x = .waitRd := by
        rcases ht.opc with ⟨o, _⟩ | ⟨o, _⟩
        · have : s.cntr ≠ 0 := fun e => hz ⟨e, o⟩
          simp [nextFsm, h, this, hla]
        · simp [nextFsm, h, o, hla]
      refine ⟨fun _ => rfl, fun _ => ⟨rfl, hE, hop⟩, ?_, ?_, ?_, fun _ => ?_, ?_⟩
      rotate_left 3
      · refine ⟨hT _ _ _ _, fun o => ?_, read c s, by simp [hen], rfl, fun i _ => rfl⟩
        have : s.cntr ≠ 0 := fun e => hz ⟨e, o⟩
        exact Nat.pos_of_ne_zero this
      all_goals
        intro e
        rw [show _ = nextFsm c s x from rfl, hf] at e
        cases e
    | false =>
      have hf : nextFsm c s x = .lookup := by
        rcases ht.opc with ⟨o, _⟩ | ⟨o, _⟩
        · have : s.cntr ≠ 0 := fun e => hz ⟨e, o⟩
          simp [nextFsm, h, this, hla]
        · simp [nextFsm, h, o, hla]
      refine ⟨fun _ => rfl, fun _ => ⟨rfl, hE, hop⟩, ?_, ?_, fun _ => ?_, ?_, ?_⟩
      rotate_left 2
      · exact ⟨hT _ _ _ _, rfl, by simp⟩
      all_goals
        intro e
        rw [show _ = nextFsm c s x from rfl, hf] at e
        cases e

theorem step_waitRd {c : Cfg K} (hc : c.Valid) {s : St K D} {p : Spec K D} (hi : Inv c s p) (h : s.st = .waitRd) (x : In K D) :
    Inv c (next c s x) (p.step x (out c s x)) := by
  obtain ⟨ht, hcn, r, hq, hrk, hsn⟩ := hi.waitRd h
  have hni : s.st ≠ .idle := by simp [h]
  obtain ⟨hip, hexp, hop⟩ := hi.busy hni
  have hca := hi.caddr (by simp [h])
  have hE := exp_busy (c := c) hni p x
  have hC := content_busy (c := c) hni p x
  rw [hexp] at hE
  rw [insRes_none (.inr (.inr h))] at hC
  have hC' : p.content x (out c s x) = (p.M, p.cur) := by
    rw [hC]; cases p.cur <;> rfl
  have e1 : (p.step x (out c s x)).M = p.M := congrArg Prod.fst hC'
  have e2 : (p.step x (out c s x)).cur = p.cur := congrArg Prod.snd hC'
  cases hav : s.av with
  | nil =>
    rw [hav, List.nil_append] at hq
    have hn : next c s x = { s with
        st := .waitRd, inprog := 0, caddr := 0
        av := if x.rv then [r] else []
        fly := if x.rv then [] else [r] } := by
      unfold next
      rw [nextInprog_busy hni, hip]
      simp [h, resNext, hav, hq, nextMem, hca, nextFsm, resVld, lookupEn]
    rw [hn]
    refine ⟨fun _ => rfl, fun _ => ⟨rfl, hE, hop⟩, ?_, ?_, ?_, fun _ => ?_, ?_⟩
    rotate_left 3
    · refine ⟨⟨ht.wf, ht.hot, ?_⟩, hcn, r, ?_, hrk, hsn⟩
      · rw [e1, e2]
        exact ht.opc
      · cases x.rv <;> rfl
    all_goals
      intro e
      cases e
  | cons r' l =>
    rw [hav] at hq
    simp only [List.cons_append, List.cons.injEq, List.append_eq_nil_iff] at hq
    obtain ⟨rfl, rfl, hfl⟩ := hq
    have hn : next c s x = { s with
        st := .ack, inprog := 0, caddr := 0, tgt := resolveTgt c r' s.tgt, fin := resolveFin c r' } := by
      unfold next
      rw [nextInprog_busy hni, hip]
      simp [h, resNext, hav, hfl, nextMem, hca, nextFsm, resVld, lookupEn]
    obtain ⟨t, h1, h2⟩ := resolve hc ht.wf ht.hot hsn hrk
    rw [hn]
    refine ⟨fun _ => rfl, fun _ => ⟨rfl, hE, hop⟩, ?_, ?_, ?_, ?_, fun _ => ?_⟩
    rotate_left 4
    · refine ⟨hcn, hfl, ⟨r', hav, hrk⟩, t, h1, .inl ⟨⟨ht.wf, .inl ⟨t, h1⟩, ?_⟩, h2, ?_⟩⟩
      · rw [e1, e2]
        exact ht.opc
      · intro r0 hr0
        rw [show _ = s.av from rfl, hav] at hr0
        cases List.mem_singleton.1 hr0
        exact hsn
    all_goals
      intro e
      cases e

theorem step_cleaning {c : Cfg K} (hc : c.Valid) (hp : c.Pow2) {s : St K D} {p : Spec K D} (hi : Inv c s p) (h : s.st = .cleaning)
    (x : In K D) : Inv c (next c s x) (p.step x (out c s x)) := by
  obtain ⟨hiv, hav, hfl, hM, hcur, hlt, hcl⟩ := hi.cleaning h
  have hni : s.st ≠ .idle := by simp [h]
  obtain ⟨hip, hexp, hop⟩ := hi.busy hni
  have hE := exp_busy (c := c) hni p x
  have hC := content_busy (c := c) hni p x
  rw [hexp] at hE
  rw [hcur] at hC
  have e1 : (p.step x (out c s x)).M = p.M := congrArg Prod.fst hC
  have e2 : (p.step x (out c s x)).cur = none := congrArg Prod.snd hC
  have hn : next c s x = { s with
      st := if s.caddr = c.items - 1 then .idle else .cleaning, inprog := 0
      caddr := if s.caddr = c.items - 1 then 0 else s.caddr + 1
      mem := fun i a => if a = s.caddr then ⟨s.key, s.data, s.ivld⟩ else s.mem i a
      av := [], fly := [] } := by
    unfold next
    rw [nextInprog_busy hni, hip]
    simp [h, resNext, hav, hfl, nextMem, nextFsm, lookupEn]
  have hcl' : ∀ i < c.N, ∀ a < s.caddr + 1, (if a = s.caddr then (⟨s.key, s.data, s.ivld⟩ : Item K D) else s.mem i a).vld = false := by
    intro i hi a ha
    split
    · exact hiv
    · exact hcl i hi a (by omega)
  rw [hn]
  by_cases hl : s.caddr = c.items - 1
  · simp only [if_pos hl]
    have hemp : Empty c fun i a => if a = s.caddr then (⟨s.key, s.data, s.ivld⟩ : Item K D) else s.mem i a := by
      intro i hi a ha
      refine hcl' i hi a ?_
      rw [hp.symm] at ha
      have := hc.items
      omega
    refine ⟨fun _ => rfl, fun e => absurd rfl e, fun _ => ?_, ?_, ?_, ?_, ?_⟩
    · refine ⟨hemp.wf hc, .inr hemp, fun k d => ?_, e2, ?_, ?_, ?_⟩
      · rw [e1, hM]
        exact ⟨fun e => (by cases e), fun e => absurd e (hemp.has hc k d)⟩
      · simp
      · rw [hE]; simp [hop]
      · rw [hE]; rfl
    all_goals
      intro e
      cases e
  · simp only [if_neg hl]
    refine ⟨fun e => absurd rfl e, fun _ => ⟨rfl, hE, hop⟩, ?_, fun _ => ?_, ?_, ?_, ?_⟩
    rotate_left
    · refine ⟨hiv, rfl, rfl, fun k => by rw [e1]; exact hM k, e2, ?_, hcl'⟩
      show s.caddr + 1 < c.items
      omega
    all_goals
      intro e
      cases e

theorem step_ack {c : Cfg K} (hc : c.Valid) {s : St K D} {p : Spec K D} (hi : Inv c s p) (h : s.st = .ack) (x : In K D) :
    Inv c (next c s x) (p.step x (out c s x)) := by
  obtain ⟨hcn, hfl, ⟨r, hav, hrk⟩, t, hot, hu⟩ := hi.ack h
  have hni : s.st ≠ .idle := by simp [h]
  obtain ⟨hip, hexp, hop⟩ := hi.busy hni
  have hca := hi.caddr (by simp [h])
  have hE := exp_busy (c := c) hni p x
  have hC := content_busy (c := c) hni p x
  rw [hexp] at hE
  have hw := nextMem_ack h hot hav hrk
  have hlow := lowest_onehot hot
  have hen : lookupEn s = false := by simp [lookupEn, h]
  have hn1 : nextFsm c s x ≠ .ack → next c s x = { s with
      st := nextFsm c s x, inprog := 0, caddr := 0, mem := nextMem c s, av := [], fly := []
      key := (r.it t).key, data := (r.it t).data, cntr := s.cntr - 1, ivld := (r.it t).vld } := by
    intro hne
    unfold next
    rw [nextInprog_busy hni, hip]
    simp [h, resNext, hne, hav, hfl, hca, hen, stashSwap, hlow]
  have hn2 : nextFsm c s x = .ack → next c s x = { s with st := .ack, inprog := 0, caddr := 0, mem := nextMem c s } := by
    intro hne
    unfold next
    rw [nextInprog_busy hni, hip]
    simp [h, resNext, hne, hav, hfl, hca, hen]
  cases ho : s.op with
  | lookup => exact absurd ho hop
  | delete =>
    have hf : nextFsm c s x = .idle := by simp [nextFsm, h, ho]
    have hir : insRes s = none := by simp [insRes, h, ho]
    rw [hir] at hC
    have hC' : p.content x (out c s x) = (p.M, p.cur) := by
      rw [hC]; cases p.cur <;> rfl
    have e1 : (p.step x (out c s x)).M = p.M := congrArg Prod.fst hC'
    have e2 : (p.step x (out c s x)).cur = p.cur := congrArg Prod.snd hC'
    rw [hn1 (by simp [hf]), hf]
    rcases hu with hu | hu
    rotate_left
    · have := hu.op; rw [ho] at this; cases this
    obtain ⟨wf', hcur, hag⟩ := final_delete hc hw hot.1 hu ho
    refine ⟨fun _ => rfl, fun e => absurd rfl e, fun _ => ?_, ?_, ?_, ?_, ?_⟩
    · refine ⟨wf', .inl ⟨t, hot⟩, fun k d => by rw [e1]; exact hag k d, e2.trans hcur, by simp, ?_, ?_⟩
      · rw [hE]; simp [ho]
      · rw [hE]; rfl
    all_goals
      intro e
      cases e
  | insert =>
    have hcz : s.cntr ≠ 0 := by have := hcn ho; omega
    cases hfin : s.fin with
    | true =>
      obtain ⟨wf', hle, hit, hiv, kd, h1, h2, h3⟩ := final_insert hw hot.1 hu ho hfin
      have hir : insRes s = some (false, s.key, s.data) := by simp [insRes, h, ho, hfin, hcz]
      rw [hir, h1] at hC
      cases hr : x.resRd with
      | true =>
        rw [hr] at hC
        have e1 : (p.step x (out c s x)).M = insM p.M kd := congrArg Prod.fst hC
        have e2 : (p.step x (out c s x)).cur = none := congrArg Prod.snd hC
        have hf : nextFsm c s x = .idle := by simp [nextFsm, h, ho, hfin, hr]
        rw [hn1 (by simp [hf]), hf]
        refine ⟨fun _ => rfl, fun e => absurd rfl e, fun _ => ?_, ?_, ?_, ?_, ?_⟩
        · refine ⟨wf', .inl ⟨t, hot⟩, fun k d => by rw [e1]; exact h3 k d, e2, by simp, ?_, ?_⟩
          · rw [hE]; simp [ho]
          · rw [hE]; rfl
        all_goals
          intro e
          cases e
      | false =>
        rw [hr] at hC
        have e1 : (p.step x (out c s x)).M = p.M := congrArg Prod.fst hC
        have e2 : (p.step x (out c s x)).cur = some kd := congrArg Prod.snd hC
        have hf : nextFsm c s x = .ack := by simp [nextFsm, h, ho, hfin, hr]
        rw [hn2 hf]
        refine ⟨fun _ => rfl, fun _ => ⟨rfl, hE, hop⟩, ?_, ?_, ?_, ?_, fun _ => ?_⟩
        rotate_left 4
        · refine ⟨fun _ => hcn ho, hfl, ⟨r, hav, hrk⟩, t, hot, .inr ⟨wf', hle, ho, hfin, hit, hiv, kd, e2, ?_, ?_⟩⟩
          · rw [e1]; exact h2
          · rw [e1]; exact h3
        all_goals
          intro e
          cases e
    | false =>
      rcases hu with hu | hu
      rotate_left
      · have := hu.fin; rw [hfin] at this; cases this
      have hf : nextFsm c s x = .lookup := by simp [nextFsm, h, ho, hfin]
      have hir : insRes s = none := by simp [insRes, h, hfin]
      rw [hir] at hC
      have hC' : p.content x (out c s x) = (p.M, p.cur) := by
        rw [hC]; cases p.cur <;> rfl
      have e1 : (p.step x (out c s x)).M = p.M := congrArg Prod.fst hC'
      have e2 : (p.step x (out c s x)).cur = p.cur := congrArg Prod.snd hC'
      obtain ⟨wf', hv, kd, h1, h2, h3, h4⟩ := swap hc hw hot.1 hu ho hfin
      have hrt : r.it t = s.mem t (c.hash t s.key) := by
        rw [hu.snap r (by rw [hav]; simp) t hot.1, hrk]
      have hle : s.cntr ≤ c.maxRe := by
        rcases hu.todo.opc with ⟨_, _, a, _⟩ | ⟨a, _⟩
        · exact a
        · rw [ho] at a; cases a
      rw [hn1 (by simp [hf]), hf, hrt]
      refine ⟨fun _ => rfl, fun _ => ⟨rfl, hE, hop⟩, ?_, ?_, fun _ => ?_, ?_, ?_⟩
      rotate_left 2
      · refine ⟨⟨wf', .inl ⟨t, hot⟩, .inl ⟨ho, hv, ?_, kd, e2.trans h1, ?_, fun _ => h3, ?_⟩⟩, rfl, rfl⟩
        · show s.cntr - 1 ≤ c.maxRe
          omega
        · rw [e1]; exact h2
        · rw [e1]; exact h4
      all_goals
        intro e
        cases e

theorem idle_quiet {c : Cfg K} {s : St K D} {p : Spec K D} (hi : Idle c s p) (hl : lnip s = true) :
    s.inprog = 0 ∧ s.op ≠ .lookup ∧ p.exp = [] ∧ s.av = [] ∧ s.fly = [] := by
  simp only [lnip, Bool.and_eq_true, beq_iff_eq, bne_op, Bool.not_eq_true', decide_eq_false_iff_not] at hl
  have h1 := hi.inprog
  have h2 := hi.exp
  rw [hl.1, eq_comm, List.length_eq_zero_iff] at h1
  rw [h1, eq_comm] at h2
  simp only [List.map_eq_nil_iff, List.append_eq_nil_iff] at h2
  exact ⟨hl.1, hl.2, h1, h2.1.1, h2.1.2⟩

/-- Acceptance of a command. -/
theorem step_command {c : Cfg K} {s : St K D} {p : Spec K D} (hi : Inv c s p) (h : s.st = .idle) {x : In K D}
    (hok : DelOk c (s, p) x) (hl : lnip s = true) (hcmd : x.clean = true ∨ x.del.isSome = true ∨ x.ins.isSome = true)
    (hc : c.Valid) : Inv c (next c s x) (p.step x (out c s x)) := by
  have hid := hi.idle h
  obtain ⟨hip, hop, hexp, hav, hfl⟩ := idle_quiet hid hl
  have hlk : lkRes c s = none := by simp [lkRes, h, hav]
  have hlr : lkRd c s x = false := by
    unfold lkRd
    rcases hcmd with e | e | e
    · simp [e]
    · cases hx : x.del
      · rw [hx] at e; cases e
      · simp
    · cases hx : x.ins
      · rw [hx] at e; cases e
      · simp
  have hE : (p.step x (out c s x)).exp = [] := by
    have h1 : (out c s x).lkRd = false := hlr
    have h2 : (out c s x).lkRes = none := hlk
    unfold Spec.step
    simp only [h1, h2, hexp]
    cases x.lk <;> simp
  have hca := hi.caddr (by simp [h])
  have hni : nextInprog c s x = 0 := by simp [nextInprog, hlk, hlr, hip]
  have hen : lookupEn s = false := by simp [lookupEn, h, hop]
  have hn : next c s x = { stashIdle c s x with
      st := nextFsm c s x, tgt := s.tgt, fin := s.fin, inprog := 0, caddr := 0, mem := s.mem, av := [], fly := [] } := by
    unfold next
    rw [hni]
    simp [h, hav, hfl, hca, hen, nextMem]
  rw [hn]
  by_cases hcl : x.clean = true
  · have hf : nextFsm c s x = .cleaning := by simp [nextFsm, h, hl, hcl]
    have hs : stashIdle c s x = { s with op := .delete, ivld := false } := by simp [stashIdle, hl, hcl]
    have hC : p.content x (out c s x) = (fun _ => none, none) := by
      have : (out c s x).cleanRd = true := by simp [out, cleanRd, h, hl]
      simp [Spec.content, this, hcl]
    have e1 : (p.step x (out c s x)).M = fun _ => none := congrArg Prod.fst hC
    have e2 : (p.step x (out c s x)).cur = none := congrArg Prod.snd hC
    rw [hf, hs]
    refine ⟨fun e => absurd rfl e, fun _ => ⟨rfl, hE, by simp⟩, ?_, fun _ => ?_, ?_, ?_, ?_⟩
    rotate_left
    · refine ⟨rfl, rfl, rfl, fun k => by rw [e1], e2, ?_, fun i _ a ha => absurd ha (Nat.not_lt_zero a)⟩
      show 0 < c.items
      have := hc.items
      omega
    all_goals
      intro e
      cases e
  · have hcl' : x.clean = false := by simpa using hcl
    have hf : nextFsm c s x = .lookup := by
      rcases hcmd with e | e | e
      · exact absurd e hcl
      · simp [nextFsm, h, hl, hcl', e]
      · simp [nextFsm, h, hl, hcl', e]
    cases hd : x.del with
    | some k =>
      have hdr : delRd s x = true := by simp [delRd, h, hl, hcl']
      have hs : stashIdle c s x = { s with op := .delete, key := k, ivld := false } := by simp [stashIdle, hl, hcl', hd]
      have hC : p.content x (out c s x) = (setM p.M k none, none) := by
        have : (out c s x).delRd = true := hdr
        simp [Spec.content, this, hcl', hd]
      have e1 : (p.step x (out c s x)).M = setM p.M k none := congrArg Prod.fst hC
      have e2 : (p.step x (out c s x)).cur = none := congrArg Prod.snd hC
      rw [hf, hs]
      refine ⟨fun _ => rfl, fun _ => ⟨rfl, hE, by simp⟩, ?_, ?_, fun _ => ?_, ?_, ?_⟩
      rotate_left 2
      · refine ⟨⟨hid.wf, hid.hot, .inr ⟨rfl, rfl, e2, ?_, ?_, ?_⟩⟩, rfl, rfl⟩
        · rw [e1]; simp [setM]
        · rcases hok k hd hdr with a | a
          · left
            obtain ⟨d, hd⟩ := Option.ne_none_iff_exists'.1 a
            exact ⟨d, (hid.agree k d).1 hd⟩
          · exact .inr a
        · intro k' hk' d
          rw [e1]
          simp only [setM]
          rw [if_neg hk']
          exact hid.agree k' d
      all_goals
        intro e
        cases e
    | none =>
      cases hins : x.ins with
      | none => simp [hcl', hd, hins] at hcmd
      | some kd =>
        obtain ⟨k, d⟩ := kd
        have hir : insRd s x = true := by simp [insRd, h, hl, hcl', hd]
        have hs : stashIdle c s x = { s with op := .insert, key := k, data := d, cntr := c.maxRe, ivld := true } := by
          simp [stashIdle, hl, hcl', hd, hins]
        have hC : p.content x (out c s x) = (p.M, some (k, d)) := by
          have : (out c s x).insRd = true := hir
          simp [Spec.content, this, hcl', hd, hins]
        have e1 : (p.step x (out c s x)).M = p.M := congrArg Prod.fst hC
        have e2 : (p.step x (out c s x)).cur = some (k, d) := congrArg Prod.snd hC
        rw [hf, hs]
        refine ⟨fun _ => rfl, fun _ => ⟨rfl, hE, by simp⟩, ?_, ?_, fun _ => ?_, ?_, ?_⟩
        rotate_left 2
        · refine ⟨⟨hid.wf, hid.hot, .inl ⟨rfl, rfl, Nat.le_refl _, (k, d), e2, ?_, fun e => absurd e (Nat.lt_irrefl _), ?_⟩⟩, rfl, rfl⟩
          · simp [insM, setM]
          · intro k' hk' d'
            rw [e1]
            simp only [insM, setM]
            rw [if_neg hk']
            exact hid.agree k' d'
        all_goals
          intro e
          cases e

/-- No command is accepted, the lookups flow. -/
theorem step_flow {c : Cfg K} {s : St K D} {p : Spec K D} (hi : Inv c s p) (h : s.st = .idle) {x : In K D}
    (hcmd : lnip s = false ∨ (x.clean = false ∧ x.del = none ∧ x.ins = none)) : Inv c (next c s x) (p.step x (out c s x)) := by
  have hid := hi.idle h
  have hca := hi.caddr (by simp [h])
  have hf : nextFsm c s x = .idle := by
    rcases hcmd with e | ⟨e1, e2, e3⟩
    · simp [nextFsm, h, e]
    · simp [nextFsm, h, e1, e2, e3]
  have hC : p.content x (out c s x) = (p.M, none) := by
    have h4 : (out c s x).insRes = none := insRes_none (.inl h)
    unfold Spec.content
    rw [h4, hid.cur]
    rcases hcmd with e | ⟨e1, e2, e3⟩
    · have h1 : (out c s x).cleanRd = false := by simp [out, cleanRd, e]
      have h2 : (out c s x).delRd = false := by simp [out, delRd, e]
      have h3 : (out c s x).insRd = false := by simp [out, insRd, e]
      rw [h1, h2, h3, Bool.and_false]
      cases x.del <;> cases x.ins <;> rfl
    · rw [e1, e2, e3]
      rfl
  have e1 : (p.step x (out c s x)).M = p.M := congrArg Prod.fst hC
  have e2 : (p.step x (out c s x)).cur = none := congrArg Prod.snd hC
  have hs : stashIdle c s x = match x.lk, lkRd c s x with
      | some k, true => { s with op := .lookup, key := k }
      | _, _ => if x.la then { s with op := .delete, key := x.junkK } else s := by
    unfold stashIdle
    rcases hcmd with e | ⟨e1, e2, e3⟩
    · simp only [e, Bool.false_and, Bool.false_eq_true, if_false]
      cases x.lk <;> cases lkRd c s x <;> rfl
    · rw [e1, e2, e3]
      simp only [Bool.and_false, Bool.false_eq_true, if_false]
      cases lnip s <;> cases x.lk <;> cases lkRd c s x <;> rfl
  have hq : (next c s x).av ++ (next c s x).fly =
      (if x.lrRd then s.av.tail else s.av) ++ s.fly ++ (if lookupEn s && x.la then [read c s] else []) := by
    show ((if resNext c s x then s.av.tail else s.av) ++ _) ++ (_ ++ _) = _
    rw [List.append_assoc, ← List.append_assoc _ _ (if lookupEn s && x.la then [read c s] else []), take_drop_one,
      ← List.append_assoc]
    simp [resNext, h]
  have hmem : (next c s x).mem = s.mem := by
    show nextMem c s = _
    simp [nextMem, h]
  have htgt : (next c s x).tgt = s.tgt := by
    unfold next; simp [h]
  have hst : (next c s x).st = .idle := hf
  have hkey : (next c s x).key = (stashIdle c s x).key := by unfold next; simp [h]
  have hopn : (next c s x).op = (stashIdle c s x).op := by unfold next; simp [h]
  have hip : (next c s x).inprog = nextInprog c s x := rfl
  have hcan : (next c s x).caddr = 0 := by
    unfold next; simp [h, hca]
  have hen : lookupEn s = decide (s.op = .lookup) := by simp [lookupEn, h]
  -- the pending lookups
  have hlks : (lkRes c s).isSome = !s.av.isEmpty := by
    unfold lkRes
    rw [h]
    cases s.av with
    | nil => rfl
    | cons r l => simp only [List.isEmpty_cons, Bool.not_false]; split <;> rfl
  have hpop : (if (lkRes c s).isSome && x.lrRd then p.exp.tail else p.exp) =
      ((if x.lrRd then s.av.tail else s.av).map Res.key ++ s.fly.map Res.key ++
        if s.op = .lookup then [s.key] else []).map fun k => (k, p.M k) := by
    rw [hlks, hid.exp]
    cases hx : x.lrRd with
    | false => simp
    | true => cases s.av <;> simp
  have hnew : ((if lookupEn s && x.la then [read c s] else []).map Res.key ++
        (if (next c s x).op = .lookup then [(next c s x).key] else [])).map (fun k => (k, p.M k)) =
      ((if s.op = .lookup then [s.key] else []).map fun k => (k, p.M k)) ++
        (match x.lk, lkRd c s x with | some k, true => [(k, p.M k)] | _, _ => []) := by
    rw [hkey, hopn, hs, hen]
    by_cases ho : s.op = .lookup
    · cases hla : x.la with
      | true => cases x.lk <;> cases lkRd c s x <;> simp [ho, read]
      | false =>
        have : lkRd c s x = false := by simp [lkRd, ho, hla]
        rw [this]
        cases x.lk <;> simp [ho]
    · cases hla : x.la <;> cases x.lk <;> cases lkRd c s x <;> simp [ho]
  have hE : (p.step x (out c s x)).exp =
      (((next c s x).av ++ (next c s x).fly).map Res.key ++
        if (next c s x).op = .lookup then [(next c s x).key] else []).map fun k => (k, p.M k) := by
    show (if (lkRes c s).isSome && x.lrRd then p.exp.tail else p.exp) ++
      (match x.lk, lkRd c s x with | some k, true => [(k, p.M k)] | _, _ => []) = _
    rw [hpop, hq]
    simp only [List.map_append, List.append_assoc] at hnew ⊢
    rw [hnew]
  refine ⟨fun _ => hcan, fun e => absurd hst e, fun _ => ?_, ?_, ?_, ?_, ?_⟩
  · refine ⟨by rw [hmem]; exact hid.wf, by rw [hmem, htgt]; exact hid.hot, fun k d => by rw [e1, hmem]; exact hid.agree k d, e2, ?_,
      by rw [e1]; exact hE, ?_⟩
    · rw [hq]
      intro r hr
      unfold Snap
      rw [hmem]
      simp only [List.mem_append] at hr
      rcases hr with (hr | hr) | hr
      · refine hid.snap r (List.mem_append_left _ ?_)
        split at hr
        · exact List.mem_of_mem_tail hr
        · exact hr
      · exact hid.snap r (List.mem_append_right _ hr)
      · split at hr
        · cases List.mem_singleton.1 hr
          exact fun i _ => rfl
        · cases hr
    · rw [hip]
      show _ = ((if (lkRes c s).isSome && x.lrRd then p.exp.tail else p.exp) ++
        (match x.lk, lkRd c s x with | some k, true => [(k, p.M k)] | _, _ => [])).length
      have hpos : (lkRes c s).isSome = true → 0 < p.exp.length := by
        intro hh
        rw [hid.exp]
        rw [hlks] at hh
        cases hx : s.av with
        | nil => rw [hx] at hh; cases hh
        | cons r l => simp
      unfold nextInprog
      rw [hid.inprog]
      cases x.lk <;> cases lkRd c s x <;> cases x.lrRd <;> cases hv : (lkRes c s).isSome <;> simp
      have := hpos hv
      omega
  all_goals
    intro e
    rw [hst] at e
    cases e

theorem step_inv {c : Cfg K} (hc : c.Valid) (hp : c.Pow2) {y : Sys K D} (hi : Inv c y.1 y.2) {x : In K D} (hok : DelOk c y x) :
    Inv c (y.step c x).1 (y.step c x).2 := by
  obtain ⟨s, p⟩ := y
  cases h : s.st with
  | idle =>
    by_cases hcmd : lnip s = true ∧ (x.clean = true ∨ x.del.isSome = true ∨ x.ins.isSome = true)
    · exact step_command hi h hok hcmd.1 hcmd.2 hc
    · refine step_flow hi h ?_
      cases hl : lnip s with
      | false => exact .inl rfl
      | true =>
        have hn := fun e => hcmd ⟨hl, e⟩
        refine .inr ⟨?_, ?_, ?_⟩
        · cases e : x.clean
          · rfl
          · exact absurd (.inl e) hn
        · cases e : x.del
          · rfl
          · exact absurd (.inr (.inl (by simp [e]))) hn
        · cases e : x.ins
          · rfl
          · exact absurd (.inr (.inr (by simp [e]))) hn
  | cleaning => exact step_cleaning hc hp hi h x
  | lookup => exact step_lookup hc hi h x
  | waitRd => exact step_waitRd hc hi h x
  | ack => exact step_ack hc hi h x

theorem run_inv {c : Cfg K} (hc : c.Valid) (hp : c.Pow2) (xs : List (In K D)) :
    ∀ {y : Sys K D}, Inv c y.1 y.2 → Along c (DelOk c) y xs → Inv c (y.run c xs).1 (y.run c xs).2 := by
  induction xs with
  | nil => intro y h _; exact h
  | cons x xs ih => intro y h ha; exact ih (step_inv hc hp h ha.1) ha.2

theorem inv_ok {c : Cfg K} {s : St K D} {p : Spec K D} (hc : c.Valid) (hi : Inv c s p) (x : In K D) : p.Ok (out c s x) := by
  refine ⟨fun a ha => ?_, fun a ha => ?_⟩
  · have ha : lkRes c s = some a := ha
    have hst : s.st = .idle := by
      cases h : s.st with
      | idle => rfl
      | _ => rw [lkRes_none (by simp [h])] at ha; cases ha
    have hid := hi.idle hst
    unfold lkRes at ha
    rw [hst] at ha
    cases hav : s.av with
    | nil => rw [hav] at ha; cases ha
    | cons r l =>
      rw [hav] at ha
      have hsn : Snap c s r := hid.snap r (by rw [hav]; simp)
      refine ⟨_, _, by rw [hid.exp, hav, List.cons_append, List.map_cons, List.cons_append, List.map_cons], ?_⟩
      unfold Answers
      simp only at ha ⊢
      cases hl : lowest c.N (found r) with
      | some i =>
        rw [hl] at ha
        unfold lowest at hl
        rw [List.find?_range_eq_some] at hl
        obtain ⟨h1, h2, _⟩ := hl
        simp only [List.mem_range] at h2
        have hat := (found_at hsn h2).1 h1
        have hm : p.M r.key = some (s.mem i (c.hash i r.key)).data := (hid.agree _ _).2 ⟨i, h2, hat, rfl⟩
        rw [hm]
        simp only [Option.some.injEq] at ha
        rw [← ha, h1, hsn i h2, hat.2]
      | none =>
        rw [hl] at ha
        unfold lowest at hl
        rw [List.find?_eq_none] at hl
        have hm : p.M r.key = none := by
          cases e : p.M r.key with
          | none => rfl
          | some d =>
            obtain ⟨i, hi, hat, _⟩ := (hid.agree _ _).1 e
            exact absurd ((found_at hsn hi).2 hat) (hl i (by simpa using hi))
        rw [hm]
        simp only [Option.some.injEq] at ha
        rw [← ha]
        have := hl 0 (by simpa using hc.n)
        simpa using this
  · have ha : insRes s = some a := ha
    cases h : s.st with
    | idle => rw [insRes_none (.inl h)] at ha; cases ha
    | cleaning => rw [insRes_none (.inr (.inl h))] at ha; cases ha
    | waitRd => rw [insRes_none (.inr (.inr h))] at ha; cases ha
    | lookup =>
      obtain ⟨ht, _, _⟩ := hi.lookup h
      rcases ht.opc with ⟨_, _, _, kd, h1, h2, _⟩ | ⟨o, _⟩
      · refine ⟨kd, h1, fun _ => ?_⟩
        unfold insRes at ha
        split at ha
        · simp only [Option.some.injEq] at ha
          rw [← ha]
          exact h2
        · cases ha
      · simp [insRes, h, o] at ha
    | ack =>
      obtain ⟨_, _, _, t, _, hu⟩ := hi.ack h
      have hcur : s.op = .insert → ∃ kd, p.cur = some kd ∧ insM p.M kd s.key = some s.data := by
        intro ho
        rcases hu with hu | hu
        · rcases hu.todo.opc with ⟨_, _, _, kd, h1, h2, _⟩ | ⟨o, _⟩
          · exact ⟨kd, h1, h2⟩
          · rw [ho] at o; cases o
        · obtain ⟨kd, h1, h2, _⟩ := hu.cur
          exact ⟨kd, h1, h2⟩
      have ho : s.op = .insert := by
        cases o : s.op with
        | insert => rfl
        | delete => simp [insRes, h, o] at ha
        | lookup => exact absurd o (hi.busy (by simp [h])).2.2
      obtain ⟨kd, h1, h2⟩ := hcur ho
      refine ⟨kd, h1, fun _ => ?_⟩
      unfold insRes at ha
      split at ha
      · simp only [Option.some.injEq] at ha
        rw [← ha]
        exact h2
      · cases ha

/-- The table after reset (contents of the memories are arbitrary) and the observer which knows nothing about the content. -/
def Start (y : Sys K D) : Prop := IsReset y.1 ∧ y.2.cur = none ∧ y.2.exp = []

theorem start_clean {c : Cfg K} (hc : c.Valid) {y : Sys K D} (hy : Start y) {x : In K D} (hx : x.clean = true) :
    Inv c (y.step c x).1 (y.step c x).2 := by
  obtain ⟨s, p⟩ := y
  obtain ⟨⟨h, ho, hip, hca, hfl, hav⟩, hcur, hexp⟩ := hy
  simp only at h ho hip hca hfl hav hcur hexp
  have hl : lnip s = true := by simp [lnip, hip, ho]
  have hlk : lkRes c s = none := by simp [lkRes, h, hav]
  have hlr : lkRd c s x = false := by simp [lkRd, hx]
  have hE : (p.step x (out c s x)).exp = [] := by
    have h1 : (out c s x).lkRd = false := hlr
    have h2 : (out c s x).lkRes = none := hlk
    unfold Spec.step
    simp only [h1, h2, hexp]
    cases x.lk <;> simp
  have hn : next c s x = { s with
      st := .cleaning, op := .delete, ivld := false, inprog := 0, caddr := 0, mem := s.mem, av := [], fly := [] } := by
    unfold next
    rw [show nextInprog c s x = 0 by simp [nextInprog, hlk, hlr, hip]]
    simp [h, hav, hfl, hca, lookupEn, ho, nextMem, stashIdle, nextFsm, hl, hx]
  have hC : p.content x (out c s x) = (fun _ => none, none) := by
    have : (out c s x).cleanRd = true := by simp [out, cleanRd, h, hl]
    simp [Spec.content, this, hx]
  have e1 : (p.step x (out c s x)).M = fun _ => none := congrArg Prod.fst hC
  have e2 : (p.step x (out c s x)).cur = none := congrArg Prod.snd hC
  show Inv c (next c s x) (p.step x (out c s x))
  rw [hn]
  refine ⟨fun e => absurd rfl e, fun _ => ⟨rfl, hE, by simp⟩, ?_, fun _ => ?_, ?_, ?_, ?_⟩
  rotate_left
  · refine ⟨rfl, rfl, rfl, fun k => by rw [e1], e2, ?_, fun i _ a ha => absurd ha (Nat.not_lt_zero a)⟩
    show 0 < c.items
    have := hc.items
    omega
  all_goals
    intro e
    cases e

/-- Only keys which are stored are deleted. -/
def DelStored (y : Sys K D) (x : In K D) : Prop := ∀ k, x.del = some k → delRd y.1 x = true → y.2.M k ≠ none

theorem Along.mono {c : Cfg K} {P Q : Sys K D → In K D → Prop} (h : ∀ y x, P y x → Q y x) :
    ∀ {xs : List (In K D)} {y : Sys K D}, Along c P y xs → Along c Q y xs
  | [], _, _ => trivial
  | _ :: _, _, ha => ⟨h _ _ ha.1, ha.2.mono h⟩

/-- **C246** After the table is cleaned, it behaves as a map for any sequence of inserts, lookups, cleans and deletes of stored keys, for
any timing: each lookup is answered once, in order, by what was stored under the key when the lookup was accepted; each insert stores
the item and the result of the insert tells exactly if an item was removed for it and which one. -/
theorem map_exact (c : Cfg K) (hc : c.Valid) (hp : c.Pow2) (y : Sys K D) (hy : Start y) (x₀ : In K D) (hx : x₀.clean = true)
    (xs : List (In K D)) (ha : Along c DelStored (y.step c x₀) xs) (x : In K D) :
    ((y.run c (x₀ :: xs)).2).Ok (out c (y.run c (x₀ :: xs)).1 x) :=
  inv_ok hc (run_inv hc hp xs (start_clean hc hy hx) (ha.mono fun _ _ h k e r => .inl (h k e r))) x

/-- The content of the map of the observer is in the memories when the table is idle, and nothing else is there. -/
theorem content_exact (c : Cfg K) (hc : c.Valid) (hp : c.Pow2) (y : Sys K D) (hy : Start y) (x₀ : In K D) (hx : x₀.clean = true)
    (xs : List (In K D)) (ha : Along c DelStored (y.step c x₀) xs) (hi : (y.run c (x₀ :: xs)).1.st = .idle) (k : K) (d : D) :
    (y.run c (x₀ :: xs)).2.M k = some d ↔ ∃ i < c.N, (y.run c (x₀ :: xs)).1.mem i (c.hash i k) = ⟨k, d, true⟩ := by
  have h := (run_inv hc hp xs (start_clean hc hy hx) (ha.mono fun _ _ h k e r => .inl (h k e r))).idle hi
  rw [show Sys.run c y (x₀ :: xs) = Sys.run c (y.step c x₀) xs from rfl, h.agree]
  constructor
  · rintro ⟨i, hi, ⟨h1, h2⟩, h3⟩
    refine ⟨i, hi, ?_⟩
    cases hm : (Sys.run c (y.step c x₀) xs).1.mem i (c.hash i k)
    rw [hm] at h1 h2 h3
    simp only at h1 h2 h3
    rw [h1, h2, h3]
  · rintro ⟨i, hi, e⟩
    exact ⟨i, hi, by unfold At; rw [e]; exact ⟨rfl, rfl⟩, by rw [e]⟩

/-! ### C247: delete -/

/-- Full claim: also a delete of a key which is not stored is harmless. -/
def DeleteSpec (K : Type u) (D : Type v) [DecidableEq K] : Prop :=
  ∀ (c : Cfg K), c.Valid → c.Pow2 → ∀ (y : Sys K D), Start y → ∀ x₀ : In K D, x₀.clean = true → ∀ xs x,
    ((y.run c (x₀ :: xs)).2).Ok (out c (y.run c (x₀ :: xs)).1 x)

/-- Two tables with two items. -/
def exC : Cfg Nat := ⟨2, 2, 1, 4, 1, fun _ k => k % 2⟩

theorem exC_valid : exC.Valid :=
  ⟨by decide, by decide, by decide, by decide, by decide, fun _ k => by simp only [exC]; omega⟩
theorem exC_pow2 : exC.Pow2 := by unfold Cfg.Pow2; decide

def exI : In Nat Nat := ⟨false, none, none, none, true, true, true, true, 0⟩

def exY : Sys Nat Nat :=
  (⟨.idle, 0, 0, 0, false, .delete, fun _ => false, false, 0, 0, fun _ _ => ⟨0, 7, true⟩, [], []⟩, ⟨fun _ => none, none, []⟩)

theorem exY_start : Start exY := ⟨⟨rfl, rfl, rfl, rfl, rfl, rfl⟩, rfl, rfl⟩

/-- Items 0 and 2 are inserted (they fill both places of their hash). -/
def exFill : List (In Nat Nat) :=
  [exI, exI, { exI with ins := some (0, 5) }, exI, exI, exI, exI, { exI with ins := some (2, 6) }, exI, exI, exI, exI]

/-- Then 4, which is not stored, is deleted and 0 and 2 are looked up. -/
def exDel : List (In Nat Nat) :=
  exFill ++ [{ exI with del := some 4 }, exI, exI, exI, exI, { exI with lk := some 0 }, { exI with lk := some 2 }, exI]

/-- **C247** A delete of a key which is not stored removes another item. -/
theorem delete_fails : ¬ DeleteSpec Nat Nat := by
  intro h
  have h1 := (h exC exC_valid exC_pow2 exY exY_start { exI with clean := true } rfl exDel exI).lk
  have h2 : (out exC (Sys.run exC exY ({ exI with clean := true } :: exDel)).1 exI).lkRes = some (false, 4, 0) := by decide
  have h3 : (Sys.run exC exY ({ exI with clean := true } :: exDel)).2.exp = [(0, some 5), (2, some 6)] := by decide
  obtain ⟨e, es, h4, h5⟩ := h1 _ h2
  rw [h3] at h4
  cases h4
  cases h5

/-- **C247** If the deleted key is stored, or if there is a free place for it in some table, the delete is right. -/
theorem delete_partial (c : Cfg K) (hc : c.Valid) (hp : c.Pow2) (y : Sys K D) (hy : Start y) (x₀ : In K D) (hx : x₀.clean = true)
    (xs : List (In K D)) (ha : Along c (DelOk c) (y.step c x₀) xs) (x : In K D) :
    ((y.run c (x₀ :: xs)).2).Ok (out c (y.run c (x₀ :: xs)).1 x) :=
  inv_ok hc (run_inv hc hp xs (start_clean hc hy hx) ha) x

/-! ### C248: clean -/

/-- Full claim: after the clean the lookups do not find anything. -/
def CleanSpec (K : Type u) (D : Type v) [DecidableEq K] : Prop :=
  ∀ (c : Cfg K), c.Valid → ∀ (y : Sys K D), Start y → ∀ x₀ : In K D, x₀.clean = true → ∀ xs : List (In K D),
    (∀ x ∈ xs, x.del = none ∧ x.ins = none) → ∀ x a, (out c (y.run c (x₀ :: xs)).1 x).lkRes = some a → a.1 = false

/-- Two tables with six items, the address has three bits. -/
def exC6 : Cfg Nat := ⟨2, 6, 3, 4, 1, fun _ k => k % 8⟩

theorem exC6_valid : exC6.Valid :=
  ⟨by decide, by decide, by decide, by decide, by decide, fun _ k => by simp only [exC6]; omega⟩

def exY6 : Sys Nat Nat :=
  (⟨.idle, 0, 0, 0, false, .delete, fun _ => false, false, 0, 0, fun _ _ => ⟨7, 9, true⟩, [], []⟩, ⟨fun _ => none, none, []⟩)

/-- **C248** If the number of items is not a power of two, the end of the memory is not cleaned. -/
theorem clean_fails : ¬ CleanSpec Nat Nat := by
  intro h
  have h1 := h exC6 exC6_valid exY6 ⟨⟨rfl, rfl, rfl, rfl, rfl, rfl⟩, rfl, rfl⟩ { exI with clean := true } rfl
    [exI, exI, exI, exI, exI, exI, { exI with lk := some 7 }, exI, exI] (by decide) exI (true, 7, 9) (by decide)
  cases h1

/-- Nothing is stored by the observer without inserts. -/
theorem spec_empty {c : Cfg K} (xs : List (In K D)) : ∀ (y : Sys K D), y.2.cur = none → (∀ k, y.2.M k = none) →
    (∀ e ∈ y.2.exp, e.2 = none) → (∀ x ∈ xs, x.del = none ∧ x.ins = none) →
    Along c DelStored y xs ∧ ∀ e ∈ (y.run c xs).2.exp, e.2 = none := by
  induction xs with
  | nil => intro y _ _ h _; exact ⟨trivial, h⟩
  | cons x xs ih =>
    intro y hcur hM he hx
    obtain ⟨h1, h2⟩ := hx x (by simp)
    have hC : (∀ k, (y.2.content x (out c y.1 x)).1 k = none) ∧ (y.2.content x (out c y.1 x)).2 = none := by
      unfold Spec.content
      rw [h1, h2, hcur]
      split
      · exact ⟨fun _ => rfl, rfl⟩
      · exact ⟨hM, rfl⟩
    have := ih (y.step c x) hC.2 hC.1 ?_ (fun x' hx' => hx x' (by simp [hx']))
    · refine ⟨⟨fun k e => (by rw [h1] at e; cases e), this.1⟩, this.2⟩
    · intro e hem
      have hem : e ∈ (if (out c y.1 x).lkRes.isSome && x.lrRd then y.2.exp.tail else y.2.exp) ++
        (match x.lk, (out c y.1 x).lkRd with | some k, true => [(k, y.2.M k)] | _, _ => []) := hem
      rw [List.mem_append] at hem
      rcases hem with hem | hem
      · split at hem
        · exact he e (List.mem_of_mem_tail hem)
        · exact he e hem
      · split at hem
        · cases List.mem_singleton.1 hem
          exact hM _
        · cases hem

/-- **C248** If the number of items of a table is a power of two, nothing is found after the clean, whatever was in the memory. -/
theorem clean_partial (c : Cfg K) (hc : c.Valid) (hp : c.Pow2) (y : Sys K D) (hy : Start y) (x₀ : In K D) (hx : x₀.clean = true)
    (xs : List (In K D)) (hxs : ∀ x ∈ xs, x.del = none ∧ x.ins = none) (x : In K D) (a : Bool × K × D)
    (ha : (out c (y.run c (x₀ :: xs)).1 x).lkRes = some a) : a.1 = false := by
  have hi := start_clean hc hy hx
  have hst : (y.step c x₀).1.st = .cleaning := by
    show nextFsm c y.1 x₀ = _
    have hl : lnip y.1 = true := by simp [lnip, hy.1.inprog, hy.1.op]
    simp [nextFsm, hy.1.st, hl, hx]
  obtain ⟨_, _, _, hM, hcur, _⟩ := hi.cleaning hst
  have hexp := (hi.busy (by simp [hst])).2.1
  obtain ⟨h1, h2⟩ := spec_empty xs (y.step c x₀) hcur hM (by rw [hexp]; simp) hxs
  obtain ⟨e, es, h3, h4⟩ := (map_exact c hc hp y hy x₀ hx xs h1 x).lk a ha
  have h5 := h2 e (by rw [show Sys.run c (y.step c x₀) xs = Sys.run c y (x₀ :: xs) from rfl, h3]; simp)
  unfold Answers at h4
  rw [h5] at h4
  exact h4

/-! ### C249: commands finish -/

/-- Number of cycles until the table is idle again, if nobody waits. -/
def mu (c : Cfg K) (s : St K D) : Nat :=
  match s.st with
  | .idle => 0
  | .cleaning => c.items - s.caddr
  | .lookup => if s.op = .insert then 4 * s.cntr + 1 else 4
  | .waitRd => (if s.op = .insert then 4 * s.cntr else 3) - if s.av.isEmpty then 0 else 1
  | .ack => if s.op = .insert then 4 * s.cntr - 2 else 1

theorem mu_step {c : Cfg K} {s : St K D} {p : Spec K D} (hi : Inv c s p) (hne : s.st ≠ .idle) {x : In K D}
    (hx : x.la = true ∧ x.rv = true ∧ x.resRd = true) : mu c (next c s x) + 1 ≤ mu c s := by
  obtain ⟨h1, h2, h3⟩ := hx
  have hop : (next c s x).op = s.op ∨ s.st = .ack := by
    cases h : s.st with
    | idle => exact absurd h hne
    | ack => exact .inr rfl
    | _ => left; simp [next, h, resNext]
  cases h : s.st with
  | idle => exact absurd h hne
  | cleaning =>
    obtain ⟨_, _, _, _, _, hlt, _⟩ := hi.cleaning h
    by_cases e : s.caddr = c.items - 1
    · simp [mu, next, h, nextFsm, e]
      omega
    · simp [mu, next, h, nextFsm, e]
      omega
  | lookup =>
    obtain ⟨ht, hav, hfl⟩ := hi.lookup h
    rcases ht.opc with ⟨o, _⟩ | ⟨o, _⟩
    · by_cases e : s.cntr = 0
      · simp [mu, next, h, nextFsm, e, o, h3]
      · simp [mu, next, h, nextFsm, e, o, h1, resNext, hav, hfl]
    · simp [mu, next, h, nextFsm, o, h1, resNext, hav, hfl]
  | waitRd =>
    obtain ⟨ht, hcn, r, hq, _⟩ := hi.waitRd h
    cases hav : s.av with
    | nil =>
      rw [hav, List.nil_append] at hq
      rcases ht.opc with ⟨o, _⟩ | ⟨o, _⟩
      · have := hcn o
        simp [mu, next, h, nextFsm, o, h2, resNext, hav, hq, resVld]
        omega
      · simp [mu, next, h, nextFsm, o, h2, resNext, hav, hq, resVld]
    | cons r' l =>
      rcases ht.opc with ⟨o, _⟩ | ⟨o, _⟩
      · have := hcn o
        simp [mu, next, h, nextFsm, o, resNext, hav, resVld]
        omega
      · simp [mu, next, h, nextFsm, o, resNext, hav, resVld]
  | ack =>
    obtain ⟨hcn, hfl, ⟨r, hav, _⟩, t, hot, _⟩ := hi.ack h
    have hlow := lowest_onehot hot
    have hop := (hi.busy hne).2.2
    cases o : s.op with
    | lookup => exact absurd o hop
    | delete => simp [mu, next, h, nextFsm, o]
    | insert =>
      have := hcn o
      cases hf : s.fin with
      | true =>
        simp [mu, next, h, nextFsm, o, hf, h3]
        omega
      | false =>
        simp [mu, next, h, nextFsm, o, hf, resNext, stashSwap, hlow, hav]
        omega

theorem mu_le {c : Cfg K} {s : St K D} {p : Spec K D} (hi : Inv c s p) (hm : 0 < c.maxRe) : mu c s ≤ 4 * c.maxRe + c.items + 1 := by
  have key : ∀ s : St K D, Todo c s p → s.op = .insert → s.cntr ≤ c.maxRe := by
    intro s ht o
    rcases ht.opc with ⟨_, _, h, _⟩ | ⟨o', _⟩
    · exact h
    · rw [o] at o'; cases o'
  unfold mu
  cases h : s.st with
  | idle => simp
  | cleaning => simp only; omega
  | lookup =>
    have := key s (hi.lookup h).1
    simp only
    split
    · rename_i o; have := this o; omega
    · omega
  | waitRd =>
    have := key s (hi.waitRd h).1
    simp only
    split
    · rename_i o; have := this o; omega
    · omega
  | ack =>
    obtain ⟨_, _, _, t, _, hu⟩ := hi.ack h
    simp only
    split
    · rename_i o
      rcases hu with hu | hu
      · have := key s hu.todo o; omega
      · have := hu.le; omega
    · omega

theorem finish_aux {c : Cfg K} (hc : c.Valid) (hp : c.Pow2) (xs : List (In K D)) : ∀ (y : Sys K D), Inv c y.1 y.2 →
    Along c DelStored y xs → (∀ x ∈ xs, x.la = true ∧ x.rv = true ∧ x.resRd = true) → mu c y.1 ≤ xs.length →
    ∃ n ≤ xs.length, (y.run c (xs.take n)).1.st = .idle := by
  induction xs with
  | nil =>
    intro y hi _ _ hm
    refine ⟨0, Nat.le_refl _, ?_⟩
    show y.1.st = .idle
    cases h : y.1.st with
    | idle => rfl
    | cleaning =>
      have := (hi.cleaning h).2.2.2.2.2.1
      simp [mu, h] at hm
      omega
    | lookup => simp only [mu, h, List.length_nil] at hm; split at hm <;> omega
    | waitRd =>
      have h2 := (hi.waitRd h).2.1
      simp only [mu, h, List.length_nil] at hm
      split at hm
      · rename_i o; have := h2 o; split at hm <;> omega
      · split at hm <;> omega
    | ack =>
      have h2 := (hi.ack h).1
      simp only [mu, h, List.length_nil] at hm
      split at hm
      · rename_i o; have := h2 o; omega
      · omega
  | cons x xs ih =>
    intro y hi ha hx hm
    by_cases h : y.1.st = .idle
    · exact ⟨0, Nat.zero_le _, h⟩
    · have h1 := mu_step hi h (hx x (by simp))
      have h2 : Inv c (y.step c x).1 (y.step c x).2 := step_inv hc hp hi fun k e r => .inl (ha.1 k e r)
      obtain ⟨n, h3, h4⟩ := ih (y.step c x) h2 ha.2 (fun x' hx' => hx x' (by simp [hx'])) (by
        show mu c (next c y.1 x) ≤ _
        simp only [List.length_cons] at hm
        omega)
      exact ⟨n + 1, by simp only [List.length_cons]; omega, h4⟩

/-- **C249** The table is ready for another command after at most `4 * MAX_REINSERT + items + 1` clock cycles in which nobody waits,
whatever the keys and their hashes are. -/
theorem finishes (c : Cfg K) (hc : c.Valid) (hp : c.Pow2) (y : Sys K D) (hy : Start y) (x₀ : In K D) (hx : x₀.clean = true)
    (xs xs' : List (In K D)) (ha : Along c DelStored (y.step c x₀) (xs ++ xs'))
    (hr : ∀ x ∈ xs', x.la = true ∧ x.rv = true ∧ x.resRd = true) (hl : 4 * c.maxRe + c.items + 1 ≤ xs'.length) :
    ∃ n ≤ xs'.length, (y.run c (x₀ :: xs ++ xs'.take n)).1.st = .idle := by
  have split : ∀ (xs : List (In K D)) (y : Sys K D), Along c DelStored y (xs ++ xs') →
      Along c DelStored y xs ∧ Along c DelStored (y.run c xs) xs' := by
    intro xs
    induction xs with
    | nil => exact fun y h => ⟨trivial, h⟩
    | cons x xs ih => exact fun y h => ⟨⟨h.1, (ih _ h.2).1⟩, (ih _ h.2).2⟩
  obtain ⟨h1, h2⟩ := split xs _ ha
  have hi := run_inv hc hp xs (start_clean hc hy hx) (h1.mono fun _ _ h k e r => .inl (h k e r))
  obtain ⟨n, h3, h4⟩ := finish_aux hc hp xs' _ hi h2 hr (Nat.le_trans (mu_le hi hc.maxRe) hl)
  refine ⟨n, h3, ?_⟩
  rw [show Sys.run c y (x₀ :: xs ++ xs'.take n) = Sys.run c (Sys.run c (y.step c x₀) xs) (xs'.take n) by
    simp [Sys.run, List.foldl_append]]
  exact h4

/-! ### C250: the key in the result of lookup -/

/-- Full claim (documentation of `HwIOLookupResult`, hashTable_intf.py:205): the key in the result is the key which was searched for. -/
def ResKeySpec (K : Type u) (D : Type v) [DecidableEq K] : Prop :=
  ∀ (c : Cfg K), c.Valid → c.Pow2 → ∀ (y : Sys K D), Start y → ∀ x₀ : In K D, x₀.clean = true → ∀ xs,
    Along c DelStored (y.step c x₀) xs → ∀ x a, (out c (y.run c (x₀ :: xs)).1 x).lkRes = some a →
    ((y.run c (x₀ :: xs)).2.exp.head?.map Prod.fst) = some a.2.1

/-- **C250** If the key is not found the result has the key of another item. -/
theorem resKey_fails : ¬ ResKeySpec Nat Nat := by
  intro h
  have h1 := h exC exC_valid exC_pow2 exY exY_start { exI with clean := true } rfl
    (exFill ++ [{ exI with lk := some 4 }, exI, exI])
    (by
      have e : ∀ (xs : List (In Nat Nat)), (∀ x ∈ xs, x.del = none) → ∀ y : Sys Nat Nat, Along exC DelStored y xs := by
        intro xs
        induction xs with
        | nil => exact fun _ _ => trivial
        | cons x xs ih =>
          exact fun hx y => ⟨fun k e => (by rw [hx x (by simp)] at e; cases e), ih (fun x' h' => hx x' (by simp [h'])) _⟩
      exact e _ (by decide) _) exI (false, 0, 5) (by decide)
  revert h1
  decide

/-- **C250** The key in the result is right if the key was found. -/
theorem resKey_partial (c : Cfg K) (hc : c.Valid) (hp : c.Pow2) (y : Sys K D) (hy : Start y) (x₀ : In K D) (hx : x₀.clean = true)
    (xs : List (In K D)) (ha : Along c DelStored (y.step c x₀) xs) (x : In K D) (a : Bool × K × D)
    (hr : (out c (y.run c (x₀ :: xs)).1 x).lkRes = some a) (hf : a.1 = true) :
    ((y.run c (x₀ :: xs)).2.exp.head?.map Prod.fst) = some a.2.1 := by
  obtain ⟨e, es, h1, h2⟩ := (map_exact c hc hp y hy x₀ hx xs ha x).lk a hr
  rw [h1]
  unfold Answers at h2
  cases he : e.2 with
  | none => rw [he] at h2; rw [h2] at hf; cases hf
  | some d => rw [he] at h2; rw [h2]; rfl

/-! ### C251: lookups are accepted -/

/-- Full claim: an idle table in which no lookup is in progress accepts a lookup if there is no other command. -/
def AcceptSpec (K : Type u) (D : Type v) : Prop :=
  ∀ (c : Cfg K), 0 < c.overlap → ∀ s : St K D, IsReset s → ∀ x : In K D, x.clean = false → x.del = none → x.ins = none →
    lkRd c s x = true

/-- **C251** With `MAX_LOOKUP_OVERLAP = 1` no lookup is ever accepted. -/
theorem accept_fails : ¬ AcceptSpec Nat Nat := by
  intro h
  have := h { exC with overlap := 1 } (by decide) exY.1 ⟨rfl, rfl, rfl, rfl, rfl, rfl⟩ exI rfl rfl rfl
  revert this
  decide

theorem overlap_one_never (c : Cfg K) (ho : c.overlap = 1) (s : St K D) (hs : IsReset s) (xs : List (In K D)) (x : In K D) :
    lkRd c (((machine c).final s xs)) x = false := by
  have key : ∀ (xs : List (In K D)) (s : St K D), s.inprog = 0 → ((machine c).final s xs).inprog = 0 := by
    intro xs
    induction xs with
    | nil => exact fun s h => h
    | cons x xs ih =>
      intro s h
      rw [Machine.final_cons]
      refine ih _ ?_
      show nextInprog c s x = 0
      have : lkRd c s x = false := by simp [lkRd, h, ho]
      simp only [nextInprog, this, h]
      split
      · rename_i e; simp at e
      · split <;> rfl
  simp [lkRd, key xs s hs.inprog, ho]

/-- **C251** Otherwise an idle table accepts a lookup whenever fewer than `MAX_LOOKUP_OVERLAP - 1` lookups are in progress and the
last one was passed to the tables. -/
theorem accept_partial (c : Cfg K) (hc : c.Valid) (hp : c.Pow2) (y : Sys K D) (hy : Start y) (x₀ : In K D) (hx : x₀.clean = true)
    (xs : List (In K D)) (ha : Along c DelStored (y.step c x₀) xs) (hi : (y.run c (x₀ :: xs)).1.st = .idle) (x : In K D)
    (h1 : x.clean = false) (h2 : x.del = none) (h3 : x.ins = none) (hla : x.la = true)
    (hn : (y.run c (x₀ :: xs)).2.exp.length < c.overlap - 1) : (out c (y.run c (x₀ :: xs)).1 x).lkRd = true := by
  have h := (run_inv hc hp xs (start_clean hc hy hx) (ha.mono fun _ _ h k e r => .inl (h k e r))).idle hi
  have h4 := h.inprog
  have h5 : (y.run c (x₀ :: xs)).1.inprog ≠ c.overlap - 1 := by
    rw [show y.run c (x₀ :: xs) = Sys.run c (y.step c x₀) xs from rfl] at hn ⊢
    omega
  show lkRd _ _ _ = true
  simp [lkRd, hi, h1, h2, h3, hla, h5]

/-! ### Concrete cases -/

/-- Third item of the same hash: one of the items is removed and reported. -/
def exPop : List (In Nat Nat) := exFill ++ [{ exI with ins := some (4, 7) }, exI, exI, exI, exI]

theorem exAlong : ∀ (xs : List (In Nat Nat)), (∀ x ∈ xs, x.del = none) → ∀ y : Sys Nat Nat, Along exC DelStored y xs := by
  intro xs
  induction xs with
  | nil => exact fun _ _ => trivial
  | cons x xs ih =>
    exact fun hx y => ⟨fun k e => (by rw [hx x (by simp)] at e; cases e), ih (fun x' h' => hx x' (by simp [h'])) _⟩

example : (out exC (Sys.run exC exY ({ exI with clean := true } :: exPop)).1 exI).insRes = some (true, 0, 5) := by decide

example : Along exC DelStored (Sys.step exC exY { exI with clean := true }) exPop := exAlong _ (by decide) _

/-- A stored key is deleted. -/
example : Along exC DelStored (Sys.step exC exY { exI with clean := true }) (exFill ++ [{ exI with del := some 2 }, exI]) := by
  have e : ∀ (y : Sys Nat Nat) (xs ys : List (In Nat Nat)), Along exC DelStored y xs → Along exC DelStored (y.run exC xs) ys →
      Along exC DelStored y (xs ++ ys) := by
    intro y xs
    induction xs generalizing y with
    | nil => exact fun _ _ h => h
    | cons x xs ih => exact fun ys h1 h2 => ⟨h1.1, ih _ ys h1.2 h2⟩
  refine e _ _ _ (exAlong _ (by decide) _) ⟨fun k hk _ => ?_, fun k hk => (by cases hk), trivial⟩
  cases hk
  decide

end Verif.Cuckoo
