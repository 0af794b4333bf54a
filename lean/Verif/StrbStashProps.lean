import Verif.StrbStash
/-
C350-C352: strb and keep of the words built by `Axi4S_frameDeparser`.
-/

namespace Verif.StrbStash

/-! Specification: what each *bit* of the word is, and what a byte mask says about bits. -/

/-- Bits of the pieces of a member which hold data (`f = strb`) / belong to the frame (`f = keep`). -/
def pieceBits (f : Piece → Bool) (ps : List Piece) : List Bool :=
  ps.flatMap fun p => List.replicate p.w (f p)

/-- Bits of the word for the selected members of the unions. -/
def partBits (f : Piece → Bool) (sel : Sel) : Part → List Bool
  | .plain p => List.replicate p.w (f p)
  | .union u _ cs => pieceBits f (cs.getD (sel u) [])

def wordBits (f : Piece → Bool) (sel : Sel) (ps : List Part) : List Bool :=
  ps.flatMap (partBits f sel)

/-- Byte `k` of the mask is set iff the bits of byte `k` are. -/
def MaskOf (m bits : List Bool) : Prop :=
  bits.length = 8 * m.length ∧
  ∀ k j, k < m.length → j < 8 → bits[8 * k + j]? = m[k]?

/-- The selection picks an existing member, and the members fill the union
(`_deparser.py:189-213` pads the holes). -/
def SelOk (sel : Sel) : Part → Prop
  | .plain _ => True
  | .union u w cs => sel u < cs.length ∧ ∀ c ∈ cs, (pieceBits Piece.strb c).length = w

theorem maskOf_nil : MaskOf [] [] := ⟨rfl, by intro k j hk; simp at hk⟩

theorem maskOf_append {m n b c : List Bool} (h1 : MaskOf m b) (h2 : MaskOf n c) :
    MaskOf (m ++ n) (b ++ c) := by
  obtain ⟨l1, h1⟩ := h1
  obtain ⟨l2, h2⟩ := h2
  refine ⟨by simp [l1, l2]; omega, ?_⟩
  intro k j hk hj
  simp only [List.length_append] at hk
  by_cases hm : k < m.length
  · rw [List.getElem?_append_left (by omega), List.getElem?_append_left hm]
    exact h1 k j hm hj
  · rw [List.getElem?_append_right (by omega), List.getElem?_append_right (by omega)]
    have := h2 (k - m.length) j (by omega) hj
    rw [← this]
    congr 1
    omega

theorem maskOf_replicate {w : Nat} (h : w % 8 = 0) (b : Bool) :
    MaskOf (List.replicate (w / 8) b) (List.replicate w b) := by
  refine ⟨by simp; omega, ?_⟩
  intro k j hk hj
  simp only [List.length_replicate] at hk
  simp only [List.getElem?_replicate]
  rw [if_pos (by omega), if_pos hk]

/-- `v` pushed with width `w` stands for `bits`. -/
def ItemOk (sel : Sel) (w : Nat) (v : Val) (bits : List Bool) : Prop :=
  match v with
  | .flag b => bits = List.replicate w b
  | .sig f => MaskOf (f sel) bits
  | .const l => MaskOf (List.replicate (w / 8) (l.any id)) bits

theorem pushMask_ok {sel : Sel} {res res' : List (Sel → List Bool)} {w : Nat} {v : Val}
    {rb bits : List Bool} (hr : MaskOf ((res.map (fun f => f sel)).flatten) rb)
    (hi : ItemOk sel w v bits) (h : pushMask res w v = some res') :
    MaskOf ((res'.map (fun f => f sel)).flatten) (rb ++ bits) := by
  unfold pushMask at h
  split at h
  · rename_i hw
    cases v with
    | flag b =>
      simp only [Option.some.injEq] at h
      subst h
      simp only [ItemOk] at hi
      subst hi
      simp only [List.map_append, List.map_cons, List.map_nil, List.flatten_append,
        List.flatten_cons, List.flatten_nil, List.append_nil]
      exact maskOf_append hr (maskOf_replicate hw.1 b)
    | sig f =>
      simp only [Option.some.injEq] at h
      subst h
      simp only [List.map_append, List.map_cons, List.map_nil, List.flatten_append,
        List.flatten_cons, List.flatten_nil, List.append_nil]
      exact maskOf_append hr hi
    | const l =>
      simp only [Option.some.injEq] at h
      subst h
      simp only [List.map_append, List.map_cons, List.map_nil, List.flatten_append,
        List.flatten_cons, List.flatten_nil, List.append_nil]
      exact maskOf_append hr hi
  · exact absurd h (by simp)

theorem isSame_flag {v s : Val} (h : isSame v s = true) : ∃ b, v = .flag b ∧ s = .flag b := by
  cases v <;> cases s <;> simp [isSame] at h
  subst h
  exact ⟨_, rfl, rfl⟩

/-- Items with the bits they stand for. -/
abbrev Item := Nat × Val × List Bool

theorem vecLoop_ok {sel : Sel} (xs : List Item) :
    ∀ (prev : Option Item) (res res' : List (Sel → List Bool)) (rb : List Bool),
      (∀ x ∈ xs, ItemOk sel x.1 x.2.1 x.2.2) →
      (∀ p, prev = some p → ItemOk sel p.1 p.2.1 p.2.2) →
      MaskOf ((res.map (fun f => f sel)).flatten) rb →
      vecLoop (xs.map fun x => (x.1, x.2.1)) (prev.map fun p => (p.1, p.2.1)) res = some res' →
      MaskOf ((res'.map (fun f => f sel)).flatten)
        (rb ++ (prev.elim [] fun p => p.2.2) ++ xs.flatMap fun x => x.2.2) := by
  induction xs with
  | nil =>
    intro prev res res' rb _ hp hr h
    cases prev with
    | none =>
      simp only [List.map_nil, Option.map_none, vecLoop, Option.some.injEq] at h
      subst h
      simpa using hr
    | some p =>
      simp only [List.map_nil, Option.map_some, vecLoop] at h
      simpa using pushMask_ok hr (hp p rfl) h
  | cons x xs ih =>
    intro prev res res' rb hx hp hr h
    have hx0 := hx x (by simp)
    have hxs : ∀ y ∈ xs, ItemOk sel y.1 y.2.1 y.2.2 := fun y hy => hx y (by simp [hy])
    cases prev with
    | none =>
      simp only [List.map_cons, Option.map_none, vecLoop] at h
      split at h
      · have := ih (some x) res res' rb hxs (by intro p hp'; cases hp'; exact hx0) hr h
        simpa using this
      · exact absurd h (by simp)
    | some p =>
      simp only [List.map_cons, Option.map_some, vecLoop] at h
      split at h
      · rename_i hs
        obtain ⟨b, hv, hv'⟩ := isSame_flag hs
        have hp0 := hp p rfl
        rw [hv] at hp0 h
        rw [hv'] at hx0
        simp only [ItemOk] at hp0 hx0
        have := ih (some (p.1 + x.1, .flag b, p.2.2 ++ x.2.2)) res res' rb hxs
          (by
            intro q hq
            cases hq
            simp only [ItemOk]
            rw [hp0, hx0, List.replicate_append_replicate]) hr h
        simpa using this
      · cases hpm : pushMask res p.1 p.2.1 with
        | none => rw [hpm] at h; exact absurd h (by simp)
        | some r1 =>
          rw [hpm] at h
          have h1 := pushMask_ok hr (hp p rfl) hpm
          have := ih (some x) r1 res' (rb ++ p.2.2) hxs (by intro q hq; cases hq; exact hx0) h1 h
          simpa using this

theorem vecToSignal_ok {sel : Sel} {xs : List Item} {f : Sel → List Bool}
    (hx : ∀ x ∈ xs, ItemOk sel x.1 x.2.1 x.2.2)
    (h : vecToSignal (xs.map fun x => (x.1, x.2.1)) = some f) :
    MaskOf (f sel) (xs.flatMap fun x => x.2.2) := by
  unfold vecToSignal at h
  split at h
  · exact absurd h (by simp)
  · rename_i res hres
    simp only [Option.some.injEq] at h
    subst h
    have := vecLoop_ok (sel := sel) xs none [] res [] hx (by intro p hp; cases hp)
      (by simpa using maskOf_nil) (by simpa using hres)
    simpa using this

/-! ### Words without a union -/

def Plain : Part → Prop
  | .plain _ => True
  | .union .. => False

theorem wordVals_plain {ps : List Part} (hp : ∀ p ∈ ps, Plain p) :
    ∃ pcs : List Piece, ps = pcs.map .plain ∧
      wordVals ps = some (pcs.map fun p => ((p.w, .flag p.strb), (p.w, .flag p.keep))) := by
  induction ps with
  | nil => exact ⟨[], rfl, rfl⟩
  | cons p ps ih =>
    obtain ⟨pcs, h1, h2⟩ := ih fun q hq => hp q (by simp [hq])
    cases p with
    | plain q =>
      refine ⟨q :: pcs, by simp [h1], ?_⟩
      simp only [wordVals, partMasks, h2, List.map_cons]
    | union u w cs => exact absurd (hp (.union u w cs) List.mem_cons_self) (fun h => h)

theorem wordBits_plain (f : Piece → Bool) (sel : Sel) (pcs : List Piece) :
    wordBits f sel (pcs.map .plain) = pieceBits f pcs := by
  simp [wordBits, pieceBits, List.flatMap_map, partBits]

/-- C350: in a word built of plain fields and padding, bit `k` of `strb` is set iff byte `k` holds
data of a field, and bit `k` of `keep` is set iff byte `k` must not be removed. -/
theorem word_plain_masks {ps : List Part} (hp : ∀ p ∈ ps, Plain p) (sel : Sel) :
    (∀ f, wordStrb ps = some f → MaskOf (f sel) (wordBits Piece.strb sel ps)) ∧
    (∀ f, wordKeep ps = some f → MaskOf (f sel) (wordBits Piece.keep sel ps)) := by
  obtain ⟨pcs, rfl, h2⟩ := wordVals_plain hp
  constructor
  · intro f hf
    unfold wordStrb at hf
    rw [h2] at hf
    rw [wordBits_plain]
    have := vecToSignal_ok (sel := sel)
      (xs := pcs.map fun p => (p.w, .flag p.strb, List.replicate p.w p.strb)) (f := f)
      (by
        intro x hx
        simp only [List.mem_map] at hx
        obtain ⟨p, _, rfl⟩ := hx
        rfl)
      (by simpa [List.map_map, Function.comp_def] using hf)
    simpa [pieceBits, List.flatMap_map] using this
  · intro f hf
    unfold wordKeep at hf
    rw [h2] at hf
    rw [wordBits_plain]
    have := vecToSignal_ok (sel := sel)
      (xs := pcs.map fun p => (p.w, .flag p.keep, List.replicate p.w p.keep)) (f := f)
      (by
        intro x hx
        simp only [List.mem_map] at hx
        obtain ⟨p, _, rfl⟩ := hx
        rfl)
      (by simpa [List.map_map, Function.comp_def] using hf)
    simpa [pieceBits, List.flatMap_map] using this

/-- The elaboration only fails on fields which are not byte aligned: if every piece is a
non-empty multiple of 8 bits the masks exist. -/
theorem vecLoop_some (pcs : List (Nat × Bool)) (h : ∀ p ∈ pcs, p.1 % 8 = 0 ∧ 0 < p.1) :
    ∀ (prev : Option (Nat × Bool)) (res : List (Sel → List Bool)),
      (∀ p, prev = some p → p.1 % 8 = 0 ∧ 0 < p.1) →
      ∃ r, vecLoop (pcs.map fun p => (p.1, .flag p.2)) (prev.map fun p => (p.1, .flag p.2)) res
        = some r := by
  induction pcs with
  | nil =>
    intro prev res hp
    cases prev with
    | none => exact ⟨res, rfl⟩
    | some p =>
      simp only [List.map_nil, Option.map_some, vecLoop, pushMask]
      rw [if_pos (hp p rfl)]
      exact ⟨_, rfl⟩
  | cons x xs ih =>
    intro prev res hp
    have hx := h x (by simp)
    have hxs : ∀ p ∈ xs, p.1 % 8 = 0 ∧ 0 < p.1 := fun p hp' => h p (by simp [hp'])
    cases prev with
    | none =>
      simp only [List.map_cons, Option.map_none, vecLoop]
      rw [if_pos hx.2]
      exact ih hxs (some x) res (by intro p hp'; cases hp'; exact hx)
    | some p =>
      have hp0 := hp p rfl
      simp only [List.map_cons, Option.map_some, vecLoop]
      split
      · exact ih hxs (some (p.1 + x.1, p.2)) res (by
          intro q hq
          cases hq
          simp only
          omega)
      · simp only [pushMask]
        rw [if_pos hp0]
        exact ih hxs (some x) _ (by intro q hq; cases hq; exact hx)

/-- C350: masks exist for byte aligned fields. -/
theorem word_plain_some {pcs : List Piece} (h : ∀ p ∈ pcs, p.w % 8 = 0 ∧ 0 < p.w) :
    (∃ f, wordStrb (pcs.map .plain) = some f) ∧ (∃ f, wordKeep (pcs.map .plain) = some f) := by
  obtain ⟨pcs', h1, h2⟩ := wordVals_plain (ps := pcs.map .plain) (by
    intro p hp
    simp only [List.mem_map] at hp
    obtain ⟨q, _, rfl⟩ := hp
    trivial)
  have hinj : pcs' = pcs := by
    have : ∀ a b : List Piece, a.map Part.plain = b.map .plain → a = b := by
      intro a
      induction a with
      | nil => intro b hb; cases b <;> simp_all
      | cons x a ih =>
        intro b hb
        cases b with
        | nil => simp at hb
        | cons y b =>
          simp only [List.map_cons, List.cons.injEq, Part.plain.injEq] at hb
          rw [hb.1, ih b hb.2]
    exact (this _ _ h1).symm
  subst hinj
  constructor
  · obtain ⟨r, hr⟩ := vecLoop_some (pcs'.map fun p => (p.w, p.strb)) (by
      intro p hp
      simp only [List.mem_map] at hp
      obtain ⟨q, hq, rfl⟩ := hp
      exact h q hq) none [] (by intro p hp; cases hp)
    unfold wordStrb vecToSignal
    rw [h2]
    simp only [List.map_map, Function.comp_def, Option.map_none] at hr ⊢
    rw [hr]
    exact ⟨_, rfl⟩
  · obtain ⟨r, hr⟩ := vecLoop_some (pcs'.map fun p => (p.w, p.keep)) (by
      intro p hp
      simp only [List.mem_map] at hp
      obtain ⟨q, hq, rfl⟩ := hp
      exact h q hq) none [] (by intro p hp; cases hp)
    unfold wordKeep vecToSignal
    rw [h2]
    simp only [List.map_map, Function.comp_def, Option.map_none] at hr ⊢
    rw [hr]
    exact ⟨_, rfl⟩

/-- Two fields, padding between them, removable padding at the end; 4 bit fields are merged. -/
example : (wordStrb [.plain ⟨4, true, true⟩, .plain ⟨4, true, true⟩, .plain ⟨8, false, true⟩,
      .plain ⟨8, true, true⟩, .plain ⟨8, false, false⟩]).map (· fun _ => 0)
      = some [true, false, true, false] ∧
    (wordKeep [.plain ⟨4, true, true⟩, .plain ⟨4, true, true⟩, .plain ⟨8, false, true⟩,
      .plain ⟨8, true, true⟩, .plain ⟨8, false, false⟩]).map (· fun _ => 0)
      = some [true, true, true, false] := by decide +kernel

/-! ### Words with unions -/

/-- C351, full statement: for the selected members of the unions `strb` marks exactly the bytes
which hold data. -/
def StrbSpec : Prop :=
  ∀ (ps : List Part) (sel : Sel) (f : Sel → List Bool), (∀ p ∈ ps, SelOk sel p) →
    wordStrb ps = some f → MaskOf (f sel) (wordBits Piece.strb sel ps)

/-- C352, full statement: the same for `keep`. -/
def KeepSpec : Prop :=
  ∀ (ps : List Part) (sel : Sel) (f : Sel → List Bool), (∀ p ∈ ps, SelOk sel p) →
    wordKeep ps = some f → MaskOf (f sel) (wordBits Piece.keep sel ps)

/-- Union of `struct {8b data; 8b padding}` and `struct {8b other; 8b padding}`. -/
def exSamePad : List Part :=
  [.union 0 16 [[⟨8, true, true⟩, ⟨8, false, false⟩], [⟨8, true, true⟩, ⟨8, false, false⟩]]]

/-- C351 violated: the constant mask `01` of the union is turned to a truth value and the padding
byte is sent with `strb` set. -/
theorem strbSpec_violated : ¬ StrbSpec := by
  intro h
  have := h exSamePad (fun _ => 0) (fun _ => [true, true])
    (by
      intro p hp
      simp only [exSamePad, List.mem_singleton] at hp
      subst hp
      simp [SelOk, pieceBits])
    (by rfl)
  have := this.2 1 0 (by decide) (by decide)
  revert this
  decide +kernel

/-- The other defect: padding which must be kept.  The members differ only by the padding, the
select decides `strb`, but the returned mask is the one of `keep`. -/
def exKeptPad : List Part :=
  [.union 0 16 [[⟨8, true, true⟩, ⟨8, false, true⟩], [⟨16, true, true⟩]]]

theorem strb_is_keep_mask :
    (wordStrb exKeptPad).map (· fun _ => 0) = some [true, true] ∧
    wordBits Piece.strb (fun _ => 0) exKeptPad
      = List.replicate 8 true ++ List.replicate 8 false := by
  constructor
  · rfl
  · decide +kernel

/-- Union of a 8b member padded by removable byte and a 16b member. -/
def exKeep : List Part :=
  [.union 0 16 [[⟨8, true, true⟩, ⟨8, false, false⟩], [⟨16, true, true⟩]]]

/-- C352 violated: `keep` is the one of the last member, whatever is selected. -/
theorem keepSpec_violated : ¬ KeepSpec := by
  intro h
  have := h exKeep (fun _ => 0) (fun _ => [true, true])
    (by
      intro p hp
      simp only [exKeep, List.mem_singleton] at hp
      subst hp
      simp [SelOk, pieceBits])
    (by rfl)
  have := this.2 1 0 (by decide) (by decide)
  revert this
  decide +kernel

/-! What holds: unions where the bytes with data are the bytes to keep, and where the members
have different masks (or a uniform one). -/

theorem memberMask_ok {c : List Piece} {g : Piece → Bool} {m : List Bool}
    (h : memberMask (c.map fun p => (p.w, g p)) = some m) : MaskOf m (pieceBits g c) := by
  unfold memberMask at h
  split at h
  · exact absurd h (by simp)
  · rename_i f hf
    simp only [Option.some.injEq] at h
    subst h
    have := vecToSignal_ok (sel := fun _ => 0)
      (xs := c.map fun p => (p.w, .flag (g p), List.replicate p.w (g p))) (f := f)
      (by
        intro x hx
        simp only [List.mem_map] at hx
        obtain ⟨p, _, rfl⟩ := hx
        rfl)
      (by simpa [List.map_map, Function.comp_def] using hf)
    simpa [pieceBits, List.flatMap_map] using this

theorem memberMasks_ok {g : Piece → Bool} {cs : List (List Piece)} {ms : List (List Bool)}
    (h : memberMasks g cs = some ms) : ms.length = cs.length ∧
      ∀ i : Nat, i < cs.length → MaskOf (ms.getD i []) (pieceBits g (cs.getD i [])) := by
  induction cs generalizing ms with
  | nil =>
    simp only [memberMasks, Option.some.injEq] at h
    subst h
    exact ⟨rfl, by intro i hi; simp at hi⟩
  | cons c cs ih =>
    simp only [memberMasks] at h
    split at h
    · rename_i m ms' hm hms
      simp only [Option.some.injEq] at h
      subst h
      obtain ⟨h1, h2⟩ := ih hms
      refine ⟨by simp [h1], ?_⟩
      intro i hi
      cases i with
      | zero => simpa using memberMask_ok hm
      | succ i =>
        simp only [List.length_cons] at hi
        simpa using h2 i (by omega)
    · exact absurd h (by simp)

/-- Every enable belongs to the mask of its member. -/
def DictOk (ms : List (List Bool)) (d : List (List Bool × List Nat)) (n : Nat) : Prop :=
  (∀ e ∈ d, ∀ i ∈ e.2, i < n ∧ ms.getD i [] = e.1) ∧
  (∀ i, i < n → ∃ e ∈ d, i ∈ e.2) ∧
  (∀ e ∈ d, e.2 ≠ [])

theorem insertD_mem {k : List Bool} {en : Nat} {d : List (List Bool × List Nat)}
    {e : List Bool × List Nat} (h : e ∈ insertD k en d) :
    e ∈ d ∨ (e = (k, [en])) ∨ ∃ ens, (k, ens) ∈ d ∧ e = (k, ens ++ [en]) := by
  induction d with
  | nil =>
    simp only [insertD, List.mem_singleton] at h
    exact .inr (.inl h)
  | cons x d ih =>
    simp only [insertD] at h
    split at h
    · rename_i hk
      cases h with
      | head => exact .inr (.inr ⟨x.2, by rw [← hk]; exact List.mem_cons_self, by rw [← hk]⟩)
      | tail _ h => exact .inl (List.mem_cons_of_mem _ h)
    · cases h with
      | head => exact .inl List.mem_cons_self
      | tail _ h =>
        obtain h | h | ⟨ens, h1, h2⟩ := ih h
        · exact .inl (List.mem_cons_of_mem _ h)
        · exact .inr (.inl h)
        · exact .inr (.inr ⟨ens, List.mem_cons_of_mem _ h1, h2⟩)

theorem insertD_new (k : List Bool) (en : Nat) (d : List (List Bool × List Nat)) :
    ∃ e ∈ insertD k en d, en ∈ e.2 := by
  induction d with
  | nil => exact ⟨(k, [en]), by simp [insertD], by simp⟩
  | cons x d ih =>
    simp only [insertD]
    split
    · exact ⟨_, List.mem_cons_self, by simp⟩
    · obtain ⟨e, h1, h2⟩ := ih
      exact ⟨e, List.mem_cons_of_mem _ h1, h2⟩

theorem insertD_old {k : List Bool} {en : Nat} {d : List (List Bool × List Nat)} {i : Nat}
    {e : List Bool × List Nat} (he : e ∈ d) (hi : i ∈ e.2) :
    ∃ e' ∈ insertD k en d, i ∈ e'.2 := by
  induction d with
  | nil => simp at he
  | cons x d ih =>
    simp only [insertD]
    split
    · cases he with
      | head => exact ⟨_, List.mem_cons_self, by simp [hi]⟩
      | tail _ he => exact ⟨e, List.mem_cons_of_mem _ he, hi⟩
    · cases he with
      | head => exact ⟨_, List.mem_cons_self, hi⟩
      | tail _ he =>
        obtain ⟨e', h1, h2⟩ := ih he
        exact ⟨e', List.mem_cons_of_mem _ h1, h2⟩

theorem dictOk_insert {ms : List (List Bool)} {d : List (List Bool × List Nat)} {n : Nat}
    (h : DictOk ms d n) : DictOk ms (insertD (ms.getD n []) n d) (n + 1) := by
  obtain ⟨h1, h2, h3⟩ := h
  refine ⟨?_, ?_, ?_⟩
  · intro e he i hi
    obtain he | he | ⟨ens, hd, heq⟩ := insertD_mem he
    · have := h1 e he i hi
      exact ⟨by omega, this.2⟩
    · subst he
      simp only [List.mem_singleton] at hi
      subst hi
      exact ⟨by omega, rfl⟩
    · subst heq
      simp only [List.mem_append, List.mem_singleton] at hi
      obtain hi | hi := hi
      · have := h1 _ hd i hi
        exact ⟨by omega, this.2⟩
      · subst hi
        exact ⟨by omega, rfl⟩
  · intro i hi
    by_cases hin : i = n
    · subst hin
      exact insertD_new _ _ _
    · obtain ⟨e, he, hie⟩ := h2 i (by omega)
      exact insertD_old he hie
  · intro e he
    obtain he | he | ⟨ens, he, heq⟩ := insertD_mem he
    · exact h3 e he
    · subst he; simp
    · subst heq; simp

theorem dictOk_group {all : List (List Bool)} (ms : List (List Bool)) :
    ∀ (n : Nat) (d : List (List Bool × List Nat)), all.drop n = ms → DictOk all d n →
      DictOk all (groupMasks n ms d) (n + ms.length) := by
  induction ms with
  | nil => intro n d _ h; simpa [groupMasks] using h
  | cons m ms ih =>
    intro n d hd h
    have hm : all.getD n [] = m := by
      have : all[n]? = some m := by
        have := congrArg (fun l : List (List Bool) => l[0]?) hd
        simpa using this
      rw [List.getD_eq_getElem?_getD, this]
      rfl
    have := ih (n + 1) (insertD m n d)
      (by rw [← List.drop_drop, hd]; rfl) (by rw [← hm]; exact dictOk_insert h)
    simp only [groupMasks, List.length_cons]
    have e : n + (ms.length + 1) = n + 1 + ms.length := by omega
    rw [e]
    exact this

theorem foldl_pick {sel : Nat} {v : List Bool} (l : List (List Bool × List Nat)) :
    ∀ m0, (∀ e ∈ l, sel ∈ e.2 → e.1 = v) → (m0 = v ∨ ∃ e ∈ l, sel ∈ e.2) →
      l.foldl (fun m e => if sel ∈ e.2 then e.1 else m) m0 = v := by
  induction l with
  | nil =>
    intro m0 _ h
    obtain h | ⟨e, he, _⟩ := h
    · exact h
    · simp at he
  | cons x l ih =>
    intro m0 h1 h2
    rw [List.foldl_cons]
    apply ih
    · exact fun e he => h1 e (List.mem_cons_of_mem _ he)
    · by_cases hx : sel ∈ x.2
      · rw [if_pos hx]
        exact .inl (h1 x List.mem_cons_self hx)
      · rw [if_neg hx]
        obtain h | ⟨e, he, hs⟩ := h2
        · exact .inl h
        · cases he with
          | head => exact absurd hs hx
          | tail _ he => exact .inr ⟨e, he, hs⟩

theorem mem_sortIns {e x : List Bool × List Nat} {l : List (List Bool × List Nat)} :
    e ∈ sortIns x l ↔ e = x ∨ e ∈ l := by
  induction l with
  | nil => simp [sortIns]
  | cons y l ih =>
    simp only [sortIns]
    split
    · simp
    · simp only [List.mem_cons, ih]
      constructor
      · rintro (h | h | h)
        · exact .inr (.inl h)
        · exact .inl h
        · exact .inr (.inr h)
      · rintro (h | h | h)
        · exact .inr (.inl h)
        · exact .inl h
        · exact .inr (.inr h)

theorem mem_sortMasks {e : List Bool × List Nat} {l : List (List Bool × List Nat)} :
    e ∈ sortMasks l ↔ e ∈ l := by
  induction l with
  | nil => simp [sortMasks]
  | cons y l ih => simp [sortMasks, mem_sortIns, ih]

/-- What `pop_mask_value` yields for the selected member. -/
theorem popMask_ok {u : Nat} {ms : List (List Bool)} {sel : Sel} {v : Val}
    (hs : sel u < ms.length) (h : popMask u (groupMasks 0 ms []) = some v) :
    (∃ f, v = .sig f ∧ f sel = ms.getD (sel u) []) ∨
    (v = .const (ms.getD (sel u) []) ∧ ∀ m ∈ ms, m = ms.getD (sel u) []) := by
  have hd := dictOk_group (all := ms) ms 0 [] (by simp)
    ⟨by intro e he; simp at he, by intro i hi; omega, by intro e he; simp at he⟩
  simp only [Nat.zero_add] at hd
  obtain ⟨h1, h2, h3⟩ := hd
  revert h h1 h2 h3
  generalize groupMasks 0 ms [] = d
  intro h h1 h2 h3
  match d, h, h1, h2, h3 with
  | [], h, _, _, _ => exact absurd h (by simp [popMask])
  | [(k, ens)], h, h1, h2, _ =>
    simp only [popMask, Option.some.injEq] at h
    subst h
    right
    have hk : ∀ i, i < ms.length → ms.getD i [] = k := by
      intro i hi
      obtain ⟨e, he, hie⟩ := h2 i hi
      have := (h1 e he i hie).2
      simp only [List.mem_singleton] at he
      rw [this, he]
    refine ⟨by rw [hk _ hs], ?_⟩
    intro m hm
    obtain ⟨i, hi, rfl⟩ := List.getElem_of_mem hm
    have := hk i hi
    rw [List.getD_eq_getElem?_getD, List.getElem?_eq_getElem hi] at this
    rw [hk _ hs]
    exact this
  | (k, ens) :: x :: d', h, h1, h2, _ =>
    simp only [popMask, Option.some.injEq] at h
    subst h
    left
    refine ⟨_, rfl, ?_⟩
    apply foldl_pick
    · intro e he hse
      rw [mem_sortMasks] at he
      exact ((h1 e he _ hse).2).symm
    · right
      obtain ⟨e, he, hse⟩ := h2 _ hs
      exact ⟨e, mem_sortMasks.2 he, hse⟩

/-- Uniform mask. -/
def Uniform (m : List Bool) : Prop := ∃ b, ∀ x ∈ m, x = b

/-- Unions for which `strb` is right: data bytes are the bytes to keep, and if all members have
the same bytes with data, then it is all bytes or none. -/
def StrbFits : Part → Prop
  | .plain _ => True
  | .union _ _ cs =>
      (∀ c ∈ cs, ∀ p ∈ c, p.strb = p.keep) ∧
      ((∃ c ∈ cs, ∃ c' ∈ cs, pieceBits Piece.strb c ≠ pieceBits Piece.strb c') ∨
        (∃ b, ∀ c ∈ cs, ∀ p ∈ c, p.strb = b))

theorem pieceBits_congr {c : List Piece} (h : ∀ p ∈ c, p.strb = p.keep) :
    pieceBits Piece.strb c = pieceBits Piece.keep c := by
  induction c with
  | nil => rfl
  | cons p c ih =>
    simp only [pieceBits, List.flatMap_cons] at ih ⊢
    rw [ih fun q hq => h q (by simp [hq]), h p (by simp)]

theorem maskOf_inj {m b c : List Bool} (h1 : MaskOf m b) (h2 : MaskOf m c) : b = c := by
  apply List.ext_getElem?
  intro i
  by_cases hi : i < 8 * m.length
  · have e : 8 * (i / 8) + i % 8 = i := Nat.div_add_mod i 8
    have a1 := h1.2 (i / 8) (i % 8) (by omega) (by omega)
    have a2 := h2.2 (i / 8) (i % 8) (by omega) (by omega)
    rw [e] at a1 a2
    rw [a1, a2]
  · rw [List.getElem?_eq_none (by rw [h1.1]; omega), List.getElem?_eq_none (by rw [h2.1]; omega)]

theorem pieceBits_mem {g : Piece → Bool} {c : List Piece} {b : Bool} (h : ∀ p ∈ c, g p = b) :
    pieceBits g c = List.replicate (pieceBits g c).length b := by
  apply List.eq_replicate_of_mem
  intro x hx
  simp only [pieceBits, List.mem_flatMap] at hx
  obtain ⟨p, hp, hx⟩ := hx
  rw [List.eq_of_mem_replicate hx, h p hp]

theorem maskOf_uniform {m : List Bool} {b : Bool} {w : Nat} (h : MaskOf m (List.replicate w b)) :
    m = List.replicate (w / 8) b := by
  have hl : m.length = w / 8 := by
    have := h.1
    simp only [List.length_replicate] at this
    omega
  rw [← hl]
  apply List.eq_replicate_of_mem
  intro x hx
  obtain ⟨i, hi, rfl⟩ := List.getElem_of_mem hx
  have := h.2 i 0 hi (by omega)
  have hw := h.1
  simp only [List.length_replicate] at hw
  rw [List.getElem?_replicate, if_pos (by omega), List.getElem?_eq_getElem hi] at this
  exact (Option.some.inj this).symm

theorem any_replicate_or {n : Nat} {b : Bool} :
    List.replicate n ((List.replicate n b).any id) = List.replicate n b := by
  cases n with
  | zero => rfl
  | succ n => cases b <;> simp

theorem getD_mem {α : Type} {l : List α} {i : Nat} (d : α) (h : i < l.length) :
    l.getD i d ∈ l := by
  rw [List.getD_eq_getElem?_getD, List.getElem?_eq_getElem h]
  exact List.getElem_mem h

theorem union_strb_ok {sel : Sel} {u w : Nat} {cs : List (List Piece)} {s k : Val}
    (hsel : SelOk sel (.union u w cs)) (hf : StrbFits (.union u w cs))
    (h : reduceStashes u cs = some (s, k)) :
    ItemOk sel w s (partBits Piece.strb sel (.union u w cs)) := by
  unfold reduceStashes at h
  split at h
  · rename_i strbs keeps hs hk
    split at h
    · rename_i _ sv kl _ hsv _
      simp only [Option.some.injEq, Prod.mk.injEq] at h
      obtain ⟨rfl, _⟩ := h
      obtain ⟨kl1, kl2⟩ := memberMasks_ok hk
      obtain ⟨hlt, hw⟩ := hsel
      have hmem : cs.getD (sel u) [] ∈ cs := getD_mem _ hlt
      have hbits : pieceBits Piece.strb (cs.getD (sel u) []) = pieceBits Piece.keep (cs.getD (sel u) []) :=
        pieceBits_congr (hf.1 _ hmem)
      simp only [partBits]
      obtain ⟨f, rfl, hfs⟩ | ⟨rfl, hall⟩ := popMask_ok (sel := sel) (by rw [kl1]; exact hlt) hsv
      · simp only [ItemOk]
        rw [hfs, hbits]
        exact kl2 _ hlt
      · simp only [ItemOk]
        obtain ⟨c, hc, c', hc', hne⟩ | ⟨b, hb⟩ := hf.2
        · exfalso
          apply hne
          obtain ⟨i, hi, rfl⟩ := List.getElem_of_mem hc
          obtain ⟨j, hj, rfl⟩ := List.getElem_of_mem hc'
          rw [pieceBits_congr (hf.1 _ hc), pieceBits_congr (hf.1 _ hc')]
          have a1 := kl2 i hi
          have a2 := kl2 j hj
          rw [hall _ (getD_mem _ (by omega))] at a1 a2
          rw [List.getD_eq_getElem?_getD (l := cs) (i := i), List.getElem?_eq_getElem hi] at a1
          rw [List.getD_eq_getElem?_getD (l := cs) (i := j), List.getElem?_eq_getElem hj] at a2
          exact maskOf_inj a1 a2
        · have a := kl2 _ hlt
          rw [← hbits] at a
          have hu := pieceBits_mem (g := Piece.strb) (fun p hp => hb _ hmem p hp)
          rw [hw _ hmem] at hu
          rw [hu] at a ⊢
          have := maskOf_uniform a
          rw [this, any_replicate_or]
          rw [this] at a
          exact a
    · exact absurd h (by simp)
  · exact absurd h (by simp)

/-- C351 as far as it holds: `strb` marks exactly the bytes with data of the selected members if
each union fits (`StrbFits`). -/
theorem word_strb_partial {ps : List Part} {sel : Sel} {f : Sel → List Bool}
    (hs : ∀ p ∈ ps, SelOk sel p) (hf : ∀ p ∈ ps, StrbFits p) (h : wordStrb ps = some f) :
    MaskOf (f sel) (wordBits Piece.strb sel ps) := by
  unfold wordStrb at h
  split at h
  · exact absurd h (by simp)
  · rename_i xs hxs
    have key : ∃ items : List Item, xs.map (·.1) = items.map (fun x => (x.1, x.2.1)) ∧
        (∀ x ∈ items, ItemOk sel x.1 x.2.1 x.2.2) ∧
        items.flatMap (fun x => x.2.2) = wordBits Piece.strb sel ps := by
      clear h
      induction ps generalizing xs with
      | nil =>
        simp only [wordVals, Option.some.injEq] at hxs
        subst hxs
        exact ⟨[], rfl, by simp, rfl⟩
      | cons p ps ih =>
        simp only [wordVals] at hxs
        split at hxs
        · rename_i x xs' hx hxs'
          simp only [Option.some.injEq] at hxs
          subst hxs
          obtain ⟨items, i1, i2, i3⟩ := ih (fun q hq => hs q (by simp [hq]))
            (fun q hq => hf q (by simp [hq])) xs' hxs'
          have hp : ItemOk sel x.1.1 x.1.2 (partBits Piece.strb sel p) := by
            cases p with
            | plain q =>
              simp only [partMasks, Option.some.injEq] at hx
              subst hx
              rfl
            | union u w cs =>
              simp only [partMasks] at hx
              split at hx
              · split at hx
                · rename_i s k hr
                  simp only [Option.some.injEq] at hx
                  subst hx
                  exact union_strb_ok (hs _ (by simp)) (hf _ (by simp)) hr
                · exact absurd hx (by simp)
              · exact absurd hx (by simp)
          refine ⟨(x.1.1, x.1.2, partBits Piece.strb sel p) :: items, ?_, ?_, ?_⟩
          · simp [i1]
          · intro y hy
            cases hy with
            | head => exact hp
            | tail _ hy => exact i2 y hy
          · simp only [List.flatMap_cons, i3, wordBits]
        · exact absurd hxs (by simp)
    obtain ⟨items, i1, i2, i3⟩ := key
    rw [i1] at h
    rw [← i3]
    exact vecToSignal_ok i2 h

/-- Non-vacuity: a 16b word in which a union places a byte to the lower or the upper half
(`AddrDataRdVld_to_Axi` uses this), followed by a plain field. -/
def exLanes : List Part :=
  [.union 0 16 [[⟨8, true, true⟩, ⟨8, false, false⟩], [⟨8, false, false⟩, ⟨8, true, true⟩]],
   .plain ⟨8, true, true⟩]

example : (∀ p ∈ exLanes, SelOk (fun _ => 1) p) ∧ (∀ p ∈ exLanes, StrbFits p) ∧
    (wordStrb exLanes).map (· fun _ => 1) = some [false, true, true] ∧
    (wordStrb exLanes).map (· fun _ => 0) = some [true, false, true] := by
  refine ⟨?_, ?_, by decide +kernel, by decide +kernel⟩
  · intro p hp
    simp only [exLanes, List.mem_cons, List.not_mem_nil, or_false] at hp
    rcases hp with rfl | rfl
    · simp [SelOk, pieceBits]
    · trivial
  · intro p hp
    simp only [exLanes, List.mem_cons, List.not_mem_nil, or_false] at hp
    rcases hp with rfl | rfl
    · refine ⟨by simp, .inl ?_⟩
      exact ⟨_, List.mem_cons_self, _, List.mem_cons_of_mem _ List.mem_cons_self, by decide +kernel⟩
    · trivial

/-- Unions for which `keep` is right: every byte of every member has to be kept. -/
def KeepFits : Part → Prop
  | .plain _ => True
  | .union _ _ cs => ∃ b, ∀ c ∈ cs, ∀ p ∈ c, p.keep = b

theorem pieceBits_length (g g' : Piece → Bool) (c : List Piece) :
    (pieceBits g c).length = (pieceBits g' c).length := by
  simp [pieceBits, List.length_flatMap]

/-- C352 as far as it holds: `keep` is right if no union has a part which may be removed
(or all of them may be removed). -/
theorem word_keep_partial {ps : List Part} {sel : Sel} {f : Sel → List Bool}
    (hs : ∀ p ∈ ps, SelOk sel p) (hf : ∀ p ∈ ps, KeepFits p) (h : wordKeep ps = some f) :
    MaskOf (f sel) (wordBits Piece.keep sel ps) := by
  unfold wordKeep at h
  split at h
  · exact absurd h (by simp)
  · rename_i xs hxs
    have key : ∃ items : List Item, xs.map (·.2) = items.map (fun x => (x.1, x.2.1)) ∧
        (∀ x ∈ items, ItemOk sel x.1 x.2.1 x.2.2) ∧
        items.flatMap (fun x => x.2.2) = wordBits Piece.keep sel ps := by
      clear h
      induction ps generalizing xs with
      | nil =>
        simp only [wordVals, Option.some.injEq] at hxs
        subst hxs
        exact ⟨[], rfl, by simp, rfl⟩
      | cons p ps ih =>
        simp only [wordVals] at hxs
        split at hxs
        · rename_i x xs' hx hxs'
          simp only [Option.some.injEq] at hxs
          subst hxs
          obtain ⟨items, i1, i2, i3⟩ := ih (fun q hq => hs q (by simp [hq]))
            (fun q hq => hf q (by simp [hq])) xs' hxs'
          have hp : ItemOk sel x.2.1 x.2.2 (partBits Piece.keep sel p) := by
            cases p with
            | plain q =>
              simp only [partMasks, Option.some.injEq] at hx
              subst hx
              rfl
            | union u w cs =>
              simp only [partMasks] at hx
              split at hx
              · split at hx
                · rename_i s k hr
                  simp only [Option.some.injEq] at hx
                  subst hx
                  obtain ⟨hlt, hw⟩ := hs _ List.mem_cons_self
                  obtain ⟨b, hb⟩ := hf _ List.mem_cons_self
                  unfold reduceStashes at hr
                  split at hr
                  · rename_i strbs keeps hss hk
                    split at hr
                    · rename_i _ sv kl _ _ hl
                      simp only [Option.some.injEq, Prod.mk.injEq] at hr
                      obtain ⟨_, rfl⟩ := hr
                      obtain ⟨kl1, kl2⟩ := memberMasks_ok hk
                      rw [List.getLast?_eq_getElem?] at hl
                      have hlt' : keeps.length - 1 < cs.length := by omega
                      have a := kl2 _ hlt'
                      have hkl : keeps.getD (keeps.length - 1) [] = kl := by
                        rw [List.getD_eq_getElem?_getD, hl]
                        rfl
                      rw [hkl] at a
                      have hm1 := getD_mem (l := cs) [] hlt'
                      have hm2 := getD_mem (l := cs) [] hlt
                      have hu1 := pieceBits_mem (g := Piece.keep) (fun p hp => hb _ hm1 p hp)
                      have hu2 := pieceBits_mem (g := Piece.keep) (fun p hp => hb _ hm2 p hp)
                      rw [pieceBits_length Piece.keep Piece.strb, hw _ hm1] at hu1
                      rw [pieceBits_length Piece.keep Piece.strb, hw _ hm2] at hu2
                      rw [hu1] at a
                      have e := maskOf_uniform a
                      simp only [ItemOk, partBits]
                      rw [hu2, e, any_replicate_or]
                      rw [e] at a
                      exact a
                    · exact absurd hr (by simp)
                  · exact absurd hr (by simp)
                · exact absurd hx (by simp)
              · exact absurd hx (by simp)
          refine ⟨(x.2.1, x.2.2, partBits Piece.keep sel p) :: items, ?_, ?_, ?_⟩
          · simp [i1]
          · intro y hy
            cases hy with
            | head => exact hp
            | tail _ hy => exact i2 y hy
          · simp only [List.flatMap_cons, i3, wordBits]
        · exact absurd hxs (by simp)
    obtain ⟨items, i1, i2, i3⟩ := key
    rw [i1] at h
    rw [← i3]
    exact vecToSignal_ok i2 h

def exFull : List Part :=
  [.union 0 16 [[⟨8, true, true⟩, ⟨8, false, true⟩], [⟨16, true, true⟩]], .plain ⟨8, false, false⟩]

example : (∀ p ∈ exFull, SelOk (fun _ => 0) p) ∧ (∀ p ∈ exFull, KeepFits p) ∧
    (wordKeep exFull).map (· fun _ => 0) = some [true, true, false] := by
  refine ⟨?_, ?_, by rfl⟩
  · intro p hp
    simp only [exFull, List.mem_cons, List.not_mem_nil, or_false] at hp
    rcases hp with rfl | rfl
    · simp [SelOk, pieceBits]
    · trivial
  · intro p hp
    simp only [exFull, List.mem_cons, List.not_mem_nil, or_false] at hp
    rcases hp with rfl | rfl
    · exact ⟨true, by simp⟩
    · trivial

end Verif.StrbStash
