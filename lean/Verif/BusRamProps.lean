import Verif.BusRam

/-! # Properties of `Axi4SimRam` and `AvalonMmSimRam` -/

namespace Verif.BusRam

open Verif Verif.SimRam

/-- What is known about the bit `k` of the cell: its value, or nothing. -/
def bit (c : Cell) (k : Nat) : Option Bool :=
  match c with
  | .inv => none
  | .int v => some (v.testBit k)
  | .bits v m => if m.testBit k then some (v.testBit k) else none

/-! ## Masked write of one word -/

theorem setRange_testBit (v off w x k : Nat) :
    (setRange v off w x).testBit k = if off ≤ k ∧ k < off + w then x.testBit (k - off) else v.testBit k := by
  simp only [setRange, Nat.testBit_or, Nat.testBit_xor, Nat.testBit_shiftLeft, Nat.testBit_mod_two_pow, Nat.testBit_shiftRight]
  by_cases h1 : off ≤ k
  · by_cases h2 : k < off + w
    · have h3 : k - off < w := by omega
      have h4 : off + (k - off) = k := by omega
      simp [h1, h2, h3, h4]
    · have h3 : ¬ k - off < w := by omega
      simp [h1, h2, h3]
  · simp [h1]

theorem bitRange_testBit (v off w k : Nat) : (bitRange v off w).testBit k = (decide (k < w) && v.testBit (off + k)) := by
  simp [bitRange, Nat.testBit_mod_two_pow, Nat.testBit_shiftRight]

theorem merge_testBit (n strb val vld : Nat) (c : Nat × Nat) (k : Nat) :
    (mergeBytes n strb val vld c).1.testBit k = (if k < 8 * n ∧ strb.testBit (k / 8) then val.testBit k else c.1.testBit k) ∧
    (mergeBytes n strb val vld c).2.testBit k = (if k < 8 * n ∧ strb.testBit (k / 8) then vld.testBit k else c.2.testBit k) := by
  induction n with
  | zero => simp [mergeBytes]
  | succ n ih =>
    unfold mergeBytes at ih ⊢
    rw [List.range_succ, List.foldl_append]
    generalize List.foldl _ c (List.range n) = a at ih
    simp only [List.foldl_cons, List.foldl_nil]
    by_cases hk : n * 8 ≤ k ∧ k < n * 8 + 8
    · have hd : k / 8 = n := by omega
      have h1 : ¬ k < 8 * n := by omega
      have h2 : k < 8 * (n + 1) := by omega
      have h3 : k - n * 8 < 8 := by omega
      have h4 : n * 8 + (k - n * 8) = k := by omega
      rw [hd] at ih ⊢
      cases hs : strb.testBit n with
      | true => simp [setRange_testBit, bitRange_testBit, hk, h2, h3, h4]
      | false => simpa [hs, h1, h2] using ih
    · have hb : (k < 8 * (n + 1)) ↔ (k < 8 * n) := by omega
      simp only [hb]
      cases hs : strb.testBit n with
      | true => simpa [setRange_testBit, hk] using ih
      | false => simpa using ih

theorem allMask_testBit (cs i : Nat) : (allMask cs).testBit i = decide (i < cs) := by
  simp [allMask, Nat.testBit_two_pow_sub_one]

/-- The full claim: a byte enabled by strb is replaced, all other bits are as before. -/
def MaskedWrite (cs : Nat) : Prop :=
  ∀ (cur : Cell) (val vld strb k : Nat), strb < 2 ^ cs → k < 8 * cs →
    bit (writeWord cs cur val vld strb) k = if strb.testBit (k / 8) then bit (.bits val vld) k else bit cur k

/-- C265: bytes which are not written loose their value if the cell was made by `calloc`. -/
theorem maskedWrite_int_fails : ¬ MaskedWrite 4 := by
  intro h
  exact absurd (h (.int 0x11223344) 0xAA 0xFFFFFFFF 1 16 (by decide) (by decide)) (by decide)

/-- C265: on a 64b bus a write of the first byte to a cell without a value makes all its bytes valid (with zeros). -/
theorem maskedWrite_inv_fails : ¬ MaskedWrite 8 := by
  intro h
  exact absurd (h .inv 0xAA 0xFFFFFFFFFFFFFFFF 1 16 (by decide) (by decide)) (by decide)

/-- Each byte is entirely valid or entirely not valid. -/
def Bytewise (m : Nat) : Prop := ∀ j k, j / 8 = k / 8 → m.testBit j = m.testBit k

/-- The cell is not a python int and validity of its bits is same in each byte. -/
def GoodCell : Cell → Prop
  | .inv => True
  | .int _ => False
  | .bits _ m => Bytewise m

theorem write_full {cs : Nat} (hc : 0 < cs) (cur : Cell) (val vld : Nat) : writeWord cs cur val vld (allMask cs) = .bits val vld := by
  have : allMask cs ≠ 0 := by
    have : 1 < 2 ^ cs := Nat.one_lt_two_pow (by omega)
    unfold allMask; omega
  simp [writeWord, this]

theorem not_accident {cs m : Nat} (hc : cs % 8 ≠ 0) (hm : Bytewise m) : m ≠ allMask cs := by
  intro e
  have h1 := allMask_testBit cs (cs - 1)
  have h2 := allMask_testBit cs cs
  rw [← e] at h1 h2
  have h3 := hm (cs - 1) cs (by omega)
  rw [h1, h2] at h3
  simp at h3
  omega

theorem merge_bytewise {n strb val vld : Nat} {c : Nat × Nat} (h1 : Bytewise vld) (h2 : Bytewise c.2) :
    Bytewise (mergeBytes n strb val vld c).2 := by
  intro j k hjk
  rw [(merge_testBit n strb val vld c j).2, (merge_testBit n strb val vld c k).2, h1 j k hjk, h2 j k hjk, hjk]
  have : (j < 8 * n) ↔ (k < 8 * n) := by omega
  simp only [this]

theorem current_bytewise {cs : Nat} {c : Cell} (h : GoodCell c) : Bytewise (current cs c).2 := by
  cases c with
  | inv => intro j k _; simp [current]
  | int v => cases h
  | bits v m => exact h

theorem write_good {cs : Nat} (hc : cs % 8 ≠ 0) {cur : Cell} (hg : GoodCell cur) {val vld strb : Nat} (hv : Bytewise vld) :
    GoodCell (writeWord cs cur val vld strb) := by
  unfold writeWord
  split
  · exact hg
  · split
    · have hb := merge_bytewise (n := cs) (strb := strb) (val := val) hv (current_bytewise (cs := cs) hg)
      simp only
      rw [if_neg (not_accident hc hb)]
      exact hb
    · exact hv

/-- C265: the masked write is exact if the cell is not a python int, the number of bytes in the word is not a multiple of 8 and bytes are
entirely valid or not valid; or if all bytes are written. -/
theorem maskedWrite_partial {cs : Nat} (hc0 : 0 < cs) (cur : Cell) (val vld strb k : Nat) (hk : k < 8 * cs)
    (h : strb = 2 ^ cs - 1 ∨ (cs % 8 ≠ 0 ∧ GoodCell cur ∧ Bytewise vld)) :
    bit (writeWord cs cur val vld strb) k = if strb.testBit (k / 8) then bit (.bits val vld) k else bit cur k := by
  have hkc : k / 8 < cs := by omega
  by_cases hf : strb = allMask cs
  · rw [hf, write_full hc0, allMask_testBit]
    simp [hkc]
  · rcases h with e | ⟨hc, hg, hv⟩
    · exact absurd e hf
    · unfold writeWord
      split
      · next e => rw [e]; simp
      · have hb := merge_bytewise (n := cs) (strb := strb) (val := val) hv (current_bytewise (cs := cs) hg)
        simp only
        rw [if_neg (not_accident hc hb)]
        obtain ⟨m1, m2⟩ := merge_testBit cs strb val vld (current cs cur) k
        simp only [bit, m1, m2, hk, true_and]
        cases ht : strb.testBit (k / 8) with
        | true => simp
        | false =>
          cases cur with
          | inv => simp [current]
          | int v => cases hg
          | bits v m => simp [current]

example : (4 : Nat) % 8 ≠ 0 ∧ GoodCell (.bits 0x11223344 0xFFFF00FF) ∧ bit (writeWord 4 (.bits 0x11223344 0xFFFF00FF) 0xAABBCCDD 0xFFFFFFFF 2) 8 = some false ∧
    writeWord 4 (.bits 0x11223344 0xFFFF00FF) 0xAABBCCDD 0xFFFFFFFF 2 = .bits 0x1122CC44 0xFFFFFFFF := by
  refine ⟨by decide, ?_, by decide, by decide⟩
  intro j k h
  have e : (0xFFFF00FF : Nat) = (2 ^ 8 - 1) ||| ((2 ^ 16 - 1) <<< 16) := by decide
  rw [e]
  simp only [Nat.testBit_or, Nat.testBit_two_pow_sub_one, Nat.testBit_shiftLeft]
  have h1 : decide (j < 8) = decide (k < 8) := by rw [decide_eq_decide]; omega
  have h2 : decide (j ≥ 16) = decide (k ≥ 16) := by rw [decide_eq_decide]; omega
  have h3 : decide (j - 16 < 16) = decide (k - 16 < 16) := by rw [decide_eq_decide]; omega
  rw [h1, h2, h3]

/-! ## Sequences of transactions -/

inductive Op where
  | write (addr : Nat) (beats : List Beat)
  | read (addr size : Nat)

/-- What the memory should contain: bits of words. -/
abbrev Spec := Nat → Nat → Option Bool

/-- Bits after a write of the words from the word `i`. -/
def specWrite (p : Spec) (i : Nat) (bs : List Beat) : Spec := fun w k =>
  match (if i ≤ w then bs[w - i]? else none) with
  | some b => if b.strb.testBit (k / 8) then (if b.vld.testBit k then some (b.val.testBit k) else none) else p w k
  | none => p w k

def Agree (cs : Nat) (m : Mem) (p : Spec) : Prop := ∀ w k, k < 8 * cs → bit (m w) k = p w k

/-- Memory and results of reads after a sequence of transactions. -/
def runOps (cs : Nat) : Mem → List Op → Except Err (Mem × List (List (Cell × Bool)))
  | m, [] => .ok (m, [])
  | m, .write a bs :: ops =>
    match doWrite cs m a bs with
    | .ok m' => runOps cs m' ops
    | .error e => .error e
  | m, .read a n :: ops =>
    match doRead cs m a n with
    | .ok r => match runOps cs m ops with
      | .ok (m', rs) => .ok (m', r :: rs)
      | .error e => .error e
    | .error e => .error e

/-- The same for the specification. -/
def specOps (cs : Nat) : Spec → List Op → Spec × List (List (Nat → Option Bool))
  | p, [] => (p, [])
  | p, .write a bs :: ops => specOps cs (specWrite p (a / cs) bs) ops
  | p, .read a n :: ops =>
    let q := specOps cs p ops
    (q.1, ((List.range n).map fun j => p (a / cs + j)) :: q.2)

/-- Result of one read: words have the expected bits, only the last one is marked as last. -/
def SameRead (cs : Nat) (r : List (Cell × Bool)) (e : List (Nat → Option Bool)) : Prop :=
  r.length = e.length ∧ ∀ j c f, r[j]? = some c → e[j]? = some f → (∀ k, k < 8 * cs → bit c.1 k = f k) ∧ c.2 = decide (j + 1 = r.length)

/-- All beats of writes fulfil `P`. -/
def Beats (P : Beat → Prop) (ops : List Op) : Prop := ∀ a bs, Op.write a bs ∈ ops → ∀ b, b ∈ bs → P b

theorem writeBeats_spec {cs : Nat} {G : Mem → Prop} {P : Beat → Prop}
    (hG : ∀ m i b, G m → P b → G (upd m i (writeWord cs (m i) b.val b.vld b.strb)) ∧
      ∀ k, k < 8 * cs → bit (writeWord cs (m i) b.val b.vld b.strb) k =
        if b.strb.testBit (k / 8) then (if b.vld.testBit k then some (b.val.testBit k) else none) else bit (m i) k)
    (bs : List Beat) : ∀ (m m' : Mem) (p : Spec) (i : Nat), G m → (∀ b, b ∈ bs → P b) → Agree cs m p → writeBeats cs m i bs = .ok m' →
      G m' ∧ Agree cs m' (specWrite p i bs) := by
  induction bs with
  | nil =>
    intro m m' p i hg _ ha h
    simp only [writeBeats, Except.ok.injEq] at h
    rw [← h]
    refine ⟨hg, ?_⟩
    intro w k hk
    rw [ha w k hk]
    simp [specWrite]
  | cons b bs ih =>
    intro m m' p i hg hP ha h
    simp only [writeBeats] at h
    split at h
    · cases h
    · obtain ⟨h1, h2⟩ := hG m i b hg (hP b (by simp))
      have ha' : Agree cs (upd m i (writeWord cs (m i) b.val b.vld b.strb)) (specWrite p i [b]) := by
        intro w k hk
        by_cases e : w = i
        · subst e
          rw [upd_same, h2 k hk, ha w k hk]
          simp [specWrite]
        · rw [upd_ne _ _ _ _ e, ha w k hk]
          simp only [specWrite]
          by_cases hle : i ≤ w
          · have : ([b] : List Beat)[w - i]? = none := by rw [List.getElem?_eq_none]; simp; omega
            simp [hle, this]
          · simp [hle]
      obtain ⟨g1, g2⟩ := ih _ m' _ (i + 1) h1 (fun b' hb => hP b' (by simp [hb])) ha' h
      refine ⟨g1, ?_⟩
      intro w k hk
      rw [g2 w k hk]
      simp only [specWrite]
      by_cases e : w = i
      · subst e
        have : ¬ w + 1 ≤ w := by omega
        simp [this]
      · by_cases hle : i + 1 ≤ w
        · have e1 : i ≤ w := by omega
          have e2 : w - i = (w - (i + 1)) + 1 := by omega
          have e3 : ([b] : List Beat)[w - i]? = none := by rw [List.getElem?_eq_none]; simp; omega
          rw [if_pos hle, if_pos e1, if_pos e1, e3, e2, List.getElem?_cons_succ]
        · have e1 : ¬ i ≤ w := by omega
          rw [if_neg hle, if_neg e1, if_neg e1]

theorem readBeats_spec (m : Mem) (n : Nat) : ∀ (i : Nat) (r : List (Cell × Bool)), readBeats m i n = .ok r →
    r.length = n ∧ ∀ (j : Nat) c, r[j]? = some c → c = (m (i + j), decide (j + 1 = n)) := by
  induction n with
  | zero =>
    intro i r h
    simp only [readBeats, Except.ok.injEq] at h
    rw [← h]; simp
  | succ n ih =>
    intro i r h
    simp only [readBeats] at h
    split at h
    · cases h
    · split at h
      · next r' hr =>
        simp only [Except.ok.injEq] at h
        obtain ⟨h1, h2⟩ := ih _ _ hr
        rw [← h]
        refine ⟨by simp [h1], ?_⟩
        intro j c hj
        cases j with
        | zero =>
          simp at hj; rw [← hj]; simp
          cases n <;> simp
        | succ j =>
          simp at hj
          rw [h2 j c hj]
          have : i + 1 + j = i + (j + 1) := by omega
          simp [this]
      · cases h

theorem runOps_spec {cs : Nat} {G : Mem → Prop} {P : Beat → Prop}
    (hG : ∀ m i b, G m → P b → G (upd m i (writeWord cs (m i) b.val b.vld b.strb)) ∧
      ∀ k, k < 8 * cs → bit (writeWord cs (m i) b.val b.vld b.strb) k =
        if b.strb.testBit (k / 8) then (if b.vld.testBit k then some (b.val.testBit k) else none) else bit (m i) k)
    (ops : List Op) : ∀ (m m' : Mem) (p : Spec) (rs : List (List (Cell × Bool))), G m → Beats P ops → Agree cs m p →
      runOps cs m ops = .ok (m', rs) →
      Agree cs m' (specOps cs p ops).1 ∧ rs.length = (specOps cs p ops).2.length ∧
      ∀ (j : Nat) r e, rs[j]? = some r → (specOps cs p ops).2[j]? = some e → SameRead cs r e := by
  induction ops with
  | nil =>
    intro m m' p rs hg _ ha h
    simp only [runOps, Except.ok.injEq, Prod.mk.injEq] at h
    rw [← h.1, ← h.2]
    exact ⟨ha, rfl, by simp⟩
  | cons op ops ih =>
    intro m m' p rs hg hP ha h
    have hP' : Beats P ops := fun a bs hb b hbb => hP a bs (by simp [hb]) b hbb
    cases op with
    | write a bs =>
      simp only [runOps] at h
      split at h
      · next m1 hw =>
        unfold doWrite at hw
        split at hw
        · cases hw
        · obtain ⟨g1, g2⟩ := writeBeats_spec hG bs m m1 p (a / cs) hg (hP a bs (by simp)) ha hw
          exact ih m1 m' _ rs g1 hP' g2 h
      · cases h
    | read a n =>
      simp only [runOps] at h
      split at h
      · next r hr =>
        split at h
        · next q m1 rs1 hrun =>
          simp only [Except.ok.injEq, Prod.mk.injEq] at h
          obtain ⟨g1, g2, g3⟩ := ih m m1 p rs1 hg hP' ha hrun
          rw [← h.1, ← h.2]
          refine ⟨g1, by simp [specOps, g2], ?_⟩
          intro j r' e' hj he
          cases j with
          | succ j => simp [specOps] at hj he; exact g3 j r' e' hj he
          | zero =>
            simp [specOps] at hj he
            subst hj
            unfold doRead at hr
            split at hr
            · cases hr
            · obtain ⟨l1, l2⟩ := readBeats_spec m n _ _ hr
              refine ⟨by rw [← he, l1]; simp, ?_⟩
              intro i c f hc hf
              have := l2 i c hc
              rw [this, l1]
              refine ⟨?_, rfl⟩
              intro k hk
              rw [← he] at hf
              rw [List.getElem?_map] at hf
              have hi : i < n := by
                rw [← l1]
                exact (List.getElem?_eq_some_iff.mp hc).1
              rw [List.getElem?_range hi] at hf
              simp only [Option.map_some, Option.some.injEq] at hf
              rw [← hf]
              exact ha _ k hk
        · cases h
      · cases h

/-- C266: after any sequence of transactions in which all bytes are enabled the memory contains the last written words and each read returns
them in order with the last word marked; for any initial content. -/
theorem full_writes {cs : Nat} (hc : 0 < cs) (ops : List Op) (hP : Beats (fun b => b.strb = 2 ^ cs - 1) ops) (m m' : Mem)
    (rs : List (List (Cell × Bool))) (h : runOps cs m ops = .ok (m', rs)) :
    Agree cs m' (specOps cs (fun w => bit (m w)) ops).1 ∧ rs.length = (specOps cs (fun w => bit (m w)) ops).2.length ∧
    ∀ (j : Nat) r e, rs[j]? = some r → (specOps cs (fun w => bit (m w)) ops).2[j]? = some e → SameRead cs r e := by
  refine runOps_spec (G := fun _ => True) (P := fun b => b.strb = 2 ^ cs - 1) ?_ ops m m' _ rs trivial hP (fun _ _ _ => rfl) h
  intro m i b _ hb
  refine ⟨trivial, fun k hk => ?_⟩
  have h1 : 0 < 2 ^ cs := Nat.two_pow_pos cs
  exact maskedWrite_partial hc (m i) b.val b.vld b.strb k hk (.inl hb)

/-- C266: the same with byte enables, if the memory is not initialized by python ints, the number of bytes in the word is not a multiple
of 8 and each byte of the data is entirely valid or not valid. -/
theorem masked_writes_partial {cs : Nat} (hc : cs % 8 ≠ 0) (ops : List Op)
    (hP : Beats (fun b => b.strb < 2 ^ cs ∧ Bytewise b.vld) ops) (m m' : Mem) (hm : ∀ w, GoodCell (m w))
    (rs : List (List (Cell × Bool))) (h : runOps cs m ops = .ok (m', rs)) :
    Agree cs m' (specOps cs (fun w => bit (m w)) ops).1 ∧ rs.length = (specOps cs (fun w => bit (m w)) ops).2.length ∧
    ∀ (j : Nat) r e, rs[j]? = some r → (specOps cs (fun w => bit (m w)) ops).2[j]? = some e → SameRead cs r e := by
  have hc0 : 0 < cs := by omega
  refine runOps_spec (G := fun m => ∀ w, GoodCell (m w)) (P := fun b => b.strb < 2 ^ cs ∧ Bytewise b.vld) ?_ ops m m' _ rs hm hP
    (fun _ _ _ => rfl) h
  intro m i b hg hb
  refine ⟨?_, fun k hk => maskedWrite_partial hc0 (m i) b.val b.vld b.strb k hk (.inr ⟨hc, hg i, hb.2⟩)⟩
  intro w
  by_cases e : w = i
  · subst e; rw [upd_same]; exact write_good hc (hg w) hb.2
  · rw [upd_ne _ _ _ _ e]; exact hg w

/-- The full claim for sequences. -/
def MaskedWrites (cs : Nat) : Prop :=
  ∀ (ops : List Op), Beats (fun b => b.strb < 2 ^ cs ∧ b.vld = 2 ^ (8 * cs) - 1) ops → ∀ (m m' : Mem) (rs : List (List (Cell × Bool))),
    runOps cs m ops = .ok (m', rs) → Agree cs m' (specOps cs (fun w => bit (m w)) ops).1

theorem masked_writes_fails : ¬ MaskedWrites 4 := by
  intro h
  have := h [.write 4 [⟨0xAA, 0xFFFFFFFF, 1, true⟩]] ?_ (fun _ => .int 0) _ [] rfl 1 16 (by decide)
  · exact absurd this (by decide)
  · intro a bs hb
    simp only [List.mem_singleton, Op.write.injEq] at hb
    rw [hb.2]
    decide

/-- Two words are written, then one byte of the first one, then both are read. -/
def exOps : List Op := [.write 8 [⟨1, 0xFFFF, 3, false⟩, ⟨2, 0xFFFF, 3, true⟩], .write 8 [⟨0x300, 0xFFFF, 2, true⟩], .read 8 2]

example : ∃ m', runOps 2 (fun _ => .inv) exOps = .ok (m', [[(.bits 0x301 0xFFFF, false), (.bits 2 0xFFFF, true)]]) := ⟨_, rfl⟩
example : Beats (fun b => b.strb < 2 ^ 2) exOps := by
  intro a bs hb
  simp only [exOps, List.mem_cons, Op.write.injEq, reduceCtorEq, List.not_mem_nil, or_false] at hb
  rcases hb with hb | hb <;> rw [hb.2] <;> decide

/-! ## Unaligned addresses -/

/-- The full claim: a read from an unaligned address returns the bytes from this address. -/
def UnalignedRead (cs : Nat) : Prop :=
  ∀ (o a b : Nat), 0 < o → o < cs → a < 2 ^ (8 * cs) → b < 2 ^ (8 * cs) →
    readUnaligned cs o (some a) (some b) = some ((a + b * 2 ^ (8 * cs)) / 2 ^ (8 * o) % 2 ^ (8 * cs))

/-- C267: the bytes from the second word are always read as 0, whatever is there, even if one of the words is not initialized. -/
theorem unaligned_zero (cs o a : Nat) (ha : a < 2 ^ (8 * cs)) (b : Option Nat) :
    readUnaligned cs o (some a) b = some (a / 2 ^ (8 * o)) ∧ ∀ v, readUnaligned cs o none (some v) = some 0 := by
  have hz : ∀ v, (v <<< ((cs - o) * 8)) &&& (2 ^ ((cs - o) * 8) - 1) = 0 := by
    intro v
    rw [Nat.and_two_pow_sub_one_eq_mod, Nat.shiftLeft_eq, Nat.mul_mod_left]
  have hs : a >>> (o * 8) = a / 2 ^ (8 * o) := by rw [Nat.shiftRight_eq_div_pow, Nat.mul_comm]
  refine ⟨?_, fun v => by simp [readUnaligned, hz]⟩
  cases b with
  | none => simp [readUnaligned, hs]
  | some b =>
    simp only [readUnaligned, hz, Nat.or_zero]
    rw [Nat.and_two_pow_sub_one_eq_mod, hs, Nat.mod_eq_of_lt]
    exact Nat.lt_of_le_of_lt (Nat.div_le_self _ _) ha

theorem unaligned_read_fails : ¬ UnalignedRead 4 := by
  intro h
  exact absurd (h 1 0x44332211 0x88776655 (by decide) (by decide) (by decide) (by decide)) (by decide)

/-- C267: the read is right if the bytes of the second word are 0. -/
theorem unaligned_read_partial (cs o a b : Nat) (ha : a < 2 ^ (8 * cs)) (hb : b % 2 ^ (8 * o) = 0) :
    readUnaligned cs o (some a) (some b) = some ((a + b * 2 ^ (8 * cs)) / 2 ^ (8 * o) % 2 ^ (8 * cs)) := by
  rw [(unaligned_zero cs o a ha (some b)).1]
  congr 1
  obtain ⟨q, hq⟩ := Nat.dvd_of_mod_eq_zero hb
  have hp : 0 < 2 ^ (8 * o) := Nat.two_pow_pos _
  rw [hq, Nat.mul_assoc, Nat.add_mul_div_left _ _ hp, Nat.add_mul_mod_self_right, Nat.mod_eq_of_lt]
  exact Nat.lt_of_le_of_lt (Nat.div_le_self _ _) ha

example : readUnaligned 4 1 (some 0x44332211) (some 0x88776600) = some 0x00443322 := by decide

/-- The full claim: a write of one word with all bytes enabled to an unaligned address changes exactly the bytes from this address. -/
def UnalignedWrite (cs : Nat) : Prop :=
  ∀ (o i v : Nat) (m : Mem), 0 < o → o < cs → v < 2 ^ (8 * cs) → ∀ w k, k < 8 * cs →
    bit (writeUnaligned cs o m i v (2 ^ cs - 1) w) k =
      if w = i ∧ 8 * o ≤ k then some (v.testBit (k - 8 * o))
      else if w = i + 1 ∧ k < 8 * o then some (v.testBit (8 * (cs - o) + k))
      else bit (m w) k

/-- C268: the second word gets wrong bytes on wrong places. -/
theorem unaligned_write_fails : ¬ UnalignedWrite 4 := by
  intro h
  exact absurd (h 1 0 0x44332211 (fun _ => .bits 0 0xFFFFFFFF) (by decide) (by decide) (by decide) 1 1 (by decide)) (by decide)

/-- C268: bytes of the first word and all other words except the second one are right (memory without python ints). -/
theorem unaligned_write_partial (cs o i v : Nat) (m : Mem) (ho : 0 < o) (hc : cs % 8 ≠ 0) (hm : GoodCell (m i))
    (w k : Nat) (hk : k < 8 * cs) (hw : w ≠ i + 1) :
    bit (writeUnaligned cs o m i v (2 ^ cs - 1) w) k =
      if w = i ∧ 8 * o ≤ k then some (v.testBit (k - 8 * o)) else bit (m w) k := by
  unfold writeUnaligned
  rw [upd_ne _ _ _ _ hw]
  by_cases e : w = i
  · subst e
    rw [upd_same]
    -- only the low bits of the strobe are used
    have hne : (2 ^ cs - 1) <<< o ≠ allMask cs := by
      intro e
      have h0 : ((2 ^ cs - 1) <<< o).testBit 0 = (allMask cs).testBit 0 := by rw [e]
      rw [Nat.testBit_shiftLeft, allMask_testBit] at h0
      have h1 : ¬ 0 ≥ o := by omega
      have h2 : 0 < cs := by omega
      simp [h1, h2] at h0
    have hn0 : (2 ^ cs - 1) <<< o ≠ 0 := by
      intro e
      have h0 : ((2 ^ cs - 1) <<< o).testBit o = (0 : Nat).testBit o := by rw [e]
      rw [Nat.testBit_shiftLeft, Nat.sub_self, Nat.testBit_two_pow_sub_one] at h0
      have h2 : 0 < cs := by omega
      simp [h2] at h0
    have hfull : Bytewise (2 ^ (8 * cs) - 1) := by
      intro j k h
      simp only [Nat.testBit_two_pow_sub_one]
      rw [decide_eq_decide]; omega
    have hb := merge_bytewise (n := cs) (strb := (2 ^ cs - 1) <<< o) (val := (v <<< (o * 8)) % 2 ^ (8 * cs)) hfull (current_bytewise (cs := cs) hm)
    unfold writeWord
    rw [if_neg hn0, if_pos hne]
    simp only
    rw [if_neg (not_accident hc hb)]
    obtain ⟨m1, m2⟩ := merge_testBit cs ((2 ^ cs - 1) <<< o) ((v <<< (o * 8)) % 2 ^ (8 * cs)) (2 ^ (8 * cs) - 1) (current cs (m w)) k
    simp only [bit, m1, m2, hk, true_and, Nat.testBit_shiftLeft, Nat.testBit_two_pow_sub_one, Nat.testBit_mod_two_pow]
    by_cases hok : 8 * o ≤ k
    · have h1 : k / 8 ≥ o := by omega
      have h2 : k / 8 - o < cs := by omega
      have h3 : k ≥ o * 8 := by omega
      have h4 : k - o * 8 = k - 8 * o := by omega
      simp [h1, h2, h3, h4, hok]
    · have h1 : ¬ k / 8 ≥ o := by omega
      simp only [h1, hok, decide_false, Bool.false_and, Bool.false_eq_true, if_false]
      cases hc : m w with
      | inv => simp [current]
      | int v => rw [hc] at hm; cases hm
      | bits v m => cases hmk : m.testBit k <;> simp [current, hmk]
  · rw [upd_ne _ _ _ _ e]
    simp [e]

example : writeUnaligned 4 1 (fun _ => .bits 0 0xFFFFFFFF) 0 0x44332211 15 0 = .bits 0x33221100 0xFFFFFFFF ∧
    writeUnaligned 4 1 (fun _ => .bits 0 0xFFFFFFFF) 0 0x44332211 15 1 = .bits 0x00000002 0xFFFFFFFF := by decide

/-- C266: a write transaction is accepted only if exactly its last word is marked as last. -/
theorem write_last (cs : Nat) : ∀ (bs : List Beat) (m m' : Mem) (i : Nat), writeBeats cs m i bs = .ok m' →
    ∀ (j : Nat) (b : Beat), bs[j]? = some b → (b.last = true ↔ j + 1 = bs.length) := by
  intro bs
  induction bs with
  | nil => intro m m' i _ j b hj; simp at hj
  | cons a bs ih =>
    intro m m' i h j b hj
    unfold writeBeats at h
    cases hl : a.last != bs.isEmpty with
    | true => rw [hl, if_pos rfl] at h; cases h
    | false =>
      rw [hl, if_neg Bool.false_ne_true] at h
      have ha : a.last = bs.isEmpty := by simpa using hl
      cases j with
      | zero =>
        have : a = b := by simpa using hj
        subst this
        rw [ha]
        cases bs <;> simp
      | succ j =>
        have := ih _ _ _ h j b (by simpa using hj)
        rw [this, List.length_cons]
        omega

example : ∃ m', writeBeats 4 (fun _ => .inv) 0 [⟨1, 2 ^ 32 - 1, 15, false⟩, ⟨2, 2 ^ 32 - 1, 15, true⟩] = .ok m' := ⟨_, rfl⟩

end Verif.BusRam
