import Verif.Dsp48

namespace Verif.Dsp48

/-! ## C392: ALU of DSP48E1 -/

theorem maj_xor (n : Nat) : ∀ x y z : Nat, x < 2 ^ n → y < 2 ^ n → z < 2 ^ n →
    2 * (((x &&& y) ||| (z &&& y)) ||| (x &&& z)) + ((z ^^^ x) ^^^ y) = x + y + z := by
  induction n with
  | zero => intro x y z hx hy hz; simp at hx hy hz; subst hx hy hz; rfl
  | succ n ih =>
    intro x y z hx hy hz
    have h := ih (x / 2) (y / 2) (z / 2) (by omega) (by omega) (by omega)
    have e1 : (((x &&& y) ||| (z &&& y)) ||| (x &&& z)) / 2
        = ((x / 2 &&& y / 2) ||| (z / 2 &&& y / 2)) ||| (x / 2 &&& z / 2) := by
      rw [Nat.or_div_two, Nat.or_div_two, Nat.and_div_two, Nat.and_div_two, Nat.and_div_two]
    have e2 : ((z ^^^ x) ^^^ y) / 2 = (z / 2 ^^^ x / 2) ^^^ y / 2 := by
      rw [Nat.xor_div_two, Nat.xor_div_two]
    have e3 : (((x &&& y) ||| (z &&& y)) ||| (x &&& z)) % 2
        = ((x % 2 &&& y % 2) ||| (z % 2 &&& y % 2)) ||| (x % 2 &&& z % 2) := by
      have := @Nat.or_mod_two_pow ((x &&& y) ||| (z &&& y)) (x &&& z) 1
      have := @Nat.or_mod_two_pow (x &&& y) (z &&& y) 1
      have := @Nat.and_mod_two_pow x y 1
      have := @Nat.and_mod_two_pow z y 1
      have := @Nat.and_mod_two_pow x z 1
      simp_all
    have e4 : ((z ^^^ x) ^^^ y) % 2 = (z % 2 ^^^ x % 2) ^^^ y % 2 := by
      have := @Nat.xor_mod_two_pow (z ^^^ x) y 1
      have := @Nat.xor_mod_two_pow z x 1
      simp_all
    rw [← e1, ← e2] at h
    have k : ∀ a b c : Nat, a < 2 → b < 2 → c < 2 →
        2 * (((a &&& b) ||| (c &&& b)) ||| (a &&& c)) + ((c ^^^ a) ^^^ b) = a + b + c := by
      intro a b c ha hb hc
      rcases (show a = 0 ∨ a = 1 by omega) with rfl | rfl <;> rcases (show b = 0 ∨ b = 1 by omega) with rfl | rfl <;>
        rcases (show c = 0 ∨ c = 1 by omega) with rfl | rfl <;> rfl
    have h2 := k (x % 2) (y % 2) (z % 2) (by omega) (by omega) (by omega)
    rw [← e3, ← e4] at h2
    omega

/-- the final adder adds -/
theorem finalAdd_spec (co s : Nat) (cin : Bool) (hco : co < 2 ^ 48) (hs : s < 2 ^ 48) :
    (finalAdd co s cin).1 = (2 * co + s + cin.toNat) % 2 ^ 48 ∧
      (finalAdd co s cin).2 = ((2 * co + s + cin.toNat) / 2 ^ 48 % 2 == 1) := by
  have hc : cin.toNat < 2 := by cases cin <;> simp
  generalize hcn : cin.toNat = c at *
  -- slices of the operands
  obtain ⟨a0, a1, a2, a3, ha, h0, h1, h2, h3⟩ : ∃ a0 a1 a2 a3 : Nat,
      2 * co = a0 + 2 ^ 12 * a1 + 2 ^ 24 * a2 + 2 ^ 36 * a3 ∧ a0 = 2 * slice co 11 0 ∧
      a1 = 2 * slice co 23 12 + slice co 12 11 ∧ a2 = 2 * slice co 35 24 + slice co 24 23 ∧
      a3 = 2 * slice co 48 36 + slice co 36 35 := by
    refine ⟨_, _, _, _, ?_, rfl, rfl, rfl, rfl⟩
    simp only [slice]
    omega
  obtain ⟨b0, b1, b2, b3, hb, g0, g1, g2, g3⟩ : ∃ b0 b1 b2 b3 : Nat,
      s = b0 + 2 ^ 12 * b1 + 2 ^ 24 * b2 + 2 ^ 36 * b3 ∧ b0 = slice s 12 0 ∧
      b1 = slice s 24 12 ∧ b2 = slice s 36 24 ∧ b3 = slice s 48 36 := by
    refine ⟨_, _, _, _, ?_, rfl, rfl, rfl, rfl⟩
    simp only [slice]
    omega
  have ba0 : a0 + 1 < 2 ^ 12 := by simp only [h0, slice]; omega
  have ba1 : a1 < 2 ^ 12 := by simp only [h1, slice]; omega
  have ba2 : a2 < 2 ^ 12 := by simp only [h2, slice]; omega
  have ba3 : a3 < 2 ^ 13 := by simp only [h3, slice]; omega
  have bb0 : b0 < 2 ^ 12 := by simp only [g0, slice]; omega
  have bb1 : b1 < 2 ^ 12 := by simp only [g1, slice]; omega
  have bb2 : b2 < 2 ^ 12 := by simp only [g2, slice]; omega
  have bb3 : b3 < 2 ^ 12 := by simp only [g3, slice]; omega
  simp only [finalAdd, add0, addMid, add3, hcn]
  rw [← h0, ← h3, ← g0, ← g3]
  have e1 : 2 * slice co (12 + 11) 12 + slice co 12 (12 - 1) = a1 := h1.symm
  have e2 : 2 * slice co (24 + 11) 24 + slice co 24 (24 - 1) = a2 := h2.symm
  have f1 : slice s (12 + 12) 12 = b1 := g1.symm
  have f2 : slice s (24 + 12) 24 = b2 := g2.symm
  rw [e1, e2, f1, f2, ha]
  clear e1 e2 f1 f2 h0 h1 h2 h3 g0 g1 g2 g3
  subst hb
  simp only [slice]
  clear hs hco ha
  generalize ht0 : (a0 + c + b0) % 2 ^ 13 = t0
  have ht0' : t0 = a0 + c + b0 := by omega
  clear ht0
  have hq0 : t0 / 2 ^ 12 % 2 ^ (13 - 12) = t0 / 2 ^ 12 := by omega
  have hb0 : t0 / 2 ^ 12 ≤ 1 := by omega
  rw [hq0]
  generalize ht1 : (a1 + b1 + t0 / 2 ^ 12) % 2 ^ 13 = t1
  have ht1' : t1 = a1 + b1 + t0 / 2 ^ 12 := by omega
  clear ht1
  have hq1 : t1 / 2 ^ 12 % 2 ^ (13 - 12) = t1 / 2 ^ 12 := by omega
  have hb1 : t1 / 2 ^ 12 ≤ 1 := by omega
  rw [hq1]
  generalize ht2 : (a2 + b2 + t1 / 2 ^ 12) % 2 ^ 13 = t2
  have ht2' : t2 = a2 + b2 + t1 / 2 ^ 12 := by omega
  clear ht2
  have hq2 : t2 / 2 ^ 12 % 2 ^ (13 - 12) = t2 / 2 ^ 12 := by omega
  have hb2 : t2 / 2 ^ 12 ≤ 1 := by omega
  rw [hq2]
  generalize ht3 : (a3 + b3 + t2 / 2 ^ 12) % 2 ^ 14 = t3
  have ht3' : t3 = a3 + b3 + t2 / 2 ^ 12 := by omega
  clear ht3
  have key : a0 + 2 ^ 12 * a1 + 2 ^ 24 * a2 + 2 ^ 36 * a3 + (b0 + 2 ^ 12 * b1 + 2 ^ 24 * b2 + 2 ^ 36 * b3) + c
      = t0 % 2 ^ 12 + 2 ^ 12 * (t1 % 2 ^ 12) + 2 ^ 24 * (t2 % 2 ^ 12) + 2 ^ 36 * t3 := by omega
  rw [key]
  clear key
  constructor
  · omega
  · congr 1
    omega

/-- value of the operation in the key of the table `ALU_MODE` -/
def opSpec (op : Op) (x y z : BitVec 48) (cin : Bool) : BitVec 48 :=
  let c : BitVec 48 := if cin then 1 else 0
  match op with
  | .add => z + x + y + c
  | .sub => z - (x + y + c)
  | .rsub => -z + (x + y + c) - 1
  | .nadd => -z - x - y - c - 1
  | .xor => x ^^^ z
  | .xnor => ~~~(x ^^^ z)
  | .and => x &&& z
  | .andn => x &&& ~~~z
  | .nand => ~~~(x &&& z)
  | .orn => ~~~x ||| z
  | .or => x ||| z
  | .orN => x ||| ~~~z
  | .nor => ~~~(x ||| z)
  | .nandX => ~~~x &&& z

theorem finalAdd_bv (co s : BitVec 48) (cin : Bool) :
    BitVec.ofNat 48 (finalAdd co.toNat s.toNat cin).1 = co + co + s + (if cin then 1 else 0) := by
  apply BitVec.eq_of_toNat_eq
  rw [(finalAdd_spec _ _ cin co.isLt s.isLt).1]
  cases cin <;> simp <;> omega

theorem maj_xor_bv (x y z : BitVec 48) :
    (((x &&& y) ||| (z &&& y)) ||| (x &&& z)) + (((x &&& y) ||| (z &&& y)) ||| (x &&& z)) + ((z ^^^ x) ^^^ y)
      = x + y + z := by
  apply BitVec.eq_of_toNat_eq
  have := maj_xor 48 x.toNat y.toNat z.toNat x.isLt y.isLt z.isLt
  simp only [BitVec.toNat_add, BitVec.toNat_or, BitVec.toNat_and, BitVec.toNat_xor]
  omega

theorem finalAdd_zero (s : BitVec 48) : BitVec.ofNat 48 (finalAdd (BitVec.toNat (0 : BitVec 48)) s.toNat false).1 = s := by
  rw [finalAdd_bv]; simp

theorem alu_arith (m : BitVec 4) (h2 : m.getLsbD 2 = false) (h3 : m.getLsbD 3 = false) (x y z : BitVec 48) (cin : Bool) :
    (alu m x y z cin).1 =
      (let z' := if m.getLsbD 0 then ~~~z else z
       let r := x + y + z' + (if cin then 1 else 0)
       if m.getLsbD 1 then ~~~r else r) := by
  simp only [alu, h2, h3, Bool.false_eq_true, if_false, Bool.or_self]
  rw [finalAdd_bv]
  cases m.getLsbD 0 <;> simp only [csa, Bool.false_eq_true, if_false, if_true]
  · rw [maj_xor_bv x y z]
  · rw [maj_xor_bv x y (~~~z)]

theorem alu_logic (m : BitVec 4) (h2 : m.getLsbD 2 = true) (x y z : BitVec 48) (cin : Bool) :
    (alu m x y z cin).1 =
      (let r := if m.getLsbD 3 then (csa (m.getLsbD 0) x y z).1 else (csa (m.getLsbD 0) x y z).2
       if m.getLsbD 1 then ~~~r else r) := by
  simp only [alu, h2, if_true, Bool.or_true]
  rw [finalAdd_zero]

/-- the operand of Y which is required by the item of the table: anything or the operand selected by the Y multiplexer -/
def yFor (op : Op) (y c : BitVec 48) (zsel : BitVec 3) (ms : Bool) : BitVec 48 :=
  match (aluMode op).1 with
  | none => y
  | some o => yMux (o.extractLsb' 2 2) zsel c ms

theorem alu_table (op : Op) (x y z c : BitVec 48) (zsel : BitVec 3) (ms cin : Bool) (hz : zsel ≠ 4) :
    (alu (aluMode op).2 x (yFor op y c zsel ms) z cin).1 = opSpec op x y z cin := by
  have hy0 : yMux (BitVec.extractLsb' 2 2 (0b0000000 : BitVec 7)) zsel c ms = 0 := by simp [yMux]
  have hy1 : yMux (BitVec.extractLsb' 2 2 (0b0001000 : BitVec 7)) zsel c ms = BitVec.allOnes 48 := by
    simp only [yMux, if_neg hz]
    rfl
  have hone : ∀ i (hi : i < 48), (BitVec.allOnes 48)[i] = true := fun i hi => BitVec.getElem_allOnes i hi
  cases op
  case add =>
    simp only [aluMode, yFor, opSpec]
    rw [alu_arith _ (by decide) (by decide)]
    simp only [show (0b0000 : BitVec 4).getLsbD 0 = false from by decide, show (0b0000 : BitVec 4).getLsbD 1 = false from by decide, Bool.false_eq_true, if_false]
    ac_rfl
  case sub =>
    simp only [aluMode, yFor, opSpec]
    rw [alu_arith _ (by decide) (by decide)]
    simp only [show (0b0011 : BitVec 4).getLsbD 0 = true from by decide, show (0b0011 : BitVec 4).getLsbD 1 = true from by decide, if_true]
    generalize (if cin = true then (1 : BitVec 48) else 0) = q
    apply BitVec.eq_of_toNat_eq
    have := x.isLt; have := y.isLt; have := z.isLt; have := q.isLt
    simp only [BitVec.toNat_not, BitVec.toNat_sub, BitVec.toNat_add]
    omega
  case rsub =>
    simp only [aluMode, yFor, opSpec]
    rw [alu_arith _ (by decide) (by decide)]
    simp only [show (0b0001 : BitVec 4).getLsbD 0 = true from by decide, show (0b0001 : BitVec 4).getLsbD 1 = false from by decide, if_true, Bool.false_eq_true, if_false]
    generalize (if cin = true then (1 : BitVec 48) else 0) = q
    apply BitVec.eq_of_toNat_eq
    have := x.isLt; have := y.isLt; have := z.isLt; have := q.isLt
    simp only [BitVec.toNat_not, BitVec.toNat_sub, BitVec.toNat_add, BitVec.toNat_neg, show BitVec.toNat (1 : BitVec 48) = 1 from rfl]
    omega
  case nadd =>
    simp only [aluMode, yFor, opSpec]
    rw [alu_arith _ (by decide) (by decide)]
    simp only [show (0b0010 : BitVec 4).getLsbD 0 = false from by decide, show (0b0010 : BitVec 4).getLsbD 1 = true from by decide, if_true, Bool.false_eq_true, if_false]
    generalize (if cin = true then (1 : BitVec 48) else 0) = q
    apply BitVec.eq_of_toNat_eq
    have := x.isLt; have := y.isLt; have := z.isLt; have := q.isLt
    simp only [BitVec.toNat_not, BitVec.toNat_sub, BitVec.toNat_add, BitVec.toNat_neg, show BitVec.toNat (1 : BitVec 48) = 1 from rfl]
    omega
  all_goals
    simp only [aluMode, yFor, opSpec, hy0, hy1]
    rw [alu_logic _ (by decide)]
    generalize BitVec.allOnes 48 = ones at hone
    simp only [csa]
    ext i hi
    have h1 := hone i hi
    simp [h1]
    try (cases x[i] <;> cases z[i] <;> simp)

/-- the carry out is the carry of the 48 bit addition of two operands -/
theorem alu_carry (x z : BitVec 48) (cin : Bool) :
    (alu 0 x 0 z cin).1.toNat + 2 ^ 48 * (alu 0 x 0 z cin).2.toNat = x.toNat + z.toNat + cin.toNat := by
  have hx := x.isLt
  have hz := z.isLt
  have hc : cin.toNat < 2 := by cases cin <;> simp
  have hm := maj_xor 48 x.toNat 0 z.toNat hx (by omega) hz
  have e : alu 0 x 0 z cin
      = (BitVec.ofNat 48 (finalAdd (csa false x 0 z).1.toNat (csa false x 0 z).2.toNat cin).1,
        (finalAdd (csa false x 0 z).1.toNat (csa false x 0 z).2.toNat cin).2) := by
    simp [alu]
  have h := finalAdd_spec (csa false x 0 z).1.toNat (csa false x 0 z).2.toNat cin (csa false x 0 z).1.isLt (csa false x 0 z).2.isLt
  have e1 : 2 * (csa false x 0 z).1.toNat + (csa false x 0 z).2.toNat = x.toNat + z.toNat := by
    simp only [csa, Bool.false_eq_true, if_false, BitVec.toNat_or, BitVec.toNat_and, BitVec.toNat_xor]
    simp only [show BitVec.toNat (0 : BitVec 48) = 0 from rfl]
    omega
  rw [e1] at h
  rw [e]
  simp only [h.1, h.2, BitVec.toNat_ofNat]
  have : ((x.toNat + z.toNat + cin.toNat) / 2 ^ 48 % 2 == 1).toNat = (x.toNat + z.toNat + cin.toNat) / 2 ^ 48 := by
    have : (x.toNat + z.toNat + cin.toNat) / 2 ^ 48 < 2 := by omega
    generalize (x.toNat + z.toNat + cin.toNat) / 2 ^ 48 = q at *
    rcases (show q = 0 ∨ q = 1 by omega) with rfl | rfl <;> rfl
  rw [this]
  omega

example : (alu 3 5 0 7 true).1 = 1 ∧ (alu 0 1 0 (BitVec.allOnes 48) false) = (0, true) := by decide +kernel

/-! ## C393: operand registers -/

/-- the operand seen by the ALU is the operand of the `n`-th last enabled clock cycle, or of the present cycle if `n = 0` -/
def regSpec {V : Type} (M : Machine (Regs V) (RegIn V) (Option V)) (n : Nat) : Prop :=
  ∀ (s : Regs V) (h : List (RegIn V)) (i : RegIn V), (∀ e ∈ h, e.rst = false ∧ e.ce1 = e.ce2) →
    n ≤ (h.filter (·.ce1)).length →
    M.outAfter s h i = (((h.filter (·.ce1)) ++ [i])[(h.filter (·.ce1)).length - n]?).map (·.d)

theorem reg1_aux {V : Type} (zero : V) (h : List (RegIn V)) : ∀ s : Regs V, (∀ e ∈ h, e.rst = false ∧ e.ce1 = e.ce2) →
    ((regA zero 1).final s h).r2 = ((h.filter (·.ce1)).getLast?.map (·.d)).elim s.r2 some := by
  induction h with
  | nil => intro s _; rfl
  | cons e h ih =>
    intro s ho
    have h1 := ho e (by simp)
    rw [Machine.final_cons, ih _ (fun x hx => ho x (by simp [hx]))]
    have e1 : ((regA zero 1).next s e).r2 = if e.ce1 then some e.d else s.r2 := by simp [regA, h1.1, h1.2]
    rw [e1]
    by_cases hc : e.ce1 = true
    · simp only [hc, if_true, List.filter_cons]
      cases hq : List.filter (·.ce1) h with
      | nil => rfl
      | cons a l => simp [List.getLast?_cons]
    · simp [hc]

theorem reg2_aux {V : Type} (zero : V) (h : List (RegIn V)) : ∀ s : Regs V, (∀ e ∈ h, e.rst = false ∧ e.ce1 = e.ce2) →
    let st := (regA zero 2).final s h
    let l := s.r2 :: s.r1 :: (h.filter (·.ce1)).map (fun e => some e.d)
    st.r1 = l[l.length - 1]?.getD none ∧ st.r2 = l[l.length - 2]?.getD none := by
  induction h with
  | nil => intro s _; exact ⟨rfl, rfl⟩
  | cons e h ih =>
    intro s ho
    have h1 := ho e (by simp)
    have := ih ((regA zero 2).next s e) (fun x hx => ho x (by simp [hx]))
    have e1 : (regA zero 2).next s e = if e.ce1 then ⟨some e.d, s.r1⟩ else s := by
      have h2 := h1.2
      cases hc : e.ce1 <;> rw [hc] at h2 <;> simp [regA, h1.1, hc, ← h2]
    simp only [Machine.final_cons]
    rw [e1] at this ⊢
    by_cases hc : e.ce1 = true
    · simp only [hc, if_true, List.filter_cons, List.map_cons, List.length_cons] at this ⊢
      rw [this.1, this.2]
      generalize List.map (fun e => some e.d) (List.filter (·.ce1) h) = l
      constructor
      · show (s.r1 :: some e.d :: l)[l.length + 1]?.getD none = (s.r2 :: s.r1 :: some e.d :: l)[l.length + 2]?.getD none
        simp
      · show (s.r1 :: some e.d :: l)[l.length]?.getD none = (s.r2 :: s.r1 :: some e.d :: l)[l.length + 1]?.getD none
        rw [List.getElem?_cons_succ]
    · simp only [hc, Bool.false_eq_true, if_false, List.filter_cons] at this ⊢
      exact this

theorem regA_spec {V : Type} (zero : V) (n : Nat) (hn : n ≤ 2) : regSpec (regA zero n) n := by
  intro s h i ho hl
  rcases (show n = 0 ∨ n = 1 ∨ n = 2 by omega) with rfl | rfl | rfl
  · simp [Machine.outAfter, regA]
  · have := reg1_aux zero h s ho
    have e : (regA zero 1).outAfter s h i = ((regA zero 1).final s h).r2 := by simp [Machine.outAfter, regA]
    rw [e, this, List.getElem?_append_left (by omega), ← List.getLast?_eq_getElem?]
    cases hq : (List.filter (·.ce1) h).getLast? with
    | none => rw [List.getLast?_eq_none_iff] at hq; rw [hq] at hl; simp at hl
    | some a => rfl
  · have := (reg2_aux zero h s ho).2
    have e : (regA zero 2).outAfter s h i = ((regA zero 2).final s h).r2 := by simp [Machine.outAfter, regA]
    rw [e, this, List.getElem?_append_left (by omega)]
    generalize List.filter (·.ce1) h = l at hl ⊢
    obtain ⟨k, hk⟩ : ∃ k, l.length = k + 2 := ⟨l.length - 2, by omega⟩
    have e2 : (s.r2 :: s.r1 :: l.map (fun e => some e.d)).length - 2 = k + 2 := by simp; omega
    rw [e2, hk]
    simp
    rw [List.getElem?_eq_getElem (by omega)]
    rfl

theorem regB_eq {V : Type} (zero : V) (n : Nat) (hn : n ≤ 1) : regB zero n = regA zero n := by
  rcases (show n = 0 ∨ n = 1 by omega) with rfl | rfl <;> rfl

/-- the full statement for operand B -/
def regB_full : Prop := ∀ n, n ≤ 2 → regSpec (regB (0 : Nat) n) n

theorem regB_violated : ¬ regB_full := by
  intro h
  have := h 2 (by omega) ⟨some 0, some 0⟩ [⟨5, false, true, true⟩, ⟨6, false, true, true⟩] ⟨7, false, true, true⟩
    (by simp) (by simp)
  revert this
  decide

/-- operand A for every AREG and operand B for BREG 0 and 1; missing: BREG = 2, which is wrong -/
theorem reg_partial {V : Type} (zero : V) (n : Nat) :
    (n ≤ 2 → regSpec (regA zero n) n) ∧ (n ≤ 1 → regSpec (regB zero n) n) :=
  ⟨regA_spec zero n, fun h => by rw [regB_eq zero n h]; exact regA_spec zero n (by omega)⟩

example : (regA 0 2).outAfter ⟨none, none⟩ [⟨5, false, true, true⟩, ⟨9, false, false, false⟩, ⟨6, false, true, true⟩]
    ⟨7, false, true, true⟩ = some 5 := by decide

end Verif.Dsp48
