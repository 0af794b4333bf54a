import Verif.Flip
/-!
# Property C37 of `FlipRegister` and `FlipCntr`
-/
namespace Verif.Flip

universe u
variable {α : Type u}

/-- Register accessible by side 1 (`false` = first) or 2 under a select value: the specification "each
port set is connected to the opposite register". -/
def regOf (side2 sel : Bool) : Bool := side2 != sel

/-- The side which writes register `r` in the cycle, and what. -/
def writeTo (r : Bool) (i : In α) : Option α :=
  if regOf false i.sel = r then (if i.vld1 then some i.data1 else none)
  else (if i.vld2 then some i.data2 else none)

/-- Read value of side 1 / side 2. -/
def Out.side (o : Out α) (side2 : Bool) : α := if side2 then o.din2 else o.din1

def St.reg (s : St α) (r : Bool) : α := if r then s.r1 else s.r0

theorem next_reg (s : St α) (i : In α) (r : Bool) :
    (next s i).reg r = (writeTo r i).getD (s.reg r) := by
  cases r <;> cases h : i.sel <;> cases h1 : i.vld1 <;> cases h2 : i.vld2 <;>
    simp [next, St.reg, writeTo, regOf, h, h1, h2]

theorem out_side (s : St α) (i : In α) (side2 : Bool) :
    (out s i).side side2 = s.reg (regOf side2 i.sel) := by
  cases side2 <;> cases h : i.sel <;> simp [out, Out.side, St.reg, regOf, h]

theorem keep_reg (r : Bool) (is : List (In α)) : ∀ s : St α, (∀ i ∈ is, writeTo r i = none) →
    ((machine (α := α)).final s is).reg r = s.reg r := by
  induction is with
  | nil => intro s _; rfl
  | cons i is ih =>
    intro s h
    rw [Machine.final_cons, ih _ fun j hj => h j (List.mem_cons_of_mem _ hj)]
    show (next s i).reg r = _
    rw [next_reg, h i List.mem_cons_self]
    rfl

/-- **C37** The two sides are connected to different registers in every cycle. -/
theorem flipReg_sides_differ (sel : Bool) : regOf false sel ≠ regOf true sel := by
  cases sel <;> decide

/-- **C37** A side reads what was last written (by any side) to the register to which it is connected. -/
theorem flipReg_read_last_write (s0 : St α) (pre post : List (In α)) (w i : In α) (side2 : Bool) (d : α)
    (hw : writeTo (regOf side2 i.sel) w = some d)
    (hpost : ∀ c ∈ post, writeTo (regOf side2 i.sel) c = none) :
    (machine.outAfter s0 (pre ++ [w] ++ post) i).side side2 = d := by
  unfold Machine.outAfter
  show (out _ i).side side2 = d
  rw [out_side, Machine.final_append, keep_reg _ post _ hpost, Machine.final_append]
  show (next _ w).reg _ = d
  rw [next_reg, hw]
  rfl

/-- **C37** Before the first write the reset value is read. -/
theorem flipReg_read_reset (d0 : α) (is : List (In α)) (i : In α) (side2 : Bool)
    (h : ∀ c ∈ is, writeTo (regOf side2 i.sel) c = none) :
    (machine.outAfter ⟨d0, d0⟩ is i).side side2 = d0 := by
  unfold Machine.outAfter
  show (out _ i).side side2 = d0
  rw [out_side, keep_reg _ is _ h]
  simp [St.reg]

/-! ## FlipCntr -/

/-- Parity of the flips in a history: which register is incremented next. -/
def parity : List CIn → Bool
  | [] => false
  | i :: is => i.flip != parity is

/-- Number of increments in the history which went to register `r`, if register `p` is the incremented
one at the start. -/
def incrs (r p : Bool) : List CIn → Nat
  | [] => 0
  | i :: is => (if i.incr && p == r then 1 else 0) + incrs r (i.flip != p) is

/-- The reader does not overwrite register `r` in the history (it is connected to register `!p`). -/
def NoOverwrite (r p : Bool) : List CIn → Prop
  | [] => True
  | i :: is => (p = (!r) → i.vld = false) ∧ NoOverwrite r (i.flip != p) is

theorem cnext_flip (W : Nat) (s : CSt) (i : CIn) : (cnext W s i).flipSt = (i.flip != s.flipSt) := by
  cases h : i.flip <;> cases h2 : s.flipSt <;> simp [cnext, h, h2]

theorem final_flip (W : Nat) (is : List CIn) : ∀ s,
    ((cmachine W).final s is).flipSt = (parity is != s.flipSt) := by
  induction is with
  | nil => intro s; cases h : s.flipSt <;> simp [parity, h]
  | cons i is ih =>
    intro s
    rw [Machine.final_cons, ih]
    show (parity is != (cnext W s i).flipSt) = _
    rw [cnext_flip]
    simp only [parity]
    cases parity is <;> cases i.flip <;> cases s.flipSt <;> rfl

theorem cnext_reg (W : Nat) (s : CSt) (i : CIn) (r : Bool) :
    (cnext W s i).regs.reg r =
      if s.flipSt = r then (if i.incr then (s.regs.reg r + 1) % 2 ^ W else s.regs.reg r)
      else (if i.vld then i.data else s.regs.reg r) := by
  cases r <;> cases h : s.flipSt <;> cases h1 : i.incr <;> cases h2 : i.vld <;>
    simp [cnext, next, regIn, St.reg, h, h1, h2]

theorem count_keep (W : Nat) (r : Bool) (is : List CIn) : ∀ s : CSt, s.regs.reg r < 2 ^ W →
    NoOverwrite r s.flipSt is →
    ((cmachine W).final s is).regs.reg r = (s.regs.reg r + incrs r s.flipSt is) % 2 ^ W := by
  induction is with
  | nil => intro s h _; simp [incrs, Nat.mod_eq_of_lt h]
  | cons i is ih =>
    intro s hlt h
    rw [Machine.final_cons]
    change ((cmachine W).final (cnext W s i) is).regs.reg r = _
    have hn : NoOverwrite r (cnext W s i).flipSt is := by rw [cnext_flip]; exact h.2
    have hv := cnext_reg W s i r
    by_cases e : s.flipSt = r
    · rw [if_pos e] at hv
      have hb : (s.flipSt == r) = true := by simp [e]
      cases hi : i.incr
      · rw [hi] at hv
        simp only [Bool.false_eq_true, if_false] at hv
        rw [ih _ (by rw [hv]; exact hlt) hn, hv, cnext_flip]
        simp [incrs, hi]
      · rw [hi] at hv
        simp only [if_true] at hv
        rw [ih _ (by rw [hv]; exact Nat.mod_lt _ (Nat.two_pow_pos W)) hn, hv, cnext_flip]
        simp only [incrs, hi, hb, Bool.and_self, if_true]
        rw [Nat.mod_add_mod, Nat.add_assoc]
    · rw [if_neg e] at hv
      have hb : (s.flipSt == r) = false := by simpa using e
      have h0 : i.vld = false := h.1 (by revert e; cases s.flipSt <;> cases r <;> simp)
      rw [h0] at hv
      simp only [Bool.false_eq_true, if_false] at hv
      rw [ih _ (by rw [hv]; exact hlt) hn, hv, cnext_flip]
      simp [incrs, hb]

/-- **C37** The reader reads the number of increments which were done while the register was connected to
the counting side since its last overwrite: cycle `w` overwrote the register and the cycles `post` did
not. -/
theorem flipCntr_count_since_write (W : Nat) (pre post : List CIn) (w i : CIn)
    (hw : w.vld = true) (hd : w.data < 2 ^ W)
    (hreg : parity (pre ++ [w] ++ post) = parity pre)
    (hno : NoOverwrite (!parity pre) (w.flip != parity pre) post) :
    (cmachine W).outAfter cinit (pre ++ [w] ++ post) i
      = (w.data + incrs (!parity pre) (w.flip != parity pre) post) % 2 ^ W := by
  unfold Machine.outAfter
  show (out ((cmachine W).final cinit (pre ++ [w] ++ post)).regs (regIn W _ i)).side true = _
  rw [out_side]
  have e0 : cinit.flipSt = false := rfl
  have e1 : (regIn W ((cmachine W).final cinit (pre ++ [w] ++ post)) i).sel = parity pre := by
    show ((cmachine W).final cinit (pre ++ [w] ++ post)).flipSt = _
    rw [final_flip, hreg, e0]; simp
  rw [e1, Machine.final_append, Machine.final_append]
  show ((cmachine W).final (cnext W ((cmachine W).final cinit pre) w) post).regs.reg _ = _
  have e2 : ((cmachine W).final cinit pre).flipSt = parity pre := by
    rw [final_flip, e0]; simp
  have e3 : regOf true (parity pre) = !parity pre := by cases parity pre <;> rfl
  have e4 : (cnext W ((cmachine W).final cinit pre) w).regs.reg (!parity pre) = w.data := by
    rw [cnext_reg, e2, if_neg (by cases parity pre <;> decide), hw]; rfl
  rw [e3, count_keep W _ post _ (by rw [e4]; exact hd) (by rw [cnext_flip, e2]; exact hno), e4,
    cnext_flip, e2]

theorem incrs_total (p : Bool) (is : List CIn) :
    incrs false p is + incrs true p is = is.countP fun i => i.incr := by
  induction is generalizing p with
  | nil => rfl
  | cons i is ih =>
    have := ih (i.flip != p)
    simp only [incrs, List.countP_cons]
    cases hi : i.incr <;> cases hp : p <;> rw [hp] at this <;> simp at this ⊢ <;> omega

/-- **C37** No increment is lost or counted twice: without overwrites the two registers together hold
the number of all increments. -/
theorem flipCntr_total (W : Nat) (is : List CIn) (h : ∀ i ∈ is, i.vld = false) :
    (((cmachine W).final cinit is).regs.reg false + ((cmachine W).final cinit is).regs.reg true) % 2 ^ W
      = (is.countP fun i => i.incr) % 2 ^ W := by
  have hno : ∀ (is : List CIn) (r p : Bool), (∀ i ∈ is, i.vld = false) → NoOverwrite r p is := by
    intro is
    induction is with
    | nil => intros; trivial
    | cons i is ih =>
      intro r p h
      exact ⟨fun _ => h i List.mem_cons_self, ih _ _ fun j hj => h j (List.mem_cons_of_mem _ hj)⟩
  have h0 : ∀ r, cinit.regs.reg r = 0 := by intro r; cases r <;> rfl
  rw [count_keep W false is cinit (by rw [h0]; exact Nat.two_pow_pos W) (hno _ _ _ h),
    count_keep W true is cinit (by rw [h0]; exact Nat.two_pow_pos W) (hno _ _ _ h),
    h0, h0, Nat.zero_add, Nat.zero_add, ← Nat.add_mod, incrs_total]

/-! ## Non-vacuity -/

def inc (flip : Bool) : CIn := ⟨true, flip, false, 0⟩
def clr : CIn := ⟨true, false, true, 0⟩

-- three increments (the last together with a flip), the reader then sees 3
example : (cmachine 8).outAfter cinit [inc false, inc false, inc true] (inc false) = 3 := by decide

-- hypotheses of `flipCntr_count_since_write`
example : let pre := [inc true]; let post := [inc true, inc false, inc true]
    parity (pre ++ [clr] ++ post) = parity pre ∧
    NoOverwrite (!parity pre) (clr.flip != parity pre) post ∧
    incrs (!parity pre) (clr.flip != parity pre) post = 2 := by
  refine ⟨by decide, ?_, by decide⟩
  exact ⟨fun _ => rfl, fun _ => rfl, fun _ => rfl, trivial⟩

example : writeTo (regOf true false) (⟨false, true, 5, true, 6⟩ : In Nat) = some 6 := by decide

end Verif.Flip
