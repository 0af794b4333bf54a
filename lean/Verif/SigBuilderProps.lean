import Verif.SigBuilder
/-!
# C383, C384: optional signals in expressions
-/
namespace Verif.SigBuilder

/-- **C383** The conjunction (disjunction) of the signals which are present; `None` iff no signal is present. -/
theorem and_or_optional (env : Nat → Bool) (a b : Option Nat) :
    (andOpt env a b = if a = none ∧ b = none then .none else .val ((a.map env).getD true && (b.map env).getD true)) ∧
    (orOpt env a b = if a = none ∧ b = none then .none else .val ((a.map env).getD false || (b.map env).getD false)) := by
  cases a with
  | none => cases b <;> simp [andOpt, orOpt, ret]
  | some a =>
    cases b with
    | none => simp [andOpt, orOpt]
    | some b =>
      by_cases h : a = b
      · subst h; simp [andOpt, orOpt]
      · simp [andOpt, orOpt, h, Bool.and_comm, Bool.or_comm]

/-- the value of `b & ~bMask`, members which are missing are left out -/
def bTerm (env : Nat → Bool) (b m : Option Nat) : Bool := (b.map env).getD true && !(m.map env).getD false

/-- **C384** (full statement) `a | (b & ~bMask)` "where every member can be None" and `a & (b & ~bMask)`: no exception, and the
value of the expression without the missing members -/
def MaskSpec : Prop := ∀ (env : Nat → Bool) (a b m : Option Nat),
  (orMasked env a b m = if a = none ∧ b = none ∧ m = none then .none
    else .val ((a.map env).getD false || (if b = none ∧ m = none then false else bTerm env b m))) ∧
  (andMasked env a b m = if a = none ∧ b = none ∧ m = none then .none else .val ((a.map env).getD true && bTerm env b m))

/-- **C384** The disjunction is right if `b` is present (or all is missing); the conjunction is right if the mask is not `b`
and a mask without `b` is used only together with `a`. -/
theorem mask_partial (env : Nat → Bool) (a b m : Option Nat) :
    ((b ≠ none → orMasked env a b m = .val ((a.map env).getD false || bTerm env b m)) ∧
      (b = none → a = none → m = none → orMasked env a b m = .none)) ∧
    ((m = none ∨ b ≠ m) → (b = none → m ≠ none → a ≠ none) →
      andMasked env a b m = if a = none ∧ b = none ∧ m = none then .none else .val ((a.map env).getD true && bTerm env b m)) := by
  refine ⟨⟨?_, ?_⟩, ?_⟩
  · intro hb
    cases b with
    | none => exact absurd rfl hb
    | some b =>
      cases a with
      | none => cases m <;> simp [orMasked, ret, masked, bTerm]
      | some a =>
        by_cases h : a = b
        · subst h
          simp only [orMasked, if_pos, bTerm, Option.map_some, Option.getD_some]
          cases env a <;> simp
        · cases m <;> simp [orMasked, masked, bTerm, h]
  · intro h1 h2 h3; subst h1 h2 h3; rfl
  · intro h1 h2
    cases a with
    | none =>
      cases m with
      | none => cases b <;> simp [andMasked, ret, bTerm]
      | some m =>
        cases b with
        | none => exact absurd rfl (h2 rfl (by simp))
        | some b =>
          have : b ≠ m := by
            rcases h1 with h | h
            · cases h
            · exact fun e => h (by rw [e])
          simp [andMasked, masked, bTerm, this]
    | some a =>
      cases m with
      | none =>
        cases b with
        | none => simp [andMasked, bTerm]
        | some b =>
          by_cases h : b = a
          · subst h; simp [andMasked, bTerm]
          · simp [andMasked, bTerm, h]
      | some m =>
        cases b with
        | none => simp [andMasked, bTerm]
        | some b =>
          have : b ≠ m := by
            rcases h1 with h | h
            · cases h
            · exact fun e => h (by rw [e])
          simp [andMasked, bTerm, this]

/-- **C384 violated** -/
theorem mask_violated : ¬ MaskSpec := by
  intro h
  have := (h (fun _ => true) (some 0) none none).1
  revert this
  decide

/-- **C384 violated**: exceptions for each `a` without `b`, and `b & ~b` is `b` -/
theorem mask_wrong (env : Nat → Bool) (a b m : Nat) :
    orMasked env (some a) none none = .raise ∧ orMasked env (some a) none (some m) = .raise ∧
    orMasked env none none (some m) = .raise ∧ andMasked env none (some b) (some b) = .val (env b) ∧
    andMasked env (some a) (some b) (some b) = .val (env a && !env b) ∧ andMasked env none none (some m) = .none := by
  simp [orMasked, andMasked, masked, ret]

-- non-vacuity
example : orMasked (fun k => k == 1) (some 0) (some 1) (some 2) = .val true := by decide
example : andMasked (fun k => k != 2) (some 0) (some 1) (some 2) = .val true := by decide

end Verif.SigBuilder
