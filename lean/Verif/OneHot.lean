import Verif.Common
/-!
# Model of `oneHotToBin` / `binToOneHot` (hwtLib/logic/oneHotToBin.py, hwtLib/logic/binToOneHot.py)

A vector of `n` bits is a function `Nat → Bool` of which the values below `n` matter.
-/
namespace Verif.OneHot

/-- logic/oneHotToBin.py:48-60: the loop over `enumerate(reversed(signals))` builds a chain of `If`s;
`chain n b i` is the value of the chain built in iterations `0..i`. -/
def chain (n : Nat) (b : Nat → Bool) : Nat → Nat
  | 0 => n - 0 - 1
  | i + 1 => if b (n - (i + 1) - 1) then n - (i + 1) - 1 else chain n b i

/-- logic/oneHotToBin.py:42-62 for `n ≥ 1` signals; the result has `log2ceil(n)` bits. -/
def oneHotToBin (n : Nat) (b : Nat → Bool) : Nat := chain n b (n - 1)

/-- logic/oneHotToBin.py:39 `bin.vld`, `Or` of all bits. -/
def oneHotVld (n : Nat) (b : Nat → Bool) : Bool := (List.range n).any b

/-- logic/binToOneHot.py:15-25: bit `i` (`i < 2^w`) of the one-hot vector of the `w` bit number `a`. -/
def binToOneHot (a : Nat) (en : Bool) : Nat → Bool := fun i => if en then a == i else false

theorem chain_spec (n : Nat) (b : Nat → Bool) : ∀ i, i < n →
    chain n b i < n ∧ n - i - 1 ≤ chain n b i ∧
    (∀ j, n - i - 1 ≤ j → j < chain n b i → b j = false) ∧
    (b (chain n b i) = true ∨ (chain n b i = n - 1 ∧ ∀ j, n - i - 1 ≤ j → j < n → b j = false)) := by
  intro i
  induction i with
  | zero =>
    intro hn
    simp only [chain]
    refine ⟨by omega, by omega, by intro j h1 h2; omega, ?_⟩
    cases h : b (n - 0 - 1)
    · right
      refine ⟨rfl, ?_⟩
      intro j h1 h2
      have : j = n - 0 - 1 := by omega
      rw [this, h]
    · left; rfl
  | succ i ih =>
    intro hn
    obtain ⟨h1, h2, h3, h4⟩ := ih (by omega)
    simp only [chain]
    cases h : b (n - (i + 1) - 1)
    · simp only [Bool.false_eq_true, if_false]
      refine ⟨h1, by omega, ?_, ?_⟩
      · intro j q1 q2
        rcases Nat.lt_or_ge j (n - i - 1) with h5 | h5
        · have : j = n - (i + 1) - 1 := by omega
          rw [this, h]
        · exact h3 j h5 q2
      · rcases h4 with h4 | ⟨h4, h5⟩
        · left; exact h4
        · right
          refine ⟨h4, ?_⟩
          intro j q1 q2
          rcases Nat.lt_or_ge j (n - i - 1) with h6 | h6
          · have : j = n - (i + 1) - 1 := by omega
            rw [this, h]
          · exact h5 j h6 q2
    · simp only [if_true]
      refine ⟨by omega, by omega, by intro j q1 q2; omega, Or.inl h⟩

theorem oneHotToBin_lt {n : Nat} (hn : 0 < n) (b : Nat → Bool) : oneHotToBin n b < n :=
  (chain_spec n b (n - 1) (by omega)).1

theorem oneHotToBin_spec {n : Nat} (hn : 0 < n) (b : Nat → Bool) (h : ∃ i, i < n ∧ b i = true) :
    b (oneHotToBin n b) = true ∧ ∀ j, j < oneHotToBin n b → b j = false := by
  obtain ⟨_, _, h3, h4⟩ := chain_spec n b (n - 1) (by omega)
  have e : n - (n - 1) - 1 = 0 := by omega
  rw [e] at h3 h4
  refine ⟨?_, fun j hj => h3 j (Nat.zero_le _) hj⟩
  rcases h4 with h4 | ⟨_, h5⟩
  · exact h4
  · obtain ⟨i, h6, h7⟩ := h
    rw [h5 i (Nat.zero_le _) h6] at h7
    cases h7

end Verif.OneHot
