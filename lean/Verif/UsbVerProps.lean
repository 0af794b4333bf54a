import Verif.UsbVer
/-!
# Properties of the conversions of USB versions
-/
namespace Verif.UsbVer

/-- a character which is the decimal digit `d` -/
def digit (d : Nat) : Char := Char.ofNat (48 + d)

/-- C438, full statement: a string is accepted only if it is a version and its number is the binary coded
decimal of USB; the conversion back gives different strings for different numbers. -/
def VerFull : Prop :=
  (∀ s v, toU16 s = .ok v → ∃ a b, a < 10 ∧ b < 10 ∧ s = [digit a, '.', digit b] ∧ v = a * 256 + b * 16) ∧
  (∀ v w, v < 65536 → w < 65536 → fromU16 v = fromU16 w → v = w)

/-- C438: letters are accepted and the digits of a number which is not decimal run together. -/
theorem ver_wrong : toU16 ['2', '.', 'x'] = .ok 0x680 ∧ fromU16 0x1b10 = ['1', '1', '1', '.', '1', '0'] ∧
    fromU16 0xb110 = ['1', '1', '1', '.', '1', '0'] := by decide +kernel

theorem ver_violated : ¬ VerFull := by
  intro h
  have := h.2 0x1b10 0xb110 (by decide) (by decide) (by decide +kernel)
  exact absurd this (by decide)

/-- both parts of the full statement fail -/
theorem ver_accepts : ¬ ∀ s v, toU16 s = .ok v →
    ∃ a b, a < 10 ∧ b < 10 ∧ s = [digit a, '.', digit b] ∧ v = a * 256 + b * 16 := by
  intro h
  obtain ⟨a, b, ha, hb, e, _⟩ := h ['2', '.', 'x'] 0x680 (by decide +kernel)
  have e' : digit b = 'x' := by simp at e; exact e.2.symm
  exact absurd e' ((by decide +kernel : ∀ b, b < 10 → digit b ≠ 'x') b hb)

theorem to_digits : ∀ a, a < 10 → ∀ b, b < 10 → toU16 [digit a, '.', digit b] = .ok (a * 256 + b * 16) := by
  decide +kernel

theorem from_digits : ∀ a, a < 10 → ∀ b, b < 10 → fromU16 (a * 256 + b * 16) = [digit a, '.', digit b] := by
  decide +kernel

theorem digits_lt (d : Nat) (h : d < 10) : Nat.toDigits 10 d = [digit d] := by
  revert d; decide +kernel

theorem digit_inj : ∀ a, a < 10 → ∀ b, b < 10 → digit a = digit b → a = b := by decide +kernel

theorem nib_bcd (a b c d : Nat) (ha : a < 10) (hb : b < 10) (hc : c < 10) (hd : d < 10) :
    nib (a * 4096 + b * 256 + c * 16 + d) 3 = a ∧ nib (a * 4096 + b * 256 + c * 16 + d) 2 = b ∧
    nib (a * 4096 + b * 256 + c * 16 + d) 1 = c ∧ nib (a * 4096 + b * 256 + c * 16 + d) 0 = d := by
  unfold nib
  simp only [Nat.shiftRight_eq_div_pow]
  omega

/-- C438: a version of one digit on both sides of the point is converted to its binary coded decimal and
back, a number of four decimal digits is written with these digits (two of them if the outer ones are 0). -/
theorem ver_partial :
    (∀ a b, a < 10 → b < 10 → toU16 [digit a, '.', digit b] = .ok (a * 256 + b * 16) ∧
      fromU16 (a * 256 + b * 16) = [digit a, '.', digit b]) ∧
    (∀ a b c d, a < 10 → b < 10 → c < 10 → d < 10 →
      fromU16 (a * 4096 + b * 256 + c * 16 + d) =
        if a = 0 ∧ d = 0 then [digit b, '.', digit c] else [digit a, digit b, '.', digit c, digit d]) := by
  refine ⟨fun a b ha hb => ⟨to_digits a ha b hb, from_digits a ha b hb⟩, fun a b c d ha hb hc hd => ?_⟩
  obtain ⟨h3, h2, h1, h0⟩ := nib_bcd a b c d ha hb hc hd
  unfold fromU16
  rw [h3, h2, h1, h0, digits_lt a ha, digits_lt b hb, digits_lt c hc, digits_lt d hd]
  rfl

/-- C438: decimal numbers are told apart by their strings. -/
theorem ver_inj (a b c d a' b' c' d' : Nat) (ha : a < 10) (hb : b < 10) (hc : c < 10) (hd : d < 10)
    (ha' : a' < 10) (hb' : b' < 10) (hc' : c' < 10) (hd' : d' < 10)
    (h : fromU16 (a * 4096 + b * 256 + c * 16 + d) = fromU16 (a' * 4096 + b' * 256 + c' * 16 + d')) :
    a = a' ∧ b = b' ∧ c = c' ∧ d = d' := by
  rw [ver_partial.2 a b c d ha hb hc hd, ver_partial.2 a' b' c' d' ha' hb' hc' hd'] at h
  split at h <;> split at h
  · rename_i e e'
    simp only [List.cons.injEq, and_true, true_and] at h
    exact ⟨by omega, digit_inj _ hb _ hb' h.1, digit_inj _ hc _ hc' h.2, by omega⟩
  · simp at h
  · simp at h
  · simp only [List.cons.injEq, and_true, true_and] at h
    exact ⟨digit_inj _ ha _ ha' h.1, digit_inj _ hb _ hb' h.2.1, digit_inj _ hc _ hc' h.2.2.1,
      digit_inj _ hd _ hd' h.2.2.2⟩

/-- C438: everything which is not a character, a point and a character other than a point is refused. -/
theorem ver_refused (s : List Char) (v : Nat) (h : toU16 s = .ok v) :
    ∃ a b, s = [a, '.', b] ∧ a ≠ '.' ∧ b ≠ '.' := by
  unfold toU16 at h
  split at h
  · cases h
  · rename_i hl
    rcases s with _ | ⟨x, _ | ⟨y, _ | ⟨z, _ | ⟨w, s⟩⟩⟩⟩ <;> simp at hl
    simp only [split] at h
    by_cases hx : x = '.' <;> by_cases hy : y = '.' <;> by_cases hz : z = '.' <;>
      simp [hx, hy, hz] at h
    exact ⟨x, z, by rw [hy], hx, hz⟩

example : ([digit 2, '.', digit 0] : List Char) = ['2', '.', '0'] ∧
    fromU16 (0 * 4096 + 2 * 256 + 0 * 16 + 1) = ['0', '2', '.', '0', '1'] := by decide +kernel

/-- C439, full statement: a device of every version which the library names is listed by the server, with
the speed of this version (numbers of USB/IP: low 1, full 2, high 3, super 5, super plus 6). -/
def ListFull : Prop := ∀ s ∈ values, ∃ k, listed s = some k ∧
  (s = ['3', '.', '0'] → k = 5) ∧ (s = ['2', '.', '0'] → k = 3) ∧ (s = ['1', '.', '1'] → k = 2)

/-- C439: the server raises for devices of USB 3.1, 3.2 and 4.0 and for every device with a revision in
the last digit of its version, for example 2.01; a device of USB 3.0 is listed as a high speed one. -/
theorem list_wrong : listed ['3', '.', '1'] = none ∧ listed ['3', '.', '2'] = none ∧
    listed ['4', '.', '0'] = none ∧ listed ['3', '.', '0'] = some 3 ∧
    (∀ a b c d, a < 10 → b < 10 → c < 10 → d < 10 → d ≠ 0 →
      speed (fromU16 (a * 4096 + b * 256 + c * 16 + d)) = none) := by
  refine ⟨by decide +kernel, by decide +kernel, by decide +kernel, by decide +kernel, ?_⟩
  intro a b c d ha hb hc hd h0
  rw [ver_partial.2 a b c d ha hb hc hd, if_neg (fun h => h0 h.2)]
  simp [speed]

theorem list_violated : ¬ ListFull := by
  intro h
  obtain ⟨k, e, _⟩ := h ['4', '.', '0'] (by decide)
  rw [show listed ['4', '.', '0'] = none by decide +kernel] at e
  cases e

/-- C439: a device is listed exactly if its version is 1.0, 1.1, 2.0 or 3.0; the speed is right for 1.1 and
2.0. -/
theorem list_partial (a b : Nat) (ha : a < 10) (hb : b < 10) :
    ((listed [digit a, '.', digit b]).isSome ↔ (a, b) = (1, 0) ∨ (a, b) = (1, 1) ∨ (a, b) = (2, 0) ∨ (a, b) = (3, 0)) ∧
    listed [digit 1, '.', digit 1] = some 2 ∧ listed [digit 2, '.', digit 0] = some 3 := by
  refine ⟨?_, by decide +kernel, by decide +kernel⟩
  revert b; revert a
  decide +kernel

example : (2, 0) = (2, 0) ∧ listed ['2', '.', '0'] = some 3 := by decide +kernel

end Verif.UsbVer
