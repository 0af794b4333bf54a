import Verif.Segment7
/-!
# C434: digits on the 7 segment display
-/
namespace Verif.Segment7

/-- The segment `k` is on if its bit of the output is 0. -/
def lit (out k : Nat) : Bool := !out.testBit k

/-- Segments of digits; numbers of segments are in the documentation of the component (segment7.py:16-32): 0 top, 1 right upper, 2 right
lower, 3 bottom, 4 left lower, 5 left upper, 6 middle. -/
def glyph : Nat → List Nat
  | 0 => [0, 1, 2, 3, 4, 5]
  | 1 => [1, 2]
  | 2 => [0, 1, 3, 4, 6]
  | 3 => [0, 1, 2, 3, 6]
  | 4 => [1, 2, 5, 6]
  | 5 => [0, 2, 3, 5, 6]
  | 6 => [0, 2, 3, 4, 5, 6]
  | 7 => [0, 1, 2]
  | 8 => [0, 1, 2, 3, 4, 5, 6]
  | 9 => [0, 1, 2, 3, 5, 6]
  | _ => []

/-- C434: `dataOut[k]` is the segment `k`, the display shows the digit and it is off for other values -/
def segSpec : Prop := ∀ d k, d < 16 → k < 7 → lit (dataOut d) k = (glyph d).contains k

/-- C434: with the numbers of the documentation 2 is shown as 5 (and 5 as 2) -/
theorem seg_violated : ¬ segSpec ∧ (∀ k, k < 7 → lit (dataOut 2) k = (glyph 5).contains k) ∧
    ∀ k, k < 7 → lit (dataOut 5) k = (glyph 2).contains k := by
  refine ⟨fun h => ?_, by decide, by decide⟩
  exact absurd (h 2 2 (by decide) (by decide)) (by decide)

/-- C434: it is right if the segment `k` is connected to the bit `6 - k`; the digit which is right in both orders is only
8 (and the values out of range). Missing: the documented order of bits. -/
theorem seg_partial : (∀ d k, d < 16 → k < 7 → lit (dataOut d) (6 - k) = (glyph d).contains k) ∧
    ∀ d, d < 16 → ((∀ k, k < 7 → lit (dataOut d) k = (glyph d).contains k) ↔ d = 8 ∨ 10 ≤ d) := by
  constructor
  · intro d k hd hk
    have : ∀ d < 16, ∀ k < 7, lit (dataOut d) (6 - k) = (glyph d).contains k := by decide
    exact this d hd k hk
  · intro d hd
    have : ∀ d < 16, ((∀ k < 7, lit (dataOut d) k = (glyph d).contains k) ↔ d = 8 ∨ 10 ≤ d) := by decide
    exact this d hd

/-- Different digits have different outputs. -/
theorem seg_inj (a b : Nat) (ha : a < 10) (hb : b < 10) (h : dataOut a = dataOut b) : a = b := by
  have : ∀ a < 10, ∀ b < 10, dataOut a = dataOut b → a = b := by decide
  exact this a ha b hb h

example : lit (dataOut 1) (6 - 1) = true ∧ lit (dataOut 1) (6 - 0) = false ∧ dataOut 12 = 127 := by decide

end Verif.Segment7
