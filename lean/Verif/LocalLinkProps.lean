import Verif.LocalLink
import Verif.ArrayItemGetter
import Mathlib.Data.Nat.Log
/-! Properties C166-C167 of the LocalLink converters. -/
namespace Verif.LocalLink

variable {α : Type}

theorem pow_inj {i j : Nat} (h : 2 ^ (i + 1) - 1 = 2 ^ (j + 1) - 1) : i = j := by
  have h1 : 0 < 2 ^ (i + 1) := Nat.pow_pos (by decide)
  have h2 : 0 < 2 ^ (j + 1) := Nat.pow_pos (by decide)
  have h3 : 2 ^ (i + 1) = 2 ^ (j + 1) := by omega
  have := Nat.pow_right_injective (Nat.le_refl 2) h3
  omega

theorem remOf_mask (b k : Nat) (h1 : 1 ≤ k) (h2 : k ≤ b) : remOf b (2 ^ k - 1) = some (k - 1) := by
  unfold remOf
  rw [List.find?_range_eq_some]
  obtain ⟨j, rfl⟩ : ∃ j, k = j + 1 := ⟨k - 1, by omega⟩
  refine ⟨by simp, List.mem_range.2 (by omega), fun i hi => ?_⟩
  have : 2 ^ (j + 1) - 1 ≠ 2 ^ (i + 1) - 1 := fun h => by have := pow_inj h; omega
  simp [this]

theorem strbOf_lt (b i : Nat) (h : i < b) : strbOf b i = some (2 ^ (i + 1) - 1) := by
  unfold strbOf
  have : (List.range b).find? (fun j => i == j) = some i := by
    rw [List.find?_range_eq_some]
    exact ⟨by simp, List.mem_range.2 h, fun j hj => by simp; omega⟩
  rw [this]
  rfl

/-! ## C166: round trip -/

/-- full property: a stream which is converted to LocalLink and back is unchanged up to the documented marks of packets -/
def RoundTrip (b : Nat) : Prop := ∀ l : List (Axi Nat), (∀ w ∈ l, Packed b w) → (toLLs b true l).map (toAxi b) = marked true l

/-- **C166** (the full property fails) The remainder of a word inside of a packet is the greatest number on `log2ceil(b)` bits, which is not `b - 1` for words of
one byte (`log2ceil(1) = 1`) and for words of three bytes. -/
theorem localLink_round_fails : ¬ RoundTrip 1 ∧ ¬ RoundTrip 3 := by
  refine ⟨fun h => ?_, fun h => ?_⟩
  · exact absurd (h [⟨5, 1, false, false, false⟩] (by intro w hw; simp only [List.mem_singleton] at hw; subst hw; exact ⟨⟨1, by decide⟩, by decide⟩)) (by decide)
  · exact absurd (h [⟨5, 7, false, false, false⟩] (by intro w hw; simp only [List.mem_singleton] at hw; subst hw; exact ⟨⟨3, by decide⟩, by decide⟩)) (by decide)

/-- **C166** For words of 2, 4, 8, ... bytes, and otherwise for streams in which every word ends a packet or a frame, a stream which is converted to LocalLink and back
is unchanged up to the documented marks of packets. -/
theorem localLink_round_partial (b : Nat) (first : Bool) (l : List (Axi α)) (hl : ∀ w ∈ l, Packed b w)
    (hb : (∃ k, 1 ≤ k ∧ b = 2 ^ k) ∨ ∀ w ∈ l, w.last = true ∨ w.eop = true) :
    (toLLs b first l).map (toAxi b) = marked first l := by
  induction l generalizing first with
  | nil => rfl
  | cons w l ih =>
    rw [toLLs, marked, List.map_cons, ih w.last (fun v hv => hl v (List.mem_cons_of_mem _ hv))
      (hb.imp id fun h v hv => h v (List.mem_cons_of_mem _ hv))]
    congr 1
    obtain ⟨⟨k, h1, h2, h3⟩, hfull⟩ := hl w List.mem_cons_self
    have hs : (if w.last || w.eop then remOf b w.strb else some (2 ^ remBits b - 1)).bind (strbOf b) = some w.strb := by
      cases he : (w.last || w.eop)
      · rw [Bool.or_eq_false_iff] at he
        rcases hb with ⟨j, hj, hbj⟩ | hb
        · have : remBits b = j := by rw [hbj]; exact ArrayItemGetter.log2ceil_pow hj
          have hp : 0 < 2 ^ j := Nat.pow_pos (by decide)
          rw [this, ← hbj]
          simp only [Bool.false_eq_true, if_false, Option.bind_some]
          rw [strbOf_lt b (b - 1) (by omega), hfull he.1 he.2, show b - 1 + 1 = b by omega]
        · rcases hb w List.mem_cons_self with h | h
          · rw [he.1] at h; exact absurd h (by decide)
          · rw [he.2] at h; exact absurd h (by decide)
      · rw [if_pos rfl, h3, remOf_mask b k h1 h2, Option.bind_some, strbOf_lt b (k - 1) (by omega), show k - 1 + 1 = k by omega]
    simp only [toLL, toAxi, hs]
    cases first <;> cases w.last <;> simp

/-! ## C167: frames -/

/-- **C167** The start of frame is marked exactly on the first word and after each end of frame, and the ends of frames are those of the stream. -/
theorem localLink_frames (b : Nat) (l : List (Axi α)) (i : Nat) (w : LL α) (h : (toLLs b true l)[i]? = some w) :
    ∃ a, l[i]? = some a ∧ w.data = a.data ∧ w.eof = a.last ∧ (a.last = true → w.eop = true) ∧ (w.sof = true → w.sop = true) ∧
    (w.sof = true ↔ i = 0 ∨ ∃ p, l[i - 1]? = some p ∧ p.last = true) := by
  have key : ∀ (l : List (Axi α)) (first : Bool) (i : Nat) (w : LL α), (toLLs b first l)[i]? = some w →
      ∃ a, l[i]? = some a ∧ w.data = a.data ∧ w.eof = a.last ∧ (a.last = true → w.eop = true) ∧ (w.sof = true → w.sop = true) ∧
      (w.sof = true ↔ (i = 0 ∧ first = true) ∨ (i ≠ 0 ∧ ∃ p, l[i - 1]? = some p ∧ p.last = true)) := by
    intro l
    induction l with
    | nil => intro first i w h; simp [toLLs] at h
    | cons a l ih =>
      intro first i w h
      cases i with
      | zero =>
        simp only [toLLs, List.getElem?_cons_zero, Option.some.injEq] at h
        subst h
        refine ⟨a, rfl, rfl, rfl, fun h => by simp [toLL, h], fun h => ?_, by simp [toLL]⟩
        simp only [toLL] at h ⊢
        simp [h]
      | succ i =>
        simp only [toLLs, List.getElem?_cons_succ] at h
        obtain ⟨c, h1, h2, h3, h4, h5, h6⟩ := ih a.last i w h
        refine ⟨c, by simpa using h1, h2, h3, h4, h5, ?_⟩
        rw [h6]
        cases i with
        | zero => simp
        | succ i => simp
  obtain ⟨a, h1, h2, h3, h4, h5, h6⟩ := key l true i w h
  refine ⟨a, h1, h2, h3, h4, h5, ?_⟩
  rw [h6]
  by_cases h0 : i = 0
  · simp [h0]
  · simp [h0]

/-- a frame of two words of 4 bytes, the second one with two bytes -/
def demo : List (Axi Nat) := [⟨1, 15, false, false, false⟩, ⟨2, 3, true, false, false⟩]
example : ∀ w ∈ demo, Packed 4 w := by
  intro w hw
  simp only [demo, List.mem_cons, List.not_mem_nil, or_false] at hw
  rcases hw with rfl | rfl
  · exact ⟨⟨4, by decide⟩, by decide⟩
  · exact ⟨⟨2, by decide⟩, by decide⟩
example : (toLLs 4 true demo).map (fun w => (w.rem, w.sof, w.eof)) = [(some 3, true, false), (some 1, false, true)] := by decide

end Verif.LocalLink
