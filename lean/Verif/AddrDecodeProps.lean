import Verif.AddrDecode
/-!
# Properties C94, C95 of the address decoding of bus endpoints
-/
namespace Verif.AddrDecode
open Verif.BusMap (bitLength isPow2)

/-- **C94** Translation between address units: the destination address points to the unit of the destination which
contains the bit addressed by the source address (plus the offset), if it is in the destination range. -/
theorem addr_step_translation (dw s d off a : Nat) (hfit : a * 2 ^ s / 2 ^ d + off < 2 ^ dw) :
    propagate dw (2 ^ s) (2 ^ d) off a = a * 2 ^ s / 2 ^ d + off := by
  have hb : (if 2 ^ s = 2 ^ d then a else if 2 ^ s > 2 ^ d then a <<< alignBits (2 ^ s) (2 ^ d)
      else a >>> alignBits (2 ^ s) (2 ^ d)) = a * 2 ^ s / 2 ^ d := by
    by_cases e : s = d
    · subst e; rw [if_pos rfl, Nat.mul_div_cancel _ (Nat.two_pow_pos _)]
    · have hne : ¬ 2 ^ s = 2 ^ d := fun h => by
        rcases Nat.lt_or_gt_of_ne e with l | l <;> have := Nat.pow_lt_pow_right (a := 2) (by omega) l <;> omega
      rw [if_neg hne]
      by_cases hlt : s < d
      · have := Nat.pow_lt_pow_right (a := 2) (by omega) hlt
        rw [if_neg (by omega), alignBits_up (by omega), Nat.shiftRight_eq_div_pow]
        have : 2 ^ d = 2 ^ (d - s) * 2 ^ s := by rw [← Nat.pow_add]; congr 1; omega
        rw [this, Nat.mul_div_mul_right _ _ (Nat.two_pow_pos s)]
      · have := Nat.pow_lt_pow_right (a := 2) (m := d) (n := s) (by omega) (by omega)
        rw [if_pos (by omega), alignBits_down (by omega), Nat.shiftLeft_eq]
        have : 2 ^ s = 2 ^ (s - d) * 2 ^ d := by rw [← Nat.pow_add]; congr 1; omega
        rw [this, ← Nat.mul_assoc, Nat.mul_div_cancel _ (Nat.two_pow_pos d)]
  unfold propagate
  simp only [hb]
  rw [Nat.mod_eq_of_lt (a := a * 2 ^ s / 2 ^ d) (by omega), Nat.mod_eq_of_lt hfit]

/-- **C94** If the asserts pass (and equal units are used with equal widths) every source address fits. -/
theorem addr_step_fits (sw dw s d a : Nat) (hok : propagateOk sw dw (2 ^ s) (2 ^ d) = true)
    (heq : s = d → sw ≤ dw) (ha : a < 2 ^ sw) : a * 2 ^ s / 2 ^ d < 2 ^ dw := by
  have hS := Nat.two_pow_pos s
  have hD := Nat.two_pow_pos d
  unfold propagateOk at hok
  have key : a * 2 ^ s < 2 ^ dw * 2 ^ d := by
    have h1 : a * 2 ^ s < 2 ^ (sw + s) := by rw [Nat.pow_add]; exact (Nat.mul_lt_mul_right hS).2 ha
    refine Nat.lt_of_lt_of_le h1 ?_
    rw [← Nat.pow_add]
    refine Nat.pow_le_pow_right (by omega) ?_
    by_cases e : s = d
    · have := heq e; omega
    · have hne : ¬ 2 ^ s = 2 ^ d := fun h => by
        rcases Nat.lt_or_gt_of_ne e with l | l <;> have := Nat.pow_lt_pow_right (a := 2) (by omega) l <;> omega
      rw [if_neg hne] at hok
      by_cases hlt : s < d
      · have := Nat.pow_lt_pow_right (a := 2) (by omega) hlt
        rw [if_neg (by omega), alignBits_up (by omega)] at hok
        have := of_decide_eq_true hok
        omega
      · have := Nat.pow_lt_pow_right (a := 2) (m := d) (n := s) (by omega) (by omega)
        rw [if_pos (by omega), alignBits_down (by omega)] at hok
        have := of_decide_eq_true hok
        omega
  exact (Nat.div_lt_iff_lt_mul hD).2 key

/-- Byte address 13 of a 4 bit wide space is item 3 + 2 of an array of 32 bit items. -/
example : propagateOk 4 3 (2 ^ 3) (2 ^ 5) = true ∧ propagate 3 (2 ^ 3) (2 ^ 5) 2 13 = 5 := by decide

/-- **C95** The select of an array mapped to an endpoint is active exactly for the addresses of the array and the index
given to the array is the index of the item which contains the addressed bit: for all unit sizes, offsets (aligned or
not) and sizes (powers of two or not). -/
theorem endpoint_decode (W s d : Nat) (hsd : s ≤ d) (t : Arr) (hn : 1 ≤ t.items) (hb : t.bitAddr % 2 ^ d = 0)
    (hfit : t.bitAddr + t.items * 2 ^ d ≤ 2 ^ W * 2 ^ s) (a : Nat) (ha : a < 2 ^ W) :
    (isMine W (2 ^ s) (2 ^ d) t a = true ↔ t.bitAddr ≤ a * 2 ^ s ∧ a * 2 ^ s < t.bitAddr + t.items * 2 ^ d) ∧
    (isMine W (2 ^ s) (2 ^ d) t a = true →
      sub W (2 ^ s) (2 ^ d) t a = (a * 2 ^ s - t.bitAddr) / 2 ^ d ∧ sub W (2 ^ s) (2 ^ d) t a < t.items) := by
  have hS := Nat.two_pow_pos s
  have hD := Nat.two_pow_pos d
  have hR := Nat.two_pow_pos (d - s)
  have hDR : 2 ^ d = 2 ^ (d - s) * 2 ^ s := by rw [← Nat.pow_add]; congr 1; omega
  obtain ⟨B, hB⟩ : ∃ B, t.bitAddr = B * 2 ^ d := ⟨t.bitAddr / 2 ^ d, by
    have := Nat.div_add_mod t.bitAddr (2 ^ d); rw [hb, Nat.mul_comm] at this; omega⟩
  -- everything in source units
  have hbase : t.bitAddr / 2 ^ s = B * 2 ^ (d - s) := by
    rw [hB, hDR, ← Nat.mul_assoc, Nat.mul_div_cancel _ hS]
  have hend : (t.bitAddr + t.items * 2 ^ d) / 2 ^ s = (B + t.items) * 2 ^ (d - s) := by
    rw [hB, ← Nat.add_mul, hDR, ← Nat.mul_assoc, Nat.mul_div_cancel _ hS]
  have hrange : (t.bitAddr ≤ a * 2 ^ s ∧ a * 2 ^ s < t.bitAddr + t.items * 2 ^ d) ↔
      (B * 2 ^ (d - s) ≤ a ∧ a < (B + t.items) * 2 ^ (d - s)) := by
    rw [hB, ← Nat.add_mul, hDR, ← Nat.mul_assoc, ← Nat.mul_assoc, Nat.mul_le_mul_right_iff hS,
      Nat.mul_lt_mul_right hS]
  have hfit' : (B + t.items) * 2 ^ (d - s) ≤ 2 ^ W := by
    rw [hB, ← Nat.add_mul, hDR, ← Nat.mul_assoc] at hfit
    exact Nat.le_of_mul_le_mul_right hfit hS
  have hidx : B * 2 ^ (d - s) ≤ a → (a * 2 ^ s - t.bitAddr) / 2 ^ d = a / 2 ^ (d - s) - B := by
    intro h
    rw [hB, hDR, ← Nat.mul_assoc, ← Nat.sub_mul, Nat.mul_div_mul_right _ _ hS, Nat.mul_comm B,
      Nat.sub_mul_div_of_le _ _ _ (by rw [Nat.mul_comm]; exact h)]
  have hdiv : B * 2 ^ (d - s) ≤ a ∧ a < (B + t.items) * 2 ^ (d - s) →
      B ≤ a / 2 ^ (d - s) ∧ a / 2 ^ (d - s) < B + t.items := fun ⟨h1, h2⟩ =>
    ⟨(Nat.le_div_iff_mul_le hR).2 h1, (Nat.div_lt_iff_lt_mul hR).2 h2⟩
  rw [hrange]
  have hL := subBits_eq t d hn
  have hAB := alignBits_up hsd
  by_cases hal : t.aligned (2 ^ d) = true
  · have hal' := hal
    unfold Arr.aligned at hal'
    rw [Bool.and_eq_true] at hal'
    obtain ⟨h1, h2⟩ := hal'
    have h1 : t.bitAddr % (t.items * 2 ^ d) = 0 := by simpa using h1
    obtain ⟨k, hk⟩ : ∃ k, t.items * 2 ^ d = 2 ^ k := ⟨_, by simpa [isPow2] using h2⟩
    have hdk : d ≤ k := by
      refine (Nat.pow_le_pow_iff_right (a := 2) (by omega)).1 ?_
      rw [← hk]; exact Nat.le_mul_of_pos_left _ hn
    have hj : t.items = 2 ^ (k - d) := by
      have : 2 ^ k = 2 ^ (k - d) * 2 ^ d := by rw [← Nat.pow_add]; congr 1; omega
      rw [this] at hk
      exact Nat.eq_of_mul_eq_mul_right hD hk
    have hLj : t.subBits (2 ^ d) = k - d := by rw [hL, hj, bitLength_pred_pow]
    have hBn : B % t.items = 0 := by
      rw [hB, Nat.mul_mod_mul_right] at h1
      rcases Nat.mul_eq_zero.1 h1 with h | h
      · exact h
      · omega
    obtain ⟨c, hc⟩ : ∃ c, B = c * t.items := ⟨B / t.items, by
      have := Nat.div_add_mod B t.items; rw [hBn, Nat.mul_comm] at this; omega⟩
    have hpw : 2 ^ (k - d + (d - s)) = t.items * 2 ^ (d - s) := by rw [Nat.pow_add, ← hj]
    have hq : 0 < t.items * 2 ^ (d - s) := Nat.mul_pos hn hR
    have hmine : isMine W (2 ^ s) (2 ^ d) t a = true ↔
        (B * 2 ^ (d - s) ≤ a ∧ a < (B + t.items) * 2 ^ (d - s)) := by
      unfold isMine
      rw [if_pos hal]
      simp only [hLj, hAB]
      by_cases hW : W - (k - d + (d - s)) = 0
      · rw [if_pos hW]
        have : 2 ^ W ≤ 2 ^ (k - d + (d - s)) := Nat.pow_le_pow_right (by omega) (by omega)
        rw [hpw] at this
        have hB0 : B * 2 ^ (d - s) = 0 := by rw [Nat.add_mul] at hfit'; omega
        rw [Nat.add_mul, hB0]
        constructor
        · intro _; omega
        · intro _; rfl
      · rw [if_neg hW, hbase, Nat.shiftRight_eq_div_pow, Nat.shiftRight_eq_div_pow, hpw, hc, Nat.mul_assoc,
          Nat.mul_div_cancel _ hq, beq_iff_eq, ← Nat.succ_mul, Nat.mul_assoc]
        constructor
        · intro h
          refine ⟨?_, ?_⟩
          · have := Nat.div_mul_le_self a (t.items * 2 ^ (d - s)); rw [h] at this; exact this
          · exact (Nat.div_lt_iff_lt_mul hq).1 (by omega)
        · intro ⟨h1, h2⟩
          exact Nat.div_eq_of_lt_le h1 h2
    refine ⟨hmine, ?_⟩
    intro hm
    have hr := hmine.1 hm
    obtain ⟨d1, d2⟩ := hdiv hr
    have : sub W (2 ^ s) (2 ^ d) t a = a / 2 ^ (d - s) - B := by
      unfold sub
      rw [hLj]
      by_cases h0 : k - d = 0
      · rw [if_pos h0]
        rw [h0] at hj
        omega
      · rw [if_neg h0, hAB, addrTmp, if_pos hal, Nat.shiftRight_eq_div_pow, ← hj]
        have : a / 2 ^ (d - s) = (a / 2 ^ (d - s) - B) + c * t.items := by omega
        rw [this, Nat.add_mul_mod_self_right, Nat.mod_eq_of_lt (by omega)]
        omega
    rw [this, hidx hr.1]
    exact ⟨rfl, by omega⟩
  · have hmine : isMine W (2 ^ s) (2 ^ d) t a = true ↔
        (B * 2 ^ (d - s) ≤ a ∧ a < (B + t.items) * 2 ^ (d - s)) := by
      unfold isMine
      rw [if_neg hal, hbase, hend]
      simp
    refine ⟨hmine, ?_⟩
    intro hm
    have hr := hmine.1 hm
    obtain ⟨d1, d2⟩ := hdiv hr
    have hlt := lt_two_pow_bitLength (t.items - 1)
    have : sub W (2 ^ s) (2 ^ d) t a = a / 2 ^ (d - s) - B := by
      unfold sub
      rw [hL]
      by_cases h0 : bitLength (t.items - 1) = 0
      · rw [if_pos h0]
        rw [h0] at hlt
        omega
      · have htmp : (a + 2 ^ W - B * 2 ^ (d - s)) % 2 ^ W = a - B * 2 ^ (d - s) := by
          rw [show a + 2 ^ W - B * 2 ^ (d - s) = (a - B * 2 ^ (d - s)) + 2 ^ W by omega, Nat.add_mod_right,
            Nat.mod_eq_of_lt (by omega)]
        rw [if_neg h0, hAB, addrTmp, if_neg hal, hbase, htmp, Nat.shiftRight_eq_div_pow, Nat.mul_comm B,
          Nat.sub_mul_div_of_le _ _ _ (by rw [Nat.mul_comm]; exact hr.1), Nat.mod_eq_of_lt (by omega)]
    rw [this, hidx hr.1]
    exact ⟨rfl, by omega⟩

/-- An array of 5 words of 32 bits at byte address 12 in a 6 bit address space: byte address 25 is item 3. -/
example : (12 * 8) % 2 ^ 5 = 0 ∧ 12 * 8 + 5 * 2 ^ 5 ≤ 2 ^ 6 * 2 ^ 3 ∧ isMine 6 (2 ^ 3) (2 ^ 5) ⟨96, 5⟩ 25 = true ∧
    sub 6 (2 ^ 3) (2 ^ 5) ⟨96, 5⟩ 25 = 3 := by decide
/-- An aligned array of 4 words. -/
example : isMine 6 (2 ^ 3) (2 ^ 5) ⟨128, 4⟩ 23 = true ∧ isMine 6 (2 ^ 3) (2 ^ 5) ⟨128, 4⟩ 32 = false ∧
    sub 6 (2 ^ 3) (2 ^ 5) ⟨128, 4⟩ 23 = 1 := by decide

end Verif.AddrDecode
