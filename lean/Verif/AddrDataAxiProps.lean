import Verif.AddrDataAxi
import Mathlib.Data.Nat.Prime.Basic
/-!
# Properties C359-C362: `AddrDataRdVld_to_Axi`
-/
namespace Verif.AddrDataAxi
open Verif.AddrDecode (propagate alignBits log2ceil_pred alignBits_down)

/-! ## C359: limit of the pending transactions -/

/-- Transactions started in the trace -/
def started (tr : List (In × Out)) : Nat := (tr.filter fun e => e.2.avld && e.1.ardy).length
/-- Transactions finished in the trace -/
def finished (tr : List (In × Out)) : Nat := (tr.filter fun e => e.1.done).length

/-- The AXI slave finishes only what was started in an earlier cycle. -/
def SlaveOk (tr : List (In × Out)) : Prop :=
  ∀ pre e post, tr = pre ++ e :: post → e.1.done = true → finished pre < started pre

/-- There are never more than `MAX_TRANS_OVERLAP` transactions started and not finished. -/
def OverlapLimit : Prop := ∀ overlap is, 0 < overlap → SlaveOk ((m overlap).trace 0 is) →
  started ((m overlap).trace 0 is) ≤ finished ((m overlap).trace 0 is) + overlap

theorem SlaveOk.prefix {a b : List (In × Out)} (h : SlaveOk (a ++ b)) : SlaveOk a := by
  intro pre e post he hd
  exact h pre e (post ++ b) (by simp [he]) hd

/-- The counter is the number of pending transactions, at most `2 ^ log2ceil(MAX_TRANS_OVERLAP) - 1`. -/
theorem cntr_eq (overlap : Nat) (is : List In) (h : SlaveOk ((m overlap).trace 0 is)) :
    (m overlap).final 0 is + finished ((m overlap).trace 0 is) = started ((m overlap).trace 0 is) ∧
      (m overlap).final 0 is ≤ cntrMax overlap := by
  rcases hn : is.length with _ | n
  · rw [List.length_eq_zero_iff.1 hn]; simp [started, finished]
  · clear hn
    clear n
    induction hl : is.length generalizing is with
    | zero => rw [List.length_eq_zero_iff.1 hl]; simp [started, finished]
    | succ n ih =>
      rcases List.eq_nil_or_concat is with rfl | ⟨l, i, rfl⟩
      · simp at hl
      · rw [List.concat_eq_append] at *
        rw [Machine.trace_snoc] at h ⊢
        rw [Machine.final_append]
        have h1 := ih l h.prefix (by simpa using hl)
        have h2 : i.done = true → finished ((m overlap).trace 0 l) < started ((m overlap).trace 0 l) :=
          h _ _ [] rfl
        simp only [Machine.final_cons, Machine.final_nil, started, finished, List.filter_append, List.length_append] at *
        simp only [Machine.outAfter] at *
        generalize (m overlap).final 0 l = c at *
        generalize (List.filter (fun e => e.2.avld && e.1.ardy) ((m overlap).trace 0 l)).length = x at *
        generalize (List.filter (fun e => e.1.done) ((m overlap).trace 0 l)).length = y at *
        have hp := Nat.two_pow_pos (log2ceil overlap)
        obtain ⟨v, a, o, d⟩ := i
        simp only [m, next, out, cntrMax, List.filter_cons, List.filter_nil] at *
        by_cases hc : c = 2 ^ log2ceil overlap - 1
        · subst hc
          cases d <;> cases v <;> cases a <;> cases o <;> simp at * <;>
            first
              | omega
              | (rw [show 2 ^ log2ceil overlap - 1 + 2 ^ log2ceil overlap - 1
                    = (2 ^ log2ceil overlap - 2) + 2 ^ log2ceil overlap by omega, Nat.add_mod_right,
                    Nat.mod_eq_of_lt (by omega)]; omega)
        · have hcc : ¬ c = 2 ^ log2ceil overlap - 1 := hc
          have e1 : (c + 1) % 2 ^ log2ceil overlap = c + 1 := Nat.mod_eq_of_lt (by omega)
          have e2 : 0 < c → (c + 2 ^ log2ceil overlap - 1) % 2 ^ log2ceil overlap = c - 1 := by
            intro hc0
            rw [show c + 2 ^ log2ceil overlap - 1 = (c - 1) + 2 ^ log2ceil overlap by omega, Nat.add_mod_right,
              Nat.mod_eq_of_lt (by omega)]
          clear h ih hl
          cases d <;> cases v <;> cases a <;> cases o <;> simp [hc, e1] at h1 h2 ⊢ <;>
            omega

/-- **C359** (violated): with the limit 5 six transactions are started and none is finished. -/
theorem overlapLimit_violated : ¬ OverlapLimit := by
  intro h
  have := h 5 (List.replicate 6 ⟨true, true, true, false⟩) (by decide) (by
    intro pre e post he hd
    have : e ∈ (m 5).trace 0 (List.replicate 6 ⟨true, true, true, false⟩) := by rw [he]; simp
    revert hd this
    revert e
    have : ∀ e ∈ (m 5).trace 0 (List.replicate 6 ⟨true, true, true, false⟩), e.1.done ≠ true := by decide +kernel
    intro e _ hd hm
    exact absurd hd (this e hm))
  revert this
  decide +kernel

/-- **C359** (part): never more than `2 ^ log2ceil(MAX_TRANS_OVERLAP) - 1` transactions are pending, this is the limit if it is
a power of two. Missing: limits which are not powers of two. -/
theorem overlap_limit_partial (overlap : Nat) (is : List In) (h : SlaveOk ((m overlap).trace 0 is)) :
    started ((m overlap).trace 0 is) ≤ finished ((m overlap).trace 0 is) + (2 ^ log2ceil overlap - 1) ∧
      (∀ k, overlap = 2 ^ k →
        started ((m overlap).trace 0 is) ≤ finished ((m overlap).trace 0 is) + overlap) := by
  have h1 := cntr_eq overlap is h
  unfold cntrMax at h1
  refine ⟨by omega, ?_⟩
  intro k hk
  have : 2 ^ log2ceil overlap ≤ overlap + 1 := by
    rcases Nat.eq_zero_or_pos k with rfl | hk0
    · subst hk; decide
    · have : log2ceil overlap = k := by
        subst hk
        have h2 : 2 ^ k = 2 * 2 ^ (k - 1) := by rw [← Nat.pow_succ']; congr 1; omega
        have := Nat.two_pow_pos (k - 1)
        exact AddrDecode.log2ceil_eq hk0 (by omega) (Nat.le_refl _)
      rw [this]; omega
  omega

example : SlaveOk ((m 4).trace 0 [⟨true, true, true, false⟩]) ∧ started ((m 4).trace 0 [⟨true, true, true, false⟩]) = 1 := by
  refine ⟨?_, by decide +kernel⟩
  intro pre e post he hd
  have hm : e ∈ (m 4).trace 0 [⟨true, true, true, false⟩] := by rw [he]; simp
  simp at hm
  subst hm
  simp at hd

/-- **C359**: a request is accepted exactly together with its address and the rest (data and position), and it is accepted if all
are ready and the limit is not reached. -/
theorem accepted_together (overlap : Nat) (is : List In) (i : In) :
    let o := (m overlap).outAfter 0 is i
    (i.vld && o.rd) = (o.avld && i.ardy) ∧ (i.vld && o.rd) = (o.ovld && i.ordy) := by
  obtain ⟨v, a, o, d⟩ := i
  simp only [Machine.outAfter, m, out]
  cases v <;> cases a <;> cases o <;> simp

theorem accepted_below_limit (overlap : Nat) (is : List In) (i : In) (h : SlaveOk ((m overlap).trace 0 is))
    (hl : started ((m overlap).trace 0 is) < finished ((m overlap).trace 0 is) + (2 ^ log2ceil overlap - 1))
    (ha : i.ardy = true) (ho : i.ordy = true) : ((m overlap).outAfter 0 is i).rd = true := by
  have h1 := cntr_eq overlap is h
  simp only [Machine.outAfter]
  generalize (m overlap).final 0 is = c at *
  simp [m, out, ha, ho, cntrMax]
  omega

/-! ## Address -/

theorem DW_pos {g : Cfg} (h : Legal g) : 8 ≤ g.DW := by
  have := h.pos
  unfold Cfg.DW
  omega

theorem n_pow2 {g : Cfg} (h : Legal g) (hn : 1 < g.n) : g.S = g.DW ∧ ∃ k, 1 ≤ k ∧ g.n = 2 ^ k ∧ g.subBits = k := by
  obtain ⟨p, hp⟩ := h.axi
  rcases h.union with hu | ⟨h8, hd⟩
  · omega
  · have hS : g.S = g.DW := by unfold Cfg.DW; omega
    refine ⟨hS, ?_⟩
    have hdvd : g.n ∣ 2 ^ p := by
      obtain ⟨x, hx⟩ := Nat.dvd_of_mod_eq_zero h8
      have hd' := Nat.dvd_of_mod_eq_zero hd
      rw [hp, hx] at hd'
      have h3 : x ∣ 2 ^ p := Nat.dvd_of_mul_dvd_mul_left (by decide) hd'
      have hxp : 0 < x := by have := h.pos; omega
      have : g.n = 2 ^ p / x := by
        unfold Cfg.n
        rw [← hS, hp, hx, Nat.mul_div_mul_left _ _ (by decide)]
      rw [this]
      exact Nat.div_dvd_of_dvd h3
    obtain ⟨k, _, hk⟩ := (Nat.dvd_prime_pow Nat.prime_two).1 hdvd
    have hk1 : 1 ≤ k := by
      rcases Nat.eq_zero_or_pos k with rfl | h
      · simp at hk; omega
      · exact h
    exact ⟨k, hk1, hk, by unfold Cfg.subBits; rw [hk]; exact log2ceil_pred hk1⟩

/-- `S_ADDR_STEP` is at least a byte: the translation multiplies. -/
theorem axAddr_eq {g : Cfg} (h : Legal g) (h8 : 8 ≤ g.step) {a : Nat} (_ha : a < 2 ^ g.sw)
    (hf : g.off + (a + 1) * (g.step / 8) ≤ 2 ^ g.dw) : g.axAddr a = g.mainAddr a * (g.step / 8) + g.off := by
  obtain ⟨q, hq⟩ := h.step
  have hm : g.mainAddr a ≤ a := by unfold Cfg.mainAddr; split <;> omega
  have hle : g.mainAddr a * (g.step / 8) ≤ a * (g.step / 8) := Nat.mul_le_mul_right _ hm
  have h1 : (a + 1) * (g.step / 8) = a * (g.step / 8) + g.step / 8 := by rw [Nat.add_mul, Nat.one_mul]
  have h2 : 1 ≤ g.step / 8 := by omega
  have hb : (if g.step = 8 then g.mainAddr a else if g.step > 8 then g.mainAddr a <<< alignBits g.step 8
      else g.mainAddr a >>> alignBits g.step 8) = g.mainAddr a * (g.step / 8) := by
    by_cases he : g.step = 8
    · simp [he]
    · have hgt : 8 < g.step := by omega
      rw [if_neg he, if_pos hgt, Nat.shiftLeft_eq]
      congr 1
      have hq3 : 3 < q := by
        rw [hq] at hgt
        exact (Nat.pow_lt_pow_iff_right (a := 2) (by decide)).1 (by simpa using hgt)
      have := alignBits_down (s := q) (d := 3) hq3
      rw [hq, show (8 : Nat) = 2 ^ 3 by decide, this, Nat.pow_div (by omega) (by decide)]
  unfold Cfg.axAddr propagate
  simp only [hb]
  rw [Nat.mod_eq_of_lt (a := g.mainAddr a * (g.step / 8)) (by omega), Nat.mod_eq_of_lt (by omega)]

/-- bytes of the AXI word divide the step of the main address -/
theorem main_aligned {g : Cfg} (h : Legal g) (h8 : 8 ≤ g.step) (a : Nat) :
    g.A / 8 ∣ g.mainAddr a * (g.step / 8) := by
  obtain ⟨p, hp⟩ := h.axi
  obtain ⟨q, hq⟩ := h.step
  have hA : g.A / 8 = 2 ^ p := by rw [hp]; omega
  have hq3 : 3 ≤ q := by
    rw [hq] at h8
    exact (Nat.pow_le_pow_iff_right (a := 2) (by decide)).1 (by simpa using h8)
  have hs : g.step / 8 = 2 ^ (q - 3) := by
    rw [hq, show (8 : Nat) = 2 ^ 3 by decide, Nat.pow_div hq3 (by decide)]
  have hDS : g.DW ≤ g.step := by
    have h1 := h.fits
    have h2 : g.step % 8 = 0 := by
      rw [hq, show q = (q - 3) + 3 by omega, Nat.pow_add]; omega
    unfold Cfg.DW
    omega
  rw [hA, hs]
  by_cases hn : g.n ≤ 1
  · apply Nat.dvd_mul_left_of_dvd
    have hlt : g.A < 2 * g.step := by
      have h1 : g.A < 2 * g.DW := by
        have := Nat.lt_mul_div_succ g.A (show 0 < g.DW by have := DW_pos h; omega)
        have h2 : g.DW * (g.A / g.DW + 1) ≤ g.DW * 2 := Nat.mul_le_mul_left _ (by unfold Cfg.n at hn; omega)
        omega
      omega
    apply Nat.pow_dvd_pow
    have h3 : 2 ^ (p + 3) < 2 ^ (q + 1) := by
      rw [Nat.pow_add, Nat.pow_succ]
      omega
    have := (Nat.pow_lt_pow_iff_right (a := 2) (by decide)).1 h3
    omega
  · obtain ⟨hS, k, hk1, hnk, hsub⟩ := n_pow2 h (by omega)
    have hmain : 2 ^ k ∣ g.mainAddr a := by
      unfold Cfg.mainAddr
      rw [if_neg hn, hsub]
      exact Nat.dvd_sub_mod a
    have hle : p ≤ k + (q - 3) := by
      have h1 : g.A < (g.n + 1) * g.DW := by
        have := Nat.lt_mul_div_succ g.A (show 0 < g.DW by have := DW_pos h; omega)
        rw [Nat.mul_comm]
        exact this
      have hdiv : g.n * g.DW = g.A := by
        rcases h.union with hu | ⟨_, hd⟩
        · omega
        · unfold Cfg.n
          rw [← hS]
          exact Nat.div_mul_cancel (Nat.dvd_of_mod_eq_zero hd)
      have h2 : 2 ^ (p + 3) ≤ 2 ^ (k + q) := by
        rw [Nat.pow_add 2 p, Nat.pow_add 2 k, ← hnk, ← hq, ← show g.A = 2 ^ p * 2 ^ 3 by rw [hp]; omega, ← hdiv]
        exact Nat.mul_le_mul_left _ hDS
      have := (Nat.pow_le_pow_iff_right (a := 2) (by decide)).1 h2
      omega
    exact Nat.dvd_trans (Nat.pow_dvd_pow 2 hle) (by rw [Nat.pow_add]; exact Nat.mul_dvd_mul_right hmain _)

theorem lane_eq (g : Cfg) (a j : Nat) : (g.lane a + 8 * j) / 8 = g.subAddr a * (g.DW / 8) + j := by
  have : g.DW = 8 * (g.DW / 8) := by unfold Cfg.DW; omega
  have h2 : g.subAddr a * g.DW = 8 * (g.subAddr a * (g.DW / 8)) := by
    rw [← Nat.mul_left_comm, ← this]
  unfold Cfg.lane
  omega

theorem byteAddr_eq {g : Cfg} (h : Legal g) (h8 : 8 ≤ g.step) {a : Nat} (ha : a < 2 ^ g.sw)
    (hf : g.off + (a + 1) * (g.step / 8) ≤ 2 ^ g.dw) (j : Nat) :
    byteAddr g a j = g.mainAddr a * (g.step / 8) + g.off / (g.A / 8) * (g.A / 8) + (g.subAddr a * (g.DW / 8) + j) := by
  obtain ⟨x, hx⟩ := main_aligned h h8 a
  have hA : 0 < g.A / 8 := by
    obtain ⟨p, hp⟩ := h.axi
    have := Nat.two_pow_pos p
    omega
  unfold byteAddr
  rw [axAddr_eq h h8 ha hf, lane_eq, hx, Nat.mul_add_div hA, Nat.add_mul, Nat.mul_comm x]

theorem main_sub (g : Cfg) (a : Nat) : g.mainAddr a + g.subAddr a = a := by
  have := Nat.mod_le a (2 ^ g.subBits)
  unfold Cfg.mainAddr Cfg.subAddr
  split <;> omega

/-! ## C360: place of the word -/

/-- The word of the address `a` is on the byte address `M_ADDR_OFFSET + a * S_ADDR_STEP / 8`. -/
def PlaceSpec : Prop := ∀ g a j, Legal g → a < 2 ^ g.sw → g.off + (a + 1) * (g.step / 8) ≤ 2 ^ g.dw → j < g.DW / 8 →
  byteAddr g a j = g.off + a * g.step / 8 + j

/-- Word of 16b in steps of 32b on the AXI of 32b. -/
def exStep : Cfg := ⟨32, 16, 32, 8, 32, 0⟩
/-- The word of the AXI width, the offset is not aligned (the commented configuration addr_data_to_Axi.py:299-304). -/
def exOff : Cfg := ⟨64, 512, 512, 4, 32, 99⟩

theorem exStep_legal : Legal exStep := ⟨⟨2, rfl⟩, ⟨5, rfl⟩, by decide, by decide, by decide, by decide⟩
theorem exOff_legal : Legal exOff := ⟨⟨3, rfl⟩, ⟨9, rfl⟩, by decide, by decide, by decide, by decide⟩

/-- **C360** (violated): the step of the address is not used for words which share an AXI word. -/
theorem placeSpec_violated : ¬ PlaceSpec := by
  intro h
  have := h exStep 1 0 exStep_legal (by decide) (by decide) (by decide)
  revert this
  decide +kernel

/-- **C360** (violated): an offset which is not aligned to the AXI word is rounded down. -/
theorem place_unaligned : byteAddr exOff 0 0 = 96 ∧ exOff.off = 99 := by decide +kernel

/-- **C360** (part): the word is on its place if the offset is aligned to the AXI word and the step is the width of the word or
the word is not shorter than a half of the AXI word. Missing: other steps and offsets. -/
theorem place_partial (g : Cfg) (a j : Nat) (h : Legal g) (h8 : 8 ≤ g.step) (ha : a < 2 ^ g.sw)
    (hf : g.off + (a + 1) * (g.step / 8) ≤ 2 ^ g.dw) (ho : g.off % (g.A / 8) = 0) (hs : g.step = g.S ∨ g.A < 2 * g.DW) :
    byteAddr g a j = g.off + a * g.step / 8 + j := by
  rw [byteAddr_eq h h8 ha hf]
  have h1 : g.off / (g.A / 8) * (g.A / 8) = g.off := Nat.div_mul_cancel (Nat.dvd_of_mod_eq_zero ho)
  have hms := main_sub g a
  have hq8 : g.step = 8 * (g.step / 8) := by
    obtain ⟨q, hq⟩ := h.step
    have hq3 : 3 ≤ q := by
      rw [hq] at h8
      exact (Nat.pow_le_pow_iff_right (a := 2) (by decide)).1 (by simpa using h8)
    have : g.step % 8 = 0 := by
      rw [hq, show q = (q - 3) + 3 by omega, Nat.pow_add]; omega
    omega
  have h2 : a * g.step / 8 = a * (g.step / 8) := by
    have : a * g.step = 8 * (a * (g.step / 8)) := by rw [← Nat.mul_left_comm, ← hq8]
    omega
  rw [h1, h2]
  by_cases hn : g.n ≤ 1
  · have e1 : g.mainAddr a = a := by unfold Cfg.mainAddr; rw [if_pos hn]
    have e2 : g.subAddr a = 0 := by unfold Cfg.subAddr; rw [if_pos hn]
    rw [e1, e2]
    omega
  · obtain ⟨hS, k, hk1, hnk, hsub⟩ := n_pow2 h (by omega)
    have hst : g.step = g.DW := by
      rcases hs with hs | hs
      · omega
      · exfalso
        have hd := DW_pos h
        have : g.n * g.DW ≤ g.A := Nat.div_mul_le_self _ _
        have : 2 * g.DW ≤ g.n * g.DW := Nat.mul_le_mul_right _ (by omega)
        omega
    rw [← hst]
    have : a * (g.step / 8) = g.mainAddr a * (g.step / 8) + g.subAddr a * (g.step / 8) := by
      rw [← Nat.add_mul, hms]
    omega

/-- The configuration of the example addr_data_to_Axi.py:312-317. -/
def exShare : Cfg := ⟨32, 16, 16, 15, 16, 0⟩
example : Legal exShare ∧ byteAddr exShare 5 1 = 11 ∧ exShare.step = exShare.S ∧ exShare.n = 2 :=
  ⟨⟨⟨2, rfl⟩, ⟨4, rfl⟩, by decide, by decide, by decide, by decide⟩, by decide +kernel, by decide, by decide⟩

/-! ## C361: words do not overlap -/

/-- Words of different addresses have no common byte. -/
def NoOverlap : Prop := ∀ g a b i j, Legal g → a < 2 ^ g.sw → b < 2 ^ g.sw →
  g.off + (a + 1) * (g.step / 8) ≤ 2 ^ g.dw → g.off + (b + 1) * (g.step / 8) ≤ 2 ^ g.dw →
  i < g.DW / 8 → j < g.DW / 8 → byteAddr g a i = byteAddr g b j → a = b

/-- Words of 4b in steps of 4b on the AXI of 8b. -/
def exNibble : Cfg := ⟨8, 4, 4, 8, 8, 0⟩

/-- **C361** (violated): two addresses with a step of 4b share a byte, the write of one overwrites the other. -/
theorem noOverlap_violated : ¬ NoOverlap := by
  intro h
  have := h exNibble 0 1 0 0 ⟨⟨0, rfl⟩, ⟨2, rfl⟩, by decide, by decide, by decide, by decide⟩ (by decide) (by decide) (by decide)
    (by decide) (by decide) (by decide) (by decide +kernel)
  exact absurd this (by decide)

/-- **C361** (part): words of different addresses have no common byte if the step is at least a byte, for every offset. Missing:
steps shorter than a byte. -/
theorem no_overlap_partial (g : Cfg) (a b i j : Nat) (h : Legal g) (h8 : 8 ≤ g.step) (ha : a < 2 ^ g.sw) (hb : b < 2 ^ g.sw)
    (hfa : g.off + (a + 1) * (g.step / 8) ≤ 2 ^ g.dw) (hfb : g.off + (b + 1) * (g.step / 8) ≤ 2 ^ g.dw)
    (hi : i < g.DW / 8) (hj : j < g.DW / 8) (he : byteAddr g a i = byteAddr g b j) : a = b ∧ i = j := by
  rw [byteAddr_eq h h8 ha hfa, byteAddr_eq h h8 hb hfb] at he
  have hma := main_sub g a
  have hmb := main_sub g b
  have hDS : g.DW / 8 ≤ g.step / 8 := by
    have h1 := h.fits
    obtain ⟨q, hq⟩ := h.step
    have hq3 : 3 ≤ q := by
      rw [hq] at h8
      exact (Nat.pow_le_pow_iff_right (a := 2) (by decide)).1 (by simpa using h8)
    have : g.step % 8 = 0 := by
      rw [hq, show q = (q - 3) + 3 by omega, Nat.pow_add]; omega
    unfold Cfg.DW
    omega
  have he' : g.mainAddr a * (g.step / 8) + (g.subAddr a * (g.DW / 8) + i)
      = g.mainAddr b * (g.step / 8) + (g.subAddr b * (g.DW / 8) + j) := by omega
  by_cases hn : g.n ≤ 1
  · have e2 : ∀ x, g.subAddr x = 0 := by intro x; unfold Cfg.subAddr; rw [if_pos hn]
    simp only [e2, Nat.zero_mul, Nat.zero_add, Nat.add_zero] at he' hma hmb
    rw [hma, hmb] at he'
    have hp : 0 < g.step / 8 := by omega
    have h3 := congrArg (· / (g.step / 8)) he'
    simp only [Nat.mul_comm _ (g.step / 8), Nat.mul_add_div hp, Nat.div_eq_of_lt (show i < g.step / 8 by omega),
      Nat.div_eq_of_lt (show j < g.step / 8 by omega), Nat.add_zero] at h3
    subst h3
    exact ⟨rfl, by omega⟩
  · obtain ⟨hS, k, hk1, hnk, hsub⟩ := n_pow2 h (by omega)
    have hsa : ∀ x, g.subAddr x < 2 ^ k := by
      intro x; unfold Cfg.subAddr; rw [if_neg hn, hsub]; exact Nat.mod_lt _ (Nat.two_pow_pos k)
    have hmd : ∀ x, ∃ y, g.mainAddr x = 2 ^ k * y := by
      intro x; unfold Cfg.mainAddr; rw [if_neg hn, hsub]; exact Nat.dvd_sub_mod x
    have hlt : ∀ x y, y < g.DW / 8 → g.subAddr x * (g.DW / 8) + y < 2 ^ k * (g.step / 8) := by
      intro x y hy
      have h1 : (g.subAddr x + 1) * (g.DW / 8) ≤ 2 ^ k * (g.DW / 8) := Nat.mul_le_mul_right _ (hsa x)
      have h2 : 2 ^ k * (g.DW / 8) ≤ 2 ^ k * (g.step / 8) := Nat.mul_le_mul_left _ hDS
      rw [Nat.add_mul] at h1
      omega
    obtain ⟨ya, hya⟩ := hmd a
    obtain ⟨yb, hyb⟩ := hmd b
    have hp : 0 < 2 ^ k * (g.step / 8) := Nat.mul_pos (Nat.two_pow_pos k) (by omega)
    rw [hya, hyb, show 2 ^ k * ya * (g.step / 8) = (2 ^ k * (g.step / 8)) * ya by
      rw [Nat.mul_assoc, Nat.mul_comm ya, ← Nat.mul_assoc], show 2 ^ k * yb * (g.step / 8) = (2 ^ k * (g.step / 8)) * yb by
      rw [Nat.mul_assoc, Nat.mul_comm yb, ← Nat.mul_assoc]] at he'
    have h3 := congrArg (· / (2 ^ k * (g.step / 8))) he'
    simp only [Nat.mul_add_div hp, Nat.div_eq_of_lt (hlt a i hi), Nat.div_eq_of_lt (hlt b j hj), Nat.add_zero] at h3
    subst h3
    have h4 : g.subAddr a * (g.DW / 8) + i = g.subAddr b * (g.DW / 8) + j := by omega
    have hd : 0 < g.DW / 8 := by omega
    have h5 := congrArg (· / (g.DW / 8)) h4
    simp only [Nat.mul_comm _ (g.DW / 8), Nat.mul_add_div hd, Nat.div_eq_of_lt hi, Nat.div_eq_of_lt hj, Nat.add_zero] at h5
    rw [h5] at h4
    refine ⟨by omega, by omega⟩

example : Legal exOff ∧ 8 ≤ exOff.step ∧ byteAddr exOff 1 3 = 163 := ⟨exOff_legal, by decide, by decide +kernel⟩

/-! ## C362: length of the burst -/

/-- Words of the frame with the data -/
def frameWords (g : Cfg) : Nat := (g.DW + g.A - 1) / g.A

/-- **C362**: the burst has exactly the words of the frame with the data. -/
theorem len_eq (g : Cfg) (h : Legal g) : g.len + 1 = frameWords g := by
  obtain ⟨p, hp⟩ := h.axi
  have hpos := h.pos
  have hP := Nat.two_pow_pos p
  unfold Cfg.len frameWords Cfg.DW
  generalize 2 ^ p = P at *
  have e1 : (g.S + g.A - 1) / g.A = ((g.S + 7) / 8 * 8 + g.A - 1) / g.A := by
    rw [hp]
    rw [← Nat.div_div_eq_div_mul, ← Nat.div_div_eq_div_mul]
    congr 1
    omega
  rw [← e1]
  have : 1 ≤ (g.S + g.A - 1) / g.A := by
    rw [Nat.le_div_iff_mul_le (by omega)]
    omega
  omega

example : Legal exOff ∧ exOff.len = 7 := ⟨exOff_legal, by decide⟩

/-- A burst must not cross the boundary of 4KB (AXI): the first and the last byte are in the same page. -/
def PageSpec : Prop := ∀ g a, Legal g → a < 2 ^ g.sw → g.off + (a + 1) * (g.step / 8) ≤ 2 ^ g.dw → g.step ≤ 8 * 4096 →
  g.A ≤ 1024 →
  g.axAddr a / 4096 = (g.axAddr a / (g.A / 8) * (g.A / 8) + (g.len + 1) * (g.A / 8) - 1) / 4096

/-- **C362** (violated): the offset is not aligned to the words. -/
theorem pageSpec_violated : ¬ PageSpec := by
  intro h
  have := h ⟨64, 512, 512, 4, 32, 4088⟩ 0 ⟨⟨3, rfl⟩, ⟨9, rfl⟩, by decide, by decide, by decide, by decide⟩ (by decide) (by decide)
    (by decide) (by decide)
  revert this
  decide +kernel

/-- All bytes of an aligned block are in one page. -/
theorem same_page {x y n B : Nat} (hB : B ∣ 4096) (hn : x / B = n) (hy : y / B = n) : x / 4096 = y / 4096 := by
  obtain ⟨c, hc⟩ := hB
  rw [hc, ← Nat.div_div_eq_div_mul, ← Nat.div_div_eq_div_mul, hn, hy]

/-- **C362** (part): the burst is in one page of 4KB if the offset is a multiple of the step. Missing: other offsets. -/
theorem page_partial (g : Cfg) (a : Nat) (h : Legal g) (h8 : 8 ≤ g.step) (ha : a < 2 ^ g.sw)
    (hf : g.off + (a + 1) * (g.step / 8) ≤ 2 ^ g.dw) (hs : g.step ≤ 8 * 4096) (hA : g.A ≤ 1024)
    (ho : g.off % (g.step / 8) = 0) :
    g.axAddr a / 4096 = (g.axAddr a / (g.A / 8) * (g.A / 8) + (g.len + 1) * (g.A / 8) - 1) / 4096 := by
  obtain ⟨p, hp⟩ := h.axi
  obtain ⟨q, hq⟩ := h.step
  have hA8 : g.A / 8 = 2 ^ p := by rw [hp]; omega
  have hAp := Nat.two_pow_pos p
  have hq3 : 3 ≤ q := by
    rw [hq] at h8
    exact (Nat.pow_le_pow_iff_right (a := 2) (by decide)).1 (by simpa using h8)
  have hq15 : q ≤ 15 := by
    rw [hq] at hs
    exact (Nat.pow_le_pow_iff_right (a := 2) (by decide)).1 (by simpa using hs)
  have hp7 : p ≤ 7 := by
    have : 2 ^ p ≤ 2 ^ 7 := by omega
    exact (Nat.pow_le_pow_iff_right (a := 2) (by decide)).1 this
  have hs8 : g.step / 8 = 2 ^ (q - 3) := by
    rw [hq, show (8 : Nat) = 2 ^ 3 by decide, Nat.pow_div hq3 (by decide)]
  have hlen := len_eq g h
  have hDS : g.DW ≤ g.step := by
    have h1 := h.fits
    have h2 : g.step % 8 = 0 := by
      rw [hq, show q = (q - 3) + 3 by omega, Nat.pow_add]; omega
    unfold Cfg.DW
    omega
  have hD := DW_pos h
  by_cases hn : g.n ≤ 1
  · have hpq : p ≤ q - 3 := by
      have hlt : g.A < 2 * g.step := by
        have h1 : g.A < 2 * g.DW := by
          have := Nat.lt_mul_div_succ g.A (show 0 < g.DW by omega)
          have h2 : g.DW * (g.A / g.DW + 1) ≤ g.DW * 2 := Nat.mul_le_mul_left _ (by unfold Cfg.n at hn; omega)
          omega
        omega
      have h3 : 2 ^ (p + 3) < 2 ^ (q + 1) := by
        rw [Nat.pow_add, Nat.pow_succ]
        omega
      have := (Nat.pow_lt_pow_iff_right (a := 2) (by decide)).1 h3
      omega
    have hmain : g.mainAddr a = a := by unfold Cfg.mainAddr; rw [if_pos hn]
    obtain ⟨c, hc⟩ := Nat.dvd_of_mod_eq_zero ho
    have hax : g.axAddr a = 2 ^ (q - 3) * (a + c) := by
      rw [axAddr_eq h h8 ha hf, hmain, hc, hs8, Nat.mul_add, Nat.mul_comm a]
    have hal : g.axAddr a / (g.A / 8) * (g.A / 8) = g.axAddr a := by
      apply Nat.div_mul_cancel
      rw [hax, hA8]
      exact Nat.dvd_mul_right_of_dvd (Nat.pow_dvd_pow 2 hpq) _
    have hw : (g.len + 1) * (g.A / 8) ≤ 2 ^ (q - 3) := by
      rw [hlen, hA8]
      unfold frameWords
      obtain ⟨e, he⟩ : 2 ^ p ∣ 2 ^ (q - 3) := Nat.pow_dvd_pow 2 hpq
      have h4 : (g.DW + g.A - 1) / g.A ≤ e := by
        have hst : g.step = g.A * e := by
          have : g.step = 8 * (g.step / 8) := by
            rw [hq, show q = (q - 3) + 3 by omega, Nat.pow_add]; omega
          rw [this, hs8, he, hp, Nat.mul_assoc]
        have h5 : g.DW + g.A - 1 < g.A * (e + 1) := by
          rw [Nat.mul_add, ← hst]
          omega
        have := (Nat.div_lt_iff_lt_mul (show 0 < g.A by omega)).2 (by rw [Nat.mul_comm]; exact h5)
        omega
      rw [he, Nat.mul_comm (2 ^ p)]
      exact Nat.mul_le_mul_right _ h4
    have hw0 : 0 < (g.len + 1) * (g.A / 8) := Nat.mul_pos (by omega) (by omega)
    rw [hal, hax]
    apply same_page (n := a + c) (B := 2 ^ (q - 3))
    · exact ⟨2 ^ (15 - q), by rw [← Nat.pow_add, show q - 3 + (15 - q) = 12 by omega]⟩
    · rw [Nat.mul_comm]; exact Nat.mul_div_cancel _ (Nat.two_pow_pos _)
    · rw [Nat.add_sub_assoc hw0, Nat.mul_add_div (Nat.two_pow_pos _), Nat.div_eq_of_lt (by omega), Nat.add_zero]
  · have hl1 : g.len + 1 = 1 := by
      rw [hlen]
      unfold frameWords
      have hda : g.DW ≤ g.A := by
        have h1 : g.n * g.DW ≤ g.A := Nat.div_mul_le_self _ _
        have h2 : 1 * g.DW ≤ g.n * g.DW := Nat.mul_le_mul_right _ (by omega)
        omega
      rw [show g.DW + g.A - 1 = (g.DW - 1) + g.A by omega, Nat.add_div_right _ (by omega), Nat.div_eq_of_lt (by omega)]
    rw [hl1, Nat.one_mul, hA8]
    have hlt := Nat.mod_lt (g.axAddr a) hAp
    have hdm := Nat.div_add_mod (g.axAddr a) (2 ^ p)
    rw [Nat.mul_comm] at hdm
    apply same_page (n := g.axAddr a / 2 ^ p) (B := 2 ^ p)
    · exact ⟨2 ^ (12 - p), by rw [← Nat.pow_add, show p + (12 - p) = 12 by omega]⟩
    · rfl
    · rw [Nat.add_sub_assoc (by omega), Nat.mul_comm, Nat.mul_add_div hAp, Nat.div_eq_of_lt (show 2 ^ p - 1 < 2 ^ p by omega),
        Nat.add_zero]

example : Legal exShare ∧ exShare.step ≤ 8 * 4096 ∧ exShare.off % (exShare.step / 8) = 0 ∧ exShare.axAddr 5 = 8 :=
  ⟨⟨⟨2, rfl⟩, ⟨4, rfl⟩, by decide, by decide, by decide, by decide⟩, by decide, by decide, by decide +kernel⟩

end Verif.AddrDataAxi
