import Verif.CacheUtil
/-! # Helpers of the AXI cache: properties -/
namespace Verif.CacheUtil

/-! ## byte mask -/

theorem expandMask_cons (b : Bool) (m : List Bool) : expandMask (b :: m) = List.replicate 8 b ++ expandMask m := by
  unfold expandMask
  simp only [concat, List.reverse_reverse, List.map_cons, List.flatten_cons]
  rfl

theorem expandMask_length (m : List Bool) : (expandMask m).length = 8 * m.length := by
  induction m with
  | nil => rfl
  | cons b m ih => rw [expandMask_cons, List.length_append, ih, List.length_replicate, List.length_cons]; omega

theorem expandMask_get (m : List Bool) : ∀ i, i < 8 * m.length → (expandMask m)[i]? = some (m.getD (i / 8) false) := by
  induction m with
  | nil => intro i h; simp at h
  | cons b m ih =>
    intro i h
    rw [expandMask_cons]
    by_cases h8 : i < 8
    · rw [List.getElem?_append_left (by rw [List.length_replicate]; exact h8), List.getElem?_replicate_of_lt h8,
        Nat.div_eq_of_lt h8]; rfl
    · rw [List.getElem?_append_right (by rw [List.length_replicate]; omega), List.length_replicate,
        ih (i - 8) (by rw [List.length_cons] at h; omega)]
      have : i / 8 = (i - 8) / 8 + 1 := by omega
      rw [this]; rfl

/-- C416: a write with a byte mask takes exactly the bytes with a set bit from the new data, for any number of bytes -/
theorem write_bytes (cur new m : List Bool) (hc : cur.length = 8 * m.length) (hn : new.length = 8 * m.length) :
    (applyWrite cur new m).length = cur.length ∧
    ∀ i, i < cur.length → (applyWrite cur new m)[i]? = if m.getD (i / 8) false then new[i]? else cur[i]? := by
  constructor
  · unfold applyWrite setClear bOr bAnd bNot
    simp only [List.length_zipWith, List.length_map, expandMask_length, hc, hn, Nat.min_self]
  · intro i hi
    have hm := expandMask_get m i (by omega)
    have h1 : cur[i]? = some (cur[i]'hi) := List.getElem?_eq_getElem hi
    have h2 : new[i]? = some (new[i]'(by omega)) := List.getElem?_eq_getElem (by omega)
    unfold applyWrite setClear bOr bAnd bNot
    rw [List.getElem?_zipWith, List.getElem?_zipWith, List.getElem?_zipWith, List.getElem?_map, hm, h1, h2]
    cases m.getD (i / 8) false <;> simp

example : applyWrite (List.replicate 16 false) (List.replicate 16 true) [false, true] =
    List.replicate 8 false ++ List.replicate 8 true := by decide

/-! ## extension to whole bytes -/

/-- C417, full statement: the result is the number extended by zeros to the closest whole number of bytes -/
def ExtendSpec : Prop :=
  ∀ sig : List Bool, sig ≠ [] → ∃ r, extend8 sig = some r ∧ r.length % 8 = 0 ∧ r.length < sig.length + 8 ∧
    ∃ n, r = sig ++ List.replicate n false

theorem closest_le (w : Nat) : closest w ≤ w := by unfold closest; omega

/-- only signals of 8 bits pass, all other widths are an error -/
theorem extend_only8 (sig : List Bool) (h : sig ≠ []) : extend8 sig = if sig.length = 8 then some sig else none := by
  have h0 : 0 < sig.length := List.length_pos_iff.mpr h
  unfold extend8
  by_cases h8 : sig.length = 8
  · rw [if_pos h8, h8, if_pos (by decide)]
  · have hne : closest sig.length ≠ sig.length := by unfold closest; omega
    rw [if_neg h8, if_neg hne, if_pos (by have := closest_le sig.length; omega)]

theorem extend_violated : ¬ ExtendSpec := by
  intro h
  obtain ⟨r, h1, _⟩ := h (List.replicate 16 false) (by decide)
  rw [extend_only8 _ (by decide)] at h1
  cases h1

theorem extend_partial (sig : List Bool) (h : sig.length = 8) :
    ∃ r, extend8 sig = some r ∧ r.length % 8 = 0 ∧ r.length < sig.length + 8 ∧ ∃ n, r = sig ++ List.replicate n false := by
  refine ⟨sig, ?_, by omega, by omega, 0, by simp⟩
  rw [extend_only8 sig (by intro h0; rw [h0] at h; cases h), if_pos h]

example : (List.replicate 8 true).length = 8 := rfl

/-! ## read port of CAM -/

/-- C418, full statement: every item can be read -/
def CamReadSpec : Prop := ∀ (items : Nat), 0 < items → ∀ (mem : Nat → Nat) (i : Nat), i < items → ∃ a, camRead items mem a = mem i

theorem camRead_iff (items i : Nat) : (∀ mem, ∃ a, camRead items mem a = mem i) ↔ i < 2 ^ log2ceil (items - 1) := by
  constructor
  · intro h
    obtain ⟨a, ha⟩ := h id
    have := a.isLt
    unfold camRead at ha
    unfold camAddrWidth at this
    simp only [id] at ha
    omega
  · intro h mem
    exact ⟨⟨i, h⟩, rfl⟩

/-- with 5 items the last can not be read -/
theorem camRead_violated : ¬ CamReadSpec := by
  intro h
  have := (camRead_iff 5 4).mp fun mem => h 5 (by decide) mem 4 (by decide)
  revert this; decide

/-- C418 for all numbers of items other than 2^k + 1 with k > 0 -/
theorem camRead_partial (items : Nat) (hp : ∀ k, 0 < k → items ≠ 2 ^ k + 1) (mem : Nat → Nat) (i : Nat)
    (h : i < items) : ∃ a, camRead items mem a = mem i := by
  refine (camRead_iff items i).mpr ?_ mem
  have h1 := le_two_pow_log2ceil (items - 1)
  have h2 := hp (log2ceil (items - 1)) (log2ceil_pos _)
  omega

example : ∀ k, 0 < k → 8 ≠ 2 ^ k + 1 := by
  intro k hk h
  obtain ⟨j, rfl⟩ : ∃ j, k = j + 1 := ⟨k - 1, by omega⟩
  rw [Nat.pow_succ] at h
  omega

/-! ## parts of the address -/

theorem parse_eq (c : Cfg) (a : Nat) (ha : a < 2 ^ c.addrW) :
    parse c a = (a / 2 ^ c.offW / 2 ^ c.idxW, a / 2 ^ c.offW % 2 ^ c.idxW, a % 2 ^ c.offW) := by
  unfold parse slice
  have h1 : a % 2 ^ (c.idxW + c.offW) / 2 ^ c.offW = a / 2 ^ c.offW % 2 ^ c.idxW := by
    rw [Nat.pow_add, Nat.mul_comm, Nat.mod_mul_right_div_self]
  rw [Nat.mod_eq_of_lt ha, h1, Nat.pow_zero, Nat.div_one, Nat.div_div_eq_div_mul, Nat.pow_add, Nat.mul_comm (2 ^ c.idxW)]

/-- C419: the parts of an address determine it and the reverse, for any configuration which passes the assertion; numbers and
signals are split in the same way -/
theorem addr_round_trip (c : Cfg) (hc : c.Ok) :
    (∀ a, a < 2 ^ c.addrW → parseInt c a = parse c a ∧ deparse c (parse c a).1 (parse c a).2.1 (parse c a).2.2 = some a) ∧
    (∀ t i o, t < 2 ^ c.tagW → i < 2 ^ c.idxW → o < 2 ^ c.offW →
      ∃ a, deparse c t i o = some a ∧ a < 2 ^ c.addrW ∧ parse c a = (t, i, o)) := by
  have hpo : 0 < 2 ^ c.offW := Nat.two_pow_pos _
  have hpi : 0 < 2 ^ c.idxW := Nat.two_pow_pos _
  have hW : 2 ^ c.addrW = 2 ^ c.tagW * 2 ^ c.idxW * 2 ^ c.offW := by
    rw [← Nat.pow_add, ← Nat.pow_add]
    congr 1
    unfold Cfg.Ok at hc
    unfold Cfg.tagW
    omega
  constructor
  · intro a ha
    rw [parse_eq c a ha]
    refine ⟨?_, ?_⟩
    · unfold parseInt
      rw [Nat.shiftRight_eq_div_pow, Nat.shiftRight_eq_div_pow, Nat.and_two_pow_sub_one_eq_mod, Nat.and_two_pow_sub_one_eq_mod,
        Nat.div_div_eq_div_mul, Nat.pow_add, Nat.mul_comm (2 ^ c.idxW)]
    · unfold deparse
      dsimp only
      have hlt : a / 2 ^ c.offW / 2 ^ c.idxW < 2 ^ c.tagW := by
        rw [Nat.div_div_eq_div_mul, Nat.div_lt_iff_lt_mul (Nat.mul_pos hpo hpi), Nat.mul_comm (2 ^ c.offW), ← Nat.mul_assoc, ← hW]
        exact ha
      rw [if_pos ⟨hlt, Nat.mod_lt _ hpo, Nat.mod_lt _ hpi⟩, Nat.div_add_mod', Nat.div_add_mod']
  · intro t i o ht hi ho
    have hlt : (t * 2 ^ c.idxW + i) * 2 ^ c.offW + o < 2 ^ c.addrW := by
      rw [hW]
      have h1 : t * 2 ^ c.idxW + i < 2 ^ c.tagW * 2 ^ c.idxW := by
        have := Nat.mul_le_mul_right (2 ^ c.idxW) (Nat.succ_le_of_lt ht)
        rw [Nat.succ_mul] at this
        omega
      have := Nat.mul_le_mul_right (2 ^ c.offW) (Nat.succ_le_of_lt h1)
      rw [Nat.succ_mul] at this
      omega
    refine ⟨_, if_pos ⟨ht, ho, hi⟩, hlt, ?_⟩
    rw [parse_eq c _ hlt]
    have h1 : ((t * 2 ^ c.idxW + i) * 2 ^ c.offW + o) / 2 ^ c.offW = t * 2 ^ c.idxW + i := by
      rw [Nat.mul_comm, Nat.mul_add_div hpo, Nat.div_eq_of_lt ho, Nat.add_zero]
    have h2 : ((t * 2 ^ c.idxW + i) * 2 ^ c.offW + o) % 2 ^ c.offW = o := by
      rw [Nat.mul_comm, Nat.mul_add_mod, Nat.mod_eq_of_lt ho]
    have h3 : (t * 2 ^ c.idxW + i) / 2 ^ c.idxW = t := by
      rw [Nat.mul_comm, Nat.mul_add_div hpi, Nat.div_eq_of_lt hi, Nat.add_zero]
    have h4 : (t * 2 ^ c.idxW + i) % 2 ^ c.idxW = i := by
      rw [Nat.mul_comm, Nat.mul_add_mod, Nat.mod_eq_of_lt hi]
    rw [h1, h2, h3, h4]

/-- C419: two addresses have the same tag and index exactly if they are in the same block of `2 ** OFFSET_W` bytes; places in the
data array do not collide -/
theorem addr_lines (c : Cfg) :
    (∀ a b, a < 2 ^ c.addrW → b < 2 ^ c.addrW →
      (((parse c a).1 = (parse c b).1 ∧ (parse c a).2.1 = (parse c b).2.1) ↔ a / 2 ^ log2ceil c.lineSize = b / 2 ^ log2ceil c.lineSize)) ∧
    (∀ w1 i1 w2 i2, i1 < 2 ^ c.idxW → i2 < 2 ^ c.idxW → dataAddr c w1 i1 = dataAddr c w2 i2 → w1 = w2 ∧ i1 = i2) := by
  constructor
  · intro a b ha hb
    rw [parse_eq c a ha, parse_eq c b hb]
    show (a / 2 ^ c.offW / 2 ^ c.idxW = b / 2 ^ c.offW / 2 ^ c.idxW ∧ a / 2 ^ c.offW % 2 ^ c.idxW = b / 2 ^ c.offW % 2 ^ c.idxW) ↔
      a / 2 ^ c.offW = b / 2 ^ c.offW
    constructor
    · rintro ⟨h1, h2⟩
      rw [← Nat.div_add_mod (a / 2 ^ c.offW) (2 ^ c.idxW), h1, h2, Nat.div_add_mod]
    · intro h; rw [h]; exact ⟨rfl, rfl⟩
  · intro w1 i1 w2 i2 h1 h2 h
    unfold dataAddr at h
    have hp : 0 < 2 ^ c.idxW := Nat.two_pow_pos _
    have e1 : (w1 * 2 ^ c.idxW + i1) / 2 ^ c.idxW = w1 := by
      rw [Nat.mul_comm, Nat.mul_add_div hp, Nat.div_eq_of_lt h1, Nat.add_zero]
    have e2 : (w2 * 2 ^ c.idxW + i2) / 2 ^ c.idxW = w2 := by
      rw [Nat.mul_comm, Nat.mul_add_div hp, Nat.div_eq_of_lt h2, Nat.add_zero]
    have hw : w1 = w2 := by rw [← e1, ← e2, h]
    subst hw
    exact ⟨rfl, by omega⟩

/-- the default configuration with 4 ways -/
example : (⟨32, 64, 4096, 4⟩ : Cfg).Ok := by unfold Cfg.Ok; decide

end Verif.CacheUtil
