import Verif.BusMap
/-!
# Model of the address decoding of bus endpoints

`AddressStepTranslation` (hwtLib/abstract/addressStepTranslation.py) and `BusEndpoint.propagateAddr`
(hwtLib/abstract/busEndpoint.py:291-350). Addresses are `Nat` below `2 ^ width`.
-/
namespace Verif.AddrDecode
open Verif.BusMap (bitLength isPow2)

/-- addressStepTranslation.py:21-27 -/
def alignBits (src dst : Nat) : Nat :=
  if src = dst then 0
  else if src < dst then log2ceil (dst / src - 1)
  else log2ceil (src / dst - 1)

/-- addressStepTranslation.py:29-59: the source address is extended or cut, cast to the destination width `dw` and the
offset is added. The asserts :41-43, :48-50 are `propagateOk`; the cast is taken as truncation or zero extension. -/
def propagate (dw src dst off a : Nat) : Nat :=
  let b := if src = dst then a
    else if src > dst then a <<< alignBits src dst
    else a >>> alignBits src dst
  (b % 2 ^ dw + off) % 2 ^ dw

/-- the asserts addressStepTranslation.py:41-43, :48-50 (`sw` is the source width) -/
def propagateOk (sw dw src dst : Nat) : Bool :=
  if src = dst then true
  else if src > dst then decide (sw + alignBits src dst ≤ dw)
  else decide (sw ≤ dw + alignBits src dst)

/-- An array of a template: offset and number of items; an item has `dst` bits. -/
structure Arr where
  bitAddr : Nat
  items : Nat

/-- busEndpoint.py:314 -/
def Arr.aligned (t : Arr) (dst : Nat) : Bool := t.bitAddr % (t.items * dst) == 0 && isPow2 (t.items * dst)
/-- busEndpoint.py:316-319 -/
def Arr.subBits (t : Arr) (dst : Nat) : Nat := bitLength ((t.items * dst - 1) / dst)

/-- busEndpoint.py:321-333: select of the array; `W` is the width of the source address. -/
def isMine (W src dst : Nat) (t : Arr) (a : Nat) : Bool :=
  if t.aligned dst then
    let bits := t.subBits dst + alignBits src dst
    if W - bits = 0 then true else a >>> bits == (t.bitAddr / src) >>> bits
  else decide (t.bitAddr / src ≤ a) && decide (a < (t.bitAddr + t.items * dst) / src)

/-- busEndpoint.py:329, :334-336 -/
def addrTmp (W src dst : Nat) (t : Arr) (a : Nat) : Nat :=
  if t.aligned dst then a else (a + 2 ^ W - t.bitAddr / src) % 2 ^ W

/-- busEndpoint.py:338-348: index in the array -/
def sub (W src dst : Nat) (t : Arr) (a : Nat) : Nat :=
  if t.subBits dst = 0 then 0
  else (addrTmp W src dst t a >>> alignBits src dst) % 2 ^ t.subBits dst

/-! ### Lemmas -/

theorem log2ceil_eq {n k : Nat} (hk : 1 ≤ k) (h1 : 2 ^ (k - 1) < n) (h2 : n ≤ 2 ^ k) : log2ceil n = k := by
  unfold log2ceil
  have hp := Nat.two_pow_pos (k - 1)
  rw [if_neg (by omega)]
  have : Nat.log2 (n - 1) = k - 1 := by
    have hk' : 2 ^ k = 2 * 2 ^ (k - 1) := by rw [← Nat.pow_succ']; congr 1; omega
    exact (Nat.log2_eq_iff (by omega)).2 ⟨by omega, by rw [show k - 1 + 1 = k by omega]; omega⟩
  omega

theorem log2ceil_pred {k : Nat} (hk : 1 ≤ k) : log2ceil (2 ^ k - 1) = k := by
  by_cases h : k = 1
  · subst h; rfl
  · have h2 : 2 ^ k = 2 * 2 ^ (k - 1) := by rw [← Nat.pow_succ']; congr 1; omega
    have h3 : 2 ^ (k - 1) = 2 * 2 ^ (k - 2) := by rw [← Nat.pow_succ']; congr 1; omega
    have := Nat.two_pow_pos (k - 2)
    exact log2ceil_eq hk (by omega) (by omega)

theorem alignBits_up {s d : Nat} (h : s ≤ d) : alignBits (2 ^ s) (2 ^ d) = d - s := by
  unfold alignBits
  by_cases e : s = d
  · subst e; simp
  · have hlt : 2 ^ s < 2 ^ d := Nat.pow_lt_pow_right (by omega) (by omega)
    rw [if_neg (by omega), if_pos hlt, Nat.pow_div h (by omega)]
    exact log2ceil_pred (by omega)

theorem alignBits_down {s d : Nat} (h : d < s) : alignBits (2 ^ s) (2 ^ d) = s - d := by
  unfold alignBits
  have hlt : 2 ^ d < 2 ^ s := Nat.pow_lt_pow_right (by omega) h
  rw [if_neg (by omega), if_neg (by omega), Nat.pow_div (by omega) (by omega)]
  exact log2ceil_pred (by omega)

theorem lt_two_pow_bitLength (n : Nat) : n < 2 ^ bitLength n := by
  unfold bitLength
  split
  · omega
  · exact Nat.lt_log2_self

theorem bitLength_pred_pow (j : Nat) : bitLength (2 ^ j - 1) = j := by
  unfold bitLength
  by_cases h : j = 0
  · subst h; rfl
  · have h2 : 2 ^ j = 2 * 2 ^ (j - 1) := by rw [← Nat.pow_succ']; congr 1; omega
    have := Nat.two_pow_pos (j - 1)
    rw [if_neg (by omega)]
    have : Nat.log2 (2 ^ j - 1) = j - 1 :=
      (Nat.log2_eq_iff (by omega)).2 ⟨by omega, by rw [show j - 1 + 1 = j by omega]; omega⟩
    omega

theorem subBits_eq (t : Arr) (d : Nat) (hn : 1 ≤ t.items) : t.subBits (2 ^ d) = bitLength (t.items - 1) := by
  unfold Arr.subBits
  congr 1
  have hp := Nat.two_pow_pos d
  have : t.items * 2 ^ d - 1 = (t.items - 1) * 2 ^ d + (2 ^ d - 1) := by
    obtain ⟨m, hm⟩ : ∃ m, t.items = m + 1 := ⟨t.items - 1, by omega⟩
    rw [hm, Nat.add_sub_cancel, Nat.add_mul]; omega
  rw [this, Nat.add_comm, Nat.add_mul_div_right _ _ hp, Nat.div_eq_of_lt (by omega), Nat.zero_add]

end Verif.AddrDecode
