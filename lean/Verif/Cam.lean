import Verif.Common
/-!
# Model of `Cam` (hwtLib/mem/cam.py)
-/
namespace Verif.Cam

/-- Inputs: write port, lookup port (`match`), `out.rd`. -/
structure In where
  wVld : Bool
  wAddr : Nat
  wData : Nat
  wFlag : Bool
  mVld : Bool
  mKey : Nat
  oRd : Bool

structure Out where
  wRd : Bool
  mRd : Bool
  oVld : Bool
  oData : Nat → Bool

/-- mem/cam.py:56 width of the address of the write port -/
def addrWidth (items : Nat) : Nat := log2ceil (items - 1)

/-- mem/cam.py:63-65 `Concat(w.data, w.vld_flag)` -/
def record (useVld : Bool) (key : Nat) (flag : Bool) : Nat :=
  if useVld then 2 * key + flag.toNat else key

/-- mem/cam.py:73-85, `StreamNode([key], [match_res]).sync()` just crosses `rd`, `vld`. -/
def out (useVld : Bool) (mem : Nat → Nat) (i : In) : Out where
  wRd := true
  mRd := i.oRd
  oVld := i.mVld
  oData k := mem k == record useVld i.mKey true

/-- mem/cam.py:59-71; the address port has only `addrWidth` bits -/
def next (useVld : Bool) (items : Nat) (mem : Nat → Nat) (i : In) : Nat → Nat :=
  if i.wVld then upd mem (i.wAddr % 2 ^ addrWidth items) (record useVld i.wData i.wFlag) else mem

def machine (useVld : Bool) (items : Nat) : Machine (Nat → Nat) In Out :=
  ⟨out useVld, next useVld items⟩

/-- mem/cam.py:94-97 -/
def init : Nat → Nat := fun _ => 0

theorem record_inj (k k' : Nat) (f : Bool) :
    record true k f = record true k' true ↔ k = k' ∧ f = true := by
  cases f <;> simp [record] <;> omega

theorem log2ceil_eq_of_pow {k : Nat} (hk : 1 ≤ k) : log2ceil (2 ^ k) = k := by
  have h2 : 2 ≤ 2 ^ k := by
    calc 2 = 2 ^ 1 := rfl
      _ ≤ 2 ^ k := Nat.pow_le_pow_right (by decide) hk
  unfold log2ceil
  rw [if_neg (by omega)]
  have h3 : Nat.log2 (2 ^ k - 1) = k - 1 := by
    rw [Nat.log2_eq_iff (by omega)]
    have : 2 ^ k = 2 ^ (k - 1) * 2 := by rw [← Nat.pow_succ]; congr 1; omega
    rw [show k - 1 + 1 = k by omega]
    omega
  omega

end Verif.Cam
