import Verif.Bitonic
/-!
# Property C46 of `BitonicSorter`
-/
namespace Verif.Bitonic

universe u
variable {α : Type u} [LinearOrder α]

/-- **C46** The outputs are a permutation of the inputs. -/
theorem bitonicSorter_perm (k : Nat) (x : List α) (h : x.length = 2 ^ k) :
    (sort false k x).Perm x := sort_perm k false x h

/-- **C46** The outputs are in ascending order. -/
theorem bitonicSorter_sorted (k : Nat) (x : List α) (h : x.length = 2 ^ k) :
    (sort false k x).Pairwise (· ≤ ·) := by
  rw [List.pairwise_iff_getElem]
  intro i j hi hj hij
  by_contra hc
  rw [not_le] at hc
  -- threshold at the larger item
  have hmono : Monotone fun y : α => decide ((sort false k x)[i] ≤ y) := by
    intro a b hab
    by_cases h1 : (sort false k x)[i] ≤ a
    · simp [h1, h1.trans hab]
    · simp [h1]
  have hs := sort_bool k (x.map fun y => decide ((sort false k x)[i] ≤ y)) (by simpa using h)
  rw [← sort_map hmono] at hs
  rw [List.pairwise_iff_getElem] at hs
  have := hs i j (by simpa using hi) (by simpa using hj) hij
  rw [List.getElem_map, List.getElem_map] at this
  have e : decide ((sort false k x)[i] ≤ (sort false k x)[j]) = false := by simpa using hc
  simp only [le_refl, decide_true, e] at this
  exact absurd this (by decide)

/-- **C46** Together: the output is determined by the set of inputs; two sorters with inputs permuted give
the same output. -/
theorem bitonicSorter_order_irrelevant (k : Nat) (x y : List α) (hx : x.length = 2 ^ k)
    (hp : x.Perm y) : sort false k x = sort false k y := by
  have hy : y.length = 2 ^ k := by rw [← hp.length_eq, hx]
  exact List.Perm.eq_of_pairwise (fun _ _ _ _ h1 h2 => le_antisymm h1 h2) (bitonicSorter_sorted k x hx) (bitonicSorter_sorted k y hy)
    (((bitonicSorter_perm k x hx).trans hp).trans (bitonicSorter_perm k y hy).symm)

-- non-vacuity
example : sort false 3 [5, 3, 8, 1, 1, 9, 0, 2] = [0, 1, 1, 2, 3, 5, 8, 9] := by decide

end Verif.Bitonic
