import Verif.SplitJoinProps
/-!
# Property C139: a stalled output of HsJoinFairShare

`vld`/`rd` streams of hwtLib are used with AXI interfaces, where a producer has to keep `vld` and the data until `rd`.
-/
namespace Verif.SplitJoin

universe u
variable {α : Type u}

/-- Every producer keeps a word which is not taken: `i`/`o` are inputs and outputs of one cycle, `j` inputs of the next. -/
def InputsKeep (n : Nat) (i : JoinIn α) (o : JoinOut α) (j : JoinIn α) : Prop :=
  ∀ k, k < n → i.vld k = true → o.rd k = false → j.vld k = true ∧ j.data k = i.data k

/-- The full claim: the output keeps a word which is not taken if all inputs do so. -/
def OutputKeeps (n : Nat) : Prop :=
  ∀ (is : List (JoinIn Nat)) (i j : JoinIn Nat),
    ((joinFair n).outAfter prioInit is i).vld = true → i.rd = false →
    InputsKeep n i ((joinFair n).outAfter prioInit is i) j →
    ((joinFair n).outAfter prioInit (is ++ [i]) j).vld = true ∧
    ((joinFair n).outAfter prioInit (is ++ [i]) j).data = ((joinFair n).outAfter prioInit is i).data

/-- **C139 does not hold**: with two valid inputs the data of a stalled output change in the next cycle. -/
theorem joinFair_unstable : ¬ OutputKeeps 2 := by
  intro h
  have := (h [] ⟨fun _ => true, id, false⟩ ⟨fun _ => true, id, false⟩ (by decide) rfl fun _ _ _ _ => ⟨rfl, rfl⟩).2
  revert this
  decide

theorem joinFair_data {n : Nat} (hn : 0 < n) (is : List (JoinIn α)) (i : JoinIn α) {k : Nat} (hk : k < n) (hv : i.vld k = true)
    (hu : ∀ j, j < n → i.vld j = true → j = k) : ((joinFair n).outAfter prioInit is i).data = some (i.data k) := by
  obtain ⟨q, hq, hp⟩ : ∃ q, q < n ∧ OneHot n ((joinFair (α := α) n).final prioInit is) q :=
    ⟨_, Nat.mod_lt _ hn, prio_at (joinFair n) n hn (fun _ _ => rfl) is⟩
  obtain ⟨m, hm, ⟨h1, h2⟩, _⟩ := isSelected_unique hq hp ⟨k, hk, hv⟩
  have := hu m hm h2
  subst this
  show firstCase n _ i.data = _
  unfold firstCase
  rw [find_range hm (by simp [h1, h2]) (fun j hj => ?_)]
  · rfl
  · rcases Bool.eq_false_or_eq_true (i.vld j) with hc | hc
    · have := hu j (by omega) hc
      omega
    · simp [hc]

/-- **C139, partial**: `vld` is kept in every case, the data are kept if no other input is valid in the two cycles. -/
theorem joinFair_stable_partial {n : Nat} (is : List (JoinIn α)) (i j : JoinIn α)
    (hv : ((joinFair n).outAfter prioInit is i).vld = true) (hr : i.rd = false)
    (hk : InputsKeep n i ((joinFair n).outAfter prioInit is i) j) :
    ((joinFair n).outAfter prioInit (is ++ [i]) j).vld = true ∧
    ((∀ a b, a < n → b < n → i.vld a = true → j.vld b = true → a = b) →
      ((joinFair n).outAfter prioInit (is ++ [i]) j).data = ((joinFair n).outAfter prioInit is i).data) := by
  have hv' : anyN n i.vld = true := hv
  obtain ⟨k, hkn, hkv⟩ := (anyN_iff n i.vld).1 hv'
  obtain ⟨k1, k2⟩ := hk k hkn hkv (by show (_ && i.rd) = false; rw [hr]; simp)
  refine ⟨(anyN_iff n j.vld).2 ⟨k, hkn, k1⟩, fun hu => ?_⟩
  rw [joinFair_data (by omega) is i hkn hkv fun a ha h => hu a k ha hkn h k1,
    joinFair_data (by omega) (is ++ [i]) j hkn k1 fun b hb h => (hu k b hkn hb hkv h).symm, k2]

/-- non-vacuity: only input 1 of three is valid, stalled -/
example : (((joinFair 3).outAfter prioInit [] ⟨fun k => k == 1, fun k => k + 10, false⟩ : JoinOut Nat).vld = true) ∧
    InputsKeep 3 (⟨fun k => k == 1, fun k => k + 10, false⟩ : JoinIn Nat)
      ((joinFair 3).outAfter prioInit [] ⟨fun k => k == 1, fun k => k + 10, false⟩) ⟨fun k => k == 1, fun k => k + 10, true⟩ ∧
    ((joinFair 3).outAfter prioInit [] (⟨fun k => k == 1, fun k => k + 10, false⟩ : JoinIn Nat)).data = some 11 :=
  ⟨by decide, fun _ _ h _ => ⟨h, rfl⟩, by decide⟩

end Verif.SplitJoin
