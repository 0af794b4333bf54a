import Verif.Lfsr
import Mathlib.Dynamics.PeriodicPts.Lemmas
import Mathlib.Data.Fintype.EquivFin
import Mathlib.Data.Finite.Prod
/-!
# Property C47 of `Lfsr`
-/
namespace Verif.Lfsr

variable {W : Nat}

theorem foldl_split (poly : Nat) (l : List (Fin W)) (s : St W) (a : Bool) :
    l.foldl (fun acc (i : Fin W) => if poly.testBit i then acc ^^ s i else acc) a
      = (a ^^ l.foldl (fun acc (i : Fin W) => if poly.testBit i then acc ^^ s i else acc) false) := by
  induction l generalizing a with
  | nil => simp
  | cons i l ih =>
    simp only [List.foldl_cons]
    rw [ih, ih (if poly.testBit i then false ^^ s i else false)]
    cases poly.testBit i <;> simp

theorem foldl_congr (poly : Nat) (l : List (Fin W)) (s t : St W) (h : ∀ i ∈ l, s i = t i) (a : Bool) :
    l.foldl (fun acc (i : Fin W) => if poly.testBit i then acc ^^ s i else acc) a
      = l.foldl (fun acc (i : Fin W) => if poly.testBit i then acc ^^ t i else acc) a := by
  induction l generalizing a with
  | nil => rfl
  | cons i l ih =>
    simp only [List.foldl_cons]
    rw [h i List.mem_cons_self]
    exact ih (fun j hj => h j (List.mem_cons_of_mem _ hj)) _

/-- The top tap separated from the others. -/
theorem nextBit_top (poly : Nat) (s : St (W + 1)) :
    nextBit poly s = ((List.finRange W).foldl
        (fun acc (i : Fin W) => if poly.testBit i then acc ^^ s i.castSucc else acc) false
      ^^ (poly.testBit W && s (Fin.last W))) := by
  unfold nextBit
  rw [List.finRange_succ_last, List.foldl_append, List.foldl_map]
  simp only [List.foldl_cons, List.foldl_nil, Fin.val_last, Fin.val_castSucc]
  rcases Bool.eq_false_or_eq_true (poly.testBit W) with h | h <;> simp [h]

/-- **C47** If the feedback includes the top bit, the step is injective (hence a bijection of the finite
set of states). -/
theorem lfsr_injective (poly : Nat) (hW : 0 < W) (htop : poly.testBit (W - 1) = true) :
    Function.Injective (next poly : St W → St W) := by
  obtain ⟨V, rfl⟩ : ∃ V, W = V + 1 := ⟨W - 1, by omega⟩
  intro s t h
  have hlow : ∀ i : Fin V, s i.castSucc = t i.castSucc := by
    intro i
    have := congrFun h i.succ
    simp [next] at this
    exact this
  have h0 := congrFun h 0
  have h0' : nextBit poly s = nextBit poly t := by simpa [next] using h0
  rw [nextBit_top, nextBit_top] at h0'
  simp only [Nat.add_sub_cancel] at htop
  simp only [hlow, htop, Bool.true_and] at h0'
  have hl : s (Fin.last V) = t (Fin.last V) := by
    revert h0'
    generalize (List.finRange V).foldl _ false = x
    cases x <;> cases s (Fin.last V) <;> cases t (Fin.last V) <;> simp
  funext i
  refine Fin.lastCases hl hlow i

theorem lfsr_bijective (poly : Nat) (hW : 0 < W) (htop : poly.testBit (W - 1) = true) :
    Function.Bijective (next poly : St W → St W) :=
  Finite.injective_iff_bijective.1 (lfsr_injective poly hW htop)

theorem stateAt_iterate (poly : Nat) (s : St W) (t : Nat) :
    stateAt poly s t = (next poly)^[t] s := by
  induction t with
  | zero => rfl
  | succ t ih => rw [Function.iterate_succ_apply', ← ih]; rfl

/-- **C47** The state (and so the output) sequence is purely periodic. -/
theorem lfsr_periodic (poly : Nat) (hW : 0 < W) (htop : poly.testBit (W - 1) = true) (s : St W) :
    ∃ p, 0 < p ∧ ∀ t, dataOut hW (stateAt poly s (t + p)) = dataOut hW (stateAt poly s t) ∧
      stateAt poly s (t + p) = stateAt poly s t := by
  obtain ⟨p, hp, hper⟩ := (lfsr_injective poly hW htop).mem_periodicPts s
  refine ⟨p, hp, fun t => ?_⟩
  have : stateAt poly s (t + p) = stateAt poly s t := by
    rw [stateAt_iterate, stateAt_iterate, Function.iterate_add_apply]
    congr 1
  exact ⟨by rw [this], this⟩

theorem next_zero (poly : Nat) : next poly (fun _ => false : St W) = fun _ => false := by
  funext j
  unfold next nextBit
  have : ∀ (l : List (Fin W)), l.foldl
      (fun acc (i : Fin W) => if poly.testBit i then acc ^^ (fun _ => false : St W) i else acc) false = false := by
    intro l
    induction l with
    | nil => rfl
    | cons i l ih => simp only [List.foldl_cons]; cases poly.testBit i <;> simp [ih]
  split
  · exact this _
  · rfl

/-- **C47** A non-zero seed never reaches the lock-up state. -/
theorem lfsr_never_zero (poly : Nat) (hW : 0 < W) (htop : poly.testBit (W - 1) = true) (s : St W)
    (hs : s ≠ fun _ => false) (t : Nat) : stateAt poly s t ≠ fun _ => false := by
  induction t with
  | zero => exact hs
  | succ t ih =>
    intro h
    exact ih (lfsr_injective poly hW htop (h.trans (next_zero poly).symm))

theorem shift (poly : Nat) (hW : 0 < W) (s : St W) (t : Nat) (j : Nat) (hj : j < W) :
    stateAt poly s (t + j) ⟨j, hj⟩ = dataOut hW (stateAt poly s t) := by
  induction j with
  | zero => rfl
  | succ j ih =>
    show next poly (stateAt poly s (t + j)) ⟨j + 1, hj⟩ = _
    have := ih (by omega)
    simpa [next] using this

/-- **C47** As seen on the output: each window of `W` cycles contains a 1. -/
theorem lfsr_output_alive (poly : Nat) (hW : 0 < W) (htop : poly.testBit (W - 1) = true) (s : St W)
    (hs : s ≠ fun _ => false) (t : Nat) :
    ∃ k, k < W ∧ dataOut hW (stateAt poly s (t + k)) = true := by
  have h := lfsr_never_zero poly hW htop s hs (t + (W - 1))
  have : ∃ j : Fin W, stateAt poly s (t + (W - 1)) j = true := by
    by_contra hc
    apply h
    funext j
    rw [not_exists] at hc
    simpa using hc j
  obtain ⟨j, hj⟩ := this
  refine ⟨W - 1 - j.val, by omega, ?_⟩
  have := shift poly hW s (t + (W - 1 - j.val)) j.val j.isLt
  rw [show t + (W - 1 - j.val) + j.val = t + (W - 1) by omega] at this
  rw [← this]
  exact hj

/-! ## Non-vacuity -/

/-- default parameters: 8 bits, POLY 0x88, INIT 1 -/
def s1 : St 8 := fun j => Nat.testBit 1 j

example : (0x88).testBit (8 - 1) = true ∧ s1 ≠ fun _ => false := by
  refine ⟨by decide, ?_⟩
  intro h
  have := congrFun h 0
  revert this
  decide

-- the sequence of the unit test of the component (first 14 outputs)
example : (List.range 14).map (fun t => dataOut (by decide) (stateAt 0x88 s1 t))
    = [true, false, false, false, true, false, false, false, false, false, false, false, true, false] := by
  decide

/-- Without the top tap a non-zero seed may lock up: seed 0x80 with POLY 0x01. -/
theorem lfsr_no_top_tap_locks : ∃ t, stateAt 0x01 (fun j : Fin 8 => Nat.testBit 0x80 j) t = fun _ => false :=
  ⟨1, by funext j; revert j; decide⟩

end Verif.Lfsr
