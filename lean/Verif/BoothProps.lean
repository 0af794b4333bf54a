import Verif.Booth
/-! Properties C162-C163 of `MultiplierBooth`. -/
namespace Verif.Booth

theorem two_pow_split (n : Nat) (hn : 1 ≤ n) : (2 : Int) ^ n = 2 * 2 ^ (n - 1) := by
  obtain ⟨k, rfl⟩ : ∃ k, n = k + 1 := ⟨n - 1, by omega⟩
  simp only [Nat.add_sub_cancel]
  rw [pow_succ]; ring

theorem two_pow_splitN (n : Nat) (hn : 1 ≤ n) : (2 : Nat) ^ n = 2 * 2 ^ (n - 1) := by
  obtain ⟨k, rfl⟩ : ∃ k, n = k + 1 := ⟨n - 1, by omega⟩
  simp only [Nat.add_sub_cancel]
  rw [pow_succ]; ring

theorem rep_lt (n : Nat) (v : Int) : rep n v < 2 ^ n := by
  unfold rep
  have h1 : (0 : Int) < 2 ^ n := by positivity
  have h2 := Int.emod_nonneg v h1.ne'
  have h3 := Int.emod_lt_of_pos v h1
  zify
  rw [Int.toNat_of_nonneg h2]
  exact_mod_cast h3

theorem rep_cast (n : Nat) (v : Int) : (rep n v : Int) = v % 2 ^ n := by
  unfold rep
  have h1 : (0 : Int) < 2 ^ n := by positivity
  exact Int.toNat_of_nonneg (Int.emod_nonneg v h1.ne')

theorem rep_unique (n x : Nat) (v : Int) (hx : x < 2 ^ n) (k : Int) (h : (x : Int) = v + k * 2 ^ n) : x = rep n v := by
  zify
  rw [rep_cast]
  have h3 : (x : Int) % 2 ^ n = x := Int.emod_eq_of_lt (by positivity) (by exact_mod_cast hx)
  rw [← h3, h, Int.add_mul_emod_self_right]

theorem rep_sgn (n x : Nat) (hx : x < 2 ^ n) : rep n (sgn n x) = x := by
  symm
  unfold sgn
  split
  · exact rep_unique n x _ hx 0 (by ring)
  · exact rep_unique n x _ hx 1 (by ring)

/-- a vector which represents a small number -/
theorem rep_small (n : Nat) (hn : 1 ≤ n) (v : Int) (h1 : -2 ^ (n - 1) ≤ v) (h2 : v < 2 ^ (n - 1)) :
    (0 ≤ v → (rep n v : Int) = v) ∧ (v < 0 → (rep n v : Int) = v + 2 ^ n) := by
  have hp := two_pow_split n hn
  have hpos : (0 : Int) < 2 ^ (n - 1) := by positivity
  rw [rep_cast]
  constructor
  · intro h
    exact Int.emod_eq_of_lt h (by rw [hp]; linarith)
  · intro h
    rw [← Int.add_emod_right]
    exact Int.emod_eq_of_lt (by rw [hp]; linarith) (by linarith)

theorem sra_rep (n : Nat) (hn : 1 ≤ n) (v : Int) (h1 : -2 ^ (n - 1) ≤ v) (h2 : v < 2 ^ (n - 1)) :
    sra n (rep n v) = rep n (v / 2) ∧ ((rep n v % 2 : Nat) : Int) = v % 2 := by
  have hp := two_pow_split n hn
  have hpN := two_pow_splitN n hn
  have hpos : (0 : Int) < 2 ^ (n - 1) := by positivity
  obtain ⟨r1, r2⟩ := rep_small n hn v h1 h2
  have hc : ((2 ^ (n - 1) : Nat) : Int) = 2 ^ (n - 1) := by push_cast; rfl
  by_cases hv : 0 ≤ v
  · have e := r1 hv
    have hlt : ¬ 2 ^ (n - 1) ≤ rep n v := by
      intro h
      have : ((2 ^ (n - 1) : Nat) : Int) ≤ (rep n v : Int) := by exact_mod_cast h
      rw [hc, e] at this
      linarith
    refine ⟨?_, by push_cast; rw [e]⟩
    unfold sra
    rw [if_neg hlt, Nat.add_zero]
    refine rep_unique n _ _ (lt_of_le_of_lt (Nat.div_le_self ..) (rep_lt n v)) 0 ?_
    push_cast
    rw [e]; ring
  · have hv : v < 0 := by omega
    have e := r2 hv
    have hge : 2 ^ (n - 1) ≤ rep n v := by
      have : ((2 ^ (n - 1) : Nat) : Int) ≤ (rep n v : Int) := by
        rw [hc, e, hp]; linarith
      exact_mod_cast this
    have hl := rep_lt n v
    refine ⟨?_, by push_cast; rw [e, hp]; omega⟩
    unfold sra
    rw [if_pos hge]
    refine rep_unique n _ _ (by omega) 1 ?_
    push_cast
    rw [e, hp]
    omega

theorem rep_add (n : Nat) (v w : Int) : (rep n v + rep n w) % 2 ^ n = rep n (v + w) := by
  zify
  rw [rep_cast, rep_cast, rep_cast, ← Int.add_emod]

theorem rep_sub (n : Nat) (v w : Int) : (rep n v + 2 ^ n - rep n w) % 2 ^ n = rep n (v - w) := by
  have := rep_lt n w
  zify [show rep n w ≤ rep n v + 2 ^ n by omega]
  rw [rep_cast, rep_cast, rep_cast, show v % 2 ^ n + 2 ^ n - w % 2 ^ n = v % 2 ^ n - w % 2 ^ n + 2 ^ n by ring, Int.add_emod_right,
    ← Int.sub_emod]

/-- The state of a multiplication of `M` and the vector `Q` after `i` steps: `A` is the value of `a`, `P` the low part of the product. -/
structure Step (n : Nat) (M : Int) (Q : Nat) (i : Nat) (s : St) (A : Int) (P : Nat) : Prop where
  a : s.a = rep n A
  m : s.m = rep n M
  q : s.q = P * 2 ^ (n - i) + Q / 2 ^ i
  p : P < 2 ^ i
  q1 : s.q1 = if i = 0 then 0 else Q / 2 ^ (i - 1) % 2
  pos : 0 ≤ M → (s.q1 = 0 → 0 ≤ A ∧ A ≤ M) ∧ (s.q1 = 1 → -M ≤ A ∧ A ≤ 0)
  neg : M < 0 → (s.q1 = 0 → M ≤ A ∧ A ≤ 0) ∧ (s.q1 = 1 → 0 ≤ A ∧ A ≤ -M)
  val : A * 2 ^ i + P = M * ((Q % 2 ^ i : Nat) - s.q1 * 2 ^ i)

theorem step_next (n : Nat) (M : Int) (hM1 : -2 ^ (n - 1) < M) (hM2 : M < 2 ^ (n - 1)) (Q : Nat) (i : Nat) (hi : i < n) (s : St)
    (A : Int) (P : Nat) (h : Step n M Q i s A P) (x : In) (hd : s.counter ≠ 0) :
    ∃ A' P', Step n M Q (i + 1) (next n s x) A' P' := by
  have hn : 1 ≤ n := by omega
  have e : next n s x = ⟨sra n (sum n s), s.m, sum n s % 2 * 2 ^ (n - 1) + s.q / 2, s.q % 2, s.counter - 1,
      (if start s x then true else if done s && x.rd then false else s.wait)⟩ := by
    have h1 : done s = false := by simp [done, hd]
    simp [next, start, h1]
  have hqb : s.q % 2 = Q / 2 ^ i % 2 := by
    rw [h.q, two_pow_splitN (n - i) (by omega), show P * (2 * 2 ^ (n - i - 1)) + Q / 2 ^ i = Q / 2 ^ i + 2 * (P * 2 ^ (n - i - 1)) by ring,
      Nat.add_mul_mod_self_left]
  have hq1 : s.q1 = 0 ∨ s.q1 = 1 := by rw [h.q1]; split <;> omega
  have hq : s.q % 2 = 0 ∨ s.q % 2 = 1 := by omega
  -- the value which is shifted
  obtain ⟨X, hX, hXv, hXp, hXn⟩ : ∃ X : Int, sum n s = rep n X ∧ X = A + M * ((s.q1 : Int) - (s.q % 2 : Nat)) ∧
      (0 ≤ M → ((s.q % 2 = 0 → 0 ≤ X ∧ X ≤ M) ∧ (s.q % 2 = 1 → -M ≤ X ∧ X ≤ 0))) ∧
      (M < 0 → ((s.q % 2 = 0 → M ≤ X ∧ X ≤ 0) ∧ (s.q % 2 = 1 → 0 ≤ X ∧ X ≤ -M))) := by
    have hp := h.pos
    have hng := h.neg
    unfold sum
    rw [h.a, h.m, rep_add, rep_sub]
    rcases hq1 with h1 | h1 <;> rcases hq with h2 | h2 <;> rw [h1] at hp hng <;> rw [h1, h2]
    · refine ⟨A, by simp, by simp, fun hm => ?_, fun hm => ?_⟩
      · have := (hp hm).1 rfl
        exact ⟨fun _ => this, fun h => absurd h (by decide)⟩
      · have := (hng hm).1 rfl
        exact ⟨fun _ => this, fun h => absurd h (by decide)⟩
    · refine ⟨A - M, by simp, by push_cast; ring, fun hm => ?_, fun hm => ?_⟩
      · have := (hp hm).1 rfl
        exact ⟨fun h => absurd h (by decide), fun _ => by constructor <;> linarith⟩
      · have := (hng hm).1 rfl
        exact ⟨fun h => absurd h (by decide), fun _ => by constructor <;> linarith⟩
    · refine ⟨A + M, by simp, by push_cast; ring, fun hm => ?_, fun hm => ?_⟩
      · have := (hp hm).2 rfl
        exact ⟨fun _ => by constructor <;> linarith, fun h => absurd h (by decide)⟩
      · have := (hng hm).2 rfl
        exact ⟨fun _ => by constructor <;> linarith, fun h => absurd h (by decide)⟩
    · refine ⟨A, by simp, by simp, fun hm => ?_, fun hm => ?_⟩
      · have := (hp hm).2 rfl
        exact ⟨fun h => absurd h (by decide), fun _ => this⟩
      · have := (hng hm).2 rfl
        exact ⟨fun h => absurd h (by decide), fun _ => this⟩
  have hXr : -2 ^ (n - 1) ≤ X ∧ X < 2 ^ (n - 1) := by
    have hpos : (0 : Int) < 2 ^ (n - 1) := by positivity
    by_cases hm : 0 ≤ M
    · rcases hq with h2 | h2
      · have := (hXp hm).1 h2; constructor <;> linarith
      · have := (hXp hm).2 h2; constructor <;> linarith
    · have hm : M < 0 := by omega
      rcases hq with h2 | h2
      · have := (hXn hm).1 h2; constructor <;> linarith
      · have := (hXn hm).2 h2; constructor <;> linarith
  obtain ⟨r1, r2⟩ := sra_rep n hn X hXr.1 hXr.2
  have hqv : ((s.q % 2 : Nat) : Int) = s.q % 2 := by push_cast; rfl
  refine ⟨X / 2, sum n s % 2 * 2 ^ i + P, ?_⟩
  rw [e]
  constructor
  · show sra n (sum n s) = _
    rw [hX, r1]
  · exact h.m
  · show sum n s % 2 * 2 ^ (n - 1) + s.q / 2 = _
    obtain ⟨k, hk⟩ : ∃ k, n = k + i + 1 := ⟨n - i - 1, by omega⟩
    have e1 : n - i = k + 1 := by omega
    have e2 : n - (i + 1) = k := by omega
    have e3 : n - 1 = k + i := by omega
    have hdiv : s.q / 2 = P * 2 ^ k + Q / 2 ^ (i + 1) := by
      rw [h.q, e1, pow_succ, pow_succ, ← Nat.div_div_eq_div_mul, show P * (2 ^ k * 2) + Q / 2 ^ i = Q / 2 ^ i + 2 * (P * 2 ^ k) by ring,
        Nat.add_mul_div_left _ _ (by decide : 0 < 2)]
      ring
    rw [hdiv, e2, e3, pow_add]
    ring
  · have := h.p
    have h2 : sum n s % 2 * 2 ^ i ≤ 2 ^ i := by
      have : sum n s % 2 ≤ 1 := by omega
      calc _ ≤ 1 * 2 ^ i := Nat.mul_le_mul_right _ this
        _ = _ := Nat.one_mul _
    rw [pow_succ]
    omega
  · show s.q % 2 = _
    rw [hqb]
    simp
  · intro hm
    refine ⟨fun (h2 : s.q % 2 = 0) => ?_, fun (h2 : s.q % 2 = 1) => ?_⟩
    · have := (hXp hm).1 h2; omega
    · have := (hXp hm).2 h2; omega
  · intro hm
    refine ⟨fun (h2 : s.q % 2 = 0) => ?_, fun (h2 : s.q % 2 = 1) => ?_⟩
    · have := (hXn hm).1 h2; omega
    · have := (hXn hm).2 h2; omega
  · show X / 2 * 2 ^ (i + 1) + ((sum n s % 2 * 2 ^ i + P : Nat) : Int) = M * ((Q % 2 ^ (i + 1) : Nat) - ((s.q % 2 : Nat) : Int) * 2 ^ (i + 1))
    have hv := h.val
    have hmod : ((Q % 2 ^ (i + 1) : Nat) : Int) = (Q % 2 ^ i : Nat) + ((s.q % 2 : Nat) : Int) * 2 ^ i := by
      rw [hqb]
      have : Q % 2 ^ (i + 1) = Q % 2 ^ i + (Q / 2 ^ i % 2) * 2 ^ i := by
        rw [pow_succ, Nat.mod_mul]; ring
      rw [this]
      push_cast
      ring
    have hpar : ((sum n s % 2 : Nat) : Int) = X % 2 := by rw [hX]; exact r2
    have h2 : X / 2 * 2 + X % 2 = X := by omega
    rw [hmod]
    generalize ((s.q % 2 : Nat) : Int) = b at *
    generalize ((Q % 2 ^ i : Nat) : Int) = Qi at *
    push_cast at hpar ⊢
    rw [hpar]
    have : X / 2 * 2 ^ (i + 1) + (X % 2 * 2 ^ i + (P : Int)) = (X / 2 * 2 + X % 2) * 2 ^ i + P := by rw [pow_succ]; ring
    rw [this, h2, hXv, pow_succ]
    calc (A + M * ((s.q1 : Int) - b)) * 2 ^ i + (P : Int) = (A * 2 ^ i + P) + M * ((s.q1 : Int) - b) * 2 ^ i := by ring
      _ = _ := by rw [hv]; ring

theorem step_done (n : Nat) (M : Int) (Q : Nat) (hn : 1 ≤ n) (hQ : Q < 2 ^ n) (s : St) (A : Int) (P : Nat) (h : Step n M Q n s A P) :
    s.a * 2 ^ n + s.q = rep (2 * n) (M * sgn n Q) := by
  have hq : s.q = P := by
    rw [h.q, Nat.sub_self, pow_zero, Nat.mul_one, Nat.div_eq_of_lt hQ, Nat.add_zero]
  have hp := h.p
  have ha : s.a < 2 ^ n := by rw [h.a]; exact rep_lt n A
  have hs : ((Q % 2 ^ n : Nat) : Int) - s.q1 * 2 ^ n = sgn n Q := by
    rw [h.q1, if_neg (by omega), Nat.mod_eq_of_lt hQ]
    unfold sgn
    have hpN := two_pow_splitN n hn
    by_cases hl : Q < 2 ^ (n - 1)
    · rw [if_pos hl, Nat.div_eq_of_lt hl]; simp
    · rw [if_neg hl]
      have : Q / 2 ^ (n - 1) = 1 := by
        apply Nat.div_eq_of_lt_le <;> omega
      rw [this]
      push_cast
      ring
  have hv := h.val
  rw [hs] at hv
  have hdiv : (s.a : Int) = A - A / 2 ^ n * 2 ^ n := by
    rw [h.a, rep_cast]
    have := Int.mul_ediv_add_emod A (2 ^ n)
    linarith
  refine rep_unique (2 * n) _ _ ?_ (-(A / 2 ^ n)) ?_
  · rw [show 2 * n = n + n by ring, pow_add, hq]
    have : s.a * 2 ^ n + 2 ^ n ≤ 2 ^ n * 2 ^ n := by
      have := Nat.mul_le_mul_right (2 ^ n) (show s.a + 1 ≤ 2 ^ n by omega)
      linarith
    omega
  · push_cast
    rw [hq, ← hv, show 2 * n = n + n by ring, pow_add]
    calc (s.a : Int) * 2 ^ n + P = (A - A / 2 ^ n * 2 ^ n) * 2 ^ n + P := by rw [hdiv]
      _ = _ := by ring

/-! ## Executions -/

/-- a valid input has operands of `n` bits and the first one is not the least number -/
def Dom (n : Nat) (x : In) : Prop := x.vld = true → x.a < 2 ^ n ∧ x.b < 2 ^ n ∧ x.a ≠ 2 ^ (n - 1)

structure Inv (n : Nat) (tr : List (In × Out)) (s : St) : Prop where
  idle : s.wait = false → s.counter = 0 ∧ delivered tr = (accepted tr).map (product n)
  busy : s.wait = true → ∃ d u v A P, accepted tr = d ++ [(u, v)] ∧ delivered tr = d.map (product n) ∧ u < 2 ^ n ∧ v < 2 ^ n ∧ u ≠ 2 ^ (n - 1) ∧
    s.counter ≤ n ∧ Step n (sgn n u) v (n - s.counter) s A P

theorem sgn_range (n u : Nat) (hn : 1 ≤ n) (hu : u < 2 ^ n) (hm : u ≠ 2 ^ (n - 1)) : -2 ^ (n - 1) < sgn n u ∧ sgn n u < 2 ^ (n - 1) := by
  have hp := two_pow_split n hn
  have hpN := two_pow_splitN n hn
  have hc : ((2 ^ (n - 1) : Nat) : Int) = 2 ^ (n - 1) := by push_cast; rfl
  have hpos : (0 : Int) < 2 ^ (n - 1) := by positivity
  unfold sgn
  rw [hp, ← hc] at *
  split <;> omega

theorem inv_step (n : Nat) (hn : 1 ≤ n) (tr : List (In × Out)) (s : St) (x : In) (hx : Dom n x) (h : Inv n tr s) :
    Inv n (tr ++ [(x, out n s x)]) (next n s x) := by
  have eA : accepted (tr ++ [(x, out n s x)]) = accepted tr ++ given (x.vld && (done s && !s.wait)) (x.a, x.b) := by simp [accepted, out]
  have eD : delivered (tr ++ [(x, out n s x)]) = delivered tr ++ given ((done s && s.wait) && x.rd) (s.a * 2 ^ n + s.q) := by simp [delivered, out]
  generalize tr ++ [(x, out n s x)] = tr' at *
  by_cases hw : s.wait = true
  · obtain ⟨d, u, v, A, P, h1, h2, h3, h4, h5, h6, hS⟩ := h.busy hw
    have ha : accepted tr' = d ++ [(u, v)] := by rw [eA, hw, h1]; simp
    have hst : start s x = false := by simp [start, hw]
    by_cases hc : s.counter = 0
    · have hdn : done s = true := by simp [done, hc]
      have en : next n s x = { s with wait := if x.rd then false else true } := by simp [next, hst, hdn, hw]
      rw [hc, Nat.sub_zero] at hS
      have hres := step_done n _ v hn h4 s A P hS
      cases hr : x.rd
      · rw [en, hr]
        simp only [Bool.false_eq_true, if_false]
        refine ⟨fun h => absurd h (by simp), fun _ => ⟨d, u, v, A, P, ha, by rw [eD, hr, h2]; simp, h3, h4, h5, by simp [hc], ?_⟩⟩
        simp only [hc, Nat.sub_zero]
        exact ⟨hS.a, hS.m, hS.q, hS.p, hS.q1, hS.pos, hS.neg, hS.val⟩
      · rw [en, hr]
        simp only [if_true]
        refine ⟨fun _ => ⟨hc, ?_⟩, fun h => absurd h (by simp)⟩
        rw [eD, ha, h2, hdn, hw, hr, hres]
        simp [product]
    · have hdn : done s = false := by simp [done, hc]
      have ew : (next n s x).wait = true := by simp [next, hst, hdn, hw]
      have ec : (next n s x).counter = s.counter - 1 := by simp [next, hst, hdn]
      obtain ⟨r1, r2⟩ := sgn_range n u hn h3 h5
      obtain ⟨A', P', hS'⟩ := step_next n _ r1 r2 v (n - s.counter) (by omega) s A P hS x hc
      refine ⟨fun h => by rw [ew] at h; exact absurd h (by decide), fun _ => ⟨d, u, v, A', P', ha, by rw [eD, hdn, h2]; simp, h3, h4, h5, by omega, ?_⟩⟩
      rw [ec, show n - (s.counter - 1) = n - s.counter + 1 by omega]
      exact hS'
  · have hw : s.wait = false := by simpa using hw
    obtain ⟨hc, h1⟩ := h.idle hw
    have hdn : done s = true := by simp [done, hc]
    have hd : delivered tr' = delivered tr := by rw [eD, hw]; simp
    cases hv : x.vld
    · have en : next n s x = s := by
        have : start s x = false := by simp [start, hv]
        simp [next, this, hdn, hw]
        cases s; simp_all
      rw [en]
      refine ⟨fun _ => ⟨hc, by rw [hd, eA, hv, h1]; simp⟩, fun h => by rw [hw] at h; exact absurd h (by decide)⟩
    · have hst : start s x = true := by simp [start, hv, hdn, hw]
      have en : next n s x = ⟨0, x.a, x.b, 0, n, true⟩ := by simp [next, hst]
      obtain ⟨d1, d2, d3⟩ := hx hv
      rw [en]
      refine ⟨fun h => absurd h (by simp), fun _ => ⟨accepted tr, x.a, x.b, 0, 0, by rw [eA, hv, hdn, hw]; rfl, by rw [hd, h1], d1, d2, d3, Nat.le_refl _, ?_⟩⟩
      simp only [Nat.sub_self]
      constructor
      · simp [rep]
      · exact (rep_sgn n x.a d1).symm
      · simp
      · simp
      · simp
      · intro hm; exact ⟨fun _ => ⟨le_refl _, hm⟩, fun h => absurd h (by simp)⟩
      · intro hm; exact ⟨fun _ => ⟨hm.le, le_refl _⟩, fun h => absurd h (by simp)⟩
      · simp [Nat.mod_one]

theorem inv (n : Nat) (hn : 1 ≤ n) (s : St) (hs : IsInit s) (is : List In) (hx : ∀ x ∈ is, Dom n x) :
    Inv n ((machine n).trace s is) ((machine n).final s is) := by
  induction is using List.reverseRecOn with
  | nil => exact ⟨fun _ => ⟨hs.1, rfl⟩, fun h => by rw [show (machine n).final s [] = s from rfl, hs.2] at h; exact absurd h (by decide)⟩
  | append_singleton is x ih =>
    rw [Machine.trace_snoc, Machine.final_append]
    exact inv_step n hn _ _ x (hx x (by simp)) (ih fun y hy => hx y (List.mem_append_left _ hy))

/-! ## C162: product -/

/-- full property: the results are the signed products of the operands, in order, for all operands of `n` bits -/
def Multiplies (n : Nat) : Prop := ∀ s, IsInit s → ∀ is, (∀ x ∈ is, x.a < 2 ^ n ∧ x.b < 2 ^ n) →
  delivered ((machine n).trace s is) <+: (accepted ((machine n).trace s is)).map (product n)

def zero : St := ⟨0, 0, 0, 0, 0, false⟩
def idle : In := ⟨false, 0, 0, true⟩

/-- **C162** (the full property fails) The least number is in the documented domain, but its negation does not fit in the register `a`:
`(-8) * 1 = 8` on 4 bits. -/
theorem booth_min_fails : ¬ Multiplies 4 := fun h =>
  absurd (h zero ⟨rfl, rfl⟩ [⟨true, 8, 1, true⟩, idle, idle, idle, idle, idle] (by decide)) (by decide)

/-- **C162** If the first operand is not the least number the results are the signed products, in order. -/
theorem booth_multiplies_partial (n : Nat) (hn : 1 ≤ n) (s : St) (hs : IsInit s) (is : List In) (hx : ∀ x ∈ is, Dom n x) :
    delivered ((machine n).trace s is) <+: (accepted ((machine n).trace s is)).map (product n) := by
  have h := inv n hn s hs is hx
  cases hw : ((machine n).final s is).wait
  · rw [(h.idle hw).2]; exact List.prefix_rfl
  · obtain ⟨d, u, v, A, P, h1, h2, _⟩ := h.busy hw
    rw [h1, h2, List.map_append]
    exact List.prefix_append ..

/-! ## C163: latency -/

/-- **C163** The result is offered exactly after `n` cycles: not before, whatever happens meanwhile. -/
theorem booth_latency (n : Nat) (s : St) (is : List In) (x : In) (h : x.vld = true) (hr : ((machine n).outAfter s is x).rd = true) (js : List In)
    (hj : js.length ≤ n) (y : In) : ((machine n).outAfter s (is ++ x :: js) y).vld = decide (js.length = n) := by
  have e1 : ((machine n).outAfter s is x).rd = (done ((machine n).final s is) && !((machine n).final s is).wait) := rfl
  have e2 : ((machine n).outAfter s (is ++ x :: js) y).vld =
      (done ((machine n).final s (is ++ x :: js)) && ((machine n).final s (is ++ x :: js)).wait) := rfl
  rw [e2, Machine.final_append, Machine.final_cons]
  rw [e1] at hr
  generalize (machine n).final s is = t at *
  have hst : start t x = true := by
    simp only [Bool.and_eq_true] at hr
    simp [start, h, hr.1, hr.2]
  have hn : (machine n).next t x = ⟨0, x.a, x.b, 0, n, true⟩ := by simp [machine, next, hst]
  rw [hn]
  generalize ht : (⟨0, x.a, x.b, 0, n, true⟩ : St) = u
  have hc : u.counter = n := by rw [← ht]
  have hw : u.wait = true := by rw [← ht]
  clear ht hn
  have key : ∀ (js : List In) (u : St), js.length ≤ u.counter → u.wait = true →
      ((machine n).final u js).counter = u.counter - js.length ∧ ((machine n).final u js).wait = true := by
    intro js
    induction js with
    | nil => intro u _ hw; exact ⟨rfl, hw⟩
    | cons z js ih =>
      intro u hl hw
      rw [Machine.final_cons]
      simp only [List.length_cons] at hl
      have hd : done u = false := by simp [done]; omega
      have ec : ((machine n).next u z).counter = u.counter - 1 := by simp [machine, next, start, hd]
      have ew : ((machine n).next u z).wait = true := by simp [machine, next, start, hd, hw]
      obtain ⟨a, b⟩ := ih _ (by rw [ec]; omega) ew
      refine ⟨?_, b⟩
      rw [a, ec]
      simp only [List.length_cons]
      omega
  obtain ⟨a, b⟩ := key js u (by omega) hw
  rw [b, Bool.and_true]
  unfold done
  rw [a, hc]
  by_cases hl : js.length = n
  · simp [hl]
  · simp [hl]; omega

/-- `(-3) * 5 = -15` -/
example : delivered ((machine 4).trace zero [⟨true, 13, 5, true⟩, idle, idle, idle, idle, idle]) = [241] := by decide
example : product 4 (13, 5) = 241 := by decide
example : Dom 4 ⟨true, 13, 5, true⟩ := by unfold Dom; decide

end Verif.Booth
