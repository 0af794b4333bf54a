import Verif.BusMap
/-!
# C50, C51, C65: address maps
-/
namespace Verif.BusMap

/-! ## C50 BusStaticRemap -/

/-- Full statement of C50 for one address width: every normalised and constructible map, every address whose
translation exists. -/
def C50 (AW : Nat) : Prop := ∀ (m m' : List Region) (a : Nat), normalize m = some m' → (∀ r ∈ m', r.elab AW = true) →
  (∀ r ∈ m', r.out + r.size ≤ 2 ^ AW) → a < 2 ^ AW → (transSig AW m' a : Int) = transVal m' a

/-- **C50** violated: region 0x0-0x3 remapped to 0x4 is sent to 0x10 (the target offset is used as a prefix without being
shifted). -/
theorem remap_violated : ¬ C50 8 := by
  intro h
  have := h [⟨0, 4, 4⟩] [⟨0, 4, 4⟩] 1 (by decide) (by decide) (by decide) (by decide)
  revert this
  decide

theorem L_size {r : Region} (h : isPow2 r.size = true) : 2 ^ r.L = r.size := by
  have : r.size = 2 ^ bitLength (r.size - 1) := by simpa [isPow2] using h
  exact this.symm

/-- the select signal of each region is exact -/
theorem en_exact (r : Region) (hs : 0 < r.size) (a : Nat) : r.en a = r.has a := by
  unfold Region.en
  split
  · next h =>
    unfold Region.inAligned at h
    rw [Bool.and_eq_true] at h
    have hm : r.inn % r.size = 0 := by simpa using h.1
    rw [L_size h.2]
    obtain ⟨k, hk⟩ : ∃ k, r.inn = r.size * k := ⟨r.inn / r.size, by
      have := Nat.div_add_mod r.inn r.size; omega⟩
    rw [hk, Nat.mul_div_cancel_left _ hs]
    unfold Region.has
    rw [hk]
    rw [Bool.eq_iff_iff]
    simp only [beq_iff_eq, Bool.and_eq_true, decide_eq_true_eq]
    have hd := Nat.div_add_mod a r.size
    have hlt := Nat.mod_lt a hs
    constructor
    · intro e
      rw [e] at hd
      omega
    · intro ⟨h1, h2⟩
      apply Nat.div_eq_of_lt_le
      · rw [Nat.mul_comm]; exact h1
      · rw [Nat.mul_comm, Nat.mul_add, Nat.mul_one]; exact h2
  · rfl

/-- **C50** what holds: the hardware agrees with the reference unless a region is aligned on both sides and moved to a
non-zero offset. -/
theorem remap_partial (AW : Nat) (a : Nat) (ha : a < 2 ^ AW) : ∀ (m : List Region),
    (∀ r ∈ m, 0 < r.size ∧ r.out + r.size ≤ 2 ^ AW) →
    (∀ r ∈ m, r.inAligned = true → r.outAligned = true → r.out = 0) →
    (transSig AW m a : Int) = transVal m a := by
  intro m
  induction m with
  | nil => intro _ _; rfl
  | cons r rs ih =>
    intro hm hx
    obtain ⟨hs, hfit⟩ := hm r List.mem_cons_self
    unfold transSig transVal
    rw [en_exact r hs a]
    cases hh : r.has a with
    | false =>
      simp only [Bool.false_eq_true, if_false]
      exact ih (fun r hr => hm r (List.mem_cons_of_mem _ hr)) (fun r hr => hx r (List.mem_cons_of_mem _ hr))
    | true =>
      simp only [if_true]
      have hin : r.inn ≤ a ∧ a < r.inn + r.size := by
        unfold Region.has at hh
        simpa using hh
      unfold Region.drive
      split
      · next h =>
        have h' := h
        unfold Region.inAligned at h'
        rw [Bool.and_eq_true] at h'
        have hmz : r.inn % r.size = 0 := by simpa using h'.1
        have hmod : a % r.size = a - r.inn := by
          have e : a = (a - r.inn) + r.size * (r.inn / r.size) := by
            have := Nat.div_add_mod r.inn r.size; omega
          have : a % r.size = (a - r.inn) % r.size := by
            conv => lhs; rw [e]
            rw [Nat.add_mul_mod_self_left]
          rw [this, Nat.mod_eq_of_lt (by omega)]
        rw [L_size h'.2, hmod]
        split
        · next ho =>
          have h0 := hx r List.mem_cons_self h ho
          rw [h0]
          omega
        · rw [Nat.mod_eq_of_lt (by omega)]
          omega
      · split
        · next he =>
          have : r.inn = r.out := by simpa using he
          omega
        · split
          · rw [Nat.mod_eq_of_lt (by omega)]
            omega
          · rw [show a + 2 ^ AW - (r.inn - r.out) = (a - (r.inn - r.out)) + 2 ^ AW by omega, Nat.add_mod_right,
              Nat.mod_eq_of_lt (by omega)]
            omega

theorem checkSorted_spec : ∀ (m : List Region) (last : Nat), checkSorted last m = true →
    (∀ r ∈ m, 0 < r.size ∧ last ≤ r.inn) ∧ m.Pairwise fun a b => a.inn + a.size ≤ b.inn := by
  intro m
  induction m with
  | nil => intro last _; exact ⟨by simp, List.Pairwise.nil⟩
  | cons r rs ih =>
    intro last h
    unfold checkSorted at h
    simp only [Bool.and_eq_true, decide_eq_true_eq] at h
    obtain ⟨h1, h2⟩ := ih _ h.2
    refine ⟨?_, List.Pairwise.cons (fun b hb => (h1 b hb).2) h2⟩
    intro x hx
    rcases List.mem_cons.1 hx with rfl | hx
    · exact h.1
    · have := h1 x hx
      refine ⟨this.1, ?_⟩
      omega

/-- **C50** A normalised map has the regions of the given one, and no address is in two of them. -/
theorem normalize_disjoint (m m' : List Region) (h : normalize m = some m') :
    m'.Perm m ∧ m'.Pairwise fun a b => ∀ x, ¬ (a.has x = true ∧ b.has x = true) := by
  unfold normalize at h
  simp only at h
  split at h
  · next hc =>
    cases h
    rw [Bool.and_eq_true] at hc
    refine ⟨sortBy_perm _ _, ?_⟩
    refine (checkSorted_spec _ _ hc.2).2.imp ?_
    intro a b hab x ⟨h1, h2⟩
    unfold Region.has at h1 h2
    simp at h1 h2
    omega
  · cases h

/-- **C50** for maps from `normalize`, in terms of its input only -/
theorem remap_normalized_partial (AW : Nat) (m m' : List Region) (h : normalize m = some m') (a : Nat) (ha : a < 2 ^ AW)
    (hfit : ∀ r ∈ m, r.out + r.size ≤ 2 ^ AW)
    (hx : ∀ r ∈ m, r.inAligned = true → r.outAligned = true → r.out = 0) :
    (transSig AW m' a : Int) = transVal m' a := by
  have hp := (normalize_disjoint m m' h).1
  have hsz : ∀ r ∈ m', 0 < r.size := by
    unfold normalize at h
    simp only at h
    split at h
    · next hc =>
      cases h
      rw [Bool.and_eq_true] at hc
      exact fun r hr => ((checkSorted_spec _ _ hc.2).1 r hr).1
    · cases h
  exact remap_partial AW a ha m' (fun r hr => ⟨hsz r hr, hfit r (hp.mem_iff.1 hr)⟩)
    (fun r hr => hx r (hp.mem_iff.1 hr))

-- non-vacuity: two regions, one not aligned
example : normalize [⟨0x40, 0x30, 0x10⟩, ⟨0x10, 0x10, 0x91⟩] = some [⟨0x10, 0x10, 0x91⟩, ⟨0x40, 0x30, 0x10⟩] := by
  decide
example : ∀ r ∈ [Region.mk 0x40 0x30 0x10, ⟨0x10, 0x10, 0x91⟩],
    r.out + r.size ≤ 2 ^ 8 ∧ (r.inAligned = true → r.outAligned = true → r.out = 0) ∧ r.elab 8 = true := by decide
example : transSig 8 [⟨0x10, 0x10, 0x91⟩, ⟨0x40, 0x30, 0x10⟩] 0x12 = 0x93 := by decide

/-! ## C51 interconnect address allocation -/

/-- regions share an address -/
def overlap (a b : Nat × Nat) : Prop := ∃ x, a.1 ≤ x ∧ x < a.1 + a.2 ∧ b.1 ≤ x ∧ x < b.1 + b.2

theorem place_spec {maxAddr : Nat} {s : Slave} {a sz : Nat} (h : place maxAddr s = .ok (a, sz)) :
    sz = s.size ∧ isPow2 sz = true ∧ a % sz = 0 ∧
      (s.addr = none → maxAddr ≤ a ∧ a < maxAddr + sz) ∧ ∀ x, s.addr = some x → a = x := by
  unfold place at h
  split at h
  · cases h
  · next hp =>
    have hp : isPow2 s.size = true := by simpa using hp
    have hpos := isPow2_pos hp
    cases ha : s.addr with
    | none =>
      rw [ha] at h
      simp only [Except.ok.injEq, Prod.mk.injEq] at h
      obtain ⟨h1, h2⟩ := h
      subst h2
      refine ⟨rfl, hp, ?_, fun _ => ?_, by simp⟩
      · rw [← h1]
        split
        · next h => simpa using h
        · exact Nat.mul_mod_left _ _
      · have hd := Nat.div_add_mod maxAddr s.size
        have hl := Nat.mod_lt maxAddr hpos
        rw [← h1]
        split
        · exact ⟨Nat.le_refl _, by omega⟩
        · next h =>
          have : maxAddr % s.size ≠ 0 := by simpa using h
          rw [Nat.add_mul, Nat.one_mul, Nat.mul_comm]
          omega
    | some x =>
      rw [ha] at h
      simp only at h
      split at h
      · next hal =>
        simp only [Except.ok.injEq, Prod.mk.injEq] at h
        obtain ⟨h1, h2⟩ := h
        subst h1 h2
        refine ⟨rfl, hp, by simpa using hal, by simp, ?_⟩
        intro y hy
        simpa using hy
      · cases h

theorem placeAll_spec : ∀ (ss : List Slave) (maxAddr : Nat) (r : List (Nat × Nat)), placeAll maxAddr ss = .ok r →
    r.length = ss.length ∧ (∀ p ∈ r, isPow2 p.2 = true ∧ p.1 % p.2 = 0) ∧
    ∀ (k : Nat) (s : Slave) (p : Nat × Nat), ss[k]? = some s → r[k]? = some p →
      p.2 = s.size ∧ (∀ x, s.addr = some x → p.1 = x) ∧
      (s.addr = none → maxAddr ≤ p.1 ∧ ∀ (j : Nat) (q : Nat × Nat), j < k → r[j]? = some q → q.1 + q.2 ≤ p.1) := by
  intro ss
  induction ss with
  | nil =>
    intro maxAddr r h
    unfold placeAll at h
    cases h
    exact ⟨rfl, by simp, by simp⟩
  | cons s ss ih =>
    intro maxAddr r h
    unfold placeAll at h
    cases hp : place maxAddr s with
    | error e => rw [hp] at h; cases h
    | ok p =>
      obtain ⟨a, sz⟩ := p
      rw [hp] at h
      simp only at h
      cases hq : placeAll (max maxAddr (a + sz)) ss with
      | error e => rw [hq] at h; cases h
      | ok r' =>
        rw [hq] at h
        cases h
        obtain ⟨i1, i2, i3⟩ := ih _ _ hq
        obtain ⟨p1, p2, p3, p4, p5⟩ := place_spec hp
        refine ⟨by simp [i1], ?_, ?_⟩
        · intro x hx
          rcases List.mem_cons.1 hx with rfl | hx
          · exact ⟨p2, p3⟩
          · exact i2 x hx
        · intro k t q hk1 hk2
          cases k with
          | zero =>
            simp only [List.getElem?_cons_zero, Option.some.injEq] at hk1 hk2
            subst hk1 hk2
            exact ⟨p1, p5, fun hn => ⟨(p4 hn).1, fun j _ hj => by omega⟩⟩
          | succ k =>
            simp only [List.getElem?_cons_succ] at hk1 hk2
            obtain ⟨j1, j2, j3⟩ := i3 k t q hk1 hk2
            refine ⟨j1, j2, fun hn => ?_⟩
            obtain ⟨j4, j5⟩ := j3 hn
            refine ⟨by omega, ?_⟩
            intro j u hj hu
            cases j with
            | zero =>
              simp only [List.getElem?_cons_zero, Option.some.injEq] at hu
              subst hu
              show a + sz ≤ _
              omega
            | succ j =>
              simp only [List.getElem?_cons_succ] at hu
              exact j5 j u (by omega) hu

theorem noCollision_spec : ∀ (l : List (Nat × Nat)) (e : Nat), (∀ p ∈ l, 0 < p.2) → l.Pairwise (fun a b => a.1 ≤ b.1) →
    (noCollision e l = true ↔ (∀ p ∈ l, e ≤ p.1) ∧ l.Pairwise fun a b => ¬ overlap a b) := by
  intro l
  induction l with
  | nil => intro e _ _; simp [noCollision]
  | cons p l ih =>
    intro e hpos hs
    obtain ⟨a, sz⟩ := p
    have hsz : 0 < sz := hpos (a, sz) List.mem_cons_self
    obtain ⟨hs1, hs2⟩ := List.pairwise_cons.1 hs
    unfold noCollision
    rw [Bool.and_eq_true, ih _ (fun p hp => hpos p (List.mem_cons_of_mem _ hp)) hs2, decide_eq_true_eq]
    constructor
    · rintro ⟨h1, h2, h3⟩
      refine ⟨?_, List.Pairwise.cons ?_ h3⟩
      · intro q hq
        rcases List.mem_cons.1 hq with rfl | hq
        · exact h1
        · have := h2 q hq; omega
      · intro q hq
        have := h2 q hq
        rintro ⟨x, h4, h5, h6, h7⟩
        simp only at h4 h5
        omega
    · rintro ⟨h1, h2⟩
      obtain ⟨h3, h4⟩ := List.pairwise_cons.1 h2
      refine ⟨h1 (a, sz) List.mem_cons_self, ?_, h4⟩
      intro q hq
      apply Classical.byContradiction
      intro hlt
      have hq2 := hpos q (List.mem_cons_of_mem _ hq)
      have hle := hs1 q hq
      simp only at hle
      exact h3 q hq ⟨q.1, by simpa using hle, by simp; omega, Nat.le_refl _, by omega⟩

theorem overlap_symm {a b : Nat × Nat} (h : overlap a b) : overlap b a := by
  obtain ⟨x, h1, h2, h3, h4⟩ := h
  exact ⟨x, h3, h4, h1, h2⟩

/-- **C51** Accepted lists: power of two sizes, aligned, pairwise disjoint, explicit addresses kept, order kept, and an
automatic region starts behind all regions listed before it. -/
theorem slaves_normalized (ss : List Slave) (r : List (Nat × Nat)) (h : normalizeSlaves ss = .ok r) :
    r.length = ss.length ∧
    (∀ p ∈ r, (∃ e, p.2 = 2 ^ e) ∧ p.1 % p.2 = 0) ∧
    (r.Pairwise fun a b => ¬ overlap a b) ∧
    ∀ (k : Nat) (s : Slave) (p : Nat × Nat), ss[k]? = some s → r[k]? = some p → p.2 = s.size ∧ (∀ x, s.addr = some x → p.1 = x) ∧
      (s.addr = none → ∀ (j : Nat) (q : Nat × Nat), j < k → r[j]? = some q → q.1 + q.2 ≤ p.1) := by
  unfold normalizeSlaves at h
  cases hp : placeAll 0 ss with
  | error e => rw [hp] at h; cases h
  | ok r' =>
    rw [hp] at h
    simp only at h
    split at h
    · next hc =>
      cases h
      obtain ⟨h1, h2, h3⟩ := placeAll_spec ss 0 r hp
      refine ⟨h1, ?_, ?_, ?_⟩
      · intro p hpm
        obtain ⟨h4, h5⟩ := h2 p hpm
        exact ⟨⟨_, by simpa [isPow2] using h4⟩, h5⟩
      · have hperm := sortBy_perm Prod.fst r
        have hsort : (sortBy Prod.fst r).Pairwise fun a b => a.1 ≤ b.1 := sortBy_sorted Prod.fst r
        have := ((noCollision_spec _ 0 (fun p hp' => isPow2_pos (h2 p (hperm.mem_iff.1 hp')).1) hsort).1 hc).2
        exact this.perm hperm (fun h hx => h (overlap_symm hx))
      · intro k s p hk1 hk2
        obtain ⟨j1, j2, j3⟩ := h3 k s p hk1 hk2
        exact ⟨j1, j2, fun hn => (j3 hn).2⟩
    · cases h

/-- **C51** A collision is reported only if two of the placed regions overlap. -/
theorem slaves_collision (ss : List Slave) (r : List (Nat × Nat)) (hp : placeAll 0 ss = .ok r) :
    normalizeSlaves ss = .error .collision ↔ ¬ r.Pairwise fun a b => ¬ overlap a b := by
  obtain ⟨h1, h2, h3⟩ := placeAll_spec ss 0 r hp
  have hperm := sortBy_perm Prod.fst r
  have hsort : (sortBy Prod.fst r).Pairwise fun a b => a.1 ≤ b.1 := sortBy_sorted Prod.fst r
  have key := noCollision_spec _ 0 (fun p hp' => isPow2_pos (h2 p (hperm.mem_iff.1 hp')).1) hsort
  have hpw : ((sortBy Prod.fst r).Pairwise fun a b => ¬ overlap a b) ↔
      r.Pairwise fun a b => ¬ overlap a b :=
    ⟨fun h => h.perm hperm (fun h hx => h (overlap_symm hx)),
     fun h => h.perm hperm.symm (fun h hx => h (overlap_symm hx))⟩
  unfold normalizeSlaves
  rw [hp]
  simp only
  split
  · next hc =>
    constructor
    · intro h; cases h
    · intro h; exact absurd (hpw.1 (key.1 hc).2) h
  · next hc =>
    constructor
    · intro _ h
      exact hc (key.2 ⟨by simp, hpw.2 h⟩)
    · intro _; rfl

-- non-vacuity
example : normalizeSlaves [⟨some 0x1000, 0x1000⟩, ⟨none, 0x100⟩, ⟨none, 0x1000⟩, ⟨some 0, 0x10⟩]
    = .ok [(0x1000, 0x1000), (0x2000, 0x100), (0x3000, 0x1000), (0, 0x10)] := by decide
example : placeAll 0 [⟨none, 0x10⟩, ⟨some 0, 0x10⟩] = .ok [(0, 0x10), (0, 0x10)] := by decide

/-! ## C65 address width of the interconnect -/

/-- Full statement of C65: the width is sufficient for the address of each word of each slave. -/
def C65 : Prop := ∀ (B : Nat) (ss : List Slave) (r : List (Nat × Nat)) (w : Nat), 0 < B →
  normalizeSlaves ss = .ok r → optimalAddrSize B r = some w →
  ∀ p ∈ r, ∀ x, p.1 ≤ x → x + B ≤ p.1 + p.2 → x < 2 ^ w

/-- **C65** violated by the order of slaves: the width is computed from the last listed slave, not the highest one. -/
theorem optimal_addr_order_violated : ¬ C65 := by
  intro h
  have := h 4 [⟨some 0x1000, 0x1000⟩, ⟨some 0, 0x10⟩] [(0x1000, 0x1000), (0, 0x10)] 4 (by decide)
    (by decide) (by decide) (0x1000, 0x1000) (by decide) 0x1000 (by decide) (by decide)
  revert this
  decide

/-- **C65** violated even for one slave: two words of 4 bytes get a 2 bit byte address. -/
theorem optimal_addr_single_violated : ∃ r w, normalizeSlaves [⟨some 0, 8⟩] = .ok r ∧ optimalAddrSize 4 r = some w ∧
    ¬ ∀ p ∈ r, ∀ x, p.1 ≤ x → x + 4 ≤ p.1 + p.2 → x < 2 ^ w := by
  refine ⟨[(0, 8)], 2, by decide, by decide, ?_⟩
  intro h
  have := h (0, 8) (by decide) 4 (by decide) (by decide)
  omega

/-- **C65** what holds: slaves listed by ascending address, and the address of the last word is not a power of two. -/
theorem optimal_addr_partial (B : Nat) (r : List (Nat × Nat)) (w : Nat) (hw : optimalAddrSize B r = some w)
    (hasc : ∀ p ∈ r, ∀ q, r.getLast? = some q → p.1 + p.2 ≤ q.1 + q.2)
    (hnp : ∀ q, r.getLast? = some q → ∀ e, q.1 + q.2 - B ≠ 2 ^ e) :
    ∀ p ∈ r, ∀ x, p.1 ≤ x → x + B ≤ p.1 + p.2 → x < 2 ^ w := by
  unfold optimalAddrSize at hw
  cases hl : r.getLast? with
  | none => rw [hl] at hw; cases hw
  | some q =>
    obtain ⟨a, sz⟩ := q
    rw [hl] at hw
    simp only at hw
    split at hw
    · cases hw
      intro p hp x h1 h2
      have h3 := hasc p hp _ hl
      have h4 := hnp _ hl (log2ceil (a + sz - B))
      have h5 := le_two_pow_log2ceil (a + sz - B)
      simp only at h3 h4
      omega
    · cases hw

example : normalizeSlaves [⟨some 0, 0x10⟩, ⟨some 0x1000, 0x1000⟩] = .ok [(0, 0x10), (0x1000, 0x1000)] ∧
    optimalAddrSize 4 [(0, 0x10), (0x1000, 0x1000)] = some 13 := by decide

end Verif.BusMap
