import Verif.MemSpace
/-!
# Properties C363, C364, C369: memory space of a simulated bus master
-/
namespace Verif.MemSpace

/-! ## C363: address of a register -/

mutual
/-- Where a register is: its first bit and its width, by the layout of the type from the bit `b`. -/
def Ty.place : Ty → Nat → List Step → Option (Nat × Nat)
  | .bits w, b, [] => some (b, w)
  | .struct fs, b, .field k :: p => fs.place b k p
  | .arr t n, b, .item i :: p => if i < n then t.place (b + i * t.size) p else none
  | _, _, _ => none
def Fields.place : Fields → Nat → Nat → List Step → Option (Nat × Nat)
  | .nil, _, _, _ => none
  | .cons true t fs, b, k, p => fs.place (b + t.size) k p
  | .cons false t _, b, 0, p => t.place b p
  | .cons false t fs, b, k + 1, p => fs.place (b + t.size) k p
end

theorem load_bitLength (t : Ty) (b : Nat) : (load t b).bitLength = t.size := by
  cases t <;> simp [load, Tmpl.bitLength, Tmpl.bitAddr, Tmpl.bitAddrEnd, Ty.size]

mutual
theorem lookup_load : ∀ (t : Ty) (b off : Nat) (p : List Step),
    (lookup (load t b) off p).map (fun r => (r.1, r.2.bitLength)) = t.place (b + off) p
  | .bits w, b, off, [] => by simp [load, lookup, Ty.place, Tmpl.bitLength, Tmpl.bitAddr, Tmpl.bitAddrEnd]
  | .bits w, b, off, s :: p => by simp [load, lookup, Ty.place]
  | .struct fs, b, off, [] => by simp [load, lookup, Ty.place]
  | .struct fs, b, off, .item i :: p => by simp [load, lookup, Ty.place]
  | .struct fs, b, off, .field k :: p => by
    have := lookup_fields fs b off k p
    simp only [load, lookup, Ty.place]
    rw [← this]
    cases (loadFields fs b).get? k <;> rfl
  | .arr t n, b, off, [] => by simp [load, lookup, Ty.place]
  | .arr t n, b, off, .field k :: p => by simp [load, lookup, Ty.place]
  | .arr t n, b, off, .item i :: p => by
    simp only [load, lookup, Ty.place]
    by_cases h : i < n
    · rw [if_pos h, if_pos h, lookup_load t 0 _ p, load_bitLength]
      congr 1
      rw [Nat.mul_comm]; omega
    · rw [if_neg h, if_neg h]; rfl
theorem lookup_fields : ∀ (fs : Fields) (b off k : Nat) (p : List Step),
    (match (loadFields fs b).get? k with
      | some c => lookup c off p
      | none => none).map (fun (r : Nat × Tmpl) => (r.1, r.2.bitLength)) = fs.place (b + off) k p
  | .nil, b, off, k, p => by simp [loadFields, Tmpls.get?, Fields.place]
  | .cons true t fs, b, off, k, p => by
    have := lookup_fields fs (b + t.size) off k p
    simp only [loadFields, if_true, Fields.place]
    rw [this]; congr 1; omega
  | .cons false t fs, b, off, 0, p => by
    have := lookup_load t b off p
    simpa [loadFields, Tmpls.get?, Fields.place] using this
  | .cons false t fs, b, off, k + 1, p => by
    have := lookup_fields fs (b + t.size) off k p
    simp only [loadFields, Bool.false_eq_true, if_false, Fields.place, Tmpls.get?]
    rw [this]; congr 1; omega
end

/-- **C363**: the address of each register, at each depth of structures and arrays, is the address of its first bit by the layout of the
register map; it exists for exactly the registers of the map. -/
theorem addr_eq (addrStep : Nat) (t : Ty) (p : List Step) :
    myAddr addrStep t p = (t.place 0 p).map fun r => r.1 / addrStep := by
  have := lookup_load t 0 0 p
  simp only [Nat.add_zero] at this
  rw [← this, myAddr, Option.map_map]
  rfl

/-- An array of structures with a padding and an array behind a register. -/
def exMap : Ty := .struct (.cons false (.bits 32) (.cons false (.arr (.struct
  (.cons false (.bits 32) (.cons true (.bits 64) (.cons false (.arr (.bits 32) 2) .nil)))) 4) .nil))

example : myAddr 8 exMap [.field 1, .item 2, .field 1, .item 1] = some 60 ∧
    (4 + 2 * 20 + 12 + 4 = 60) := by decide +kernel

mutual
/-- registers are inside of the map -/
theorem place_inside : ∀ (t : Ty) (b : Nat) (p : List Step) (r : Nat × Nat), t.place b p = some r →
    b ≤ r.1 ∧ r.1 + r.2 ≤ b + t.size
  | .bits w, b, [], r, h => by simp [Ty.place] at h; subst h; simp [Ty.size]
  | .bits w, b, s :: p, r, h => by simp [Ty.place] at h
  | .struct fs, b, [], r, h => by simp [Ty.place] at h
  | .struct fs, b, .item i :: p, r, h => by simp [Ty.place] at h
  | .struct fs, b, .field k :: p, r, h => by
    simp only [Ty.place] at h
    have := fields_inside fs b k p r h
    simpa [Ty.size] using this
  | .arr t n, b, [], r, h => by simp [Ty.place] at h
  | .arr t n, b, .field k :: p, r, h => by simp [Ty.place] at h
  | .arr t n, b, .item i :: p, r, h => by
    simp only [Ty.place] at h
    by_cases hi : i < n
    · rw [if_pos hi] at h
      have := place_inside t _ p r h
      have h2 : (i + 1) * t.size ≤ n * t.size := Nat.mul_le_mul_right _ hi
      rw [Nat.add_mul, Nat.one_mul] at h2
      simp only [Ty.size]
      rw [Nat.mul_comm t.size n]
      omega
    · rw [if_neg hi] at h; simp at h
theorem fields_inside : ∀ (fs : Fields) (b k : Nat) (p : List Step) (r : Nat × Nat), fs.place b k p = some r →
    b ≤ r.1 ∧ r.1 + r.2 ≤ b + fs.size
  | .nil, b, k, p, r, h => by simp [Fields.place] at h
  | .cons true t fs, b, k, p, r, h => by
    simp only [Fields.place] at h
    have := fields_inside fs _ k p r h
    simp only [Fields.size]; omega
  | .cons false t fs, b, 0, p, r, h => by
    simp only [Fields.place] at h
    have := place_inside t _ p r h
    simp only [Fields.size]; omega
  | .cons false t fs, b, k + 1, p, r, h => by
    simp only [Fields.place] at h
    have := fields_inside fs _ k p r h
    simp only [Fields.size]; omega
end

mutual
/-- registers with different names have no common bit -/
theorem place_disjoint : ∀ (t : Ty) (b : Nat) (p q : List Step) (r s : Nat × Nat), t.place b p = some r → t.place b q = some s →
    p ≠ q → r.1 + r.2 ≤ s.1 ∨ s.1 + s.2 ≤ r.1
  | .bits w, b, p, q, r, s, hp, hq, h => by
    cases p with
    | cons _ _ => simp [Ty.place] at hp
    | nil => cases q with
      | cons _ _ => simp [Ty.place] at hq
      | nil => exact absurd rfl h
  | .struct fs, b, p, q, r, s, hp, hq, h => by
    cases p with
    | nil => simp [Ty.place] at hp
    | cons x p =>
      cases q with
      | nil => simp [Ty.place] at hq
      | cons y q =>
        cases x with
        | item _ => simp [Ty.place] at hp
        | field k =>
          cases y with
          | item _ => simp [Ty.place] at hq
          | field l =>
            simp only [Ty.place] at hp hq
            exact fields_disjoint fs b k l p q r s hp hq (by
              intro hc; apply h; rw [hc.1, hc.2])
  | .arr t n, b, p, q, r, s, hp, hq, h => by
    cases p with
    | nil => simp [Ty.place] at hp
    | cons x p =>
      cases q with
      | nil => simp [Ty.place] at hq
      | cons y q =>
        cases x with
        | field _ => simp [Ty.place] at hp
        | item i =>
          cases y with
          | field _ => simp [Ty.place] at hq
          | item j =>
            simp only [Ty.place] at hp hq
            by_cases hi : i < n
            · by_cases hj : j < n
              · rw [if_pos hi] at hp
                rw [if_pos hj] at hq
                have h1 := place_inside t _ p r hp
                have h2 := place_inside t _ q s hq
                rcases Nat.lt_trichotomy i j with hl | hl | hl
                · left
                  have h3 : (i + 1) * t.size ≤ j * t.size := Nat.mul_le_mul_right _ hl
                  rw [Nat.add_mul, Nat.one_mul] at h3
                  omega
                · subst hl
                  exact place_disjoint t _ p q r s hp hq (by intro hc; apply h; rw [hc])
                · right
                  have h3 : (j + 1) * t.size ≤ i * t.size := Nat.mul_le_mul_right _ hl
                  rw [Nat.add_mul, Nat.one_mul] at h3
                  omega
              · rw [if_neg hj] at hq; simp at hq
            · rw [if_neg hi] at hp; simp at hp
theorem fields_disjoint : ∀ (fs : Fields) (b k l : Nat) (p q : List Step) (r s : Nat × Nat), fs.place b k p = some r →
    fs.place b l q = some s → ¬ (k = l ∧ p = q) → r.1 + r.2 ≤ s.1 ∨ s.1 + s.2 ≤ r.1
  | .nil, b, k, l, p, q, r, s, hp, hq, h => by simp [Fields.place] at hp
  | .cons true t fs, b, k, l, p, q, r, s, hp, hq, h => by
    simp only [Fields.place] at hp hq
    exact fields_disjoint fs _ k l p q r s hp hq h
  | .cons false t fs, b, 0, 0, p, q, r, s, hp, hq, h => by
    simp only [Fields.place] at hp hq
    exact place_disjoint t b p q r s hp hq (by intro hc; exact h ⟨rfl, hc⟩)
  | .cons false t fs, b, 0, l + 1, p, q, r, s, hp, hq, h => by
    simp only [Fields.place] at hp hq
    have h1 := place_inside t _ p r hp
    have h2 := fields_inside fs _ l q s hq
    left; omega
  | .cons false t fs, b, k + 1, 0, p, q, r, s, hp, hq, h => by
    simp only [Fields.place] at hp hq
    have h1 := place_inside t _ q s hq
    have h2 := fields_inside fs _ k p r hp
    right; omega
  | .cons false t fs, b, k + 1, l + 1, p, q, r, s, hp, hq, h => by
    simp only [Fields.place] at hp hq
    exact fields_disjoint fs _ k l p q r s hp hq (by intro hc; apply h; exact ⟨by omega, hc.2⟩)
end

/-- **C363**: registers with different names which start and end on multiples of `ADDR_STEP` have different addresses. -/
theorem addr_inj (addrStep : Nat) (t : Ty) (p q : List Step) (r s : Nat × Nat) (a : Nat)
    (hp : t.place 0 p = some r) (hq : t.place 0 q = some s) (hr : r.1 % addrStep = 0) (hs' : s.1 % addrStep = 0)
    (hr0 : 0 < r.2) (hs0 : 0 < s.2) (ha : myAddr addrStep t p = some a) (hb : myAddr addrStep t q = some a) : p = q := by
  rw [addr_eq, hp] at ha
  rw [addr_eq, hq] at hb
  simp only [Option.map_some, Option.some.injEq] at ha hb
  by_cases h : p = q
  · exact h
  · have := place_disjoint t 0 p q r s hp hq h
    have h1 := Nat.div_add_mod r.1 addrStep
    have h2 := Nat.div_add_mod s.1 addrStep
    rw [ha, hr] at h1
    rw [hb, hs'] at h2
    omega

example : exMap.place 0 [.field 0] = some (0, 32) ∧ exMap.place 0 [.field 1, .item 0, .field 0] = some (32, 32) := by
  decide +kernel

/-! ## C364: write strobe -/

/-- Bit `j` of the mask of the write is set iff byte `j` of the bus word of `dw` bits belongs to the register, for each register of whole
bytes which fits in one word. -/
def StrobeSpec : Prop := ∀ (addrStep dw : Nat) (t : Ty) (p : List Step) (b : Nat) (l : Tmpl), 0 < addrStep → 0 < dw →
  dw % 8 = 0 → lookup (load t 0) 0 p = some (b, l) → b % 8 = 0 → l.bitLength % 8 = 0 → b % dw + l.bitLength ≤ dw →
  ∀ j, (itemMask addrStep l).testBit j = decide (b % dw / 8 ≤ j ∧ j < (b % dw + l.bitLength) / 8)

/-- **C364** (violated): the mask of a register of 32b on a bus with an address unit of 8b is 0. -/
theorem strobeSpec_violated : ¬ StrobeSpec := by
  intro h
  have := h 8 32 (.struct (.cons false (.bits 32) .nil)) [.field 0] 0 (.leaf 0 32) (by decide) (by decide) (by decide) rfl
    (by decide) (by decide) (by decide) 0
  revert this
  decide +kernel

theorem testBit_mask (n j : Nat) : (mask n).testBit j = decide (j < n) := by
  simp [mask, Nat.testBit_two_pow_sub_one]

/-- **C364** (violated): it is wrong for each register on each bus with an address unit of 8b (AXI, Avalon, MI32, IPIF). -/
theorem strobe_never (t : Tmpl) (h : 8 ≤ t.bitLength) : itemMask 8 t ≠ mask (t.bitLength / 8) := by
  intro he
  have h1 : ∀ j, (itemMask 8 t).testBit j = (mask (t.bitLength / 8)).testBit j := by rw [he]; simp
  have := h1 (t.bitLength / 8 - 1)
  unfold itemMask at this
  rw [testBit_mask, testBit_mask] at this
  unfold Tmpl.bitLength at *
  simp only [decide_eq_decide] at this
  omega

/-- **C364** (part): right if the address unit is one bit and the register is at the begin of the word. Missing: all buses of the
library, where the mask is wrong. -/
theorem strobe_partial (dw : Nat) (t : Ty) (p : List Step) (b : Nat) (l : Tmpl)
    (_ : lookup (load t 0) 0 p = some (b, l)) (hb : b % dw = 0) (j : Nat) :
    (itemMask 1 l).testBit j = decide (b % dw / 8 ≤ j ∧ j < (b % dw + l.bitLength) / 8) := by
  unfold itemMask
  rw [testBit_mask, hb]
  simp [Tmpl.bitLength]

example : ∃ l, lookup (load (.struct (.cons false (.bits 32) .nil)) 0) 0 [.field 0] = some (0, l) ∧ l.bitLength = 32 ∧
    itemMask 1 l = 15 := ⟨.leaf 0 32, rfl, by decide, by decide⟩

/-! ## C369: items of an array -/

/-- An access to an item in the range of a python list returns that item, whatever was accessed before. -/
def ItemSpec : Prop := ∀ (base size n : Nat) (hist : List Int) (i : Int) (k : Nat), pyIndex n i = some k →
  ∃ c, getItem base size (runItems base size (emptyCache n) hist) i = some ((base : Int) + size * k, c)

/-- **C369** (violated): item -1 is in front of the array. -/
theorem itemSpec_violated : ¬ ItemSpec := by
  intro h
  obtain ⟨c, hc⟩ := h 64 32 4 [] (-1) 3 (by decide)
  revert hc
  simp [runItems, emptyCache, getItem, pyIndex]

/-- **C369** (violated): an access to item -1 spoils the last item. -/
theorem item_spoiled : (getItem 64 32 (runItems 64 32 (emptyCache 4) [-1]) 3).map (·.1) = some 32 ∧
    (getItem 64 32 (emptyCache 4) 3).map (·.1) = some 160 := by decide +kernel

def Good (base size : Nat) (n : Nat) (c : List (Option Int)) : Prop :=
  c.length = n ∧ ∀ (k : Nat) (a : Int), c[k]? = some (some a) → a = (base : Int) + size * (k : Int)

theorem getItem_good {base size n : Nat} {c : List (Option Int)} (h : Good base size n c) {i : Int} (hi : 0 ≤ i) :
    (i < n → ∃ c', getItem base size c i = some ((base : Int) + size * i, c') ∧ Good base size n c') ∧
    (¬ i < n → getItem base size c i = none) := by
  obtain ⟨hl, hg⟩ := h
  unfold getItem pyIndex
  rw [hl, if_pos hi]
  refine ⟨fun hn => ?_, fun hn => by rw [if_neg hn]⟩
  rw [if_pos hn]
  have hk : ((i.toNat : Nat) : Int) = i := Int.toNat_of_nonneg hi
  have hlt : i.toNat < c.length := by omega
  simp only
  have hget := List.getElem?_eq_getElem hlt
  cases hv : c[i.toNat] with
  | some a =>
    rw [hv] at hget
    rw [hget]
    have := hg _ _ hget
    rw [hk] at this
    exact ⟨c, by rw [this], hl, hg⟩
  | none =>
    rw [hv] at hget
    rw [hget]
    refine ⟨_, rfl, by simpa using hl, ?_⟩
    intro k a hka
    rw [List.getElem?_set] at hka
    split at hka
    · rename_i he
      simp only [Option.some.injEq] at hka
      rw [← hka, ← he, hk]
    · exact hg k a hka

/-- **C369** (part): accesses with indexes which are not negative return the item of the index and raise outside of the array. Missing:
negative indexes. -/
theorem item_partial (base size n : Nat) (hist : List Int) (hh : ∀ i ∈ hist, 0 ≤ i) (i : Int) (hi : 0 ≤ i) :
    (i < n → ∃ c, getItem base size (runItems base size (emptyCache n) hist) i = some ((base : Int) + size * i, c)) ∧
    (¬ i < n → getItem base size (runItems base size (emptyCache n) hist) i = none) := by
  have key : ∀ (hist : List Int) (c : List (Option Int)), Good base size n c → (∀ i ∈ hist, 0 ≤ i) →
      Good base size n (runItems base size c hist) := by
    intro hist
    induction hist with
    | nil => intro c h _; exact h
    | cons j js ih =>
      intro c h hj
      have hj0 := hj j (by simp)
      have := getItem_good h hj0
      simp only [runItems]
      by_cases hn : j < n
      · obtain ⟨c', h1, h2⟩ := this.1 hn
        rw [h1]
        exact ih c' h2 (fun i hi => hj i (List.mem_cons_of_mem _ hi))
      · rw [this.2 hn]
        exact ih c h (fun i hi => hj i (List.mem_cons_of_mem _ hi))
  have hg := key hist (emptyCache n) ⟨by simp [emptyCache], by
    intro k a h
    simp [emptyCache, List.getElem?_replicate] at h⟩ hh
  have := getItem_good hg hi
  refine ⟨fun hn => ?_, this.2⟩
  obtain ⟨c', h1, _⟩ := this.1 hn
  exact ⟨c', h1⟩

example : (getItem 64 32 (runItems 64 32 (emptyCache 4) [3, 0, 7]) 3).map (·.1) = some 160 := by decide +kernel

end Verif.MemSpace
