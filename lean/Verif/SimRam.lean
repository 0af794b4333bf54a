import Verif.Common
/-!
# Model of `SimRam` (hwtLib/abstract/sim_ram.py)

Simplifications: values stored as python int are non-negative; the allocation size is computed in integers (the code
divides floats at :119); allocations which are not aligned to a cell and have init values (`shiftIntArray`, :120-123) are
not modelled (`calloc` returns `none`); `malloc` on an address which is not aligned is modelled.
-/
namespace Verif.SimRam

/-- value in the dictionary -/
inductive Cell where
  | inv
  | int (v : Nat)
  | bits (val vld : Nat)
deriving DecidableEq, Repr

/-- `data` is an association list (first match) -/
structure Ram where
  data : List (Nat × Cell)
  prevEnd : Nat
deriving DecidableEq

def init : Ram := ⟨[], 0⟩

/-- `self.data.get(k)`, python `None` for a missing key is also `inv` (sim_ram.py:184) -/
def get (d : List (Nat × Cell)) (k : Nat) : Cell := (d.lookup k).getD .inv

/-- `k in self.data.keys()` -/
def has (d : List (Nat × Cell)) (k : Nat) : Bool := (d.lookup k).isSome

def maxKey : List (Nat × Cell) → Nat
  | [] => 0
  | p :: d => max p.1 (maxKey d)

/-- sim_ram.py:71-77, :109-115 -/
def newAddr (c : Nat) (r : Ram) (keepOut : Nat) : Nat :=
  (if r.data.isEmpty then r.prevEnd else (maxKey r.data + 1) * c) + keepOut

/-- the loops sim_ram.py:85-92, :133-142; `none` = AllocationError -/
def fill (d : List (Nat × Cell)) (i : Nat) : List Cell → Option (List (Nat × Cell))
  | [] => some d
  | x :: xs => if has d i then none else fill ((i, x) :: d) (i + 1) xs

/-- sim_ram.py:61-95 `malloc`; `c` = cellSize -/
def malloc (c : Nat) (r : Ram) (size keepOut : Nat) : Option (Ram × Nat) :=
  let addr := newAddr c r keepOut
  match fill r.data (addr / c) (List.replicate (size / c) .inv) with
  | none => none
  | some d => some (⟨d, addr⟩, addr)

/-- pyMathBitPrecise `int_list_to_int` -/
def intListToInt (w : Nat) : List Nat → Nat
  | [] => 0
  | v :: vs => v ||| (intListToInt w vs <<< w)

/-- sim_ram.py:19-35 `reshapedInitItems`; the padding items are 0 -/
def reshape (act req : Nat) (vs : List Nat) : Option (List Nat) :=
  if act < req && req % act == 0 then
    let n := req / act
    some ((List.range ((vs.length + n - 1) / n)).map fun i => intListToInt (act * 8) ((vs.drop (i * n)).take n))
  else none

/-- words stored by `calloc`, sim_ram.py:119, 127-131, 139-142; `none` = exception -/
def callocWords (c num size : Nat) (vs : Option (List Nat)) : Option (List Cell) :=
  let wordCnt := (num * size + c - 1) / c
  match vs with
  | none => some (List.replicate wordCnt (.int 0))
  | some vs =>
    match (if size != c then reshape size c vs else some vs) with
    | none => none
    | some ws => if ws.length == wordCnt then some (ws.map .int) else none

/-- sim_ram.py:97-145 `calloc` -/
def calloc (c : Nat) (r : Ram) (num size keepOut : Nat) (vs : Option (List Nat)) : Option (Ram × Nat) :=
  let addr := newAddr c r keepOut
  if addr % c != 0 then none
  else match callocWords c num size vs with
    | none => none
    | some ws => match fill r.data (addr / c) ws with
      | none => none
      | some d => some (⟨d, (addr / c + ws.length) * c⟩, addr)

/-- `get_bit_range(v, offset, width)` -/
def bitRange (v offset width : Nat) : Nat := (v >>> offset) % 2 ^ width

/-- value and mask of one piece, sim_ram.py:186-197, :199-201 (masked by `m`); `ww` = wordWidth -/
def piece (ww : Nat) (x : Cell) (offset width : Nat) : Nat × Nat :=
  match x with
  | .inv => (0, 0)
  | .int v => (bitRange v offset width % 2 ^ width, (2 ^ ww - 1) % 2 ^ width)
  | .bits v m => (bitRange v offset width % 2 ^ width, bitRange m offset width % 2 ^ width)

/-- the loop sim_ram.py:180-204; one unit of fuel per iteration -/
def loop (ww : Nat) (d : List (Nat × Cell)) (stop : Nat) : Nat → Nat → Nat → Nat → Nat → Nat × Nat
  | 0, _, _, val, vld => (val, vld)
  | f + 1, start, off, val, vld =>
    if start = stop then (val, vld)
    else
      let i := start / ww
      let width := min stop ((i + 1) * ww) - start
      let p := piece ww (get d i) (start % ww) width
      loop ww d stop f (start + width) (off + width) (val ||| p.1 <<< off) (vld ||| p.2 <<< off)

/-- sim_ram.py:165-206 `getBits`: (val, vld_mask); `none` = failed assertion -/
def getBits (c : Nat) (d : List (Nat × Cell)) (start stop : Nat) : Option (Nat × Nat) :=
  if stop < start then none else some (loop (c * 8) d stop (stop - start) start 0 0 0)

/-! ## Lemmas -/

theorem lookup_cons (p : Nat × Cell) (d : List (Nat × Cell)) (k : Nat) :
    (p :: d).lookup k = if k = p.1 then some p.2 else d.lookup k := by
  obtain ⟨a, b⟩ := p
  rw [List.lookup_cons]
  by_cases h : k = a
  · simp [h]
  · have : (k == a) = false := by simpa using h
    simp [this, h]

theorem has_le_max (d : List (Nat × Cell)) (k : Nat) (h : has d k = true) : k ≤ maxKey d ∧ d ≠ [] := by
  induction d with
  | nil => simp [has] at h
  | cons p d ih =>
    refine ⟨?_, by simp⟩
    unfold has at h ih
    rw [lookup_cons] at h
    unfold maxKey
    split at h
    · omega
    · have := (ih h).1; omega

theorem fill_spec : ∀ (xs : List Cell) (d : List (Nat × Cell)) (i : Nat), (∀ k, i ≤ k → has d k = false) →
    ∃ d', fill d i xs = some d' ∧
      ∀ k, d'.lookup k = if i ≤ k ∧ k < i + xs.length then xs[k - i]? else d.lookup k := by
  intro xs
  induction xs with
  | nil =>
    intro d i _
    refine ⟨d, rfl, ?_⟩
    intro k
    rw [if_neg (by simp)]
  | cons x xs ih =>
    intro d i h
    have h' : ∀ k, i + 1 ≤ k → has ((i, x) :: d) k = false := by
      intro k hk
      unfold has
      rw [lookup_cons, if_neg (by show k ≠ i; omega)]
      exact h k (by omega)
    obtain ⟨d', h1, h2⟩ := ih ((i, x) :: d) (i + 1) h'
    refine ⟨d', ?_, ?_⟩
    · unfold fill
      rw [h i (Nat.le_refl _)]
      exact h1
    · intro k
      rw [h2 k, lookup_cons]
      simp only [List.length_cons]
      by_cases e : k = i
      · subst e
        rw [if_neg (by omega), if_pos rfl, if_pos (by omega)]
        simp
      · by_cases hk : i + 1 ≤ k ∧ k < i + 1 + xs.length
        · rw [if_pos hk, if_pos (by omega)]
          rw [show k - i = (k - (i + 1)) + 1 by omega]
          simp
        · rw [if_neg hk, if_neg (by show ¬ k = i; omega), if_neg (by omega)]

theorem newAddr_fresh (c : Nat) (hc : 0 < c) (r : Ram) (ko : Nat) :
    ∀ k, newAddr c r ko / c ≤ k → has r.data k = false := by
  intro k hk
  cases h : has r.data k with
  | false => rfl
  | true =>
    obtain ⟨h1, h2⟩ := has_le_max _ _ h
    exfalso
    unfold newAddr at hk
    have he : r.data.isEmpty = false := by simpa using h2
    rw [he] at hk
    simp only [Bool.false_eq_true, if_false] at hk
    have : maxKey r.data + 1 ≤ ((maxKey r.data + 1) * c + ko) / c := by
      rw [Nat.le_div_iff_mul_le hc]; omega
    omega

theorem newAddr_aligned (c : Nat) (r : Ram) (ko : Nat) (h1 : r.prevEnd % c = 0) (h2 : ko % c = 0) :
    newAddr c r ko % c = 0 := by
  unfold newAddr
  split
  · rw [Nat.add_mod, h1, h2]; simp
  · rw [Nat.add_mod, h2]; simp

/-- malloc never fails -/
theorem malloc_ok (c : Nat) (hc : 0 < c) (r : Ram) (size ko : Nat) :
    ∃ r', malloc c r size ko = some (r', newAddr c r ko) ∧ r'.prevEnd = newAddr c r ko ∧
      ∀ k, r'.data.lookup k = if newAddr c r ko / c ≤ k ∧ k < newAddr c r ko / c + size / c then some .inv
        else r.data.lookup k := by
  obtain ⟨d', h1, h2⟩ := fill_spec (List.replicate (size / c) .inv) r.data _ (newAddr_fresh c hc r ko)
  refine ⟨⟨d', newAddr c r ko⟩, ?_, rfl, ?_⟩
  · unfold malloc
    simp only [h1]
  · intro k
    rw [h2 k]
    simp only [List.length_replicate]
    split
    · next h => rw [List.getElem?_replicate, if_pos (by omega)]
    · rfl

theorem calloc_ok (c : Nat) (hc : 0 < c) (r : Ram) (num size ko : Nat) (vs : Option (List Nat)) (ws : List Cell)
    (hal : newAddr c r ko % c = 0) (hw : callocWords c num size vs = some ws) :
    ∃ r', calloc c r num size ko vs = some (r', newAddr c r ko) ∧ r'.prevEnd % c = 0 ∧
      ∀ k, r'.data.lookup k = if newAddr c r ko / c ≤ k ∧ k < newAddr c r ko / c + ws.length then
        ws[k - newAddr c r ko / c]? else r.data.lookup k := by
  obtain ⟨d', h1, h2⟩ := fill_spec ws r.data _ (newAddr_fresh c hc r ko)
  refine ⟨⟨d', (newAddr c r ko / c + ws.length) * c⟩, ?_, Nat.mul_mod_left _ _, h2⟩
  unfold calloc
  simp [hal, hw, h1]

theorem callocWords_length {c num size : Nat} {vs : Option (List Nat)} {ws : List Cell}
    (h : callocWords c num size vs = some ws) : ws.length = (num * size + c - 1) / c := by
  unfold callocWords at h
  cases vs with
  | none => simp at h; rw [← h]; simp
  | some vs =>
    simp only at h
    split at h
    · cases h
    · next ws' _ =>
      split at h
      · next hl =>
        cases h
        simpa using hl
      · cases h

theorem calloc_inv (c : Nat) (hc : 0 < c) (r r' : Ram) (num size ko a : Nat) (vs : Option (List Nat))
    (h : calloc c r num size ko vs = some (r', a)) :
    a = newAddr c r ko ∧ a % c = 0 ∧ r'.prevEnd % c = 0 ∧ ∃ ws, callocWords c num size vs = some ws ∧
      ∀ k, r'.data.lookup k = if a / c ≤ k ∧ k < a / c + ws.length then ws[k - a / c]? else r.data.lookup k := by
  have hal : newAddr c r ko % c = 0 := by
    apply Classical.byContradiction
    intro hn
    unfold calloc at h
    simp [hn] at h
  cases hw : callocWords c num size vs with
  | none => unfold calloc at h; simp [hal, hw] at h
  | some ws =>
    obtain ⟨r'', h1, h2, h3⟩ := calloc_ok c hc r num size ko vs ws hal hw
    rw [h] at h1
    simp only [Option.some.injEq, Prod.mk.injEq] at h1
    obtain ⟨e1, e2⟩ := h1
    subst e1 e2
    exact ⟨rfl, hal, h2, ws, rfl, h3⟩

/-- bit of the memory image: (value, valid) -/
def bitVal (ww : Nat) (d : List (Nat × Cell)) (a : Nat) : Bool :=
  match get d (a / ww) with
  | .inv => false
  | .int v => v.testBit (a % ww)
  | .bits v _ => v.testBit (a % ww)

def bitVld (ww : Nat) (d : List (Nat × Cell)) (a : Nat) : Bool :=
  match get d (a / ww) with
  | .inv => false
  | .int _ => true
  | .bits _ m => m.testBit (a % ww)

theorem piece_spec (ww : Nat) (hw : 0 < ww) (d : List (Nat × Cell)) (start width k : Nat)
    (hwd : start % ww + width ≤ ww) :
    (piece ww (get d (start / ww)) (start % ww) width).1.testBit k
      = (decide (k < width) && bitVal ww d (start + k)) ∧
    (piece ww (get d (start / ww)) (start % ww) width).2.testBit k
      = (decide (k < width) && bitVld ww d (start + k)) := by
  by_cases hk : k < width
  · have hdm := Nat.div_add_mod start ww
    have hq : (start + k) / ww = start / ww := by
      rw [Nat.div_eq_iff hw, Nat.mul_comm]
      omega
    have hm : (start + k) % ww = start % ww + k := by
      have := Nat.div_add_mod (start + k) ww
      rw [hq] at this
      omega
    have hkw : k < ww := by omega
    unfold bitVal bitVld piece
    rw [hq, hm]
    cases get d (start / ww) <;>
      simp [bitRange, Nat.testBit_mod_two_pow, Nat.testBit_shiftRight, Nat.testBit_two_pow_sub_one, hk, hkw]
  · unfold piece
    cases get d (start / ww) <;> simp [bitRange, Nat.testBit_mod_two_pow, hk]

theorem loop_spec (ww : Nat) (hw : 0 < ww) (d : List (Nat × Cell)) (stop : Nat) :
    ∀ (f start off val vld : Nat), start ≤ stop → stop - start ≤ f → ∀ k,
      (loop ww d stop f start off val vld).1.testBit k
        = (val.testBit k || (decide (off ≤ k) && decide (k - off < stop - start) && bitVal ww d (start + (k - off)))) ∧
      (loop ww d stop f start off val vld).2.testBit k
        = (vld.testBit k || (decide (off ≤ k) && decide (k - off < stop - start) && bitVld ww d (start + (k - off)))) := by
  intro f
  induction f with
  | zero =>
    intro start off val vld h1 h2 k
    have : ¬ (k - off < stop - start) := by omega
    simp [loop, this]
  | succ f ih =>
    intro start off val vld h1 h2 k
    unfold loop
    split
    · next he =>
      subst he
      simp
    · next hne =>
      have hdm := Nat.div_add_mod start ww
      have hlt := Nat.mod_lt start hw
      simp only
      generalize hwd : min stop ((start / ww + 1) * ww) - start = width
      have hend : (start / ww + 1) * ww = ww * (start / ww) + ww := by rw [Nat.add_mul, Nat.mul_comm, Nat.one_mul]
      rw [hend] at hwd
      have hpos : 0 < width := by omega
      have hle : start + width ≤ stop := by omega
      have hfit : start % ww + width ≤ ww := by omega
      obtain ⟨i1, i2⟩ := ih (start + width) (off + width)
        (val ||| (piece ww (get d (start / ww)) (start % ww) width).1 <<< off)
        (vld ||| (piece ww (get d (start / ww)) (start % ww) width).2 <<< off) hle (by omega) k
      rw [i1, i2]
      obtain ⟨p1, p2⟩ := piece_spec ww hw d start width (k - off) hfit
      simp only [Nat.testBit_or, Nat.testBit_shiftLeft, p1, p2]
      by_cases ho : off ≤ k
      · by_cases hk : k - off < width
        · have : ¬ (off + width ≤ k) := by omega
          have h3 : k - off < stop - start := by omega
          simp [ho, hk, this, h3]
        · have h3 : off + width ≤ k := by omega
          have h4 : start + width + (k - (off + width)) = start + (k - off) := by omega
          have h5 : (k - (off + width) < stop - (start + width)) ↔ (k - off < stop - start) := by omega
          simp [ho, hk, h3, h4, h5]
      · have : ¬ (off + width ≤ k) := by omega
        simp [ho, this]

theorem intListToInt_testBit (w : Nat) (hw : 0 < w) : ∀ (vs : List Nat), (∀ v ∈ vs, v < 2 ^ w) → ∀ b,
    (intListToInt w vs).testBit b = ((vs[b / w]?).getD 0).testBit (b % w) := by
  intro vs
  induction vs with
  | nil => intro _ b; simp [intListToInt]
  | cons v vs ih =>
    intro h b
    unfold intListToInt
    rw [Nat.testBit_or, Nat.testBit_shiftLeft]
    by_cases hb : w ≤ b
    · have hv : v.testBit b = false :=
        Nat.testBit_lt_two_pow (Nat.lt_of_lt_of_le (h v List.mem_cons_self) (Nat.pow_le_pow_right (by decide) hb))
      rw [ih (fun v hv => h v (List.mem_cons_of_mem _ hv))]
      rw [hv, Nat.div_eq_sub_div hw hb, Nat.mod_eq_sub_mod hb]
      simp [hb]
    · have : b / w = 0 := Nat.div_eq_of_lt (by omega)
      rw [this, Nat.mod_eq_of_lt (by omega)]
      simp [hb]

end Verif.SimRam
