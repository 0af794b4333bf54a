import Verif.SimRam
/-!
# C53, C54, C66, C67: SimRam
-/
namespace Verif.SimRam

/-- operations of a user and of bus agents (`data[k] = x`) -/
inductive Op where
  | malloc (size keepOut : Nat)
  | calloc (num size keepOut : Nat) (vs : Option (List Nat))
  | store (k : Nat) (x : Cell)

/-- executes an operation; an allocation adds its block (byte address, byte size) -/
def exec (c : Nat) (st : Ram × List (Nat × Nat)) : Op → Ram × List (Nat × Nat)
  | .malloc size ko => match malloc c st.1 size ko with
    | none => st
    | some (r, a) => (r, st.2 ++ [(a, size)])
  | .calloc num size ko vs => match calloc c st.1 num size ko vs with
    | none => st
    | some (r, a) => (r, st.2 ++ [(a, num * size)])
  | .store k x => (⟨(k, x) :: st.1.data, st.1.prevEnd⟩, st.2)

def execAll (c : Nat) (ops : List Op) : Ram × List (Nat × Nat) := ops.foldl (exec c) (init, [])

/-- cell multiples -/
def Op.aligned (c : Nat) : Op → Prop
  | .malloc size ko => size % c = 0 ∧ ko % c = 0
  | .calloc _ _ ko _ => ko % c = 0
  | .store _ _ => True

def overlap (a b : Nat × Nat) : Prop := ∃ x, a.1 ≤ x ∧ x < a.1 + a.2 ∧ b.1 ≤ x ∧ x < b.1 + b.2

structure Inv (c : Nat) (st : Ram × List (Nat × Nat)) : Prop where
  prev : st.1.prevEnd % c = 0
  dom : ∀ b ∈ st.2, ∀ x, b.1 ≤ x → x < b.1 + b.2 → has st.1.data (x / c) = true
  dis : st.2.Pairwise fun a b => ¬ overlap a b

theorem ceil_cover (c n x a : Nat) (hc : 0 < c) (ha : a % c = 0) (h1 : a ≤ x) (h2 : x < a + n) :
    a / c ≤ x / c ∧ x / c < a / c + (n + c - 1) / c := by
  refine ⟨Nat.div_le_div_right h1, ?_⟩
  have e : a = c * (a / c) := by have := Nat.div_add_mod a c; omega
  rw [Nat.div_lt_iff_lt_mul hc, Nat.add_mul]
  have hd := Nat.div_add_mod (n + c - 1) c
  have hl := Nat.mod_lt (n + c - 1) hc
  have : (n + c - 1) / c * c = c * ((n + c - 1) / c) := Nat.mul_comm _ _
  have : a / c * c = c * (a / c) := Nat.mul_comm _ _
  omega

theorem inv_alloc (c : Nat) (hc : 0 < c) (st : Ram × List (Nat × Nat)) (hI : Inv c st) (r' : Ram) (ko len n : Nat)
    (f : Nat → Option Cell) (hp : r'.prevEnd % c = 0) (hal : newAddr c st.1 ko % c = 0)
    (hn : (len + c - 1) / c = n)
    (hf : ∀ i, i < n → (f i).isSome = true)
    (hl : ∀ k, r'.data.lookup k = if newAddr c st.1 ko / c ≤ k ∧ k < newAddr c st.1 ko / c + n then
      f (k - newAddr c st.1 ko / c) else st.1.data.lookup k) :
    Inv c (r', st.2 ++ [(newAddr c st.1 ko, len)]) := by
  have hfresh := newAddr_fresh c hc st.1 ko
  refine ⟨hp, ?_, ?_⟩
  · intro b hb x hx1 hx2
    show has r'.data (x / c) = true
    unfold has
    rw [hl]
    split
    · next h => exact hf _ (by omega)
    · next h =>
      rcases List.mem_append.1 hb with hb | hb
      · exact hI.dom b hb x hx1 hx2
      · have e : b = (newAddr c st.1 ko, len) := by simpa using hb
        subst e
        have := ceil_cover c len x _ hc hal hx1 hx2
        rw [hn] at this
        exact absurd this h
  · rw [List.pairwise_append]
    refine ⟨hI.dis, by simp, ?_⟩
    intro a ha b hb
    have e : b = (newAddr c st.1 ko, len) := by simpa using hb
    subst e
    rintro ⟨x, h1, h2, h3, h4⟩
    have h5 := hI.dom a ha x h1 h2
    have := hfresh (x / c) (Nat.div_le_div_right h3)
    rw [this] at h5
    cases h5

theorem inv_exec (c : Nat) (hc : 0 < c) (st : Ram × List (Nat × Nat)) (op : Op) (hop : op.aligned c) (hI : Inv c st) :
    Inv c (exec c st op) := by
  cases op with
  | malloc size ko =>
    obtain ⟨h1, h2⟩ := hop
    have hal := newAddr_aligned c st.1 ko hI.prev h2
    obtain ⟨r', e, hp, hl⟩ := malloc_ok c hc st.1 size ko
    unfold exec
    simp only [e]
    refine inv_alloc c hc st hI r' ko size (size / c) (fun _ => some .inv) (hp ▸ hal) hal ?_
      (fun _ _ => rfl) hl
    have hd := Nat.div_add_mod size c
    rw [Nat.div_eq_iff hc, Nat.mul_comm]
    omega
  | calloc num size ko vs =>
    have hal := newAddr_aligned c st.1 ko hI.prev hop
    unfold exec
    cases hr : calloc c st.1 num size ko vs with
    | none => simp only [hr]; exact hI
    | some p =>
      obtain ⟨r', a⟩ := p
      obtain ⟨h1, h2, h3, ws, h4, h5⟩ := calloc_inv c hc st.1 r' num size ko a vs hr
      subst h1
      simp only [hr]
      refine inv_alloc c hc st hI r' ko (num * size) ws.length (fun i => ws[i]?) h3 hal
        (callocWords_length h4).symm ?_ h5
      intro i hi
      simp [hi]
  | store k x =>
    refine ⟨hI.prev, ?_, hI.dis⟩
    intro b hb y h1 h2
    show has ((k, x) :: st.1.data) (y / c) = true
    unfold has
    rw [lookup_cons]
    split
    · rfl
    · exact hI.dom b hb y h1 h2

theorem inv_execAll (c : Nat) (hc : 0 < c) (ops : List Op) (hops : ∀ op ∈ ops, op.aligned c) :
    Inv c (execAll c ops) := by
  unfold execAll
  have : ∀ (ops : List Op) (st : Ram × List (Nat × Nat)), (∀ op ∈ ops, op.aligned c) → Inv c st →
      Inv c (ops.foldl (exec c) st) := by
    intro ops
    induction ops with
    | nil => intro st _ h; exact h
    | cons op ops ih =>
      intro st h hI
      exact ih _ (fun o ho => h o (List.mem_cons_of_mem _ ho)) (inv_exec c hc st op (h op List.mem_cons_self) hI)
  refine this ops _ hops ⟨?_, by simp, List.Pairwise.nil⟩
  simp [init]

/-- **C53** Blocks returned by any sequence of allocations and stores do not overlap. -/
theorem alloc_disjoint (c : Nat) (hc : 0 < c) (ops : List Op) (hops : ∀ op ∈ ops, op.aligned c) :
    (execAll c ops).2.Pairwise fun a b => ¬ overlap a b :=
  (inv_execAll c hc ops hops).dis

/-- **C53** An allocation (of any size and alignment) does not change anything in the memory already there. -/
theorem alloc_preserves (c : Nat) (hc : 0 < c) (st : Ram × List (Nat × Nat)) (op : Op)
    (hop : ∀ k x, op ≠ .store k x) (k : Nat) (hk : has st.1.data k = true) :
    get (exec c st op).1.data k = get st.1.data k := by
  cases op with
  | malloc size ko =>
    obtain ⟨r', e, hp, hl⟩ := malloc_ok c hc st.1 size ko
    have hfresh := newAddr_fresh c hc st.1 ko
    unfold exec
    simp only [e]
    unfold get
    rw [hl, if_neg]
    intro h
    rw [hfresh k h.1] at hk
    cases hk
  | calloc num size ko vs =>
    have hfresh := newAddr_fresh c hc st.1 ko
    unfold exec
    cases hr : calloc c st.1 num size ko vs with
    | none => simp only [hr]
    | some p =>
      obtain ⟨r', a⟩ := p
      obtain ⟨h1, h2, h3, ws, h4, h5⟩ := calloc_inv c hc st.1 r' num size ko a vs hr
      subst h1
      unfold get
      simp only [hr]
      rw [h5, if_neg]
      intro h
      rw [hfresh k h.1] at hk
      cases hk
  | store k' x => exact absurd rfl (hop k' x)

/-- **C53** malloc always succeeds, calloc of zeros succeeds on an aligned address -/
theorem alloc_succeeds (c : Nat) (hc : 0 < c) (ops : List Op) (hops : ∀ op ∈ ops, op.aligned c) (size ko : Nat) :
    (malloc c (execAll c ops).1 size ko).isSome = true ∧
    ∀ num, ko % c = 0 → (calloc c (execAll c ops).1 num size ko none).isSome = true := by
  constructor
  · obtain ⟨r', e, _⟩ := malloc_ok c hc (execAll c ops).1 size ko
    rw [e]; rfl
  · intro num hko
    have hal := newAddr_aligned c (execAll c ops).1 ko (inv_execAll c hc ops hops).prev hko
    obtain ⟨r', e, _⟩ := calloc_ok c hc (execAll c ops).1 num size ko none _ hal rfl
    rw [e]; rfl

-- non-vacuity
example : ∀ op ∈ [Op.malloc 8 0, .store 20 (.int 3), .calloc 3 2 4 none, .calloc 2 4 0 (some [7, 9])], op.aligned 4 := by
  simp [Op.aligned]
example : (execAll 4 [Op.malloc 8 0, .store 20 (.int 3), .calloc 3 2 4 none, .calloc 2 4 0 (some [7, 9])]).2
    = [(0, 8), (88, 6), (96, 8)] := by decide

/-! ## C67 allocations which are not aligned -/

/-- Full statement of C67: `malloc` either refuses a request or returns a block which does not overlap. -/
def C67 (c : Nat) : Prop := ∀ ops : List Op, (∀ op ∈ ops, ∃ size ko, op = .malloc size ko) →
  (execAll c ops).2.Pairwise fun a b => ¬ overlap a b

/-- **C67** violated: the exception for a not aligned address is created but not raised. -/
theorem malloc_unaligned_violated : ¬ C67 4 := by
  intro h
  have := h [.malloc 4 2, .malloc 4 0] (by simp)
  rw [show (execAll 4 [.malloc 4 2, .malloc 4 0]).2 = [(2, 4), (4, 4)] by decide] at this
  exact (List.pairwise_cons.1 this).1 (4, 4) List.mem_cons_self ⟨4, by decide⟩

/-- **C67** violated also for sizes which are not a multiple of the cell: the last partial cell is not allocated. -/
theorem malloc_size_violated : ¬ C67 4 := by
  intro h
  have := h [.malloc 6 0, .malloc 4 0] (by simp)
  rw [show (execAll 4 [.malloc 6 0, .malloc 4 0]).2 = [(0, 6), (4, 4)] by decide] at this
  exact (List.pairwise_cons.1 this).1 (4, 4) List.mem_cons_self ⟨4, by decide⟩

/-- **C67** what holds: requests which are multiples of the cell size -/
theorem malloc_aligned_partial (c : Nat) (hc : 0 < c) (ops : List Op)
    (h : ∀ op ∈ ops, ∃ size ko, op = .malloc (size * c) (ko * c)) :
    (execAll c ops).2.Pairwise fun a b => ¬ overlap a b := by
  refine alloc_disjoint c hc ops ?_
  intro op hop
  obtain ⟨s, k, rfl⟩ := h op hop
  exact ⟨Nat.mul_mod_left _ _, Nat.mul_mod_left _ _⟩

example : ∀ op ∈ [Op.malloc 8 0, .malloc 4 8], ∃ size ko, op = .malloc (size * 4) (ko * 4) := by
  intro op hop
  simp at hop
  rcases hop with rfl | rfl
  · exact ⟨2, 0, rfl⟩
  · exact ⟨1, 2, rfl⟩

/-! ## C54 getBits -/

/-- **C54** `getBits` returns exactly the selected bits of the memory image. -/
theorem getBits_exact (c : Nat) (hc : 0 < c) (d : List (Nat × Cell)) (start stop : Nat) (h : start ≤ stop) :
    ∃ val vld, getBits c d start stop = some (val, vld) ∧
      val < 2 ^ (stop - start) ∧ vld < 2 ^ (stop - start) ∧
      ∀ k, k < stop - start → val.testBit k = bitVal (8 * c) d (start + k) ∧
        vld.testBit k = bitVld (8 * c) d (start + k) := by
  have key := loop_spec (c * 8) (by omega) d stop (stop - start) start 0 0 0 h (Nat.le_refl _)
  refine ⟨(loop (c * 8) d stop (stop - start) start 0 0 0).1, (loop (c * 8) d stop (stop - start) start 0 0 0).2, ?_, ?_, ?_, ?_⟩
  · unfold getBits
    rw [if_neg (by omega)]
  · apply Nat.lt_pow_two_of_testBit
    intro i hi
    rw [(key i).1]
    have : ¬ (i < stop - start) := by omega
    simp [this]
  · apply Nat.lt_pow_two_of_testBit
    intro i hi
    rw [(key i).2]
    have : ¬ (i < stop - start) := by omega
    simp [this]
  · intro k hk
    rw [(key k).1, (key k).2, Nat.mul_comm 8 c]
    simp [hk]

-- non-vacuity: 20 bits from bit 4 over three cells of one byte, the middle one invalid
example : getBits 1 [(0, .int 0xA5), (2, .int 0x3C)] 4 24 = some (0x3C00A, 0xFF00F) := by decide

/-! ## C66 initialised arrays are read back -/

theorem div_cell (n w j k : Nat) (hw : 0 < w) (hk : k < w) :
    (j * w + k) / (n * w) = j / n ∧ (j * w + k) % (n * w) / w = j % n ∧ (j * w + k) % (n * w) % w = k := by
  have e1 : (j * w + k) / w = j := by
    rw [Nat.add_comm, Nat.add_mul_div_right _ _ hw, Nat.div_eq_of_lt hk, Nat.zero_add]
  have e2 : (j * w + k) % w = k := by
    rw [Nat.add_comm, Nat.add_mul_mod_self_right, Nat.mod_eq_of_lt hk]
  refine ⟨?_, ?_, ?_⟩
  · rw [Nat.mul_comm n w, ← Nat.div_div_eq_div_mul, e1]
  · rw [Nat.mul_comm n w, Nat.mod_mul_right_div_self, e1]
  · rw [Nat.mod_mul_left_mod, e2]

theorem getBits_unique (c : Nat) (hc : 0 < c) (d : List (Nat × Cell)) (start w v : Nat) (hv : v < 2 ^ w)
    (h : ∀ k, k < w → bitVal (8 * c) d (start + k) = v.testBit k ∧ bitVld (8 * c) d (start + k) = true) :
    getBits c d start (start + w) = some (v, 2 ^ w - 1) := by
  obtain ⟨val, vld, h1, h2, h3, h4⟩ := getBits_exact c hc d start (start + w) (by omega)
  rw [h1]
  have e : start + w - start = w := by omega
  rw [e] at h2 h3 h4
  congr 2
  · apply Nat.eq_of_testBit_eq
    intro i
    by_cases hi : i < w
    · rw [(h4 i hi).1, (h i hi).1]
    · rw [Nat.testBit_lt_two_pow (Nat.lt_of_lt_of_le h2 (Nat.pow_le_pow_right (by decide) (by omega))),
        Nat.testBit_lt_two_pow (Nat.lt_of_lt_of_le hv (Nat.pow_le_pow_right (by decide) (by omega)))]
  · apply Nat.eq_of_testBit_eq
    intro i
    rw [Nat.testBit_two_pow_sub_one]
    by_cases hi : i < w
    · rw [(h4 i hi).2, (h i hi).2]; simp [hi]
    · rw [Nat.testBit_lt_two_pow (Nat.lt_of_lt_of_le h3 (Nat.pow_le_pow_right (by decide) (by omega)))]
      simp [hi]

/-- **C66** Every item of an array allocated with init values (item size equal to the cell or dividing it) is read back,
all bits valid. -/
theorem calloc_roundtrip (c : Nat) (hc : 0 < c) (r r' : Ram) (size ko a : Nat) (hs : 0 < size) (vs : List Nat)
    (hv : ∀ v ∈ vs, v < 2 ^ (8 * size)) (h : calloc c r vs.length size ko (some vs) = some (r', a))
    (j : Nat) (v : Nat) (hj : vs[j]? = some v) :
    getBits c r'.data (8 * (a + j * size)) (8 * (a + (j + 1) * size)) = some (v, 2 ^ (8 * size) - 1) := by
  obtain ⟨_, hal, _, ws, hws, hl⟩ := calloc_inv c hc r r' vs.length size ko a (some vs) h
  have hlen := callocWords_length hws
  -- the stored words
  have hword : ∃ n, c = n * size ∧ 0 < n ∧ ∀ i, i < ws.length → ∃ x, ws[i]? = some (.int x) ∧
      ∀ b, b < 8 * c → x.testBit b = ((vs[i * n + b / (8 * size)]?).getD 0).testBit (b % (8 * size)) := by
    unfold callocWords at hws
    simp only at hws
    by_cases he : size = c
    · subst he
      refine ⟨1, by omega, by decide, ?_⟩
      simp only [bne_self_eq_false, Bool.false_eq_true, if_false] at hws
      split at hws
      · cases hws
        intro i hi
        have hi : i < vs.length := by simpa using hi
        refine ⟨vs[i], by simp [hi], ?_⟩
        intro b hb
        rw [Nat.div_eq_of_lt hb, Nat.mod_eq_of_lt hb]
        simp [hi]
      · cases hws
    · have hb : (size != c) = true := by simpa using he
      rw [hb] at hws
      simp only [if_true] at hws
      cases hr : reshape size c vs with
      | none => rw [hr] at hws; cases hws
      | some rs =>
        rw [hr] at hws
        simp only at hws
        split at hws
        · cases hws
          unfold reshape at hr
          split at hr
          · next hcond =>
            simp only [Bool.and_eq_true, decide_eq_true_eq, beq_iff_eq] at hcond
            have hcs : c = c / size * size := by
              have := Nat.div_add_mod c size
              rw [Nat.mul_comm] at this
              omega
            have hn : 0 < c / size := Nat.div_pos (by omega) hs
            refine ⟨c / size, hcs, hn, ?_⟩
            simp only [Option.some.injEq] at hr
            subst hr
            intro i hi
            have hi' : i < (vs.length + c / size - 1) / (c / size) := by simpa using hi
            refine ⟨_, by rw [List.getElem?_map, List.getElem?_map, List.getElem?_range hi']; rfl, ?_⟩
            intro b hb
            rw [Nat.mul_comm size 8, intListToInt_testBit (8 * size) (by omega) _
              (fun v hv' => hv v (List.mem_of_mem_drop (List.mem_of_mem_take hv')))]
            have : b / (8 * size) < c / size := by
              rw [Nat.div_lt_iff_lt_mul (by omega)]
              have : c / size * (8 * size) = 8 * (c / size * size) := by
                rw [Nat.mul_left_comm]
              rw [this, ← hcs]
              exact hb
            rw [List.getElem?_take_of_lt this, List.getElem?_drop]
          · cases hr
        · cases hws
  obtain ⟨n, hcn, hn, hword⟩ := hword
  have hjl : j < vs.length := (List.getElem?_eq_some_iff.1 hj).1
  rw [show 8 * (a + (j + 1) * size) = 8 * (a + j * size) + 8 * size by rw [Nat.add_mul]; omega]
  refine getBits_unique c hc _ _ _ _ (hv v (List.mem_of_getElem? hj)) ?_
  intro k hk
  have ha : a = a / c * c := by have := Nat.div_add_mod a c; rw [Nat.mul_comm] at this; omega
  have hc8 : 8 * c = n * (8 * size) := by rw [hcn]; rw [Nat.mul_left_comm]
  obtain ⟨d1, d2, d3⟩ := div_cell n (8 * size) j k (by omega) hk
  have eaddr : 8 * (a + j * size) + k = (j * (8 * size) + k) + a / c * (8 * c) := by
    have e1 : a / c * (8 * c) = 8 * a := by rw [Nat.mul_left_comm, ← ha]
    have e2 : j * (8 * size) = 8 * (j * size) := Nat.mul_left_comm _ _ _
    omega
  have q1 : (8 * (a + j * size) + k) / (8 * c) = j / n + a / c := by
    rw [eaddr, Nat.add_mul_div_right _ _ (by omega), hc8, d1]
  have q2 : (8 * (a + j * size) + k) % (8 * c) = (j * (8 * size) + k) % (n * (8 * size)) := by
    rw [eaddr, Nat.add_mul_mod_self_right, hc8]
  have hi : j / n < ws.length := by
    rw [hlen]
    have := (ceil_cover c (vs.length * size) (j * size) 0 hc (by simp) (by omega)
      (by have := Nat.mul_lt_mul_of_pos_right hjl hs; omega)).2
    rw [Nat.zero_div, Nat.zero_add] at this
    have e : j * size / c = j / n := by
      rw [hcn, Nat.mul_div_mul_right _ _ hs]
    rw [e] at this
    exact this
  obtain ⟨x, hx, hxb⟩ := hword (j / n) hi
  have hget : get r'.data (j / n + a / c) = .int x := by
    unfold get
    rw [hl, if_pos ⟨Nat.le_add_left _ _, by rw [Nat.add_comm]; exact Nat.add_lt_add_left hi _⟩, Nat.add_sub_cancel, hx]
    rfl
  unfold bitVal bitVld
  rw [q1, hget]
  refine ⟨?_, rfl⟩
  simp only
  rw [hxb _ (Nat.mod_lt _ (by omega)), q2, d2, d3, Nat.mul_comm (j / n) n, Nat.div_add_mod, hj]
  rfl

-- non-vacuity: five items of 2 bytes in cells of 4 bytes
example : ∃ r', calloc 4 ⟨[(3, .int 1)], 0⟩ [1, 2, 0xFFFF, 4, 5].length 2 4 (some [1, 2, 0xFFFF, 4, 5]) = some (r', 20) ∧
    getBits 4 r'.data (8 * (20 + 2 * 2)) (8 * (20 + (2 + 1) * 2)) = some (0xFFFF, 0xFFFF) := ⟨_, rfl, by decide⟩

end Verif.SimRam
