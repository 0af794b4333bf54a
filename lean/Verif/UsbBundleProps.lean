import Verif.UsbBundle
/-!
# C378-C381: descriptor rom, descriptor bytes, endpoint capabilities and string descriptors of USB devices
-/
namespace Verif.UsbBundle

/-! ## C378 -/

/-- where the descriptors of type `t` are if the first is on `pos` -/
def places (t : Nat) : List Descr → Nat → List (Nat × Nat)
  | [], _ => []
  | d :: ds, pos => (if d.ty = t then [(pos, d.bytes.length)] else []) ++ places t ds (pos + d.bytes.length)

theorem compileFrom_spec : ∀ (ds : List Descr) (rom : List Nat) (tab : Table),
    (compileFrom ds rom tab).1 = rom ++ ds.flatMap Descr.bytes ∧
    ∀ t, (compileFrom ds rom tab).2 t = tab t ++ places t ds rom.length := by
  intro ds
  induction ds with
  | nil => intro rom tab; simp [compileFrom, places]
  | cons d ds ih =>
    intro rom tab
    unfold compileFrom
    obtain ⟨h1, h2⟩ := ih (rom ++ d.bytes) (upd tab d.ty (tab d.ty ++ [(rom.length, d.bytes.length)]))
    refine ⟨by rw [h1]; simp, ?_⟩
    intro t
    rw [h2 t, List.length_append]
    conv => rhs; rw [places]
    by_cases h : d.ty = t
    · subst h; rw [upd_same, if_pos rfl, List.append_assoc]
    · rw [upd_ne _ _ _ _ (fun e => h e.symm), if_neg h, List.nil_append]

theorem places_slice (t : Nat) : ∀ (ds : List Descr) (pre : List Nat),
    (places t ds pre.length).map (fun p => ((pre ++ ds.flatMap Descr.bytes).drop p.1).take p.2) =
      (ds.filter fun d => d.ty = t).map Descr.bytes := by
  intro ds
  induction ds with
  | nil => intro pre; rfl
  | cons d ds ih =>
    intro pre
    have h := ih (pre ++ d.bytes)
    rw [List.length_append] at h
    unfold places
    rw [List.map_append, List.flatMap_cons, ← List.append_assoc pre, h]
    by_cases e : d.ty = t
    · simp [e, List.append_assoc]
    · simp [e]

/-- **C378** The rom is the concatenation of descriptors, and the `k`-th entry of the table for a type is the place of the `k`-th
descriptor of this type: the bytes there are its bytes. -/
theorem rom_lookup (ds : List Descr) (t : Nat) :
    (compileRom ds).1 = ds.flatMap Descr.bytes ∧
    ((compileRom ds).2 t).map (fun p => ((compileRom ds).1.drop p.1).take p.2) =
      (ds.filter fun d => d.ty = t).map Descr.bytes ∧
    ∀ (k : Nat) (p : Nat × Nat), ((compileRom ds).2 t)[k]? = some p →
      ∃ d : Descr, (ds.filter fun d => d.ty = t)[k]? = some d ∧ p.2 = d.bytes.length ∧
        ((compileRom ds).1.drop p.1).take p.2 = d.bytes := by
  obtain ⟨h1, h2⟩ := compileFrom_spec ds [] fun _ => []
  have hs := places_slice t ds []
  simp only [List.nil_append, List.length_nil] at h1 h2 hs
  have hm : ((compileRom ds).2 t).map (fun p => ((compileRom ds).1.drop p.1).take p.2) =
      (ds.filter fun d => d.ty = t).map Descr.bytes := by
    unfold compileRom; rw [h1, h2 t]; exact hs
  refine ⟨h1, hm, ?_⟩
  -- sizes
  have hsz : ∀ (ds : List Descr) (pos : Nat), (places t ds pos).map Prod.snd =
      (ds.filter fun d => d.ty = t).map (fun d => d.bytes.length) := by
    intro ds
    induction ds with
    | nil => intro pos; rfl
    | cons d ds ih =>
      intro pos
      unfold places
      rw [List.map_append, ih]
      by_cases e : d.ty = t
      · simp [e]
      · simp [e]
  intro k p hp
  have e1 := congrArg (fun l => l[k]?) hm
  have e2 := congrArg (fun l => l[k]?) (hsz ds 0)
  simp only [List.getElem?_map, hp, Option.map_some] at e1
  have h2' : (compileRom ds).2 t = places t ds 0 := h2 t
  rw [h2'] at hp
  simp only [List.getElem?_map, hp, Option.map_some] at e2
  cases hd : (ds.filter fun d => d.ty = t)[k]? with
  | none => rw [hd] at e1; cases e1
  | some d =>
    rw [hd] at e1 e2
    exact ⟨d, rfl, Option.some.inj e2, Option.some.inj e1⟩

/-! ## C379 -/

theorem bytesFrom_eq : ∀ (ds : List Descr) (n : Nat), bytesFrom ds n = (ds.flatMap Descr.bytes).take n := by
  intro ds
  induction ds with
  | nil => intro n; simp [bytesFrom]
  | cons d ds ih =>
    intro n
    unfold bytesFrom
    rw [List.flatMap_cons, List.take_append]
    split
    · have : n - d.bytes.length = 0 := by omega
      rw [this]; simp
    · split
      · next h => rw [← h]; simp
      · rw [ih, List.take_of_length_le (l := d.bytes) (by omega)]

theorem findFrom_spec (p : Descr → Bool) : ∀ (ds : List Descr) (i k : Nat),
    (∀ j d, findFrom p ds i k = some (j, d) → i ≤ j ∧ ds[j - i]? = some d ∧ p d = true ∧
      ((ds.take (j - i)).filter p).length = k) ∧
    (findFrom p ds i k = none ↔ (ds.filter p).length ≤ k) := by
  intro ds
  induction ds with
  | nil => intro i k; simp [findFrom]
  | cons d ds ih =>
    intro i k
    have shift : ∀ (k' : Nat) (j : Nat) (d' : Descr), findFrom p ds (i + 1) k' = some (j, d') →
        i ≤ j ∧ (d :: ds)[j - i]? = some d' ∧ p d' = true ∧
          (((d :: ds).take (j - i)).filter p).length = k' + (if p d then 1 else 0) := by
      intro k' j d' h
      obtain ⟨h1, h2, h3, h4⟩ := (ih (i + 1) k').1 j d' h
      have : j - i = (j - (i + 1)) + 1 := by omega
      refine ⟨by omega, by rw [this]; exact h2, h3, ?_⟩
      rw [this, List.take_succ_cons, List.filter_cons]
      split <;> simp [h4]
    unfold findFrom
    by_cases hp : p d = true
    · rw [if_pos hp]
      by_cases hk : k = 0
      · subst hk
        rw [if_pos rfl]
        refine ⟨?_, by simp [hp]⟩
        intro j d' h
        cases h
        simp [hp]
      · rw [if_neg hk]
        refine ⟨?_, ?_⟩
        · intro j d' h
          obtain ⟨h1, h2, h3, h4⟩ := shift _ j d' h
          rw [if_pos hp] at h4
          exact ⟨h1, h2, h3, by omega⟩
        · rw [(ih (i + 1) (k - 1)).2, List.filter_cons, if_pos hp, List.length_cons]
          omega
    · rw [if_neg hp]
      refine ⟨?_, ?_⟩
      · intro j d' h
        obtain ⟨h1, h2, h3, h4⟩ := shift _ j d' h
        rw [if_neg hp] at h4
        exact ⟨h1, h2, h3, h4⟩
      · rw [(ih (i + 1) k).2, List.filter_cons, if_neg hp]

theorem flatMap_take_drop (ds : List Descr) (i : Nat) :
    (ds.drop i).flatMap Descr.bytes = (ds.flatMap Descr.bytes).drop ((ds.take i).flatMap Descr.bytes).length := by
  induction i generalizing ds with
  | zero => simp
  | succ i ih =>
    cases ds with
    | nil => simp
    | cons d ds =>
      rw [List.drop_succ_cons, ih, List.take_succ_cons, List.flatMap_cons, List.flatMap_cons, List.length_append,
        List.drop_append]
      simp [List.drop_of_length_le, Nat.add_sub_cancel_left]

/-- **C379** The response to GET_DESCRIPTOR: the `k`-th descriptor of a type is found iff there are more than `k` of them, and
the bytes are the first `wLength` bytes (or less at the end) of the rom from the beginning of this descriptor. -/
theorem descr_bytes (ds : List Descr) (p : Descr → Bool) (k wLength : Nat) :
    (getDescriptor p ds k = none ↔ (ds.filter p).length ≤ k) ∧
    ∀ i d, getDescriptor p ds k = some (i, d) →
      ds[i]? = some d ∧ p d = true ∧ ((ds.take i).filter p).length = k ∧
      getBytes ds i wLength = ((compileRom ds).1.drop ((ds.take i).flatMap Descr.bytes).length).take wLength ∧
      (getBytes ds i d.bytes.length) = d.bytes := by
  obtain ⟨h1, h2⟩ := findFrom_spec p ds 0 k
  refine ⟨h2, ?_⟩
  intro i d h
  obtain ⟨_, a, b, c⟩ := h1 i d h
  rw [Nat.sub_zero] at a c
  refine ⟨a, b, c, ?_, ?_⟩
  · unfold getBytes
    rw [bytesFrom_eq, flatMap_take_drop, (rom_lookup ds 0).1]
  · unfold getBytes
    have hd : ds.drop i = d :: ds.drop (i + 1) := by
      obtain ⟨hi, e⟩ := List.getElem?_eq_some_iff.1 a
      rw [List.drop_eq_getElem_cons hi, e]
    rw [bytesFrom_eq, hd, List.flatMap_cons]
    simp

/-! ## C380 -/

/-- what the meta of an endpoint is, from its descriptors; `sel` selects the field with the transfer type -/
def MetaOk (sel : Nat × Nat × Nat → Nat) (l : List (Nat × Nat × Nat)) (m : Option Meta) : Prop :=
  match m with
  | none => l = []
  | some m => l ≠ [] ∧ (m.setup = true ↔ ∃ x ∈ l, sel x = 0) ∧ (m.iso = true ↔ ∃ x ∈ l, sel x = 1) ∧
      (m.bulk = true ↔ ∃ x ∈ l, sel x = 2) ∧ (m.interrupt = true ↔ ∃ x ∈ l, sel x = 3) ∧
      (∀ x ∈ l, x.2.2 ≤ m.mps) ∧ (m.mps = 0 ∨ ∃ x ∈ l, x.2.2 = m.mps) ∧ m.buf = 2 * m.mps

/-- **C380** (full statement) each endpoint has exactly the transfer types of its descriptors -/
def MetaSpec : Prop := ∀ (ds : List Descr) (e : Eps), metas ds [] = some e → ∀ addr dir, 0 < addr →
  MetaOk (fun x => x.1) (ofEp ds addr dir) (get e addr dir)

theorem get_modify (e : Eps) (a : Nat) (r : Bool) (m : Meta) (addr : Nat) (dir : Bool) (ha : a < e.length) :
    get (e.modify a fun p => if r then (p.1, some m) else (some m, p.2)) addr dir =
      if addr = a ∧ dir = r then some m else get e addr dir := by
  unfold get
  rw [List.getElem?_modify]
  by_cases h : addr = a
  · subst h
    rw [List.getElem?_eq_getElem ha]
    cases r <;> cases dir <;> simp
  · simp [h, Ne.symm h]

theorem get_extend (e : Eps) (n addr : Nat) (dir : Bool) : get (e ++ List.replicate n (none, none)) addr dir = get e addr dir := by
  unfold get
  by_cases h : addr < e.length
  · rw [List.getElem?_append_left h]
  · rw [List.getElem?_append_right (by omega), List.getElem?_replicate, List.getElem?_eq_none (by omega : e.length ≤ addr)]
    by_cases h2 : addr - e.length < n
    · rw [if_pos h2]; cases dir <;> rfl
    · rw [if_neg h2]

theorem ofEp_snoc (ds : List Descr) (d : Descr) (addr : Nat) (dir : Bool) :
    ofEp (ds ++ [d]) addr dir = ofEp ds addr dir ++ ofEp [d] addr dir := by
  unfold ofEp; rw [List.filterMap_append]

theorem update_ok (l : List (Nat × Nat × Nat)) (t s n : Nat) (m : Option Meta) (m' : Meta)
    (h : MetaOk (fun x => x.2.1) l m) (hu : update (m.getD (newMeta false 0)) s n = some m') :
    MetaOk (fun x => x.2.1) (l ++ [(t, s, n)]) (some m') := by
  have base : ∀ (m0 : Meta), m.getD (newMeta false 0) = m0 →
      ((m0.setup = true ↔ ∃ x ∈ l, x.2.1 = 0) ∧ (m0.iso = true ↔ ∃ x ∈ l, x.2.1 = 1) ∧
      (m0.bulk = true ↔ ∃ x ∈ l, x.2.1 = 2) ∧ (m0.interrupt = true ↔ ∃ x ∈ l, x.2.1 = 3) ∧
      (∀ x ∈ l, x.2.2 ≤ m0.mps) ∧ (m0.mps = 0 ∨ ∃ x ∈ l, x.2.2 = m0.mps)) := by
    intro m0 e
    cases m with
    | none =>
      unfold MetaOk at h
      simp only at h
      subst h
      simp only [Option.getD_none] at e
      subst e
      simp [newMeta]
    | some mm =>
      simp only [Option.getD_some] at e
      subst e
      exact ⟨h.2.1, h.2.2.1, h.2.2.2.1, h.2.2.2.2.1, h.2.2.2.2.2.1, h.2.2.2.2.2.2.1⟩
  obtain ⟨b1, b2, b3, b4, b5, b6⟩ := base _ rfl
  generalize m.getD (newMeta false 0) = m0 at hu b1 b2 b3 b4 b5 b6
  have hex : ∀ v, (∃ x ∈ l ++ [(t, s, n)], x.2.1 = v) ↔ (∃ x ∈ l, x.2.1 = v) ∨ s = v := by
    intro v
    constructor
    · rintro ⟨x, hx, e⟩
      rcases List.mem_append.1 hx with h | h
      · exact Or.inl ⟨x, h, e⟩
      · rw [List.mem_singleton] at h; subst h; exact Or.inr e
    · rintro (⟨x, hx, e⟩ | e)
      · exact ⟨x, List.mem_append_left _ hx, e⟩
      · exact ⟨(t, s, n), by simp, e⟩
  have hmx : (∀ x ∈ l ++ [(t, s, n)], x.2.2 ≤ max m0.mps n) ∧
      (max m0.mps n = 0 ∨ ∃ x ∈ l ++ [(t, s, n)], x.2.2 = max m0.mps n) := by
    refine ⟨?_, ?_⟩
    · intro x hx
      rcases List.mem_append.1 hx with h | h
      · have := b5 x h; omega
      · rw [List.mem_singleton] at h; subst h; exact Nat.le_max_right _ _
    · by_cases hlt : m0.mps ≤ n
      · exact Or.inr ⟨(t, s, n), by simp, by rw [Nat.max_eq_right hlt]⟩
      · rw [Nat.max_eq_left (by omega)]
        rcases b6 with h | ⟨x, hx, e⟩
        · omega
        · exact Or.inr ⟨x, List.mem_append_left _ hx, e⟩
  unfold MetaOk
  simp only [hex]
  have hlen : l ++ [(t, s, n)] ≠ [] := by simp
  unfold update at hu
  by_cases s0 : s = 0
  · subst s0; simp at hu; subst hu
    exact ⟨hlen, by simp, by rw [b2]; simp, by rw [b3]; simp, by rw [b4]; simp, hmx.1, hmx.2, Nat.mul_comm _ _⟩
  by_cases s1 : s = 1
  · subst s1; simp at hu; subst hu
    exact ⟨hlen, by rw [b1]; simp, by simp, by rw [b3]; simp, by rw [b4]; simp, hmx.1, hmx.2, Nat.mul_comm _ _⟩
  by_cases s2 : s = 2
  · subst s2; simp at hu; subst hu
    exact ⟨hlen, by rw [b1]; simp, by rw [b2]; simp, by simp, by rw [b4]; simp, hmx.1, hmx.2, Nat.mul_comm _ _⟩
  by_cases s3 : s = 3
  · subst s3; simp at hu; subst hu
    exact ⟨hlen, by rw [b1]; simp, by rw [b2]; simp, by rw [b3]; simp, by simp, hmx.1, hmx.2, Nat.mul_comm _ _⟩
  · simp [s0, s1, s2, s3] at hu

theorem step_ok (ds : List Descr) (e e' : Eps) (d : Descr)
    (h : ∀ addr dir, 0 < addr → MetaOk (fun x => x.2.1) (ofEp ds addr dir) (get e addr dir))
    (hs : metaStep e d = some e') :
    ∀ addr dir, 0 < addr → MetaOk (fun x => x.2.1) (ofEp (ds ++ [d]) addr dir) (get e' addr dir) := by
  intro addr dir hpos
  have h0 := h addr dir hpos
  rw [ofEp_snoc]
  unfold metaStep at hs
  cases hk : d.kind with
  | other =>
    rw [hk] at hs
    cases hs
    simpa [ofEp, hk] using h0
  | device mps =>
    rw [hk] at hs
    simp only at hs
    split at hs
    · next he =>
      cases hs
      rw [List.isEmpty_iff] at he
      subst he
      have : get [(some (newMeta true mps), some (newMeta true mps))] addr dir = get [] addr dir := by
        unfold get; rw [List.getElem?_eq_none (by simp; omega), List.getElem?_eq_none (by simp)]
      rw [this]
      simpa [ofEp, hk] using h0
    · cases hs
  | endpoint a r t s n =>
    rw [hk] at hs
    simp only at hs
    split at hs
    · cases hs
    next ha =>
    have hb := h a r (by omega)
    rw [get_extend] at hs
    cases hu : update ((get e a r).getD (newMeta false 0)) s n with
    | none => rw [hu] at hs; cases hs
    | some m' =>
      rw [hu] at hs
      simp only [Option.some.injEq] at hs
      rw [← hs, get_modify _ _ _ _ _ _ (by rw [List.length_append, List.length_replicate]; omega), get_extend]
      by_cases hc : addr = a ∧ dir = r
      · rw [if_pos hc]
        obtain ⟨rfl, rfl⟩ := hc
        have : ofEp [d] addr dir = [(t, s, n)] := by simp [ofEp, hk]
        rw [this]
        exact update_ok _ t s n _ m' hb hu
      · rw [if_neg hc]
        have : ofEp [d] addr dir = [] := by
          have hc' : ¬ (a = addr ∧ r = dir) := fun h => hc ⟨h.1.symm, h.2.symm⟩
          simp [ofEp, hk, hc']
        rw [this, List.append_nil]
        exact h0

theorem metas_ok : ∀ (ds pre : List Descr) (e e' : Eps),
    (∀ addr dir, 0 < addr → MetaOk (fun x => x.2.1) (ofEp pre addr dir) (get e addr dir)) → metas ds e = some e' →
    ∀ addr dir, 0 < addr → MetaOk (fun x => x.2.1) (ofEp (pre ++ ds) addr dir) (get e' addr dir) := by
  intro ds
  induction ds with
  | nil => intro pre e e' h he; cases he; simpa using h
  | cons d ds ih =>
    intro pre e e' h he
    unfold metas at he
    cases hs : metaStep e d with
    | none => rw [hs] at he; cases he
    | some e1 =>
      rw [hs] at he
      have := ih (pre ++ [d]) e1 e' (step_ok pre e e1 d h hs) he
      simpa [List.append_assoc] using this

/-- **C380** An endpoint is present iff it has a descriptor, its maximal packet size is the maximum of its descriptors, the
buffer has two packets. The transfer types are right iff `synchronisationType` of the descriptors is their transfer type. -/
theorem meta_partial (ds : List Descr) (e : Eps) (h : metas ds [] = some e) (addr : Nat) (dir : Bool) (hpos : 0 < addr) :
    MetaOk (fun x => x.2.1) (ofEp ds addr dir) (get e addr dir) ∧
    ((∀ x ∈ ofEp ds addr dir, x.1 = x.2.1) → MetaOk (fun x => x.1) (ofEp ds addr dir) (get e addr dir)) := by
  have h1 := metas_ok ds [] [] e (by intro a r _; rfl) h addr dir hpos
  rw [List.nil_append] at h1
  refine ⟨h1, ?_⟩
  intro heq
  have hex : ∀ v, (∃ x ∈ ofEp ds addr dir, x.2.1 = v) ↔ ∃ x ∈ ofEp ds addr dir, x.1 = v := by
    intro v
    constructor
    · rintro ⟨x, hx, e⟩; exact ⟨x, hx, by rw [heq x hx]; exact e⟩
    · rintro ⟨x, hx, e⟩; exact ⟨x, hx, by rw [← heq x hx]; exact e⟩
  unfold MetaOk at h1 ⊢
  split
  · next hn => rw [hn] at h1; exact h1
  · next m hm => rw [hm] at h1; simpa only [hex] using h1

/-- **C380 violated**: a bulk IN endpoint (no synchronisation) is marked as a control endpoint -/
theorem meta_violated : ¬ MetaSpec := by
  intro h
  have := h [⟨1, [], .device 64⟩, ⟨5, [], .endpoint 1 true 2 0 512⟩]
    [(some (newMeta true 64), some (newMeta true 64)), (none, some ⟨true, false, false, false, 512, 1024⟩)]
    (by decide) 1 true (by decide)
  have h2 := this.2.1.1 rfl
  obtain ⟨x, hx, e⟩ := h2
  have hx' : x ∈ [((2, 0, 512) : Nat × Nat × Nat)] := hx
  rw [List.mem_singleton] at hx'
  subst hx'
  cases e

/-! ## C381 -/

theorem toUnits_bytes : ∀ (l : List Nat), toUnits (l.flatMap unitBytes) = l := by
  intro l
  induction l with
  | nil => rfl
  | cons u l ih =>
    rw [List.flatMap_cons]
    have : unitBytes u ++ l.flatMap unitBytes = (u % 256) :: (u / 256) :: l.flatMap unitBytes := rfl
    rw [this, toUnits, ih]
    have := Nat.mod_add_div u 256
    rw [this]

theorem decode_low (u : Nat) (r : List Nat) (h : ¬ (0xD800 ≤ u ∧ u < 0xDC00)) : decodeUnits (u :: r) = u :: decodeUnits r := by
  cases r with
  | nil => simp [decodeUnits]
  | cons v r => rw [decodeUnits, if_neg h]

theorem decode_units : ∀ (s : List Nat), IsStr s → decodeUnits (s.flatMap units) = s := by
  intro s
  induction s with
  | nil => intro _; simp [decodeUnits]
  | cons c s ih =>
    intro h
    have hc := h c List.mem_cons_self
    have hi := ih fun x hx => h x (List.mem_cons_of_mem _ hx)
    rw [List.flatMap_cons]
    by_cases hlt : c < 0x10000
    · rw [show units c = [c] from if_pos hlt, List.singleton_append, decode_low _ _ (by omega), hi]
    · rw [show units c = [0xD800 + (c - 0x10000) / 0x400, 0xDC00 + (c - 0x10000) % 0x400] from if_neg hlt]
      have hb : (c - 0x10000) / 0x400 < 0x400 := Nat.div_lt_of_lt_mul (by omega)
      have hm := Nat.mod_add_div (c - 0x10000) 0x400
      have e : ∀ (a b : Nat) (r : List Nat), [a, b] ++ r = a :: b :: r := fun _ _ _ => rfl
      have hv : 0x10000 + (0xD800 + (c - 0x10000) / 0x400 - 0xD800) * 0x400 + (0xDC00 + (c - 0x10000) % 0x400 - 0xDC00) = c := by
        omega
      rw [e, decodeUnits, if_pos (by omega), hi, hv]

/-- **C381** (full statement) the host gets the string of the descriptor -/
def StringSpec : Prop := ∀ (s d : List Nat), IsStr s → stringDescr s = some d → hostString d = s

/-- **C381** The host gets the string with the byte order mark U+FEFF in front, for all strings (also with surrogate pairs);
`bLength` is the length of the descriptor and all its values are bytes. -/
theorem string_partial (s d : List Nat) (hs : IsStr s) (h : stringDescr s = some d) :
    hostString d = 0xFEFF :: s ∧ d.headD 0 = d.length ∧ d[1]? = some 3 ∧ ∀ x ∈ d, x < 256 := by
  unfold stringDescr at h
  simp only at h
  split at h
  · next hl =>
    cases h
    refine ⟨?_, by simp; omega, rfl, ?_⟩
    rotate_left
    · intro x hx
      rcases List.mem_cons.1 hx with rfl | hx
      · exact hl
      rcases List.mem_cons.1 hx with rfl | hx
      · omega
      obtain ⟨u, hu, hx⟩ := List.mem_flatMap.1 hx
      have hul : u < 65536 := by
        rcases List.mem_cons.1 hu with rfl | hu
        · omega
        obtain ⟨c, hc, hu⟩ := List.mem_flatMap.1 hu
        have := hs c hc
        unfold units at hu
        split at hu
        · simp only [List.mem_singleton] at hu; omega
        · simp only [List.mem_cons, List.not_mem_nil, or_false] at hu; omega
      simp only [unitBytes, List.mem_cons, List.not_mem_nil, or_false] at hx
      omega
    unfold hostString
    rw [List.headD_cons, List.take_of_length_le (by simp; omega)]
    have : ((2 + (encodeUtf16 s).length) :: 3 :: encodeUtf16 s).drop 2 = encodeUtf16 s := rfl
    rw [this]
    unfold encodeUtf16
    rw [toUnits_bytes, decode_low _ _ (by omega), decode_units s hs]
  · cases h

/-- **C381 violated** for each string -/
theorem string_violated : ¬ StringSpec := by
  intro h
  have hs : IsStr [0x61] := by intro c hc; simp at hc; omega
  have hd : stringDescr [0x61] = some [6, 3, 255, 254, 97, 0] := by decide
  have h1 := h _ _ hs hd
  have h2 := (string_partial _ _ hs hd).1
  rw [h1] at h2
  cases h2

-- non-vacuity
def exDs : List Descr :=
  [⟨1, [4, 1, 0, 2], .device 64⟩, ⟨2, [3, 2, 7], .other⟩, ⟨5, [2, 5], .endpoint 2 false 1 1 16⟩,
   ⟨5, [3, 5, 1], .endpoint 2 false 1 1 32⟩, ⟨3, [2, 3], .other⟩]

example : (compileRom exDs).2 5 = [(7, 2), (9, 3)] := by decide
example : getDescriptor (fun d => d.ty == 5) exDs 1 = some (3, ⟨5, [3, 5, 1], .endpoint 2 false 1 1 32⟩) := by decide
example : getBytes exDs 1 6 = [3, 2, 7, 2, 5, 3] := by decide
example : metas exDs [] = some [(some (newMeta true 64), some (newMeta true 64)), (none, none),
    (some ⟨false, false, false, true, 32, 64⟩, none)] := by decide
example : ∀ x ∈ ofEp exDs 2 false, x.1 = x.2.1 := by decide
example : IsStr [0x1F600, 0x41] ∧ stringDescr [0x1F600, 0x41] = some [10, 3, 255, 254, 0x3D, 0xD8, 0, 0xDE, 0x41, 0] :=
  ⟨by intro c hc; simp at hc; omega, by decide⟩

end Verif.UsbBundle
