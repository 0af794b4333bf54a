import Verif.DbgMon
/-!
# Properties C345-C349 of `DebugBusMonitor` and its tool
-/
namespace Verif.DbgMon

/-! ## Bytes and words -/

theorem fromBytes_toBytes (n : Nat) : ∀ v, fromBytes (toBytes n v) = v % 2 ^ (8 * n) := by
  induction n with
  | zero => intro v; simp [toBytes, fromBytes, Nat.mod_one]
  | succ n ih =>
    intro v
    show v % 256 + 256 * fromBytes (toBytes n (v / 256)) = _
    rw [ih, show 2 ^ (8 * (n + 1)) = 256 * 2 ^ (8 * n) by rw [Nat.mul_add, Nat.pow_add]; omega, Nat.mod_mul]

theorem toBytes_fromBytes (bs : List Nat) (h : ∀ b ∈ bs, b < 256) : toBytes bs.length (fromBytes bs) = bs := by
  induction bs with
  | nil => rfl
  | cons b bs ih =>
    have hb := h b (by simp)
    show (b + 256 * fromBytes bs) % 256 :: toBytes bs.length ((b + 256 * fromBytes bs) / 256) = _
    rw [Nat.add_mul_mod_self_left, Nat.mod_eq_of_lt hb, Nat.add_mul_div_left _ _ (by decide), Nat.div_eq_of_lt hb, Nat.zero_add,
      ih fun b q => h b (by simp [q])]

theorem toBytes_mod (n : Nat) : ∀ v, toBytes n (v % 2 ^ (8 * n)) = toBytes n v := by
  induction n with
  | zero => intro v; rfl
  | succ n ih =>
    intro v
    show _ % 256 :: toBytes n (_ / 256) = v % 256 :: toBytes n (v / 256)
    have e : 2 ^ (8 * (n + 1)) = 256 * 2 ^ (8 * n) := by rw [Nat.mul_add, Nat.pow_add]; omega
    rw [e, Nat.mod_mul_right_mod, Nat.mod_mul_right_div_self, ih]

theorem joinWords_range (k : Nat) : ∀ X, joinWords ((List.range k).map fun i => X / 2 ^ (32 * i) % 2 ^ 32) = X % 2 ^ (32 * k) := by
  induction k with
  | zero => intro X; simp [joinWords, Nat.mod_one]
  | succ k ih =>
    intro X
    rw [List.range_succ_eq_map, List.map_cons, List.map_map]
    show joinWords ((List.range k).map _) * 2 ^ 32 + X / 2 ^ (32 * 0) % 2 ^ 32 = _
    have e : (List.range k).map ((fun i => X / 2 ^ (32 * i) % 2 ^ 32) ∘ Nat.succ) =
        (List.range k).map fun i => X / 2 ^ 32 / 2 ^ (32 * i) % 2 ^ 32 := by
      apply List.map_congr_left
      intro i _
      show X / 2 ^ (32 * (i + 1)) % 2 ^ 32 = _
      rw [Nat.div_div_eq_div_mul, ← Nat.pow_add, show 32 + 32 * i = 32 * (i + 1) by omega]
    rw [e, ih, show 2 ^ (32 * (k + 1)) = 2 ^ 32 * 2 ^ (32 * k) by rw [← Nat.pow_add]; congr 1; omega, Nat.mod_mul,
      Nat.mul_zero, Nat.pow_zero, Nat.div_one, Nat.mul_comm, Nat.add_comm]

theorem joinWords_append (a b : List Nat) : joinWords (a ++ b) = joinWords a + 2 ^ (32 * a.length) * joinWords b := by
  induction a with
  | nil => simp [joinWords]
  | cons w a ih =>
    show joinWords (a ++ b) * 2 ^ 32 + w = joinWords a * 2 ^ 32 + w + 2 ^ (32 * (a.length + 1)) * joinWords b
    rw [ih, Nat.mul_add 32, Nat.pow_add, Nat.add_mul, Nat.mul_one, Nat.mul_right_comm, Nat.add_right_comm]

theorem read_eq (m addr size : Nat) : read m addr size = toBytes size (m / 2 ^ (8 * addr)) := by
  unfold read
  rw [← toBytes_mod size (m / 2 ^ (8 * addr))]
  congr 1
  have e : ∀ k, ((List.range k).map fun i => word m (addr + 4 * i)) =
      (List.range k).map fun i => m / 2 ^ (8 * addr) / 2 ^ (32 * i) % 2 ^ 32 := by
    intro k
    apply List.map_congr_left
    intro i _
    unfold word
    rw [Nat.div_div_eq_div_mul, ← Nat.pow_add, show 8 * addr + 32 * i = 8 * (addr + 4 * i) by omega]
  rw [e]
  generalize m / 2 ^ (8 * addr) = X
  unfold wordsToInt
  by_cases h : size % 4 = 0
  · rw [if_pos h, joinWords_range]
    congr 2; omega
  · rw [if_neg h]
    obtain ⟨k, hk⟩ : ∃ k, (size + 3) / 4 = k + 1 := ⟨size / 4, by omega⟩
    rw [hk, List.range_succ, List.map_append]
    simp only [List.map_cons, List.map_nil, List.getLast?_append, List.getLast?_singleton, Option.some_or, List.dropLast_append_cons,
      List.dropLast_singleton, List.append_nil]
    rw [joinWords_append, joinWords_range, List.length_map, List.length_range]
    show _ + _ * (0 * 2 ^ 32 + _) = _
    rw [Nat.zero_mul, Nat.zero_add, Nat.mod_mod_of_dvd _ (Nat.pow_dvd_pow 2 (show 8 * (size % 4) ≤ 32 by omega)),
      ← Nat.mod_mul, ← Nat.pow_add]
    congr 2; omega

theorem readInt_eq (m addr size : Nat) : readInt m addr size = m / 2 ^ (8 * addr) % 2 ^ (8 * size) := by
  unfold readInt; rw [read_eq, fromBytes_toBytes]

/-! ## Address space -/

theorem lt_closest (dw : Nat) : 64 + dw < closest dw ∧ closest dw % 8 = 0 := by
  unfold closest bitLen
  rw [if_neg (by omega)]
  refine ⟨Nat.lt_log2_self, ?_⟩
  have h : 6 ≤ Nat.log2 (64 + dw) := (Nat.le_log2 (by omega)).2 (by omega)
  obtain ⟨a, ha⟩ := Nat.exists_eq_add_of_le h
  rw [ha, show 6 + a + 1 = 3 + (a + 4) by omega, Nat.pow_add, show 2 ^ 3 = 8 from rfl]
  exact Nat.mul_mod_right _ _

theorem space_div (json : List Nat) (dw data : Nat) (hl : json.length < 2 ^ 32) (ho : metaOff dw < 2 ^ 32) :
    space json dw data % 2 ^ 32 = json.length ∧ space json dw data / 2 ^ 32 % 2 ^ 32 = metaOff dw ∧
    space json dw data / 2 ^ 64 = data + 2 ^ (closest dw - 64) * fromBytes json := by
  have hc := (lt_closest dw).1
  obtain ⟨c, hc'⟩ := Nat.exists_eq_add_of_le (show 64 ≤ closest dw by omega)
  have e : space json dw data = json.length + 2 ^ 32 * (metaOff dw + 2 ^ 32 * (data + 2 ^ c * fromBytes json)) := by
    unfold space
    rw [hc', Nat.pow_add, Nat.mul_assoc]
    omega
  have ec : closest dw - 64 = c := by omega
  rw [e, ec]
  generalize data + 2 ^ c * fromBytes json = Z
  refine ⟨?_, ?_, ?_⟩
  · omega
  · omega
  · omega

theorem space_high (json : List Nat) (dw data : Nat) (hl : json.length < 2 ^ 32) (ho : metaOff dw < 2 ^ 32) (hd : data < 2 ^ dw) :
    space json dw data / 2 ^ closest dw = fromBytes json := by
  obtain ⟨-, -, h3⟩ := space_div json dw data hl ho
  have hc := (lt_closest dw).1
  have e : 2 ^ closest dw = 2 ^ 64 * 2 ^ (closest dw - 64) := by rw [← Nat.pow_add]; congr 1; omega
  rw [e, ← Nat.div_div_eq_div_mul, h3, Nat.add_mul_div_left _ _ (Nat.two_pow_pos _), Nat.div_eq_of_lt, Nat.zero_add]
  exact Nat.lt_of_lt_of_le hd (Nat.pow_le_pow_right (by decide) (by omega))

/-- **C345** The tool reads exactly the text which is stored in the meta memory (length and offset fit into their registers). -/
theorem meta_roundtrip (json : List Nat) (hj : ∀ b ∈ json, b < 256) (dw data : Nat) (hl : json.length < 2 ^ 32)
    (ho : metaOff dw < 2 ^ 32) (hd : data < 2 ^ dw) : loadMeta (space json dw data) = json := by
  obtain ⟨h1, h2, h3⟩ := space_div json dw data hl ho
  unfold loadMeta
  rw [readInt_eq, readInt_eq, read_eq, show 8 * 4 = 32 from rfl, h2, Nat.mul_zero, Nat.pow_zero, Nat.div_one, h1]
  have : 8 * metaOff dw = closest dw := by have := (lt_closest dw).2; unfold metaOff; omega
  rw [this, space_high json dw data hl ho hd, toBytes_fromBytes _ hj]

example : metaOff 100 = 32 ∧ loadMeta (space [91, 93] 100 77) = [91, 93] := by decide +kernel

/-! ## Positions of signals -/

mutual
/-- The description `s` leads to the values of `v` in `data`. -/
def Spec.Of (data : Nat) : Spec → V → Prop
  | .bits o w, .sig w' v => w = w' ∧ selectBits data o w = v
  | .mems ss, .node ms => ss.Of data ms
  | _, _ => False
def Ss.Of (data : Nat) : Ss → Ms → Prop
  | .nil, .nil => True
  | .cons n s ss, .cons n' v ms => n = n' ∧ s.Of data v ∧ ss.Of data ms
  | _, _ => False
end

mutual
theorem V.pack_lt : ∀ v : V, v.Fits → v.pack < 2 ^ v.width
  | .sig _ _, h => h
  | .node ms, h => Ms.pack_lt ms h
theorem Ms.pack_lt : ∀ v : Ms, v.Fits → v.pack < 2 ^ v.width
  | .nil, _ => Nat.two_pow_pos _
  | .cons _ v ms, h => by
    have h1 := V.pack_lt v h.1
    have h2 := Ms.pack_lt ms h.2
    show v.pack + 2 ^ v.width * ms.pack < 2 ^ (v.width + ms.width)
    rw [Nat.pow_add]
    calc v.pack + 2 ^ v.width * ms.pack < 2 ^ v.width * (ms.pack + 1) := by rw [Nat.mul_add]; omega
      _ ≤ _ := Nat.mul_le_mul_left _ h2
end

mutual
theorem V.toSpec_fst : ∀ (v : V) (o : Nat), (v.toSpec o).1 = o + v.width
  | .sig _ _, _ => rfl
  | .node ms, o => Ms.toSpec_fst ms o
theorem Ms.toSpec_fst : ∀ (v : Ms) (o : Nat), (v.toSpec o).1 = o + v.width
  | .nil, _ => rfl
  | .cons _ v ms, o => by
    show (ms.toSpec (v.toSpec o).1).1 = o + (v.width + ms.width)
    rw [Ms.toSpec_fst, V.toSpec_fst]; omega
end

/-- Two fields next to each other. -/
theorem split_bits {data o a b p q : Nat} (h : data / 2 ^ o % 2 ^ (a + b) = p + 2 ^ a * q) (hp : p < 2 ^ a) :
    data / 2 ^ o % 2 ^ a = p ∧ data / 2 ^ (o + a) % 2 ^ b = q := by
  rw [Nat.pow_add, Nat.mod_mul] at h
  have h1 : data / 2 ^ o % 2 ^ a = p := by
    have := congrArg (· % 2 ^ a) h
    simp only [Nat.add_mul_mod_self_left, Nat.mod_mod] at this
    rw [this, Nat.mod_eq_of_lt hp]
  refine ⟨h1, ?_⟩
  rw [h1] at h
  have h2 := Nat.add_left_cancel h
  rw [Nat.div_div_eq_div_mul, ← Nat.pow_add] at h2
  exact Nat.eq_of_mul_eq_mul_left (Nat.two_pow_pos _) h2

mutual
theorem V.of (data : Nat) : ∀ (v : V) (o : Nat), v.Fits → data / 2 ^ o % 2 ^ v.width = v.pack → (v.toSpec o).2.Of data v
  | .sig _ _, _, _, h => ⟨rfl, h⟩
  | .node ms, o, hf, h => Ms.of data ms o hf h
theorem Ms.of (data : Nat) : ∀ (v : Ms) (o : Nat), v.Fits → data / 2 ^ o % 2 ^ v.width = v.pack → (v.toSpec o).2.Of data v
  | .nil, _, _, _ => trivial
  | .cons n v ms, o, hf, h => by
    obtain ⟨h1, h2⟩ := split_bits h (V.pack_lt v hf.1)
    refine ⟨rfl, V.of data v o hf.1 h1, ?_⟩
    have := Ms.of data ms (o + v.width) hf.2 h2
    rwa [← V.toSpec_fst] at this
end

mutual
/-- Records in JSON. -/
def JT.recs : JT → List (Nat × Spec)
  | .mk i _ s kids => (i, s) :: kids.recs
def JF.recs : JF → List (Nat × Spec)
  | .nil => []
  | .cons t ts => t.recs ++ ts.recs
end

/-- C346: the description of each monitored interface in the meta memory leads to its value in the data memory. -/
def MetaDescribesData : Prop :=
  ∀ (regs : List (Option V)) (f : Forest), (∀ v, some v ∈ regs → v.Fits) → Registered regs f →
    ∀ i s v, (i, s) ∈ (f.toJson 0).2.recs → regs[i]? = some (some v) → s.Of (packL regs) v

theorem packL_append (a b : List (Option V)) :
    packL (a ++ b) = packL a + 2 ^ widthL a * packL b ∧ widthL (a ++ b) = widthL a + widthL b := by
  induction a with
  | nil => simp [packL, widthL]
  | cons x a ih =>
    cases x with
    | none => exact ih
    | some v =>
      refine ⟨?_, ?_⟩
      · show v.pack + 2 ^ v.width * packL (a ++ b) = v.pack + 2 ^ v.width * packL a + 2 ^ (v.width + widthL a) * packL b
        rw [ih.1, Nat.mul_add, Nat.pow_add, Nat.mul_assoc, Nat.add_assoc]
      · show v.width + widthL (a ++ b) = v.width + widthL a + widthL b
        rw [ih.2, Nat.add_assoc]

theorem packL_lt (l : List (Option V)) (h : ∀ v, some v ∈ l → v.Fits) : packL l < 2 ^ widthL l := by
  induction l with
  | nil => exact Nat.two_pow_pos _
  | cons x l ih =>
    have := ih fun v q => h v (by simp [q])
    cases x with
    | none => exact this
    | some v =>
      have h1 := V.pack_lt v (h v (by simp))
      show v.pack + 2 ^ v.width * packL l < 2 ^ (v.width + widthL l)
      rw [Nat.pow_add]
      calc v.pack + 2 ^ v.width * packL l < 2 ^ v.width * (packL l + 1) := by rw [Nat.mul_add]; omega
        _ ≤ _ := Nat.mul_le_mul_left _ this

/-- Interfaces of the records, parent first. -/
def Tree.ios (t : Tree) : List (Option V) := t.pre.map Prod.snd
def Forest.ios (t : Forest) : List (Option V) := t.pre.map Prod.snd
theorem Forest.ios_cons (t : Tree) (ts : Forest) : (Forest.cons t ts).ios = t.ios ++ ts.ios := List.map_append ..
theorem Tree.ios_mk (i n io) (kids : Forest) : (Tree.mk i n io kids).ios = io :: kids.ios := rfl

theorem ioSpec_fst (io : Option V) (o : Nat) : (ioSpec io o).1 = o + widthL [io] := by
  cases io with
  | none => rfl
  | some v => exact V.toSpec_fst v o

mutual
theorem Tree.toJson_fst : ∀ (t : Tree) (o : Nat), (t.toJson o).1 = o + widthL t.ios
  | .mk i n io kids, o => by
    show (kids.toJson (ioSpec io o).1).1 = _
    rw [Forest.toJson_fst, ioSpec_fst, Tree.ios_mk, show io :: kids.ios = [io] ++ kids.ios from rfl, (packL_append _ _).2]
    omega
theorem Forest.toJson_fst : ∀ (t : Forest) (o : Nat), (t.toJson o).1 = o + widthL t.ios
  | .nil, _ => rfl
  | .cons t ts, o => by
    show (ts.toJson (t.toJson o).1).1 = _
    rw [Forest.toJson_fst, Tree.toJson_fst, Forest.ios_cons, (packL_append _ _).2]
    omega
end

/-- Expected description of a record. -/
def ioOf (data : Nat) (s : Spec) : Option V → Prop
  | none => s = .mems .nil
  | some v => s.Of data v

theorem ioSpec_of (data : Nat) (io : Option V) (o : Nat) (hf : ∀ v, some v ∈ [io] → v.Fits)
    (h : data / 2 ^ o % 2 ^ widthL [io] = packL [io]) : ioOf data (ioSpec io o).2 io := by
  cases io with
  | none => rfl
  | some v =>
    apply V.of data v o (hf v (by simp))
    simpa [widthL, packL] using h

mutual
/-- Each record is followed by its description. -/
def Tree.Desc (data : Nat) : Tree → JT → Prop
  | .mk i n io kids, .mk i' n' s kids' => i = i' ∧ n = n' ∧ ioOf data s io ∧ kids.Desc data kids'
def Forest.Desc (data : Nat) : Forest → JF → Prop
  | .nil, .nil => True
  | .cons t ts, .cons t' ts' => t.Desc data t' ∧ ts.Desc data ts'
  | _, _ => False
end

mutual
theorem Tree.desc (data : Nat) : ∀ (t : Tree) (o : Nat), (∀ v, some v ∈ t.ios → v.Fits) →
    data / 2 ^ o % 2 ^ widthL t.ios = packL t.ios → t.Desc data (t.toJson o).2
  | .mk i n io kids, o, hf, h => by
    rw [Tree.ios_mk, show io :: kids.ios = [io] ++ kids.ios from rfl] at h hf
    rw [(packL_append _ _).1, (packL_append _ _).2] at h
    have hf1 : ∀ v, some v ∈ [io] → v.Fits := fun v q => hf v (List.mem_append_left _ q)
    obtain ⟨h1, h2⟩ := split_bits h (packL_lt _ hf1)
    refine ⟨rfl, rfl, ioSpec_of data io o hf1 h1, ?_⟩
    have := Forest.desc data kids (o + widthL [io]) (fun v q => hf v (List.mem_append_right _ q)) h2
    rwa [← ioSpec_fst] at this
theorem Forest.desc (data : Nat) : ∀ (t : Forest) (o : Nat), (∀ v, some v ∈ t.ios → v.Fits) →
    data / 2 ^ o % 2 ^ widthL t.ios = packL t.ios → t.Desc data (t.toJson o).2
  | .nil, _, _, _ => trivial
  | .cons t ts, o, hf, h => by
    rw [Forest.ios_cons] at h hf
    rw [(packL_append _ _).1, (packL_append _ _).2] at h
    have hf1 : ∀ v, some v ∈ t.ios → v.Fits := fun v q => hf v (List.mem_append_left _ q)
    obtain ⟨h1, h2⟩ := split_bits h (packL_lt _ hf1)
    refine ⟨Tree.desc data t o hf1 h1, ?_⟩
    have := Forest.desc data ts (o + widthL t.ios) (fun v q => hf v (List.mem_append_right _ q)) h2
    rwa [← Tree.toJson_fst] at this
end

mutual
theorem Tree.desc_recs (data : Nat) : ∀ (t : Tree) (j : JT), t.Desc data j → ∀ i s, (i, s) ∈ j.recs →
    ∃ io, (i, io) ∈ t.pre ∧ ioOf data s io
  | .mk i n io kids, .mk i' n' s' kids', h, i0, s0, hm => by
    rcases List.mem_cons.1 hm with q | q
    · cases q
      exact ⟨io, by rw [← h.1]; exact List.mem_cons_self .., h.2.2.1⟩
    · obtain ⟨io', a, b⟩ := Forest.desc_recs data kids kids' h.2.2.2 i0 s0 q
      exact ⟨io', List.mem_cons_of_mem _ a, b⟩
theorem Forest.desc_recs (data : Nat) : ∀ (t : Forest) (j : JF), t.Desc data j → ∀ i s, (i, s) ∈ j.recs →
    ∃ io, (i, io) ∈ t.pre ∧ ioOf data s io
  | .nil, .nil, _, _, _, hm => by cases hm
  | .nil, .cons _ _, h, _, _, _ => absurd h (by simp [Forest.Desc])
  | .cons _ _, .nil, h, _, _, _ => absurd h (by simp [Forest.Desc])
  | .cons t ts, .cons t' ts', h, i0, s0, hm => by
    rcases List.mem_append.1 hm with q | q
    · obtain ⟨io', a, b⟩ := Tree.desc_recs data t t' h.1 i0 s0 q
      exact ⟨io', List.mem_append_left _ a, b⟩
    · obtain ⟨io', a, b⟩ := Forest.desc_recs data ts ts' h.2 i0 s0 q
      exact ⟨io', List.mem_append_right _ a, b⟩
end

/-- Records were registered parent first, before the next sibling of the parent. -/
def InOrder (regs : List (Option V)) (f : Forest) : Prop := f.pre.map Prod.fst = List.range regs.length

theorem ios_eq {regs : List (Option V)} {f : Forest} (hr : Registered regs f) (ho : InOrder regs f) : f.ios = regs := by
  have hlen : f.pre.length = regs.length := by
    have := congrArg List.length ho
    simpa using this
  apply List.ext_getElem?
  intro n
  unfold Forest.ios
  rw [List.getElem?_map]
  by_cases hn : n < f.pre.length
  · have h1 : (f.pre.map Prod.fst)[n]? = some n := by rw [show f.pre.map Prod.fst = _ from ho]; exact List.getElem?_range (by omega)
    rw [List.getElem?_map, List.getElem?_eq_getElem hn] at h1
    rw [List.getElem?_eq_getElem hn]
    have h2 : (f.pre[n]).1 = n := by simpa using h1
    have h3 := hr.2 (f.pre[n]).1 (f.pre[n]).2 (List.getElem_mem hn)
    rw [h2] at h3
    rw [h3]; rfl
  · rw [List.getElem?_eq_none (by omega), List.getElem?_eq_none (by omega)]; rfl

/-- **C346** holds if the records are registered parent first. -/
theorem meta_describes_partial (regs : List (Option V)) (f : Forest) (hf : ∀ v, some v ∈ regs → v.Fits) (hr : Registered regs f)
    (ho : InOrder regs f) (i : Nat) (s : Spec) (v : V) (hm : (i, s) ∈ (f.toJson 0).2.recs) (hi : regs[i]? = some (some v)) :
    s.Of (packL regs) v := by
  have he := ios_eq hr ho
  have hd := Forest.desc (packL regs) f 0 (by rw [he]; exact hf) (by
    rw [he, Nat.pow_zero, Nat.div_one]; exact Nat.mod_eq_of_lt (packL_lt _ hf))
  obtain ⟨io, a, b⟩ := Forest.desc_recs _ _ _ hd i s hm
  have := hr.2 i io a
  rw [hi] at this
  cases this
  exact b

/-- **C346** violated: the parent is registered, then another record, then the child; the meta memory has the child first. -/
theorem not_metaDescribesData : ¬ MetaDescribesData := by
  intro h
  have := h [some (.sig 8 1), some (.sig 8 2), some (.sig 8 3)]
    (.cons (.mk 0 "a" (some (.sig 8 1)) (.cons (.mk 2 "c" (some (.sig 8 3)) .nil) .nil)) (.cons (.mk 1 "b" (some (.sig 8 2)) .nil) .nil))
    (by
      intro v hv
      simp only [List.mem_cons, List.not_mem_nil, or_false, Option.some.injEq] at hv
      rcases hv with rfl | rfl | rfl <;> simp [V.Fits])
    ⟨by decide, by
      intro i io hm
      simp only [Forest.pre, Tree.pre, List.mem_cons, List.not_mem_nil, or_false, List.append_nil, List.cons_append, List.nil_append,
        Prod.mk.injEq] at hm
      rcases hm with ⟨rfl, rfl⟩ | ⟨rfl, rfl⟩ | ⟨rfl, rfl⟩ <;> rfl⟩
    1 (.bits 16 8) (.sig 8 2) (by simp [Forest.toJson, Tree.toJson, JF.recs, JT.recs, ioSpec, V.toSpec]) rfl
  revert this
  simp [Spec.Of, packL, V.pack, V.width, selectBits]

/-! ## Output of the tool -/

mutual
/-- Expected output. -/
def V.show (ind : Nat) (name : String) : V → List Line
  | .sig w v => [⟨ind, name, some (w, v)⟩]
  | .node ms => ⟨ind, name, none⟩ :: ms.show (ind + 1)
def Ms.show (ind : Nat) : Ms → List Line
  | .nil => []
  | .cons n v ms => v.show ind n ++ ms.show ind
end

mutual
def Tree.show (ind : Nat) : Tree → List Line
  | .mk _ n io kids => (match io with | none => [⟨ind, n, none⟩] | some v => v.show ind n) ++ kids.show (ind + 1)
def Forest.show (ind : Nat) : Forest → List Line
  | .nil => []
  | .cons t ts => t.show ind ++ ts.show ind
end

mutual
/-- Records of a single signal have no children. -/
def Tree.SigLeaf : Tree → Prop
  | .mk _ _ io kids => ((∃ w v, io = some (.sig w v)) → kids = .nil) ∧ kids.SigLeaf
def Forest.SigLeaf : Forest → Prop
  | .nil => True
  | .cons t ts => t.SigLeaf ∧ ts.SigLeaf
end

mutual
theorem Spec.fmt_of (data : Nat) : ∀ (s : Spec) (v : V) (ind : Nat) (n : String), s.Of data v → s.fmt data ind n = v.show ind n
  | .bits o w, .sig w' v, ind, n, h => by
    obtain ⟨rfl, h2⟩ := h
    show [_] = [_]
    rw [h2]
  | .bits _ _, .node _, _, _, h => absurd h (by simp [Spec.Of])
  | .mems _, .sig _ _, _, _, h => absurd h (by simp [Spec.Of])
  | .mems ss, .node ms, ind, n, h => by
    show _ :: _ = _ :: _
    rw [Ss.fmt_of data ss ms (ind + 1) h]
theorem Ss.fmt_of (data : Nat) : ∀ (s : Ss) (v : Ms) (ind : Nat), s.Of data v → s.fmt data ind = v.show ind
  | .nil, .nil, _, _ => rfl
  | .nil, .cons _ _ _, _, h => absurd h (by simp [Ss.Of])
  | .cons _ _ _, .nil, _, h => absurd h (by simp [Ss.Of])
  | .cons n s ss, .cons n' v ms, ind, h => by
    show _ ++ _ = _ ++ _
    rw [Spec.fmt_of data s v ind n h.2.1, Ss.fmt_of data ss ms ind h.2.2, h.1]
end

mutual
theorem Tree.fmt_desc (data : Nat) : ∀ (t : Tree) (j : JT) (ind : Nat), t.SigLeaf → t.Desc data j → j.fmt data ind = t.show ind
  | .mk i n io kids, .mk i' n' s kids', ind, hl, h => by
    obtain ⟨-, rfl, h1, h2⟩ := h
    have hk := Forest.fmt_desc data kids kids' (ind + 1) hl.2 h2
    show s.fmt data ind n ++ _ = _ ++ _
    cases io with
    | none =>
      have hs : s = .mems .nil := h1
      subst hs
      show [_] ++ kids'.fmt data (ind + 1) = [_] ++ _
      rw [hk]
    | some v =>
      have hs : s.Of data v := h1
      rw [Spec.fmt_of data s v ind n hs]
      show _ = v.show ind n ++ _
      cases v with
      | node ms =>
        cases s with
        | bits _ _ => exact absurd hs (by simp [Spec.Of])
        | mems ss => rw [← hk]; rfl
      | sig w v =>
        have := hl.1 ⟨w, v, rfl⟩
        subst this
        cases s with
        | mems _ => exact absurd hs (by simp [Spec.Of])
        | bits _ _ => rfl
theorem Forest.fmt_desc (data : Nat) : ∀ (t : Forest) (j : JF) (ind : Nat), t.SigLeaf → t.Desc data j → j.fmt data ind = t.show ind
  | .nil, .nil, _, _, _ => rfl
  | .nil, .cons _ _, _, _, h => absurd h (by simp [Forest.Desc])
  | .cons _ _, .nil, _, _, h => absurd h (by simp [Forest.Desc])
  | .cons t ts, .cons t' ts', ind, hl, h => by
    show _ ++ _ = _ ++ _
    rw [Tree.fmt_desc data t t' ind hl.1 h.1, Forest.fmt_desc data ts ts' ind hl.2 h.2]
end

/-- C347: the tool prints each record with the current values. -/
def DumpShowsValues : Prop :=
  ∀ (json : List Nat) (regs : List (Option V)) (f : Forest), json.length < 2 ^ 32 → metaOff (widthL regs) < 2 ^ 32 →
    (∀ v, some v ∈ regs → v.Fits) → Registered regs f → InOrder regs f → f.SigLeaf → dump json regs f = f.show 0

/-- **C347** violated: the size of data memory does not count with children. -/
theorem not_dumpShowsValues : ¬ DumpShowsValues := by
  intro h
  have := h [] [none, some (.sig 8 5)] (.cons (.mk 0 "p" none (.cons (.mk 1 "a" (some (.sig 8 5)) .nil) .nil)) .nil)
    (by decide) (by decide)
    (by
      intro v hv
      simp only [List.mem_cons, List.not_mem_nil, or_false, Option.some.injEq, reduceCtorEq, false_or] at hv
      subst hv; simp [V.Fits])
    ⟨by decide, by
      intro i io hm
      simp only [Forest.pre, Tree.pre, List.mem_cons, List.not_mem_nil, or_false, List.append_nil, Prod.mk.injEq] at hm
      rcases hm with ⟨rfl, rfl⟩ | ⟨rfl, rfl⟩ <;> rfl⟩
    rfl
    (by simp [Forest.SigLeaf, Tree.SigLeaf])
  revert this
  decide +kernel

/-- The last record is a root. -/
def LastRoot : Forest → Prop
  | .nil => True
  | .cons (.mk _ _ io kids) .nil => kids = .nil ∧ io.isSome = true
  | .cons _ (.cons t ts) => LastRoot (.cons t ts)

mutual
theorem V.end_eq : ∀ (v : V) (o : Nat), (v.toSpec o).2.end ≤ o + v.width ∧ (0 < v.width → (v.toSpec o).2.end = o + v.width)
  | .sig _ _, _ => ⟨Nat.le_refl _, fun _ => rfl⟩
  | .node ms, o => Ms.end_eq ms o
theorem Ms.end_eq : ∀ (v : Ms) (o : Nat), (v.toSpec o).2.end ≤ o + v.width ∧ (0 < v.width → (v.toSpec o).2.end = o + v.width)
  | .nil, o => ⟨Nat.zero_le _, fun h => absurd h (Nat.lt_irrefl _)⟩
  | .cons n v ms, o => by
    have h1 := V.end_eq v o
    have h2 := Ms.end_eq ms (v.toSpec o).1
    have h3 := V.toSpec_fst v o
    show max (v.toSpec o).2.end (ms.toSpec (v.toSpec o).1).2.end ≤ o + (v.width + ms.width) ∧
      (0 < v.width + ms.width → max (v.toSpec o).2.end (ms.toSpec (v.toSpec o).1).2.end = o + (v.width + ms.width))
    rw [h3] at h2 ⊢
    refine ⟨by omega, fun hp => ?_⟩
    by_cases h0 : 0 < ms.width
    · have := h2.2 h0; omega
    · have := h1.2 (by omega); omega
end

theorem lastRoot_end : ∀ (f : Forest) (o : Nat), LastRoot f → f ≠ .nil → (∀ v, some v ∈ f.ios → 0 < v.width) →
    o + widthL f.ios ≤ (f.toJson o).2.end
  | .nil, _, _, h, _ => absurd rfl h
  | .cons (.mk i n io kids) .nil, o, hl, _, hw => by
    obtain ⟨hk, hs⟩ := hl
    subst hk
    cases io with
    | none => cases hs
    | some v =>
      show o + (v.width + 0) ≤ max (v.toSpec o).2.end 0
      have := (V.end_eq v o).2 (hw v (by simp [Forest.ios, Forest.pre, Tree.pre]))
      omega
  | .cons t (.cons t' ts), o, hl, _, hw => by
    have hr := lastRoot_end (.cons t' ts) (t.toJson o).1 (by rw [LastRoot] at hl; exact hl) (by simp) (fun v q => hw v (by
      rw [Forest.ios_cons]; exact List.mem_append_right _ q))
    rw [Forest.ios_cons, (packL_append _ _).2]
    rw [Tree.toJson_fst] at hr
    obtain ⟨i, n, io, kids⟩ := t
    have : ((Forest.cons t' ts).toJson (((Tree.mk i n io kids).toJson o).1)).2.end ≤
        ((Forest.cons (.mk i n io kids) (.cons t' ts)).toJson o).2.end := Nat.le_max_right _ _
    rw [Tree.toJson_fst] at this
    omega

/-- **C347** holds if the last record is a root (records are registered parent first, signals have no children). -/
theorem dump_partial (json : List Nat) (regs : List (Option V)) (f : Forest) (hj : json.length < 2 ^ 32)
    (hm : metaOff (widthL regs) < 2 ^ 32) (hf : ∀ v, some v ∈ regs → v.Fits) (hw : ∀ v, some v ∈ regs → 0 < v.width)
    (hr : Registered regs f) (ho : InOrder regs f) (hl : f.SigLeaf) (hlast : LastRoot f) :
    dump json regs f = f.show 0 := by
  by_cases hn : f = .nil
  · subst hn; rfl
  · have he := ios_eq hr ho
    apply Forest.fmt_desc _ _ _ _ hl
    apply Forest.desc
    · rw [he]; exact hf
    · have hend := lastRoot_end f 0 hlast hn (by rw [he]; exact hw)
      rw [he] at hend ⊢
      unfold loadData
      obtain ⟨-, -, h3⟩ := space_div json (widthL regs) (packL regs) hj hm
      rw [readInt_eq, show 8 * 8 = 64 from rfl, h3, Nat.pow_zero, Nat.div_one]
      have hc := (lt_closest (widthL regs)).1
      rw [Nat.mod_mod_of_dvd _ (Nat.pow_dvd_pow 2 (show widthL regs ≤ 8 * (((f.toJson 0).2.end + 7) / 8) by omega))]
      obtain ⟨c, hc'⟩ := Nat.exists_eq_add_of_le (show widthL regs ≤ closest (widthL regs) - 64 by omega)
      rw [hc', Nat.pow_add, Nat.mul_assoc, Nat.add_mul_mod_self_left]
      exact Nat.mod_eq_of_lt (packL_lt _ hf)

/-- C348: each record has its place in the output (values are not considered). -/
def DumpShowsRecords : Prop :=
  ∀ (json : List Nat) (regs : List (Option V)) (f : Forest), (∀ v, some v ∈ regs → v.Fits) → Registered regs f →
    (dump json regs f).map (fun l => (l.ind, l.name)) = (f.show 0).map fun l => (l.ind, l.name)

/-- **C348** violated: children of a record of a single signal are not printed. -/
theorem not_dumpShowsRecords : ¬ DumpShowsRecords := by
  intro h
  have := h [] [some (.sig 8 7), some (.sig 8 5)]
    (.cons (.mk 0 "p" (some (.sig 8 7)) (.cons (.mk 1 "a" (some (.sig 8 5)) .nil) .nil)) .nil)
    (by
      intro v hv
      simp only [List.mem_cons, List.not_mem_nil, or_false, Option.some.injEq] at hv
      rcases hv with rfl | rfl <;> simp [V.Fits])
    ⟨by decide, by
      intro i io hm
      simp only [Forest.pre, Tree.pre, List.mem_cons, List.not_mem_nil, or_false, List.append_nil, Prod.mk.injEq] at hm
      rcases hm with ⟨rfl, rfl⟩ | ⟨rfl, rfl⟩ <;> rfl⟩
  revert this
  decide +kernel

mutual
theorem Spec.shape (d d' : Nat) : ∀ (s : Spec) (ind : Nat) (n : String),
    (s.fmt d ind n).map (fun l => (l.ind, l.name)) = (s.fmt d' ind n).map fun l => (l.ind, l.name)
  | .bits _ _, _, _ => rfl
  | .mems ss, ind, n => by
    show _ :: _ = _ :: _
    rw [Ss.shape d d' ss (ind + 1)]
theorem Ss.shape (d d' : Nat) : ∀ (s : Ss) (ind : Nat),
    (s.fmt d ind).map (fun l => (l.ind, l.name)) = (s.fmt d' ind).map fun l => (l.ind, l.name)
  | .nil, _ => rfl
  | .cons n s ss, ind => by
    show List.map _ (_ ++ _) = List.map _ (_ ++ _)
    rw [List.map_append, List.map_append, Spec.shape d d' s ind n, Ss.shape d d' ss ind]
end

mutual
theorem JT.shape (d d' : Nat) : ∀ (s : JT) (ind : Nat),
    (s.fmt d ind).map (fun l => (l.ind, l.name)) = (s.fmt d' ind).map fun l => (l.ind, l.name)
  | .mk _ n s kids, ind => by
    show List.map _ (_ ++ _) = List.map _ (_ ++ _)
    rw [List.map_append, List.map_append, Spec.shape d d' s ind n]
    congr 1
    cases s.isBits
    · exact JF.shape d d' kids (ind + 1)
    · rfl
theorem JF.shape (d d' : Nat) : ∀ (s : JF) (ind : Nat),
    (s.fmt d ind).map (fun l => (l.ind, l.name)) = (s.fmt d' ind).map fun l => (l.ind, l.name)
  | .nil, _ => rfl
  | .cons t ts, ind => by
    show List.map _ (_ ++ _) = List.map _ (_ ++ _)
    rw [List.map_append, List.map_append, JT.shape d d' t ind, JF.shape d d' ts ind]
end

/-- **C348** holds if records of a single signal have no children. -/
theorem dump_records_partial (json : List Nat) (regs : List (Option V)) (f : Forest) (hf : ∀ v, some v ∈ regs → v.Fits)
    (hr : Registered regs f) (hl : f.SigLeaf) :
    (dump json regs f).map (fun l => (l.ind, l.name)) = (f.show 0).map fun l => (l.ind, l.name) := by
  have hfi : ∀ v, some v ∈ f.ios → v.Fits := by
    intro v hv
    obtain ⟨⟨i, io⟩, hm, he⟩ := List.mem_map.1 hv
    have := hr.2 i io hm
    have he' : io = some v := he
    subst he'
    exact hf v (List.mem_of_getElem? this)
  rw [← Forest.fmt_desc (packL f.ios) f _ 0 hl (Forest.desc _ f 0 hfi (by
    rw [Nat.pow_zero, Nat.div_one]; exact Nat.mod_eq_of_lt (packL_lt _ hfi)))]
  exact JF.shape _ _ _ _

/-- A container with two records, the last record is a root. -/
example : let v : V := .node (.cons "data" (.sig 64 9) (.cons "vld" (.sig 1 1) (.cons "rd" (.sig 1 0) .nil)))
    let f : Forest := .cons (.mk 0 "reg" none (.cons (.mk 1 "dataIn" (some v) .nil) .nil)) (.cons (.mk 2 "dout" (some v) .nil) .nil)
    let regs := [none, some v, some v]
    Registered regs f ∧ InOrder regs f ∧ f.SigLeaf ∧ LastRoot f ∧ v.Fits ∧ 0 < v.width ∧ metaOff (widthL regs) < 2 ^ 32 ∧
    (dump [91, 93] regs f).map (fun l => l.val) =
      [none, none, some (64, 9), some (1, 1), some (1, 0), none, some (64, 9), some (1, 1), some (1, 0)] := by
  refine ⟨⟨by decide, ?_⟩, rfl, ?_, ?_, ?_, ?_, by decide, by decide +kernel⟩
  · intro i io hm
    simp only [Forest.pre, Tree.pre, List.mem_cons, List.not_mem_nil, or_false, List.append_nil, List.cons_append, List.nil_append,
      Prod.mk.injEq] at hm
    rcases hm with ⟨rfl, rfl⟩ | ⟨rfl, rfl⟩ | ⟨rfl, rfl⟩ <;> rfl
  · simp [Forest.SigLeaf, Tree.SigLeaf]
  · simp [LastRoot]
  · simp [V.Fits, Ms.Fits]
  · decide

/-! ## Colors -/

/-- C349: handshake: green for a transfer, red if the master waits, purple if both are inactive; enable: green if active, red if not
(comments in debug_bus_monitor_ctl.py:77-99). -/
def expectedColor : Option Nat → Option Nat → Option Color
  | some rd, some vld => if vld ≠ 0 then some (if rd ≠ 0 then .green else .red) else if rd ≠ 0 then none else some .purple
  | none, some vld => some (if vld ≠ 0 then .green else .red)
  | some rd, none => some (if rd ≠ 0 then .green else .red)
  | none, none => none

def rdOf (ms : List (String × Nat × Nat)) (data : Nat) := tryGet ms data ["rd", "ready"]
def vldOf (ms : List (String × Nat × Nat)) (data : Nat) :=
  tryGet ms data ["vld", "valid", "en", "enable", "ce", "clock_enable"]

def ColorsAsDocumented : Prop :=
  ∀ (ms : List (String × Nat × Nat)) (data : Nat), color ms data = expectedColor (rdOf ms data) (vldOf ms data)

/-- **C349** violated: active `vld` of an interface without `rd` is red. -/
theorem not_colorsAsDocumented : ¬ ColorsAsDocumented := by
  intro h
  have := h [("data", 0, 8), ("vld", 8, 1)] 0x105
  revert this
  decide +kernel

/-- **C349** holds for interfaces with both signals and for interfaces without them. -/
theorem color_partial (ms : List (String × Nat × Nat)) (data : Nat) (h : (rdOf ms data).isSome = (vldOf ms data).isSome) :
    color ms data = expectedColor (rdOf ms data) (vldOf ms data) := by
  unfold color
  show (if (rdOf ms data).isSome || (vldOf ms data).isSome then _ else _) = _
  change (if (rdOf ms data).isSome || (vldOf ms data).isSome then
      if (rdOf ms data).getD 0 ≠ 0 ∧ (vldOf ms data).getD 0 ≠ 0 then some Color.green
      else if (vldOf ms data).getD 0 ≠ 0 then some .red
      else if (rdOf ms data).getD 0 = 0 then some .purple else none
    else if (vldOf ms data).isSome then some (if (vldOf ms data).getD 0 ≠ 0 then .green else .red)
    else if (rdOf ms data).isSome then some (if (rdOf ms data).getD 0 ≠ 0 then .green else .red) else none) = _
  cases hr : rdOf ms data with
  | none =>
    rw [hr] at h
    cases hv : vldOf ms data with
    | none => rfl
    | some _ => rw [hv] at h; cases h
  | some r =>
    rw [hr] at h
    cases hv : vldOf ms data with
    | none => rw [hv] at h; cases h
    | some v =>
      by_cases h1 : v = 0 <;> by_cases h2 : r = 0 <;> simp [expectedColor, h1, h2]

example : rdOf [("data", 0, 8), ("vld", 8, 1), ("rd", 9, 1)] 0x305 = some 1 ∧
    vldOf [("data", 0, 8), ("vld", 8, 1), ("rd", 9, 1)] 0x305 = some 1 ∧
    color [("data", 0, 8), ("vld", 8, 1), ("rd", 9, 1)] 0x305 = some .green := by decide +kernel

end Verif.DbgMon
