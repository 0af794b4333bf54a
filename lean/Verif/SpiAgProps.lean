import Verif.SpiAg
/-! Properties of SPI agents (C402, C403) -/
namespace Verif.SpiAg

theorem split_mod (v : Nat) : splitBits v = splitBits (v % 256) := by
  have h : ∀ i, i < 8 → v.testBit i = (v % 256).testBit i := by
    intro i hi
    rw [show 256 = 2 ^ 8 from rfl, Nat.testBit_mod_two_pow]
    simp [hi]
  simp only [splitBits, List.map_cons, List.map_nil, h 0 (by omega), h 1 (by omega), h 2 (by omega), h 3 (by omega),
    h 4 (by omega), h 5 (by omega), h 6 (by omega), h 7 (by omega)]

theorem merge_split_lt : ∀ v : Fin 256, mergeBits (splitBits v.1) = v.1 := by decide +kernel

theorem merge_split (v : Nat) : mergeBits (splitBits v) = v % 256 := by
  rw [split_mod]
  exact merge_split_lt ⟨v % 256, Nat.mod_lt _ (by omega)⟩

/-- bits which the slave sends while a word is received by the master: the last bit of the previous word and the first
seven bits of the word -/
theorem merge_shift (x : Bool) (v : Nat) : mergeBits (x :: (splitBits v).take 7) = x.toNat * 128 + v % 256 / 2 := by
  have h : ∀ i, (v.testBit i).toNat = v / 2 ^ i % 2 := by
    intro i
    rw [Nat.toNat_testBit]
  simp only [mergeBits, splitBits, List.map_cons, List.map_nil, List.foldl_cons, List.foldl_nil, h, List.take_succ_cons,
    List.take_zero]
  omega

/-- state of the forward direction in a word `d` after its first `k + 1` periods -/
def fw (c d k : Nat) (ds cs rx got : List Nat) : Fwd :=
  ⟨c, (splitBits d).getD k false, ⟨(splitBits d).drop (k + 1), ds⟩, cs, true, ⟨(splitBits d).take k, rx⟩,
    if k = 0 then got else got ++ [c]⟩

theorem fw_step (m c d : Nat) (ds cs rx got : List Nat) (hc : c ≠ m) (k : Nat) (hk : k < 7) :
    rise m (fw c d k ds cs rx got) = fw c d (k + 1) ds cs rx got := by
  have : k = 0 ∨ k = 1 ∨ k = 2 ∨ k = 3 ∨ k = 4 ∨ k = 5 ∨ k = 6 := by omega
  rcases this with h | h | h | h | h | h | h <;> subst h <;>
    simp [fw, rise, driverTx, monitorRx, readRx, writeTx, splitBits, hc]

/-- the last period of a word -/
theorem fw_last (m c d : Nat) (ds rx got : List Nat) (hc : c ≠ m) :
    rise m (fw c d 7 ds [] rx got) =
      ⟨m, (splitBits d).getD 7 false, ⟨[], ds⟩, [], false, ⟨[], rx ++ [d % 256]⟩, got ++ [c]⟩ := by
  rw [← merge_split d]
  simp [fw, rise, driverTx, monitorRx, readRx, splitBits, hc]

theorem fw_next (m c d c' d' : Nat) (ds cs rx got : List Nat) (hc : c ≠ m) :
    rise m (fw c d 7 (d' :: ds) (c' :: cs) rx got) = fw c' d' 0 ds cs (rx ++ [d % 256]) (got ++ [c]) := by
  rw [← merge_split d]
  simp [fw, rise, driverTx, monitorRx, readRx, writeTx, splitBits, hc]

theorem fw_first (m c d : Nat) (x : Bool) (ds cs rx got : List Nat) :
    rise m ⟨m, x, ⟨[], d :: ds⟩, c :: cs, false, ⟨[], rx⟩, got⟩ = fw c d 0 ds cs rx got := by
  simp [fw, rise, driverTx, monitorRx, writeTx, splitBits]

/-- state of the backward direction after `k + 1` periods of a word `e` -/
def bw (y : Bool) (e k : Nat) (es rx : List Nat) : Back :=
  ⟨(splitBits e).getD k false,
    if k = 7 then ⟨[], rx ++ [mergeBits (y :: (splitBits e).take 7)]⟩ else ⟨y :: (splitBits e).take k, rx⟩,
    ⟨(splitBits e).drop (k + 1), es⟩⟩

theorem bw_step (m : Nat) (f : Fwd) (hf : f.cs ≠ m) (hen : f.en = true) (y : Bool) (e : Nat) (es rx : List Nat) (k : Nat)
    (hk : k < 7) : fall m f (bw y e k es rx) = bw y e (k + 1) es rx := by
  have : k = 0 ∨ k = 1 ∨ k = 2 ∨ k = 3 ∨ k = 4 ∨ k = 5 ∨ k = 6 := by omega
  rcases this with h | h | h | h | h | h | h <;> subst h <;>
    simp [bw, fall, readRx, writeTx, splitBits, hf, hen]

theorem bw_first (m : Nat) (f : Fwd) (hf : f.cs ≠ m) (hen : f.en = true) (y : Bool) (e : Nat) (es rx : List Nat) :
    fall m f ⟨y, ⟨[], rx⟩, ⟨[], e :: es⟩⟩ = bw y e 0 es rx := by
  simp [bw, fall, readRx, writeTx, splitBits, hf, hen]

theorem bw_end (y : Bool) (e : Nat) (es rx : List Nat) :
    bw y e 7 es rx = ⟨e.testBit 0, ⟨[], rx ++ [y.toNat * 128 + e % 256 / 2]⟩, ⟨[], es⟩⟩ := by
  rw [← merge_shift]
  simp [bw, splitBits]

theorem run_add (m a b : Nat) : ∀ s, run m (a + b) s = run m b (run m a s) := by
  induction a with
  | zero => intro s; simp [run]
  | succ a ih => intro s; rw [Nat.add_right_comm, run, run, ih]

theorem run_fst_fw (m c d : Nat) (ds cs rx got : List Nat) (hc : c ≠ m) (n : Nat) :
    ∀ (k : Nat) (b : Back), k + n ≤ 7 →
      (run m n (fw c d k ds cs rx got, b)).1 = fw c d (k + n) ds cs rx got := by
  induction n with
  | zero => intro k b _; rfl
  | succ n ih =>
    intro k b h
    rw [run, step]
    dsimp only
    rw [fw_step m c d ds cs rx got hc k (by omega), ih _ _ (by omega)]
    congr 1; omega

theorem run_fw_bw (m c d : Nat) (ds cs rx got : List Nat) (hc : c ≠ m) (y : Bool) (e : Nat) (es rx' : List Nat) (n : Nat) :
    ∀ (k : Nat), k + n ≤ 7 →
      run m n (fw c d k ds cs rx got, bw y e k es rx') = (fw c d (k + n) ds cs rx got, bw y e (k + n) es rx') := by
  induction n with
  | zero => intro k _; rfl
  | succ n ih =>
    intro k h
    rw [run, step]
    dsimp only
    rw [fw_step m c d ds cs rx got hc k (by omega), bw_step m _ (by exact hc) rfl y e es rx' k (by omega), ih _ (by omega),
      Nat.add_right_comm k 1 n]
    rfl

/-- words from the first period of a word to the end -/
theorem fwd_words (m : Nat) : ∀ (ds cs : List Nat) (c d : Nat) (rx got : List Nat) (b : Back), ds.length = cs.length →
    (∀ x ∈ c :: cs, x ≠ m) →
    ∃ mosi, (run m (8 * (ds.length + 1)) (fw c d 0 ds cs rx got, b)).1 =
      ⟨m, mosi, ⟨[], []⟩, [], false, ⟨[], rx ++ (d :: ds).map (· % 256)⟩, got ++ (c :: cs)⟩ := by
  intro ds
  induction ds with
  | nil =>
    intro cs c d rx got b hl hc
    have : cs = [] := List.eq_nil_of_length_eq_zero (by simpa using hl.symm)
    subst this
    have hc' : c ≠ m := hc c (by simp)
    refine ⟨(splitBits d).getD 7 false, ?_⟩
    rw [show 8 * (([] : List Nat).length + 1) = 7 + 1 from rfl, run_add, run, run, step]
    dsimp only
    rw [run_fst_fw m c d _ _ _ _ hc' 7 0 b (by omega), fw_last m c d _ _ _ hc']
    rfl
  | cons d' ds ih =>
    intro cs c d rx got b hl hc
    cases cs with
    | nil => simp at hl
    | cons c' cs =>
      have hc' : c ≠ m := hc c (by simp)
      rw [show 8 * ((d' :: ds).length + 1) = 7 + (1 + 8 * (ds.length + 1)) by simp only [List.length_cons]; omega,
        run_add, run_add m 1, run, run]
      have e1 : (step m (run m 7 (fw c d 0 (d' :: ds) (c' :: cs) rx got, b))).1 =
          fw c' d' 0 ds cs (rx ++ [d % 256]) (got ++ [c]) := by
        unfold step
        dsimp only
        rw [run_fst_fw m c d _ _ _ _ hc' 7 0 b (by omega), fw_next m c d c' d' _ _ _ _ hc']
      obtain ⟨mo, h⟩ := ih cs c' d' (rx ++ [d % 256]) (got ++ [c])
        (step m (run m 7 (fw c d 0 (d' :: ds) (c' :: cs) rx got, b))).2 (by simpa using hl)
        (fun x hx => hc x (List.mem_cons_of_mem _ hx))
      refine ⟨mo, ?_⟩
      rw [← e1] at h
      rw [h]
      simp

/-- C402: a master agent with a chip select for each word of its data: after eight periods per word and one more the slave
agent received exactly these words (low 8 bits) in order, each with its chip select, and no slave is selected. -/
theorem master_to_slave (m : Nat) (x y : Bool) (ds cs es : List Nat) (hl : ds.length = cs.length) (hc : ∀ c ∈ cs, c ≠ m) :
    (run m (8 * ds.length + 1) (start m x y ds cs es)).1.rx = ⟨[], ds.map (· % 256)⟩ ∧
    (run m (8 * ds.length + 1) (start m x y ds cs es)).1.got = cs ∧
    (run m (8 * ds.length + 1) (start m x y ds cs es)).1.cs = m := by
  cases ds with
  | nil =>
    have : cs = [] := List.eq_nil_of_length_eq_zero (by simpa using hl.symm)
    subst this
    simp [run, step, start, rise, driverTx, monitorRx]
  | cons d ds =>
    cases cs with
    | nil => simp at hl
    | cons c cs =>
      rw [show 8 * (d :: ds).length + 1 = 1 + 8 * (ds.length + 1) by simp only [List.length_cons]; omega, run_add, run, run]
      have e1 : (step m (start m x y (d :: ds) (c :: cs) es)).1 = fw c d 0 ds cs [] [] := by
        unfold step start
        exact fw_first m c d x ds cs [] []
      obtain ⟨mo, h⟩ := fwd_words m ds cs c d [] [] (step m (start m x y (d :: ds) (c :: cs) es)).2
        (by simpa using hl) hc
      rw [← e1] at h
      rw [h]
      simp

example : (∀ c ∈ [0, 2, 0], c ≠ 3) ∧ [7, 300, 255].length = [0, 2, 0].length := by decide

/-- C403: full statement: the words of the slave are received by the master when it clocks as many words -/
def slaveToMasterSpec : Prop :=
  ∀ (m : Nat) (x y : Bool) (ds cs es : List Nat), ds.length = cs.length → es.length = ds.length → (∀ c ∈ cs, c ≠ m) →
    (run m (8 * ds.length + 1) (start m x y ds cs es)).2.rx = ⟨[], es.map (· % 256)⟩

/-- C403: the slave writes `miso` after the same falling edge on which the master reads it: the word 1 is received as 0 -/
theorem slaveToMaster_violated : ¬ slaveToMasterSpec := by
  intro h
  exact absurd (h 1 false false [0] [0] [1] rfl rfl (by decide)) (by decide +kernel)

/-- words read one bit late, `y` = value of `miso` before -/
def late (y : Bool) : List Nat → List Nat
  | [] => []
  | e :: es => (y.toNat * 128 + e % 256 / 2) :: late (e.testBit 0) es

theorem back_words (m : Nat) : ∀ (ds cs es : List Nat) (c d e : Nat) (rx got rx' : List Nat) (y : Bool),
    ds.length = cs.length → es.length = ds.length → (∀ x ∈ c :: cs, x ≠ m) →
    ∃ mosi miso, run m (8 * (ds.length + 1)) (fw c d 0 ds cs rx got, bw y e 0 es rx') =
      (⟨m, mosi, ⟨[], []⟩, [], false, ⟨[], rx ++ (d :: ds).map (· % 256)⟩, got ++ (c :: cs)⟩,
       ⟨miso, ⟨[], rx' ++ late y (e :: es)⟩, ⟨[], []⟩⟩) := by
  intro ds
  induction ds with
  | nil =>
    intro cs es c d e rx got rx' y hl he hc
    have : cs = [] := List.eq_nil_of_length_eq_zero (by simpa using hl.symm)
    subst this
    have : es = [] := List.eq_nil_of_length_eq_zero (by simpa using he)
    subst this
    have hc' : c ≠ m := hc c (by simp)
    refine ⟨(splitBits d).getD 7 false, e.testBit 0, ?_⟩
    rw [show 8 * (([] : List Nat).length + 1) = 7 + 1 from rfl, run_add, run_fw_bw m c d _ _ _ _ hc' y e _ _ 7 0 (by omega),
      run, run, step]
    dsimp only
    rw [show (0 + 7) = 7 from rfl, fw_last m c d _ _ _ hc', bw_end]
    simp [fall, late]
  | cons d' ds ih =>
    intro cs es c d e rx got rx' y hl he hc
    cases cs with
    | nil => simp at hl
    | cons c' cs =>
      cases es with
      | nil => simp at he
      | cons e' es =>
        have hc' : c ≠ m := hc c (by simp)
        have hc2 : c' ≠ m := hc c' (by simp)
        rw [show 8 * ((d' :: ds).length + 1) = 7 + (1 + 8 * (ds.length + 1)) by simp only [List.length_cons]; omega,
          run_add, run_add m 1, run_fw_bw m c d _ _ _ _ hc' y e _ _ 7 0 (by omega), run, run, step]
        dsimp only
        rw [show (0 + 7) = 7 from rfl, fw_next m c d c' d' _ _ _ _ hc', bw_end, bw_first m _ (by exact hc2) rfl]
        obtain ⟨a, b, h⟩ := ih cs es c' d' e' (rx ++ [d % 256]) (got ++ [c]) (rx' ++ [y.toNat * 128 + e % 256 / 2])
          (e.testBit 0) (by simpa using hl) (by simpa using he) (fun x hx => hc x (List.mem_cons_of_mem _ hx))
        refine ⟨a, b, ?_⟩
        rw [h]
        simp [late]

/-- C403: what is received: the bit stream of the slave late by one bit, the first bit is the previous value of `miso` and
the last bit of the last word is lost; missing: the words themselves (the statement above is false) -/
theorem slave_to_master_partial (m : Nat) (x y : Bool) (ds cs es : List Nat) (hl : ds.length = cs.length)
    (he : es.length = ds.length) (hc : ∀ c ∈ cs, c ≠ m) :
    (run m (8 * ds.length + 1) (start m x y ds cs es)).2.rx = ⟨[], late y es⟩ := by
  cases ds with
  | nil =>
    have : cs = [] := List.eq_nil_of_length_eq_zero (by simpa using hl.symm)
    subst this
    have : es = [] := List.eq_nil_of_length_eq_zero (by simpa using he)
    subst this
    simp [run, step, start, rise, driverTx, fall, late]
  | cons d ds =>
    cases cs with
    | nil => simp at hl
    | cons c cs =>
      cases es with
      | nil => simp at he
      | cons e es =>
        rw [show 8 * (d :: ds).length + 1 = 1 + 8 * (ds.length + 1) by simp only [List.length_cons]; omega, run_add, run, run,
          step, start]
        dsimp only
        rw [fw_first, bw_first m _ (by exact hc c (by simp)) rfl]
        obtain ⟨a, b, h⟩ := back_words m ds cs es c d e [] [] [] y (by simpa using hl) (by simpa using he) hc
        rw [h]
        simp

example : (run 1 17 (start 1 false true [3, 4] [0, 0] [1, 255])).2.rx.data = [128, 255] := by decide +kernel

end Verif.SpiAg
