import Verif.Crc
/-!
# C38, C39, C40, C63, C64: properties of `CrcComb` and `Crc`
-/
namespace Verif.Crc

/-! ## C38 parallel = bit-serial -/

/-- Full statement of C38. -/
def C38 : Prop := ∀ (poly : Bits) (PW DW : Nat) (s d : Bits), 0 < PW → ∀ j, j < PW →
  crcPar poly PW DW s d j = serial poly PW s ((List.range DW).reverse.map d) j

/-- **C38** What holds: for a polynomial with the term `1` (each CRC polynomial in use has it) the xor matrix gives the
state of the shift register fed by the data bits, most significant first. -/
theorem crc_matrix_eq_serial_partial (poly : Bits) (PW DW : Nat) (s d : Bits) (hPW : 0 < PW) (hp : poly 0 = true)
    (j : Nat) (hj : j < PW) :
    crcPar poly PW DW s d j = serial poly PW s ((List.range DW).reverse.map d) j := by
  rw [crcPar_serial poly PW DW hPW s d j hj]
  refine serial_poly_congr _ _ PW hPW ?_ _ (fun _ _ => rfl) j hj
  intro k _
  cases k with
  | zero => simp [hp]
  | succ k => simp

/-- **C38** violated: bit 0 of the polynomial is ignored (taken as 1). -/
theorem crc_matrix_ignores_bit0 : ¬ C38 := by
  intro h
  have := h (fun _ => false) 1 1 (fun _ => false) (fun _ => true) (by decide) 0 (by decide)
  revert this
  decide

/-- **C38** Precisely: the matrix always is the shift register of the polynomial with bit 0 set. -/
theorem crc_matrix_eq_serial_lsb1 (poly : Bits) (PW DW : Nat) (s d : Bits) (hPW : 0 < PW) (j : Nat) (hj : j < PW) :
    crcPar poly PW DW s d j
      = serial (fun k => k == 0 || poly k) PW s ((List.range DW).reverse.map d) j :=
  crcPar_serial poly PW DW hPW s d j hj

/-- **C38** Word level: `CrcComb` without REFOUT is the bit-serial CRC over the bytes of the word in the configured
byte and bit order, xored with XOROUT. -/
theorem crc_comb_word (c : Cfg) (n : Nat) (d : Bits) (hPW : 0 < c.PW) (hp : c.poly 0 = true)
    (hr : c.refout = false) (j : Nat) (hj : j < c.PW) :
    combOut c n d j
      = (serial c.poly c.PW c.init (msgBits c.bigEndian c.refin n d) j ^^ c.xorout j) := by
  unfold combOut
  simp only [hr, Bool.false_eq_true, if_false]
  rw [crc_matrix_eq_serial_partial _ _ _ _ _ hPW hp j hj, inBits_order]

/-- **C38** with REFOUT and a XOROUT that is equal to its own reflection per byte. -/
theorem crc_comb_word_refout_partial (c : Cfg) (n : Nat) (d : Bits) (hPW : 0 < c.PW) (hp : c.poly 0 = true)
    (hr : c.refout = true) (hx : ∀ j, j < c.PW → revBitsInBytes c.xorout j = c.xorout j) (j : Nat) (hj : j < c.PW) :
    combOut c n d j
      = (serial c.poly c.PW c.init (msgBits c.bigEndian c.refin n d) (c.PW - 1 - j) ^^ c.xorout j) := by
  unfold combOut
  simp only [hr, if_true]
  rw [crc_matrix_eq_serial_partial _ _ _ _ _ hPW hp _ (by omega), inBits_order, hx j hj]

/-! ## C39 message = sequence of words -/

/-- All message bits of the valid words of a run. -/
def seqMsg (c : Cfg) (n : Nat) (is : List SeqIn) : List Bool :=
  is.flatMap fun i => if i.vld then msgBits c.bigEndian c.refin n i.data else []

/-- **C39** The state after any run is the bit-serial CRC of the concatenation of the valid words. -/
theorem crc_words (c : Cfg) (n : Nat) (lat0 : Bool) (hPW : 0 < c.PW) (hp : c.poly 0 = true) :
    ∀ (is : List SeqIn) (s : Bits) (j : Nat), j < c.PW →
    (seq c n lat0).final s is j = serial c.poly c.PW s (seqMsg c n is) j := by
  intro is
  induction is with
  | nil => intro s j _; rfl
  | cons i is ih =>
    intro s j hj
    rw [Machine.final_cons, ih _ j hj]
    unfold seqMsg
    rw [List.flatMap_cons, serial_append]
    refine serial_congr _ _ hPW _ ?_ j hj
    intro k hk
    show seqNext c n s i k = _
    unfold seqNext
    cases i.vld with
    | false => rfl
    | true =>
      simp only [if_true]
      rw [crc_matrix_eq_serial_partial _ _ _ _ _ hPW hp k hk, inBits_order]

/-- **C39** As seen on the port (LATENCY 1): after each history the output is the finished CRC of the message. -/
theorem crc_output (c : Cfg) (n : Nat) (hPW : 0 < c.PW) (hp : c.poly 0 = true) (is : List SeqIn) (i : SeqIn)
    (j : Nat) (hj : j < c.PW) :
    (seq c n false).outAfter c.init is i j
      = finish c (serial c.poly c.PW c.init (seqMsg c n is)) j := by
  have := crc_words c n false hPW hp is c.init
  show finish c ((seq c n false).final c.init is) j = _
  unfold finish
  rw [this j hj, this (c.PW - 1 - j) (by omega)]

/-- **C39** LATENCY 0: the output already contains the word of the current cycle. -/
theorem crc_output_latency0 (c : Cfg) (n : Nat) (hPW : 0 < c.PW) (hp : c.poly 0 = true) (is : List SeqIn) (i : SeqIn)
    (j : Nat) (hj : j < c.PW) :
    (seq c n true).outAfter c.init is i j
      = finish c (serial c.poly c.PW c.init (seqMsg c n (is ++ [i]))) j := by
  have := crc_words c n true hPW hp (is ++ [i]) c.init
  rw [Machine.final_append] at this
  show finish c ((seq c n true).final ((seq c n true).final c.init is) [i]) j = _
  unfold finish
  rw [this j hj, this (c.PW - 1 - j) (by omega)]

/-- **C39** Linearity in state and message. -/
theorem crc_linear (poly : Bits) (PW : Nat) : ∀ (a b : List Bool) (s t : Bits), a.length = b.length →
    serial poly PW (fun j => s j ^^ t j) (List.zipWith (· ^^ ·) a b)
      = fun j => serial poly PW s a j ^^ serial poly PW t b j := by
  intro a
  induction a with
  | nil =>
    intro b s t h
    have : b = [] := List.length_eq_zero_iff.1 h.symm
    subst this; rfl
  | cons x a ih =>
    intro b s t h
    cases b with
    | nil => simp at h
    | cons y b =>
      have := ih b (serStep poly PW s x) (serStep poly PW t y) (by simpa using h)
      rw [← serStep_xor] at this
      exact this

/-! ## C64 frames with byte mask -/

/-- Message bytes of a run of the masked variant: low `cnt` bytes of each valid word. -/
def maskMsg (c : Cfg) (n : Nat) (is : List MIn) : List Bool :=
  is.flatMap fun i => if i.vld then msgBits false c.refin ((validBytes n i.mask).getD 0) i.data else []

theorem validBytes_spec {n m cnt : Nat} (h : validBytes n m = some cnt) : cnt ≤ n ∧ 0 < cnt ∧ m = 2 ^ cnt - 1 := by
  unfold validBytes at h
  obtain ⟨k, hk, hk2⟩ := List.exists_of_findSome?_eq_some h
  have hk : k < n := by simpa using hk
  split at hk2
  · next e => cases hk2; exact ⟨by omega, by omega, e⟩
  · cases hk2

theorem validBytes_mask {n cnt : Nat} (h0 : 0 < cnt) (h1 : cnt ≤ n) : validBytes n (2 ^ cnt - 1) = some cnt := by
  cases h : validBytes n (2 ^ cnt - 1) with
  | none =>
    unfold validBytes at h
    rw [List.findSome?_eq_none_iff] at h
    have := h (cnt - 1) (by simp; omega)
    rw [show cnt - 1 + 1 = cnt by omega] at this
    simp at this
  | some k =>
    obtain ⟨-, h2, h3⟩ := validBytes_spec h
    have p1 := Nat.two_pow_pos cnt
    have p2 := Nat.two_pow_pos k
    have : 2 ^ cnt = 2 ^ k := by omega
    rw [(Nat.pow_right_inj (by decide)).1 this]

/-- Words of one frame before its last word, with idle cycles allowed. -/
def noLast (is : List MIn) : Prop := ∀ i ∈ is, i.vld = true → i.last = false
/-- The mask of each valid word selects the low `cnt ≥ 1` bytes. -/
def goodMask (n : Nat) (is : List MIn) : Prop :=
  ∀ i ∈ is, i.vld = true → ∃ cnt, 0 < cnt ∧ cnt ≤ n ∧ i.mask = 2 ^ cnt - 1

theorem maskNext_spec (c : Cfg) (n : Nat) (hPW : 0 < c.PW) (hp : c.poly 0 = true) (he : c.bigEndian = false)
    (st : Bits) (i : MIn) (hm : goodMask n [i]) :
    ∃ t, maskNext c n (some st) i = some t ∧
      ∀ j, j < c.PW → t j = serial c.poly c.PW st (maskMsg c n [i]) j := by
  unfold maskNext maskMsg
  cases hv : i.vld with
  | false => exact ⟨st, by simp, fun j _ => by simp [hv, serial]⟩
  | true =>
    obtain ⟨cnt, h0, h1, hmk⟩ := hm i List.mem_cons_self hv
    have e := validBytes_mask h0 h1
    rw [hmk, e]
    refine ⟨_, rfl, fun j hj => ?_⟩
    simp only [he, Bool.false_eq_true, if_false, List.flatMap_cons, List.flatMap_nil, List.append_nil, hv, if_true,
      hmk, e, Option.getD_some]
    rw [crc_matrix_eq_serial_partial _ _ _ _ _ hPW hp j hj, mask_order _ _ _ h1]

theorem mask_state (c : Cfg) (n : Nat) (lat0 : Bool) (hPW : 0 < c.PW) (hp : c.poly 0 = true) (he : c.bigEndian = false) :
    ∀ (is : List MIn) (s : MSt) (st : Bits), s.c = some st → noLast is → goodMask n is →
    ∃ t, ((maskMachine c n lat0).final s is).c = some t ∧
      ∀ j, j < c.PW → t j = serial c.poly c.PW st (maskMsg c n is) j := by
  intro is
  induction is with
  | nil => intro s st hs _ _; exact ⟨st, hs, fun _ _ => rfl⟩
  | cons i is ih =>
    intro s st hs hl hm
    obtain ⟨t, ht, htj⟩ := maskNext_spec c n hPW hp he st i
      (fun k hk => by
        have : k = i := by simpa using hk
        subst this
        exact hm k List.mem_cons_self)
    have hstep : ((maskMachine c n lat0).next s i).c = some t := by
      show (if i.vld && i.last then some c.init else maskNext c n s.c i) = _
      have : (i.vld && i.last) = false := by
        cases hv : i.vld with
        | false => rfl
        | true => exact hl i List.mem_cons_self hv
      rw [this, hs]
      exact ht
    obtain ⟨u, hu, huj⟩ := ih _ t hstep (fun k hk => hl k (List.mem_cons_of_mem _ hk))
      (fun k hk => hm k (List.mem_cons_of_mem _ hk))
    refine ⟨u, hu, fun j hj => ?_⟩
    rw [huj j hj]
    have e : maskMsg c n (i :: is) = maskMsg c n [i] ++ maskMsg c n is := by
      unfold maskMsg; simp
    rw [e, serial_append]
    exact serial_congr _ _ hPW _ htj j hj

/-- **C64** In the cycle after the last word of a frame (LATENCY 1) the output is the finished CRC of the bytes of this
frame. The frame starts from INIT, its words may be separated by idle cycles and may be partially valid. -/
theorem crc_frame (c : Cfg) (n : Nat) (hPW : 0 < c.PW) (hp : c.poly 0 = true) (he : c.bigEndian = false)
    (tmp0 : Option Bits) (frame : List MIn) (lastW i : MIn) (hl : noLast frame) (hm : goodMask n (frame ++ [lastW])) :
    ∃ o, (maskMachine c n false).outAfter ⟨some c.init, tmp0⟩ (frame ++ [lastW]) i = some o ∧
      ∀ j, j < c.PW → o j = finish c (serial c.poly c.PW c.init (maskMsg c n (frame ++ [lastW]))) j := by
  obtain ⟨t, ht, htj⟩ := mask_state c n false hPW hp he frame ⟨some c.init, tmp0⟩ c.init rfl hl
    (fun k hk => hm k (List.mem_append_left _ hk))
  obtain ⟨u, hu, huj⟩ := maskNext_spec c n hPW hp he t lastW
    (fun k hk => hm k (List.mem_append_right _ hk))
  refine ⟨finish c u, ?_, ?_⟩
  · unfold Machine.outAfter
    rw [Machine.final_append]
    show Option.map (finish c) (maskNext c n ((maskMachine c n false).final _ frame).c lastW) = _
    rw [ht, hu]
    rfl
  · intro j hj
    have key : ∀ k, k < c.PW → u k = serial c.poly c.PW c.init (maskMsg c n (frame ++ [lastW])) k := by
      intro k hk
      have e : maskMsg c n (frame ++ [lastW]) = maskMsg c n frame ++ maskMsg c n [lastW] := by
        unfold maskMsg; simp
      rw [huj k hk, e, serial_append]
      exact serial_congr _ _ hPW _ htj k hk
    unfold finish
    rw [key j hj, key _ (by omega)]

/-- **C64** Frames do not influence each other: after the last word the state is INIT again. -/
theorem crc_frame_restart (c : Cfg) (n : Nat) (lat0 : Bool) (s : MSt) (pre : List MIn) (lastW : MIn)
    (hv : lastW.vld = true) (hl : lastW.last = true) :
    ((maskMachine c n lat0).final s (pre ++ [lastW])).c = some c.init := by
  rw [Machine.final_append]
  show (if lastW.vld && lastW.last then some c.init else _) = _
  rw [hv, hl]
  rfl

/-! ## C40 XOROUT -/

/-- Full statement of C40: reflected (REFOUT) state xored with XOROUT. -/
def C40 : Prop := ∀ (c : Cfg) (s : Bits) (j : Nat), j < c.PW →
  finish c s j = ((if c.refout then s (c.PW - 1 - j) else s j) ^^ c.xorout j)

/-- configuration with `XOROUT=0b01` -/
def cfgX : Cfg := ⟨2, fun j => j == 0, fun _ => false, false, false, fun j => j == 0, false⟩

/-- **C40** violated: `Crc` xors the bit-reversed XOROUT. -/
theorem crc_xorout_violated : ¬ C40 := by
  intro h
  have := h cfgX (fun _ => false) 0 (by decide)
  revert this
  decide

/-- **C40** what holds: palindromic XOROUT. -/
theorem crc_xorout_partial (c : Cfg) (hx : ∀ j, j < c.PW → c.xorout (c.PW - 1 - j) = c.xorout j) (s : Bits) (j : Nat)
    (hj : j < c.PW) :
    finish c s j = ((if c.refout then s (c.PW - 1 - j) else s j) ^^ c.xorout j) := by
  unfold finish
  rw [hx j hj]

/-- Also `CrcComb` with REFOUT uses a changed XOROUT. -/
theorem crc_comb_xorout_violated : ¬ ∀ (c : Cfg) (n : Nat) (d : Bits) (j : Nat), j < c.PW →
    combOut c n d j =
      ((if c.refout then crcPar c.poly c.PW (8 * n) c.init (inBits c.bigEndian c.refin n d) (c.PW - 1 - j)
        else crcPar c.poly c.PW (8 * n) c.init (inBits c.bigEndian c.refin n d) j) ^^ c.xorout j) := by
  intro h
  have := h ⟨8, fun j => j == 0, fun _ => false, true, true, fun j => j == 0, false⟩ 1 (fun _ => false) 0 (by decide)
  revert this
  decide

/-! ## C63 error detection -/

theorem back_zero (poly : Bits) (PW : Nat) (hp : poly 0 = true) : ∀ (bits : List Bool) (e : Bits),
    bits.length ≤ PW → (∀ j, j < PW → serial poly PW e bits j = false) →
    ∀ j, j < PW - bits.length → e j = false := by
  intro bits
  induction bits with
  | nil => intro e _ h j hj; exact h j (by simpa using hj)
  | cons b bs ih =>
    intro e hl h j hj
    simp only [List.length_cons] at hl hj
    have h1 := ih (serStep poly PW e b) (by omega) h
    have h0 := h1 0 (by omega)
    have hfb : (e (PW - 1) ^^ b) = false := by simpa [serStep, hp] using h0
    have := h1 (j + 1) (by omega)
    simpa [serStep, hfb] using this

theorem burst_zero (poly : Bits) (PW : Nat) (hp : poly 0 = true) : ∀ (bits : List Bool) (e : Bits),
    bits.length ≤ PW → (∀ j, j < PW → e j = false) → (∀ j, j < PW → serial poly PW e bits j = false) →
    ∀ b ∈ bits, b = false := by
  intro bits
  induction bits with
  | nil => intro e _ _ _ b hb; cases hb
  | cons b bs ih =>
    intro e hl he h
    simp only [List.length_cons] at hl
    have h1 := back_zero poly PW hp bs (serStep poly PW e b) (by omega) h
    have hfb : (e (PW - 1) ^^ b) = false := by simpa [serStep, hp] using h1 0 (by omega)
    have hb : b = false := by simpa [he (PW - 1) (by omega)] using hfb
    have hz : ∀ j, j < PW → serStep poly PW e b j = false := by
      intro j hj
      cases j with
      | zero => simp [serStep, hfb]
      | succ j => simp [serStep, hfb, he j (by omega)]
    intro x hx
    rcases List.mem_cons.1 hx with rfl | hx
    · exact hb
    · exact ih _ (by omega) hz h x hx

theorem zeros_injective (poly : Bits) (PW : Nat) (hPW : 0 < PW) (hp : poly 0 = true) : ∀ (k : Nat) (e : Bits),
    (∀ j, j < PW → serial poly PW e (List.replicate k false) j = false) → ∀ j, j < PW → e j = false := by
  intro k
  induction k with
  | zero => intro e h; exact h
  | succ k ih =>
    intro e h
    have h1 := ih (serStep poly PW e false) h
    have hfb : e (PW - 1) = false := by simpa [serStep, hp] using h1 0 hPW
    intro j hj
    by_cases hl : j = PW - 1
    · rw [hl]; exact hfb
    · simpa [serStep, hfb] using h1 (j + 1) (by omega)

theorem zipWith_xor_self (c : List Bool) : List.zipWith (· ^^ ·) c c = List.replicate c.length false := by
  induction c with
  | nil => rfl
  | cons x c ih =>
    rw [List.zipWith_cons_cons, ih, Bool.xor_self]
    rfl

theorem zipWith_xor_false : ∀ (a b : List Bool), a.length = b.length →
    (∀ x ∈ List.zipWith (· ^^ ·) a b, x = false) → a = b := by
  intro a
  induction a with
  | nil => intro b h _; exact (List.length_eq_zero_iff.1 h.symm).symm
  | cons x a ih =>
    intro b h hz
    cases b with
    | nil => simp at h
    | cons y b =>
      simp only [List.zipWith_cons_cons, List.mem_cons, forall_eq_or_imp] at hz
      rw [ih b (by simpa using h) hz.2]
      have : x = y := by revert hz; cases x <;> cases y <;> simp
      rw [this]

/-- **C63** Each burst error not longer than the CRC is detected: two messages of the same length which differ only
inside of a window of at most `PW` bits have different CRC. -/
theorem crc_detects_burst (poly : Bits) (PW : Nat) (hPW : 0 < PW) (hp : poly 0 = true) (s : Bits)
    (pre b b' post : List Bool) (hlen : b.length = b'.length) (hle : b.length ≤ PW) (hne : b ≠ b') :
    ∃ j, j < PW ∧ serial poly PW s (pre ++ b ++ post) j ≠ serial poly PW s (pre ++ b' ++ post) j := by
  apply Classical.byContradiction
  intro hc
  have hall : ∀ j, j < PW → serial poly PW s (pre ++ b ++ post) j = serial poly PW s (pre ++ b' ++ post) j := by
    intro j hj
    apply Classical.byContradiction
    intro hx
    exact hc ⟨j, hj, hx⟩
  simp only [serial_append] at hall
  generalize serial poly PW s pre = t at hall
  apply hne
  have h1 := crc_linear poly PW post post (serial poly PW t b) (serial poly PW t b') rfl
  rw [zipWith_xor_self] at h1
  have h2 := zeros_injective poly PW hPW hp post.length
    (fun j => serial poly PW t b j ^^ serial poly PW t b' j)
    (fun j hj => by rw [h1]; simp only; rw [hall j hj]; simp)
  have h3 := crc_linear poly PW b b' t t hlen
  apply zipWith_xor_false b b' hlen
  refine burst_zero poly PW hp _ (fun j => t j ^^ t j) ?_ (fun j _ => by simp) ?_
  · simp; omega
  · intro j hj
    rw [h3]
    exact h2 j hj

/-- **C63** The output stage does not hide the difference. -/
theorem crc_finish_injective (c : Cfg) (s t : Bits) (h : ∀ j, j < c.PW → finish c s j = finish c t j) :
    ∀ j, j < c.PW → s j = t j := by
  intro j hj
  unfold finish at h
  cases hr : c.refout with
  | false =>
    have := h j hj
    simpa [hr] using this
  | true =>
    have := h (c.PW - 1 - j) (by omega)
    rw [show c.PW - 1 - (c.PW - 1 - j) = j by omega] at this
    simpa [hr] using this

/-! ## Non-vacuity -/

/-- CRC-8 (poly 0x07, init 0) -/
def crc8 : Cfg := ⟨8, Nat.testBit 0x07, fun _ => false, false, false, fun _ => false, false⟩

example : 0 < crc8.PW ∧ crc8.poly 0 = true ∧ crc8.refout = false ∧
    (∀ j, j < crc8.PW → crc8.xorout (crc8.PW - 1 - j) = crc8.xorout j) := by
  refine ⟨by decide, by decide, rfl, fun _ _ => rfl⟩

/-- bits as a number -/
def num (f : Bits) (n : Nat) : Nat := (List.range n).foldl (fun a k => a + (if f k then 2 ^ k else 0)) 0

-- CRC-8 of the byte 'a' (0x61) is 0x20, of the bytes 'a','b' 0xc9
set_option maxRecDepth 8192 in
example : num (combOut crc8 1 (Nat.testBit 0x61)) 8 = 0x20 := by decide
set_option maxRecDepth 8192 in
example : num (serial crc8.poly 8 crc8.init (msgBits false false 2 (Nat.testBit 0x6261))) 8 = 0xc9 := by decide

example : goodMask 2 ([⟨true, Nat.testBit 0x6261, 3, false⟩, ⟨false, fun _ => false, 0, false⟩]
    ++ [⟨true, Nat.testBit 0x63, 1, true⟩]) ∧ noLast [⟨true, Nat.testBit 0x6261, 3, false⟩] := by
  refine ⟨?_, ?_⟩
  · intro i hi hv
    simp at hi
    rcases hi with rfl | rfl | rfl
    · exact ⟨2, by decide, by decide, rfl⟩
    · cases hv
    · exact ⟨1, by decide, by decide, rfl⟩
  · intro i hi _
    simp at hi
    subst hi; rfl

example : ([true, false, true] : List Bool).length = [true, true, true].length ∧
    [true, false, true].length ≤ 8 ∧ ([true, false, true] : List Bool) ≠ [true, true, true] := by decide

end Verif.Crc
