import Verif.Bcd
/-!
# C42, C43, C62: properties of `BinToBcd` and `BcdToBin`
-/
namespace Verif.Bcd

/-- The decimal digits of `x` as a BCD word of `D` nibbles (specification). -/
def toBcd (D x : Nat) : Nat := packed (digit x) D

/-! ## Observations -/

def bAccepted (tr : List (BIn × BOut)) : List Nat :=
  tr.flatMap fun e => given (e.1.vld && e.2.rd) e.1.data

def bDelivered (tr : List (BIn × BOut)) : List Nat :=
  tr.flatMap fun e => given (e.2.vld && e.1.rd) e.2.data

/-- Inputs fit the port. -/
def bOk (W : Nat) (i : BIn) : Prop := i.data < 2 ^ W

theorem fin_data {W D : Nat} {s : B} (h : BInv W D s) : packed s.bcd D = toBcd D (val s.bcd D) :=
  packed_congr fun g hg => (digit_val h.dig g hg).symm

theorem bstep {W D : Nat} (hW : 0 < W) (hD : 2 ^ W ≤ 10 ^ D) (s : B) (i : BIn) (h : BInv W D s)
    (hi : bOk W i) : BInv W D (bnext W s i) ∧
    (bpending W D s).map (toBcd D) ++ (given (i.vld && (bout D s).rd) (toBcd D i.data))
      = (given ((bout D s).vld && i.rd) (bout D s).data)
        ++ (bpending W D (bnext W s i)).map (toBcd D) := by
  cases hs : s.st with
  | idle =>
    have ep : bpending W D s = [] := by unfold bpending; rw [hs]
    have en : bnext W s i = { st := if i.vld then .busy else .idle
                              bin := if i.vld then i.data else s.bin
                              cnt := 0
                              bcd := fun _ => 0 } := by unfold bnext; rw [hs]
    have er : (bout D s).rd = true := by simp [bout, hs]
    have ev : (bout D s).vld = false := by simp [bout, hs]
    rw [ep, en, er, ev]
    cases hv : i.vld with
    | false =>
      refine ⟨⟨fun _ _ => Nat.zero_le _, ?_, ?_⟩, ?_⟩
      · intro h; cases h
      · intro h; cases h
      · simp [given, bpending]
    | true =>
      refine ⟨⟨fun _ _ => Nat.zero_le _, ?_, ?_⟩, ?_⟩
      · intro _
        refine ⟨hW, i.data, ?_, hi, ?_⟩
        · simp
        · show val (fun _ => 0) D * _ + _ < _
          rw [val_zero]
          unfold bOk at hi
          omega
      · intro h; cases h
      · simp [given, bpending, val_zero]
  | busy =>
    obtain ⟨h1, h2, -, -⟩ := busy_step hD h hs i
    have er : (bout D s).rd = false := by simp [bout, hs]
    have ev : (bout D s).vld = false := by simp [bout, hs]
    refine ⟨h1, ?_⟩
    rw [h2, er, ev]
    simp [given]
  | fin =>
    have ep : bpending W D s = [val s.bcd D] := by unfold bpending; rw [hs]
    have en : bnext W s i = { s with st := if i.rd then .idle else .fin, cnt := 0 } := by
      unfold bnext; rw [hs]
    have er : (bout D s).rd = false := by simp [bout, hs]
    have ev : (bout D s).vld = true := by simp [bout, hs]
    have ed : (bout D s).data = toBcd D (val s.bcd D) := fin_data h
    rw [ep, en, er, ev, ed]
    cases hr : i.rd with
    | false =>
      refine ⟨⟨h.dig, ?_, fun _ => h.fin hs⟩, ?_⟩
      · intro h; cases h
      · simp [given, bpending]
    | true =>
      refine ⟨⟨h.dig, ?_, ?_⟩, ?_⟩
      · intro h; cases h
      · intro h; cases h
      · simp [given, bpending]

theorem brun {W D : Nat} (hW : 0 < W) (hD : 2 ^ W ≤ 10 ^ D) (bin0 : Nat) (is : List BIn)
    (hok : ∀ i ∈ is, bOk W i) :
    BInv W D ((bmachine W D).final (binit bin0) is) ∧
    (bAccepted ((bmachine W D).trace (binit bin0) is)).map (toBcd D)
      = bDelivered ((bmachine W D).trace (binit bin0) is)
        ++ (bpending W D ((bmachine W D).final (binit bin0) is)).map (toBcd D) := by
  have hok' : ∀ e ∈ (bmachine W D).trace (binit bin0) is, bOk W e.1 := by
    intro e he
    have : ∀ (is : List BIn) (s : B), e ∈ (bmachine W D).trace s is → e.1 ∈ is := by
      intro is
      induction is with
      | nil => intro s h; cases h
      | cons j js ih =>
        intro s h
        simp only [Machine.trace_cons, List.mem_cons] at h
        rcases h with h | h
        · rw [h]; exact List.mem_cons_self
        · exact List.mem_cons_of_mem _ (ih _ h)
    exact hok _ (this is _ he)
  have := (bmachine W D).conserveL (BInv W D) (fun e => bOk W e.1)
    (fun s => (bpending W D s).map (toBcd D))
    (fun e => given (e.1.vld && e.2.rd) (toBcd D e.1.data))
    (fun e => given (e.2.vld && e.1.rd) e.2.data)
    (fun s i h hi => bstep hW hD s i h hi) is (binit bin0) (binit_inv W D bin0) hok'
  refine ⟨this.1, ?_⟩
  have h2 := this.2
  have e0 : bpending W D (binit bin0) = [] := rfl
  rw [e0, List.map_nil, List.nil_append] at h2
  refine Eq.trans ?_ h2
  unfold bAccepted
  rw [List.map_flatMap]
  congr 1
  funext e
  unfold given
  split <;> rfl

/-- **C42** For every history: the accepted numbers, in order and each exactly once, are what was delivered,
plus at most one number in work. While the converter accepts nothing is in work, and while the output is valid
it shows the digits of the number in work. -/
theorem bin_to_bcd_correct {W D : Nat} (hW : 0 < W) (hD : 2 ^ W ≤ 10 ^ D) (bin0 : Nat) (is : List BIn)
    (hok : ∀ i ∈ is, bOk W i) (i : BIn) :
    ∃ pend : List Nat, pend.length ≤ 1 ∧
      (bAccepted ((bmachine W D).trace (binit bin0) is)).map (toBcd D)
        = bDelivered ((bmachine W D).trace (binit bin0) is) ++ pend ∧
      (((bmachine W D).outAfter (binit bin0) is i).rd = true → pend = []) ∧
      (((bmachine W D).outAfter (binit bin0) is i).vld = true →
        pend = [((bmachine W D).outAfter (binit bin0) is i).data]) := by
  obtain ⟨h, hq⟩ := brun hW hD bin0 is hok
  refine ⟨_, ?_, hq, ?_, ?_⟩
  · rw [List.length_map]
    unfold bpending
    split <;> simp
  · intro hr
    have : ((bmachine W D).final (binit bin0) is).st = .idle := by
      simpa [Machine.outAfter, bmachine, bout] using hr
    unfold bpending
    rw [this]
    rfl
  · intro hv
    have : ((bmachine W D).final (binit bin0) is).st = .fin := by
      simpa [Machine.outAfter, bmachine, bout] using hv
    show _ = [packed _ _]
    rw [fin_data h]
    unfold bpending
    rw [this]
    rfl

/-- **C42** Each nibble of the delivered word is a decimal digit of the number. -/
theorem toBcd_nibble (D x g : Nat) (hg : g < D) : toBcd D x / 16 ^ g % 16 = x / 10 ^ g % 10 := by
  have key : ∀ (f : Nat → Nat), (∀ k, f k < 16) → ∀ D, packed f D < 16 ^ D ∧
      ∀ g, g < D → packed f D / 16 ^ g % 16 = f g := by
    intro f hf D
    induction D with
    | zero => exact ⟨by simp [packed], fun g hg => by omega⟩
    | succ D ih =>
      have hD := Nat.mul_le_mul_right (16 ^ D) (show f D ≤ 15 by have := hf D; omega)
      refine ⟨?_, ?_⟩
      · simp only [packed]
        rw [Nat.pow_succ]
        have := ih.1
        omega
      · intro g hg
        simp only [packed]
        by_cases e : g = D
        · subst e
          rw [Nat.add_mul_div_right _ _ (Nat.pow_pos (by decide)), Nat.div_eq_of_lt ih.1,
            Nat.zero_add, Nat.mod_eq_of_lt (hf g)]
        · obtain ⟨m, rfl⟩ : ∃ m, D = g + (m + 1) := ⟨D - g - 1, by omega⟩
          have e1 : f (g + (m + 1)) * 16 ^ (g + (m + 1))
              = (f (g + (m + 1)) * 16 ^ m * 16) * 16 ^ g := by
            rw [Nat.pow_add, Nat.pow_succ, Nat.mul_comm (16 ^ g), Nat.mul_assoc, Nat.mul_assoc,
              Nat.mul_assoc, Nat.mul_comm 16]
          rw [e1, Nat.add_mul_div_right _ _ (Nat.pow_pos (by decide)), Nat.add_mul_mod_self_right]
          exact ih.2 g (by omega)
  have hd : ∀ k, digit x k < 16 := fun k => by
    have : digit x k < 10 := Nat.mod_lt _ (by decide)
    omega
  exact (key (digit x) hd D).2 g hg

theorem busy_run {W D : Nat} (hD : 2 ^ W ≤ 10 ^ D) : ∀ (post : List BIn) (s : B), BInv W D s → s.st = .busy →
    s.cnt + post.length ≤ W →
    (s.cnt + post.length < W → ((bmachine W D).final s post).st = .busy) ∧
    (s.cnt + post.length = W → ((bmachine W D).final s post).st = .fin) := by
  intro post
  induction post with
  | nil =>
    intro s h hs hl
    refine ⟨fun _ => hs, fun hl => ?_⟩
    have := (h.busy hs).1
    simp only [List.length_nil] at hl
    omega
  | cons i is ih =>
    intro s h hs hl
    obtain ⟨h1, -, h3, h4⟩ := busy_step hD h hs i
    have hc := (h.busy hs).1
    simp only [List.length_cons, Machine.final_cons] at hl ⊢
    show (_ → ((bmachine W D).final (bnext W s i) is).st = _) ∧ (_ → ((bmachine W D).final (bnext W s i) is).st = _)
    by_cases hlast : s.cnt = W - 1
    · have hnil : is = [] := List.length_eq_zero_iff.1 (by omega)
      subst hnil
      refine ⟨fun hh => ?_, fun _ => h3.2 hlast⟩
      simp only [List.length_nil] at hh
      omega
    · rcases h4 with h4 | ⟨h4, h5⟩
      · exact absurd (h3.1 h4) hlast
      · have := ih _ h1 h4 (by omega)
        rw [h5] at this
        exact ⟨fun hh => this.1 (by omega), fun hh => this.2 (by omega)⟩

/-- **C42** Latency: after an accepted number the converter is busy (neither ready nor valid) for exactly
`INPUT_WIDTH` cycles, and then the output is valid. -/
theorem bin_to_bcd_latency {W D : Nat} (hW : 0 < W) (hD : 2 ^ W ≤ 10 ^ D) (bin0 : Nat) (pre : List BIn) (i : BIn)
    (post : List BIn) (j : BIn) (hok : ∀ i ∈ pre, bOk W i) (hi : bOk W i) (hv : i.vld = true)
    (hr : ((bmachine W D).outAfter (binit bin0) pre i).rd = true) :
    (post.length < W →
      ((bmachine W D).outAfter (binit bin0) (pre ++ [i] ++ post) j).rd = false ∧
      ((bmachine W D).outAfter (binit bin0) (pre ++ [i] ++ post) j).vld = false) ∧
    (post.length = W → ((bmachine W D).outAfter (binit bin0) (pre ++ [i] ++ post) j).vld = true) := by
  obtain ⟨h, -⟩ := brun hW hD bin0 pre hok
  have hidle : ((bmachine W D).final (binit bin0) pre).st = .idle := by
    simpa [Machine.outAfter, bmachine, bout] using hr
  unfold Machine.outAfter
  rw [Machine.final_append, Machine.final_append]
  generalize (bmachine W D).final (binit bin0) pre = s at h hidle
  have h1 := (bstep hW hD s i h hi).1
  have hs1 : (bnext W s i).st = .busy ∧ (bnext W s i).cnt = 0 := by
    unfold bnext; rw [hidle]; simp [hv]
  have hb := busy_run hD post (bnext W s i) h1 hs1.1
  rw [hs1.2, Nat.zero_add] at hb
  have ef : (bmachine W D).final s [i] = bnext W s i := rfl
  rw [ef]
  refine ⟨fun hl => ?_, fun hl => ?_⟩
  · have := (hb (by omega)).1 hl
    simp [bmachine, bout] at this ⊢
    rw [this]; simp
  · have := (hb (by omega)).2 hl
    simp [bmachine, bout] at this ⊢
    exact this

/-- `DECIMAL_DIGITS` (logic/binToBcd.py:43-45): the least number of digits with `2^W ≤ 10^D`. -/
def decDigits (W : Nat) : Nat := ((List.range (W + 1)).find? fun D => decide (2 ^ W ≤ 10 ^ D)).getD W

/-- The digit count chosen by the component is sufficient. -/
theorem decDigits_ok (W : Nat) : 2 ^ W ≤ 10 ^ decDigits W := by
  unfold decDigits
  cases h : (List.range (W + 1)).find? fun D => decide (2 ^ W ≤ 10 ^ D) with
  | none => exact Nat.pow_le_pow_left (by decide) W
  | some D => simpa using List.find?_some h

example : decDigits 1 = 1 ∧ decDigits 8 = 3 ∧ decDigits 10 = 4 ∧ decDigits 64 = 20 := by decide

/-- non-vacuity of `bin_to_bcd_correct` and `bin_to_bcd_latency`: number 249 through an 8 bit converter -/
def ex249 : List BIn := [⟨false, 0, true⟩, ⟨true, 249, true⟩] ++ List.replicate 9 ⟨true, 13, true⟩

example : (∀ i ∈ ex249, bOk 8 i) ∧ bAccepted ((bmachine 8 3).trace (binit 77) ex249) = [249] ∧
    bDelivered ((bmachine 8 3).trace (binit 77) ex249) = [0x249] := by
  refine ⟨?_, ?_, ?_⟩
  · unfold bOk; decide
  · decide
  · decide

/-! ## BcdToBin -/

def dAccepted (tr : List (DIn × DOut)) : List (Nat → Nat) :=
  tr.flatMap fun e => given (e.1.vld && e.2.rd) e.1.data

def dDelivered (tr : List (DIn × DOut)) : List Nat :=
  tr.flatMap fun e => given (e.2.vld && e.1.rd) e.2.data

/-- Accepted words are valid BCD. -/
def dOk (N : Nat) (e : DIn × DOut) : Prop := e.1.vld = true → e.2.rd = true → ∀ g, g < N → e.1.data g ≤ 9

theorem mul_lt_of_pow {a m n : Nat} (h : a * 2 ^ m < n) : a < n := by
  have := Nat.le_mul_of_pos_right a (Nat.two_pow_pos m)
  omega

/-- a step into the CONVERTING state -/
theorem conv_step {N : Nat} (hN : 0 < N) (s : D) (i : DIn) (hst : stNext s i = .conv) {c r : Nat}
    (hdig : ∀ g, g < N → s.sr g ≤ 9) (hc : c < binWidth N)
    (hcnt : (s.cnt + 2 ^ log2ceil (binWidth N) - 1) % 2 ^ log2ceil (binWidth N) = c)
    (hbin : s.bin = r * 2 ^ (c + 1)) (hr : r < 2 ^ (binWidth N - (c + 1)))
    (hx : val s.sr N * 2 ^ (binWidth N - (c + 1)) + r < 10 ^ N) :
    DInv N (dnext N s i) ∧
    dpending N (dnext N s i) = [val s.sr N * 2 ^ (binWidth N - (c + 1)) + r] := by
  obtain ⟨r', e1, e2, e3⟩ := shift_step hN s.sr hdig hc hbin hr
  have en : dnext N s i = { st := .conv, sr := dabble N s.sr
                            bin := (s.sr 0 % 2) * 2 ^ (binWidth N - 1) + s.bin / 2, cnt := c } := by
    unfold dnext
    simp [hst, hcnt]
  rw [en]
  refine ⟨⟨?_, ?_⟩, ?_⟩
  · intro h; cases h
  · intro _
    refine ⟨fun g hg => (dabble_eq N s.sr g hdig hg).2, hc, r', e1, e2, ?_⟩
    show val (dabble N s.sr) N * _ + _ < _
    rw [e3]; exact hx
  · show [val (dabble N s.sr) N * 2 ^ (binWidth N - c)
      + ((s.sr 0 % 2) * 2 ^ (binWidth N - 1) + s.bin / 2) / 2 ^ c] = _
    rw [e1, Nat.mul_div_cancel _ (Nat.two_pow_pos c), e3]

theorem dstep {N : Nat} (hN : 0 < N) (s : D) (i : DIn) (h : DInv N s) (hi : dOk N (i, dout s i)) :
    DInv N (dnext N s i) ∧
    dpending N s ++ (given (i.vld && (dout s i).rd) (val i.data N))
      = (given ((dout s i).vld && i.rd) (dout s i).data) ++ dpending N (dnext N s i) := by
  have hMpos : 0 < binWidth N := log2ceil_pos _
  have hlog := le_two_pow_log2ceil (binWidth N)
  -- a step into LOAD_SR
  have hload : stNext s i = .load → i.vld = true → (dout s i).rd = true →
      DInv N (dnext N s i) ∧ dpending N (dnext N s i) = [val i.data N] := by
    intro hst hv hr
    have en : dnext N s i = { st := .load, sr := i.data, bin := 0
                              cnt := binWidth N % 2 ^ log2ceil (binWidth N) } := by
      unfold dnext
      simp [hst]
    rw [en]
    refine ⟨⟨fun _ => ⟨hi hv hr, rfl, rfl⟩, ?_⟩, rfl⟩
    intro h; cases h
  have hidle : stNext s i = .idle → DInv N (dnext N s i) ∧ dpending N (dnext N s i) = [] := by
    intro hst
    have e : (dnext N s i).st = .idle := hst
    refine ⟨⟨fun h => ?_, fun h => ?_⟩, by unfold dpending; rw [e]⟩
    · rw [e] at h; cases h
    · rw [e] at h; cases h
  have hdone : stNext s i = .done → DInv N (dnext N s i) ∧ dpending N (dnext N s i) = [s.bin] := by
    intro hst
    have e : (dnext N s i).st = .done := hst
    have eb : (dnext N s i).bin = s.bin := by unfold dnext; simp [hst]
    refine ⟨⟨fun h => ?_, fun h => ?_⟩, by unfold dpending; rw [e]; simp [eb]⟩
    · rw [e] at h; cases h
    · rw [e] at h; cases h
  cases hs : s.st with
  | idle =>
    have ep : dpending N s = [] := by unfold dpending; rw [hs]
    have er : (dout s i).rd = true := by simp [dout, hs]
    have ev : (dout s i).vld = false := by simp [dout, hs]
    rw [ep, ev]
    cases hv : i.vld with
    | false =>
      obtain ⟨a, b⟩ := hidle (by unfold stNext; rw [hs]; simp [hv])
      exact ⟨a, by rw [b]; simp [given]⟩
    | true =>
      obtain ⟨a, b⟩ := hload (by unfold stNext; rw [hs]; simp [hv]) hv er
      exact ⟨a, by rw [b, er]; simp [given]⟩
  | load =>
    have ep : dpending N s = [val s.sr N] := by unfold dpending; rw [hs]
    have er : (dout s i).rd = false := by simp [dout, hs]
    have ev : (dout s i).vld = false := by simp [dout, hs]
    obtain ⟨hdig, hbin, hcnt⟩ := h.load hs
    have hst : stNext s i = .conv := by unfold stNext; rw [hs]
    have := conv_step (c := binWidth N - 1) (r := 0) hN s i hst hdig (by omega)
      (by
        rw [hcnt]
        rcases Nat.lt_or_ge (binWidth N) (2 ^ log2ceil (binWidth N)) with hl | hl
        · rw [Nat.mod_eq_of_lt hl, show binWidth N + 2 ^ log2ceil (binWidth N) - 1
            = (binWidth N - 1) + 2 ^ log2ceil (binWidth N) by omega, Nat.add_mod_right,
            Nat.mod_eq_of_lt (by omega)]
        · rw [show 2 ^ log2ceil (binWidth N) = binWidth N by omega, Nat.mod_self, Nat.zero_add,
            Nat.mod_eq_of_lt (by omega)])
      (by simpa using hbin)
      (Nat.two_pow_pos _)
      (by
        rw [show binWidth N - (binWidth N - 1 + 1) = 0 by omega]
        simpa using val_lt hdig)
    refine ⟨this.1, ?_⟩
    rw [this.2, ep, er, ev, show binWidth N - (binWidth N - 1 + 1) = 0 by omega]
    simp [given]
  | conv =>
    have er : (dout s i).rd = false := by simp [dout, hs]
    have ev : (dout s i).vld = false := by simp [dout, hs]
    obtain ⟨hdig, hcnt, r, hbin, hr, hx⟩ := h.conv hs
    have ep : dpending N s = [val s.sr N * 2 ^ (binWidth N - s.cnt) + r] := by
      unfold dpending
      rw [hs]
      simp only
      rw [hbin, Nat.mul_div_cancel _ (Nat.two_pow_pos _)]
    rw [ep, er, ev]
    by_cases h0 : s.cnt = 0
    · obtain ⟨a, b⟩ := hdone (by unfold stNext; rw [hs]; simp [h0])
      refine ⟨a, ?_⟩
      rw [b]
      rw [h0, Nat.sub_zero] at hx ⊢
      rw [h0, Nat.pow_zero, Nat.mul_one] at hbin
      have hp := pow_le_binWidth N hN
      have hz : val s.sr N = 0 := by
        rcases Nat.eq_zero_or_pos (val s.sr N) with hz | hz
        · exact hz
        · have := Nat.mul_le_mul_right (2 ^ binWidth N) hz
          omega
      simp [given, hz, hbin]
    · have hst : stNext s i = .conv := by unfold stNext; rw [hs]; simp [h0]
      have ec : s.cnt - 1 + 1 = s.cnt := by omega
      have := conv_step (c := s.cnt - 1) (r := r) hN s i hst hdig (by omega)
        (by
          rw [show s.cnt + 2 ^ log2ceil (binWidth N) - 1
            = (s.cnt - 1) + 2 ^ log2ceil (binWidth N) by omega, Nat.add_mod_right,
            Nat.mod_eq_of_lt (by omega)])
        (by rw [ec]; exact hbin) (by rw [ec]; exact hr) (by rw [ec]; exact hx)
      refine ⟨this.1, ?_⟩
      rw [this.2, ec]
      simp [given]
  | done =>
    have ep : dpending N s = [s.bin] := by unfold dpending; rw [hs]
    have er : (dout s i).rd = i.rd := by simp [dout, hs]
    have ev : (dout s i).vld = true := by simp [dout, hs]
    have ed : (dout s i).data = s.bin := rfl
    rw [ep, er, ev, ed]
    cases hr : i.rd with
    | false =>
      obtain ⟨a, b⟩ := hdone (by unfold stNext; rw [hs]; simp [hr])
      exact ⟨a, by rw [b]; simp [given]⟩
    | true =>
      cases hv : i.vld with
      | false =>
        obtain ⟨a, b⟩ := hidle (by unfold stNext; rw [hs]; simp [hr, hv])
        exact ⟨a, by rw [b]; simp [given]⟩
      | true =>
        obtain ⟨a, b⟩ := hload (by unfold stNext; rw [hs]; simp [hr, hv]) hv (er.trans hr)
        exact ⟨a, by rw [b]; simp [given]⟩

theorem drun {N : Nat} (hN : 0 < N) (is : List DIn) (hok : ∀ e ∈ (dmachine N).trace (dinit N) is, dOk N e) :
    DInv N ((dmachine N).final (dinit N) is) ∧
    (dAccepted ((dmachine N).trace (dinit N) is)).map (fun f => val f N)
      = dDelivered ((dmachine N).trace (dinit N) is) ++ dpending N ((dmachine N).final (dinit N) is) := by
  have := (dmachine N).conserveL (DInv N) (dOk N) (dpending N)
    (fun e => given (e.1.vld && e.2.rd) (val e.1.data N))
    (fun e => given (e.2.vld && e.1.rd) e.2.data)
    (fun s i h hi => dstep hN s i h hi) is (dinit N) (dinit_inv N) hok
  refine ⟨this.1, ?_⟩
  have h2 := this.2
  have e0 : dpending N (dinit N) = [] := rfl
  rw [e0, List.nil_append] at h2
  refine Eq.trans ?_ h2
  unfold dAccepted
  rw [List.map_flatMap]
  congr 1
  funext e
  unfold given
  split <;> rfl

/-- **C43** For every history in which accepted words are valid BCD: the numbers denoted by the accepted words,
in order and each exactly once, are what was delivered plus at most one number in work; a valid output shows
the number in work. -/
theorem bcd_to_bin_correct {N : Nat} (hN : 0 < N) (is : List DIn)
    (hok : ∀ e ∈ (dmachine N).trace (dinit N) is, dOk N e) (i : DIn) :
    ∃ pend : List Nat, pend.length ≤ 1 ∧
      (dAccepted ((dmachine N).trace (dinit N) is)).map (fun f => val f N)
        = dDelivered ((dmachine N).trace (dinit N) is) ++ pend ∧
      (((dmachine N).outAfter (dinit N) is i).vld = true →
        pend = [((dmachine N).outAfter (dinit N) is i).data]) ∧
      (((dmachine N).outAfter (dinit N) is i).rd = true →
        ((dmachine N).outAfter (dinit N) is i).vld = false → pend = []) := by
  obtain ⟨-, hq⟩ := drun hN is hok
  refine ⟨_, ?_, hq, ?_, ?_⟩
  · unfold dpending
    split <;> simp
  · intro hv
    have : ((dmachine N).final (dinit N) is).st = .done := by
      simpa [Machine.outAfter, dmachine, dout] using hv
    unfold dpending
    rw [this]
    rfl
  · intro hr hv
    have : ((dmachine N).final (dinit N) is).st = .idle := by
      simp [Machine.outAfter, dmachine, dout] at hr hv
      rcases hr with hr | hr
      · exact hr
      · exact absurd hr.1 hv
    unfold dpending
    rw [this]

theorem conv_run {N : Nat} (hN : 0 < N) : ∀ (post : List DIn) (s : D), DInv N s → s.st = .conv →
    post.length ≤ s.cnt + 1 →
    (post.length < s.cnt + 1 → ((dmachine N).final s post).st = .conv) ∧
    (post.length = s.cnt + 1 → ((dmachine N).final s post).st = .done) := by
  intro post
  induction post with
  | nil => intro s _ hs _; exact ⟨fun _ => hs, fun h => by simp at h⟩
  | cons i is ih =>
    intro s h hs hl
    have hok : dOk N (i, dout s i) := by
      intro _ hr
      simp [dout, hs] at hr
    have h1 := (dstep hN s i h hok).1
    have hcnt := (h.conv hs).2.1
    have hlog := le_two_pow_log2ceil (binWidth N)
    simp only [List.length_cons, Machine.final_cons] at hl ⊢
    show (_ → ((dmachine N).final (dnext N s i) is).st = _) ∧ (_ → ((dmachine N).final (dnext N s i) is).st = _)
    by_cases h0 : s.cnt = 0
    · have hnil : is = [] := List.length_eq_zero_iff.1 (by omega)
      subst hnil
      refine ⟨fun hh => ?_, fun _ => ?_⟩
      · simp only [List.length_nil] at hh; omega
      · show stNext s i = _
        unfold stNext; rw [hs]; simp [h0]
    · have hst : stNext s i = .conv := by unfold stNext; rw [hs]; simp [h0]
      have ec : (dnext N s i).cnt = s.cnt - 1 := by
        unfold dnext
        simp only [hst, if_true]
        rw [show s.cnt + 2 ^ log2ceil (binWidth N) - 1
            = (s.cnt - 1) + 2 ^ log2ceil (binWidth N) by omega, Nat.add_mod_right,
            Nat.mod_eq_of_lt (by omega)]
      have := ih _ h1 hst (by omega)
      rw [ec] at this
      exact ⟨fun hh => this.1 (by omega), fun hh => this.2 (by omega)⟩

/-- **C43** Latency: an accepted word is shown on the output after exactly one load cycle and one cycle per
result bit, whatever happens on the ports meanwhile. -/
theorem bcd_to_bin_latency {N : Nat} (hN : 0 < N) (pre : List DIn) (i : DIn) (post : List DIn) (j : DIn)
    (hok : ∀ e ∈ (dmachine N).trace (dinit N) (pre ++ [i]), dOk N e) (hv : i.vld = true)
    (hr : ((dmachine N).outAfter (dinit N) pre i).rd = true) :
    (post.length < binWidth N + 1 →
      ((dmachine N).outAfter (dinit N) (pre ++ [i] ++ post) j).rd = false ∧
      ((dmachine N).outAfter (dinit N) (pre ++ [i] ++ post) j).vld = false) ∧
    (post.length = binWidth N + 1 →
      ((dmachine N).outAfter (dinit N) (pre ++ [i] ++ post) j).vld = true) := by
  have h1 := (drun hN (pre ++ [i]) hok).1
  have hMpos : 0 < binWidth N := log2ceil_pos _
  unfold Machine.outAfter
  rw [Machine.final_append _ _ (pre ++ [i])]
  have hst1 : ((dmachine N).final (dinit N) (pre ++ [i])).st = .load := by
    rw [Machine.final_append]
    have hr' : (dout ((dmachine N).final (dinit N) pre) i).rd = true := hr
    show stNext _ _ = _
    simp [dout] at hr'
    rcases hr' with hr' | hr'
    · unfold stNext; rw [hr']; simp [hv]
    · unfold stNext; rw [hr'.1]; simp [hv, hr'.2]
  generalize (dmachine N).final (dinit N) (pre ++ [i]) = s at h1 hst1
  cases post with
  | nil =>
    refine ⟨fun _ => ?_, fun h => by simp at h⟩
    simp [dmachine, dout, hst1]
  | cons k ks =>
    have hstk : stNext s k = .conv := by unfold stNext; rw [hst1]
    have hok' : dOk N (k, dout s k) := by
      intro _ hr
      simp [dout, hst1] at hr
    have h2 := (dstep hN s k h1 hok').1
    have hcnt : (dnext N s k).cnt = binWidth N - 1 := by
      have hlog := le_two_pow_log2ceil (binWidth N)
      unfold dnext
      simp only [hstk, if_true]
      rw [(h1.load hst1).2.2]
      rcases Nat.lt_or_ge (binWidth N) (2 ^ log2ceil (binWidth N)) with hl | hl
      · rw [Nat.mod_eq_of_lt hl, show binWidth N + 2 ^ log2ceil (binWidth N) - 1
          = (binWidth N - 1) + 2 ^ log2ceil (binWidth N) by omega, Nat.add_mod_right,
          Nat.mod_eq_of_lt (by omega)]
      · rw [show 2 ^ log2ceil (binWidth N) = binWidth N by omega, Nat.mod_self, Nat.zero_add,
          Nat.mod_eq_of_lt (by omega)]
    have hb := conv_run hN ks (dnext N s k) h2 hstk
    rw [hcnt] at hb
    simp only [List.length_cons, Machine.final_cons]
    show (_ → (dout ((dmachine N).final (dnext N s k) ks) j).rd = _ ∧ _) ∧ _
    refine ⟨fun hl => ?_, fun hl => ?_⟩
    · have := (hb (by omega)).1 (by omega)
      show (dout ((dmachine N).final (dnext N s k) ks) j).rd = _
        ∧ (dout ((dmachine N).final (dnext N s k) ks) j).vld = _
      simp [dout, this]
    · have := (hb (by omega)).2 (by omega)
      show (dout ((dmachine N).final (dnext N s k) ks) j).vld = _
      simp [dout, this]

/-- non-vacuity: the words 249 and 7 through a 3 digit converter, back to back -/
def ex3 : List DIn :=
  [⟨true, fun g => [9, 4, 2].getD g 0, true⟩] ++ List.replicate 11 ⟨false, fun _ => 15, true⟩
    ++ [⟨true, fun g => [7, 0, 0].getD g 0, true⟩] ++ List.replicate 12 ⟨false, fun _ => 15, true⟩

example : binWidth 3 = 10 := by decide
set_option maxRecDepth 4096 in
example : dDelivered ((dmachine 3).trace (dinit 3) ex3) = [249, 7] := by decide
set_option maxRecDepth 4096 in
example : ((dmachine 3).trace (dinit 3) ex3).all fun e =>
    !(e.1.vld && e.2.rd) || (List.range 3).all fun g => decide (e.1.data g ≤ 9) := by decide

/-! ## The counter constant of `BcdToBin` (C62) -/

/-- logic/bcdToBin.py:51-54: the constant `MAX_COUNT` is stored to a register with `log2ceil(MAX_COUNT)` bits.
It must fit that type for the component to be constructed. -/
def counterConstantFits (N : Nat) : Prop := binWidth N < 2 ^ log2ceil (binWidth N)

/-- Full statement of C62. -/
def C62 : Prop := ∀ N, 0 < N → counterConstantFits N

/-- **C62** violated by the single digit converter (MAX_COUNT = 4 does not fit into 2 bits). -/
theorem bcd_to_bin_counter_violated : ¬ C62 := by
  intro h
  have := h 1 (by decide)
  unfold counterConstantFits at this
  revert this
  decide

/-- the next digit count with the same defect is 19 -/
theorem bcd_to_bin_counter_19 : ¬ counterConstantFits 19 := by unfold counterConstantFits; decide

/-- **C62** what holds: it fits whenever the result width is not a power of two. -/
theorem bcd_to_bin_counter_partial (N : Nat) (h : ∀ e, binWidth N ≠ 2 ^ e) : counterConstantFits N := by
  have := le_two_pow_log2ceil (binWidth N)
  have := h (log2ceil (binWidth N))
  unfold counterConstantFits
  omega

-- non-vacuity: 3 digits (10 result bits)
example : ∀ e, binWidth 3 ≠ 2 ^ e := by
  intro e h
  have h10 : binWidth 3 = 10 := by decide
  rw [h10] at h
  have h4 : e < 4 := by
    rcases Nat.lt_or_ge e 4 with hl | hl
    · exact hl
    · have := Nat.pow_le_pow_right (n := 2) (by decide) hl
      omega
  have : e = 0 ∨ e = 1 ∨ e = 2 ∨ e = 3 := by omega
  rcases this with rfl | rfl | rfl | rfl <;> simp at h

end Verif.Bcd
