import Verif.Uart
/-!
# Properties of `UartTx` and `UartRx` (C71 – C73)

Infinite runs: `stim n` is the input in clock cycle `n` after reset.
-/
namespace Verif.Uart

/-! ## Transmitter -/

section
variable (B : Nat) (d0 : Nat → Bool) (stim : Nat → TxIn)

/-- Outputs of the transmitter in cycle `n`; `B` = FREQ // BAUD clock cycles per bit. -/
def txAt (n : Nat) : TxOut := (tx B).outAt (txInit B d0) stim n

/-- A byte is accepted in cycle `c`. -/
def accepts (c : Nat) : Bool := (txAt B d0 stim c).rd && (stim c).vld

end

section
variable {B : Nat} {d0 : Nat → Bool} {stim : Nat → TxIn}

private def st (B : Nat) (d0 : Nat → Bool) (stim : Nat → TxIn) (n : Nat) : Tx :=
  (tx B).stateAt (txInit B d0) stim n

private theorem accepts_idle {n : Nat} (h : Idle B (st B d0 stim n)) :
    accepts B d0 stim n = (stim n).vld := by
  have : (txAt B d0 stim n).rd = !(st B d0 stim n).en := rfl
  unfold accepts
  rw [this, h.en]; rfl

private theorem accepts_sending {n d k : Nat} (h : Sending B d k (st B d0 stim n)) :
    accepts B d0 stim n = false := by
  have : (txAt B d0 stim n).rd = !(st B d0 stim n).en := rfl
  unfold accepts
  rw [this, h.en]; rfl

private theorem cases_at (hB : 0 < B) (n : Nat) :
    (Idle B (st B d0 stim n) ∧ ∀ c, c < n → accepts B d0 stim c = true → c + B * 10 < n) ∨
    (∃ c, c < n ∧ accepts B d0 stim c = true ∧ Sending B (stim c).data (n - c - 1) (st B d0 stim n) ∧
      ∀ c', c' < n → accepts B d0 stim c' = true → c' = c ∨ c' + B * 10 < c) := by
  induction n with
  | zero =>
    refine Or.inl ⟨⟨rfl, rfl, 0, Timers.reg_init _⟩, fun c hc => absurd hc (by omega)⟩
  | succ n ih =>
    have hst : st B d0 stim (n + 1) = txNext B (st B d0 stim n) (stim n) := rfl
    rcases ih with ⟨hi, hall⟩ | ⟨c, hc, ha, hs, hall⟩
    · cases hv : (stim n).vld with
      | false =>
        left
        refine ⟨by rw [hst]; exact idle_wait hB hi _ hv, fun c hc ha => ?_⟩
        rcases Nat.lt_succ_iff_lt_or_eq.1 hc with h | h
        · have := hall c h ha; omega
        · subst h; rw [accepts_idle hi, hv] at ha; cases ha
      | true =>
        right
        refine ⟨n, by omega, by rw [accepts_idle hi, hv], ?_, fun c' hc' ha' => ?_⟩
        · rw [hst, show n + 1 - n - 1 = 0 by omega]; exact idle_accept hB hi _ hv
        · rcases Nat.lt_succ_iff_lt_or_eq.1 hc' with h | h
          · exact Or.inr (hall c' h ha')
          · exact Or.inl h
    · have hna := accepts_sending hs
      have hlt := hs.lt
      have step := sending_step hB hs (stim n)
      have hall' : ∀ c', c' < n + 1 → accepts B d0 stim c' = true → c' = c ∨ c' + B * 10 < c := by
        intro c' hc' ha'
        rcases Nat.lt_succ_iff_lt_or_eq.1 hc' with h | h
        · exact hall c' h ha'
        · subst h; rw [hna] at ha'; cases ha'
      rcases Nat.lt_or_ge (n - c - 1 + 1) (B * 10) with h | h
      · right
        refine ⟨c, by omega, ha, ?_, hall'⟩
        have := step.1 h
        rw [hst, show n + 1 - c - 1 = n - c - 1 + 1 by omega]; exact this
      · left
        refine ⟨by rw [hst]; exact step.2 (by omega), fun c' hc' ha' => ?_⟩
        rcases hall' c' hc' ha' with h | h <;> omega

/-- **C71** `rd` is low for exactly the `10 * B` cycles after a byte was accepted: the transmitter is ready
again as soon as the ten bits of the frame were put on the line. -/
theorem uartTx_ready (hB : 0 < B) (n : Nat) :
    (txAt B d0 stim n).rd = true ↔ ∀ c, c < n → accepts B d0 stim c = true → c + B * 10 < n := by
  have e : (txAt B d0 stim n).rd = !(st B d0 stim n).en := rfl
  rw [e]
  rcases cases_at (d0 := d0) (stim := stim) hB n with ⟨hi, hall⟩ | ⟨c, hc, ha, hs, _⟩
  · rw [hi.en]; simpa using hall
  · rw [hs.en]
    have := hs.lt
    constructor
    · intro h; cases h
    · intro h; have := h c hc ha; omega

/-- **C71** Accepted bytes are at least `10 * B + 1` cycles apart. -/
theorem uartTx_spacing (hB : 0 < B) (c c' : Nat) (h : c < c') (ha : accepts B d0 stim c = true)
    (ha' : accepts B d0 stim c' = true) : c + B * 10 + 1 ≤ c' := by
  have hr : (txAt B d0 stim c').rd = true := by
    unfold accepts at ha'; rw [Bool.and_eq_true] at ha'; exact ha'.1
  have := (uartTx_ready hB c').1 hr c h ha
  omega

/-- The line in each cycle, from the last accepted byte. -/
theorem line_eq (hB : 0 < B) (n : Nat) : (txAt B d0 stim n).txd = true ∨
    ∃ c, accepts B d0 stim c = true ∧ c + 1 + B ≤ n ∧ n < c + 1 + B * 10 ∧
      (txAt B d0 stim n).txd = frame (stim c).data ((n - (c + 1 + B)) / B) := by
  have e : (txAt B d0 stim n).txd = (st B d0 stim n).txd := rfl
  rw [e]
  rcases cases_at (d0 := d0) (stim := stim) hB n with ⟨hi, hall⟩ | ⟨c, hc, ha, hs, _⟩
  · exact Or.inl hi.txd
  · have hlt := hs.lt
    have ht := hs.txd
    rcases Nat.lt_or_ge (n - c - 1) B with h | h
    · rw [Nat.div_eq_of_lt h] at ht; exact Or.inl ht
    · right
      refine ⟨c, ha, by omega, by omega, ?_⟩
      have e2 : (n - c - 1) / B = (n - (c + 1 + B)) / B + 1 := by
        rw [show n - c - 1 = (n - (c + 1 + B)) + B by omega, Nat.add_div_right _ hB]
      rw [ht, e2, if_neg (Nat.succ_ne_zero _)]
      congr 1

/-- **C71** A byte accepted in cycle `c` appears on the line as start bit (0), the eight data bits from the
least significant one, and stop bit (1), each for `B` clock cycles, beginning in cycle `c + 1 + B`. -/
theorem uartTx_frame (hB : 0 < B) (c : Nat) (ha : accepts B d0 stim c = true) (j r : Nat) (hj : j < 10)
    (hr : r < B) :
    (txAt B d0 stim (c + 1 + B + B * j + r)).txd
      = if j = 0 then false else if j ≤ 8 then (stim c).data.testBit (j - 1) else true := by
  have hjr : B * j + r < B * 10 := by
    have h1 : B * (j + 1) ≤ B * 10 := Nat.mul_le_mul_left _ (by omega)
    rw [Nat.mul_succ] at h1; omega
  have hfr : (if j = 0 then false else if j ≤ 8 then (stim c).data.testBit (j - 1) else true)
      = frame (stim c).data j := by
    unfold frame
    by_cases h0 : j = 0
    · simp [h0]
    · rw [if_neg h0, if_neg h0]
      by_cases h8 : j ≤ 8
      · rw [if_pos h8, if_pos (by omega)]
      · rw [if_neg h8, if_neg (by omega)]
  rw [hfr]
  have e : ∀ n, (txAt B d0 stim n).txd = (st B d0 stim n).txd := fun _ => rfl
  rw [e]
  have hdiv : (B * j + r) / B = j := by
    rw [Nat.mul_add_div hB, Nat.div_eq_of_lt hr, Nat.add_zero]
  rcases cases_at (d0 := d0) (stim := stim) hB (c + 1 + B + B * j + r) with ⟨hi, hall⟩ | ⟨c', hc', ha', hs, hall⟩
  · have h9 := hall c (by omega) ha
    have : j = 9 := by
      apply Classical.byContradiction
      intro hne
      have h1 : B * (j + 1) ≤ B * 9 := Nat.mul_le_mul_left _ (by omega)
      rw [Nat.mul_succ] at h1; omega
    rw [hi.txd, this]; rfl
  · rcases hall c (by omega) ha with h | h
    · subst h
      have ht := hs.txd
      have e2 : (c + 1 + B + B * j + r - c - 1) / B = j + 1 := by
        rw [show c + 1 + B + B * j + r - c - 1 = (B * j + r) + B by omega, Nat.add_div_right _ hB, hdiv]
      rw [e2, if_neg (by omega)] at ht
      exact ht
    · have hlt := hs.lt
      have : j = 9 := by
        apply Classical.byContradiction
        intro hne
        have h1 : B * (j + 1) ≤ B * 9 := Nat.mul_le_mul_left _ (by omega)
        rw [Nat.mul_succ] at h1; omega
      subst this
      have ht := hs.txd
      rw [Nat.div_eq_of_lt (by omega)] at ht
      rw [ht]; rfl

/-- **C71** Outside of frames the line is high. -/
theorem uartTx_idle_high (hB : 0 < B) (n : Nat)
    (h : ∀ c, accepts B d0 stim c = true → n < c + 1 + B ∨ c + 1 + B + B * 10 ≤ n) :
    (txAt B d0 stim n).txd = true := by
  rcases line_eq (d0 := d0) (stim := stim) hB n with h1 | ⟨c, ha, h1, h2, _⟩
  · exact h1
  · rcases h c ha with h | h <;> omega

end

/-! ## Receiver -/

section
variable (OS S : Nat) (d0 : Nat → Bool) (line : Nat → Bool)

/-- Outputs of the receiver in cycle `n`, the line has value `line n` in this cycle. -/
def rxAt (n : Nat) : RxOut := (rx OS S).outAt (rxInit OS S d0) line n

end

section
variable {OS S : Nat} {d0 : Nat → Bool} {line : Nat → Bool}

private def rst (OS S : Nat) (d0 line : Nat → Bool) (n : Nat) : Rx :=
  (rx OS S).stateAt (rxInit OS S d0) line n

private theorem rst_sync (n : Nat) : (rst OS S d0 line (n + 1)).sync = line n := rfl

/-- Value of the `m`-th sample when the start bit was seen on the synchronised line in cycle `t + 1`. -/
def sampleAt (S : Nat) (line : Nat → Bool) (t m : Nat) : Bool := line (t + (m + 1) * S)

private theorem recv_run (hS : 0 < S) (hO : 0 < OS) (t : Nat) (hi : RIdle (rst OS S d0 line (t + 1)))
    (hl : line t = false) (hb : bitOf OS (sampleAt S line t) 0 = false) (k : Nat) (hk : k < S * OS * 10) :
    Recv OS S (sampleAt S line t) k (rst OS S d0 line (t + 2 + k)) := by
  have hB : 0 < S * OS := Nat.mul_pos hS hO
  induction k with
  | zero => exact ridle_start hS hO _ hi (by rw [rst_sync]; exact hl) _
  | succ k ih =>
    have h := ih (by omega)
    have e : rst OS S d0 line (t + 2 + (k + 1)) = rxNext OS S (rst OS S d0 line (t + 2 + k)) (line (t + 2 + k)) := rfl
    rw [e]
    by_cases hz : (k + 1) % (S * OS) = 0
    · exact (recv_done hS hO h _ hz).1 hk hb
    · refine recv_mid hS hO h ?_ _ hz
      intro hs
      rw [show t + 2 + k = (t + 1 + k) + 1 by omega, rst_sync]
      unfold sampleAt
      congr 1
      have h1 := Timers.succ_div_of_dvd hS hs
      have h2 := Nat.div_mul_cancel (Nat.dvd_of_mod_eq_zero hs)
      rw [h1] at h2
      omega

/-- Reception of one frame: ten bits, each decided by the majority of the samples. -/
theorem rx_frame (hS : 0 < S) (hO : 0 < OS) (t : Nat) (hi : RIdle (rst OS S d0 line (t + 1)))
    (hl : line t = false) (hb : bitOf OS (sampleAt S line t) 0 = false) :
    (∀ k, k < S * OS * 10 → (rxAt OS S d0 line (t + 2 + k)).vld
      = (decide (k + 1 = S * OS * 10) && bitOf OS (sampleAt S line t) 9)) ∧
    (∀ l, l < 8 → (rxAt OS S d0 line (t + 1 + S * OS * 10)).data l = bitOf OS (sampleAt S line t) (l + 1)) ∧
    RIdle (rst OS S d0 line (t + 2 + S * OS * 10)) := by
  have hB : 0 < S * OS := Nat.mul_pos hS hO
  have run := recv_run (d0 := d0) hS hO t hi hl hb
  have hlast := run (S * OS * 10 - 1) (by omega)
  refine ⟨fun k hk => (recv_out hS hO (run k hk)).1, ?_, ?_⟩
  · intro l hl'
    have := (recv_out hS hO hlast).2 (by omega) l hl'
    rw [show t + 2 + (S * OS * 10 - 1) = t + 1 + S * OS * 10 by omega] at this
    exact this
  · have := (recv_done hS hO hlast (line (t + 2 + (S * OS * 10 - 1)))
      (by rw [show S * OS * 10 - 1 + 1 = S * OS * 10 by omega, Nat.mul_mod_right])).2 (Or.inl (by omega))
    rw [show t + 2 + S * OS * 10 = t + 2 + (S * OS * 10 - 1) + 1 by omega]
    exact this

private theorem idle_run (t m : Nat) (hi : RIdle (rst OS S d0 line (t + 1)))
    (hl : ∀ n, t ≤ n → n < t + m → line n = true) :
    (∀ n, n ≤ m → RIdle (rst OS S d0 line (t + 1 + n))) ∧
    (∀ n, n ≤ m → (rxAt OS S d0 line (t + 1 + n)).vld = false) := by
  have h : ∀ n, n ≤ m → RIdle (rst OS S d0 line (t + 1 + n)) := by
    intro n
    induction n with
    | zero => intro _; exact hi
    | succ n ih =>
      intro hn
      exact ridle_wait (ih (by omega)) (by
        rw [show t + 1 + n = (t + n) + 1 by omega, rst_sync]; exact hl _ (by omega) (by omega)) _
  exact ⟨h, fun n hn => ridle_out (h n hn)⟩

theorem onesCnt_const (OS : Nat) (smp : Nat → Bool) (j n : Nat) (b : Bool) (h : ∀ i, i < n → smp (j * OS + i) = b) :
    onesCnt OS smp j n = if b then n else 0 := by
  induction n with
  | zero => simp [onesCnt]
  | succ n ih =>
    rw [onesCnt_succ, ih (fun i hi => h i (by omega)), h n (by omega)]
    cases b <;> simp

theorem bitOf_const (hO : 8 ≤ OS) (smp : Nat → Bool) (j : Nat) (b : Bool)
    (h : ∀ i, i < OS - 1 → smp (j * OS + i) = b) : bitOf OS smp j = b := by
  unfold bitOf
  rw [onesCnt_const OS smp j (OS - 1) b h]
  cases b
  · simp
  · simp; omega

/-- `line` carries the frames `start u = some d` (byte `d` beginning in cycle `u`), each bit `B` cycles, the
line is high otherwise, and the frames are at least `gap` cycles apart. -/
structure Carries (B gap : Nat) (line : Nat → Bool) (start : Nat → Option Nat) : Prop where
  bits : ∀ u d, start u = some d → ∀ j, j < 10 → ∀ r, r < B → line (u + B * j + r) = frame d j
  high : ∀ n, (∀ u, (start u).isSome → n < u ∨ u + B * 10 ≤ n) → line n = true
  apart : ∀ u u', (start u).isSome → (start u').isSome → u < u' → u + gap ≤ u'

/-- What the receiver is expected to do: the byte is signalled exactly once, `10 * B + 1` cycles after its
start bit began, and nothing else is ever signalled. -/
def Receives (B : Nat) (start : Nat → Option Nat) (out : Nat → RxOut) : Prop :=
  (∀ n, (out n).vld = true ↔ ∃ u d, start u = some d ∧ n = u + B * 10 + 1) ∧
  (∀ u d, start u = some d → ∀ l, l < 8 → (out (u + B * 10 + 1)).data l = d.testBit l)

private theorem rx_walk (hS : 0 < S) (hO : 8 ≤ OS) {start : Nat → Option Nat}
    (hc : Carries (S * OS) (S * OS * 10 + 1) line start) (n : Nat) :
    ∃ t, t + 1 ≤ n + 1 ∧ RIdle (rst OS S d0 line (t + 1)) ∧
      (∀ u, (start u).isSome → u < t → u + S * OS * 10 + 1 ≤ t) ∧
      (t = n ∨ ((start t).isSome ∧ n < t + S * OS * 10 + 1)) ∧
      (∀ m, m ≤ t → ((rxAt OS S d0 line m).vld = true ↔ ∃ u d, start u = some d ∧ m = u + S * OS * 10 + 1)) ∧
      (∀ u d, start u = some d → u + S * OS * 10 + 1 ≤ t →
        ∀ l, l < 8 → (rxAt OS S d0 line (u + S * OS * 10 + 1)).data l = d.testBit l) := by
  have hB : 0 < S * OS := Nat.mul_pos hS (by omega)
  have hO' : 0 < OS := by omega
  generalize hBe : S * OS = B at *
  -- stepping from an idle point
  have idle0 : RIdle (rst OS S d0 line 0) := ⟨rfl, rfl, rfl⟩
  have vld_of_idle : ∀ m, RIdle (rst OS S d0 line m) → (rxAt OS S d0 line m).vld = false :=
    fun m h => ridle_out h
  induction n with
  | zero =>
    refine ⟨0, by omega, ridle_wait idle0 rfl _, fun u _ h => absurd h (by omega), Or.inl rfl, ?_, ?_⟩
    · intro m hm
      have : m = 0 := by omega
      subst this
      rw [vld_of_idle 0 idle0]
      constructor
      · intro h; cases h
      · rintro ⟨u, d, _, h⟩; omega
    · intro u d _ h; omega
  | succ n ih =>
    obtain ⟨t, ht, hi, hpast, hcase, hv, hd⟩ := ih
    rcases hcase with rfl | ⟨hst, hlt⟩
    · -- idle at cycle `t+1`, line sampled in cycle `t`
      cases hs : start t with
      | some d => exact ⟨t, by omega, hi, hpast, Or.inr ⟨by rw [hs]; rfl, by omega⟩, hv, hd⟩
      | none =>
        have hline : line t = true := by
          apply hc.high
          intro u hu
          rcases Nat.lt_trichotomy u t with h | h | h
          · right; have := hpast u hu h; omega
          · subst h; rw [hs] at hu; cases hu
          · exact Or.inl h
        have hi2 : RIdle (rst OS S d0 line (t + 1 + 1)) :=
          ridle_wait hi (by rw [rst_sync]; exact hline) _
        have hfar : ∀ u, (start u).isSome → u < t + 1 → u + B * 10 + 1 ≤ t + 1 := by
          intro u hu h
          rcases Nat.lt_succ_iff_lt_or_eq.1 h with h | h
          · have := hpast u hu h; omega
          · subst h; rw [hs] at hu; cases hu
        refine ⟨t + 1, by omega, hi2, hfar, Or.inl rfl, ?_, ?_⟩
        · intro m hm
          rcases Nat.lt_or_ge t m with h | h
          · have : m = t + 1 := by omega
            subst this
            rw [vld_of_idle _ hi]
            constructor
            · intro h; cases h
            · rintro ⟨u, d, h1, h2⟩
              have := hpast u (by rw [h1]; rfl) (by omega)
              omega
          · exact hv m h
        · intro u d hu h l hl
          have := hpast u (by rw [hu]; rfl) (by omega)
          exact hd u d hu (by omega) l hl
    · obtain ⟨d, hs⟩ := Option.isSome_iff_exists.1 hst
      rcases Nat.lt_or_ge (n + 1) (t + B * 10 + 1) with h | h
      · exact ⟨t, by omega, hi, hpast, Or.inr ⟨hst, h⟩, hv, hd⟩
      · -- the whole frame was received
        have bits := hc.bits t d hs
        have hbit : ∀ j, j < 10 → bitOf OS (sampleAt S line t) j = frame d j := by
          intro j hj
          apply bitOf_const hO
          intro i hi
          unfold sampleAt
          rw [show t + (j * OS + i + 1) * S = t + B * j + (i + 1) * S by
            rw [← hBe, Nat.mul_assoc, Nat.mul_comm OS j, Nat.add_assoc (j * OS), Nat.add_mul,
              Nat.mul_comm S (j * OS)]
            omega]
          apply bits j hj
          rw [← hBe, Nat.mul_comm]
          exact Nat.mul_lt_mul_of_pos_left (by omega) hS
        have hline : line t = false := by
          have := bits 0 (by omega) 0 hB
          rw [Nat.mul_zero] at this
          exact this
        have fr := rx_frame (d0 := d0) hS hO' t hi hline (by rw [hbit 0 (by omega)]; rfl)
        rw [hBe] at fr
        obtain ⟨fv, fd, fi⟩ := fr
        have hnone : ∀ u, (start u).isSome → u < t + B * 10 + 1 → u ≤ t := by
          intro u hu h
          rcases Nat.lt_or_ge t u with h1 | h1
          · have := hc.apart t u hst hu h1; omega
          · exact h1
        have hfar : ∀ u, (start u).isSome → u < t + B * 10 + 1 → u + B * 10 + 1 ≤ t + B * 10 + 1 := by
          intro u hu h
          have := hnone u hu h; omega
        have hn : n + 1 = t + B * 10 + 1 := by omega
        refine ⟨t + B * 10 + 1, by omega, by rw [show t + B * 10 + 1 + 1 = t + 2 + B * 10 by omega]; exact fi,
          hfar, Or.inl hn.symm, ?_, ?_⟩
        · intro m hm
          rcases Nat.lt_or_ge t m with h1 | h1
          · rcases Nat.lt_or_ge (t + 1) m with h2 | h2
            · have e := fv (m - t - 2) (by omega)
              rw [show t + 2 + (m - t - 2) = m by omega, hbit 9 (by omega)] at e
              rw [e, show frame d 9 = true from rfl, Bool.and_true, decide_eq_true_iff]
              constructor
              · intro h3; exact ⟨t, d, hs, by omega⟩
              · rintro ⟨u, d', h3, h4⟩
                rcases Nat.lt_trichotomy u t with h5 | h5 | h5
                · have := hpast u (by rw [h3]; rfl) h5; omega
                · omega
                · omega
            · have : m = t + 1 := by omega
              subst this
              rw [vld_of_idle _ hi]
              constructor
              · intro h; cases h
              · rintro ⟨u, d', h3, h4⟩
                have := hpast u (by rw [h3]; rfl) (by omega)
                omega
          · exact hv m h1
        · intro u d' hu h3 l hl
          rcases Nat.lt_trichotomy u t with h5 | h5 | h5
          · exact hd u d' hu (hpast u (by rw [hu]; rfl) h5) l hl
          · subst h5
            rw [hs] at hu
            injection hu with hu
            subst hu
            rw [show u + B * 10 + 1 = u + 1 + B * 10 by omega, fd l hl, hbit (l + 1) (by omega)]
            unfold frame
            rw [if_neg (by omega), if_pos (by omega)]
            rfl
          · omega

/-- **C72** If one bit takes exactly `OVERSAMPLING * S` clock cycles and after each stop bit the line stays high for
at least one more clock cycle, the receiver signals each byte exactly once and nothing else. Missing: frames
which follow each other immediately (`uartRx_back_to_back_broken`). -/
theorem uartRx_receives_partial (hS : 0 < S) (hO : 8 ≤ OS) (start : Nat → Option Nat)
    (hc : Carries (S * OS) (S * OS * 10 + 1) line start) :
    Receives (S * OS) start (rxAt OS S d0 line) := by
  constructor
  · intro n
    obtain ⟨t, h1, h2, h3, h4, h5, h6⟩ := rx_walk (d0 := d0) hS hO hc (n + S * OS * 10 + 1)
    refine h5 n ?_
    rcases h4 with h | ⟨_, h⟩ <;> omega
  · intro u d hu
    obtain ⟨t, h1, h2, h3, h4, h5, h6⟩ := rx_walk (d0 := d0) hS hO hc (u + S * OS * 10 + 1 + S * OS * 10 + 1)
    refine h6 u d hu ?_
    rcases h4 with h | ⟨_, h⟩ <;> omega

end

/-- The full statement of C72: frames may follow each other immediately (ten bits per byte). -/
def RxReceives : Prop :=
  ∀ (OS S : Nat) (d0 line : Nat → Bool) (start : Nat → Option Nat), 0 < S → 8 ≤ OS →
    Carries (S * OS) (S * OS * 10) line start → Receives (S * OS) start (rxAt OS S d0 line)

/-- An endless sequence of zero bytes without pauses, 8 cycles per bit. -/
def zeros (n : Nat) : Bool := decide (72 ≤ n % 80)
def zeroStart (u : Nat) : Option Nat := if u % 80 = 0 then some 0 else none

theorem zeros_carries : Carries 8 80 zeros zeroStart := by
  have key : ∀ u, (zeroStart u).isSome → u % 80 = 0 := by
    intro u h
    unfold zeroStart at h
    split at h
    · next h' => exact h'
    · cases h
  refine ⟨?_, ?_, ?_⟩
  · intro u d hd j hj r hr
    have hu := key u (by rw [hd]; rfl)
    have : d = 0 := by
      unfold zeroStart at hd; rw [if_pos hu] at hd; injection hd with h; exact h.symm
    subst this
    unfold zeros frame
    have e : (u + 8 * j + r) % 80 = 8 * j + r := by omega
    rw [e]
    by_cases h9 : j < 9
    · rw [decide_eq_false (by omega), if_pos h9]; simp
    · rw [decide_eq_true (by omega), if_neg (by omega), if_neg h9]
  · intro n h
    exfalso
    have := h (n - n % 80) (by unfold zeroStart; rw [if_pos (by omega)]; rfl)
    omega
  · intro u u' h h' hlt
    have := key u h; have := key u' h'
    omega

/-- **C72** is false for frames without a pause: the receiver looks for the next start bit one clock cycle too
late after each byte, the delay accumulates, and the fifth byte is lost. -/
theorem uartRx_back_to_back_broken : ¬ RxReceives := by
  intro h
  have hr := h 8 1 (fun _ => false) zeros zeroStart (by omega) (by omega) zeros_carries
  have i0 : RIdle (rst 8 1 (fun _ => false) zeros (0 + 1)) :=
    ridle_wait (s := rst 8 1 (fun _ => false) zeros 0) ⟨rfl, rfl, rfl⟩ rfl _
  have i1 := (rx_frame (by omega) (by omega) 0 i0 (by decide) (by decide)).2.2
  have i2 := (rx_frame (by omega) (by omega) 81 i1 (by decide) (by decide)).2.2
  have i3 := (rx_frame (by omega) (by omega) 162 i2 (by decide) (by decide)).2.2
  have i4 := (rx_frame (by omega) (by omega) 243 i3 (by decide) (by decide)).2.2
  have v := (rx_frame (by omega) (by omega) 324 i4 (by decide) (by decide)).1 75 (by omega)
  have := (hr.1 401).2 ⟨320, 0, by decide, by decide⟩
  rw [show 324 + 2 + 75 = 401 by omega, this] at v
  exact absurd v (by decide)

/-! ## Transmitter connected to receiver -/

/-- **C73** With a transmitter and a receiver on the same clock and a bit time of exactly `OVERSAMPLING * S` clock
cycles, the receiver signals a byte in a cycle `n` exactly if a byte was accepted by the transmitter in the cycle
`n - 11 * B - 2`, and it is this byte; for all data and all timings of the sender. Missing: other ratios of the
clock frequency and the baud rate (`uart_loopback_broken`). -/
theorem uart_loopback_partial {OS S : Nat} (hS : 0 < S) (hO : 8 ≤ OS) (t0 r0 : Nat → Bool) (stim : Nat → TxIn) :
    (∀ n, (rxAt OS S r0 (fun n => (txAt (S * OS) t0 stim n).txd) n).vld = true ↔
      ∃ c, accepts (S * OS) t0 stim c = true ∧ n = c + S * OS * 11 + 2) ∧
    (∀ c, accepts (S * OS) t0 stim c = true → ∀ l, l < 8 →
      (rxAt OS S r0 (fun n => (txAt (S * OS) t0 stim n).txd) (c + S * OS * 11 + 2)).data l
        = (stim c).data.testBit l) := by
  have hB : 0 < S * OS := Nat.mul_pos hS (by omega)
  let start : Nat → Option Nat := fun u =>
    if S * OS + 1 ≤ u ∧ accepts (S * OS) t0 stim (u - (S * OS + 1)) = true
    then some (stim (u - (S * OS + 1))).data else none
  have key : ∀ u, (start u).isSome → S * OS + 1 ≤ u ∧ accepts (S * OS) t0 stim (u - (S * OS + 1)) = true := by
    intro u h
    by_cases hc : S * OS + 1 ≤ u ∧ accepts (S * OS) t0 stim (u - (S * OS + 1)) = true
    · exact hc
    · simp only [start, if_neg hc] at h; cases h
  have mk : ∀ c, accepts (S * OS) t0 stim c = true → start (c + (S * OS + 1)) = some (stim c).data := by
    intro c h
    simp only [start]
    rw [Nat.add_sub_cancel, if_pos ⟨by omega, h⟩]
  have inv : ∀ u d, start u = some d → ∃ c, accepts (S * OS) t0 stim c = true ∧ u = c + (S * OS + 1) ∧
      d = (stim c).data := by
    intro u d h
    obtain ⟨h1, h2⟩ := key u (by rw [h]; rfl)
    simp only [start] at h
    rw [if_pos ⟨h1, h2⟩] at h
    injection h with h
    exact ⟨u - (S * OS + 1), h2, by omega, h.symm⟩
  have hc : Carries (S * OS) (S * OS * 10 + 1) (fun n => (txAt (S * OS) t0 stim n).txd) start := by
    refine ⟨?_, ?_, ?_⟩
    · intro u d hd j hj r hr
      obtain ⟨c, hc, rfl, rfl⟩ := inv u d hd
      have := uartTx_frame (d0 := t0) hB c hc j r hj hr
      rw [show c + (S * OS + 1) + S * OS * j + r = c + 1 + S * OS + S * OS * j + r by omega]
      rw [this]
      unfold frame
      by_cases h0 : j = 0
      · simp [h0]
      · rw [if_neg h0, if_neg h0]
        by_cases h8 : j ≤ 8
        · rw [if_pos h8, if_pos (by omega)]
        · rw [if_neg h8, if_neg (by omega)]
    · intro n h
      apply uartTx_idle_high hB
      intro c hc
      have := h (c + (S * OS + 1)) (by rw [mk c hc]; rfl)
      omega
    · intro u u' h h' hlt
      obtain ⟨a1, a2⟩ := key u h
      obtain ⟨b1, b2⟩ := key u' h'
      have := uartTx_spacing hB _ _ (by omega) a2 b2
      omega
  obtain ⟨h1, h2⟩ := uartRx_receives_partial (d0 := r0) hS hO start hc
  constructor
  · intro n
    rw [h1 n]
    constructor
    · rintro ⟨u, d, hu, hn⟩
      obtain ⟨c, hc, rfl, rfl⟩ := inv u d hu
      exact ⟨c, hc, by omega⟩
    · rintro ⟨c, hc, hn⟩
      exact ⟨_, _, mk c hc, by omega⟩
  · intro c hc l hl
    have := h2 _ _ (mk c hc) l hl
    rw [show c + S * OS * 11 + 2 = c + (S * OS + 1) + S * OS * 10 + 1 by omega]
    exact this

/-- The full statement of C73: for all accepted parameters (`freq >= baud * os`) each received byte was sent. -/
def Loopback : Prop :=
  ∀ (OS B : Nat), 8 ≤ OS → OS ≤ B → ∀ (t0 r0 : Nat → Bool) (stim : Nat → TxIn) (n : Nat),
    (rxAt OS (B / OS) r0 (fun n => (txAt B t0 stim n).txd) n).vld = true →
    ∃ c, accepts B t0 stim c = true ∧ ∀ l, l < 8 →
      (rxAt OS (B / OS) r0 (fun n => (txAt B t0 stim n).txd) n).data l = (stim c).data.testBit l

/-- One byte 0xFF, offered in cycle 0 only. -/
def oneFF (n : Nat) : TxIn := ⟨decide (n = 0), 255⟩

theorem oneFF_line (n : Nat) :
    (txAt 15 (fun _ => false) oneFF n).txd = decide (n < 16 ∨ 31 ≤ n) := by
  have hacc : accepts 15 (fun _ => false) oneFF 0 = true := by
    unfold accepts
    rw [Bool.and_eq_true]
    exact ⟨rfl, rfl⟩
  have honly : ∀ c, accepts 15 (fun _ => false) oneFF c = true → c = 0 := by
    intro c h
    unfold accepts at h
    rw [Bool.and_eq_true] at h
    exact of_decide_eq_true h.2
  by_cases h1 : n < 16 ∨ 166 ≤ n
  · rw [uartTx_idle_high (by omega) n (fun c hc => by have := honly c hc; omega), decide_eq_true (by omega)]
  · have := uartTx_frame (d0 := fun _ => false) (by omega) 0 hacc ((n - 16) / 15) ((n - 16) % 15) (by omega)
      (Nat.mod_lt _ (by omega))
    rw [show 0 + 1 + 15 + 15 * ((n - 16) / 15) + (n - 16) % 15 = n by omega] at this
    rw [this]
    show (if (n - 16) / 15 = 0 then false else if (n - 16) / 15 ≤ 8 then Nat.testBit 255 ((n - 16) / 15 - 1)
      else true) = _
    by_cases h0 : (n - 16) / 15 = 0
    · rw [if_pos h0, decide_eq_false (by omega)]
    · rw [if_neg h0, decide_eq_true (by omega)]
      split
      · have : ∀ k, k < 8 → Nat.testBit 255 k = true := by decide
        exact this _ (by omega)
      · rfl

/-- **C73** is false for other ratios: with FREQ = 15 * BAUD and OVERSAMPLING = 8 (accepted by the assertions) the
receiver samples a bit within 8 clock cycles instead of 15 and a sent 0xFF is received as another byte. -/
theorem uart_loopback_broken : ¬ Loopback := by
  intro h
  have hline : (fun n => (txAt 15 (fun _ => false) oneFF n).txd) = fun n => decide (n < 16 ∨ 31 ≤ n) :=
    funext oneFF_line
  have h := h 8 15 (by omega) (by omega) (fun _ => false) (fun _ => false) oneFF 97
  rw [hline, show 15 / 8 = 1 from rfl] at h
  have i0 : RIdle (rst 8 1 (fun _ => false) (fun n => decide (n < 16 ∨ 31 ≤ n)) (0 + 1)) :=
    ridle_wait (s := rst 8 1 (fun _ => false) (fun n => decide (n < 16 ∨ 31 ≤ n)) 0) ⟨rfl, rfl, rfl⟩ rfl _
  have i1 := (idle_run (OS := 8) (S := 1) 0 16 i0 (fun n _ hn => decide_eq_true (by omega))).1 16 (by omega)
  have fr := rx_frame (OS := 8) (S := 1) (by omega) (by omega) 16 i1 (by decide) (by decide)
  have hv := fr.1 79 (by omega)
  rw [show 16 + 2 + 79 = 97 by omega] at hv
  obtain ⟨c, _, hd⟩ := h (by rw [hv]; decide)
  have h0 := fr.2.1 0 (by omega)
  rw [show 16 + 1 + 1 * 8 * 10 = 97 by omega] at h0
  have := hd 0 (by omega)
  rw [h0] at this
  change bitOf 8 (sampleAt 1 (fun n => decide (n < 16 ∨ 31 ≤ n)) 16) (0 + 1) = Nat.testBit 255 0 at this
  exact absurd this (by decide)

/-! Non-vacuity. -/

/-- A byte is accepted and the line is busy afterwards. -/
example : accepts 15 (fun _ => false) oneFF 0 = true := by decide
/-- The hypotheses of C72: one frame, then idle. -/
example : Carries 8 81 (fun n => decide (n < 8 ∨ 16 ≤ n)) (fun u => if u = 8 then some 255 else none) := by
  refine ⟨?_, ?_, ?_⟩
  · intro u d h j hj r hr
    have hu : u = 8 := by
      by_cases h' : u = 8
      · exact h'
      · rw [if_neg h'] at h; cases h
    subst hu
    simp only [if_true] at h
    injection h with h
    subst h
    unfold frame
    by_cases h0 : j = 0
    · subst h0; simp; omega
    · rw [if_neg h0, decide_eq_true (by omega)]
      split
      · have : ∀ k, k < 8 → Nat.testBit 255 k = true := by decide
        exact (this _ (by omega)).symm
      · rfl
  · intro n h
    have := h 8 rfl
    exact decide_eq_true (by omega)
  · intro u u' h h' hlt
    by_cases h1 : u = 8
    · by_cases h2 : u' = 8
      · omega
      · rw [if_neg h2] at h'; cases h'
    · rw [if_neg h1] at h; cases h

end Verif.Uart
