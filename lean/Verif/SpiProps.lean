import Verif.Spi
/-! Properties of `SpiMaster` (C110 - C112). -/
namespace Verif.Spi

def zero : St := ⟨Timers.init (periods 1 4), true, false, true, true, true, false, List.replicate 8 false, List.replicate 8 false⟩
def word (w : Nat) : List Bool := (List.range 8).map fun k => w.testBit (7 - k)
def inp (w : Nat) (last miso : Bool) : In := ⟨true, word w, last, miso⟩

/-! ### C110 the combinational logic settles -/

/-- Full statement of **C110**: the logic of the master has a stable state in each cycle of each run. -/
def AlwaysSettles : Prop := ∀ (H S : Nat), 0 < H → 0 < S → ∀ s0, IsInit (periods H S) s0 → ∀ (is : List In) (i : In),
  Settles (periods H S) ((machine (periods H S)).final s0 is) i

def zero5 : St := ⟨Timers.init (periods 5 4), true, false, true, true, true, false, List.replicate 8 false, List.replicate 8 false⟩

set_option maxRecDepth 16384 in
/-- **C110** is false: with `SPI_FREQ_PESCALER = 10` the tick of the initial wait has its own counter, the tick is
masked by the reset of the timers and the reset is caused by the tick. -/
theorem spi_comb_loop : ¬ AlwaysSettles := by
  intro hp
  obtain ⟨r, hr⟩ := hp 5 4 (by omega) (by omega) zero5 ⟨rfl, rfl, rfl, rfl, rfl, rfl, rfl, rfl⟩
    (List.replicate 39 (inp 0 false false)) (inp 0 false false)
  revert hr
  cases r <;> decide

/-- **C110** What holds: if half of the prescaler is a power of 2 and the wait is 1, 2 or 4 SPI clock periods the logic
has exactly one stable state in every state and for every input. -/
theorem spi_settles_partial (H S : Nat) (hc : Supported H S) (s : St) (i : In) :
    ∃ r, rstEq (periods H S) s i r = r ∧ ∀ r', rstEq (periods H S) s i r' = r' → r' = r := by
  have e : ∀ r r', rstEq (periods H S) s i r = rstEq (periods H S) s i r' := by
    intro r r'
    unfold rstEq
    rw [(tick_eq hc s _ r).2.1, (tick_eq hc s _ r').2.1]
  exact ⟨rstEq (periods H S) s i false, e _ _, fun r' h => by rw [← h]; exact e _ _⟩

example : Supported 16 4 := ⟨⟨4, rfl⟩, Or.inr (Or.inr rfl)⟩

/-! ### C111 full duplex transfer -/

theorem busy_prefix {H S : Nat} {s : St} {w p ms : List Bool} {l : Bool} {d : Nat} (h : Busy H S s w l p ms d)
    (h8 : w.length = 8) : p <+: w ∧ p.length = ms.length := by
  cases h with
  | wait h => exact ⟨List.nil_prefix, rfl⟩
  | data h =>
    have := h.m_lt
    exact ⟨List.take_prefix _ _, by rw [List.length_take, h.len]; omega⟩
  | done h hr => exact ⟨List.prefix_refl _, by rw [h8, h.len]⟩

/-- **C111** The bits on MOSI at the rising edges of the SPI clock are the accepted words MSB first, with 8 edges for each,
followed by a prefix of the word being offered. The words returned on `din` are the samples of MISO at the same edges. -/
theorem spi_transfer (H S : Nat) (hc : Supported H S) (s0 : St) (h0 : IsInit (periods H S) s0) (is : List In)
    (hh : Holds none ((machine (periods H S)).trace s0 is)) :
    ∃ p ms, mosi ((machine (periods H S)).trace s0 is) = (sent ((machine (periods H S)).trace s0 is)).flatten ++ p ∧
      miso ((machine (periods H S)).trace s0 is) = (got ((machine (periods H S)).trace s0 is)).flatten ++ ms ∧
      (∀ x ∈ sent ((machine (periods H S)).trace s0 is), x.length = 8) ∧
      (∀ x ∈ got ((machine (periods H S)).trace s0 is), x.length = 8) ∧
      p.length = ms.length ∧
      match heldAfter none ((machine (periods H S)).trace s0 is) with
      | none => p = []
      | some (w, _) => p <+: w := by
  obtain ⟨p, ms, h1, h2, h3, h4, h5⟩ := run hc is s0 none true [] [] (init_state hc h0) hh
  refine ⟨p, ms, h2, h3, h4, h5, ?_⟩
  generalize heldAfter none ((machine (periods H S)).trace s0 is) = g at h1
  match g, h1 with
  | none, h1 => exact ⟨by rw [h1.2.2.1, h1.2.2.2], h1.2.2.1⟩
  | some (w, l), ⟨h8, d, hb⟩ => exact ⟨(busy_prefix hb h8).2, (busy_prefix hb h8).1⟩

/-- **C111** The edges of `mosi`, `miso` are the edges of the pin: the clock of the next cycle is `clkNext`. -/
theorem spi_clk_next (H S : Nat) (s0 : St) (h : List In) (i j : In) :
    ((machine (periods H S)).outAfter s0 (h ++ [i]) j).clk = ((machine (periods H S)).outAfter s0 h i).clkNext := by
  unfold Machine.outAfter
  rw [Machine.final_append]
  rfl

/-- 25 cycles of a transfer of 0xA5 (with the slave answering with ones) -/
def demo : List In := List.replicate 25 (inp 0xA5 true true)

set_option maxRecDepth 16384 in
example : IsInit (periods 1 4) zero ∧ mosi ((machine (periods 1 4)).trace zero demo) = word 0xA5 ∧
    sent ((machine (periods 1 4)).trace zero demo) = [word 0xA5] ∧
    got ((machine (periods 1 4)).trace zero demo) = [word 0xFF] :=
  ⟨⟨rfl, rfl, rfl, rfl, rfl, rfl, rfl, rfl⟩, by decide, by decide, by decide⟩

theorem holds_hold : ∀ (tr : List (In × Out)) (w : List Bool) (l : Bool) (g : Option (List Bool × Bool)), w.length = 8 →
    (g = none ∨ g = some (w, l)) → (∀ e ∈ tr, e.1.vld = true ∧ e.1.dout = w ∧ e.1.last = l) → Holds g tr := by
  intro tr
  induction tr with
  | nil => intros; trivial
  | cons e tr ih =>
    intro w l g h8 hg he
    obtain ⟨a, b, c⟩ := he e List.mem_cons_self
    refine ⟨?_, fun _ => by rw [b, h8], ?_⟩
    · intro x hx
      rcases hg with h | h
      · rw [h] at hx; simp at hx
      · rw [h] at hx; exact ⟨a, by rw [b, c]; exact Option.some.inj hx⟩
    · refine ih w l _ h8 ?_ (fun e he' => he e (List.mem_cons_of_mem _ he'))
      unfold held
      rw [a, b, c]
      cases e.2.rd
      · exact Or.inr rfl
      · exact Or.inl rfl

example : Holds none ((machine (periods 1 4)).trace zero demo) := by
  refine holds_hold _ (word 0xA5) true none rfl (Or.inl rfl) ?_
  intro e he
  have h : ∀ (is : List In) (s : St), (∀ i ∈ is, i = inp 0xA5 true true) → ∀ e ∈ (machine (periods 1 4)).trace s is,
      e.1 = inp 0xA5 true true := by
    intro is
    induction is with
    | nil => intro s _ e he; simp [Machine.trace] at he
    | cons i is ih =>
      intro s hi e he
      rcases List.mem_cons.1 he with h | h
      · rw [h]; exact hi i List.mem_cons_self
      · exact ih _ (fun j hj => hi j (List.mem_cons_of_mem _ hj)) e h
  have := h demo zero (fun i hi => List.eq_of_mem_replicate hi) e he
  rw [this]
  exact ⟨rfl, rfl, rfl⟩

/-- **C111** A word first offered after a history `h` and kept is accepted exactly after 8 SPI clock periods, plus the
initial wait if it is the first word or if the previous accepted word had `last` set. -/
theorem spi_latency (H S : Nat) (hc : Supported H S) (s0 : St) (h0 : IsInit (periods H S) s0) (h is : List In) (i : In)
    (hh : Holds none ((machine (periods H S)).trace s0 h))
    (hf : heldAfter none ((machine (periods H S)).trace s0 h) = none)
    (h8 : i.dout.length = 8) (hv : i.vld = true)
    (hi : ∀ j ∈ is, j.vld = true ∧ j.dout = i.dout ∧ j.last = i.last)
    (hn : is.length ≤ 16 * H + if prevLast true ((machine (periods H S)).trace s0 h) then 2 * S * H else 0) :
    ((machine (periods H S)).outAfter s0 (h ++ is) i).rd =
      decide (is.length = 16 * H + if prevLast true ((machine (periods H S)).trace s0 h) then 2 * S * H else 0) := by
  obtain ⟨p, ms, h1, _⟩ := run hc h s0 none true [] [] (init_state hc h0) hh
  rw [hf] at h1
  have hb := start_busy hc h1.1 i.dout i.last
  rw [h1.2.1] at hb
  obtain ⟨p', ms', hb'⟩ := busy_run hc is _ _ _ _ _ _ hb h8 hi hn
  rw [← Machine.final_append] at hb'
  show ((machine (periods H S)).final s0 (h ++ is)).eowD = _
  generalize 16 * H + (if prevLast true ((machine (periods H S)).trace s0 h) then 2 * S * H else 0) = D at hb' hn ⊢
  by_cases hd : is.length = D
  · rw [show D - is.length = 0 by omega] at hb'
    rw [(busy_zero hc (i := i) hb').1]
    simp [hd]
  · obtain ⟨e, he⟩ : ∃ e, D - is.length = e + 1 := ⟨D - is.length - 1, by omega⟩
    rw [he] at hb'
    rw [(busy_succ hc hb' hv rfl rfl h8).1]
    simp [hd]

set_option maxRecDepth 16384 in
/-- The handshake of the first word, 16 + 8 cycles after the start; the following word takes 16 cycles or 24 after `last` -/
example : heldAfter none ((machine (periods 1 4)).trace zero demo) = none ∧
    prevLast true ((machine (periods 1 4)).trace zero demo) = true ∧
    prevLast true ((machine (periods 1 4)).trace zero (List.replicate 25 (inp 3 false false))) = false ∧
    (((machine (periods 1 4)).trace zero (demo ++ demo)).map fun e => e.2.rd) =
      List.replicate 24 false ++ [true] ++ List.replicate 24 false ++ [true] := by decide

/-! ### C112 deselection of the slave -/

/-- Full statement of **C112**: after a word with `last` the slave is deselected. -/
def Deselects : Prop := ∀ (H S : Nat), Supported H S → ∀ s0, IsInit (periods H S) s0 → ∀ (h : List In) (i j : In),
  Holds none ((machine (periods H S)).trace s0 (h ++ [i, j])) →
  i.vld = true → i.last = true → ((machine (periods H S)).outAfter s0 h i).rd = true →
  ((machine (periods H S)).outAfter s0 (h ++ [i]) j).cs = false

set_option maxRecDepth 16384 in
/-- **C112** is false: the chip select only follows `vld`, if the next word is offered immediately the slave stays selected. -/
theorem spi_no_deselect : ¬ Deselects := by
  intro hp
  have hh : Holds none ((machine (periods 1 4)).trace zero (List.replicate 24 (inp 0xA5 true true) ++
      [inp 0xA5 true true, inp 0xA5 true true])) := by
    refine holds_hold _ (word 0xA5) true none rfl (Or.inl rfl) ?_
    decide
  have := hp 1 4 ⟨⟨0, rfl⟩, Or.inr (Or.inr rfl)⟩ zero ⟨rfl, rfl, rfl, rfl, rfl, rfl, rfl, rfl⟩
    (List.replicate 24 (inp 0xA5 true true)) (inp 0xA5 true true) (inp 0xA5 true true) hh rfl rfl (by decide)
  revert this
  decide

theorem busy_wait {H S : Nat} {s : St} {w p ms : List Bool} {l : Bool} {d : Nat}
    (h : Busy H S s w l p ms d) (hd : 16 * H < d) : s.clkO = true := by
  cases h with
  | wait h => exact h.clkO
  | @data m k _ h =>
    have : (16 - m) * H ≤ 16 * H := Nat.mul_le_mul_right _ (by omega)
    omega
  | done h hr => omega

/-- **C112** What holds: the chip select is asserted exactly while a word is offered, and for the first word and after each
word with `last` the clock stays high for the initial wait, `S` periods of the SPI clock. -/
theorem spi_select_wait_partial (H S : Nat) (hc : Supported H S) (s0 : St) (h0 : IsInit (periods H S) s0) (h is : List In)
    (i : In) (hh : Holds none ((machine (periods H S)).trace s0 h))
    (hf : heldAfter none ((machine (periods H S)).trace s0 h) = none)
    (hl : prevLast true ((machine (periods H S)).trace s0 h) = true)
    (h8 : i.dout.length = 8) (hi : ∀ j ∈ is, j.vld = true ∧ j.dout = i.dout ∧ j.last = i.last)
    (hn : is.length < 2 * S * H) :
    ((machine (periods H S)).outAfter s0 (h ++ is) i).clk = true ∧
    ((machine (periods H S)).outAfter s0 (h ++ is) i).cs = i.vld := by
  obtain ⟨p, ms, h1, _⟩ := run hc h s0 none true [] [] (init_state hc h0) hh
  rw [hf] at h1
  have hb := start_busy hc h1.1 i.dout i.last
  rw [h1.2.1, hl] at hb
  obtain ⟨p', ms', hb'⟩ := busy_run hc is _ _ _ _ _ _ hb h8 hi (by simp; omega)
  rw [← Machine.final_append] at hb'
  refine ⟨?_, rfl⟩
  exact busy_wait hb' (by simp; omega)

set_option maxRecDepth 16384 in
example : ((machine (periods 1 4)).trace zero (List.replicate 12 (inp 0xA5 true true))).map (fun e => e.2.clk) =
    List.replicate 9 true ++ [false, true, false] := by decide

end Verif.Spi
