import Verif.AxiBld
/-!
# Properties of the builder of AXI components
-/
namespace Verif.AxiBld

/-! ## C451: frequencies of the clock domain crossing -/

/-- C451, full statement: each clock port of the component has the frequency of the clock which is connected. -/
def CdcFull : Prop := ∀ (current clk addrItems dataItems : Nat) (c : Cdc), buffCdc current clk addrItems dataItems = .ok c →
  c.clkFreq = c.clkConnected ∧ c.mClkFreq = c.mClkConnected

theorem cdc_violated : ¬ CdcFull := by
  intro h
  exact absurd (h 100 200 1 1 _ rfl) (by decide)

/-- C451: the frequencies are right if and only if both clocks have the same. -/
theorem cdc_partial (current clk addrItems dataItems : Nat) (c : Cdc) (h : buffCdc current clk addrItems dataItems = .ok c) :
    (c.clkConnected = current ∧ c.mClkConnected = clk) ∧ c.addrDepth = addrItems ∧ c.dataDepth = dataItems ∧
    ((c.clkFreq = c.clkConnected ∧ c.mClkFreq = c.mClkConnected) ↔ current = clk) := by
  unfold buffCdc at h
  dsimp only at h
  split at h
  · injection h with h
    subst h
    refine ⟨⟨rfl, rfl⟩, rfl, rfl, ?_⟩
    constructor
    · exact fun h => h.1.symm
    · intro h; exact ⟨h.symm, h⟩
  · cases h

theorem isPow2_iff (n : Nat) : isPow2 n = true ↔ ∃ k, n = 2 ^ k := by
  unfold isPow2
  constructor
  · intro h
    simp only [Bool.and_eq_true, beq_iff_eq] at h
    exact ⟨_, h.2.symm⟩
  · rintro ⟨k, rfl⟩
    have : 2 ^ k ≠ 0 := Nat.pos_iff_ne_zero.1 (Nat.two_pow_pos k)
    simp [Nat.log2_two_pow]

/-- C451: accepted are the depths 1 and 2ᵏ + 1. -/
theorem cdc_accepted (current clk a d : Nat) : (∃ c, buffCdc current clk a d = .ok c) ↔
    ((a = 1 ∨ ∃ k, a = 2 ^ k + 1) ∧ (d = 1 ∨ ∃ k, d = 2 ^ k + 1)) := by
  have e : ∀ n : Nat, (n == 1 || isPow2 (n - 1)) = true ↔ (n = 1 ∨ ∃ k, n = 2 ^ k + 1) := by
    intro n
    rw [Bool.or_eq_true, beq_iff_eq, isPow2_iff]
    constructor
    · rintro (h | ⟨k, h⟩)
      · exact Or.inl h
      · have := Nat.two_pow_pos k
        exact Or.inr ⟨k, by omega⟩
    · rintro (h | ⟨k, h⟩)
      · exact Or.inl h
      · exact Or.inr ⟨k, by rw [h, Nat.add_sub_cancel]⟩
  rw [← e a, ← e d, ← Bool.and_eq_true]
  unfold buffCdc
  dsimp only
  split <;> rename_i h
  · exact ⟨fun _ => h, fun _ => ⟨_, rfl⟩⟩
  · exact ⟨fun ⟨c, hc⟩ => (by cases hc), fun h' => absurd h' h⟩

example : (∃ c, buffCdc 100 100 5 9 = .ok c) := ⟨_, rfl⟩

/-! ## C452: bursts for Avalon -/

theorem width_eq (lenWidth : Nat) : burstCountWidth lenWidth = lenWidth + 1 := by
  unfold burstCountWidth maxBurst log2ceil
  have h := Nat.two_pow_pos lenWidth
  rw [Nat.pow_succ, if_neg (by omega)]
  congr 1
  rw [Nat.log2_eq_iff (by omega), Nat.pow_succ]
  omega

/-- C452: every burst of AXI, of 1 to 2 ^ LEN_WIDTH words, has its number of words on burstCount. -/
theorem burst_exact (lenWidth len : Nat) (h : len < 2 ^ lenWidth) : burstCount lenWidth len = len + 1 := by
  unfold burstCount
  rw [width_eq, Nat.pow_succ, Nat.mod_eq_of_lt (a := len) (by omega), Nat.mod_eq_of_lt (by omega)]

/-- C452: a signal with one bit less could not hold the longest one, so the doubled MAX_BURST is needed. -/
theorem burst_needed (lenWidth : Nat) : ∃ len, len < 2 ^ lenWidth ∧
    ¬ burstCount lenWidth len < 2 ^ (burstCountWidth lenWidth - 1) := by
  have h := Nat.two_pow_pos lenWidth
  refine ⟨2 ^ lenWidth - 1, by omega, ?_⟩
  rw [burst_exact _ _ (by omega), width_eq, Nat.add_sub_cancel]
  omega

example : burstCount 8 255 = 256 := burst_exact 8 255 (by decide)

/-! ## C453: conversions -/

/-- C453, full statement: `to_axi` ends with an interface of the class which was asked for. -/
def ToFull : Prop := ∀ (end_ axiCls : Cls) (idWidth : Nat), toAxi end_ axiCls idWidth = .ok axiCls

/-- C453: Axi4 converted to Axi3Lite is Axi4Lite; Axi4Lite is not converted to Axi4 with the default id_width. -/
theorem to_violated : toAxi .axi4 .axi3Lite 0 = .ok .axi4Lite ∧ toAxi .axi4Lite .axi4 0 = .error .attribute ∧ ¬ ToFull := by
  refine ⟨rfl, rfl, fun h => ?_⟩
  have := h .axi4 .axi3Lite 0
  cases this

/-- C453: exactly these conversions work: none, from Axi3 and Axi4 to Axi4Lite, and from Axi4Lite to Axi3 and Axi4
with an id. -/
theorem to_partial (end_ axiCls : Cls) (idWidth : Nat) : toAxi end_ axiCls idWidth = .ok axiCls ↔
    (end_ = axiCls ∨ ((end_ = .axi3 ∨ end_ = .axi4) ∧ axiCls = .axi4Lite) ∨
      (end_ = .axi4Lite ∧ (axiCls = .axi3 ∨ axiCls = .axi4) ∧ idWidth ≠ 0)) := by
  by_cases h : idWidth = 0 <;> cases end_ <;> cases axiCls <;>
    simp [toAxi, axiToLite, liteToAxi, Cls.full, Cls.hasId, h]

/-- C453: the only conversions which end with another class, without an error, are those to Axi3Lite. -/
theorem to_other (end_ axiCls c : Cls) (idWidth : Nat) (h : toAxi end_ axiCls idWidth = .ok c) (hc : c ≠ axiCls) :
    axiCls = .axi3Lite ∧ c = .axi4Lite ∧ (end_ = .axi3 ∨ end_ = .axi4) := by
  by_cases hi : idWidth = 0 <;> cases end_ <;> cases axiCls <;>
    simp_all [toAxi, axiToLite, liteToAxi, Cls.full, Cls.hasId]

example : toAxi .axi3 .axi4Lite 0 = .ok .axi4Lite ∧ toAxi .axi4Lite .axi4 4 = .ok .axi4 := ⟨rfl, rfl⟩

/-! ## C454: resize -/

/-- C454: the end has the asked widths, a width which is not given is kept, and a component is made if and only if
some width differs; so a second call with the same arguments makes none. -/
theorem resize_ok (endAddr endData : Nat) (a d : Option Nat) :
    (∀ w, a = some w → (resize endAddr endData a d).1.1 = w) ∧ (a = none → (resize endAddr endData a d).1.1 = endAddr) ∧
    (∀ w, d = some w → (resize endAddr endData a d).1.2 = w) ∧ (d = none → (resize endAddr endData a d).1.2 = endData) ∧
    ((resize endAddr endData a d).2 = true ↔ (resize endAddr endData a d).1 ≠ (endAddr, endData)) := by
  unfold resize
  dsimp only
  split <;> rename_i h
  · refine ⟨?_, fun _ => rfl, ?_, fun _ => rfl, by simp⟩
    · rintro w rfl; exact h.2.symm
    · rintro w rfl; exact h.1.symm
  · refine ⟨?_, ?_, ?_, ?_, ?_⟩
    · rintro w rfl; rfl
    · rintro rfl; rfl
    · rintro w rfl; rfl
    · rintro rfl; rfl
    · simp only [true_iff, ne_eq, Prod.mk.injEq]
      exact fun q => h ⟨q.2, q.1⟩

theorem resize_twice (endAddr endData : Nat) (a d : Option Nat) :
    (resize (resize endAddr endData a d).1.1 (resize endAddr endData a d).1.2 a d).2 = false := by
  have ⟨h1, h2, h3, h4, _⟩ := resize_ok endAddr endData a d
  generalize resize endAddr endData a d = r at *
  unfold resize
  dsimp only
  rw [if_pos]
  constructor
  · cases d with
    | none => rfl
    | some w => exact (h3 w rfl).symm
  · cases a with
    | none => rfl
    | some w => exact (h1 w rfl).symm

example : resize 32 64 none (some 128) = ((32, 128), true) := by decide

end Verif.AxiBld
