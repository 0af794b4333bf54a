import Verif.AxiSize
/-!
# Properties of sizes of AXI transfers and of created address requests
-/
namespace Verif.AxiSize

/-! ## C448: encoding of sizes -/

theorem bitLength_bounds : ∀ n : Nat, 0 < n → 0 < bitLength n ∧ 2 ^ (bitLength n - 1) ≤ n ∧ n < 2 ^ bitLength n := by
  intro n
  induction n using Nat.strongRecOn with
  | ind n ih =>
    intro h
    have e : bitLength n = bitLength (n / 2) + 1 := by
      conv => lhs; rw [bitLength.eq_def]
      rw [dif_neg (by omega)]
    by_cases h1 : n = 1
    · subst h1
      have z : bitLength (1 / 2) = 0 := by rw [show 1 / 2 = 0 from rfl, bitLength.eq_def]; rfl
      rw [e, z]
      decide
    · have := ih (n / 2) (by omega) (by omega)
      rw [e, Nat.add_sub_cancel, Nat.pow_succ]
      have e2 : 2 ^ bitLength (n / 2) = 2 ^ (bitLength (n / 2) - 1) * 2 := by
        rw [← Nat.pow_succ]; congr 1; omega
      refine ⟨by omega, by omega, by omega⟩

/-- C448: `BYTES_IN_TRANS(n)` encodes the largest transfer of AXI (a power of two) which is not larger than `n`
bytes. -/
theorem size_max (n : Nat) (h : 0 < n) :
    ∃ k : Nat, bytesInTrans n = k ∧ 2 ^ k ≤ n ∧ ∀ j : Nat, 2 ^ j ≤ n → j ≤ k := by
  have ⟨h1, h2, h3⟩ := bitLength_bounds n h
  refine ⟨bitLength n - 1, by unfold bytesInTrans; omega, h2, ?_⟩
  intro j hj
  have : 2 ^ j < 2 ^ bitLength n := Nat.lt_of_le_of_lt hj h3
  have := (Nat.pow_lt_pow_iff_right (by decide : 1 < 2)).1 this
  omega

/-- C448: so the transfer has exactly `n` bytes if and only if `n` is a power of two; it is what the protocol asks
for with every width of data it allows. -/
theorem size_pow (k : Nat) : bytesInTrans (2 ^ k) = k := by
  obtain ⟨m, e, h1, h2⟩ := size_max (2 ^ k) (Nat.two_pow_pos k)
  have h3 := h2 k (Nat.le_refl _)
  have h4 := (Nat.pow_le_pow_iff_right (by decide : 1 < 2)).1 h1
  rw [e]
  omega

theorem size_exact (n : Nat) :
    (∃ k : Nat, bytesInTrans n = k ∧ 2 ^ k = n) ↔ ∃ k : Nat, n = 2 ^ k :=
  ⟨fun ⟨k, _, e⟩ => ⟨k, e.symm⟩, fun ⟨k, e⟩ => ⟨k, by rw [e, size_pow], e.symm⟩⟩

/-- C448: the value fits to the 3 bits of the signal `size` if and only if there are 1 to 255 bytes. -/
theorem size_fits (n : Nat) : (0 ≤ bytesInTrans n ∧ bytesInTrans n < 8) ↔ (1 ≤ n ∧ n < 256) := by
  by_cases h : n = 0
  · subst h
    have z : bytesInTrans 0 = -1 := by unfold bytesInTrans; rw [bitLength.eq_def]; rfl
    rw [z]; omega
  · obtain ⟨k, e, h1, h2⟩ := size_max n (by omega)
    rw [e]
    constructor
    · rintro ⟨_, h3⟩
      refine ⟨by omega, ?_⟩
      by_cases h4 : n < 256
      · exact h4
      · have := h2 8 (by omega); omega
    · rintro ⟨_, h3⟩
      refine ⟨by omega, ?_⟩
      by_cases h4 : k < 8
      · omega
      · have := Nat.pow_le_pow_right (by decide : 0 < 2) (show 8 ≤ k by omega)
        omega

example : bytesInTrans 8 = 3 := size_pow 3

/-! ## C449: width of the size of a burst -/

/-- C449, full statement: the number of bytes of the longest burst, `maxLen + 1` words, fits to the number of bits. -/
def WidthFull : Prop := ∀ maxLen dataWidth : Nat, 8 ≤ dataWidth → dataWidth % 8 = 0 →
  (maxLen + 1) * (dataWidth / 8) < 2 ^ getSizeWidth maxLen dataWidth

/-- C449: 3 words of 3 bytes do not fit. -/
theorem width_violated : ¬ WidthFull := by
  intro h
  exact absurd (h 2 24 (by decide) (by decide)) (by decide)

/-- C449: it fits with every power of two of bytes, i.e. with every width allowed by AXI. -/
theorem width_partial (maxLen k : Nat) : (maxLen + 1) * 2 ^ k < 2 ^ getSizeWidth maxLen (8 * 2 ^ k) := by
  unfold getSizeWidth
  rw [Nat.mul_div_cancel_left _ (by decide : 0 < 8), Nat.pow_add, Nat.pow_succ]
  have hl := le_two_pow_log2ceil maxLen
  have hp : 2 ≤ 2 ^ log2ceil maxLen := by
    have := Nat.pow_le_pow_right (by decide : 0 < 2) (show 1 ≤ log2ceil maxLen from log2ceil_pos maxLen)
    simpa using this
  have ha : 2 ^ k ≤ 2 ^ log2ceil (2 ^ k - 1) := by
    apply Nat.pow_le_pow_right (by decide)
    have h1 := le_two_pow_log2ceil (2 ^ k - 1)
    have h0 := log2ceil_pos (2 ^ k - 1)
    by_cases h : k ≤ log2ceil (2 ^ k - 1)
    · exact h
    · have h2 : 2 ^ (log2ceil (2 ^ k - 1) + 1) ≤ 2 ^ k := Nat.pow_le_pow_right (by decide) (by omega)
      have h3 : 2 ≤ 2 ^ log2ceil (2 ^ k - 1) := by
        have := Nat.pow_le_pow_right (by decide : 0 < 2) (show 1 ≤ log2ceil (2 ^ k - 1) from h0)
        simpa using this
      rw [Nat.pow_succ] at h2
      omega
  have hk := Nat.two_pow_pos k
  calc (maxLen + 1) * 2 ^ k < (2 ^ log2ceil maxLen * 2) * 2 ^ k := Nat.mul_lt_mul_of_pos_right (by omega) hk
    _ ≤ _ := Nat.mul_le_mul_left _ ha

example : (255 + 1) * 2 ^ 3 = 2048 ∧ getSizeWidth 255 64 = 12 := by decide

/-! ## C450: created address requests -/

/-- what is expected on a signal -/
def Req.field (r : Req) (size : Int) : Sig → V
  | .id => some r.id
  | .addr => some r.addr
  | .burst => some r.burst
  | .cache => some r.cache
  | .len => some r.len
  | .lock => some r.lock
  | .prot => some r.prot
  | .size => some size
  | .qos => some r.qos
  | .user => r.user

/-- `sigs` and `vs` are an agent and a created tuple; every signal `s` which exists is driven with its argument and
nothing is left over -/
def Driven (r : Req) (size : Int) (idWidth : Nat) (has : Sig → Prop) (sigs : Option (List Sig)) (vs : Option (List V)) : Prop :=
  ∃ ss ws, sigs = some ss ∧ vs = some ws ∧ ss.length = ws.length ∧
    ∀ s, has s → (s = .id → idWidth ≠ 0) → drive ss ws s = some (r.field size s)

def size (r : Req) (dataWidth : Nat) (sz : Int) : Prop :=
  (∀ s, r.size = some s → sz = s) ∧ (r.size = none → ∀ k : Nat, dataWidth = 8 * 2 ^ k → sz = k)

/-- C450, full statement: for every configuration the created request drives every signal with its argument, the
default size is the one of a whole word. -/
def CreateFull : Prop := ∀ (idWidth dataWidth userWidth : Nat) (r : Req), (userWidth = 0 → r.user = none) →
  (∃ sz, size r dataWidth sz ∧ Driven r sz idWidth (fun s => s ≠ .qos ∧ (s = .user → userWidth ≠ 0))
    (signals3 idWidth userWidth) (create3 dataWidth userWidth r)) ∧
  (∃ sz, size r dataWidth sz ∧ Driven r sz idWidth (fun s => s = .user → userWidth ≠ 0)
    (signals4 idWidth userWidth) (create4 dataWidth userWidth r))

/-- C450: there is no agent for an interface without `id`. -/
theorem create_violated : ¬ CreateFull := by
  intro h
  obtain ⟨sz, _, ss, ws, h1, _⟩ := (h 0 64 0 { addr := 0, len := 0 } (fun _ => rfl)).1
  exact absurd h1 (by simp [signals3])

theorem sizeOf_ok (r : Req) (dataWidth : Nat) : size r dataWidth (r.sizeOf dataWidth) := by
  refine ⟨fun s h => by simp [Req.sizeOf, h], fun h k e => ?_⟩
  rw [Req.sizeOf, h, e, Nat.mul_div_cancel_left _ (by decide : 0 < 8)]
  exact size_pow k

/-- C450: holds for every interface with `id`. -/
theorem create_partial (idWidth dataWidth userWidth : Nat) (r : Req) (hi : idWidth ≠ 0)
    (hu : userWidth = 0 → r.user = none) :
    (∃ sz, size r dataWidth sz ∧ Driven r sz idWidth (fun s => s ≠ .qos ∧ (s = .user → userWidth ≠ 0))
      (signals3 idWidth userWidth) (create3 dataWidth userWidth r)) ∧
    (∃ sz, size r dataWidth sz ∧ Driven r sz idWidth (fun s => s = .user → userWidth ≠ 0)
      (signals4 idWidth userWidth) (create4 dataWidth userWidth r)) := by
  by_cases h : userWidth = 0
  · refine ⟨⟨_, sizeOf_ok r dataWidth, _, _, if_neg hi, (if_neg (by simp [h])).trans (if_pos (hu h)), ?_, ?_⟩, ⟨_, sizeOf_ok r dataWidth, _, _, if_neg hi, (if_neg (by simp [h])).trans (if_pos (hu h)), ?_, ?_⟩⟩
    · simp [h]
    · intro s hs _
      cases s <;> simp_all [drive, Req.field]
    · simp [h]
    · intro s hs _
      cases s <;> simp_all [drive, Req.field]
  · refine ⟨⟨_, sizeOf_ok r dataWidth, _, _, if_neg hi, if_pos h, ?_, ?_⟩, ⟨_, sizeOf_ok r dataWidth, _, _, if_neg hi, if_pos h, ?_, ?_⟩⟩
    · simp [h]
    · intro s hs _
      cases s <;> simp_all [drive, Req.field]
    · simp [h]
    · intro s hs _
      cases s <;> simp_all [drive, Req.field]

/-- C450: a value for `user` is refused if and only if there is no such signal. -/
theorem create_refused (dataWidth userWidth : Nat) (r : Req) :
    (create3 dataWidth userWidth r = none ↔ userWidth = 0 ∧ r.user ≠ none) ∧
    (create4 dataWidth userWidth r = none ↔ userWidth = 0 ∧ r.user ≠ none) := by
  unfold create3 create4
  by_cases h : userWidth = 0 <;> by_cases hu : r.user = none <;> simp [h, hu]

example : create4 64 0 { addr := 16, len := 3, size := some 2 } =
    some [some 0, some 16, some 1, some 3, some 3, some 0, some 0, some 2, some 0] := by decide

/-- C450: the default values are an incrementing burst of normal memory, not cacheable and bufferable, with
id 0, no lock, unprivileged secure data access, and quality of service 0. -/
theorem create_defaults (addr len : Int) (k : Nat) : create4 (8 * 2 ^ k) 0 { addr := addr, len := len } =
    some [some 0, some addr, some 0b01, some 0b0011, some len, some 0, some 0b000, some (k : Int), some 0] := by
  have h : Req.sizeOf { addr := addr, len := len } (8 * 2 ^ k) = k :=
    (sizeOf_ok { addr := addr, len := len } (8 * 2 ^ k)).2 rfl k rfl
  simp [create4, h]

end Verif.AxiSize
