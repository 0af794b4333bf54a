import Verif.UlpiCmd
/-!
# Properties of the commands and registers of ULPI and of control characters of XGMII
-/
namespace Verif.UlpiCmd

/-! ## C463: commands -/

theorem fromPy_some (w v x : Nat) (h : fromPy w v = some x) : x = v ∧ v < 2 ^ w := by
  unfold fromPy at h
  by_cases hv : v < 2 ^ w
  · rw [if_pos hv] at h; injection h with h; exact ⟨h.symm, hv⟩
  · rw [if_neg hv] at h; cases h

/-- C463: a command made for a packet is recognised and gives its PID back; other numbers than 4 bit ones are refused. -/
theorem cmd_pid (p : Nat) : (p < 16 → ∃ b, pidCmd p = some b ∧ isPid b = true ∧ getPid b = p ∧ b < 256) ∧
    (16 ≤ p → pidCmd p = none) := by
  constructor
  · intro h
    refine ⟨64 + p, ?_, ?_, ?_, by omega⟩
    · simp [pidCmd, fromPy, concat, h]
    · simp only [isPid, Nat.shiftRight_eq_div_pow, beq_iff_eq]; omega
    · unfold getPid
      rw [Nat.and_two_pow_sub_one_eq_mod]; omega
  · intro h
    have : ¬ p < 2 ^ 4 := by omega
    simp [pidCmd, fromPy, this]

/-- C463: no other byte is recognised as such a command. -/
theorem cmd_is (b : Nat) : isPid b = true ↔ ∃ p, pidCmd p = some b := by
  constructor
  · intro h
    simp only [isPid, Nat.shiftRight_eq_div_pow, beq_iff_eq] at h
    refine ⟨b % 16, ?_⟩
    have : b % 16 < 2 ^ 4 := by omega
    simp only [pidCmd, fromPy, if_pos this, Option.map_some, concat, Option.some.injEq]
    omega
  · rintro ⟨p, h⟩
    by_cases hp : p < 16
    · obtain ⟨b', h1, h2, _⟩ := (cmd_pid p).1 hp
      rw [h] at h1; injection h1 with h1; rw [h1]; exact h2
    · rw [(cmd_pid p).2 (by omega)] at h; cases h

/-- C463: the two highest bits of a command tell its kind and the rest the address, as ULPI 1.1 has it. -/
theorem cmd_reg (a b : Nat) : (regW a = some b ↔ a < 64 ∧ b / 64 = 2 ∧ b % 64 = a) ∧
    (regR a = some b ↔ a < 64 ∧ b / 64 = 3 ∧ b % 64 = a) := by
  constructor
  · constructor
    · intro h
      cases hx : fromPy 6 a with
      | none => simp [regW, hx] at h
      | some x =>
        obtain ⟨rfl, h2⟩ := fromPy_some _ _ _ hx
        simp only [regW, hx, Option.map_some, concat, Option.some.injEq] at h
        omega
    · rintro ⟨h1, h2, h3⟩
      have : a < 2 ^ 6 := by omega
      simp only [regW, fromPy, if_pos this, Option.map_some, concat, Option.some.injEq]
      omega
  · constructor
    · intro h
      cases hx : fromPy 6 a with
      | none => simp [regR, hx] at h
      | some x =>
        obtain ⟨rfl, h2⟩ := fromPy_some _ _ _ hx
        simp only [regR, hx, Option.map_some, concat, Option.some.injEq] at h
        omega
    · rintro ⟨h1, h2, h3⟩
      have : a < 2 ^ 6 := by omega
      simp only [regR, fromPy, if_pos this, Option.map_some, concat, Option.some.injEq]
      omega

/-- C463: commands for registers are never taken for packets or for an idle bus. -/
theorem cmd_disjoint (a b : Nat) (h : regW a = some b ∨ regR a = some b) : isPid b = false ∧ b ≠ NOOP ∧ b ≠ NOPID := by
  have hb : 2 ≤ b / 64 := by
    rcases h with h | h
    · have := ((cmd_reg a b).1.1 h).2.1; omega
    · have := ((cmd_reg a b).2.1 h).2.1; omega
  refine ⟨?_, by unfold NOOP; omega, by unfold NOPID; omega⟩
  rw [Bool.eq_false_iff]
  intro q
  simp only [isPid, Nat.shiftRight_eq_div_pow, beq_iff_eq] at q
  omega

/-- C463: the extended commands are those for the address 0x2f, which no register has, nor its set and clear address. -/
theorem cmd_ext : regW 0x2f = some EXTW ∧ regR 0x2f = some EXTR ∧ ∀ r ∈ regs, r.2 + 2 < 0x2f := by
  refine ⟨rfl, rfl, ?_⟩
  intro r hr
  have := List.all_eq_true.1 (show (regs.all fun r => decide (r.2 + 2 < 0x2f)) = true by decide) r hr
  exact of_decide_eq_true this

/-- C463, full statement: a byte recognised as a packet with a PID is not the command for data without a PID. -/
def CmdFull : Prop := ∀ b, isPid b = true → b ≠ NOPID

/-- C463: it is recognised as a packet with the (reserved) PID 0 -/
theorem cmd_violated : isPid NOPID = true ∧ getPid NOPID = 0 ∧ ¬ CmdFull :=
  ⟨rfl, rfl, fun h => h NOPID rfl rfl⟩

/-- C463: this happens for the PID 0 only. -/
theorem cmd_partial (p b : Nat) (hp : 0 < p) (h : pidCmd p = some b) : b ≠ NOPID := by
  by_cases h16 : p < 16
  · obtain ⟨b', h1, _, h3, _⟩ := (cmd_pid p).1 h16
    rw [h] at h1; injection h1 with h1
    subst h1
    rintro rfl
    have : getPid NOPID = 0 := rfl
    omega
  · rw [(cmd_pid p).2 (by omega)] at h; cases h

example : pidCmd 0b1101 = some 0x4d ∧ regW 0x0A = some 0x8a ∧ regR 0x3f = some 0xff := ⟨rfl, rfl, rfl⟩

/-! ## C464: addresses of registers -/

/-- ULPI 1.1, table of registers: name, address, whether there are a set and a clear address -/
def spec : List (String × Nat × Bool) := [("Vendor_ID_Low", 0, false), ("Vendor_ID_High", 1, false), ("Product_ID_Low", 2, false),
  ("Product_ID_High", 3, false), ("Function_Control", 4, true), ("Interface_Control", 7, true), ("OTG_Control", 10, true),
  ("USB_Interrupt_Enable_Rising", 13, true), ("USB_Interrupt_Enable_Falling", 16, true), ("USB_Interrupt_Status", 19, false),
  ("USB_Interrupt_Latch", 20, false), ("Debug", 21, false), ("Scratch_Register", 22, true), ("Carkit_Control", 25, true),
  ("Carkit_Interrupt_Delay", 28, false), ("Carkit_Interrupt_Enable", 29, true), ("Carkit_Interrupt_Status", 32, false),
  ("Carkit_Interrupt_Latch", 33, false), ("Carkit_Pulse_Control", 34, true), ("Transmit_Positive_Width", 37, false),
  ("Transmit_Negative_Width", 38, false), ("Receive_Polarity_Recovery", 39, false)]

/-- C464: addresses are those of the standard, and so is the list of registers with set and clear addresses. -/
theorem reg_spec : regs = spec.map (fun x => (x.1, x.2.1)) ∧
    setClr = (spec.filter fun x => x.2.2).map fun x => x.2.1 := by decide

/-- C464: all addresses, with those for set and clear, are different. -/
theorem reg_nodup : (regs.map (fun r : String × Nat => r.2) ++ (setClr.map (fun a => a + 1) ++ setClr.map (fun a => a + 2))).Nodup := by decide

/-- C464, full statement: `set_of` and `clr_of`, called on the class, give the two next addresses exactly for these registers. -/
def RegFull : Prop := ∀ a, (setOf [a] = .ok (a + 1) ↔ a ∈ setClr) ∧ (clrOf false [a] = .ok (a + 2) ↔ a ∈ setClr)

/-- C464: `set_of` never returns: it raises for any arguments. -/
theorem reg_set (args : List Nat) (n : Nat) : setOf args ≠ .ok n := by
  cases args with
  | nil => intro h; cases h
  | cons a r => intro h; cases h

/-- C464: `clr_of` called on the class raises as well. -/
theorem reg_clr (a n : Nat) : clrOf false [a] ≠ .ok n := by intro h; cases h

theorem reg_violated : ¬ RegFull := fun h => reg_set _ _ ((h 4).1.2 (by decide))

/-- C464: on an instance, `clr_of` is right. -/
theorem reg_partial (a n : Nat) : clrOf true [a] = .ok n ↔ a ∈ setClr ∧ n = a + 2 := by
  have : clrOf true [a] = if setClr.contains a then .ok (a + 2) else .error .assert := rfl
  rw [this]
  by_cases h : a ∈ setClr
  · rw [if_pos (List.contains_iff_mem.2 h)]
    constructor
    · intro q; injection q with q; exact ⟨h, q.symm⟩
    · rintro ⟨_, rfl⟩; rfl
  · rw [if_neg (fun q => h (List.contains_iff_mem.1 q))]
    constructor
    · intro q; cases q
    · rintro ⟨q, _⟩; exact absurd q h

example : clrOf true [0x16] = .ok 0x18 ∧ clrOf true [0x13] = .error .assert := ⟨rfl, rfl⟩

/-! ## C465: fields of registers -/

theorem pack_lt : ∀ (fs : List (String × Nat)) (v : String → Nat), pack fs v < 2 ^ (fs.map (·.2)).sum
  | [], _ => by simp [pack]
  | (n, w) :: r, v => by
      have ih := pack_lt r v
      have h1 : v n % 2 ^ w < 2 ^ w := Nat.mod_lt _ (Nat.two_pow_pos w)
      simp only [pack, List.map_cons, List.sum_cons, Nat.pow_add]
      have h2 : 2 ^ w * (pack r v + 1) ≤ 2 ^ w * 2 ^ (r.map (·.2)).sum := Nat.mul_le_mul_left _ ih
      rw [Nat.mul_add, Nat.mul_one] at h2
      omega

/-- C465: a field of a byte made from values of fields has its value, for any struct. -/
theorem field_roundtrip : ∀ (fs : List (String × Nat)) (v : String → Nat) (f : String) (w : Nat), (fs.map (·.1)).Nodup →
    (f, w) ∈ fs → v f < 2 ^ w → unpack fs (pack fs v) f = some (v f)
  | [], _, _, _, _, h, _ => by cases h
  | (n, w) :: r, v, f, w', hn, h, hv => by
      rw [List.map_cons, List.nodup_cons] at hn
      rw [unpack, pack]
      rcases List.mem_cons.1 h with he | h
      · injection he with h1 h2
        subst h1; subst h2
        rw [if_pos rfl, Nat.add_mul_mod_self_left, Nat.mod_mod, Nat.mod_eq_of_lt hv]
      · have hne : n ≠ f := by
          rintro rfl
          exact hn.1 (List.mem_map.2 ⟨_, h, rfl⟩)
        rw [if_neg hne, Nat.add_mul_div_left _ _ (Nat.two_pow_pos w),
          Nat.div_eq_of_lt (Nat.mod_lt _ (Nat.two_pow_pos w)), Nat.zero_add]
        exact field_roundtrip r v f w' hn.2 h hv

/-- ULPI 1.1, tables of fields: the register, name, lowest bit, width -/
def fieldSpec : List (List (String × Nat) × String × Nat × Nat) := [
  (functionControl, "XcvrSelect", 0, 2), (functionControl, "TermSelect", 2, 1), (functionControl, "OpMode", 3, 2),
  (functionControl, "Reset", 5, 1), (functionControl, "SuspendM", 6, 1),
  (interfaceControl, "FsLsSerialMode_6pin", 0, 1), (interfaceControl, "FsLsSerialMode_3pin", 1, 1),
  (interfaceControl, "CarkitMode", 2, 1), (interfaceControl, "ClockSuspendM", 3, 1), (interfaceControl, "AutoResume", 4, 1),
  (interfaceControl, "IndicatorComplement", 5, 1), (interfaceControl, "IndicatorPassThru", 6, 1),
  (interfaceControl, "InterfaceProtectDisable", 7, 1),
  (otgControl, "IdPullup", 0, 1), (otgControl, "DpPulldown", 1, 1), (otgControl, "DmPulldown", 2, 1),
  (otgControl, "DischrgVbus", 3, 1), (otgControl, "ChrgVbus", 4, 1), (otgControl, "DrvVbus", 5, 1),
  (otgControl, "DrvVbusExternal", 6, 1), (otgControl, "UseExternalVbusIndicator", 7, 1),
  (interrupt, "HostDisconnect", 0, 1), (interrupt, "VbusValid", 1, 1), (interrupt, "SessValid", 2, 1),
  (interrupt, "SessEnd", 3, 1), (interrupt, "IdGnd", 4, 1)]

theorem unpack_at : ∀ (fs : List (String × Nat)) (b : Nat) (f : String) (o w : Nat),
    (∃ l r, fs = l ++ (f, w) :: r ∧ (∀ x ∈ l, x.1 ≠ f) ∧ (l.map (·.2)).sum = o) →
    unpack fs b f = some (b / 2 ^ o % 2 ^ w)
  | fs, b, f, o, w, ⟨[], r, h, _, ho⟩ => by
      subst h
      simp only [List.map_nil, List.sum_nil] at ho
      subst ho
      rw [List.nil_append, unpack, if_pos rfl, Nat.pow_zero, Nat.div_one]
  | fs, b, f, o, w, ⟨x :: l, r, h, hl, ho⟩ => by
      subst h
      rw [List.map_cons, List.sum_cons] at ho
      rw [List.cons_append, unpack, if_neg (hl x (List.mem_cons_self ..)),
        unpack_at (l ++ (f, w) :: r) (b / 2 ^ x.2) f (l.map (·.2)).sum w
          ⟨l, r, rfl, fun y hy => hl y (List.mem_cons_of_mem _ hy), rfl⟩, Nat.div_div_eq_div_mul, ← Nat.pow_add, ho]

/-- position of a field -/
def posOf : List (String × Nat) → String → Nat → Option (Nat × Nat)
  | [], _, _ => none
  | (n, w) :: r, f, o => if n = f then some (o, w) else posOf r f (o + w)

theorem posOf_split : ∀ (fs : List (String × Nat)) (f : String) (k o w : Nat), posOf fs f k = some (o, w) →
    ∃ l r, fs = l ++ (f, w) :: r ∧ (∀ x ∈ l, x.1 ≠ f) ∧ k + (l.map (·.2)).sum = o
  | [], _, _, _, _, h => by cases h
  | (n, w') :: r, f, k, o, w, h => by
      rw [posOf] at h
      by_cases hn : n = f
      · rw [if_pos hn] at h
        injection h with h; injection h with h1 h2
        subst hn; subst h1; subst h2
        exact ⟨[], r, rfl, (fun x hx => absurd hx List.not_mem_nil), by simp⟩
      · rw [if_neg hn] at h
        obtain ⟨l, r', h1, h2, h3⟩ := posOf_split r f (k + w') o w h
        refine ⟨(n, w') :: l, r', by rw [h1]; rfl, ?_, ?_⟩
        · intro x hx
          rcases List.mem_cons.1 hx with rfl | hx
          · exact hn
          · exact h2 x hx
        · rw [List.map_cons, List.sum_cons]; omega

/-- C465: for every value of a register, each field is the bits which the standard has for it. -/
theorem field_spec (x : List (String × Nat) × String × Nat × Nat) (hx : x ∈ fieldSpec) (b : Nat) :
    unpack x.1 b x.2.1 = some (b / 2 ^ x.2.2.1 % 2 ^ x.2.2.2) := by
  have := List.all_eq_true.1 (show (fieldSpec.all fun x => decide (posOf x.1 x.2.1 0 = some (x.2.2.1, x.2.2.2))) = true by
    decide +kernel) x hx
  obtain ⟨l, r, h1, h2, h3⟩ := posOf_split _ _ _ _ _ (of_decide_eq_true this)
  exact unpack_at _ _ _ _ _ ⟨l, r, h1, h2, by omega⟩

/-- C465: registers are bytes, their values after a reset are those of the standard. -/
theorem field_reset : pack functionControl functionDefault = 0x41 ∧ pack otgControl otgDefault = 0x06 ∧
    ∀ fs ∈ [functionControl, interfaceControl, otgControl, interrupt], (fs.map (·.2)).sum = 8 ∧ (fs.map (·.1)).Nodup ∧
      ∀ v, pack fs v < 256 := by
  refine ⟨by decide, by decide, ?_⟩
  intro fs hfs
  have hs : (fs.map (·.2)).sum = 8 ∧ (fs.map (·.1)).Nodup := by
    simp only [List.mem_cons, List.not_mem_nil, or_false] at hfs
    rcases hfs with rfl | rfl | rfl | rfl <;> decide
  refine ⟨hs.1, hs.2, fun v => ?_⟩
  have := pack_lt fs v
  rw [hs.1] at this
  exact this

example : unpack functionControl 0x55 "OpMode" = some 2 := field_spec (functionControl, "OpMode", 3, 2) (by simp [fieldSpec]) 0x55

/-! ## C466: XGMII -/

/-- C466: a detector of a byte is 1 exactly if its control bit is set and the byte is the wanted one, for all words. -/
theorem xgmii_detect (w d c s i : Nat) : (detect w d c s).length = w / 8 ∧
    ((detect w d c s)[i]? = some true ↔ i < w / 8 ∧ c / 2 ^ i % 2 = 1 ∧ d / 2 ^ (8 * i) % 256 = s) := by
  refine ⟨by simp [detect], ?_⟩
  unfold detect lane
  rw [List.getElem?_map]
  by_cases h : i < w / 8
  · rw [List.getElem?_range h]
    simp [h, Nat.testBit_eq_decide_div_mod_eq, Nat.mul_comm i 8]
  · rw [List.getElem?_eq_none (by simpa using h)]
    simp [h]

/-- C466: no byte is detected as two different characters. -/
theorem xgmii_one (w d c i s t : Nat)
    (h1 : (detect w d c s)[i]? = some true) (h2 : (detect w d c t)[i]? = some true) : s = t ∧ s < 256 := by
  have a := ((xgmii_detect w d c s i).2.1 h1).2.2
  have b := ((xgmii_detect w d c t i).2.1 h2).2.2
  refine ⟨a.symm.trans b, ?_⟩
  rw [← a]; exact Nat.mod_lt _ (by decide)

/-- C466: the commands are different control characters of IEEE 802.3 clause 46. -/
theorem xgmii_codes : [IDLE, START, TERM, ERROR] = [0x07, 0xfb, 0xfd, 0xfe] ∧ [IDLE, START, TERM, ERROR].Nodup := by decide

/-- C466, full statement: an alignment is accepted exactly if starts of packets are at whole multiples of it, in the word. -/
def AlignFull : Prop := ∀ w a, 0 < w / 8 → (alignOk w a = true ↔ 0 < a ∧ w / 8 % a = 0)

/-- C466: starts in the lowest lane only can not be configured, and an interface of one lane can not exist at all;
on the other side the alignment 3 is accepted for 8 lanes. -/
theorem align_violated : ¬ AlignFull ∧ alignOk 64 8 = false ∧ alignOk 64 3 = true ∧ ∀ a, alignOk 8 a = false := by
  refine ⟨fun h => absurd ((h 64 8 (by decide)).2 (by decide)) (by decide), rfl, rfl, ?_⟩
  intro a
  unfold alignOk
  rw [Bool.and_eq_false_iff, decide_eq_false_iff_not, decide_eq_false_iff_not]
  omega

/-- C466: all smaller alignments are accepted. -/
theorem align_partial (w a : Nat) (h : 0 < w / 8) (ha : a ≠ w / 8) (hd : 0 < a ∧ w / 8 % a = 0) : alignOk w a = true := by
  have : a ≤ w / 8 := Nat.le_of_dvd h (Nat.dvd_of_mod_eq_zero hd.2)
  unfold alignOk
  rw [Bool.and_eq_true, decide_eq_true_eq, decide_eq_true_eq]
  omega

example : detect 32 0x0707fd11 0b1110 TERM = [false, true, false, false] ∧ alignOk 64 4 = true := by decide

end Verif.UlpiCmd
