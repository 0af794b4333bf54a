import Verif.StreamToMem
import Mathlib.Data.List.Induction

/-!
# Properties of `Axi4streamToMem` (C187 - C190)
-/

namespace Verif.StreamToMem

open Verif

variable {α : Type}

/-! ## Specification -/

/-- `i`-th burst of the copy of `n` words: address, words -/
def burst (c : Cfg) (b i : Nat) : Nat × Nat := ((b + i * (c.max * c.bytes)) % 2 ^ c.aw, min c.max (c.n - i * c.max))
def numBursts (c : Cfg) : Nat := (c.n + c.max - 1) / c.max
def burstEvs (p : Nat × Nat) : List Ev := .aw p.1 (p.2 - 1) :: (List.replicate (p.2 - 1) (.w false) ++ [.w true])
/-- the copy of the `n` words to the address `b` -/
def copy (c : Cfg) (b : Nat) : List Ev := (List.range (numBursts c)).flatMap fun i => burstEvs (burst c b i)

/-- bits of the control register -/
def onBit (c : Cfg) (o : Out α) : Bool := o.ctl.testBit (8 * c.bytes - 1)
def idleBit (c : Cfg) (o : Out α) : Bool := o.ctl.testBit (8 * c.bytes - 2)

/-- the base addresses of the copies which were started: the component is idle and on -/
def starts (c : Cfg) (tr : List (In α × Out α)) : List Nat :=
  tr.flatMap fun e => given (onBit c e.2 && idleBit c e.2) e.2.base

/-! ## Bits of the control register -/

theorem ctl_bits (c : Cfg) (hb : 1 ≤ c.bytes) (s : St) (x : In α) :
    onBit c (out c s x) = s.on ∧ idleBit c (out c s x) = decide (s.ph = .fullIdle) := by
  unfold onBit idleBit out
  obtain ⟨k, hk⟩ : ∃ k, 8 * c.bytes = k + 2 := ⟨8 * c.bytes - 2, by omega⟩
  rw [hk]
  simp only [Nat.add_sub_cancel, show k + 2 - 1 = k + 1 by omega]
  have h1 : (2 ^ k).testBit (k + 1) = false := by simp
  cases s.on <;> by_cases hp : s.ph = .fullIdle
  · simp [hp]
  · simp [hp]
  · simp only [hp, if_true]
    rw [Nat.testBit_two_pow_add_eq, h1, Nat.testBit_two_pow_add_gt (by omega)]
    simp
  · simp [hp]

/-! ## C187 transfers -/

structure Cfg.Ok (c : Cfg) : Prop where
  n : 1 ≤ c.n
  max : 1 ≤ c.max
  max2 : c.max ≤ 255
  bytes : 1 ≤ c.bytes

/-- the bursts from `i` -/
def rest (c : Cfg) (b i : Nat) : List Ev :=
  (List.range' i (numBursts c - i)).flatMap fun i => burstEvs (burst c b i)

theorem copy_rest (c : Cfg) (b : Nat) : copy c b = rest c b 0 := by
  simp [copy, rest, List.range_eq_range']

theorem rest_cons (c : Cfg) (b i : Nat) (h : i < numBursts c) :
    rest c b i = burstEvs (burst c b i) ++ rest c b (i + 1) := by
  unfold rest
  rw [show numBursts c - i = numBursts c - (i + 1) + 1 by omega, List.range'_succ, List.flatMap_cons]

theorem rest_nil (c : Cfg) (b i : Nat) (h : ¬ i < numBursts c) : rest c b i = [] := by
  unfold rest
  rw [show numBursts c - i = 0 by omega]
  rfl

theorem lt_num (c : Cfg) (hc : c.Ok) (i : Nat) : i < numBursts c ↔ i * c.max < c.n := by
  have := hc.max
  have := hc.n
  unfold numBursts
  rw [← Nat.succ_le_iff, Nat.le_div_iff_mul_le (by omega), Nat.succ_mul]
  omega

def ws (k : Nat) : List Ev := List.replicate (k - 1) (.w false) ++ [.w true]

/-- what remains of the started copies -/
def Rel (c : Cfg) (s : St) (r : List Ev) : Prop :=
  match s.ph with
  | .fullIdle => r = []
  | .writeAddr => ∃ b i, i < numBursts c ∧ s.lenRem = c.n - i * c.max ∧
      s.addr = (b + i * (c.max * c.bytes)) % 2 ^ c.aw ∧ r = rest c b i
  | .writeData => ∃ b i, s.lenRem = c.n - i * c.max ∧
      (i < numBursts c → s.addr = (b + i * (c.max * c.bytes)) % 2 ^ c.aw) ∧
      2 ≤ s.act ∧ s.act ≤ 255 ∧ r = ws s.act ++ rest c b i
  | .writeDataLast => ∃ b i, s.lenRem = c.n - i * c.max ∧
      (i < numBursts c → s.addr = (b + i * (c.max * c.bytes)) % 2 ^ c.aw) ∧ r = ws 1 ++ rest c b i

theorem rel_step (c : Cfg) (hc : c.Ok) (h2 : 2 ≤ c.max ∨ c.n = 1) (s : St) (x : In α) (r : List Ev)
    (h : Rel c s r) (hb : s.base < 2 ^ c.aw) :
    ∃ r', Rel c (next c s x) r' ∧
      evOf (x, out c s x) ++ r' = r ++ (given (s.on && decide (s.ph = .fullIdle)) s.base).flatMap (copy c) := by
  obtain ⟨ph, on, base, addr, lenRem, act⟩ := s
  have hn := hc.n
  have hm := hc.max
  have hm2 := hc.max2
  cases ph
  · -- idle
    simp only [Rel] at h
    subst h
    cases on
    · exact ⟨[], by simp [Rel, next], by simp [evOf, out, wEn]⟩
    · refine ⟨copy c base, ?_, by simp [evOf, out, wEn]⟩
      simp only [Rel, next, if_true]
      refine ⟨base, 0, (lt_num c hc 0).2 (by omega), by omega, ?_, copy_rest c base⟩
      rw [Nat.zero_mul, Nat.add_zero, Nat.mod_eq_of_lt hb]
  · -- writeAddr
    simp only [Rel] at h
    obtain ⟨b, i, hi, hl, ha, hr⟩ := h
    have hi2 := (lt_num c hc i).1 hi
    have hlp : 1 ≤ lenRem := by omega
    cases hw : x.awR
    · refine ⟨r, ?_, by simp [evOf, out, wEn, hw]⟩
      simp only [Rel, next, hw]
      exact ⟨b, i, hi, hl, ha, hr⟩
    · have hmul : (i + 1) * c.max = i * c.max + c.max := Nat.succ_mul _ _
      have hmul2 : (i + 1) * (c.max * c.bytes) = i * (c.max * c.bytes) + c.max * c.bytes := Nat.succ_mul _ _
      have hlen : (if c.max < lenRem then (c.max - 1) % 256 else (lenRem + 255) % 256) = min c.max (c.n - i * c.max) - 1 := by
        split
        · rw [Nat.mod_eq_of_lt (by omega)]; omega
        · rw [show lenRem + 255 = lenRem - 1 + 256 by omega, Nat.add_mod_right, Nat.mod_eq_of_lt (by omega)]; omega
      have hl' : (if c.max < lenRem then lenRem - c.max else 0) = c.n - (i + 1) * c.max := by
        split <;> omega
      have ha' : i + 1 < numBursts c → (if c.max < lenRem then (addr + c.max * c.bytes) % 2 ^ c.aw
          else (addr + lenRem) % 2 ^ c.aw) = (b + (i + 1) * (c.max * c.bytes)) % 2 ^ c.aw := by
        intro h
        have := (lt_num c hc _).1 h
        rw [if_pos (by omega), ha, Nat.mod_add_mod, hmul2, Nat.add_assoc]
      refine ⟨ws (min c.max (c.n - i * c.max)) ++ rest c b (i + 1), ?_, ?_⟩
      · by_cases h1 : lenRem = 1
        · simp only [Rel, next, hw, h1]
          refine ⟨b, i + 1, ?_, ?_, ?_⟩
          · rw [h1] at hl'; exact hl'
          · rw [h1] at ha'; exact ha'
          · rw [show min c.max (c.n - i * c.max) = 1 by omega]
        · have h3 : (lenRem == 1) = false := by simp [h1]
          have hact : (if c.max < lenRem then c.max else lenRem % 256) = min c.max (c.n - i * c.max) := by
            split
            · omega
            · rw [Nat.mod_eq_of_lt (by omega)]; omega
          have hm3 : 2 ≤ c.max := by
            rcases h2 with h2 | h2
            · exact h2
            · omega
          simp only [Rel, next, hw, h3, Bool.false_eq_true, if_true, if_false]
          refine ⟨b, i + 1, hl', ha', ?_, ?_, ?_⟩
          · rw [hact]; omega
          · rw [hact]; omega
          · rw [hact]
      · have e : evOf (x, out c ⟨.writeAddr, on, base, addr, lenRem, act⟩ x)
            = [.aw addr (min c.max (c.n - i * c.max) - 1)] := by
          simp only [evOf, out, wEn, hw]
          rw [hlen]
          rfl
        rw [e, hr, rest_cons c b i hi, ha]
        simp [burstEvs, burst, ws]
  · -- writeData
    simp only [Rel] at h
    obtain ⟨b, i, hl, ha, ha2, ha3, hr⟩ := h
    rcases Bool.eq_false_or_eq_true (wAck ⟨.writeData, on, base, addr, lenRem, act⟩ x) with hw | hw
    · have hw2 : x.din.isSome = true ∧ x.wR = true := by simpa [wAck, wEn] using hw
      obtain ⟨d, hd⟩ := Option.isSome_iff_exists.1 hw2.1
      have e : evOf (x, out c ⟨.writeData, on, base, addr, lenRem, act⟩ x) = [.w false] := by
        simp only [evOf, out, wEn, hd, hw2.2]
        rfl
      refine ⟨ws (act - 1) ++ rest c b i, ?_, ?_⟩
      · by_cases h2 : act = 2
        · subst h2
          simp only [Rel, next, hw]
          exact ⟨b, i, hl, ha, rfl⟩
        · have h3 : (act == 2) = false := by simp [h2]
          have h4 : (act + 255) % 256 = act - 1 := by omega
          simp only [Rel, next, hw, h3, Bool.and_false, Bool.false_eq_true, if_true, if_false, h4]
          exact ⟨b, i, hl, ha, by omega, by omega, rfl⟩
      · rw [e, hr]
        simp only [ws, reduceCtorEq, decide_false, Bool.and_false, given_false, List.flatMap_nil, List.append_nil]
        rw [show act - 1 = act - 1 - 1 + 1 by omega, List.replicate_succ]
        simp
    · have e : evOf (x, out c ⟨.writeData, on, base, addr, lenRem, act⟩ x) = [] := by
        simp only [wAck, wEn] at hw
        simp only [evOf, out, wEn]
        revert hw
        cases x.din <;> cases x.wR <;> simp
      refine ⟨r, ?_, by simp [e]⟩
      simp only [Rel, next, hw, Bool.false_and, Bool.false_eq_true, if_false]
      exact ⟨b, i, hl, ha, ha2, ha3, hr⟩
  · -- writeDataLast
    simp only [Rel] at h
    obtain ⟨b, i, hl, ha, hr⟩ := h
    rcases Bool.eq_false_or_eq_true (wAck ⟨.writeDataLast, on, base, addr, lenRem, act⟩ x) with hw | hw
    · have hw2 : x.din.isSome = true ∧ x.wR = true := by simpa [wAck, wEn] using hw
      obtain ⟨d, hd⟩ := Option.isSome_iff_exists.1 hw2.1
      have e : evOf (x, out c ⟨.writeDataLast, on, base, addr, lenRem, act⟩ x) = [.w true] := by
        simp only [evOf, out, wEn, hd, hw2.2]
        rfl
      refine ⟨rest c b i, ?_, by rw [e, hr]; simp [ws]⟩
      by_cases h0 : lenRem = 0
      · subst h0
        simp only [Rel, next, hw]
        simp
        exact rest_nil c b i (by rw [lt_num c hc]; omega)
      · have h3 : (lenRem != 0) = true := by simp [h0]
        simp only [Rel, next, hw, h3, if_true]
        have hi : i < numBursts c := (lt_num c hc i).2 (by omega)
        exact ⟨b, i, hi, hl, ha hi, rfl⟩
    · have e : evOf (x, out c ⟨.writeDataLast, on, base, addr, lenRem, act⟩ x) = [] := by
        simp only [wAck, wEn] at hw
        simp only [evOf, out, wEn]
        revert hw
        cases x.din <;> cases x.wR <;> simp
      refine ⟨r, ?_, by simp [e]⟩
      simp only [Rel, next, hw, Bool.false_eq_true, if_false]
      exact ⟨b, i, hl, ha, hr⟩

theorem base_lt (c : Cfg) (s : St) (x : In α) (h : s.base < 2 ^ c.aw) : (next c s x).base < 2 ^ c.aw := by
  unfold next
  cases x.baseW with
  | none => exact h
  | some v => exact Nat.mod_lt _ (Nat.two_pow_pos _)

theorem rel_all (c : Cfg) (hc : c.Ok) (h2 : 2 ≤ c.max ∨ c.n = 1) (s₀ : St) (hi : IsInit c s₀) (is : List (In α)) :
    ((machine (α := α) c).final s₀ is).base < 2 ^ c.aw ∧
    ∃ r, Rel c ((machine c).final s₀ is) r ∧
      evs ((machine c).trace s₀ is) ++ r = (starts c ((machine c).trace s₀ is)).flatMap (copy c) := by
  induction is using List.reverseRecOn with
  | nil => 
    refine ⟨?_, [], ?_, rfl⟩
    · show s₀.base < _
      rw [hi.base]; exact Nat.two_pow_pos _
    · show Rel c s₀ []
      simp [Rel, hi.ph]
  | append_singleton is x ih =>
    obtain ⟨hb, r, hr, he⟩ := ih
    obtain ⟨r', h1, h3⟩ := rel_step c hc h2 _ x r hr hb
    have ho : (machine c).outAfter s₀ is x = out c ((machine c).final s₀ is) x := rfl
    rw [Machine.trace_snoc, Machine.final_append, ho]
    refine ⟨base_lt c _ x hb, r', h1, ?_⟩
    have e1 : ∀ tr (e : In α × Out α), evs (tr ++ [e]) = evs tr ++ evOf e := by simp [evs]
    have e2 : ∀ tr (e : In α × Out α), starts c (tr ++ [e])
        = starts c tr ++ given (onBit c e.2 && idleBit c e.2) e.2.base := by simp [starts]
    have hbits := ctl_bits c hc.bytes ((machine c).final s₀ is) x
    rw [e1, e2, List.append_assoc, h3, List.flatMap_append, ← he, List.append_assoc]
    simp only [hbits.1, hbits.2]
    rfl

/-- The transfers are the copies which were started, in order; each consists of the bursts of at most `MAX_BUTST_LEN`
words at consecutive addresses from the base address, `DATA_LEN` words together, with `last` at the end of each burst.
If the component is idle then all copies are complete. -/
def TransfersOk (c : Cfg) : Prop :=
  ∀ (s₀ : St), IsInit c s₀ → ∀ (is : List (In Nat)) (x : In Nat),
    let tr := (machine c).trace s₀ is
    evs tr <+: (starts c tr).flatMap (copy c) ∧
    (idleBit c ((machine c).outAfter s₀ is x) = true → evs tr = (starts c tr).flatMap (copy c))

def nop : In Nat := ⟨none, none, true, true, none, true⟩
def run (n : Nat) : List (In Nat) :=
  { nop with baseW := some 64 } :: { nop with ctlW := some 1 } :: nop :: { nop with ctlW := some 0 } ::
    (List.range n).map fun i => { nop with din := some i }

def st0 (n : Nat) : St := ⟨.fullIdle, false, 0, 0, n, 0⟩

/-- With `MAX_BUTST_LEN = 1` the words are not terminated. -/
theorem transfers_fails : ¬ TransfersOk ⟨2, 1, 4, 32⟩ := by
  intro h
  have := (h (st0 2) ⟨rfl, rfl, rfl, rfl⟩ (run 1) nop).1
  revert this
  decide

theorem transfers_partial (c : Cfg) (hc : c.Ok) (h2 : 2 ≤ c.max ∨ c.n = 1) (s₀ : St) (hi : IsInit c s₀)
    (is : List (In α)) (x : In α) :
    let tr := (machine c).trace s₀ is
    evs tr <+: (starts c tr).flatMap (copy c) ∧
    (idleBit c ((machine c).outAfter s₀ is x) = true → evs tr = (starts c tr).flatMap (copy c)) := by
  intro tr
  obtain ⟨-, r, hr, he⟩ := rel_all c hc h2 s₀ hi is
  refine ⟨⟨r, he⟩, ?_⟩
  intro hidle
  have ho : (machine c).outAfter s₀ is x = out c ((machine c).final s₀ is) x := rfl
  rw [ho, (ctl_bits c hc.bytes _ x).2] at hidle
  have hp : ((machine (α := α) c).final s₀ is).ph = .fullIdle := by simpa using hidle
  simp only [Rel, hp] at hr
  rw [← he, hr, List.append_nil]

/-- The words on W are the words from the input, in order. -/
theorem data_forwarded (c : Cfg) (s₀ : St) (is : List (In α)) :
    wData ((machine c).trace s₀ is) = dins ((machine c).trace s₀ is) := by
  induction is using List.reverseRecOn with
  | nil => rfl
  | append_singleton is x ih =>
    have e1 : ∀ tr (e : In α × Out α), wData (tr ++ [e]) = wData tr ++ wData [e] := by simp [wData]
    have e2 : ∀ tr (e : In α × Out α), dins (tr ++ [e]) = dins tr ++ dins [e] := by simp [dins]
    rw [Machine.trace_snoc, e1, e2, ih]
    congr 1
    have ho : (machine c).outAfter s₀ is x = out c ((machine c).final s₀ is) x := rfl
    rw [ho]
    simp only [wData, dins, out]
    cases hd : x.din <;> cases wEn ((machine c).final s₀ is) <;> simp [hd]

/-- If the component is not idle, the bus is ready and there are input data then there is a transfer in each clock. -/
theorem progress (c : Cfg) (hb : 1 ≤ c.bytes) (s₀ : St) (is : List (In α)) (x : In α)
    (h : idleBit c ((machine c).outAfter s₀ is x) = false) (hx : x.awR = true ∧ x.wR = true ∧ x.din.isSome = true) :
    (evOf (x, (machine c).outAfter s₀ is x)).length = 1 := by
  have ho : (machine c).outAfter s₀ is x = out c ((machine c).final s₀ is) x := rfl
  rw [ho] at h ⊢
  rw [(ctl_bits c hb _ x).2] at h
  obtain ⟨d, hd⟩ := Option.isSome_iff_exists.1 hx.2.2
  simp only [evOf, out, wEn, hd, hx.1, hx.2.1]
  revert h
  cases ((machine (α := α) c).final s₀ is).ph <;> simp

example : Cfg.Ok ⟨5, 2, 4, 32⟩ ∧ IsInit ⟨5, 2, 4, 32⟩ (st0 5) := ⟨⟨by decide, by decide, by decide, by decide⟩, rfl, rfl, rfl, rfl⟩
example : evs ((machine ⟨3, 2, 4, 32⟩).trace (st0 3) (run 3)) =
    [.aw 64 1, .w false, .w true, .aw 72 0] ∧ starts ⟨3, 2, 4, 32⟩ ((machine ⟨3, 2, 4, 32⟩).trace (st0 3) (run 3)) = [64] ∧
    dins ((machine ⟨3, 2, 4, 32⟩).trace (st0 3) (run 3)) = [0, 1] := by decide

/-! ## C188 bits of the control register -/

/-- Bit 0 of the control register is on/off, bit 1 is idle (doc, lines 28-30): what was written to the bit 0 is read from
it, and bit 1 is set if nothing was started. -/
def ControlOk (c : Cfg) : Prop :=
  ∀ (s₀ : St), IsInit c s₀ → ∀ (is : List (In Nat)) (x y : In Nat) (v : Nat),
    (x.ctlW = some v → ((machine c).outAfter s₀ (is ++ [x]) y).ctl.testBit 0 = v.testBit 0) ∧
    ((∀ z ∈ is, z.ctlW = none) → ((machine c).outAfter s₀ is x).ctl.testBit 1 = true)

/-- For each width of the register the bits are not on these positions. -/
theorem control_fails (c : Cfg) (hb : 1 ≤ c.bytes) : ¬ ControlOk c := by
  intro h
  have := (h ⟨.fullIdle, false, 0, 0, c.n, 0⟩ ⟨rfl, rfl, rfl, rfl⟩ [] { nop with ctlW := some 1 } nop 1).1 rfl
  simp only [Machine.outAfter, Machine.final, machine, next, nop, out, List.nil_append,
    Bool.false_eq_true, if_true, if_false] at this
  revert this
  obtain ⟨k, hk⟩ : ∃ k, 8 * c.bytes = k + 3 := ⟨8 * c.bytes - 3, by omega⟩
  rw [hk, show k + 3 - 1 = k + 2 by omega, show k + 3 - 2 = k + 1 by omega]
  rw [if_pos (by decide), Nat.testBit_two_pow_add_gt (by omega)]
  simp

/-- The two most significant bits contain on/off and idle: on/off is the last written one, and it is idle if nothing was
started. -/
theorem control_partial (c : Cfg) (hb : 1 ≤ c.bytes) (s₀ : St) (hi : IsInit c s₀) (is : List (In α)) (x y : In α) :
    (∀ v, x.ctlW = some v → onBit c ((machine c).outAfter s₀ (is ++ [x]) y) = v.testBit 0) ∧
    (x.ctlW = none → onBit c ((machine c).outAfter s₀ (is ++ [x]) y) = onBit c ((machine c).outAfter s₀ is x)) ∧
    ((∀ z ∈ is, z.ctlW = none) → idleBit c ((machine c).outAfter s₀ is x) = true) := by
  have ho : ∀ l (z : In α), (machine c).outAfter s₀ l z = out c ((machine c).final s₀ l) z := fun _ _ => rfl
  have hn : (machine c).final s₀ (is ++ [x]) = next c ((machine c).final s₀ is) x := by
    rw [Machine.final_append]; rfl
  simp only [ho, (ctl_bits c hb _ _).1, (ctl_bits c hb _ _).2, hn]
  refine ⟨fun v hv => by simp [next, hv], fun hv => by simp [next, hv], fun hz => ?_⟩
  have : ((machine (α := α) c).final s₀ is).ph = .fullIdle ∧ ((machine (α := α) c).final s₀ is).on = false := by
    clear hn ho
    induction is using List.reverseRecOn with
    | nil => exact ⟨hi.ph, hi.on⟩
    | append_singleton is z ih =>
      have h1 := ih fun w hw => hz w (List.mem_append_left _ hw)
      rw [Machine.final_append]
      show (next c ((machine c).final s₀ is) z).ph = _ ∧ (next c ((machine c).final s₀ is) z).on = _
      simp [next, h1, hz z (by simp)]
  simp [this.1]

example : onBit ⟨3, 2, 4, 32⟩ ((machine ⟨3, 2, 4, 32⟩).outAfter (st0 3) [{ nop with ctlW := some 1 }] nop) = true := by decide

/-! ## C189 idle and the responses -/

/-- If the component is idle then the memory confirmed all bursts. -/
def IdleOk (c : Cfg) : Prop :=
  ∀ (s₀ : St), IsInit c s₀ → ∀ (is : List (In Nat)) (x : In Nat),
    let tr := (machine c).trace s₀ is
    idleBit c ((machine c).outAfter s₀ is x) = true →
      (evs tr).countP (fun e => match e with | .aw _ _ => true | _ => false) ≤ tr.countP (fun e => e.1.bV)

/-- The component is idle before the response for the last burst. -/
theorem idle_fails : ¬ IdleOk ⟨1, 16, 4, 32⟩ := by
  intro h
  have := h (st0 1) ⟨rfl, rfl, rfl, rfl⟩ ((run 1).map fun i => { i with bV := false }) nop
  revert this
  decide

/-- If the component is idle then at least all words of all bursts were accepted by the bus. -/
theorem idle_partial (c : Cfg) (hc : c.Ok) (h2 : 2 ≤ c.max ∨ c.n = 1) (s₀ : St) (hi : IsInit c s₀)
    (is : List (In α)) (x : In α) (h : idleBit c ((machine c).outAfter s₀ is x) = true) :
    (evs ((machine c).trace s₀ is)).countP (fun e => match e with | .aw _ _ => true | _ => false) =
      (evs ((machine c).trace s₀ is)).countP (fun e => match e with | .w l => l | _ => false) := by
  rw [(transfers_partial c hc h2 s₀ hi is x).2 h]
  generalize starts c ((machine c).trace s₀ is) = l
  have hbu : ∀ p, (burstEvs p).countP (fun e => match e with | .aw _ _ => true | _ => false) =
      (burstEvs p).countP (fun e => match e with | .w l => l | _ => false) := by
    intro p
    simp [burstEvs, List.countP_append, List.countP_replicate]
  have hcp : ∀ b, (copy c b).countP (fun e => match e with | .aw _ _ => true | _ => false) =
      (copy c b).countP (fun e => match e with | .w l => l | _ => false) := by
    intro b
    unfold copy
    generalize List.range (numBursts c) = r
    induction r with
    | nil => rfl
    | cons i r ih => rw [List.flatMap_cons, List.countP_append, List.countP_append, ih, hbu]
  induction l with
  | nil => rfl
  | cons b l ih => rw [List.flatMap_cons, List.countP_append, List.countP_append, ih, hcp]

example : idleBit ⟨1, 16, 4, 32⟩ ((machine ⟨1, 16, 4, 32⟩).outAfter (st0 1) (run 1) nop) = true ∧
    evs ((machine ⟨1, 16, 4, 32⟩).trace (st0 1) (run 1)) = [.aw 64 0, .w true] := by decide

/-! ## C190 bursts and 4 KiB pages -/

/-- No burst crosses a boundary of 4 KiB (AXI). -/
def PageOk (c : Cfg) (tr : List (In α × Out α)) : Prop :=
  ∀ a l, Ev.aw a l ∈ evs tr → a / 4096 = (a + (l + 1) * c.bytes - 1) / 4096

theorem page_fails : ¬ PageOk ⟨16, 16, 4, 32⟩ ((machine ⟨16, 16, 4, 32⟩).trace (st0 16)
    [{ nop with baseW := some 4092 }, { nop with ctlW := some 1 }, nop, nop]) := by
  intro h
  have := h 4092 15 (by decide)
  revert this
  decide

/-- It holds if the size of the longest burst divides 4096 and the base addresses are aligned to it. -/
theorem page_partial (c : Cfg) (hc : c.Ok) (h2 : 2 ≤ c.max ∨ c.n = 1) (s₀ : St) (hi : IsInit c s₀) (is : List (In α))
    (hd : c.max * c.bytes ∣ 4096) (ha : 12 ≤ c.aw)
    (hb : ∀ b ∈ starts c ((machine c).trace s₀ is), c.max * c.bytes ∣ b) :
    PageOk c ((machine c).trace s₀ is) := by
  intro a l hm
  obtain ⟨r, hr⟩ := (transfers_partial c hc h2 s₀ hi is ⟨none, none, true, true, none, true⟩).1
  have hm2 : Ev.aw a l ∈ (starts c ((machine c).trace s₀ is)).flatMap (copy c) := by
    rw [← hr]; exact List.mem_append_left _ hm
  rw [List.mem_flatMap] at hm2
  obtain ⟨b, hb1, hb2⟩ := hm2
  unfold copy at hb2
  rw [List.mem_flatMap] at hb2
  obtain ⟨i, hi1, hi2⟩ := hb2
  simp only [burstEvs, burst, List.mem_cons, List.mem_append, List.mem_replicate, Ev.aw.injEq, reduceCtorEq, and_false,
    List.not_mem_nil, or_false] at hi2
  obtain ⟨h3, h4⟩ := hi2
  have hi3 := (lt_num c hc i).1 (List.mem_range.1 hi1)
  have hp : c.max * c.bytes ∣ 2 ^ c.aw := Nat.dvd_trans hd (by
    rw [show (4096 : Nat) = 2 ^ 12 by rfl]; exact Nat.pow_dvd_pow 2 ha)
  have hda : c.max * c.bytes ∣ a := by
    rw [h3, Nat.dvd_mod_iff hp]
    exact Nat.dvd_add (hb b hb1) (Nat.dvd_mul_left _ _)
  have hle : (l + 1) * c.bytes ≤ c.max * c.bytes := Nat.mul_le_mul_right _ (by have := hc.max; omega)
  have hpos : 1 ≤ (l + 1) * c.bytes := Nat.mul_pos (by omega) hc.bytes
  generalize c.max * c.bytes = m at *
  generalize (l + 1) * c.bytes = z at *
  obtain ⟨q, rfl⟩ := hda
  obtain ⟨k, hk⟩ := hd
  have hm0 : 0 < m := by omega
  have hk0 : 0 < k := by
    rcases Nat.eq_zero_or_pos k with h | h
    · subst h; omega
    · exact h
  rw [hk, ← Nat.div_div_eq_div_mul, ← Nat.div_div_eq_div_mul, Nat.mul_div_cancel_left _ hm0]
  congr 1
  rw [show m * q + z - 1 = (z - 1) + m * q by omega, Nat.add_mul_div_left _ _ hm0, Nat.div_eq_of_lt (by omega)]
  omega

example : (64 : Nat) ∣ 4096 ∧ (∀ b ∈ starts ⟨33, 16, 4, 32⟩ ((machine ⟨33, 16, 4, 32⟩).trace (st0 33) (run 1)), 64 ∣ b) ∧
    starts ⟨33, 16, 4, 32⟩ ((machine ⟨33, 16, 4, 32⟩).trace (st0 33) (run 1)) = [64] := by decide

end Verif.StreamToMem
