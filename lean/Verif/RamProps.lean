import Verif.Ram
/-!
# Properties C32, C33 of `RamSingleClock`
-/
namespace Verif.Ram

universe u
variable {β : Type u}

/-- Value on `dout` of port `k` in the cycle after the history `is`. -/
abbrev doutAfter (undef : β) (n : Nat) (cfg : Nat → Cfg) (s0 : St β) (is : List (Nat → Port β))
    (i : Nat → Port β) (k j : Nat) : β :=
  (machine undef n cfg).outAfter s0 is i k j

/-- No port writes bit `j` of word `a` in the cycle. -/
def NoWrite (n : Nat) (cfg : Nat → Cfg) (i : Nat → Port β) (a j : Nat) : Prop :=
  ∀ k, k < n → writes (cfg k) (i k) a j = false

theorem mem_keep (undef : β) (n : Nat) (cfg : Nat → Cfg) (a j : Nat) (is : List (Nat → Port β))
    (h : ∀ i ∈ is, NoWrite n cfg i a j) (s : St β) :
    ((machine undef n cfg).final s is).mem a j = s.mem a j := by
  induction is generalizing s with
  | nil => rfl
  | cons i is ih =>
    rw [Machine.final_cons, ih (fun i hi => h i (List.mem_cons_of_mem _ hi))]
    exact memNext_keep cfg i s.mem a j n (h i List.mem_cons_self)

/-- A read returns the memory. -/
theorem dout_read (undef : β) (n : Nat) (cfg : Nat → Cfg) (s0 : St β) (is : List (Nat → Port β))
    (rd i : Nat → Port β) (k j : Nat) (hR : (cfg k).hasR = true) (hen : (rd k).en = true) :
    doutAfter undef n cfg s0 (is ++ [rd]) i k j
      = ((machine undef n cfg).final s0 is).mem (rd k).addr j := by
  unfold doutAfter Machine.outAfter
  rw [Machine.final_append]
  show (next undef n cfg _ rd).dout k j = _
  simp [next, hR, hen]

/-- **C32** A read through port `k` returns in bit `j` the bit of the last write which had the
corresponding (byte) write enable: the write was done through port `p` in the cycle `w`, no other port
wrote the same bit in that cycle and nothing wrote it in the cycles `post` which follow. -/
theorem ram_read_last_write (undef : β) (n : Nat) (cfg : Nat → Cfg) (s0 : St β)
    (pre post : List (Nat → Port β)) (w rd i : Nat → Port β) (p k j : Nat)
    (hp : p < n) (hW : (cfg p).hasW = true) (hwen : (w p).en = true)
    (hwe : if (cfg p).hasBE then (w p).we (j / 8) = true
      else (cfg p).hasR = true → (w p).we 0 = true)
    (hsingle : ∀ q, q < n → q ≠ p → writes (cfg q) (w q) (w p).addr j = false)
    (hpost : ∀ c ∈ post, NoWrite n cfg c (w p).addr j)
    (hR : (cfg k).hasR = true) (hren : (rd k).en = true) (haddr : (rd k).addr = (w p).addr) :
    doutAfter undef n cfg s0 (pre ++ [w] ++ post ++ [rd]) i k j = (w p).din j := by
  rw [dout_read undef n cfg s0 _ rd i k j hR hren, haddr, Machine.final_append,
    mem_keep undef n cfg _ j post hpost, Machine.final_append]
  have hw : writes (cfg p) (w p) (w p).addr j = true := by
    unfold writes weBit
    rw [hW, hwen]
    cases hbe : (cfg p).hasBE
    · rw [hbe] at hwe
      simp only [Bool.false_eq_true, if_false] at hwe
      cases hr : (cfg p).hasR
      · simp
      · simp [hwe hr]
    · rw [hbe] at hwe
      simp only [if_true] at hwe
      simp [hwe]
  exact memNext_write cfg w _ _ j p n hp hw hsingle

/-- **C32** If nothing wrote the bit yet, the initial content is read. -/
theorem ram_read_initial (undef : β) (n : Nat) (cfg : Nat → Cfg) (s0 : St β)
    (is : List (Nat → Port β)) (rd i : Nat → Port β) (k j : Nat)
    (his : ∀ c ∈ is, NoWrite n cfg c (rd k).addr j)
    (hR : (cfg k).hasR = true) (hren : (rd k).en = true) :
    doutAfter undef n cfg s0 (is ++ [rd]) i k j = s0.mem (rd k).addr j := by
  rw [dout_read undef n cfg s0 _ rd i k j hR hren, mem_keep undef n cfg _ j is his]

/-- A write with the enable of byte `j / 8` cleared does not write bit `j`. -/
theorem be_protects (c : Cfg) (p : Port β) (a j : Nat) (hbe : c.hasBE = true)
    (hwe : p.we (j / 8) = false) : writes c p a j = false := by
  simp [writes, weBit, hbe, hwe]

/-- A read only port holds its output while it is not enabled. -/
theorem ram_dout_holds (undef : β) (n : Nat) (cfg : Nat → Cfg) (s0 : St β)
    (is : List (Nat → Port β)) (c i i' : Nat → Port β) (k j : Nat)
    (hR : (cfg k).hasR = true) (hW : (cfg k).hasW = false) (hen : (c k).en = false) :
    doutAfter undef n cfg s0 (is ++ [c]) i k j = doutAfter undef n cfg s0 is i' k j := by
  unfold doutAfter Machine.outAfter
  rw [Machine.final_append]
  show (next undef n cfg _ c).dout k j = _
  simp [next, hR, hW, hen, machine]

/-- **C33** A memory built of blocks of `M = MAX_BLOCK_DATA_WIDTH` bits shows the same data on every
port in every cycle as the unsplit memory. (`M % 8 = 0` with byte enables is asserted by the code,
mem/ram.py:94.) -/
theorem ram_split_equiv (undef : β) (n : Nat) (cfg : Nat → Cfg) {DW M : Nat} (hpos : 0 < M)
    (hM : ∀ k, (cfg k).hasBE = true → M % 8 = 0) (s0 : St β) (is : List (Nat → Port β))
    (i : Nat → Port β) (k j : Nat) (hj : j < DW) :
    (splitMachine undef n cfg DW M).outAfter (sliceSt M s0) is i k j
      = doutAfter undef n cfg s0 is i k j := by
  have key : ∀ (is : List (Nat → Port β)) (s : St β) (t : Nat → St β), Agree DW M s t →
      Agree DW M ((machine undef n cfg).final s is)
        ((splitMachine undef n cfg DW M).final t is) := by
    intro is
    induction is with
    | nil => intro s t h; exact h
    | cons i is ih =>
      intro s t h
      exact ih _ _ (agree_next undef n cfg hM s t h i)
  have h := key is s0 (sliceSt M s0) (fun c j _ _ => ⟨fun _ => rfl, fun _ => rfl⟩)
  have := concat_spec hpos
    (fun c => ((splitMachine undef n cfg DW M).final (sliceSt M s0) is c).dout k) undef
    (((machine undef n cfg).final s0 is).dout k)
    (fun c j h1 h2 => (h c j h1 h2).2 k) (childCnt DW M) 0 j (by omega)
    (by rw [Nat.zero_add]; exact le_childCnt hpos)
  rw [Nat.zero_mul, Nat.zero_add] at this
  exact this

/-- The widths of blocks: all are positive, at most `M`, and together `DW`. -/
theorem childWidth_sum {DW M : Nat} (hpos : 0 < M) :
    (∀ c, c < childCnt DW M → 0 < childWidth DW M c ∧ childWidth DW M c ≤ M) ∧
    ((List.range (childCnt DW M)).map (childWidth DW M)).sum = DW := by
  have hlt : ∀ c, c < childCnt DW M → c * M < DW := by
    intro c hc
    unfold childCnt at hc
    have h1 : (c + 1) * M ≤ (DW + M - 1) / M * M := Nat.mul_le_mul_right M hc
    have h2 := Nat.div_mul_le_self (DW + M - 1) M
    rw [Nat.succ_mul] at h1
    omega
  refine ⟨?_, ?_⟩
  · intro c hc
    have := hlt c hc
    unfold childWidth; omega
  · have key : ∀ m, ((List.range m).map (childWidth DW M)).sum = min DW (m * M) := by
      intro m
      induction m with
      | zero => simp
      | succ m ih =>
        rw [List.range_succ, List.map_append, List.sum_append, ih]
        simp only [List.map_cons, List.map_nil, List.sum_cons, List.sum_nil, childWidth]
        rw [Nat.succ_mul]; omega
    rw [key]
    have := le_childCnt (DW := DW) hpos
    omega

/-! ## Non-vacuity -/

def rwBE : Cfg := ⟨true, true, true⟩
def acc (a : Nat) (we : Nat → Bool) (d : Nat) : Nat → Port Bool :=
  fun _ => ⟨true, a, we, fun j => d.testBit j⟩

-- byte 1 is written, then byte 0; a read returns both
example : (List.range 16).map (doutAfter false 1 (fun _ => rwBE) ⟨fun _ _ => false, fun _ _ => false⟩
    [acc 3 (fun k => k == 1) 0xABCD, acc 3 (fun k => k == 0) 0x1234, acc 3 (fun _ => false) 0]
    (acc 0 (fun _ => false) 0) 0)
    = (List.range 16).map (0xAB34).testBit := by decide

-- hypotheses of `ram_read_last_write` are met by the write of byte 1 above
example : ∀ c ∈ [acc 3 (fun k => k == 0) 0x1234], NoWrite 1 (fun _ => rwBE) c 3 9 := by
  intro c hc k hk
  simp at hc
  subst hc
  exact be_protects _ _ _ _ rfl rfl

-- 20 bits in blocks of 8: the last block has 4 bits
example : childCnt 20 8 = 3 ∧ childWidth 20 8 2 = 4 := by decide

end Verif.Ram
