import Verif.Common
/-!
# Model of `RamSingleClock` (hwtLib/mem/ram.py)

A word is a function from bit index to bit value; the type `β` of bit values is arbitrary so it can
contain an undefined value. All ports share one clock; in a clock edge every port reads the contents
before the edge (signal semantics of HDL processes). If several ports write the same bit in the same
edge the port with the highest index wins in the model; theorems exclude such a collision.
-/
namespace Verif.Ram

universe u
variable {β : Type u}

/-- Port configuration, mem/ram.py:45-66, `HAS_R`, `HAS_W`, `HAS_BE`. -/
structure Cfg where
  hasR : Bool
  hasW : Bool
  hasBE : Bool

/-- Inputs of a port. With `HAS_BE` `we k` is the enable of byte `k`, otherwise only `we 0` is used. -/
structure Port (β : Type u) where
  en : Bool
  addr : Nat
  we : Nat → Bool
  din : Nat → β

/-- mem/ram.py:91-117 `mem_write`: is bit `j` of the addressed word written by an enabled port? -/
def weBit (c : Cfg) (p : Port β) (j : Nat) : Bool :=
  if c.hasBE then p.we (j / 8) else if c.hasR && c.hasW then p.we 0 else true

/-- Does the port write bit `j` of word `a` in this clock edge (mem/ram.py:119-143)? -/
def writes (c : Cfg) (p : Port β) (a j : Nat) : Bool :=
  c.hasW && p.en && p.addr == a && weBit c p j

/-- Memory and output registers of ports. -/
structure St (β : Type u) where
  mem : Nat → Nat → β
  dout : Nat → Nat → β

/-- Memory after ports `0..n-1` wrote. -/
def memNext (cfg : Nat → Cfg) (i : Nat → Port β) (mem : Nat → Nat → β) : Nat → Nat → Nat → β
  | 0 => mem
  | n + 1 => fun a j =>
    if writes (cfg n) (i n) a j then (i n).din j else memNext cfg i mem n a j

/-- Clock edge, mem/ram.py:119-143, :183-184. `undef` is the value driven by `dout(None)`. -/
def next (undef : β) (n : Nat) (cfg : Nat → Cfg) (s : St β) (i : Nat → Port β) : St β where
  mem := memNext cfg i s.mem n
  dout k j :=
    if (cfg k).hasR && (cfg k).hasW then
      if (i k).en then s.mem (i k).addr j else undef
    else if (cfg k).hasR then
      if (i k).en then s.mem (i k).addr j else s.dout k j
    else s.dout k j

/-- The outputs are the registers `dout`. -/
def machine (undef : β) (n : Nat) (cfg : Nat → Cfg) : Machine (St β) (Nat → Port β) (Nat → Nat → β) :=
  ⟨fun s _ => s.dout, next undef n cfg⟩

/-! ## Splitting to narrower memories -/

/-- Number of children, mem/ram.py:73-81. -/
def childCnt (DW M : Nat) : Nat := (DW + M - 1) / M

/-- `DATA_WIDTH` of child `c`, mem/ram.py:77 (in the loop `DW` is the remaining width). -/
def childWidth (DW M c : Nat) : Nat := min (DW - c * M) M

/-- Inputs of the port of child `c`, mem/ram.py:154-164. Bits above the width of the child do not exist;
the model leaves them out of the slice by construction of the concatenation below. -/
def childPort (cfg : Cfg) (M c : Nat) (p : Port β) : Port β where
  en := p.en
  addr := p.addr
  we := if cfg.hasBE then fun k => p.we (c * (M / 8) + k) else p.we
  din := fun j => p.din (c * M + j)

/-- `Concat(*reversed(dout))` where `w c` is the width of part `c`, least significant part first
(mem/ram.py:169): bit `j` of the concatenation of parts `c, c+1, ...` (`fuel` many). -/
def concat (w : Nat → Nat) (part : Nat → Nat → β) (undef : β) : Nat → Nat → Nat → β
  | _, 0, _ => undef
  | c, fuel + 1, j => if j < w c then part c j else concat w part undef (c + 1) fuel (j - w c)

/-- The split memory: children side by side, mem/ram.py:145-173. -/
def splitMachine (undef : β) (n : Nat) (cfg : Nat → Cfg) (DW M : Nat) :
    Machine (Nat → St β) (Nat → Port β) (Nat → Nat → β) where
  out s _ := fun k => concat (childWidth DW M) (fun c => (s c).dout k) undef 0 (childCnt DW M)
  next s i := fun c => next undef n cfg (s c) fun k => childPort (cfg k) M c (i k)

/-- Slice `c` of a memory with words of arbitrary width. -/
def sliceSt (M : Nat) (s : St β) (c : Nat) : St β where
  mem a j := s.mem a (c * M + j)
  dout k j := s.dout k (c * M + j)

/-! ## Lemmas -/

/-- Agreement of child `c` with its slice on the bits which exist in the child. -/
def Agree (DW M : Nat) (s : St β) (t : Nat → St β) : Prop :=
  ∀ c j, j < M → c * M + j < DW →
    (∀ a, (t c).mem a j = s.mem a (c * M + j)) ∧ (∀ k, (t c).dout k j = s.dout k (c * M + j))

theorem writes_child (cfg : Cfg) {M : Nat} (hM : cfg.hasBE = true → M % 8 = 0)
    (p : Port β) (c a j : Nat) :
    writes cfg (childPort cfg M c p) a j = writes cfg p a (c * M + j) := by
  unfold writes childPort weBit
  cases hbe : cfg.hasBE
  · simp
  · have hm := hM hbe
    have e : (c * M + j) / 8 = c * (M / 8) + j / 8 := by
      obtain ⟨m, rfl⟩ : ∃ m, M = 8 * m := ⟨M / 8, by omega⟩
      rw [Nat.mul_div_cancel_left m (by decide), show c * (8 * m) = 8 * (c * m) by
        rw [Nat.mul_left_comm], Nat.mul_add_div (by decide)]
    simp [e]

theorem memNext_child (cfg : Nat → Cfg) {M : Nat} (hM : ∀ k, (cfg k).hasBE = true → M % 8 = 0)
    (i : Nat → Port β) (mem mem' : Nat → Nat → β) (c j : Nat)
    (h : ∀ a, mem' a j = mem a (c * M + j)) (n a : Nat) :
    memNext cfg (fun k => childPort (cfg k) M c (i k)) mem' n a j
      = memNext cfg i mem n a (c * M + j) := by
  induction n with
  | zero => exact h a
  | succ n ih =>
    simp only [memNext]
    rw [writes_child _ (hM n), ih]
    rfl

theorem agree_next (undef : β) (n : Nat) (cfg : Nat → Cfg) {DW M : Nat}
    (hM : ∀ k, (cfg k).hasBE = true → M % 8 = 0) (s : St β) (t : Nat → St β)
    (h : Agree DW M s t) (i : Nat → Port β) :
    Agree DW M (next undef n cfg s i) ((splitMachine undef n cfg DW M).next t i) := by
  intro c j hj hlt
  obtain ⟨h1, h2⟩ := h c j hj hlt
  refine ⟨?_, ?_⟩
  · intro a
    exact memNext_child cfg hM i s.mem (t c).mem c j h1 n a
  · intro k
    show (next undef n cfg (t c) _).dout k j = (next undef n cfg s i).dout k (c * M + j)
    unfold next
    simp only [childPort, h1, h2]

theorem concat_spec {DW M : Nat} (hM : 0 < M) (part : Nat → Nat → β) (undef : β) (f : Nat → β)
    (h : ∀ c j, j < M → c * M + j < DW → part c j = f (c * M + j)) :
    ∀ fuel c j, c * M + j < DW → DW ≤ (c + fuel) * M →
      concat (childWidth DW M) part undef c fuel j = f (c * M + j) := by
  intro fuel
  induction fuel with
  | zero => intro c j h1 h2; simp at h2; omega
  | succ fuel ih =>
    intro c j h1 h2
    unfold concat
    have hcw : childWidth DW M c = min (DW - c * M) M := rfl
    rcases Nat.lt_or_ge j M with hj | hj
    · rw [if_pos (by omega)]
      exact h c j hj h1
    · have hw : childWidth DW M c = M := by omega
      rw [hw, if_neg (by omega)]
      have e : (c + 1) * M + (j - M) = c * M + j := by rw [Nat.succ_mul]; omega
      rw [ih (c + 1) (j - M) (by omega) (by
        rw [show c + 1 + fuel = c + (fuel + 1) by omega]; exact h2), e]

theorem le_childCnt {DW M : Nat} (hM : 0 < M) : DW ≤ childCnt DW M * M := by
  unfold childCnt
  have h1 := Nat.div_add_mod (DW + M - 1) M
  have h2 := Nat.mod_lt (DW + M - 1) hM
  rw [Nat.mul_comm] at h1
  omega

/-- memory bit not written by any port keeps its value -/
theorem memNext_keep (cfg : Nat → Cfg) (i : Nat → Port β) (mem : Nat → Nat → β) (a j : Nat) :
    ∀ n, (∀ k, k < n → writes (cfg k) (i k) a j = false) → memNext cfg i mem n a j = mem a j := by
  intro n
  induction n with
  | zero => intro _; rfl
  | succ n ih =>
    intro h
    simp only [memNext]
    rw [h n (by omega)]
    exact ih fun k hk => h k (by omega)

/-- memory bit written by a single port -/
theorem memNext_write (cfg : Nat → Cfg) (i : Nat → Port β) (mem : Nat → Nat → β) (a j p : Nat) :
    ∀ n, p < n → writes (cfg p) (i p) a j = true →
      (∀ k, k < n → k ≠ p → writes (cfg k) (i k) a j = false) →
      memNext cfg i mem n a j = (i p).din j := by
  intro n
  induction n with
  | zero => intro h; omega
  | succ n ih =>
    intro hp hw ho
    simp only [memNext]
    by_cases e : n = p
    · subst e; rw [hw]; rfl
    · rw [ho n (by omega) e]
      exact ih (by omega) hw fun k hk => ho k (by omega)

end Verif.Ram
