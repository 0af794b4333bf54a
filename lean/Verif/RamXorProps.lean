import Verif.RamXor
/-!
# Property C34 of `RamXorSingleClock`
-/
namespace Verif.RamXor

/-- Value on read port `k` in the cycle (with inputs `i`) after the history `cs`. -/
abbrev readAfter (n : Nat) (s0 : St) (cs : List In) (i : In) (k : Nat) : Nat :=
  (machine n).outAfter s0 cs i k

/-- Nobody writes address `a` in cycle `c`. -/
def Calm (n : Nat) (c : In) (a : Nat) : Prop := ∀ x, x < n → ¬ Writes c x a

theorem read_spec {n : Nat} (wd rd : Nat → Nat → Nat) (ad da : Nat → Nat) (pre : List In)
    (c i : In) (k : Nat) (hsep : Sep n pre)
    (hen : (c.r k).en = true)
    (hlast : ∀ l, pre.getLast? = some l → Calm n l (c.r k).addr)
    (hnext : Calm n c (i.r k).addr) :
    readAfter n (init wd rd ad da) (pre ++ [c]) i k
      = spec n (fun _ => 0) pre (c.r k).addr := by
  obtain ⟨bank, h⟩ := run_inv pre _ _ _ (init_inv n wd rd ad da) hsep
    (by intro c _ x y _ _ _ h; cases h)
  unfold readAfter Machine.outAfter
  rw [Machine.final_append]
  show out n (next n ((machine n).final (init wd rd ad da) pre) c) i k = _
  have hcalm : ∀ x, x < n → ((machine n).final (init wd rd ad da) pre).en x = true →
      ((machine n).final (init wd rd ad da) pre).ad x ≠ (c.r k).addr := by
    rcases List.eq_nil_or_concat pre with hp | ⟨p, l, hp⟩
    · subst hp; intro x _ h; cases h
    · rw [List.concat_eq_append] at hp
      intro x hx he ha
      have hl := hlast l (by rw [hp]; simp)
      rw [hp, Machine.final_append] at he ha
      exact hl x hx ⟨he, ha⟩
  rw [h.calm _ hcalm]
  unfold out
  apply xorAll_congr
  intro x hx
  have h1 : ((c.w x).en && (c.w x).addr == (i.r k).addr) = false := by
    have := hnext x hx
    simpa [Writes] using this
  show (if (c.w x).en && (c.w x).addr == (i.r k).addr then _
    else if (c.r k).en then _ else _) = _
  rw [h1, hen, h.rm_eq]
  rfl

/-- **C34** (`_partial`) A read in cycle `c` returns the value written last: cycle `w` wrote it through
port `p` and the cycles `post` did not write the address.
Restrictions, all of them necessary (see the counterexamples below): different ports do not write one
address in the same or in consecutive cycles (`Sep`); at least one cycle passes between the write and the
read; the address presented on the read port in the next cycle is not written in the cycle of the read. -/
theorem ramXor_read_last_write_partial {n : Nat} (wd rd : Nat → Nat → Nat) (ad da : Nat → Nat)
    (pre post : List In) (w c i : In) (p k : Nat) (hp : p < n)
    (hsep : Sep n (pre ++ [w] ++ post)) (hw : Writes w p (c.r k).addr)
    (hpost : ∀ d ∈ post, Calm n d (c.r k).addr) (hgap : post ≠ [])
    (hen : (c.r k).en = true) (hnext : Calm n c (i.r k).addr) :
    readAfter n (init wd rd ad da) (pre ++ [w] ++ post ++ [c]) i k = (w.w p).din := by
  rw [read_spec wd rd ad da _ c i k hsep hen _ hnext]
  · rw [spec_append, spec_append, spec_keep post _ hpost]
    have hs : ∀ x y, x < n → y < n → x ≠ y → ∀ a, Writes w x a → ¬ Writes w y a := by
      have : ∀ (l : List In), Sep n (l ++ [w] ++ post) →
          ∀ x y, x < n → y < n → x ≠ y → ∀ a, Writes w x a → ¬ Writes w y a := by
        intro l
        induction l with
        | nil => intro h; exact h.1
        | cons d l ih => intro h; exact ih h.2.2
      exact this pre hsep
    exact specNext_write hp hw fun x hx e hx2 => hs x p hx hp e _ hx2 hw
  · intro l hl
    rw [List.append_assoc, List.getLast?_append, List.getLast?_append] at hl
    cases hg : post.getLast? with
    | none => exact absurd (List.getLast?_eq_none_iff.1 hg) hgap
    | some q =>
      rw [hg] at hl
      simp at hl
      subst hl
      exact hpost _ (List.mem_of_getLast? hg)

/-- **C34** An address never written reads as 0. -/
theorem ramXor_read_initial_partial {n : Nat} (wd rd : Nat → Nat → Nat) (ad da : Nat → Nat)
    (pre : List In) (c i : In) (k : Nat) (hsep : Sep n pre)
    (hpre : ∀ d ∈ pre, Calm n d (c.r k).addr)
    (hen : (c.r k).en = true) (hnext : Calm n c (i.r k).addr) :
    readAfter n (init wd rd ad da) (pre ++ [c]) i k = 0 := by
  rw [read_spec wd rd ad da _ c i k hsep hen
    (fun l hl => hpre l (List.mem_of_getLast? hl)) hnext, spec_keep pre _ hpre]

/-! ## Violations -/

def idleW : WPort := ⟨false, 0, 0⟩
/-- cycle with given accesses on write ports 0, 1 and read port 0 -/
def cyc (w0 w1 : WPort) (r : RPort) : In := ⟨fun i => if i = 0 then w0 else if i = 1 then w1 else idleW, fun _ => r⟩
def wr (a d : Nat) : WPort := ⟨true, a, d⟩
def rdp (a : Nat) : RPort := ⟨true, a⟩
def s0 : St := init (fun _ _ => 0) (fun _ _ => 0) (fun _ => 0) (fun _ => 0)
def idle : In := cyc idleW idleW ⟨false, 0⟩

/-- The full statement: a read returns the data of the last write whatever the gap is and whatever is
written elsewhere. -/
def Full (n : Nat) : Prop :=
  ∀ (pre post : List In) (w c i : In) (p k : Nat), p < n → Writes w p (c.r k).addr →
    (∀ x, x < n → x ≠ p → ¬ Writes w x (c.r k).addr) →
    (∀ d ∈ post, Calm n d (c.r k).addr) → Calm n c (c.r k).addr → (c.r k).en = true →
    readAfter n s0 (pre ++ [w] ++ post ++ [c]) i k = (w.w p).din

theorem calm_idle (n a : Nat) : Calm n idle a := by
  intro x _ h
  have h1 := h.1
  simp only [idle, cyc] at h1
  revert h1
  split
  · intro h; cases h
  · split
    · intro h; cases h
    · intro h; cases h

/-- Port 1 writes the address one cycle after port 0: the read returns neither value. -/
theorem ramXor_consecutive_writes_corrupt :
    readAfter 2 s0 [cyc (wr 5 1) idleW (rdp 0), cyc idleW (wr 5 2) (rdp 0), idle, idle,
      cyc idleW idleW (rdp 5)] idle 0 = 3 := by decide

/-- The read in the cycle just after the write returns the old value. -/
theorem ramXor_stale_read :
    readAfter 2 s0 [cyc (wr 5 1) idleW (rdp 0), cyc idleW idleW (rdp 5)] idle 0 = 0 := by decide

/-- Address 5 holds 7; it is read while address 6 is written and the next read address is 6: the read
returns a mix of both. -/
theorem ramXor_forward_wrong_address :
    readAfter 2 s0 [cyc (wr 5 7) idleW (rdp 0), idle, idle, cyc idleW (wr 6 8) (rdp 5)]
      (cyc idleW idleW (rdp 6)) 0 = 15 := by decide

/-- **C34 is violated.** -/
theorem ramXor_not_full : ¬ Full 2 := by
  intro h
  have := h [cyc (wr 5 1) idleW (rdp 0)] [idle, idle] (cyc idleW (wr 5 2) (rdp 0))
    (cyc idleW idleW (rdp 5)) idle 1 0 (by decide) ⟨rfl, rfl⟩
    (by
      intro x hx e hw
      have : x = 0 := by omega
      subst this
      have := hw.1
      cases this)
    (by
      intro d hd
      simp at hd
      subst hd
      exact calm_idle _ _)
    (by
      intro x hx hw
      have h1 := hw.1
      revert h1
      show ¬ ((if x = 0 then idleW else if x = 1 then idleW else idleW).en = true)
      split
      · decide
      · split <;> decide)
    rfl
  revert this
  decide

-- non-vacuity of the partial theorem: a history with writes of both ports to one address
example : Sep 2 [cyc (wr 5 1) idleW (rdp 0), idle, cyc idleW (wr 5 2) (rdp 0), idle] := by
  refine ⟨?_, ?_, ?_, ?_, ?_, ?_, ?_, ?_, ?_⟩ <;>
    first
      | trivial
      | (intro x y hx hy e a h1 h2
         have : (x = 0 ∧ y = 1) ∨ (x = 1 ∧ y = 0) := by omega
         rcases this with ⟨rfl, rfl⟩ | ⟨rfl, rfl⟩
         all_goals first | (have := h1.1; cases this; done) | (have := h2.1; cases this; done))

example : readAfter 2 s0 [cyc (wr 5 1) idleW (rdp 0), idle, cyc idleW (wr 5 2) (rdp 0), idle,
    cyc idleW idleW (rdp 5)] idle 0 = 2 := by decide

end Verif.RamXor
