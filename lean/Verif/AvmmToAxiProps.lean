import Verif.AvmmToAxi
import Verif.ArrayItemGetter
import Mathlib.Data.List.Induction

/-!
# Properties of `AvalonMm_to_Axi4` (C183 - C186)
-/

namespace Verif.AvmmToAxi

open Verif

variable {α : Type}

/-! ## C183 requests -/

/-- The AXI transfers for a sequence of Avalon requests, `k` words of a write burst remain. -/
def expect : Nat → List (Req α) → List (Ev α)
  | _, [] => []
  | k, .rd a n :: l => .ar a (n - 1) :: expect k l
  | 0, .wr a n d :: l => .aw a (n - 1) :: .w d (n == 1) :: expect (n - 1) l
  | k + 1, .wr _ _ d :: l => .w d (k == 0) :: expect k l

/-- the words of the write burst which remain after the requests -/
def left : Nat → List (Req α) → Nat
  | k, [] => k
  | k, .rd _ _ :: l => left k l
  | 0, .wr _ n _ :: l => left (n - 1) l
  | k + 1, .wr _ _ _ :: l => left k l

theorem expect_append (k : Nat) (l l' : List (Req α)) : expect k (l ++ l') = expect k l ++ expect (left k l) l' := by
  induction l generalizing k with
  | nil => simp [expect, left]
  | cons r l ih =>
    cases r with
    | rd a n => simp [expect, left, ih]
    | wr a n d => cases k <;> simp [expect, left, ih]

theorem left_append (k : Nat) (l l' : List (Req α)) : left k (l ++ l') = left (left k l) l' := by
  induction l generalizing k with
  | nil => simp [left]
  | cons r l ih =>
    cases r with
    | rd a n => simp [left, ih]
    | wr a n d => cases k <;> simp [left, ih]

/-- Avalon master: `read` and `write` are not set together, `burstCount` is at least 1 and fits to its width (it is 1
if there are no bursts) -/
def ReqOk (c : Cfg) (x : In α) : Prop :=
  ¬(x.read = true ∧ x.write = true) ∧ 1 ≤ x.bc ∧ (if c.multi then x.bc < 2 ^ c.bcW else x.bc = 1)

def rem (c : Cfg) (s : St) : Nat := if c.multi && s.vld then s.cnt + 1 else 0

theorem step (c : Cfg) (s : St) (x : In α) (h : ReqOk c x) :
    evOf (x, out c s x) = expect (rem c s) (reqs [(x, out c s x)]) ∧
    rem c (next c s x) = left (rem c s) (reqs [(x, out c s x)]) := by
  obtain ⟨h1, h2, h3⟩ := h
  have hl : len c x = x.bc - 1 := by
    unfold len
    cases hm : c.multi
    · rw [hm] at h3; simp at h3; simp [h3]
    · rw [hm] at h3
      simp only [if_true] at h3 ⊢
      rw [show x.bc + 2 ^ c.bcW - 1 = x.bc - 1 + 2 ^ c.bcW by omega, Nat.add_mod_right, Nat.mod_eq_of_lt (by omega)]
  have hc : 1 < x.bc → c.multi = true → (x.bc + 2 ^ c.bcW + 2 ^ c.bcW - 2) % 2 ^ c.bcW = x.bc - 2 := by
    intro hb hm
    rw [hm] at h3
    simp only [if_true] at h3
    rw [show x.bc + 2 ^ c.bcW + 2 ^ c.bcW - 2 = x.bc - 2 + 2 ^ c.bcW + 2 ^ c.bcW by omega, Nat.add_mod_right,
      Nat.add_mod_right, Nat.mod_eq_of_lt (by omega)]
  obtain ⟨read, write, addr, bc, wdata, arR, awR, wR, r, b⟩ := x
  obtain ⟨cnt, vld⟩ := s
  obtain ⟨multi, bcW⟩ := c
  simp only at h1 h2 h3 hl hc
  cases read
  · cases write
    · cases multi <;> simp [evOf, out, reqs, expect, left, rem, next]
    · cases multi
      · simp only [Bool.false_eq_true, if_false] at h3
        subst h3
        cases awR <;> cases wR <;> simp [evOf, out, reqs, expect, left, rem, next, len]
      · simp only [evOf, out, reqs, rem, next, hl]
        cases vld
        · cases awR <;> cases wR <;> simp [expect, left]
          by_cases hb : 1 < bc
          · simp only [hb, if_true, hc hb]; omega
          · have : bc = 1 := by omega
            subst this
            simp
        · by_cases hz : cnt = 0
          · subst hz
            cases awR <;> cases wR <;> simp [expect, left]
          · have h4 : (cnt != 0) = true := by simp [hz]
            cases awR <;> cases wR <;> simp [expect, left, hz] <;> omega
  · cases write
    · cases multi <;> cases arR <;> simp [evOf, out, reqs, expect, left, rem, next, hl]
    · simp at h1

/-- Each accepted request is forwarded as one transfer: reads as AR, the first word of a write burst as AW and W in
the same clock, other words as W, `last` is set exactly for the last word of each burst. -/
theorem requests_forwarded (c : Cfg) (is : List (In α)) (h : ∀ x ∈ is, ReqOk c x) :
    evs ((machine c).trace init is) = expect 0 (reqs ((machine c).trace init is)) := by
  have : evs ((machine c).trace init is) = expect 0 (reqs ((machine c).trace init is)) ∧
      rem c ((machine c).final init is) = left 0 (reqs ((machine c).trace init is)) := by
    induction is using List.reverseRecOn with
    | nil => simp [evs, reqs, expect, left, Machine.trace, Machine.final, rem, init]
    | append_singleton is x ih =>
      obtain ⟨ih1, ih2⟩ := ih fun y hy => h y (List.mem_append_left _ hy)
      have hs := step c ((machine c).final init is) x (h x (by simp))
      have ho : (machine c).outAfter init is x = out c ((machine c).final init is) x := rfl
      have e1 : ∀ tr (e : In α × Out α), evs (tr ++ [e]) = evs tr ++ evOf e := by simp [evs]
      have e2 : ∀ tr (e : In α × Out α), reqs (tr ++ [e]) = reqs tr ++ reqs [e] := by simp [reqs]
      rw [Machine.trace_snoc, Machine.final_append, e1, e2, expect_append, left_append, ← ih2, ih1, ho]
      exact ⟨by rw [hs.1], hs.2⟩
  exact this.1

/-- If the AXI slave is ready then the request is accepted. -/
theorem requests_accepted (c : Cfg) (is : List (In α)) (x : In α) (h : x.arR = true ∧ x.awR = true ∧ x.wR = true) :
    ((machine c).outAfter init is x).wait = false := by
  have ho : (machine c).outAfter init is x = out c ((machine c).final init is) x := rfl
  rw [ho]
  simp [out, h]

def nop : In Nat := ⟨false, false, 0, 1, 0, true, true, true, none, none⟩
def demo : List (In Nat) :=
  [{ nop with write := true, addr := 8, bc := 3, wdata := 5, awR := false },
   { nop with write := true, addr := 8, bc := 3, wdata := 5 },
   { nop with write := true, addr := 8, bc := 3, wdata := 6, awR := false },
   { nop with write := true, addr := 8, bc := 3, wdata := 7 },
   { nop with read := true, addr := 16, bc := 2 }]
example : (∀ x ∈ demo, ReqOk ⟨true, 3⟩ x) ∧ evs ((machine ⟨true, 3⟩).trace init demo) =
    [.aw 8 2, .w 5 false, .w 6 false, .w 7 true, .ar 16 1] := by
  refine ⟨?_, by decide⟩
  unfold ReqOk
  decide

/-! ## C184 responses -/

/-- Data are returned and responses are reported as they come from AXI: an error of a read (`SLVERR`, `DECERR`) is
reported together with the data, an error of a write with the write response. -/
def RespOk (c : Cfg) : Prop :=
  ∀ (is : List (In Nat)) (x : In Nat),
    let o := (machine c).outAfter init is x
    o.rdata = x.r.map Prod.fst ∧ o.wrespV = x.b.isSome ∧
    (∀ e, x.b = some e → e = 2 ∨ e = 3 → o.resp = some e) ∧
    (∀ d e, x.r = some (d, e) → e = 2 ∨ e = 3 → o.resp = some e)

theorem resp_fails (c : Cfg) : ¬ RespOk c := by
  intro h
  have := (h [] { nop with r := some (1, 2) }).2.2.2 1 2 rfl (Or.inl rfl)
  exact absurd this (by simp [Machine.outAfter, Machine.final, machine, out, nop])

/-- Everything except the errors of reads is reported; a write without an error is reported as such. -/
theorem resp_partial (c : Cfg) (is : List (In α)) (x : In α) :
    let o := (machine c).outAfter init is x
    o.rdata = x.r.map Prod.fst ∧ o.wrespV = x.b.isSome ∧
    (∀ e, x.b = some e → e = 2 ∨ e = 3 → o.resp = some e) ∧
    (∀ e, x.b = some e → e = 0 ∨ e = 1 → o.resp = some 0) := by
  have ho : (machine c).outAfter init is x = out c ((machine c).final init is) x := rfl
  simp only [ho, out]
  refine ⟨trivial, trivial, ?_, ?_⟩
  · rintro e he (rfl | rfl) <;> rw [he] <;> rfl
  · rintro e he (rfl | rfl) <;> rw [he] <;> rfl

example : ((machine ⟨true, 3⟩).outAfter init demo { nop with b := some 3, r := some (7, 0) }).resp = some 3 := by decide

/-! ## C185 `valid` does not wait for `ready` -/

def ValidIndep (c : Cfg) : Prop :=
  ∀ (is : List (In Nat)) (x : In Nat) (arR awR wR : Bool),
    let o := (machine c).outAfter init is x
    let o' := (machine c).outAfter init is { x with arR := arR, awR := awR, wR := wR }
    o.ar.isSome = o'.ar.isSome ∧ o.aw.isSome = o'.aw.isSome ∧ o.w.isSome = o'.w.isSome

theorem valid_fails (c : Cfg) : ¬ ValidIndep c := by
  intro h
  have := (h [] { nop with write := true } true true false).2.1
  revert this
  obtain ⟨m, w⟩ := c
  cases m <;> simp [Machine.outAfter, Machine.final, machine, out, nop, init]

/-- A slave which waits with `ready` for `valid` gets no write: AW is not offered without W ready and the first W is not
offered without AW ready. -/
theorem write_waits (c : Cfg) (is : List (In α)) (x : In α) (h : x.awR = false ∧ x.wR = false) :
    ((machine c).outAfter init is x).aw = none ∧
    ((∀ y ∈ is, y.awR = false ∧ y.wR = false) → ((machine c).outAfter init is x).w = none) := by
  have ho : (machine c).outAfter init is x = out c ((machine c).final init is) x := rfl
  rw [ho]
  constructor
  · simp [out, h]
  · intro hy
    have hv : ((machine (α := α) c).final init is).vld = false := by
      induction is using List.reverseRecOn with
      | nil => rfl
      | append_singleton is y ih =>
        rw [Machine.final_append]
        have h1 := ih rfl fun z hz => hy z (List.mem_append_left _ hz)
        have h2 := hy y (by simp)
        show (next c ((machine c).final init is) y).vld = false
        unfold next
        simp [h1, h2]
    simp only [out, hv, h]
    cases c.multi <;> cases x.write <;> simp

/-- For AR the claim holds. -/
theorem valid_partial (c : Cfg) (is : List (In α)) (x : In α) (arR awR wR : Bool) (h : ¬(x.read = true ∧ x.write = true)) :
    ((machine c).outAfter init is x).ar =
      ((machine c).outAfter init is { x with arR := arR, awR := awR, wR := wR }).ar := by
  have ho : ∀ y : In α, (machine c).outAfter init is y = out c ((machine c).final init is) y := fun _ => rfl
  rw [ho, ho]
  revert h
  simp only [out, len]
  cases x.read <;> cases x.write <;> simp

example : ((machine ⟨true, 3⟩).outAfter init demo { nop with read := true, addr := 4, arR := false }).ar = some (4, 0) ∧
    (∀ y ∈ [({ nop with write := true, awR := false, wR := false } : In Nat)], y.awR = false ∧ y.wR = false) := by decide

/-! ## C186 width of `burstCount` -/

/-- `burstCount` can contain each length of a burst up to `MAX_BURST`. -/
def WidthOk (maxBurst : Nat) : Prop := ∀ n, 1 ≤ n → n ≤ maxBurst → n < 2 ^ burstCountWidth maxBurst

/-- For a power of two greater than 1 it can not. -/
theorem width_fails (k : Nat) (hk : 1 ≤ k) : ¬ WidthOk (2 ^ k) := by
  intro h
  have := h (2 ^ k) Nat.one_le_two_pow (Nat.le_refl _)
  rw [burstCountWidth, ArrayItemGetter.log2ceil_pow hk] at this
  omega

theorem width_partial (m : Nat) (h : ∀ k, 1 ≤ k → m ≠ 2 ^ k) : WidthOk m := by
  intro n _ hn
  have h1 := le_two_pow_log2ceil m
  have h2 := h (log2ceil m) (log2ceil_pos m)
  unfold burstCountWidth
  omega

example : WidthOk 3 := width_partial 3 fun k hk h => by
  have := Nat.pow_le_pow_right (n := 2) (by omega) hk
  rcases Nat.lt_or_ge k 2 with h1 | h1
  · have : k = 1 := by omega
    subst this
    simp at h
  · have := Nat.pow_le_pow_right (n := 2) (by omega) h1
    omega

end Verif.AvmmToAxi
