import Verif.Cam
/-!
# Properties C35, C36 of `Cam`
-/
namespace Verif.Cam

/-- Does cycle `c` write cell `k`? -/
def WritesCell (c : In) (k : Nat) : Prop := c.wVld = true ∧ c.wAddr = k

/-- The address on the port fits to the port. -/
def Fits (items : Nat) (c : In) : Prop := c.wAddr < 2 ^ addrWidth items

theorem next_ne {u : Bool} {items : Nat} {mem : Nat → Nat} {c : In} {k : Nat} (hf : Fits items c)
    (h : ¬ WritesCell c k) : next u items mem c k = mem k := by
  unfold next
  cases hv : c.wVld
  · rfl
  · show upd _ _ _ k = _
    rw [Nat.mod_eq_of_lt hf, upd_ne]
    intro e
    exact h ⟨hv, e.symm⟩

theorem keep {u : Bool} {items k : Nat} (cs : List In) : ∀ mem : Nat → Nat,
    (∀ c ∈ cs, Fits items c ∧ ¬ WritesCell c k) → (machine u items).final mem cs k = mem k := by
  induction cs with
  | nil => intro mem _; rfl
  | cons c cs ih =>
    intro mem h
    rw [Machine.final_cons, ih _ fun d hd => h d (List.mem_cons_of_mem _ hd)]
    exact next_ne (h c List.mem_cons_self).1 (h c List.mem_cons_self).2

/-- **C35** Bit `k` of the lookup result is 1 iff the last write to cell `k` (cycle `w`) stored the
searched key with the valid flag set. -/
theorem cam_match_last_write (items : Nat) (mem0 : Nat → Nat) (pre post : List In) (w i : In) (k : Nat)
    (hw : WritesCell w k) (hwf : Fits items w)
    (hpost : ∀ c ∈ post, Fits items c ∧ ¬ WritesCell c k) :
    ((machine true items).outAfter mem0 (pre ++ [w] ++ post) i).oData k = true ↔
      w.wData = i.mKey ∧ w.wFlag = true := by
  unfold Machine.outAfter
  show ((_ : Nat) == _) = true ↔ _
  rw [Machine.final_append, keep post _ hpost, Machine.final_append]
  show (next true items _ w k == _) = true ↔ _
  have e : ∀ m, next true items m w k = record true w.wData w.wFlag := by
    intro m
    unfold next
    rw [hw.1, Nat.mod_eq_of_lt hwf, hw.2]
    simp
  rw [e, beq_iff_eq]
  exact record_inj _ _ _

/-- **C35** A cell which was not written yet does not match anything. -/
theorem cam_unwritten_no_match (items : Nat) (cs : List In) (i : In) (k : Nat)
    (h : ∀ c ∈ cs, Fits items c ∧ ¬ WritesCell c k) :
    ((machine true items).outAfter init cs i).oData k = false := by
  unfold Machine.outAfter
  show ((_ : Nat) == _) = false
  rw [keep cs _ h]
  simp [init, record]

/-- **C35** The answer is given in the cycle of the request: one response for each accepted lookup, and
writes are always accepted. -/
theorem cam_answers_once (u : Bool) (items : Nat) (mem0 : Nat → Nat) (cs : List In) (i : In) :
    let o := (machine u items).outAfter mem0 cs i
    ((i.mVld && o.mRd) = (o.oVld && i.oRd)) ∧ o.oVld = i.mVld ∧ o.wRd = true :=
  ⟨rfl, rfl, rfl⟩

/-- Without the valid bit (USE_VLD_BIT=False) never written cells match the key 0. -/
theorem cam_novld_unwritten_matches_zero (items : Nat) (i : In) (hk : i.mKey = 0) (k : Nat) :
    ((machine false items).outAfter init [] i).oData k = true := by
  show ((0 : Nat) == record false i.mKey true) = true
  simp [record, hk]

/-- **C36** (violated for some ITEMS) all cells can be addressed exactly if `ITEMS - 1` is not a power of
two greater than 1. -/
theorem cam_addressable_iff (items : Nat) (h : 2 ≤ items) :
    (∀ k, k < items → k < 2 ^ addrWidth items) ↔ ¬ ∃ e, 1 ≤ e ∧ items = 2 ^ e + 1 := by
  constructor
  · rintro hall ⟨e, he, rfl⟩
    have := hall (2 ^ e) (by omega)
    unfold addrWidth at this
    rw [Nat.add_sub_cancel, log2ceil_eq_of_pow he] at this
    omega
  · intro hno k hk
    have h1 := le_two_pow_log2ceil (items - 1)
    unfold addrWidth
    rcases Nat.lt_or_ge k (2 ^ log2ceil (items - 1)) with h2 | h2
    · exact h2
    · exfalso
      apply hno
      refine ⟨log2ceil (items - 1), log2ceil_pos _, by omega⟩

/-- **C36** is violated e.g. for 5 items: no write on the port ever changes cell 4, so it never matches. -/
theorem cam_cell_unreachable (e : Nat) (he : 1 ≤ e) (cs : List In) (i : In) :
    ((machine true (2 ^ e + 1)).outAfter init cs i).oData (2 ^ e) = false := by
  have key : ∀ (cs : List In) (mem : Nat → Nat), mem (2 ^ e) = 0 →
      (machine true (2 ^ e + 1)).final mem cs (2 ^ e) = 0 := by
    intro cs
    induction cs with
    | nil => intro mem h; exact h
    | cons c cs ih =>
      intro mem h
      rw [Machine.final_cons]
      apply ih
      show next true (2 ^ e + 1) mem c (2 ^ e) = 0
      unfold next addrWidth
      rw [Nat.add_sub_cancel, log2ceil_eq_of_pow he]
      cases c.wVld
      · exact h
      · show upd _ _ _ _ = _
        rw [upd_ne _ _ _ _ (by
          have := Nat.mod_lt c.wAddr (Nat.two_pow_pos e)
          omega)]
        exact h
  unfold Machine.outAfter
  show ((_ : Nat) == _) = false
  rw [key cs init rfl]
  simp [record]

/-! ## Non-vacuity -/

def wr (a d : Nat) (f : Bool) : In := ⟨true, a, d, f, false, 0, true⟩
def look (k : Nat) : In := ⟨false, 0, 0, false, true, k, true⟩

example : (List.range 4).map
    ((machine true 4).outAfter init [wr 1 7 true, wr 3 7 true, wr 2 7 false, wr 0 5 true] (look 7)).oData
    = [false, true, false, true] := by decide

example : WritesCell (wr 1 7 true) 1 ∧ Fits 4 (wr 1 7 true) ∧
    ∀ c ∈ [wr 3 7 true, wr 2 7 false], Fits 4 c ∧ ¬ WritesCell c 1 := by
  refine ⟨⟨rfl, rfl⟩, by unfold Fits; decide, ?_⟩
  intro c hc
  simp at hc
  rcases hc with rfl | rfl
  · exact ⟨by unfold Fits; decide, by rintro ⟨_, h⟩; cases h⟩
  · exact ⟨by unfold Fits; decide, by rintro ⟨_, h⟩; cases h⟩

example : addrWidth 5 = 2 := by decide

end Verif.Cam
