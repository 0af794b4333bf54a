import Verif.MemEndpoint
import Mathlib.Data.List.Induction

/-!
# Properties of `AvalonMmEndpoint` and `BramPortEndpoint` (C233 - C235)
-/

namespace Verif.MemEndpoint

open Verif

variable {D : Type}

/-- a place in the address space of the template: a word or an item of an array -/
inductive Loc
  | reg (a : Nat)
  | item (arr k : Nat)
deriving DecidableEq

/-- the address `a` is the address of the place -/
def At (c : Cfg) (a : Nat) : Loc → Prop
  | .reg b => c.isReg a = true ∧ b = a
  | .item i k => ∃ r, c.arrs[i]? = some r ∧ r.1 ≤ a ∧ a < r.2 ∧ k = (a - r.1) / c.step

/-- places are disjoint -/
def Disjoint (c : Cfg) : Prop := ∀ a l l', At c a l → At c a l' → l = l'

/-- value of the place -/
def val (s : Store D) : Loc → D
  | .reg a => s.regs a
  | .item i k => s.mem i k

theorem isMem_iff (c : Cfg) (i a : Nat) : isMem c i a = true ↔ ∃ r, c.arrs[i]? = some r ∧ r.1 ≤ a ∧ a < r.2 := by
  unfold isMem
  cases c.arrs[i]? <;> simp

theorem at_item (c : Cfg) (a i k : Nat) : At c a (.item i k) ↔ isMem c i a = true ∧ k = cell c i a := by
  rw [isMem_iff]
  unfold At cell
  cases h : c.arrs[i]? with
  | none => simp [h]
  | some r =>
    simp only [h, Option.some.injEq, exists_eq_left']
    tauto

theorem isMem_lt {c : Cfg} {i a : Nat} (h : isMem c i a = true) : i < c.arrs.length := by
  obtain ⟨r, hr, -⟩ := (isMem_iff c i a).1 h
  exact (List.getElem?_eq_some_iff.1 hr).1

open Classical in
theorem val_step (c : Cfg) (s : Store D) (en we : Bool) (a : Nat) (d junk : D) (l : Loc) :
    val (s.step c en we a d junk) l = if en = true ∧ we = true ∧ At c a l then d else val s l := by
  cases l with
  | reg b =>
    simp only [val, Store.step, At]
    by_cases hb : b = a
    · subst hb
      cases en <;> cases we <;> rcases Bool.eq_false_or_eq_true (c.isReg b) with h | h <;> simp [upd_same, h]
    · cases en <;> cases we <;> rcases Bool.eq_false_or_eq_true (c.isReg a) with h | h <;> simp [upd_ne, hb, h]
  | item i k =>
    simp only [val, Store.step, at_item]
    by_cases hk : k = cell c i a
    · subst hk
      cases en <;> cases we <;> rcases Bool.eq_false_or_eq_true (isMem c i a) with h | h <;> simp [upd_same, h]
    · cases en <;> cases we <;> rcases Bool.eq_false_or_eq_true (isMem c i a) with h | h <;> simp [upd_ne, hk, h]

theorem dout_step (c : Cfg) (s : Store D) (a : Nat) (d junk : D) (i : Nat) (h : isMem c i a = true) :
    (s.step c true false a d junk).dout i = val s (.item i (cell c i a)) := by
  simp [Store.step, h, val]

theorem find_mem {c : Cfg} (hd : Disjoint c) {i a : Nat} (h : isMem c i a = true) :
    ((List.range c.arrs.length).find? fun j => isMem c j a) = some i := by
  cases hf : (List.range c.arrs.length).find? fun j => isMem c j a with
  | none => exact absurd h (List.find?_eq_none.1 hf i (List.mem_range.2 (isMem_lt h)))
  | some j =>
    have hj : isMem c j a = true := by simpa using List.find?_some hf
    have := hd a (.item j (cell c j a)) (.item i (cell c i a)) ((at_item ..).2 ⟨hj, rfl⟩) ((at_item ..).2 ⟨h, rfl⟩)
    cases this; rfl

/-! ## Avalon -/

namespace Avalon

open Classical in
/-- value of the place after the history: data of the last write to it, or the initial value -/
noncomputable def valueAfter (c : Cfg) (init : D) (l : Loc) (is : List (In D)) : D :=
  ((is.filter fun x => x.write && decide (At c x.addr l)).getLast?.map (·.wdata)).getD init

theorem val_run (c : Cfg) (s : St D) (is : List (In D)) (l : Loc) :
    val ((machine c).final s is).store l = valueAfter c (val s.store l) l is := by
  classical
  induction is using List.reverseRecOn with
  | nil => rfl
  | append_singleton is x ih =>
    simp only [Machine.final_append, Machine.final_cons, Machine.final_nil]
    show val (Store.step c _ (x.read || x.write) x.write x.addr x.wdata x.junk) l = _
    rw [val_step, ih]
    unfold valueAfter
    rw [List.filter_append]
    by_cases hl : At c x.addr l
    · cases hw : x.write <;> simp [hl, hw]
    · cases hw : x.write <;> simp [hl, hw]

/-- C233: each request is accepted immediately; each read is answered in the next cycle by the value of the place after all writes before the read;
each write is confirmed in the next cycle; the response is OK exactly for addresses of the endpoint; there is no other response. -/
theorem endpoint (c : Cfg) (hd : Disjoint c) (s : St D) (is : List (In D)) (x y : In D) :
    let o := (machine c).outAfter s (is ++ [x]) y
    o.waitRequest = false ∧ o.readDataValid = x.read ∧ o.writeResponseValid = x.write ∧
    (o.ok = true ↔ c.lo ≤ x.addr ∧ x.addr < c.hi) ∧
    ∀ l, x.read = true → x.write = false → At c x.addr l → o.readData = some (valueAfter c (val s.store l) l is) := by
  intro o
  have ho : o = out c (next c ((machine c).final s is) x) y := by
    simp only [o, Machine.outAfter, Machine.final_append, Machine.final_cons, Machine.final_nil]
    rfl
  rw [ho]
  refine ⟨rfl, rfl, rfl, ?_, ?_⟩
  · simp [out, next, inMy]
  · intro l hr hw hl
    rw [← val_run]
    generalize (machine c).final s is = t
    cases l with
    | reg b =>
      obtain ⟨h1, rfl⟩ := hl
      simp [out, next, hr, hw, h1, Store.step, val]
    | item i k =>
      have hl' := (at_item ..).1 hl
      have hreg : c.isReg x.addr = false := by
        rw [Bool.eq_false_iff]; intro h1
        have := hd x.addr _ (.reg x.addr) hl ⟨h1, rfl⟩
        cases this
      simp only [out, next, hr, hw, if_true, hreg, Bool.or_false, Bool.false_eq_true, if_false]
      rw [find_mem hd hl'.1, Option.map_some, dout_step _ _ _ _ _ _ hl'.1, hl'.2]

/-- C233: no response in the first cycle -/
theorem first (c : Cfg) (s : St D) (hs : IsInit s) (y : In D) :
    ((machine c).outAfter s [] y).readDataValid = false ∧ ((machine c).outAfter s [] y).writeResponseValid = false := ⟨hs.rReq, hs.wasWr⟩

end Avalon

/-! ## BRAM port -/

namespace Bram

open Classical in
/-- value of the place after the history -/
noncomputable def valueAfter (c : Cfg) (init : D) (l : Loc) (is : List (In D)) : D :=
  ((is.filter fun x => x.en && x.we && decide (At c x.addr l)).getLast?.map (·.din)).getD init

theorem val_run (c : Cfg) (s : St D) (is : List (In D)) (l : Loc) :
    val ((machine c).final s is).store l = valueAfter c (val s.store l) l is := by
  classical
  induction is using List.reverseRecOn with
  | nil => rfl
  | append_singleton is x ih =>
    simp only [Machine.final_append, Machine.final_cons, Machine.final_nil]
    show val (Store.step c _ x.en x.we x.addr x.din x.junk) l = _
    rw [val_step, ih]
    unfold valueAfter
    rw [List.filter_append]
    by_cases hl : At c x.addr l
    · cases he : x.en <;> cases hw : x.we <;> simp [hl, hw, he]
    · cases he : x.en <;> cases hw : x.we <;> simp [hl, hw, he]

/-- full statement: as for a memory the output holds the data of the last read until the next access -/
def Holds (c : Cfg) (D : Type) : Prop :=
  ∀ (s : St D) (is ys : List (In D)) (x z : In D) (l : Loc), x.en = true → x.we = false → At c x.addr l →
    (∀ y ∈ ys, y.en = false) → (machine c).outAfter s (is ++ [x] ++ ys) z = valueAfter c (val s.store l) l is

/-- what the output shows after the read of `l` at `a` with value `v` -/
def Shows (c : Cfg) (a : Nat) (l : Loc) (v : D) (s : St D) : Prop :=
  match l with
  | .reg _ => s.idx = c.arrs.length ∧ s.readReg = v
  | .item i _ => s.idx = i ∧ i < c.arrs.length ∧ isMem c i a = true ∧ s.store.dout i = v

theorem shows_out {c : Cfg} {a : Nat} {l : Loc} {v : D} {s : St D} (h : Shows c a l v s) (z : In D) : out c s z = v := by
  cases l with
  | reg b => obtain ⟨h1, h2⟩ := h; simp [out, h1, h2]
  | item i k => obtain ⟨h1, h2, -, h3⟩ := h; subst h1; simp [out, h2, h3]

theorem reg_idx {c : Cfg} (hd : Disjoint c) {a : Nat} (h : c.isReg a = true) :
    ((List.range c.arrs.length).find? fun i => isMem c i a) = none := by
  rw [List.find?_eq_none]
  intro i _ hi
  have := hd a (.item i (cell c i a)) (.reg a) ((at_item ..).2 ⟨hi, rfl⟩) ⟨h, rfl⟩
  cases this

theorem shows_read {c : Cfg} (hd : Disjoint c) (s : St D) (x : In D) (l : Loc) (he : x.en = true) (hw : x.we = false) (hl : At c x.addr l) :
    Shows c x.addr l (val s.store l) (next c s x) := by
  cases l with
  | reg b =>
    obtain ⟨h1, rfl⟩ := hl
    refine ⟨?_, ?_⟩
    · simp [next, reg_idx hd h1]
    · simp [next, he, h1, val]
  | item i k =>
    have hl' := (at_item ..).1 hl
    refine ⟨by simp [next, find_mem hd hl'.1], isMem_lt hl'.1, hl'.1, ?_⟩
    simp only [next, he, hw]
    rw [dout_step _ _ _ _ _ _ hl'.1, hl'.2]

theorem shows_hold {c : Cfg} (hd : Disjoint c) (s : St D) (y : In D) (a : Nat) (l : Loc) (v : D) (hl : At c a l) (he : y.en = false)
    (ha : y.addr = a) (h : Shows c a l v s) : Shows c a l v (next c s y) := by
  subst ha
  cases l with
  | reg b =>
    obtain ⟨h1, rfl⟩ := hl
    obtain ⟨h2, h3⟩ := h
    exact ⟨by simp [next, reg_idx hd h1], by simp [next, he, h3]⟩
  | item i k =>
    obtain ⟨h1, h2, h3, h4⟩ := h
    exact ⟨by simp [next, find_mem hd h3], h2, h3, by simp [next, he, Store.step, h4]⟩

/-- C234: the data of a read are there in the next cycle, and then until the next access if the address does not change -/
theorem read_partial (c : Cfg) (hd : Disjoint c) (s : St D) (is ys : List (In D)) (x z : In D) (l : Loc) (he : x.en = true) (hw : x.we = false)
    (hl : At c x.addr l) (hy : ∀ y ∈ ys, y.en = false ∧ y.addr = x.addr) :
    (machine c).outAfter s (is ++ [x] ++ ys) z = valueAfter c (val s.store l) l is := by
  have h0 := shows_read hd ((machine c).final s is) x l he hw hl
  rw [val_run] at h0
  have : Shows c x.addr l (valueAfter c (val s.store l) l is) ((machine c).final s (is ++ [x] ++ ys)) := by
    rw [Machine.final_append, Machine.final_append, Machine.final_cons, Machine.final_nil]
    generalize hv : valueAfter c (val s.store l) l is = v at *
    have : ∀ (ys : List (In D)) (t : St D), (∀ y ∈ ys, y.en = false ∧ y.addr = x.addr) → Shows c x.addr l v t →
        Shows c x.addr l v ((machine c).final t ys) := by
      intro ys
      induction ys with
      | nil => intro t _ ht; exact ht
      | cons y ys ih =>
        intro t hy ht
        rw [Machine.final_cons]
        have h1 := hy y (by simp)
        exact ih _ (fun y' hy' => hy y' (by simp [hy'])) (shows_hold hd t y _ l v hl h1.1 h1.2 ht)
    exact this ys _ hy h0
  exact shows_out this z

def exCfg : Cfg := { lo := 0, hi := 24, arrs := [(8, 16), (16, 24)], step := 4, isReg := fun a => a == 0 || a == 4 }

theorem exCfg_disjoint : Disjoint exCfg := by
  have hm : ∀ i a, isMem exCfg i a = true → 8 ≤ a ∧ (i = 0 ∧ a < 16 ∨ i = 1 ∧ 16 ≤ a) := by
    intro i a h
    rcases i with _ | _ | i <;> simp [isMem, exCfg] at h ⊢ <;> omega
  intro a l l' h h'
  cases l with
  | reg b =>
    obtain ⟨h1, rfl⟩ := h
    cases l' with
    | reg b' => rw [h'.2]
    | item i k =>
      have := hm i _ ((at_item ..).1 h').1
      simp [exCfg] at h1
      omega
  | item i k =>
    have h1 := (at_item ..).1 h
    have h2 := hm i a h1.1
    cases l' with
    | reg b' =>
      obtain ⟨h3, rfl⟩ := h'
      simp [exCfg] at h3
      omega
    | item j k' =>
      have h3 := (at_item ..).1 h'
      have h4 := hm j a h3.1
      have : i = j := by omega
      subst this
      rw [h1.2, h3.2]

def exS : St Nat := ⟨0, 0, ⟨fun a => 100 + a, fun i k => 200 + 10 * i + k, fun _ => 0⟩⟩

/-- C234: `readBramIndx` follows the address also without `en`: the output changes without an access -/
theorem holds_fails : Disjoint exCfg ∧ ¬Holds exCfg Nat := by
  refine ⟨exCfg_disjoint, fun h => ?_⟩
  have := h exS [] [⟨false, false, 16, 0, 0⟩] ⟨true, false, 8, 0, 0⟩ ⟨false, false, 16, 0, 0⟩ (.item 0 0) rfl rfl
    ((at_item ..).2 ⟨by decide, by decide⟩) (by simp)
  have e : (machine exCfg).outAfter exS ([] ++ [⟨true, false, 8, 0, 0⟩] ++ [⟨false, false, 16, 0, 0⟩]) ⟨false, false, 16, 0, 0⟩ = 0 := by decide
  rw [e] at this
  simp [valueAfter, val, exS] at this

example : At exCfg 12 (.item 0 1) ∧ At exCfg 4 (.reg 4) := ⟨(at_item ..).2 ⟨by decide, by decide⟩, by decide, rfl⟩
example : (machine exCfg).outAfter exS [⟨true, true, 12, 7, 0⟩, ⟨true, false, 12, 0, 0⟩] ⟨false, false, 0, 0, 0⟩ = 7 := by decide

end Bram

example : (Avalon.machine Bram.exCfg).outAfter ⟨false, false, false, 0, fun _ => false, Bram.exS.store⟩
    [⟨false, true, 12, 7, 0⟩, ⟨true, false, 12, 0, 0⟩] ⟨false, false, 0, 0, 0⟩ = ⟨false, true, false, true, some 7⟩ := by
  simp [Avalon.machine, Machine.outAfter, Machine.final, Avalon.out, Avalon.next, Store.step, Bram.exCfg, Bram.exS, isMem, cell, inMy, upd, List.range, List.range.loop]

end Verif.MemEndpoint
