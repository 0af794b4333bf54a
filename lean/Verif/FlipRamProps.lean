import Verif.FlipRam

/-! # Properties of `FlipRam` (C310, C311) -/

namespace Verif.FlipRam

open Verif

universe u
variable {β : Type u}

/-- memory contents connected to the first ports -/
def memFirst (s : St β) (sel : Bool) : Nat → Nat → β := if sel then s.r0.mem else s.r1.mem
def memSecond (s : St β) (sel : Bool) : Nat → Nat → β := if sel then s.r1.mem else s.r0.mem

/-- ports of `cfg` are readable -/
def Readable (n : Nat) (cfg : Nat → Ram.Cfg) : Prop := ∀ k, k < n → (cfg k).hasR = true

/-- C310: the data of a read are those of the memory which was connected when the read was requested -/
def C310 : Prop := ∀ (undef : Nat) (n : Nat) (cfg : Nat → Ram.Cfg) (s : St Nat) (i i' : In Nat) (k : Nat), Readable n cfg → k < n →
  ((i.first k).en = true → outFirst (next undef n cfg s i) i' k = memFirst s i.sel (i.first k).addr) ∧
  ((i.second k).en = true → outSecond (next undef n cfg s i) i' k = memSecond s i.sel (i.second k).addr)

theorem read_dout (undef : β) (n : Nat) (cfg : Nat → Ram.Cfg) (s : Ram.St β) (i : Nat → Ram.Port β) (k : Nat)
    (h : (cfg k).hasR = true) (he : (i k).en = true) : (Ram.next undef n cfg s i).dout k = s.mem (i k).addr := by
  funext j
  simp only [Ram.next, h, he, Bool.true_and, if_true]
  split <;> rfl

/-- **C310** (partial) if `select` is the same in the cycle of the data -/
theorem flip_read_partial (undef : β) (n : Nat) (cfg : Nat → Ram.Cfg) (s : St β) (i i' : In β) (k : Nat)
    (h : Readable n cfg) (hk : k < n) (hs : i'.sel = i.sel) :
    ((i.first k).en = true → outFirst (next undef n cfg s i) i' k = memFirst s i.sel (i.first k).addr) ∧
    ((i.second k).en = true → outSecond (next undef n cfg s i) i' k = memSecond s i.sel (i.second k).addr) := by
  unfold outFirst outSecond memFirst memSecond next
  rw [hs]
  cases i.sel
  · exact ⟨fun he => read_dout undef n cfg s.r1 i.first k (h k hk) he, fun he => read_dout undef n cfg s.r0 i.second k (h k hk) he⟩
  · exact ⟨fun he => read_dout undef n cfg s.r0 i.first k (h k hk) he, fun he => read_dout undef n cfg s.r1 i.second k (h k hk) he⟩

def exRam (v : Nat) : Ram.St Nat := ⟨fun _ _ => v, fun _ _ => 0⟩
def exIn (sel : Bool) : In Nat := ⟨sel, fun _ => ⟨true, 0, fun _ => false, fun _ => 0⟩, fun _ => ⟨true, 0, fun _ => false, fun _ => 0⟩⟩

/-- **C310** (violated) after a flip the requester gets the data read by the other side -/
theorem flip_read_fails : ¬ C310 := by
  intro h
  have := (h 0 1 (fun _ => ⟨true, true, false⟩) ⟨exRam 1, exRam 2⟩ (exIn true) (exIn false) 0 (fun _ _ => rfl) (by decide)).1 rfl
  exact absurd (congrFun this 0) (by decide)

/-- in general: the data of the read of the other side -/
theorem flip_read_other (undef : β) (n : Nat) (cfg : Nat → Ram.Cfg) (s : St β) (i i' : In β) (k : Nat)
    (h : Readable n cfg) (hk : k < n) (hs : i'.sel = !i.sel) (he : (i.second k).en = true) :
    outFirst (next undef n cfg s i) i' k = memSecond s i.sel (i.second k).addr := by
  unfold outFirst memSecond next
  rw [hs]
  cases i.sel
  · exact read_dout undef n cfg s.r0 i.second k (h k hk) he
  · exact read_dout undef n cfg s.r1 i.second k (h k hk) he

/-- **C311** Isolation: while `select` does not change each side has a memory of its own, the other side has no influence: the
memory of the first ports is that of a `RamSingleClock` which started with the same contents and got only their requests. -/
theorem flip_isolated (undef : β) (n : Nat) (cfg : Nat → Ram.Cfg) (sel : Bool) : ∀ (is : List (In β)) (s : St β),
    (∀ i ∈ is, i.sel = sel) →
    memFirst (run undef n cfg s is) sel =
      ((Ram.machine undef n cfg).final (if sel then s.r0 else s.r1) (is.map In.first)).mem ∧
    memSecond (run undef n cfg s is) sel =
      ((Ram.machine undef n cfg).final (if sel then s.r1 else s.r0) (is.map In.second)).mem := by
  intro is
  induction is with
  | nil => intro s _; cases sel <;> exact ⟨rfl, rfl⟩
  | cons i is ih =>
    intro s h
    have hi := h i (List.mem_cons_self ..)
    have := ih (next undef n cfg s i) fun j hj => h j (List.mem_cons_of_mem _ hj)
    simp only [List.map_cons, Machine.final_cons]
    cases sel
    · simp only [next, hi, Bool.false_eq_true, if_false] at this ⊢
      simpa [run, next, hi, Ram.machine] using this
    · simp only [next, hi, if_true] at this ⊢
      simpa [run, next, hi, Ram.machine] using this

/-- the flip itself exchanges the memories: what the first side wrote is what the second side reads -/
theorem flip_exchange (s : St β) (sel : Bool) : memFirst s (!sel) = memSecond s sel ∧ memSecond s (!sel) = memFirst s sel := by
  cases sel <;> exact ⟨rfl, rfl⟩

/-- non-vacuity: a write by the first side, then a flip and a read by the second side -/
def exW : In Nat := ⟨true, fun _ => ⟨true, 3, fun _ => true, fun _ => 7⟩, fun _ => ⟨true, 3, fun _ => false, fun _ => 0⟩⟩
example : let s := run 0 1 (fun _ => ⟨true, true, false⟩) ⟨exRam 1, exRam 2⟩ [exW]
    memFirst s true 3 0 = 7 ∧ memSecond s true 3 0 = 2 ∧ memSecond s false 3 0 = 7 := by decide

end Verif.FlipRam
