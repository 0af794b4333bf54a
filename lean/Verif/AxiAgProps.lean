import Verif.AxiAg
/-!
# Properties of the composite simulation agent of AXI
-/
namespace Verif.AxiAg

/-! ## C484 -/

/-- after `setEnable(en)` of the composite agent the agents of all channels have this flag -/
def Propagates : Prop := ∀ h l en, ∀ c ∈ channels h, (run h (l ++ [.all en])).child c = en

theorem mem_channels (h : Has) (c : Ch) : c ∈ channels h ↔
    (h.hasR = true ∧ (c = .ar ∨ c = .r)) ∨ (h.hasW = true ∧ (c = .aw ∨ c = .w ∨ c = .b)) := by
  obtain ⟨a, b⟩ := h
  cases a <;> cases b <;> cases c <;> decide

theorem set_child (h : Has) (s : St) (en : Bool) (hne : s.enable ≠ en) (c : Ch) :
    (setEnable h s en).child c = if c ∈ channels h then en else s.child c := by
  obtain ⟨a, b⟩ := h
  unfold setEnable
  rw [if_pos (by simpa using hne)]
  cases a <;> cases b <;> cases c <;> simp [channels]

theorem set_enable (h : Has) (s : St) (en : Bool) : (setEnable h s en).enable = en := by
  unfold setEnable
  split
  · rfl
  · next hc => simpa using hc

/-- flag of the composite agent after operations, the last one set -/
theorem run_enable (h : Has) (l : List Op) (en : Bool) : (run h (l ++ [.all en])).enable = en := by
  unfold run
  rw [List.foldl_append]
  exact set_enable h _ en

/-- C484: as long as no channel is set alone, each channel has the flag of the composite agent. After a change of the flag each
channel has the new one whatever was set before. -/
theorem propagates_partial (h : Has) :
    (∀ l : List Op, (∀ o ∈ l, ∃ en, o = .all en) → ∀ c ∈ channels h, (run h l).child c = (run h l).enable) ∧
    (∀ l en, (run h l).enable ≠ en → ∀ c ∈ channels h, (run h (l ++ [.all en])).child c = en) ∧
    (∀ l o, ∀ c, c ∉ channels h → (∀ en, o ≠ .one c en) → (run h (l ++ [o])).child c = (run h l).child c) := by
  refine ⟨?_, ?_, ?_⟩
  · have aux : ∀ (l : List Op) (s : St), (∀ o ∈ l, ∃ en, o = .all en) → (∀ c ∈ channels h, s.child c = s.enable) →
        ∀ c ∈ channels h, (l.foldl (step h) s).child c = (l.foldl (step h) s).enable := by
      intro l
      induction l with
      | nil => intro s _ hs; exact hs
      | cons o r ih =>
        intro s hl hs
        rw [List.foldl_cons]
        obtain ⟨en, rfl⟩ := hl o (List.mem_cons_self ..)
        refine ih _ (fun x hx => hl x (List.mem_cons_of_mem _ hx)) ?_
        intro c hc
        show (setEnable h s en).child c = (setEnable h s en).enable
        rw [set_enable]
        by_cases he : s.enable = en
        · have : setEnable h s en = s := by
            unfold setEnable
            rw [if_neg (by simpa using he)]
          rw [this, hs c hc, he]
        · rw [set_child h s en he, if_pos hc]
    intro l hl
    exact aux l init hl (fun _ _ => rfl)
  · intro l en hne c hc
    have : run h (l ++ [.all en]) = setEnable h (run h l) en := by
      unfold run
      rw [List.foldl_append]; rfl
    rw [this, set_child h _ en hne, if_pos hc]
  · intro l o c hc ho
    have : run h (l ++ [o]) = step h (run h l) o := by
      unfold run
      rw [List.foldl_append]; rfl
    rw [this]
    cases o with
    | all en =>
      show (setEnable h (run h l) en).child c = _
      by_cases he : (run h l).enable = en
      · have : setEnable h (run h l) en = run h l := by
          unfold setEnable
          rw [if_neg (by simpa using he)]
        rw [this]
      · rw [set_child h _ en he, if_neg hc]
    | one d en =>
      have : c ≠ d := by rintro rfl; exact ho en rfl
      simp [step, this]

/-- C484 violated: a channel which was disabled alone is not enabled by `setEnable(True)` -/
theorem propagates_violated : ¬ Propagates := by
  intro p
  have := p ⟨true, true⟩ [.one .w false] true .w (by decide)
  revert this; decide

example : (run ⟨true, true⟩ [.all false]).child .b = false ∧ (run ⟨true, false⟩ [.all false]).child .b = true := by decide

/-! ## C485 -/

/-- the side of a channel on which the master is the source -/
def masterDrives : Ch → Bool
  | .ar | .aw | .w => true
  | .r | .b => false

/-- C485: both lists have each channel once, in opposite roles; a master drives its requests and data and monitors responses -/
theorem roles (h : Has) :
    (∀ c ρ, (c, ρ) ∈ getDrivers h ↔ c ∈ channels h ∧ ρ = if masterDrives c then .driver else .monitor) ∧
    (∀ c ρ, (c, ρ) ∈ getMonitors h ↔ c ∈ channels h ∧ ρ = if masterDrives c then .monitor else .driver) ∧
    ((getDrivers h).map Prod.fst).Nodup ∧ ((getMonitors h).map Prod.fst).Nodup := by
  obtain ⟨a, b⟩ := h
  refine ⟨?_, ?_, ?_, ?_⟩
  · intro c ρ
    cases a <;> cases b <;> cases c <;> cases ρ <;> decide
  · intro c ρ
    cases a <;> cases b <;> cases c <;> cases ρ <;> decide
  · cases a <;> cases b <;> decide
  · cases a <;> cases b <;> decide

/-- C485: an address request is made by an existing address channel, there is none only without reads and writes -/
theorem addr_channel (h : Has) :
    (∀ c, addrChannel h = some c → c ∈ channels h ∧ (c = .ar ∨ c = .aw)) ∧
    (addrChannel h = none ↔ h.hasR = false ∧ h.hasW = false) := by
  obtain ⟨a, b⟩ := h
  refine ⟨?_, ?_⟩
  · intro c
    cases a <;> cases b <;> cases c <;> decide
  · cases a <;> cases b <;> decide

end Verif.AxiAg
