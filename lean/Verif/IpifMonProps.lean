import Verif.IpifMon
/-!
# Properties of the simulation agent of Ipif
-/
namespace Verif.IpifMon

theorem runs_append (c : Cfg) : ∀ (a b : List In) (s : St), runs c s (a ++ b) = match runs c s a with
    | .error e => .error e
    | .ok s' => runs c s' b
  | [], b, s => rfl
  | i :: r, b, s => by
      rw [List.cons_append, runs, runs]
      cases h : step c s i with
      | error e => rfl
      | ok s' => exact runs_append c r b s'

/-! ## C486: latency and data -/

/-- a read in progress, `m` cycles remain -/
theorem read_wait (c : Cfg) (i : In) (hc : i.cs = true) (hr : i.rnw = true) (d : Nat) (ha : i.addr % c.wb = 0) :
    ∀ (m : Nat) (s : St), s.st = .read → s.rnw = true → s.addr = i.addr → s.cnt + m = c.rLat → s.mem (i.addr / c.wb) = some d →
    ∃ s', runs c s (List.replicate (m + 1) i) = .ok s' ∧ s'.st = .idle ∧ s'.cnt = 0 ∧ s'.rdack = true ∧ s'.wrack = false ∧
      s'.rdata = some d ∧ s'.mem = s.mem
  | 0, s, h1, h2, h3, h4, h5 => by
      refine ⟨{ s with wrack := false, cnt := 0, rdata := some d, rdack := true, st := .idle }, ?_, rfl, rfl, rfl, rfl, rfl, rfl⟩
      have h4' : s.cnt = c.rLat := by omega
      simp [List.replicate, runs, step, accept, serve, check, onRead, h1, h2, h3, h4', h5, hc, hr, ha]
  | m + 1, s, h1, h2, h3, h4, h5 => by
      have hs : step c s i = .ok { s with wrack := false, rdata := none, cnt := s.cnt + 1 } := by
        have h4' : s.cnt ≠ c.rLat := by omega
        simp [step, accept, serve, check, h1, h2, h3, h4', hc, hr]
      obtain ⟨s', e, r⟩ := read_wait c i hc hr d ha m { s with wrack := false, rdata := none, cnt := s.cnt + 1 } h1 h2 h3
        (by simp only; omega) h5
      refine ⟨s', ?_, r⟩
      rw [List.replicate_succ, runs, hs]
      exact e

/-- C486: a read which is held is answered after exactly READ_LATENCY + 1 cycles with the word of the memory -/
theorem read_done (c : Cfg) (s : St) (i : In) (d : Nat) (hs : s.st = .idle) (h0 : s.cnt = 0) (hc : i.cs = true) (hr : i.rnw = true)
    (ha : i.addr % c.wb = 0) (hm : s.mem (i.addr / c.wb) = some d) :
    ∃ s', runs c s (List.replicate (c.rLat + 1) i) = .ok s' ∧ s'.st = .idle ∧ s'.cnt = 0 ∧ s'.rdack = true ∧ s'.wrack = false ∧
      s'.rdata = some d ∧ s'.mem = s.mem := by
  rcases Nat.eq_zero_or_pos c.rLat with hl | hl
  · refine ⟨{ s with rnw := true, addr := i.addr, wrack := false, cnt := 0, rdata := some d, rdack := true, st := .idle },
      ?_, rfl, rfl, rfl, rfl, rfl, rfl⟩
    simp [hl, List.replicate, runs, step, accept, serve, check, onRead, hs, h0, hc, hr, ha, hm]
  · have h1 : step c s i = .ok { s with st := .read, rnw := true, addr := i.addr, wrack := false, rdata := none, cnt := 1 } := by
      have : (0 : Nat) ≠ c.rLat := by omega
      simp [step, accept, serve, check, hs, h0, hc, hr, this]
    obtain ⟨s', e, r⟩ := read_wait c i hc hr d ha (c.rLat - 1)
      { s with st := .read, rnw := true, addr := i.addr, wrack := false, rdata := none, cnt := 1 } rfl rfl rfl (by simp only; omega) hm
    refine ⟨s', ?_, r⟩
    rw [List.replicate_succ, runs, h1]
    rw [show c.rLat - 1 + 1 = c.rLat by omega] at e
    exact e

theorem write_wait (c : Cfg) (i : In) (hc : i.cs = true) (hr : i.rnw = false) (ha : i.addr % c.wb = 0) (hb : i.be = 2 ^ c.wb - 1) :
    ∀ (m : Nat) (s : St), s.st = .write → s.rnw = false → s.addr = i.addr → s.be = i.be → s.wdata = i.data → s.cnt + m = c.wLat →
    ∃ s', runs c s (List.replicate (m + 1) i) = .ok s' ∧ s'.st = .idle ∧ s'.cnt = 0 ∧ s'.rdack = false ∧ s'.wrack = true ∧
      s'.mem = fun k => if k = i.addr / c.wb then some i.data else s.mem k
  | 0, s, h1, h2, h3, h4, h5, h6 => by
      refine ⟨{ s with rdack := false, rdata := none, mem := fun k => if k = i.addr / c.wb then some i.data else s.mem k,
                       wrack := true, cnt := 0, st := .idle }, ?_, rfl, rfl, rfl, rfl, rfl⟩
      have h6' : s.cnt = c.wLat := by omega
      simp [List.replicate, runs, step, accept, serve, check, onWrite, h1, h2, h3, h4, h5, h6', hc, hr, ha, hb]
  | m + 1, s, h1, h2, h3, h4, h5, h6 => by
      have hs : step c s i = .ok { s with rdack := false, rdata := none, cnt := s.cnt + 1 } := by
        have h6' : s.cnt ≠ c.wLat := by omega
        simp [step, accept, serve, check, h1, h2, h3, h4, h5, h6', hc, hr]
      obtain ⟨s', e, r⟩ := write_wait c i hc hr ha hb m { s with rdack := false, rdata := none, cnt := s.cnt + 1 } h1 h2 h3 h4 h5
        (by simp only; omega)
      refine ⟨s', ?_, r⟩
      rw [List.replicate_succ, runs, hs]
      exact e

/-- C486: a write of a whole word which is held is acknowledged after exactly WRITE_LATENCY + 1 cycles, it changes this word only -/
theorem write_done (c : Cfg) (s : St) (i : In) (hs : s.st = .idle) (h0 : s.cnt = 0) (hc : i.cs = true) (hr : i.rnw = false)
    (ha : i.addr % c.wb = 0) (hb : i.be = 2 ^ c.wb - 1) :
    ∃ s', runs c s (List.replicate (c.wLat + 1) i) = .ok s' ∧ s'.st = .idle ∧ s'.cnt = 0 ∧ s'.rdack = false ∧ s'.wrack = true ∧
      s'.mem = fun k => if k = i.addr / c.wb then some i.data else s.mem k := by
  rcases Nat.eq_zero_or_pos c.wLat with hl | hl
  · refine ⟨{ s with rnw := false, addr := i.addr, be := i.be, wdata := i.data, rdack := false, rdata := none, wrack := true,
                     mem := fun k => if k = i.addr / c.wb then some i.data else s.mem k, cnt := 0, st := .idle },
      ?_, rfl, rfl, rfl, rfl, rfl⟩
    simp [hl, List.replicate, runs, step, accept, serve, check, onWrite, hs, h0, hc, hr, ha, hb]
  · have h1 : step c s i = .ok { s with st := .write, rnw := false, addr := i.addr, be := i.be, wdata := i.data, rdack := false,
                                        rdata := none, cnt := 1 } := by
      have : (0 : Nat) ≠ c.wLat := by omega
      simp [step, accept, serve, check, hs, h0, hc, hr, this]
    obtain ⟨s', e, r⟩ := write_wait c i hc hr ha hb (c.wLat - 1)
      { s with st := .write, rnw := false, addr := i.addr, be := i.be, wdata := i.data, rdack := false, rdata := none, cnt := 1 }
      rfl rfl rfl rfl rfl (by simp only; omega)
    refine ⟨s', ?_, r⟩
    rw [List.replicate_succ, runs, h1]
    rw [show c.wLat - 1 + 1 = c.wLat by omega] at e
    exact e

/-- C486: a word is read as it was written last, for all latencies -/
theorem write_read (c : Cfg) (s : St) (i j : In) (hs : s.st = .idle) (h0 : s.cnt = 0) (hc : i.cs = true) (hr : i.rnw = false)
    (ha : i.addr % c.wb = 0) (hb : i.be = 2 ^ c.wb - 1) (jc : j.cs = true) (jr : j.rnw = true) (ja : j.addr = i.addr) :
    ∃ s', runs c s (List.replicate (c.wLat + 1) i ++ List.replicate (c.rLat + 1) j) = .ok s' ∧ s'.rdack = true ∧
      s'.rdata = some i.data := by
  obtain ⟨s1, e1, h1, h2, _, _, h5⟩ := write_done c s i hs h0 hc hr ha hb
  obtain ⟨s2, e2, _, _, g3, _, g5, _⟩ := read_done c s1 j i.data h1 h2 jc jr (by rw [ja]; exact ha) (by rw [h5, ja]; simp)
  refine ⟨s2, ?_, g3, g5⟩
  rw [runs_append, e1]
  exact e2

/-! ## C487: acknowledge -/

/-- the step finishes a read (write): the agent is busy with it or takes it in this step, and is idle after it -/
def Finishes (rnw : Bool) (s : St) (i : In) (s' : St) : Prop :=
  s'.st = .idle ∧ ((s.st = (if rnw then .read else .write)) ∨ (s.st = .idle ∧ i.cs = true ∧ i.rnw = rnw))

/-- an acknowledge is given exactly in the cycle in which the operation is finished -/
def AckExact (c : Cfg) : Prop := ∀ is i s s', runs c {} is = .ok s → step c s i = .ok s' →
  (s'.rdack = true ↔ Finishes true s i s') ∧ (s'.wrack = true ↔ Finishes false s i s')

/-- the checks do not change the state -/
theorem step_serve (c : Cfg) (s s' : St) (i : In) (h : step c s i = .ok s') : serve c (accept s i) = .ok s' := by
  unfold step at h
  cases e : serve c (accept s i) with
  | error _ => rw [e] at h; cases h
  | ok t =>
    rw [e] at h
    simp only [check] at h
    split at h
    · exact h
    split at h
    · cases h
    split at h
    · cases h
    split at h
    · cases h
    split at h
    · cases h
    exact h

/-- results of a step -/
theorem step_cases (c : Cfg) (s s' : St) (i : In) (h : step c s i = .ok s') :
    (s.st = .idle ∧ i.cs = false ∧ s'.st = .idle ∧ s'.rdack = false ∧ s'.wrack = false ∧ s'.cnt = s.cnt) ∨
    ((s.st = .read ∨ (s.st = .idle ∧ i.cs = true ∧ i.rnw = true)) ∧ s'.wrack = false ∧
      ((s'.st = .idle ∧ s'.rdack = true ∧ s'.cnt = 0 ∧ s.cnt = c.rLat) ∨ (s'.st = .read ∧ s'.rdack = s.rdack ∧ s.cnt ≠ c.rLat))) ∨
    ((s.st = .write ∨ (s.st = .idle ∧ i.cs = true ∧ i.rnw = false)) ∧ s'.rdack = false ∧
      ((s'.st = .idle ∧ s'.wrack = true ∧ s'.cnt = 0 ∧ s.cnt = c.wLat) ∨ (s'.st = .write ∧ s'.wrack = s.wrack ∧ s.cnt ≠ c.wLat))) := by
  have hs := step_serve c s s' i h
  clear h
  have hread : ∀ t : St, t.st = .read → serve c t = .ok s' → s'.wrack = false ∧
      ((s'.st = .idle ∧ s'.rdack = true ∧ s'.cnt = 0 ∧ t.cnt = c.rLat) ∨ (s'.st = .read ∧ s'.rdack = t.rdack ∧ t.cnt ≠ c.rLat)) := by
    intro t ht e
    simp only [serve, ht] at e
    split at e
    · next hcn =>
      split at e
      · cases e
      · cases e; exact ⟨rfl, .inl ⟨rfl, rfl, rfl, hcn⟩⟩
    · next hcn => cases e; exact ⟨rfl, .inr ⟨rfl, rfl, hcn⟩⟩
  have hwrite : ∀ t : St, t.st = .write → serve c t = .ok s' → s'.rdack = false ∧
      ((s'.st = .idle ∧ s'.wrack = true ∧ s'.cnt = 0 ∧ t.cnt = c.wLat) ∨ (s'.st = .write ∧ s'.wrack = t.wrack ∧ t.cnt ≠ c.wLat)) := by
    intro t ht e
    simp only [serve, ht] at e
    split at e
    · next hcn =>
      split at e
      · cases e
      · cases e; exact ⟨rfl, .inl ⟨rfl, rfl, rfl, hcn⟩⟩
    · next hcn => cases e; exact ⟨rfl, .inr ⟨rfl, rfl, hcn⟩⟩
  cases hp : s.st with
  | read =>
    have ha : accept s i = s := by unfold accept; rw [if_neg (by rw [hp]; intro e; cases e)]
    rw [ha] at hs
    exact .inr (.inl ⟨.inl rfl, hread s hp hs⟩)
  | write =>
    have ha : accept s i = s := by unfold accept; rw [if_neg (by rw [hp]; intro e; cases e)]
    rw [ha] at hs
    exact .inr (.inr ⟨.inl rfl, hwrite s hp hs⟩)
  | idle =>
    unfold accept at hs
    rw [if_pos hp] at hs
    cases hc : i.cs with
    | false =>
      simp only [hc, Bool.false_eq_true, if_false, serve, hp] at hs
      cases hs
      exact .inl ⟨rfl, rfl, rfl, rfl, rfl, rfl⟩
    | true =>
      cases hr : i.rnw with
      | true =>
        simp only [hc, hr, if_true] at hs
        have hq := hread _ rfl hs
        exact .inr (.inl ⟨.inr ⟨rfl, rfl, rfl⟩, hq⟩)
      | false =>
        simp only [hc, hr, if_true, Bool.false_eq_true, if_false] at hs
        have hq := hwrite _ rfl hs
        exact .inr (.inr ⟨.inr ⟨rfl, rfl, rfl⟩, hq⟩)

/-- C487: a finished operation is acknowledged, never both kinds; a wrong acknowledge is only one which stays from the operation
before while the agent waits -/
theorem ack_partial (c : Cfg) (s s' : St) (i : In) (h : step c s i = .ok s') :
    (Finishes true s i s' → s'.rdack = true ∧ s'.wrack = false) ∧ (Finishes false s i s' → s'.wrack = true ∧ s'.rdack = false) ∧
    (s'.rdack = true → Finishes true s i s' ∨ (s'.st = .read ∧ s.rdack = true)) ∧
    (s'.wrack = true → Finishes false s i s' ∨ (s'.st = .write ∧ s.wrack = true)) := by
  unfold Finishes
  rcases step_cases c s s' i h with ⟨h1, h2, h3, h4, h5, _⟩ | ⟨h1, h2, (⟨h3, h4, _⟩ | ⟨h3, h4, _⟩)⟩ | ⟨h1, h2, (⟨h3, h4, _⟩ | ⟨h3, h4, _⟩)⟩
  · simp [h1, h2, h3, h4, h5]
  · rcases h1 with h1 | ⟨h1, h5, h6⟩
    · simp [h1, h2, h3, h4]
    · simp [h1, h2, h3, h4, h5, h6]
  · rcases h1 with h1 | ⟨h1, h5, h6⟩
    · simp [h1, h2, h3, h4]
    · simp [h1, h2, h3, h4, h5, h6]
  · rcases h1 with h1 | ⟨h1, h5, h6⟩
    · simp [h1, h2, h3, h4]
    · simp [h1, h2, h3, h4, h5, h6]
  · rcases h1 with h1 | ⟨h1, h5, h6⟩
    · simp [h1, h2, h3, h4]
    · simp [h1, h2, h3, h4, h5, h6]

/-- C487: without latencies each acknowledge is exact -/
theorem ack_zero_partial (wb : Nat) : AckExact ⟨0, 0, wb⟩ := by
  have inv : ∀ (is : List In) (s0 s : St), s0.st = .idle → s0.cnt = 0 → runs ⟨0, 0, wb⟩ s0 is = .ok s → s.st = .idle ∧ s.cnt = 0 := by
    intro is
    induction is with
    | nil => intro s0 s h1 h2 h; cases h; exact ⟨h1, h2⟩
    | cons i r ih =>
      intro s0 s h1 h2 h
      rw [runs] at h
      cases e : step ⟨0, 0, wb⟩ s0 i with
      | error _ => rw [e] at h; cases h
      | ok t =>
        rw [e] at h
        have ht : t.st = .idle ∧ t.cnt = 0 := by
          rcases step_cases _ _ _ _ e with ⟨_, _, h3, _, _, h6⟩ | ⟨_, _, (⟨h3, _, h6, _⟩ | ⟨_, _, h6⟩)⟩ |
            ⟨_, _, (⟨h3, _, h6, _⟩ | ⟨_, _, h6⟩)⟩
          · exact ⟨h3, by rw [h6, h2]⟩
          · exact ⟨h3, h6⟩
          · exact absurd h2 h6
          · exact ⟨h3, h6⟩
          · exact absurd h2 h6
        exact ih t s ht.1 ht.2 h
  intro is i s s' hr hs
  obtain ⟨h1, h2⟩ := inv is {} s rfl rfl hr
  have ha := ack_partial _ s s' i hs
  have hi : s'.st = .idle := (inv [i] s s' h1 h2 (by rw [runs, hs]; rfl)).1
  refine ⟨⟨fun h => ?_, fun h => (ha.1 h).1⟩, ⟨fun h => ?_, fun h => (ha.2.1 h).1⟩⟩
  · rcases ha.2.2.1 h with g | ⟨g, _⟩
    · exact g
    · rw [hi] at g; cases g
  · rcases ha.2.2.2 h with g | ⟨g, _⟩
    · exact g
    · rw [hi] at g; cases g

/-- C487 violated: with READ_LATENCY 1 a read just after a read is acknowledged before it is finished, without data -/
theorem ack_violated : ¬ AckExact ⟨1, 0, 4⟩ := by
  intro h
  have := (h [⟨true, false, 0, 15, 7⟩, ⟨true, true, 0, 0, 0⟩, ⟨true, true, 0, 0, 0⟩] ⟨true, true, 0, 0, 0⟩ _ _ rfl rfl).1.1 rfl
  exact absurd this.1 (by intro e; cases e)

/-! ## C488: checks of stability -/

/-- a change of the request during the operation is an error -/
def Stable (c : Cfg) : Prop := ∀ is i s, runs c {} is = .ok s → s.st ≠ .idle →
  (i.cs = false ∨ i.rnw ≠ s.rnw ∨ i.addr ≠ s.addr ∨ (s.st = .write ∧ (i.be ≠ s.be ∨ i.data ≠ s.wdata))) → ∃ e, step c s i = .error e

theorem serve_keeps (c : Cfg) (s t : St) (h : serve c s = .ok t) : t.rnw = s.rnw ∧ t.addr = s.addr ∧ t.be = s.be ∧ t.wdata = s.wdata := by
  unfold serve at h
  split at h
  · cases h; exact ⟨rfl, rfl, rfl, rfl⟩
  · split at h
    · split at h
      · cases h
      · cases h; exact ⟨rfl, rfl, rfl, rfl⟩
    · cases h; exact ⟨rfl, rfl, rfl, rfl⟩
  · split at h
    · split at h
      · cases h
      · cases h; exact ⟨rfl, rfl, rfl, rfl⟩
    · cases h; exact ⟨rfl, rfl, rfl, rfl⟩

/-- C488: a change of the selection, the direction or the address is found in each cycle, a change of the data or of the byte enables
of a write in each cycle but the last one; a held request never fails the check -/
theorem stable_partial (c : Cfg) (s : St) (i : In) (hs : s.st ≠ .idle) :
    ((i.cs = false ∨ i.rnw ≠ s.rnw ∨ i.addr ≠ s.addr) → ∃ e, step c s i = .error e) ∧
    (s.st = .write → s.cnt ≠ c.wLat → (i.be ≠ s.be ∨ i.data ≠ s.wdata) → step c s i = .error .unstable) ∧
    (i.cs = true → i.rnw = s.rnw → i.addr = s.addr → i.be = s.be → i.data = s.wdata → step c s i = serve c s) := by
  have ha : accept s i = s := by unfold accept; rw [if_neg hs]
  refine ⟨?_, ?_, ?_⟩
  · intro h
    unfold step
    rw [ha]
    cases e : serve c s with
    | error x => exact ⟨x, rfl⟩
    | ok t =>
      have hk := serve_keeps c s t e
      refine ⟨.unstable, ?_⟩
      simp only [check, if_neg hs]
      rw [hk.1, hk.2.1]
      rcases h with h | h | h
      · simp [h]
      · by_cases hc : i.cs = true <;> simp [h, hc]
      · by_cases hc : i.cs = true <;> by_cases hr : i.rnw = s.rnw <;> simp [h, hc, hr]
  · intro hw hc h
    unfold step
    rw [ha]
    simp only [serve, hw, if_neg hc, check]
    by_cases h1 : i.cs = true <;> by_cases h2 : i.rnw = s.rnw <;> by_cases h3 : i.addr = s.addr <;> simp [h1, h2, h3, h]
  · intro h1 h2 h3 h4 h5
    unfold step
    rw [ha]
    cases e : serve c s with
    | error x => rfl
    | ok t =>
      have hk := serve_keeps c s t e
      simp only [check, if_neg hs]
      rw [hk.1, hk.2.1, hk.2.2.1, hk.2.2.2]
      simp [h1, h2, h3, h4, h5]

/-- C488 violated: the data may change in the last cycle of a write, the word of the first cycle is stored -/
theorem stable_violated : ¬ Stable ⟨0, 1, 4⟩ := by
  intro h
  obtain ⟨e, he⟩ := h [⟨true, false, 0, 15, 7⟩] ⟨true, false, 0, 15, 8⟩ _ rfl (by intro e; cases e) (by
    right; right; right; exact ⟨rfl, .inr (by decide)⟩)
  cases he

example : ∃ s', runs ⟨2, 1, 4⟩ {} (List.replicate 2 ⟨true, false, 8, 15, 7⟩ ++ List.replicate 3 ⟨true, true, 8, 0, 0⟩) = .ok s' ∧
    s'.rdack = true ∧ s'.rdata = some 7 :=
  write_read ⟨2, 1, 4⟩ {} ⟨true, false, 8, 15, 7⟩ ⟨true, true, 8, 0, 0⟩ rfl rfl rfl rfl rfl rfl rfl rfl rfl

end Verif.IpifMon
