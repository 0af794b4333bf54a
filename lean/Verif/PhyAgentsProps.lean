import Verif.PhyAgents
/-!
# Properties of the UTMI and RMII agents
-/
namespace Verif.PhyAgents

variable {β : Type}

/-! ## C389: UTMI rx -/

def RxInv (P : List (List β)) (s : RxDrv β × RxMon β) : Prop :=
  s.2.last = s.1.last ∧
  (s.1.last = false → s.1.actual = [] ∧ s.2.actual = none ∧ P = s.2.data ++ s.1.data) ∧
  (s.1.last = true → ∃ a, s.2.actual = some a ∧ a ++ s.1.actual ≠ [] ∧ P = s.2.data ++ [a ++ s.1.actual] ++ s.1.data)

theorem rxStep_inv (P new : List (List β)) (s : RxDrv β × RxMon β) (h : RxInv P s) (hne : ∀ p ∈ P ++ new, p ≠ []) :
    ∃ s', rxStep s new = some s' ∧ RxInv (P ++ new) s' := by
  obtain ⟨⟨last, data, actual⟩, ⟨mlast, mdata, mactual⟩⟩ := s
  obtain ⟨h1, h2, h3⟩ := h
  simp only at h1 h2 h3
  subst h1
  cases mlast with
  | false =>
    obtain ⟨rfl, rfl, rfl⟩ := h2 rfl
    cases hq : data ++ new with
    | nil =>
      have hP : mdata ++ data ++ new = mdata := by rw [List.append_assoc, hq, List.append_nil]
      refine ⟨_, by simp only [rxStep, rxDrive, hq]; rfl, rfl, ?_, by intro h; cases h⟩
      intro _
      refine ⟨rfl, rfl, ?_⟩
      simp [hP]
    | cons p q =>
      have hP : mdata ++ data ++ new = mdata ++ p :: q := by rw [List.append_assoc, hq]
      refine ⟨_, by simp only [rxStep, rxDrive, hq]; rfl, rfl, (by intro h; cases h), ?_⟩
      intro _
      refine ⟨[], rfl, ?_, ?_⟩
      · exact hne p (by rw [hP]; simp)
      · simp [hP]
  | true =>
    obtain ⟨a, rfl, ha, rfl⟩ := h3 rfl
    cases actual with
    | nil =>
      rw [List.append_nil] at ha
      obtain ⟨a0, a1, rfl⟩ : ∃ x r, a = x :: r := by
        cases a with
        | nil => exact absurd rfl ha
        | cons x r => exact ⟨x, r, rfl⟩
      refine ⟨_, rfl, rfl, ?_, by intro h; cases h⟩
      intro _
      exact ⟨rfl, rfl, by simp [rxDrive]⟩
    | cons x r =>
      refine ⟨_, rfl, rfl, (by intro h; cases h), ?_⟩
      intro _
      exact ⟨a ++ [x], rfl, by simp, by simp [rxDrive]⟩

/-- number of cycles needed for packets -/
def cycles : List (List β) → Nat
  | [] => 0
  | p :: q => p.length + 2 + cycles q

theorem cycles_append (a b : List (List β)) : cycles (a ++ b) = cycles a + cycles b := by
  induction a with
  | nil => simp [cycles]
  | cons p a ih => simp only [List.cons_append, cycles, ih]; omega

def rxWork (s : RxDrv β) : Nat := cycles s.data + if s.last then s.actual.length + 1 else 0

theorem rxStep_work (s s' : RxDrv β × RxMon β) (new : List (List β)) (h : rxStep s new = some s')
    (hl : s.1.last = false → s.1.actual = []) :
    rxWork s'.1 ≤ rxWork s.1 + cycles new - 1 := by
  obtain ⟨⟨last, data, actual⟩, m⟩ := s
  unfold rxStep at h
  simp only at h hl
  obtain ⟨m', _, rfl⟩ := Option.map_eq_some_iff.1 h
  simp only
  cases actual with
  | cons x r =>
    have hlast : last = true := by
      cases last with
      | true => rfl
      | false => exact absurd (hl rfl) (by simp)
    subst hlast
    simp only [rxDrive, rxWork, cycles_append, if_true, List.length_cons]; omega
  | nil =>
    cases last with
    | true => simp only [rxDrive, rxWork, cycles_append, if_true, List.length_nil]; simp
    | false =>
      have hc := cycles_append data new
      unfold rxDrive
      simp only
      cases hq : data ++ new with
      | nil => rw [hq] at hc; simp [rxWork, cycles] 
      | cons p q =>
        rw [hq, cycles] at hc
        simp [rxWork]; omega

theorem rxRun_append (a b : List (List (List β))) (s : RxDrv β × RxMon β) :
    rxRun s (a ++ b) = (rxRun s a).bind fun s => rxRun s b := by
  induction a generalizing s with
  | nil => rfl
  | cons n a ih =>
    rw [List.cons_append, rxRun, rxRun]
    cases rxStep s n with
    | none => rfl
    | some s' => simp only [Option.bind_some]; exact ih s'

theorem rxRun_inv : ∀ (sched : List (List (List β))) (P : List (List β)) (s : RxDrv β × RxMon β), RxInv P s →
    (∀ p ∈ P ++ sched.flatten, p ≠ []) → ∃ s', rxRun s sched = some s' ∧ RxInv (P ++ sched.flatten) s' ∧
      rxWork s'.1 ≤ rxWork s.1 + cycles sched.flatten ∧ (sched.flatten = [] → rxWork s'.1 ≤ rxWork s.1 - sched.length) := by
  intro sched
  induction sched with
  | nil => intro P s h _; exact ⟨s, rfl, by simpa using h, by simp [cycles], by simp⟩
  | cons n sched ih =>
    intro P s h hne
    rw [List.flatten_cons, ← List.append_assoc] at hne ⊢
    obtain ⟨s1, hs1, hi1⟩ := rxStep_inv P n s h (fun p hp => hne p (by
      rw [List.mem_append]; exact Or.inl hp))
    obtain ⟨s2, hs2, hi2, hw2, hz2⟩ := ih (P ++ n) s1 hi1 hne
    have hw1 := rxStep_work s s1 n hs1 (fun hl => (h.2.1 hl).1)
    refine ⟨s2, by rw [rxRun, hs1]; exact hs2, hi2, ?_, ?_⟩
    · rw [cycles_append]; omega
    · intro h0
      obtain ⟨hn, hs⟩ := List.append_eq_nil_iff.1 h0
      have := hz2 hs
      rw [hn] at hw1
      rw [List.length_cons]
      simp only [cycles] at hw1
      omega

theorem rx_init_inv : RxInv ([] : List (List β)) rxInit :=
  ⟨rfl, fun _ => ⟨rfl, rfl, rfl⟩, fun h => by cases h⟩

/-- C389: for every schedule of non empty packets no assertion fails, the packets get to the monitor in the order and unchanged (the
ones which are not there yet are one packet on the interface and the queue of the driver), and all of them are there after
length + 2 cycles for each packet. -/
theorem utmi_rx (sched : List (List (List β))) (hne : ∀ p ∈ sched.flatten, p ≠ []) :
    (∃ s cur, rxRun rxInit sched = some s ∧ sched.flatten = s.2.data ++ cur ++ s.1.data ∧ cur.length ≤ 1) ∧
    ∀ n, cycles sched.flatten ≤ n → ∃ s, rxRun rxInit (sched ++ List.replicate n []) = some s ∧ s.2.data = sched.flatten := by
  obtain ⟨s, hs, hi, hw, _⟩ := rxRun_inv sched [] rxInit rx_init_inv (by simpa using hne)
  rw [List.nil_append] at hi
  constructor
  · obtain ⟨_, h2, h3⟩ := hi
    cases hl : s.1.last with
    | false => exact ⟨s, [], hs, by rw [(h2 hl).2.2]; simp, by simp⟩
    | true =>
      obtain ⟨a, _, _, h⟩ := h3 hl
      exact ⟨s, [a ++ s.1.actual], hs, h, by simp⟩
  · intro n hn
    have hflat : (List.replicate n ([] : List (List β))).flatten = [] := by
      rw [List.flatten_eq_nil_iff]; intro l hl; exact (List.mem_replicate.1 hl).2
    obtain ⟨s', hs', hi', _, hw'⟩ := rxRun_inv (List.replicate n []) sched.flatten s hi (by rw [hflat]; simpa using hne)
    refine ⟨s', by rw [rxRun_append, hs]; exact hs', ?_⟩
    rw [hflat, List.append_nil] at hi'
    have hw' := hw' hflat
    rw [List.length_replicate] at hw'
    have h0 : rxWork (rxInit (β := β)).1 = 0 := rfl
    rw [h0] at hw
    have hz : rxWork s'.1 = 0 := by omega
    unfold rxWork at hz
    obtain ⟨_, h2, _⟩ := hi'
    cases hl : s'.1.last with
    | true => rw [hl] at hz; simp at hz
    | false =>
      rw [hl] at hz
      have hd : s'.1.data = [] := by
        cases hdd : s'.1.data with
        | nil => rfl
        | cons p q => rw [hdd, cycles] at hz; omega
      have := (h2 hl).2.2
      rw [hd, List.append_nil] at this
      exact this.symm

example : (rxRun rxInit [[[1, 2], [3]], [], [], [], [], [], []]).map (fun s => s.2.data) = some [[1, 2], [3]] := by decide
/-- an empty packet is an error of the monitor -/
example : (rxRun (β := Nat) rxInit [[[]], []]).isNone = true := by decide

/-! ## C390: UTMI tx -/

def TxInv (P : List (List β)) (s : TxDrv β × TxMon β) : Prop :=
  s.2.lastValid = s.1.lastValid ∧
  (s.1.lastValid = false → s.1.actual = [] ∧ P = s.2.data ++ s.1.data) ∧
  (s.1.lastValid = true → P = s.2.data ++ [s.2.actual ++ s.1.actual] ++ s.1.data)

def txWork (s : TxDrv β) : Nat :=
  cycles s.data + if s.lastValid then s.actual.length + 2 else if s.lastReady then 1 else 0

theorem txStep_inv (P new : List (List β)) (s : TxDrv β × TxMon β) (h : TxInv P s) (hne : ∀ p ∈ P ++ new, p ≠ []) :
    ∃ s', txStep s new = some s' ∧ TxInv (P ++ new) s' ∧ txWork s'.1 ≤ txWork s.1 + cycles new - 1 := by
  obtain ⟨⟨data, actual, lr, lv⟩, ⟨mdata, mactual, mlv⟩⟩ := s
  obtain ⟨h1, h2, h3⟩ := h
  simp only at h1 h2 h3
  subst h1
  have hc := cycles_append data new
  cases mlv with
  | false =>
    obtain ⟨rfl, rfl⟩ := h2 rfl
    cases hq : data ++ new with
    | nil =>
      have hP : mdata ++ data ++ new = mdata := by rw [List.append_assoc, hq, List.append_nil]
      rw [hq] at hc
      refine ⟨_, by simp only [txStep, txPick, hq]; rfl, ⟨rfl, ?_, by intro h; cases h⟩, ?_⟩
      · intro _
        refine ⟨by simp [txMonitor], by simp [hP, txMonitor]⟩
      · simp [txWork, cycles, txMonitor]
    | cons p q =>
      have hP : mdata ++ data ++ new = mdata ++ p :: q := by rw [List.append_assoc, hq]
      rw [hq, cycles] at hc
      cases lr with
      | true =>
        refine ⟨_, by simp only [txStep, txPick, hq]; rfl, ⟨rfl, ?_, by intro h; cases h⟩, ?_⟩
        · intro _
          refine ⟨by simp [txMonitor], by simp [hP, txMonitor]⟩
        · simp [txWork, cycles, txMonitor]; omega
      | false =>
        have hp : p ≠ [] := hne p (by rw [hP]; simp)
        obtain ⟨x, r, rfl⟩ : ∃ x r, p = x :: r := by
          cases p with
          | nil => exact absurd rfl hp
          | cons x r => exact ⟨x, r, rfl⟩
        refine ⟨_, by simp only [txStep, txPick, hq]; rfl, ⟨rfl, (by intro h; cases h), ?_⟩, ?_⟩
        · intro _
          simp [hP, txMonitor]
        · rw [List.length_cons] at hc
          simp [txWork, txMonitor]; omega
  | true =>
    have := h3 rfl
    subst this
    cases actual with
    | nil =>
      refine ⟨_, rfl, ⟨rfl, ?_, by intro h; cases h⟩, ?_⟩
      · intro _
        exact ⟨rfl, by simp [txMonitor]⟩
      · simp [txWork, txMonitor, hc]; omega
    | cons x r =>
      refine ⟨_, rfl, ⟨rfl, (by intro h; cases h), ?_⟩, ?_⟩
      · intro _
        simp [txMonitor]
      · simp [txWork, txMonitor, hc]; omega

theorem txRun_append (a b : List (List (List β))) (s : TxDrv β × TxMon β) :
    txRun s (a ++ b) = (txRun s a).bind fun s => txRun s b := by
  induction a generalizing s with
  | nil => rfl
  | cons n a ih =>
    rw [List.cons_append, txRun, txRun]
    cases txStep s n with
    | none => rfl
    | some s' => simp only [Option.bind_some]; exact ih s'

theorem txRun_inv : ∀ (sched : List (List (List β))) (P : List (List β)) (s : TxDrv β × TxMon β), TxInv P s →
    (∀ p ∈ P ++ sched.flatten, p ≠ []) → ∃ s', txRun s sched = some s' ∧ TxInv (P ++ sched.flatten) s' ∧
      txWork s'.1 ≤ txWork s.1 + cycles sched.flatten ∧ (sched.flatten = [] → txWork s'.1 ≤ txWork s.1 - sched.length) := by
  intro sched
  induction sched with
  | nil => intro P s h _; exact ⟨s, rfl, by simpa using h, by simp [cycles], by simp⟩
  | cons n sched ih =>
    intro P s h hne
    rw [List.flatten_cons, ← List.append_assoc] at hne ⊢
    obtain ⟨s1, hs1, hi1, hw1⟩ := txStep_inv P n s h (fun p hp => hne p (by
      rw [List.mem_append]; exact Or.inl hp))
    obtain ⟨s2, hs2, hi2, hw2, hz2⟩ := ih (P ++ n) s1 hi1 hne
    refine ⟨s2, by rw [txRun, hs1]; exact hs2, hi2, ?_, ?_⟩
    · rw [cycles_append]; omega
    · intro h0
      obtain ⟨hn, hs⟩ := List.append_eq_nil_iff.1 h0
      have := hz2 hs
      rw [hn] at hw1
      rw [List.length_cons]
      simp only [cycles] at hw1
      omega

theorem tx_init_inv : TxInv ([] : List (List β)) txInit := ⟨rfl, fun _ => ⟨rfl, rfl⟩, fun h => by cases h⟩

/-- the tx driver with any PHY: the packets appended and `rd` in each cycle; the items which the PHY takes (valid and ready) -/
def drvRun (s : TxDrv β) : List (List (List β) × Bool) → Option (TxDrv β × List β)
  | [] => some (s, [])
  | (new, rd) :: r =>
    match txPick s new with
    | none => none
    | some (d, x) =>
      match txEnd d x rd with
      | none => none
      | some d' => (drvRun d' r).map fun p => (p.1, (if rd then x.toList else []) ++ p.2)

theorem drvRun_inv : ∀ (l : List (List (List β) × Bool)) (s s' : TxDrv β) (t : List β), drvRun s l = some (s', t) →
    s.actual ++ s.data.flatten ++ (l.flatMap (·.1)).flatten = t ++ (s'.actual ++ s'.data.flatten) := by
  intro l
  induction l with
  | nil => intro s s' t h; simp only [drvRun, Option.some.injEq, Prod.mk.injEq] at h; obtain ⟨rfl, rfl⟩ := h; simp
  | cons p l ih =>
    intro s s' t h
    obtain ⟨new, rd⟩ := p
    rw [drvRun] at h
    cases hp : txPick s new with
    | none => rw [hp] at h; cases h
    | some q =>
      obtain ⟨d, x⟩ := q
      rw [hp] at h
      dsimp only at h
      have key : s.actual ++ s.data.flatten ++ new.flatten = d.actual ++ d.data.flatten ∧ x = d.actual.head? := by
        unfold txPick at hp
        cases ha : s.actual with
        | cons y ys =>
          rw [ha] at hp
          simp only [Option.some.injEq, Prod.mk.injEq] at hp
          obtain ⟨rfl, rfl⟩ := hp
          simp
        | nil =>
          rw [ha] at hp
          dsimp only at hp
          by_cases hv : s.lastValid = true
          · rw [if_pos hv] at hp
            simp only [Option.some.injEq, Prod.mk.injEq] at hp
            obtain ⟨rfl, rfl⟩ := hp
            simp
          · rw [if_neg hv] at hp
            have hf : s.data.flatten ++ new.flatten = (s.data ++ new).flatten := by simp
            rw [List.nil_append, hf]
            cases hd : s.data ++ new with
            | nil =>
              rw [hd] at hp
              simp only [Option.some.injEq, Prod.mk.injEq] at hp
              obtain ⟨rfl, rfl⟩ := hp
              simp
            | cons b bs =>
              rw [hd] at hp
              dsimp only at hp
              by_cases hr : s.lastReady = true
              · rw [if_pos hr] at hp
                simp only [Option.some.injEq, Prod.mk.injEq] at hp
                obtain ⟨rfl, rfl⟩ := hp
                simp
              · rw [if_neg hr] at hp
                cases b with
                | nil => cases hp
                | cons y ys =>
                  simp only [Option.some.injEq, Prod.mk.injEq] at hp
                  obtain ⟨rfl, rfl⟩ := hp
                  simp
      obtain ⟨k1, k2⟩ := key
      unfold txEnd at h
      split at h
      · cases h
      · next d' hd' =>
        split at hd'
        · cases hd'
        · simp only [Option.some.injEq] at hd'
          subst hd'
          rw [Option.map_eq_some_iff] at h
          obtain ⟨⟨s2, t2⟩, h1, h2⟩ := h
          simp only [Prod.mk.injEq] at h2
          obtain ⟨rfl, rfl⟩ := h2
          have := ih _ _ _ h1
          dsimp only at this
          rw [List.flatMap_cons, List.flatten_append, ← List.append_assoc, k1, k2]
          rw [List.append_assoc (if rd = true then _ else _), ← this]
          cases rd with
          | false => simp
          | true => cases hx : d.actual <;> simp

/-- C390: the tx driver gives each item to any PHY once and in order, for all patterns of ready -/
theorem utmi_tx_driver (l : List (List (List β) × Bool)) (s : TxDrv β) (t : List β)
    (h : drvRun (txInit (β := β)).1 l = some (s, t)) :
    (l.flatMap (·.1)).flatten = t ++ (s.actual ++ s.data.flatten) := by
  have := drvRun_inv l _ _ _ h
  simpa [txInit] using this

example : (drvRun (txInit (β := Nat)).1 [([[1, 2]], true), ([], false), ([], true), ([[3]], true), ([], false), ([], false)]).map
    (fun p => (p.2, p.1.actual)) = some ([1, 2], [3]) := by decide

/-- C390: the same for the tx agents with the handshake: the ready of the monitor satisfies the check of the driver (ready in the
cycle after the packet). -/
theorem utmi_tx (sched : List (List (List β))) (hne : ∀ p ∈ sched.flatten, p ≠ []) :
    (∃ s cur, txRun txInit sched = some s ∧ sched.flatten = s.2.data ++ cur ++ s.1.data ∧ cur.length ≤ 1) ∧
    ∀ n, cycles sched.flatten ≤ n → ∃ s, txRun txInit (sched ++ List.replicate n []) = some s ∧ s.2.data = sched.flatten := by
  obtain ⟨s, hs, hi, hw, _⟩ := txRun_inv sched [] txInit tx_init_inv (by simpa using hne)
  rw [List.nil_append] at hi
  constructor
  · obtain ⟨_, h2, h3⟩ := hi
    cases hl : s.1.lastValid with
    | false => exact ⟨s, [], hs, by rw [(h2 hl).2]; simp, by simp⟩
    | true => exact ⟨s, _, hs, h3 hl, by simp⟩
  · intro n hn
    have hflat : (List.replicate n ([] : List (List β))).flatten = [] := by
      rw [List.flatten_eq_nil_iff]; intro l hl; exact (List.mem_replicate.1 hl).2
    obtain ⟨s', hs', hi', _, hw'⟩ := txRun_inv (List.replicate n []) sched.flatten s hi (by rw [hflat]; simpa using hne)
    refine ⟨s', by rw [txRun_append, hs]; exact hs', ?_⟩
    rw [hflat, List.append_nil] at hi'
    have hw' := hw' hflat
    rw [List.length_replicate] at hw'
    have h0 : txWork (txInit (β := β)).1 = 0 := rfl
    rw [h0] at hw
    have hz : txWork s'.1 = 0 := by omega
    unfold txWork at hz
    obtain ⟨_, h2, _⟩ := hi'
    cases hl : s'.1.lastValid with
    | true => rw [hl] at hz; simp at hz
    | false =>
      have hd : s'.1.data = [] := by
        cases hdd : s'.1.data with
        | nil => rfl
        | cons p q => rw [hdd, cycles] at hz; omega
      have := (h2 hl).2
      rw [hd, List.append_nil] at this
      exact this.symm

example : (txRun txInit [[[1, 2], [3]], [], [], [], [], [], []]).map (fun s => s.2.data) = some [[1, 2], [3]] := by decide
/-- an empty packet is an error of the driver -/
example : (txRun (β := Nat) txInit [[[]], []]).isNone = true := by decide

/-! ## C391: RMII -/

/-- full statement of C391: the frames appended to the driver are the frames of the monitor -/
def RmiiSpec : Prop := ∀ (frames : List (List Nat)), (∀ f ∈ frames, ∀ b ∈ f, b < 256) → ∀ idle, 0 < idle →
  rmiiRun ([], []) (rmiiDrive (frames.foldl (fun d f => appendFrame d f true) []) idle) =
    some (frames.map ([0, 0x55, 0x55, 0x55, 0x55, 0x55, 0x55, 0x55, 0xD5] ++ ·), [])

theorem rmii_violated : ¬ RmiiSpec := by
  intro h
  have := h [[1], [2]] (by decide) 1 (by decide)
  revert this
  decide +kernel

theorem byte_dibits (b : Nat) (h : b < 256) : (b / 64 % 4 * 64 ||| b / 16 % 4 * 16 ||| b / 4 % 4 * 4 ||| b % 4) = b := by
  have : ∀ b : Fin 256, (b.val / 64 % 4 * 64 ||| b.val / 16 % 4 * 16 ||| b.val / 4 % 4 * 4 ||| b.val % 4) = b.val := by
    decide +kernel
  exact this ⟨b, h⟩

theorem pop_dibits (f : List Nat) (h : ∀ b ∈ f, b < 256) : popFrame (f.flatMap dibits) = some f := by
  induction f with
  | nil => rfl
  | cons b f ih =>
    rw [List.flatMap_cons]
    simp only [dibits, List.cons_append, List.nil_append]
    rw [popFrame, byte_dibits b (h b (by simp))]
    have := ih fun x hx => h x (by simp [hx])
    rw [this]; rfl

theorem rmiiRun_append (a b : List (Option Nat)) (s : List (List Nat) × List Nat) :
    rmiiRun s (a ++ b) = (rmiiRun s a).bind fun s => rmiiRun s b := by
  induction a generalizing s with
  | nil => rfl
  | cons n a ih =>
    rw [List.cons_append, rmiiRun, rmiiRun]
    cases rmiiMonitor s n with
    | none => rfl
    | some s' => simp only [Option.bind_some]; exact ih s'

theorem rmiiRun_data (l : List Nat) (F : List (List Nat)) (c : List Nat) : rmiiRun (F, c) (l.map some) = some (F, c ++ l) := by
  induction l generalizing c with
  | nil => simp [rmiiRun]
  | cons x l ih => rw [List.map_cons, rmiiRun]; simp only [rmiiMonitor, Option.bind_some]; rw [ih]; simp

theorem rmiiRun_idle (n : Nat) (F : List (List Nat)) : rmiiRun (F, []) (List.replicate n none) = some (F, []) := by
  induction n with
  | zero => rfl
  | succ n ih => rw [List.replicate_succ, rmiiRun]; simp only [rmiiMonitor]; exact ih

theorem rmii_frame (f : List Nat) (hf : f ≠ []) (h : ∀ b ∈ f, b < 256) (F : List (List Nat)) (idle : Nat) (hi : 0 < idle) :
    rmiiRun (F, []) (rmiiDrive (f.flatMap dibits) idle) = some (F ++ [f], []) := by
  obtain ⟨n, rfl⟩ : ∃ n, idle = n + 1 := ⟨idle - 1, by omega⟩
  unfold rmiiDrive
  rw [rmiiRun_append, rmiiRun_data, Option.bind_some, List.nil_append, List.replicate_succ, rmiiRun]
  have hne : f.flatMap dibits ≠ [] := by
    cases f with
    | nil => exact absurd rfl hf
    | cons b f => simp [dibits]
  simp only [rmiiMonitor]
  rw [if_neg hne, pop_dibits f h]
  exact rmiiRun_idle n _

theorem append_fold (frames : List (List Nat)) (d : List Nat) :
    frames.foldl (fun d f => appendFrame d f true) d = d ++ (frames.flatMap (preamble ++ ·)).flatMap dibits := by
  induction frames generalizing d with
  | nil => simp
  | cons f frames ih => rw [List.foldl_cons, ih]; simp [appendFrame]

theorem preamble_lt : ∀ b ∈ preamble, b < 256 := by decide

/-- C391 (partial): frames with at least one idle cycle between are received unchanged; the frames which are appended together are
received as one frame, so the statement holds exactly for one frame. -/
theorem rmii_partial :
    (∀ (l : List (List Nat × Nat)), (∀ p ∈ l, p.1 ≠ [] ∧ (∀ b ∈ p.1, b < 256) ∧ 0 < p.2) →
      rmiiRun ([], []) (l.flatMap fun p => rmiiDrive (appendFrame [] p.1 false) p.2) = some (l.map (·.1), [])) ∧
    (∀ (frames : List (List Nat)), frames ≠ [] → (∀ f ∈ frames, ∀ b ∈ f, b < 256) → ∀ idle, 0 < idle →
      rmiiRun ([], []) (rmiiDrive (frames.foldl (fun d f => appendFrame d f true) []) idle) =
        some ([frames.flatMap ([0, 0x55, 0x55, 0x55, 0x55, 0x55, 0x55, 0x55, 0xD5] ++ ·)], [])) := by
  have hpre : [0, 0x55, 0x55, 0x55, 0x55, 0x55, 0x55, 0x55, 0xD5] = preamble := rfl
  rw [hpre]
  constructor
  · intro l hl
    have key : ∀ (l : List (List Nat × Nat)) (F : List (List Nat)), (∀ p ∈ l, p.1 ≠ [] ∧ (∀ b ∈ p.1, b < 256) ∧ 0 < p.2) →
        rmiiRun (F, []) (l.flatMap fun p => rmiiDrive (appendFrame [] p.1 false) p.2) = some (F ++ l.map (·.1), []) := by
      intro l
      induction l with
      | nil => intro F _; simp [rmiiRun]
      | cons p l ih =>
        intro F h
        obtain ⟨h1, h2, h3⟩ := h p (by simp)
        rw [List.flatMap_cons, rmiiRun_append]
        have : appendFrame [] p.1 false = p.1.flatMap dibits := rfl
        rw [this, rmii_frame p.1 h1 h2 F p.2 h3, Option.bind_some, ih _ fun x hx => h x (by simp [hx])]
        simp
    simpa using key l [] hl
  · intro frames hne h idle hi
    rw [append_fold, List.nil_append]
    have := rmii_frame (frames.flatMap (preamble ++ ·)) (by
      cases frames with
      | nil => exact absurd rfl hne
      | cons f r => simp [preamble]) (by
      intro b hb
      obtain ⟨f, hf, hb⟩ := List.mem_flatMap.1 hb
      rcases List.mem_append.1 hb with hb | hb
      · exact preamble_lt b hb
      · exact h f hf b hb) [] idle hi
    simpa using this

example : rmiiRun ([], []) (rmiiDrive (appendFrame [] [0xAB, 0x12] true) 1) = some ([preamble ++ [0xAB, 0x12]], []) := by
  decide +kernel
example : ∀ p ∈ [([1, 2], 1), ([255], 3)], p.1 ≠ [] ∧ (∀ b ∈ p.1, b < 256) ∧ 0 < p.2 := by decide

end Verif.PhyAgents
