import Verif.AxiMatrixRun
/-!
# Properties of the AXI interconnect matrix (C127-C133)

`taken`, `gives` and `accepted` (AxiMatrixRun.lean) are computed from the ports of the matrix in each cycle of a run:
words transferred from an input, words transferred to an output and accepted requests with the slave whose range
contains the address. `plan i k` is the `k`-th burst of data which sender `i` sends, it is arbitrary.
-/
namespace Verif.AxiMatrix
open Verif.SplitJoin (anyN isSelected prioInit rol1 OneHot)

universe u v
variable {α : Type u} {β : Type v} {γ : Type v}

/-! ## C127 requests -/

/-- Each request accepted from a master is in the same cycle taken by exactly the slave whose range contains its address
with the address relative to the slave, and each request taken by a slave comes from exactly one master. -/
def RoutedOnce (c : Cfg) (x : AIn α) (o : AOut α) : Prop :=
  (∀ m, m < c.nM → x.vld m = true → o.mRd m = true →
    ∃ s, s < c.nS ∧ c.con m s = true ∧ InRange c s (x.req m).addr ∧ o.slvVld s = true ∧ x.rd s = true ∧
      o.slvReq s = some ⟨(x.req m).addr - c.base s, (x.req m).info⟩ ∧
      ∀ m', m' < c.nM → x.vld m' = true → o.mRd m' = true → InRange c s (x.req m').addr → m' = m) ∧
  (∀ s, s < c.nS → o.slvVld s = true → x.rd s = true →
    ∃ m, m < c.nM ∧ c.con m s = true ∧ x.vld m = true ∧ o.mRd m = true ∧ InRange c s (x.req m).addr)

theorem routedOnce {c : Cfg} (hc : CfgOk c) {p : Nat → Nat → Bool} (hp : PrioOk c p) {x : AIn α}
    (hx : AddrOk c x) : RoutedOnce c x (aOut c p x) := by
  refine ⟨fun m hm hv hr => ?_, fun s hs hv hr => ?_⟩
  · obtain ⟨s, h⟩ := (acc_iff_m hc hx hm).1 (show (x.vld m && mRd c p x m) = true by
      rw [hv, show mRd c p x m = true from hr]; rfl)
    have hs := (acc_iff_s hc hx h.hs).2 ⟨m, h⟩
    rw [h.rd, Bool.and_true] at hs
    refine ⟨s, h.hs, h.con, h.rng, hs, h.rd, acc_req hc hp hx h, fun m' hm' hv' hr' hi => ?_⟩
    obtain ⟨s', h'⟩ := (acc_iff_m hc hx hm').1 (show (x.vld m' && mRd c p x m') = true by
      rw [hv', show mRd c p x m' = true from hr']; rfl)
    have := hc.disjoint s' s _ h'.hs h.hs h'.rng hi
    subst this
    exact acc_inj hp h' h
  · obtain ⟨m, h⟩ := (acc_iff_s hc hx hs).1 (show (slvVld c p x s && x.rd s) = true by
      rw [hr, show slvVld c p x s = true from hv]; rfl)
    have hm := (acc_iff_m hc hx h.hm).2 ⟨s, h⟩
    rw [h.vld, Bool.true_and] at hm
    exact ⟨m, h.hm, h.con, h.vld, hm, h.rng⟩

theorem read_prio {c : Cfg} (h : 0 < c.nM) (is : List (RIn α β)) : PrioOk c ((readMatrix c).final rInit is).p :=
  Machine.inv_final _ (fun s : RSt => PrioOk c s.p) (fun _ => True) (fun _ _ h _ => prioOk_next h) is _
    (prioOk_init h) (fun _ _ => trivial)

theorem write_prio {c : Cfg} (h : 0 < c.nM) (is : List (WIn α β γ)) : PrioOk c ((writeMatrix c).final wInit is).p :=
  Machine.inv_final _ (fun s : WSt => PrioOk c s.p) (fun _ => True) (fun _ _ h _ => prioOk_next h) is _
    (prioOk_init h) (fun _ _ => trivial)

/-- **C127** read requests, after every history. -/
theorem matrix_requests_read {c : Cfg} (hc : CfgOk c) (is : List (RIn α β)) (i : RIn α β) (hx : AddrOk c i.a) :
    RoutedOnce c i.a ((readMatrix c).outAfter rInit is i).a :=
  routedOnce hc (read_prio hc.nM is) hx

/-- **C127** write requests, after every history. -/
theorem matrix_requests_write {c : Cfg} (hc : CfgOk c) (is : List (WIn α β γ)) (i : WIn α β γ)
    (hx : AddrOk c i.a) : RoutedOnce c i.a ((writeMatrix c).outAfter wInit is i).a :=
  routedOnce hc (write_prio hc.nM is) hx

/-- Two masters, two slaves with ranges 0x10-0x1f and 0x20-0x2f, both masters use both. -/
def cfg2 : Cfg := ⟨2, 2, fun _ _ => true, 6, fun s => 16 + 16 * s, fun _ => 16⟩

theorem cfg2_ok : CfgOk cfg2 := by
  refine ⟨by decide, fun s _ => by simp [cfg2], fun s hs => ?_, fun s s' a _ _ h h' => ?_⟩
  · simp only [cfg2] at hs ⊢; omega
  · simp only [InRange, cfg2] at h h'; omega

/-- Master 0 asks for 0x12, master 1 for 0x25: both are accepted at once. -/
def req2 : AIn Nat := ⟨fun _ => true, fun m => if m = 0 then ⟨0x12, 7⟩ else ⟨0x25, 8⟩, fun _ => true, fun _ => true,
  fun _ => true⟩
def idle2 : XIn Nat := ⟨fun _ => true, fun _ => 0, fun _ => true, fun _ => 0, fun _ => false, fun _ => ⟨0, false⟩,
  fun _ => false⟩

example : AddrOk cfg2 req2 ∧ ((readMatrix cfg2).outAfter rInit [] (⟨req2, idle2⟩ : RIn Nat Nat)).a.mRd 0 = true ∧
    ((readMatrix cfg2).outAfter rInit [] (⟨req2, idle2⟩ : RIn Nat Nat)).a.mRd 1 = true ∧
    ((readMatrix cfg2).outAfter rInit [] (⟨req2, idle2⟩ : RIn Nat Nat)).a.slvReq 1 = some ⟨5, 8⟩ := by
  refine ⟨?_, by decide, by decide, by decide⟩
  intro m _; simp only [req2]; split <;> simp [cfg2]

/-! ## C128 read data -/

/-- Requests accepted by the read matrix in a run, in order, as pairs (slave, master). -/
abbrev readReqs (c : Cfg) (tr : List (RIn α β × ROut α β)) : List (Nat × Nat) :=
  tr.flatMap (fun e => swapped (accepted c (e.1.a, e.2.a)))

/-- **C128** If every slave answers its requests in order with one burst for each, then every master receives exactly the
bursts which answer its own requests, in the order of its requests, and everything is delivered when the slaves gave
everything; for every configuration, interleaving and stalling. -/
theorem matrix_read_data {c : Cfg} (hc : CfgOk c) (plan : Nat → Nat → List (Beat β))
    (hplan : ∀ s k, IsBurst (plan s k)) (is : List (RIn α β)) (hx : ∀ i ∈ is, AddrOk c i.a)
    (henv : ∀ s, s < c.nS → taken RIn.r ROut.r ((readMatrix c).trace rInit is) s
      <+: firstBursts plan s (cnt (readReqs c ((readMatrix c).trace rInit is)) s)) :
    (∀ m, m < c.nM → gives RIn.r ROut.r ((readMatrix c).trace rInit is) m
      <+: (expected plan (readReqs c ((readMatrix c).trace rInit is)) m).map some) ∧
    ((∀ s, s < c.nS → taken RIn.r ROut.r ((readMatrix c).trace rInit is) s
        = firstBursts plan s (cnt (readReqs c ((readMatrix c).trace rInit is)) s)) →
      ∀ m, m < c.nM → gives RIn.r ROut.r ((readMatrix c).trace rInit is) m
        = (expected plan (readReqs c ((readMatrix c).trace rInit is)) m).map some) :=
  (readMatrix_xbar hc).routes (prioOk_init hc.nM) rfl hplan is hx henv

/-- A run: cycle 0 master 0 asks slave 0 and master 1 asks slave 1; then both slaves give bursts. -/
def plan2 : Nat → Nat → List (Beat Nat) := fun s k => [⟨10 * s + k, false⟩, ⟨10 * s + k + 100, true⟩]
def beats2 (l : Bool) (a b : Nat) : XIn Nat := ⟨fun _ => true, fun _ => 0, fun _ => true, fun _ => 0, fun _ => true,
  fun s => if s = 0 then ⟨a, l⟩ else ⟨b, l⟩, fun _ => true⟩
def noReq : AIn Nat := { req2 with vld := fun _ => false }
def run2 : List (RIn Nat Nat) := [⟨req2, idle2⟩, ⟨noReq, beats2 false 0 10⟩, ⟨noReq, beats2 true 100 110⟩]

example : readReqs cfg2 ((readMatrix cfg2).trace rInit run2) = [(0, 0), (1, 1)] ∧
    (∀ s, s < 2 → taken RIn.r ROut.r ((readMatrix cfg2).trace rInit run2) s
      = firstBursts plan2 s (cnt (readReqs cfg2 ((readMatrix cfg2).trace rInit run2)) s)) ∧
    gives RIn.r ROut.r ((readMatrix cfg2).trace rInit run2) 1 = [some ⟨10, false⟩, some ⟨110, true⟩] := by
  refine ⟨by decide, by decide, by decide⟩

/-! ## C129 no deadlock of the data -/

/-- **C129** As long as an answer of a slave is missing: if the slaves which owe data offer it, the masters accept and the
order fifos show their heads then some word is transferred in this cycle. -/
theorem matrix_read_progress {c : Cfg} (hc : CfgOk c) (plan : Nat → Nat → List (Beat β))
    (hplan : ∀ s k, IsBurst (plan s k)) (is : List (RIn α β)) (hx : ∀ i ∈ is, AddrOk c i.a)
    (henv : ∀ s, s < c.nS → taken RIn.r ROut.r ((readMatrix c).trace rInit is) s
      <+: firstBursts plan s (cnt (readReqs c ((readMatrix c).trace rInit is)) s))
    (i : RIn α β)
    (hv : ∀ s, s < c.nS → taken RIn.r ROut.r ((readMatrix c).trace rInit is) s
      ≠ firstBursts plan s (cnt (readReqs c ((readMatrix c).trace rInit is)) s) → i.r.vld s = true)
    (hr : ∀ m, m < c.nM → i.r.rd m = true) (hav : ∀ s, s < c.nS → i.r.av s = true)
    (hbv : ∀ m, m < c.nM → i.r.bv m = true)
    (hmiss : ∃ s, s < c.nS ∧ taken RIn.r ROut.r ((readMatrix c).trace rInit is) s
      ≠ firstBursts plan s (cnt (readReqs c ((readMatrix c).trace rInit is)) s)) :
    ∃ s, s < c.nS ∧ i.r.vld s = true ∧ ((readMatrix c).outAfter rInit is i).r.rd s = true :=
  (readMatrix_xbar hc).progress (prioOk_init hc.nM) rfl hplan is hx henv i hv hr hav hbv hmiss

example : taken RIn.r ROut.r ((readMatrix cfg2).trace rInit (run2.take 2)) 0
    ≠ firstBursts plan2 0 (cnt (readReqs cfg2 ((readMatrix cfg2).trace rInit (run2.take 2))) 0) := by decide

/-- Requests accepted by the write matrix in a run, in order, as pairs (master, slave). -/
abbrev writeReqs (c : Cfg) (tr : List (WIn α β γ × WOut α β γ)) : List (Nat × Nat) :=
  tr.flatMap (fun e => accepted c (e.1.a, e.2.a))

theorem matrix_write_progress {c : Cfg} (hc : CfgOk c) (plan : Nat → Nat → List (Beat β))
    (hplan : ∀ m k, IsBurst (plan m k)) (is : List (WIn α β γ)) (hx : ∀ i ∈ is, AddrOk c i.a)
    (henv : ∀ m, m < c.nM → taken WIn.w WOut.w ((writeMatrix c).trace wInit is) m
      <+: firstBursts plan m (cnt (writeReqs c ((writeMatrix c).trace wInit is)) m))
    (i : WIn α β γ)
    (hv : ∀ m, m < c.nM → taken WIn.w WOut.w ((writeMatrix c).trace wInit is) m
      ≠ firstBursts plan m (cnt (writeReqs c ((writeMatrix c).trace wInit is)) m) → i.w.vld m = true)
    (hr : ∀ s, s < c.nS → i.w.rd s = true) (hav : ∀ m, m < c.nM → i.w.av m = true)
    (hbv : ∀ s, s < c.nS → i.w.bv s = true)
    (hmiss : ∃ m, m < c.nM ∧ taken WIn.w WOut.w ((writeMatrix c).trace wInit is) m
      ≠ firstBursts plan m (cnt (writeReqs c ((writeMatrix c).trace wInit is)) m)) :
    ∃ m, m < c.nM ∧ i.w.vld m = true ∧ ((writeMatrix c).outAfter wInit is i).w.rd m = true :=
  (writeMatrix_xbar hc).progress (prioOk_init hc.nM) rfl hplan is hx henv i hv hr hav hbv hmiss

/-! ## C130 write data and responses -/

/-- **C130** Write data: if every master sends one burst for each of its requests in order, then every slave receives the
bursts of the requests it accepted, in the order in which it accepted them. -/
theorem matrix_write_data {c : Cfg} (hc : CfgOk c) (plan : Nat → Nat → List (Beat β))
    (hplan : ∀ m k, IsBurst (plan m k)) (is : List (WIn α β γ)) (hx : ∀ i ∈ is, AddrOk c i.a)
    (henv : ∀ m, m < c.nM → taken WIn.w WOut.w ((writeMatrix c).trace wInit is) m
      <+: firstBursts plan m (cnt (writeReqs c ((writeMatrix c).trace wInit is)) m)) :
    (∀ s, s < c.nS → gives WIn.w WOut.w ((writeMatrix c).trace wInit is) s
      <+: (expected plan (writeReqs c ((writeMatrix c).trace wInit is)) s).map some) ∧
    ((∀ m, m < c.nM → taken WIn.w WOut.w ((writeMatrix c).trace wInit is) m
        = firstBursts plan m (cnt (writeReqs c ((writeMatrix c).trace wInit is)) m)) →
      ∀ s, s < c.nS → gives WIn.w WOut.w ((writeMatrix c).trace wInit is) s
        = (expected plan (writeReqs c ((writeMatrix c).trace wInit is)) s).map some) :=
  (writeMatrix_xbar hc).routes (prioOk_init hc.nM) rfl hplan is hx henv

/-- Requests accepted by the write matrix in a run, in order, as pairs (slave, master). -/
abbrev writeReqs' (c : Cfg) (tr : List (WIn α β γ × WOut α β γ)) : List (Nat × Nat) :=
  tr.flatMap (fun e => swapped (accepted c (e.1.a, e.2.a)))

/-- Responses taken from a slave. -/
def respTaken (tr : List (WIn α β γ × WOut α β γ)) (s : Nat) : List γ :=
  tr.flatMap (fun e => given (e.1.b.vld s && e.2.b.rd s) (e.1.b.beat s).data)
/-- Responses given to a master. -/
def respGiven (tr : List (WIn α β γ × WOut α β γ)) (m : Nat) : List (Option γ) :=
  tr.flatMap (fun e => given (e.2.b.vld m && e.1.b.rd m) ((e.2.b.beat m).map Beat.data))

theorem taken_resp (tr : List (WIn α β γ × WOut α β γ)) (s : Nat) :
    taken (fun i : WIn α β γ => allLast i.b) WOut.b tr s = (respTaken tr s).map (fun d => ⟨d, true⟩) := by
  unfold taken respTaken
  rw [List.map_flatMap]
  refine List.flatMap_congr fun e _ => ?_
  simp only [allLast]
  cases (e.1.b.vld s && e.2.b.rd s) <;> rfl

theorem gives_resp (tr : List (WIn α β γ × WOut α β γ)) (m : Nat) :
    respGiven tr m = (gives (fun i : WIn α β γ => allLast i.b) WOut.b tr m).map (Option.map Beat.data) := by
  unfold gives respGiven
  rw [List.map_flatMap]
  refine List.flatMap_congr fun e _ => ?_
  simp only [allLast]
  cases (e.2.b.vld m && e.1.b.rd m) <;> rfl

/-- The responses which answer the requests of master `m`. -/
def expectedResp (resp : Nat → Nat → γ) (G : List (Nat × Nat)) (m : Nat) : List γ :=
  ((tagFrom (fun _ => 0) G).filter (fun t => t.2.1 == m)).map (fun t => resp t.1 t.2.2)

theorem expected_resp (resp : Nat → Nat → γ) (G : List (Nat × Nat)) (m : Nat) :
    (expected (fun s k => [⟨resp s k, true⟩]) G m).map Beat.data = expectedResp resp G m := by
  unfold expected expectedResp
  rw [List.map_flatMap]
  simp only [List.map_cons, List.map_nil]
  rw [List.map_eq_flatMap]

theorem firstBursts_resp (resp : Nat → Nat → γ) (s n : Nat) :
    firstBursts (fun s k => [⟨resp s k, true⟩]) s n = ((List.range n).map (resp s)).map (fun d => (⟨d, true⟩ : Beat γ)) := by
  unfold firstBursts
  rw [List.map_map, List.map_eq_flatMap]
  rfl

/-- **C130** Write responses: every master receives the responses to its own requests in the order of its requests, all of
them if the slaves gave all of them. -/
theorem matrix_write_resp {c : Cfg} (hc : CfgOk c) (resp : Nat → Nat → γ) (is : List (WIn α β γ))
    (hx : ∀ i ∈ is, AddrOk c i.a)
    (henv : ∀ s, s < c.nS → respTaken ((writeMatrix c).trace wInit is) s
      <+: (List.range (cnt (writeReqs' c ((writeMatrix c).trace wInit is)) s)).map (resp s)) :
    (∀ m, m < c.nM → respGiven ((writeMatrix c).trace wInit is) m
      <+: (expectedResp resp (writeReqs' c ((writeMatrix c).trace wInit is)) m).map some) ∧
    ((∀ s, s < c.nS → respTaken ((writeMatrix c).trace wInit is) s
        = (List.range (cnt (writeReqs' c ((writeMatrix c).trace wInit is)) s)).map (resp s)) →
      ∀ m, m < c.nM → respGiven ((writeMatrix c).trace wInit is) m
        = (expectedResp resp (writeReqs' c ((writeMatrix c).trace wInit is)) m).map some) := by
  have h := (writeMatrix_bxbar (α := α) (β := β) (γ := γ) hc).routes (s0 := wInit) (prioOk_init hc.nM) rfl
    (plan := fun s k => [⟨resp s k, true⟩]) (fun s k => ⟨[], ⟨resp s k, true⟩, rfl, rfl, by simp⟩) is hx (by
      intro s hs
      rw [taken_resp, firstBursts_resp]
      exact (henv s hs).map _)
  have hm : ∀ m, (expectedResp resp (writeReqs' c ((writeMatrix c).trace wInit is)) m).map some
      = ((expected (fun s k => [⟨resp s k, true⟩]) (writeReqs' c ((writeMatrix c).trace wInit is)) m).map
          some).map (Option.map Beat.data) := by
    intro m
    rw [← expected_resp, List.map_map, List.map_map]
    rfl
  refine ⟨fun m hm' => ?_, fun hall m hm' => ?_⟩
  · rw [gives_resp, hm]
    exact (h.1 m hm').map _
  · rw [gives_resp, hm, h.2 (by
      intro s hs
      rw [taken_resp, firstBursts_resp, hall s hs]) m hm']

/-- Write run: master 0 writes two words to slave 0 and master 1 to slave 1, the responses follow. -/
def wrun2 : List (WIn Nat Nat Nat) := [⟨req2, idle2, idle2⟩, ⟨noReq, beats2 false 0 10, idle2⟩,
  ⟨noReq, beats2 true 100 110, idle2⟩, ⟨noReq, idle2, beats2 false 5 6⟩]

example : writeReqs cfg2 ((writeMatrix cfg2).trace wInit wrun2) = [(0, 0), (1, 1)] ∧
    (∀ m, m < 2 → taken WIn.w WOut.w ((writeMatrix cfg2).trace wInit wrun2) m
      = firstBursts plan2 m (cnt (writeReqs cfg2 ((writeMatrix cfg2).trace wInit wrun2)) m)) ∧
    respTaken ((writeMatrix cfg2).trace wInit wrun2) 1 = [6] ∧
    respGiven ((writeMatrix cfg2).trace wInit wrun2) 1 = [some 6] := by
  refine ⟨by decide, by decide, by decide, by decide⟩

/-! ## C131 every request is accepted -/

/-- Full property: a request which is held by a master while slaves and order fifos accept is accepted. -/
def EveryAccepted (c : Cfg) : Prop :=
  ∀ (stim : Nat → RIn Nat Nat) (m t0 : Nat), m < c.nM → (∀ t, AddrOk c (stim t).a) →
    (∀ t, t0 ≤ t → (stim t).a.vld m = true ∧ (stim t).a.req m = (stim t0).a.req m) →
    (∀ t k, (stim t).a.rd k = true ∧ (stim t).a.rdM k = true ∧ (stim t).a.rdS k = true) →
    ∃ t, t0 ≤ t ∧ ((readMatrix c).outAt rInit stim t).a.mRd m = true

/-- **C131** is violated: a request for an address outside of all slaves is never accepted (there is no error response),
the master hangs. -/
theorem matrix_unmapped_hangs : ¬ EveryAccepted cfg2 := by
  intro h
  obtain ⟨t, _, ht⟩ := h (fun _ => ⟨⟨fun _ => true, fun _ => ⟨0x30, 0⟩, fun _ => true, fun _ => true, fun _ => true⟩, idle2⟩)
    0 0 (by decide) (fun _ _ _ => by simp [cfg2]) (fun _ _ => ⟨rfl, rfl⟩) (fun _ _ => ⟨rfl, rfl, rfl⟩)
  have hx : AddrOk cfg2 (⟨fun _ => true, fun _ => ⟨0x30, 0⟩, fun _ => true, fun _ => true, fun _ => true⟩ : AIn Nat) :=
    fun _ _ => by simp [cfg2]
  obtain ⟨s, hs⟩ := (acc_iff_m cfg2_ok hx (m := 0) (by decide)
    (p := ((readMatrix cfg2).stateAt rInit _ t).p)).1 (by rw [Bool.true_and]; exact ht)
  have := hs.rng
  have h2 := hs.hs
  simp only [InRange, cfg2] at this h2
  omega

/-- A master hangs for every address which no slave has, whatever else happens. -/
theorem matrix_unmapped_never {c : Cfg} (hc : CfgOk c) (is : List (RIn α β)) (i : RIn α β) (hx : AddrOk c i.a)
    (m : Nat) (hm : m < c.nM) (h : ∀ s, s < c.nS → c.con m s = true → ¬ InRange c s (i.a.req m).addr) :
    ¬ (i.a.vld m = true ∧ ((readMatrix c).outAfter rInit is i).a.mRd m = true) := by
  rintro ⟨hv, hr⟩
  obtain ⟨s, hs⟩ := (acc_iff_m hc hx hm).1 (show (i.a.vld m && mRd c _ i.a m) = true by
    rw [hv, show mRd c ((readMatrix c).final rInit is).p i.a m = true from hr]; rfl)
  exact h s hs.hs hs.con hs.rng

theorem read_prioAt {c : Cfg} (h : 0 < c.nM) (stim : Nat → RIn α β) (t s : Nat) :
    OneHot c.nM (((readMatrix c).stateAt rInit stim t).p s) (t % c.nM) := by
  induction t with
  | zero => rw [Nat.zero_mod]; exact SplitJoin.init_oneHot c.nM
  | succ t ih =>
    have := SplitJoin.rol_oneHot (Nat.mod_lt _ h) ih
    rw [Nat.mod_add_mod] at this
    exact this

/-- **C131** (part) A request to an address of a connected slave is accepted within as many cycles as there are masters if
the slave and the order fifos accept, whatever the other masters do. Missing: addresses which belong to no slave. -/
theorem matrix_accept_partial {c : Cfg} (hc : CfgOk c) (stim : Nat → RIn α β) (m s t0 : Nat) (hm : m < c.nM)
    (hs : s < c.nS) (hcon : c.con m s = true) (hx : ∀ t, AddrOk c (stim t).a)
    (hv : ∀ t, t0 ≤ t → t < t0 + c.nM → (stim t).a.vld m = true ∧ InRange c s ((stim t).a.req m).addr)
    (hr : ∀ t, t0 ≤ t → t < t0 + c.nM →
      (stim t).a.rd s = true ∧ (stim t).a.rdM m = true ∧ (stim t).a.rdS s = true) :
    ∃ t, t0 ≤ t ∧ t < t0 + c.nM ∧ ((readMatrix c).outAt rInit stim t).a.mRd m = true := by
  have hn := hc.nM
  obtain ⟨t, h1, h2, h3⟩ : ∃ t, t0 ≤ t ∧ t < t0 + c.nM ∧ t % c.nM = m := by
    have hlt := Nat.mod_lt t0 hn
    refine ⟨t0 + (m + c.nM - t0 % c.nM) % c.nM, by omega, by have := Nat.mod_lt (m + c.nM - t0 % c.nM) hn; omega, ?_⟩
    rw [Nat.add_mod_mod, Nat.add_mod, Nat.add_comm]
    have e : m + c.nM - t0 % c.nM + t0 % c.nM = m + c.nM := by omega
    rw [Nat.add_comm, ← Nat.mod_add_mod]
    by_cases hle : t0 % c.nM ≤ m
    · have : (m + c.nM - t0 % c.nM) % c.nM = m - t0 % c.nM := by
        rw [show m + c.nM - t0 % c.nM = (m - t0 % c.nM) + c.nM by omega, Nat.add_mod_right,
          Nat.mod_eq_of_lt (by omega)]
      simp only [Nat.mod_mod, this]
      rw [show t0 % c.nM + (m - t0 % c.nM) = m by omega, Nat.mod_eq_of_lt hm]
    · have : (m + c.nM - t0 % c.nM) % c.nM = m + c.nM - t0 % c.nM := Nat.mod_eq_of_lt (by omega)
      simp only [Nat.mod_mod, this]
      rw [show t0 % c.nM + (m + c.nM - t0 % c.nM) = m + c.nM by omega, Nat.add_mod_right, Nat.mod_eq_of_lt hm]
  refine ⟨t, h1, h2, ?_⟩
  have hp := read_prioAt hn stim t s
  rw [h3] at hp
  obtain ⟨v1, v2⟩ := hv t h1 h2
  obtain ⟨r1, r2, r3⟩ := hr t h1 h2
  have haV : aV c (stim t).a s m = true := (aV_iff hc (hx t) hm hs).2 ⟨hcon, v1, v2, fun _ => r2⟩
  have hsel : sel c ((readMatrix c).stateAt rInit stim t).p (stim t).a s m = true := by
    unfold sel isSelected
    split
    · rfl
    · exact ((SplitJoin.ack_valid hm hp haV m hm).2 rfl).1
  have := (acc_iff_m hc (hx t) hm).2 ⟨s, (⟨hm, hs, hcon, v1, v2, haV, hsel, r1, fun _ => r2, fun _ => r3⟩ :
    Acc c ((readMatrix c).stateAt rInit stim t).p (stim t).a m s)⟩
  rw [v1, Bool.true_and] at this
  exact this

example : InRange cfg2 1 (req2.req 1).addr ∧ cfg2.con 1 1 = true := by decide

/-! ## C132 request of a slave while it is not ready -/

/-- Full property (AXI): while `valid` of a slave request is set its data is defined, and as long as the slave is not ready
and the masters hold their requests it does not change. -/
def SlaveRequestStable (c : Cfg) : Prop :=
  ∀ (is : List (RIn Nat Nat)) (i j : RIn Nat Nat) (s : Nat), s < c.nS → AddrOk c i.a → j.a.vld = i.a.vld →
    j.a.req = i.a.req → j.a.rdM = i.a.rdM → j.a.rdS = i.a.rdS →
    ((readMatrix c).outAfter rInit is i).a.slvVld s = true → i.a.rd s = false →
    ((readMatrix c).outAfter rInit is i).a.slvReq s ≠ none ∧
    ((readMatrix c).outAfter rInit (is ++ [i]) j).a.slvVld s = true ∧
    ((readMatrix c).outAfter rInit (is ++ [i]) j).a.slvReq s = ((readMatrix c).outAfter rInit is i).a.slvReq s

/-- **C132** is violated: the data multiplexer is enabled by `ready` of the slave, a slave which waits for `valid` before it
sets `ready` sees an undefined address. -/
theorem matrix_slave_req_undefined : ¬ SlaveRequestStable cfg2 := by
  intro h
  have := (h [] ⟨{ req2 with rd := fun _ => false }, idle2⟩ ⟨{ req2 with rd := fun _ => false }, idle2⟩ 0 (by decide)
    (by intro m _; simp only [req2]; split <;> simp [cfg2]) rfl rfl rfl rfl (by decide) rfl).1
  exact this (by decide)

/-- Two requests for slave 0. -/
def both0 (rd : Bool) : AIn Nat := ⟨fun _ => true, fun m => ⟨0x12 + m, m⟩, fun _ => rd, fun _ => true, fun _ => true⟩

/-- **C132** Moreover the arbiter moves on while the slave is not ready: the request offered in one cycle is not the one
which would be taken in the next. -/
theorem matrix_slave_req_moves :
    ((readMatrix cfg2).outAfter rInit [] (⟨both0 true, idle2⟩ : RIn Nat Nat)).a.slvReq 0 = some ⟨2, 0⟩ ∧
    ((readMatrix cfg2).outAfter rInit [(⟨both0 false, idle2⟩ : RIn Nat Nat)] ⟨both0 true, idle2⟩).a.slvReq 0
      = some ⟨3, 1⟩ := by
  refine ⟨by decide, by decide⟩

/-- **C132** (part) `valid` is not taken back while the masters hold their requests, and the data is defined in the cycle
in which the slave takes the request. Missing: data defined and stable before. -/
theorem matrix_slave_req_partial {c : Cfg} (hc : CfgOk c) (is : List (RIn α β)) (i j : RIn α β) (s : Nat)
    (hs : s < c.nS) (hx : AddrOk c i.a) (hv : j.a.vld = i.a.vld) (hq : j.a.req = i.a.req)
    (hM : j.a.rdM = i.a.rdM) (hS : j.a.rdS = i.a.rdS)
    (hsv : ((readMatrix c).outAfter rInit is i).a.slvVld s = true) :
    (i.a.rd s = true → ((readMatrix c).outAfter rInit is i).a.slvReq s ≠ none) ∧
    ((readMatrix c).outAfter rInit (is ++ [i]) j).a.slvVld s = true := by
  constructor
  · intro hr
    obtain ⟨m, h⟩ := (acc_iff_s hc hx hs).1 (show (slvVld c _ i.a s && i.a.rd s) = true by
      rw [hr, show slvVld c ((readMatrix c).final rInit is).p i.a s = true from hsv]; rfl)
    have := acc_req hc (read_prio hc.nM is) hx h
    rw [show ((readMatrix c).outAfter rInit is i).a.slvReq s
      = slvReq c ((readMatrix c).final rInit is).p i.a s from rfl, this]
    simp
  · have hav : aV c j.a s = aV c i.a s := by
      funext m; unfold aV slvEn; rw [hv, hq, hM]
    have h1 : slvVld c ((readMatrix c).final rInit is).p i.a s = true := hsv
    show slvVld c ((readMatrix c).final rInit (is ++ [i])).p j.a s = true
    simp only [slvVld, mastersOf, Bool.and_eq_true, List.any_eq_true, List.mem_filter, List.mem_range] at h1 ⊢
    obtain ⟨⟨m, ⟨hm, hcon⟩, _, h2⟩, h3⟩ := h1
    rw [hS]
    refine ⟨?_, h3⟩
    obtain ⟨q, hq', ho⟩ := read_prio (α := α) (β := β) hc.nM (is ++ [i]) s
    obtain ⟨k, hk, hk', _⟩ := SplitJoin.isSelected_unique (v := aV c j.a s) hq' ho ⟨m, hm, by rw [hav]; exact h2⟩
    refine ⟨k, ⟨hk, ?_⟩, hk'⟩
    have := hk'.2
    unfold aV at this
    rcases Bool.eq_false_or_eq_true (c.con k s) with e | e
    · exact e
    · simp [e] at this

example : ((readMatrix cfg2).outAfter rInit [] (⟨both0 false, idle2⟩ : RIn Nat Nat)).a.slvVld 0 = true := by decide

/-! ## C133 address width of slaves -/

/-- Full property: the address port of a slave can hold every address of the slave. -/
def WidthFits (size : Nat) : Prop := ∀ a, a < size → a < 2 ^ slaveAddrWidth size

/-- **C133** is violated for sizes `2^k + 1`: the width of the address port of a slave with 3 bytes is 1 bit. -/
theorem matrix_width_short (k : Nat) (hk : 1 ≤ k) : ¬ WidthFits (2 ^ k + 1) := by
  intro h
  have := h (2 ^ k) (by omega)
  have e : slaveAddrWidth (2 ^ k + 1) = k := by
    unfold slaveAddrWidth log2ceil
    have h2 : 2 ≤ 2 ^ k := by
      have := Nat.pow_le_pow_right (n := 2) (by omega) hk
      omega
    rw [Nat.add_sub_cancel, if_neg (by omega)]
    have hl : Nat.log2 (2 ^ k - 1) = k - 1 := by
      rw [Nat.log2_eq_iff (by omega)]
      have e1 : k - 1 + 1 = k := by omega
      rw [e1]
      have e2 : 2 ^ k = 2 * 2 ^ (k - 1) := by rw [← Nat.pow_succ', Nat.succ_eq_add_one, e1]
      have := Nat.two_pow_pos (k - 1)
      omega
    rw [hl]; omega
  rw [e] at this
  omega

/-- **C133** (part) the width fits for all other sizes. -/
theorem matrix_width_partial (size : Nat) (h : ∀ k, 1 ≤ k → size ≠ 2 ^ k + 1) : WidthFits size := by
  intro a ha
  unfold slaveAddrWidth log2ceil
  split
  · simp; omega
  · have h1 := @Nat.lt_log2_self (size - 1 - 1)
    have h2 := h (Nat.log2 (size - 1 - 1) + 1) (by omega)
    omega

/-- 4 KiB and 12 bytes are not of the form `2^k + 1`. -/
example : WidthFits 4096 ∧ WidthFits 12 := by
  constructor <;> intro a ha
  · have : slaveAddrWidth 4096 = 12 := by decide
    rw [this]; omega
  · have : slaveAddrWidth 12 = 4 := by decide
    rw [this]; omega

end Verif.AxiMatrix
