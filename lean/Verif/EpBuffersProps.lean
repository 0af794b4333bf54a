import Verif.EpBuffers
import Verif.AxisFifoDropProps
import Verif.AxisFifoCopyProps

/-! # Properties of `UsbDeviceEpBuffers` -/

namespace Verif.EpBuffers

universe u
variable {α : Type u}

/-! ## From the host -/

/-- What is seen on the ports of the rx part. -/
structure RxObs (α : Type u) where
  /-- words accepted from the core for the endpoint, of the packet which is not complete -/
  st : Nat → List (AxisFifoDrop.W α)
  /-- words of packets without error for the endpoint -/
  exp : Nat → List (AxisFifoDrop.W α)
  /-- words taken from the endpoint -/
  taken : Nat → List (AxisFifoDrop.W α)
  /-- endpoint of the packet which is not complete -/
  cur : Option Nat
  /-- the last word with an error waits for ready -/
  hold : Option (Nat × AxisFifoDrop.W α)

def RxObs.init : RxObs α := ⟨fun _ => [], fun _ => [], fun _ => [], none, none⟩

def RxObs.step (c : RxCfg) (s : RxSt α) (o : RxObs α) (x : RxIn α) : RxObs α where
  st := fun i => if x.vld && rxReady c s x && x.endp == i then (if x.w.last then [] else o.st i ++ [x.w]) else o.st i
  exp := fun i => if x.vld && rxReady c s x && x.endp == i && x.w.last && !x.err then o.exp i ++ (o.st i ++ [x.w]) else o.exp i
  taken := fun i => o.taken i ++ given ((rxOut c s x i).1 && x.rdy i) (rxOut c s x i).2
  cur := if x.vld && rxReady c s x then (if x.w.last then none else some x.endp) else o.cur
  hold := if x.vld && x.w.last && x.err && !rxReady c s x then some (x.endp, x.w) else none

abbrev RxSys (α : Type u) := RxSt α × RxObs α
def rxSysInit (c : RxCfg) (mem0 : Nat → Nat → AxisFifoDrop.W α) (d0 : Nat → AxisFifoDrop.W α) : RxSys α := (rxInit c mem0 d0, RxObs.init)
def rxSys (c : RxCfg) (y : RxSys α) (x : RxIn α) : RxSys α := (rxNext c y.1 x, y.2.step c y.1 x)
def rxRun (c : RxCfg) (y : RxSys α) (xs : List (RxIn α)) : RxSys α := xs.foldl (rxSys c) y

/-- The core: packets are not interleaved and the word with an error is kept until it is accepted. -/
def RxEnv (o : RxObs α) (x : RxIn α) : Prop :=
  (∀ e, o.cur = some e → x.vld = true → x.endp = e) ∧
  ∀ e w, o.hold = some (e, w) → x.vld = true ∧ x.err = true ∧ x.w = w ∧ x.endp = e

/-- No error is in the cycle in which the read pointer of the fifo of the endpoint can wrap. -/
def RxNoWrap (c : RxCfg) (s : RxSt α) (o : RxObs α) (x : RxIn α) (i : Nat) : Prop :=
  ¬ ((x.vld && x.w.last && x.err) = true ∧ (x.rdy i = true ∨ (rxOut c s x i).1 = false) ∧
    ((o.taken i).length + (rxOut c s x i).1.toNat + 1) % (c.depth i - 1) = 0)

def RxAlong (c : RxCfg) (i : Nat) : RxSys α → List (RxIn α) → Prop
  | _, [] => True
  | y, x :: xs => (RxEnv y.2 x ∧ RxNoWrap c y.1 y.2 x i) ∧ RxAlong c i (rxSys c y x) xs

theorem rx_transfer (c : RxCfg) (s : RxSt α) (x : RxIn α) {i : Nat} (hi : i ∈ c.eps) :
    (rxValid c s x i && rxRd c s x i) = (x.vld && rxReady c s x && x.endp == i) := by
  unfold rxValid rxReady
  by_cases he : x.endp = i
  · have h1 : ((c.eps.filter (· != i)).all fun j => rxRd c s x j || x.endp != j) = true := by
      rw [List.all_eq_true]
      intro j hj
      have := (List.mem_filter.mp hj).2
      have hne : x.endp ≠ j := by rw [he]; intro e; simp [e] at this
      simp [hne]
    have h2 : (c.eps.all fun j => rxRd c s x j || x.endp != j) = rxRd c s x i := by
      cases hr : rxRd c s x i with
      | true =>
        rw [List.all_eq_true]
        intro j _
        by_cases e : j = i
        · rw [e, hr]; rfl
        · have hne : x.endp ≠ j := by rw [he]; exact fun e' => e e'.symm
          simp [hne]
      | false =>
        rw [List.all_eq_false]
        exact ⟨i, hi, by simp [hr, he]⟩
    rw [h1, h2]
    simp [he]
    cases x.vld <;> cases x.endpVld <;> cases rxRd c s x i <;> rfl
  · have : (x.endp == i) = false := by simpa using he
    rw [this]
    simp

structure RxInv (c : RxCfg) (i : Nat) (y : RxSys α) : Prop where
  f : ∃ fst s' n t, AxisFifoDrop.InvD (c.depth i) (y.1 i, ⟨fst, y.2.exp i, y.2.taken i⟩) s' n t ∧
    (fst = y.2.st i ∨ (fst = [] ∧ ∃ w, y.2.hold = some (i, w)))
  st : y.2.st i ≠ [] → y.2.cur = some i
  hl : ∀ e w, y.2.hold = some (e, w) → w.last = true

theorem rx_step {c : RxCfg} {i : Nat} (hi : i ∈ c.eps) (hD : 2 ≤ c.depth i) {y : RxSys α} (h : RxInv c i y) {x : RxIn α}
    (he : RxEnv y.2 x) (hn : RxNoWrap c y.1 y.2 x i) : RxInv c i (rxSys c y x) := by
  obtain ⟨s, o⟩ := y
  obtain ⟨⟨fst, s', n, t, hinv, hfst⟩, hst, hhl⟩ := h
  simp only at hinv hfst hst hhl he hn
  have hd0 : c.depth i ≠ 0 := by omega
  have hov : (rxOut c s x i).1 = (AxisFifoDrop.out (c.depth i) (s i)).vld := by simp [rxOut, hd0]
  have how : (rxOut c s x i).2 = (AxisFifoDrop.out (c.depth i) (s i)).w := by simp [rxOut, hd0]
  have hrd : rxRd c s x i = (AxisFifoDrop.out (c.depth i) (s i)).rd := by simp [rxRd, hd0]
  have htr := rx_transfer c s x hi
  rw [hrd] at htr
  have hnw : AxisFifoDrop.NoWrap (c.depth i) ⟨fst, o.exp i, o.taken i⟩ (rxFifoIn c s x i) (AxisFifoDrop.out (c.depth i) (s i)) := by
    unfold RxNoWrap at hn
    rw [hov] at hn
    exact hn
  obtain ⟨s2, n2, t2, hstep⟩ : ∃ s2 n2 t2, AxisFifoDrop.InvD (c.depth i)
      (AxisFifoDrop.sys (c.depth i) (s i, ⟨fst, o.exp i, o.taken i⟩) (rxFifoIn c s x i)) s2 n2 t2 :=
    ⟨_, _, _, AxisFifoDrop.step_invD hD hinv hnw⟩
  have hs : (rxSys c (s, o) x).1 i = AxisFifoDrop.next (c.depth i) (s i) (rxFifoIn c s x i) := by
    show (if c.depth i = 0 then _ else _) = _
    rw [if_neg hd0]
  -- the incomplete packet is for the endpoint of the input
  have hother : x.vld = true → x.endp ≠ i → o.st i = [] := by
    intro hv hne
    rcases Classical.em (o.st i = []) with e | e
    · exact e
    · exact absurd (he.1 i (hst e) hv) hne
  refine ⟨?_, ?_, ?_⟩
  · refine ⟨(AxisFifoDrop.sys (c.depth i) (s i, ⟨fst, o.exp i, o.taken i⟩) (rxFifoIn c s x i)).2.st, s2, n2, t2, ?_, ?_⟩
    · have e1 : (rxSys c (s, o) x).2.exp i =
          (AxisFifoDrop.sys (c.depth i) (s i, ⟨fst, o.exp i, o.taken i⟩) (rxFifoIn c s x i)).2.exp := by
        show (if x.vld && rxReady c s x && x.endp == i && x.w.last && !x.err then _ else _) =
          (if rxDiscard x then o.exp i else if rxValid c s x i && (AxisFifoDrop.out (c.depth i) (s i)).rd && x.w.last
            then o.exp i ++ (fst ++ [x.w]) else o.exp i)
        rw [htr]
        cases hd : rxDiscard x with
        | true =>
          have : x.err = true := by simp only [rxDiscard, Bool.and_eq_true] at hd; exact hd.2
          simp [this]
        | false =>
          simp only [Bool.false_eq_true, if_false]
          cases ht : (x.vld && rxReady c s x && x.endp == i && x.w.last) with
          | false => simp
          | true =>
            simp only [Bool.and_eq_true] at ht
            have herr : x.err = false := by
              simp only [rxDiscard, ht.1.1.1, ht.2, Bool.true_and] at hd; exact hd
            have : fst = o.st i := by
              rcases hfst with e | ⟨_, w, hw⟩
              · exact e
              · have := (he.2 i w hw).2.1
                rw [herr] at this; cases this
            simp [herr, this]
      have e2 : (rxSys c (s, o) x).2.taken i =
          (AxisFifoDrop.sys (c.depth i) (s i, ⟨fst, o.exp i, o.taken i⟩) (rxFifoIn c s x i)).2.taken := by
        show o.taken i ++ given ((rxOut c s x i).1 && x.rdy i) (rxOut c s x i).2 = _
        rw [hov, how]; rfl
      rw [e1, e2, hs]
      exact hstep
    · show (if rxDiscard x then [] else if rxValid c s x i && (AxisFifoDrop.out (c.depth i) (s i)).rd then
          (if x.w.last then [] else fst ++ [x.w]) else fst) = (if x.vld && rxReady c s x && x.endp == i then
          (if x.w.last then [] else o.st i ++ [x.w]) else o.st i) ∨ _
      rw [htr]
      cases hd : rxDiscard x with
      | true =>
        simp only [if_true]
        have hd' := hd
        simp only [rxDiscard, Bool.and_eq_true] at hd'
        by_cases hie : x.endp = i
        · cases hrdy : rxReady c s x with
          | true => left; simp [hd'.1.1, hd'.1.2, hie]
          | false =>
            right
            refine ⟨?_, x.w, ?_⟩
            · show (if rxDiscard x then [] else _) = []
              rw [hd]; rfl
            show (if x.vld && x.w.last && x.err && !rxReady c s x then _ else _) = _
            simp [hd'.1.1, hd'.1.2, hd'.2, hrdy, hie]
        · left
          rw [hother hd'.1.1 hie]
          simp [hie]
      | false =>
        left
        simp only [Bool.false_eq_true, if_false]
        have : fst = o.st i := by
          rcases hfst with e | ⟨_, w, hw⟩
          · exact e
          · obtain ⟨g1, g2, g3, g4⟩ := he.2 i w hw
            have := hhl i w hw
            simp [rxDiscard, g1, g2, g3, this] at hd
        rw [this]
  · intro hne
    show (if x.vld && rxReady c s x then (if x.w.last then none else some x.endp) else o.cur) = some i
    have hne' : (if x.vld && rxReady c s x && x.endp == i then (if x.w.last then [] else o.st i ++ [x.w]) else o.st i) ≠ [] := hne
    cases ht : x.vld && rxReady c s x with
    | false => rw [ht] at hne'; simp at hne' ⊢; exact hst hne'
    | true =>
      rw [ht] at hne'
      simp only [Bool.true_and] at hne'
      by_cases hie : x.endp = i
      · simp only [hie, beq_self_eq_true, if_true] at hne'
        cases hl : x.w.last with
        | true => rw [hl] at hne'; simp at hne'
        | false => simp [hie]
      · simp only [beq_iff_eq, hie, if_false] at hne'
        simp only [Bool.and_eq_true] at ht
        exact absurd (hother ht.1 hie) hne'
  · intro e w hw
    have hw' : (if x.vld && x.w.last && x.err && !rxReady c s x then some (x.endp, x.w) else none) = some (e, w) := hw
    split at hw'
    · next hc =>
      simp only [Option.some.injEq, Prod.mk.injEq] at hw'
      simp only [Bool.and_eq_true] at hc
      rw [← hw'.2]; exact hc.1.1.2
    · cases hw'

theorem rx_init {c : RxCfg} {i : Nat} (hD : 2 ≤ c.depth i) (mem0 : Nat → Nat → AxisFifoDrop.W α) (d0 : Nat → AxisFifoDrop.W α) :
    RxInv c i (rxSysInit c mem0 d0) := by
  refine ⟨⟨[], _, 0, 0, AxisFifoDrop.init_invD hD (mem0 i) (d0 i), .inl rfl⟩, ?_, ?_⟩
  · intro h; exact absurd rfl h
  · intro e w h; cases h

theorem rx_run {c : RxCfg} {i : Nat} (hi : i ∈ c.eps) (hD : 2 ≤ c.depth i) (xs : List (RxIn α)) : ∀ (y : RxSys α), RxInv c i y →
    RxAlong c i y xs → RxInv c i (rxRun c y xs) := by
  induction xs with
  | nil => intro y h _; exact h
  | cons x xs ih => intro y h ha; exact ih _ (rx_step hi hD h ha.1.1 ha.1.2) ha.2

/-- The endpoint gets exactly its packets without error: nothing else is offered and nothing is lost. -/
def RxGood (c : RxCfg) (i : Nat) (y : RxSys α) (x x' : RxIn α) : Prop :=
  y.2.taken i <+: y.2.exp i ∧
  ((rxOut c y.1 x i).1 = true → (y.2.exp i)[(y.2.taken i).length]? = some (rxOut c y.1 x i).2) ∧
  ((y.2.taken i).length < (y.2.exp i).length → (rxOut c y.1 x i).1 = true ∨ (rxOut c (rxSys c y x).1 x' i).1 = true)

/-- C274: an endpoint with a buffer gets exactly the packets which are for it and which have no error, for any packets for other endpoints,
if there is no error in the cycle in which the read pointer of its fifo wraps. -/
theorem rx_packets_partial (c : RxCfg) (i : Nat) (hi : i ∈ c.eps) (hD : 2 ≤ c.depth i) (mem0 : Nat → Nat → AxisFifoDrop.W α)
    (d0 : Nat → AxisFifoDrop.W α) (xs : List (RxIn α)) (h : RxAlong c i (rxSysInit c mem0 d0) xs) (x x' : RxIn α) :
    RxGood c i (rxRun c (rxSysInit c mem0 d0) xs) x x' := by
  have hinv := rx_run hi hD xs _ (rx_init hD mem0 d0) h
  generalize rxRun c (rxSysInit c mem0 d0) xs = y at hinv
  obtain ⟨⟨fst, s', n, t, hf, _⟩, _, _⟩ := hinv
  have g := AxisFifoDrop.good_of_inv hD hf
  have hd0 : c.depth i ≠ 0 := by omega
  have hov : ∀ (s : RxSt α) x, (rxOut c s x i).1 = (AxisFifoDrop.out (c.depth i) (s i)).vld := by intro s x; simp [rxOut, hd0]
  have how : (rxOut c y.1 x i).2 = (AxisFifoDrop.out (c.depth i) (y.1 i)).w := by simp [rxOut, hd0]
  refine ⟨g.pre, ?_, ?_⟩
  · intro hv
    rw [hov] at hv
    rw [how]
    exact g.word hv
  · intro hl
    rw [hov, hov]
    have := g.offered (rxFifoIn c y.1 x i) hl
    have hs : (rxSys c y x).1 i = AxisFifoDrop.next (c.depth i) (y.1 i) (rxFifoIn c y.1 x i) := by
      show (if c.depth i = 0 then _ else _) = _
      rw [if_neg hd0]
    rw [hs]
    exact this

def RxEnvAlong (c : RxCfg) : RxSys α → List (RxIn α) → Prop
  | _, [] => True
  | y, x :: xs => RxEnv y.2 x ∧ RxEnvAlong c (rxSys c y x) xs

/-- The full claim, with progress: if there is nothing stored in the buffer of the endpoint, a word for it is accepted. -/
def RxPackets (c : RxCfg) : Prop :=
  ∀ (i : Nat) (mem0 : Nat → Nat → AxisFifoDrop.W Nat) (d0 : Nat → AxisFifoDrop.W Nat) (xs : List (RxIn Nat)) (x x' : RxIn Nat), i ∈ c.eps →
    RxEnvAlong c (rxSysInit c mem0 d0) xs →
    RxGood c i (rxRun c (rxSysInit c mem0 d0) xs) x x' ∧
    ((rxRun c (rxSysInit c mem0 d0) xs).2.exp i = (rxRun c (rxSysInit c mem0 d0) xs).2.taken i →
      (rxRun c (rxSysInit c mem0 d0) xs).2.st i = [] → x.endpVld = true → x.endp = i → rxReady c (rxRun c (rxSysInit c mem0 d0) xs).1 x = true)

def exCfg : RxCfg := ⟨[1, 2], fun _ => 3⟩
def zw : AxisFifoDrop.W Nat := ⟨0, false⟩

/-- Two packets of one word for the endpoint 1; a packet with an error for the endpoint 2 comes when the function reads the second word. -/
def exErr : List (RxIn Nat) :=
  [⟨true, 1, true, ⟨7, true⟩, false, fun _ => false⟩, ⟨true, 1, true, ⟨8, true⟩, false, fun _ => false⟩,
   ⟨true, 2, true, ⟨9, true⟩, true, fun _ => true⟩, ⟨true, 1, false, zw, false, fun _ => true⟩]

/-- C274: an error in a packet for an other endpoint can block the endpoint: its buffer is empty and looks as full. -/
theorem rx_packets_fails : ¬ RxPackets exCfg := by
  intro h
  have h1 := (h 1 (fun _ _ => zw) (fun _ => zw) exErr ⟨true, 1, true, ⟨1, true⟩, false, fun _ => true⟩
    ⟨true, 1, true, ⟨1, true⟩, false, fun _ => true⟩ (by decide) ?_).2
  · exact absurd (h1 (by decide) (by decide) rfl rfl) (by decide)
  · simp only [RxEnvAlong, exErr, RxEnv]
    refine ⟨⟨?_, ?_⟩, ⟨?_, ?_⟩, ⟨?_, ?_⟩, ⟨?_, ?_⟩, trivial⟩
    all_goals first | (intro e w h; cases h; done) | (intro e h; cases h; done)

example : RxAlong exCfg 1 (rxSysInit exCfg (fun _ _ => zw) (fun _ => zw)) (exErr.take 2) ∧
    (rxRun exCfg (rxSysInit exCfg (fun _ _ => zw) (fun _ => zw)) (exErr.take 2)).2.exp 1 = [⟨7, true⟩, ⟨8, true⟩] := by
  refine ⟨?_, by decide⟩
  simp only [RxAlong, exErr, RxEnv, RxNoWrap, List.take]
  refine ⟨⟨⟨?_, ?_⟩, by decide⟩, ⟨⟨?_, ?_⟩, by decide⟩, trivial⟩
  all_goals first | (intro e w h; cases h; done) | (intro e h; cases h; done)

/-- C275: words for an endpoint without rx are accepted and dropped with stall, nothing is offered on any endpoint for them. -/
theorem rx_absent (c : RxCfg) (s : RxSt α) (x : RxIn α) (h : x.endp ∉ c.eps) :
    rxStall c x = true ∧ rxReady c s x = x.endpVld ∧ ∀ i, i ∈ c.eps → rxValid c s x i = false := by
  refine ⟨by simp [rxStall, h], ?_, ?_⟩
  · unfold rxReady
    have : (c.eps.all fun j => rxRd c s x j || x.endp != j) = true := by
      rw [List.all_eq_true]
      intro j hj
      have : x.endp ≠ j := fun e => h (e ▸ hj)
      simp [this]
    rw [this, Bool.and_true]
  · intro i hi
    have : x.endp ≠ i := fun e => h (e ▸ hi)
    simp [rxValid, this]

example : (5 : Nat) ∉ exCfg.eps := by decide

/-! ## To the host -/

/-- What is seen on the ports of the tx part. -/
structure TxObs (α : Type u) where
  /-- words accepted from the endpoint -/
  acc : Nat → List (AxisFifoCopy.W α)
  /-- number of words of the endpoint which were sent -/
  p : Nat → Nat

def TxObs.step (c : TxCfg) (s : TxSt α) (o : TxObs α) (x : TxIn α) : TxObs α where
  acc := fun i => o.acc i ++ given (x.vld i && epReady c s x i) (x.w i)
  p := fun i => if txValid c s x && x.rdy && x.endp == i then o.p i + 1 else o.p i

abbrev TxSys (α : Type u) := TxSt α × TxObs α
def txSysInit (c : TxCfg) (mem0 : Nat → Nat → AxisFifoCopy.W α) (d0 : Nat → AxisFifoCopy.W α) (p0 : Nat → Unit) : TxSys α :=
  (txInit c mem0 d0 p0, ⟨fun _ => [], fun _ => 0⟩)
def txSys (c : TxCfg) (y : TxSys α) (x : TxIn α) : TxSys α := (txNext c y.1 x, y.2.step c y.1 x)
def txRun (c : TxCfg) (y : TxSys α) (xs : List (TxIn α)) : TxSys α := xs.foldl (txSys c) y

/-- Number of complete packets in the words. -/
def lasts (l : List (AxisFifoCopy.W α)) : Nat := l.countP fun w => w.last

theorem all_ok {l : List Nat} {f : Nat → Bool} {i : Nat} (hi : i ∈ l) (h : ∀ j, j ∈ l → j ≠ i → f j = true) : l.all f = f i := by
  cases hf : f i with
  | true =>
    rw [List.all_eq_true]
    intro j hj
    by_cases e : j = i
    · rw [e]; exact hf
    · exact h j hj e
  | false =>
    rw [List.all_eq_false]
    exact ⟨i, hi, by simp [hf]⟩

theorem filter_ok {l : List Nat} {f : Nat → Bool} {i : Nat} (h : ∀ j, j ∈ l → j ≠ i → f j = true) : (l.filter (· != i)).all f = true := by
  rw [List.all_eq_true]
  intro j hj
  have := List.mem_filter.mp hj
  exact h j this.1 (by simpa using this.2)

section Sel
variable {c : TxCfg} {s : TxSt α} {x : TxIn α} {i : Nat}

theorem fOk_other (h : x.endp = i) {j : Nat} (hj : j ≠ i) : fOk c s x j = true := by
  have : x.endp ≠ j := by rw [h]; exact fun e => hj e.symm
  simp [fOk, this]

theorem pOk_other (h : x.endp = i) {j : Nat} (hj : j ≠ i) : pOk c s x j = true := by
  have : x.endp ≠ j := by rw [h]; exact fun e => hj e.symm
  simp [pOk, this]

theorem txValid_eq (hi : i ∈ c.eps) (hd : c.depth i ≠ 0) (h : x.endp = i) :
    txValid c s x = (x.endpVld && ((s i).fifo.outVld && (s i).pbf.outVld)) := by
  unfold txValid
  rw [all_ok hi (fun j _ hj => fOk_other h hj), all_ok hi (fun j _ hj => pOk_other h hj)]
  have hd' : (c.depth i == 0) = false := by simpa using hd
  simp [fOk, pOk, fVld, h, hd, hd']

theorem fRdy_eq (hi : i ∈ c.eps) (hd : c.depth i ≠ 0) :
    fRdy c s x i = (x.endpVld && (s i).pbf.outVld && x.rdy && x.endp == i) := by
  by_cases h : x.endp = i
  · unfold fRdy
    rw [filter_ok (fun j _ hj => fOk_other h hj), all_ok hi (fun j _ hj => pOk_other h hj)]
    have hd' : (c.depth i == 0) = false := by simpa using hd
    simp [pOk, h, hd']
  · have : (x.endp == i) = false := by simpa using h
    rw [fRdy, this]; simp

theorem pRdy_eq (hi : i ∈ c.eps) (hd : c.depth i ≠ 0) :
    pRdy c s x i = (x.endpVld && (s i).fifo.outVld && x.rdy && (x.endp == i && (s i).fifo.fifo.dout.last)) := by
  have hw : (chWord c s x i).last = (s i).fifo.fifo.dout.last := by
    simp only [chWord, hd, if_false, AxisFifoCopy.out]
    split <;> rfl
  by_cases h : x.endp = i
  · unfold pRdy
    rw [filter_ok (fun j _ hj => pOk_other h hj), all_ok hi (fun j _ hj => fOk_other h hj), hw]
    simp [fOk, fVld, h, hd]
  · have : (x.endp == i) = false := by simpa using h
    rw [pRdy, this]; simp

end Sel

structure TxInv (c : TxCfg) (i : Nat) (y : TxSys α) : Prop where
  f : ∃ b, AxisFifoCopy.InvC (c.depth i) ((y.1 i).fifo, ⟨y.2.acc i, b, y.2.p i, none⟩) ∧
    ∀ (j : Nat) w, b ≤ j → j < y.2.p i → (y.2.acc i)[j]? = some w → w.last = false
  q : HsFifo.Inv (c.pdepth i) (y.1 i).pbf
  n : (HsFifo.queue (c.pdepth i) (y.1 i).pbf).length + lasts ((y.2.acc i).take (y.2.p i)) = lasts (y.2.acc i)

theorem InvC.p_le {D : Nat} {s : AxisFifoCopy.St α} {o : AxisFifoCopy.Obs α} (h : AxisFifoCopy.InvC D (s, o)) : o.p ≤ o.acc.length := by
  have := h.f.pw
  simp only at this
  omega

theorem tx_step {c : TxCfg} {i : Nat} (hi : i ∈ c.eps) (hD : 3 ≤ c.depth i) {y : TxSys α} (h : TxInv c i y) (x : TxIn α) :
    TxInv c i (txSys c y x) := by
  obtain ⟨s, o⟩ := y
  obtain ⟨⟨b, hf, hb⟩, hq, hn⟩ := h
  simp only at hf hb hq hn
  have hd : c.depth i ≠ 0 := by omega
  have hs : (txSys c (s, o) x).1 i =
      ⟨AxisFifoCopy.next (c.depth i) (s i).fifo (fIn c s x i), HsFifo.next (c.pdepth i) (s i).pbf (pIn c s x i)⟩ := by
    show (if c.depth i = 0 then _ else _) = _
    rw [if_neg hd]
  have hstep := AxisFifoCopy.step_inv hf (fIn c s x i)
  have hrep : (s i).fifo.repVld = false := by
    have := hf.r
    simp only at this
    cases hr : (s i).fifo.repVld with
    | false => rfl
    | true => rw [hr] at this; cases this
  have how : (AxisFifoCopy.out (c.depth i) (s i).fifo).w = (s i).fifo.fifo.dout := by simp [AxisFifoCopy.out, hrep]
  have hov : (AxisFifoCopy.out (c.depth i) (s i).fifo).vld = (s i).fifo.outVld := rfl
  have hfr := fRdy_eq (s := s) (x := x) hi hd
  have hpr := pRdy_eq (s := s) (x := x) hi hd
  -- transfers on ports are transfers of fifos
  have ta : (x.vld i && epReady c s x i) = ((fIn c s x i).vld && (AxisFifoCopy.out (c.depth i) (s i).fifo).rd) := by
    show (x.vld i && (if c.depth i = 0 then fRdy c s x i else fRd c s i && (pRd c s i || pSkip x i))) =
      ((x.vld i && (pRd c s i || pSkip x i)) && fRd c s i)
    rw [if_neg hd]
    cases x.vld i <;> cases fRd c s i <;> simp
  have tp : (txValid c s x && x.rdy && x.endp == i) = ((s i).fifo.outVld && fRdy c s x i) := by
    rw [hfr]
    by_cases h : x.endp = i
    · rw [txValid_eq hi hd h]
      cases x.endpVld <;> cases (s i).fifo.outVld <;> cases (s i).pbf.outVld <;> cases x.rdy <;> simp
    · have : (x.endp == i) = false := by simpa using h
      rw [this]; simp
  have tq : ((s i).pbf.outVld && pRdy c s x i) = ((s i).fifo.outVld && fRdy c s x i && (s i).fifo.fifo.dout.last) := by
    rw [hfr, hpr]
    cases x.endpVld <;> cases (s i).fifo.outVld <;> cases (s i).pbf.outVld <;> cases x.rdy <;> simp
  have ti : ((pIn c s x i).vld && pRd c s i) = (x.vld i && epReady c s x i && (x.w i).last) := by
    show ((x.vld i && fRd c s i && (x.w i).last && !pSkip x i) && pRd c s i) =
      (x.vld i && (if c.depth i = 0 then fRdy c s x i else fRd c s i && (pRd c s i || pSkip x i)) && (x.w i).last)
    rw [if_neg hd]
    unfold pSkip
    cases x.vld i <;> cases fRd c s i <;> cases (x.w i).last <;> cases pRd c s i <;> simp
  have eacc : (txSys c (s, o) x).2.acc i =
      o.acc i ++ given ((fIn c s x i).vld && (AxisFifoCopy.out (c.depth i) (s i).fifo).rd) (x.w i) := by
    show o.acc i ++ given (x.vld i && epReady c s x i) (x.w i) = _
    rw [ta]
  have ep : (txSys c (s, o) x).2.p i = if (s i).fifo.outVld && fRdy c s x i then o.p i + 1 else o.p i := by
    show (if txValid c s x && x.rdy && x.endp == i then _ else _) = _
    rw [tp]
  have hpl := InvC.p_le hf
  simp only at hpl
  refine ⟨⟨(AxisFifoCopy.sys (c.depth i) ((s i).fifo, ⟨o.acc i, b, o.p i, none⟩) (fIn c s x i)).2.b, ?_, ?_⟩, ?_, ?_⟩
  · have e : AxisFifoCopy.sys (c.depth i) ((s i).fifo, ⟨o.acc i, b, o.p i, none⟩) (fIn c s x i) =
        (((txSys c (s, o) x).1 i).fifo, ⟨(txSys c (s, o) x).2.acc i,
          (AxisFifoCopy.sys (c.depth i) ((s i).fifo, ⟨o.acc i, b, o.p i, none⟩) (fIn c s x i)).2.b, (txSys c (s, o) x).2.p i, none⟩) := by
      rw [hs, eacc, ep]
      simp only [AxisFifoCopy.sys, AxisFifoCopy.Obs.step, Prod.mk.injEq, AxisFifoCopy.Obs.mk.injEq, true_and]
      refine ⟨rfl, ?_, ?_⟩
      · show (if (s i).fifo.outVld && fRdy c s x i then (if _ && false then _ else _) else _) = _
        simp
      · show (if _ then (if false = true then _ else none) else none) = none
        simp
    rw [e] at hstep
    exact hstep
  · intro j w hj1 hj2 hw
    have hj1' : (if (s i).fifo.outVld && fRdy c s x i && (AxisFifoCopy.out (c.depth i) (s i).fifo).w.last && !false then o.p i + 1 else b) ≤ j := hj1
    rw [how] at hj1'
    rw [ep] at hj2
    rw [eacc] at hw
    cases ht : ((s i).fifo.outVld && fRdy c s x i) with
    | false =>
      rw [ht] at hj1' hj2
      simp only [Bool.false_and, Bool.false_eq_true, if_false] at hj1' hj2
      rw [List.getElem?_append_left (by omega)] at hw
      exact hb j w hj1' hj2 hw
    | true =>
      rw [ht] at hj1' hj2
      simp only [Bool.true_and, Bool.not_false, Bool.and_true, if_true] at hj1' hj2
      cases hl : (s i).fifo.fifo.dout.last with
      | true => rw [hl] at hj1'; simp only [if_true] at hj1'; omega
      | false =>
        rw [hl] at hj1'
        simp only [Bool.false_eq_true, if_false] at hj1'
        simp only [Bool.and_eq_true] at ht
        have g1 := (hf.o ht.1).1
        simp only at g1
        have hlt := (List.getElem?_eq_some_iff.mp g1).1
        rw [List.getElem?_append_left (by omega)] at hw
        by_cases e : j = o.p i
        · rw [e, g1] at hw
          simp only [Option.some.injEq] at hw
          rw [← hw]; exact hl
        · exact hb j w hj1' (by omega) hw
  · rw [hs]
    exact (HsFifo.step (s i).pbf (pIn c s x i) hq).1
  · have hc := (HsFifo.step (s i).pbf (pIn c s x i) hq).2
    have hl := congrArg List.length hc
    have ho1 : (HsFifo.out (c.pdepth i) (s i).pbf (pIn c s x i)).rd = pRd c s i := rfl
    have ho2 : (HsFifo.out (c.pdepth i) (s i).pbf (pIn c s x i)).vld = (s i).pbf.outVld := rfl
    have ho3 : (pIn c s x i).rd = pRdy c s x i := rfl
    rw [ho1, ho2, ho3, ti, tq] at hl
    have elen1 : ∀ (b : Bool) (u : Unit), (if b then some u else none).toList.length = b.toNat := by intro b u; cases b <;> rfl
    simp only [List.length_append, elen1] at hl
    rw [hs, eacc, ep, ← ta]
    show (HsFifo.queue (c.pdepth i) (HsFifo.next (c.pdepth i) (s i).pbf (pIn c s x i))).length + _ = _
    have hla : lasts (o.acc i ++ given (x.vld i && epReady c s x i) (x.w i)) =
        lasts (o.acc i) + (x.vld i && epReady c s x i && (x.w i).last).toNat := by
      unfold lasts
      rw [List.countP_append]
      cases (x.vld i && epReady c s x i) <;> cases hwl : (x.w i).last <;> simp [given, hwl]
    have htk : lasts ((o.acc i ++ given (x.vld i && epReady c s x i) (x.w i)).take
        (if (s i).fifo.outVld && fRdy c s x i then o.p i + 1 else o.p i)) =
        lasts ((o.acc i).take (o.p i)) + ((s i).fifo.outVld && fRdy c s x i && (s i).fifo.fifo.dout.last).toNat := by
      cases ht : ((s i).fifo.outVld && fRdy c s x i) with
      | false =>
        simp only [Bool.false_eq_true, if_false, Bool.false_and, Bool.toNat_false, Nat.add_zero]
        rw [List.take_append_of_le_length hpl]
      | true =>
        simp only [Bool.and_eq_true] at ht
        obtain ⟨g1, _⟩ := hf.o ht.1
        simp only at g1
        have hlt := (List.getElem?_eq_some_iff.mp g1).1
        simp only [if_true, Bool.true_and]
        rw [List.take_append_of_le_length (by omega), List.take_add_one, g1]
        unfold lasts
        rw [List.countP_append]
        cases hwl : (s i).fifo.fifo.dout.last <;> simp [hwl]
    rw [hla, htk]
    omega

theorem tx_init {c : TxCfg} {i : Nat} (hD : 3 ≤ c.depth i) (hP : 2 ≤ c.pdepth i) (mem0 : Nat → Nat → AxisFifoCopy.W α)
    (d0 : Nat → AxisFifoCopy.W α) (p0 : Nat → Unit) : TxInv c i (txSysInit c mem0 d0 p0) := by
  refine ⟨⟨0, AxisFifoCopy.init_inv hD (mem0 i) (d0 i) 0, fun j w _ h => absurd h (Nat.not_lt_zero j)⟩, ?_, ?_⟩
  · exact HsFifo.init_inv [] (by simp only [List.length_nil]; omega) p0 ()
  · show (HsFifo.queue (c.pdepth i) (HsFifo.init (c.pdepth i) [] p0 ())).length + _ = _
    rw [HsFifo.init_queue [] (by simp only [List.length_nil]; omega)]
    rfl

theorem tx_run {c : TxCfg} {i : Nat} (hi : i ∈ c.eps) (hD : 3 ≤ c.depth i) (xs : List (TxIn α)) : ∀ (y : TxSys α), TxInv c i y →
    TxInv c i (txRun c y xs) := by
  induction xs with
  | nil => intro y h; exact h
  | cons x xs ih => intro y h; exact ih _ (tx_step hi hD h x)

theorem lasts_pos {l : List (AxisFifoCopy.W α)} {p : Nat} (h : lasts (l.take p) < lasts l) :
    ∃ j w, p ≤ j ∧ l[j]? = some w ∧ w.last = true := by
  have e : lasts l = lasts (l.take p) + lasts (l.drop p) := by
    unfold lasts
    rw [← List.countP_append, List.take_append_drop]
  have h1 : 0 < lasts (l.drop p) := by omega
  obtain ⟨w, hw, hl⟩ := List.countP_pos_iff.mp h1
  obtain ⟨k, hk⟩ := List.getElem?_of_mem hw
  rw [List.getElem?_drop] at hk
  exact ⟨p + k, w, by omega, hk, hl⟩

theorem lasts_of {l : List (AxisFifoCopy.W α)} {p j : Nat} {w : AxisFifoCopy.W α} (hj : p ≤ j) (h : l[j]? = some w) (hl : w.last = true) :
    lasts (l.take p) < lasts l := by
  have e : lasts l = lasts (l.take p) + lasts (l.drop p) := by
    unfold lasts
    rw [← List.countP_append, List.take_append_drop]
  have hm : w ∈ l.drop p := by
    apply List.mem_of_getElem? (i := j - p)
    rw [List.getElem?_drop, ← h]
    congr 1; omega
  have : 0 < lasts (l.drop p) := List.countP_pos_iff.mpr ⟨w, hm, hl⟩
  omega

theorem queue_pos {D : Nat} {s : HsFifo.St Unit} (h : s.outVld = true) : 0 < (HsFifo.queue D s).length := by
  simp [HsFifo.queue, h]

/-- C276: the host gets exactly the words of the endpoint in order and only from packets which are complete in the buffer. -/
theorem tx_complete (c : TxCfg) (i : Nat) (hi : i ∈ c.eps) (hD : 3 ≤ c.depth i) (hP : 2 ≤ c.pdepth i)
    (mem0 : Nat → Nat → AxisFifoCopy.W α) (d0 : Nat → AxisFifoCopy.W α) (p0 : Nat → Unit) (xs : List (TxIn α)) (x : TxIn α) :
    let y := txRun c (txSysInit c mem0 d0 p0) xs
    txValid c y.1 x = true → x.endp = i →
      (∃ w, (y.2.acc i)[y.2.p i]? = some w ∧ txWord c y.1 x = some w) ∧
      ∃ j w, y.2.p i ≤ j ∧ (y.2.acc i)[j]? = some w ∧ w.last = true := by
  intro y hv he
  have h := tx_run hi hD xs _ (tx_init hD hP mem0 d0 p0)
  change TxInv c i y at h
  obtain ⟨⟨b, hf, hb⟩, hq, hn⟩ := h
  have hd : c.depth i ≠ 0 := by omega
  rw [txValid_eq hi hd he] at hv
  simp only [Bool.and_eq_true] at hv
  refine ⟨⟨(y.1 i).fifo.fifo.dout, (hf.o hv.2.1).1, ?_⟩, ?_⟩
  · have hrep : (y.1 i).fifo.repVld = false := by
      have := hf.r
      simp only at this
      cases hr : (y.1 i).fifo.repVld with
      | false => rfl
      | true => rw [hr] at this; cases this
    unfold txWord
    rw [he, if_pos (by simpa using hi)]
    simp [chWord, hd, AxisFifoCopy.out, hrep]
  · apply lasts_pos
    have := queue_pos (D := c.pdepth i) hv.2.2
    omega

/-- C276: words inside of a packet are accepted whenever there is a space in the buffer, regardless of the buffer of marks; the end of
the packet waits also for it. -/
theorem tx_accept (c : TxCfg) (i : Nat) (hD : c.depth i ≠ 0) (s : TxSt α) (x : TxIn α) (hv : x.vld i = true) :
    epReady c s x i = (fRd c s i && ((!(x.w i).last) || pRd c s i)) := by
  unfold epReady pSkip
  rw [if_neg hD, hv, Bool.true_and, Bool.or_comm]

/-- C276: there are no gaps: after a word which is not the last one the next word is there immediately. -/
theorem tx_gapless (c : TxCfg) (i : Nat) (hi : i ∈ c.eps) (hD : 3 ≤ c.depth i) (hP : 2 ≤ c.pdepth i)
    (mem0 : Nat → Nat → AxisFifoCopy.W α) (d0 : Nat → AxisFifoCopy.W α) (p0 : Nat → Unit) (xs : List (TxIn α)) (x x' : TxIn α) :
    let y := txRun c (txSysInit c mem0 d0 p0) xs
    txValid c y.1 x = true → x.endp = i → (∀ w, txWord c y.1 x = some w → w.last = false ∨ x.rdy = false) →
    x'.endpVld = true → x'.endp = i → txValid c (txSys c y x).1 x' = true := by
  intro y hv he hw hv' he'
  have hcomp := tx_complete c i hi hD hP mem0 d0 p0 xs x hv he
  obtain ⟨⟨w, hw1, hw2⟩, j, wj, hj, hjw, hjl⟩ := hcomp
  have h := tx_run hi hD xs _ (tx_init hD hP mem0 d0 p0)
  change TxInv c i y at h
  have hd : c.depth i ≠ 0 := by omega
  obtain ⟨⟨b, hf, hb⟩, hq, hn⟩ := h
  have hv0 := hv
  rw [txValid_eq hi hd he] at hv
  simp only [Bool.and_eq_true] at hv
  have hdout : (y.1 i).fifo.fifo.dout = w := by
    have := (hf.o hv.2.1).1
    simp only at this
    rw [show (txRun c (txSysInit c mem0 d0 p0) xs).2 = y.2 from rfl] at hw1
    rw [this] at hw1
    simpa using hw1
  rw [txValid_eq hi hd he', hv']
  have hs : (txSys c y x).1 i =
      ⟨AxisFifoCopy.next (c.depth i) (y.1 i).fifo (fIn c y.1 x i), HsFifo.next (c.pdepth i) (y.1 i).pbf (pIn c y.1 x i)⟩ := by
    show (if c.depth i = 0 then _ else _) = _
    rw [if_neg hd]
  rw [hs]
  have hfr := fRdy_eq (s := y.1) (x := x) hi hd
  have hpr := pRdy_eq (s := y.1) (x := x) hi hd
  rw [hv.1, hv.2.2, he] at hfr
  rw [hv.1, hv.2.1, he, hdout] at hpr
  simp only [Bool.true_and, beq_self_eq_true, Bool.and_true] at hfr hpr
  have hwl := hw w hw2
  have hp0 : pRdy c y.1 x i = false := by
    rw [hpr]; rcases hwl with e | e <;> simp [e]
  have hpn : (HsFifo.next (c.pdepth i) (y.1 i).pbf (pIn c y.1 x i)).outVld = true := by
    show (if pRdy c y.1 x i || !(y.1 i).pbf.outVld then _ else _) = true
    rw [hp0, hv.2.2]; rfl
  have hfn : (AxisFifoCopy.next (c.depth i) (y.1 i).fifo (fIn c y.1 x i)).outVld = true := by
    show (if fRdy c y.1 x i || !(y.1 i).fifo.outVld then !AxisFifoCopy.rwait (y.1 i).fifo (fIn c y.1 x i) else (y.1 i).fifo.outVld) = true
    cases hr : fRdy c y.1 x i with
    | false => simp [hv.2.1]
    | true =>
      rw [hr] at hfr
      have hlast : w.last = false := by
        rcases hwl with e | e
        · exact e
        · rw [e] at hfr; cases hfr
      have hemp := hf.f.empty_iff
      simp only [hv.2.1, Bool.toNat_true] at hemp
      have hne : ((y.1 i).fifo.fifo.wr == (y.1 i).fifo.fifo.rdT) = false := by
        cases hb : ((y.1 i).fifo.fifo.wr == (y.1 i).fifo.fifo.rdT) with
        | false => rfl
        | true =>
          exfalso
          have hlen := hemp.mp hb
          have hlt := (List.getElem?_eq_some_iff.mp hjw).1
          change j < (y.2.acc i).length at hlt
          have : j = y.2.p i := by
            have : y.2.p i ≤ j := hj
            omega
          rw [this] at hjw
          rw [show (txRun c (txSysInit c mem0 d0 p0) xs) = y from rfl] at hw1 hjw
          rw [hw1] at hjw
          simp only [Option.some.injEq] at hjw
          rw [← hjw, hlast] at hjl
          cases hjl
      simp [AxisFifoCopy.rwait, fIn, hne]
  rw [hfn, hpn]; rfl

theorem pbf_offer {D : Nat} {s : HsFifo.St Unit} (h : HsFifo.Inv D s) (hq : 0 < (HsFifo.queue D s).length) (x : HsFifo.In Unit)
    (hr : x.rd = false ∨ s.outVld = false) : (HsFifo.next D s x).outVld = true := by
  show (if x.rd || !s.outVld then !Fifo.readWait s.fifo else s.outVld) = true
  cases hv : s.outVld with
  | true =>
    rcases hr with e | e
    · simp [e]
    · rw [hv] at e; cases e
  | false =>
    have hw := Fifo.readWait_iff h
    have : Fifo.readWait s.fifo = false := by
      cases hb : Fifo.readWait s.fifo with
      | false => rfl
      | true =>
        have := hw.mp hb
        simp [HsFifo.queue, hv, Fifo.queue] at hq
        omega
    simp [this]

/-- C276: a complete packet in the buffer is offered at the latest in the second cycle in which its endpoint is selected. -/
theorem tx_offered (c : TxCfg) (i : Nat) (hi : i ∈ c.eps) (hD : 3 ≤ c.depth i) (hP : 2 ≤ c.pdepth i)
    (mem0 : Nat → Nat → AxisFifoCopy.W α) (d0 : Nat → AxisFifoCopy.W α) (p0 : Nat → Unit) (xs : List (TxIn α)) (x x' : TxIn α)
    (hx : x.endpVld = true ∧ x.endp = i) (hx' : x'.endpVld = true ∧ x'.endp = i) :
    let y := txRun c (txSysInit c mem0 d0 p0) xs
    (∃ j w, y.2.p i ≤ j ∧ (y.2.acc i)[j]? = some w ∧ w.last = true) →
      txValid c y.1 x = true ∨ txValid c (txSys c y x).1 x' = true := by
  rintro y ⟨j, w, hj, hjw, hjl⟩
  have h := tx_run hi hD xs _ (tx_init hD hP mem0 d0 p0)
  change TxInv c i y at h
  have hd : c.depth i ≠ 0 := by omega
  obtain ⟨⟨b, hf, hb⟩, hq, hn⟩ := h
  have hql : 0 < (HsFifo.queue (c.pdepth i) (y.1 i).pbf).length := by
    have := lasts_of hj hjw hjl
    omega
  have hlt : y.2.p i < (y.2.acc i).length := by
    have := (List.getElem?_eq_some_iff.mp hjw).1
    omega
  have hs : (txSys c y x).1 i =
      ⟨AxisFifoCopy.next (c.depth i) (y.1 i).fifo (fIn c y.1 x i), HsFifo.next (c.pdepth i) (y.1 i).pbf (pIn c y.1 x i)⟩ := by
    show (if c.depth i = 0 then _ else _) = _
    rw [if_neg hd]
  rw [txValid_eq hi hd hx.2, txValid_eq hi hd hx'.2, hx.1, hx'.1, hs]
  have hfr := fRdy_eq (s := y.1) (x := x) hi hd
  have hpr := pRdy_eq (s := y.1) (x := x) hi hd
  by_cases hboth : ((y.1 i).fifo.outVld && (y.1 i).pbf.outVld) = true
  · left; rw [hboth]; rfl
  · right
    have hpn : (HsFifo.next (c.pdepth i) (y.1 i).pbf (pIn c y.1 x i)).outVld = true := by
      refine pbf_offer hq hql _ ?_
      show pRdy c y.1 x i = false ∨ _
      rw [hpr]
      cases hfo : (y.1 i).fifo.outVld with
      | false => left; simp
      | true =>
        right
        cases hpo : (y.1 i).pbf.outVld with
        | false => rfl
        | true => rw [hfo, hpo] at hboth; exact absurd rfl hboth
    have hfn : (AxisFifoCopy.next (c.depth i) (y.1 i).fifo (fIn c y.1 x i)).outVld = true := by
      show (if fRdy c y.1 x i || !(y.1 i).fifo.outVld then !AxisFifoCopy.rwait (y.1 i).fifo (fIn c y.1 x i) else (y.1 i).fifo.outVld) = true
      cases hfo : (y.1 i).fifo.outVld with
      | true =>
        have hpo : (y.1 i).pbf.outVld = false := by
          cases hpo : (y.1 i).pbf.outVld with
          | false => rfl
          | true => rw [hfo, hpo] at hboth; exact absurd rfl hboth
        rw [hfr, hpo]; simp
      | false =>
        have hemp := hf.f.empty_iff
        simp only [hfo, Bool.toNat_false, Nat.add_zero] at hemp
        have hne : ((y.1 i).fifo.fifo.wr == (y.1 i).fifo.fifo.rdT) = false := by
          cases hb : ((y.1 i).fifo.fifo.wr == (y.1 i).fifo.fifo.rdT) with
          | false => rfl
          | true => have := hemp.mp hb; omega
        simp [AxisFifoCopy.rwait, AxisFifoCopy.cpVld, hfo, hne]
    rw [hfn, hpn]; rfl

/-- The full claim: a packet with at most `buffer_size` words can be written. -/
def TxFits (c : TxCfg) (i : Nat) : Prop :=
  ∀ (mem0 : Nat → Nat → AxisFifoCopy.W Nat) (d0 : Nat → AxisFifoCopy.W Nat) (p0 : Nat → Unit),
    ∃ xs : List (TxIn Nat), (∀ x, x ∈ xs → (x.w i).last = false) ∧ c.depth i - 1 ≤ ((txRun c (txSysInit c mem0 d0 p0) xs).2.acc i).length

/-- C277: at most DEPTH - 2 words of the packet are accepted before its last word, whatever happens. -/
theorem tx_long_stuck (c : TxCfg) (i : Nat) (hi : i ∈ c.eps) (hD : 3 ≤ c.depth i) (hP : 2 ≤ c.pdepth i)
    (mem0 : Nat → Nat → AxisFifoCopy.W α) (d0 : Nat → AxisFifoCopy.W α) (p0 : Nat → Unit) (xs : List (TxIn α))
    (hl : ∀ x, x ∈ xs → (x.w i).last = false) :
    ((txRun c (txSysInit c mem0 d0 p0) xs).2.acc i).length ≤ c.depth i - 2 ∧ (txRun c (txSysInit c mem0 d0 p0) xs).2.p i = 0 := by
  have hd : c.depth i ≠ 0 := by omega
  have key : ∀ (xs : List (TxIn α)) (y : TxSys α), TxInv c i y → y.2.p i = 0 → (∀ w, w ∈ y.2.acc i → w.last = false) →
      (∀ x, x ∈ xs → (x.w i).last = false) → TxInv c i (txRun c y xs) ∧ (txRun c y xs).2.p i = 0 := by
    intro xs
    induction xs with
    | nil => intro y h hp _ _; exact ⟨h, hp⟩
    | cons x xs ih =>
      intro y h hp ha hx
      refine ih _ (tx_step hi hD h x) ?_ ?_ (fun x' hx' => hx x' (by simp [hx']))
      · show (if txValid c y.1 x && x.rdy && x.endp == i then y.2.p i + 1 else y.2.p i) = 0
        have hz : lasts (y.2.acc i) = 0 := by
          unfold lasts
          rw [List.countP_eq_zero]
          intro w hw
          simp [ha w hw]
        have hq0 := h.n
        have : txValid c y.1 x = true → x.endp = i → False := by
          intro hv he
          rw [txValid_eq hi hd he] at hv
          simp only [Bool.and_eq_true] at hv
          have := queue_pos (D := c.pdepth i) hv.2.2
          omega
        split
        · next hc =>
          simp only [Bool.and_eq_true, beq_iff_eq] at hc
          exact (this hc.1.1 hc.2).elim
        · exact hp
      · intro w hw
        have hw' : w ∈ y.2.acc i ++ given (x.vld i && epReady c y.1 x i) (x.w i) := hw
        rcases List.mem_append.mp hw' with hw' | hw'
        · exact ha w hw'
        · unfold given at hw'
          split at hw'
          · simp at hw'; rw [hw']; exact hx x (by simp)
          · cases hw'
  obtain ⟨h1, h2⟩ := key xs _ (tx_init hD hP mem0 d0 p0) rfl (by intro w hw; cases hw) hl
  refine ⟨?_, h2⟩
  obtain ⟨⟨b, hf, _⟩, _, _⟩ := h1
  have g1 := hf.f.wb
  have g2 : b ≤ (txRun c (txSysInit c mem0 d0 p0) xs).2.p i := by
    have := hf.f.bp
    cases ho : ((txRun c (txSysInit c mem0 d0 p0) xs).1 i).fifo.outVld with
    | true => exact (hf.o ho).2
    | false => simp only [ho, Bool.toNat_false, Nat.add_zero] at this; exact this
  simp only at g1
  omega

theorem tx_fits_fails (c : TxCfg) (i : Nat) (hi : i ∈ c.eps) (hD : 3 ≤ c.depth i) (hP : 2 ≤ c.pdepth i) : ¬ TxFits c i := by
  intro h
  obtain ⟨xs, h1, h2⟩ := h (fun _ _ => ⟨0, 0, false⟩) (fun _ => ⟨0, 0, false⟩) (fun _ => ())
  have := (tx_long_stuck c i hi hD hP (fun _ _ => ⟨0, 0, false⟩) (fun _ => ⟨0, 0, false⟩) (fun _ => ()) xs h1).1
  omega

theorem pbf_ready {D : Nat} (hD : 2 ≤ D) {s : HsFifo.St Unit} (h : HsFifo.Inv D s) (hr : (HsFifo.out D s ⟨false, (), false⟩).rd = false) :
    0 < (HsFifo.queue D s).length := by
  have hw : Fifo.writeWait s.fifo = true := by
    have : (!Fifo.writeWait s.fifo) = false := hr
    simpa using this
  have := (Fifo.writeWait_iff h).mp hw
  have hl : (Fifo.queue (D - 1) s.fifo).length = Fifo.len (D - 1) s.fifo := by simp [Fifo.queue]
  unfold HsFifo.queue
  split <;> simp <;> omega

/-- C277: if packets have at most DEPTH - 2 words, a word is accepted or there is a complete packet which waits for the host. -/
theorem tx_fits_partial (c : TxCfg) (i : Nat) (hi : i ∈ c.eps) (hD : 3 ≤ c.depth i) (hP : 2 ≤ c.pdepth i)
    (mem0 : Nat → Nat → AxisFifoCopy.W α) (d0 : Nat → AxisFifoCopy.W α) (p0 : Nat → Unit) (xs : List (TxIn α)) (x : TxIn α) :
    let y := txRun c (txSysInit c mem0 d0 p0) xs
    (∀ k, k + (c.depth i - 2) ≤ (y.2.acc i).length →
      ∃ j w, k ≤ j ∧ j < k + (c.depth i - 2) ∧ (y.2.acc i)[j]? = some w ∧ w.last = true) →
    epReady c y.1 x i = true ∨ ∃ j w, y.2.p i ≤ j ∧ (y.2.acc i)[j]? = some w ∧ w.last = true := by
  intro y hfr
  have h := tx_run hi hD xs _ (tx_init hD hP mem0 d0 p0)
  change TxInv c i y at h
  have hd : c.depth i ≠ 0 := by omega
  obtain ⟨⟨b, hf, hb⟩, hq, hn⟩ := h
  cases hr : fRd c y.1 i with
  | false =>
    right
    have hw : FifoCopy.wrNext (c.depth i - 1) (y.1 i).fifo.fifo == (y.1 i).fifo.fifo.rd := by
      have : (!AxisFifoCopy.wwait (c.depth i) (y.1 i).fifo) = false := hr
      simpa [AxisFifoCopy.wwait] using this
    have h1 := hf.f.wwait_iff.mp hw
    have h2 := hf.f.wb
    have h3 := hf.f.bp
    simp only at h1 h2
    obtain ⟨j, w, g1, g2, g3, g4⟩ := hfr b (by omega)
    refine ⟨j, w, ?_, g3, g4⟩
    rcases Nat.lt_or_ge j (y.2.p i) with hlt | hge
    · have := hb j w g1 hlt g3
      rw [g4] at this; cases this
    · exact hge
  | true =>
    cases hp : pRd c y.1 i with
    | true => left; simp [epReady, hd, hr, hp]
    | false =>
      right
      have := pbf_ready hP hq hp
      exact lasts_pos (by omega)

/-- C275: for an endpoint without tx there is stall, tx is valid and its data are not defined. -/
theorem tx_absent (c : TxCfg) (s : TxSt α) (x : TxIn α) (h : x.endp ∉ c.eps) :
    txStall c x = true ∧ txValid c s x = x.endpVld ∧ txWord c s x = none := by
  refine ⟨by simp [txStall, h], ?_, by simp [txWord, h]⟩
  unfold txValid
  have h1 : c.eps.all (fOk c s x) = true := by
    rw [List.all_eq_true]
    intro j hj
    have : x.endp ≠ j := fun e => h (e ▸ hj)
    simp [fOk, this]
  have h2 : c.eps.all (pOk c s x) = true := by
    rw [List.all_eq_true]
    intro j hj
    have : x.endp ≠ j := fun e => h (e ▸ hj)
    simp [pOk, this]
  rw [h1, h2]; simp

/-- Data are valid only if there are some. -/
def TxDefined (c : TxCfg) : Prop := ∀ (s : TxSt Nat) (x : TxIn Nat), txValid c s x = true → txWord c s x ≠ none

theorem tx_defined_fails : ¬ TxDefined ⟨[1], fun _ => 4, fun _ => 3⟩ := by
  intro h
  let x : TxIn Nat := ⟨true, 5, true, fun _ => false, fun _ => ⟨0, 0, false⟩⟩
  obtain ⟨_, h1, h2⟩ := tx_absent ⟨[1], fun _ => 4, fun _ => 3⟩
    (txInit ⟨[1], fun _ => 4, fun _ => 3⟩ (fun _ _ => ⟨0, 0, false⟩) (fun _ => ⟨0, 0, false⟩) (fun _ => ())) x (by decide)
  exact h _ x (by rw [h1]) h2

def exTx : List (TxIn Nat) :=
  [⟨true, 1, true, fun _ => true, fun _ => ⟨7, 0, false⟩⟩, ⟨true, 1, true, fun _ => true, fun _ => ⟨8, 0, true⟩⟩,
   ⟨true, 1, true, fun _ => false, fun _ => ⟨0, 0, false⟩⟩]

example : (1 : Nat) ∈ (⟨[1, 2], fun _ => 4, fun _ => 3⟩ : TxCfg).eps ∧
    txValid ⟨[1, 2], fun _ => 4, fun _ => 3⟩ (txRun ⟨[1, 2], fun _ => 4, fun _ => 3⟩ (txSysInit ⟨[1, 2], fun _ => 4, fun _ => 3⟩
      (fun _ _ => ⟨0, 0, false⟩) (fun _ => ⟨0, 0, false⟩) (fun _ => ())) exTx).1 ⟨true, 1, true, fun _ => false, fun _ => ⟨0, 0, false⟩⟩ = true ∧
    txWord ⟨[1, 2], fun _ => 4, fun _ => 3⟩ (txRun ⟨[1, 2], fun _ => 4, fun _ => 3⟩ (txSysInit ⟨[1, 2], fun _ => 4, fun _ => 3⟩
      (fun _ _ => ⟨0, 0, false⟩) (fun _ => ⟨0, 0, false⟩) (fun _ => ())) exTx).1 ⟨true, 1, true, fun _ => false, fun _ => ⟨0, 0, false⟩⟩ =
      some ⟨7, 0, false⟩ := by decide

example : ∀ x, x ∈ List.replicate 5 (⟨true, 1, true, fun _ => true, fun _ => ⟨7, 0, false⟩⟩ : TxIn Nat) → (x.w 1).last = false := by
  intro x hx
  rw [List.eq_of_mem_replicate hx]

end Verif.EpBuffers
