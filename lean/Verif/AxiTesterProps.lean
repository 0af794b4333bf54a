import Verif.AxiTester
/-!
# Properties C370-C372: `AxiTester`
-/
namespace Verif.AxiTester

/-! ## C370: commands -/

/-- Commands written in the trace which have a meaning -/
def known (c : Nat) : Bool := decide (1 ≤ c ∧ c ≤ 5)
def commands (tr : List (In × Out)) : List Nat := tr.filterMap fun e => e.1.cmd.filter known

/-- Transfer on a channel of the AXI bus (at most one per cycle), as the code of its command -/
def transfer (e : In × Out) : List Nat :=
  (if e.2.aw.isSome && e.1.awReady then [SEND_AW] else []) ++ (if e.2.w.isSome && e.1.wReady then [SEND_W] else []) ++
  (if e.2.bReady && e.1.bCh.isSome then [RECV_B] else []) ++ (if e.2.ar.isSome && e.1.arReady then [SEND_AR] else []) ++
  (if e.2.rReady && e.1.rCh.isSome then [RECV_R] else [])
def transfers (tr : List (In × Out)) : List Nat := tr.flatMap transfer

/-- The controller writes a command only if it has seen `status` 1 since the last command, at the soonest `delay` cycles after the
cycle which follows the command. `armed`: it may write, `since`: cycles since the last command. -/
def CtlOk (delay : Nat) : Bool → Nat → List (In × Out) → Prop
  | _, _, [] => True
  | armed, since, e :: tr =>
    match e.1.cmd with
    | some _ => armed = true ∧ CtlOk delay false 0 tr
    | none => CtlOk delay (armed || (decide (delay ≤ since) && e.2.status)) (since + 1) tr

/-- Each command written after `status` was 1 is executed once, in order: transfers are the commands except of the last one which may be
in progress. -/
def CmdSpec : Prop := ∀ cw a w r b is, CtlOk 0 true 0 ((tester cw).trace (reset a w r b) is) →
  ∃ rest, rest.length ≤ 1 ∧
    transfers ((tester cw).trace (reset a w r b) is) ++ rest = commands ((tester cw).trace (reset a w r b) is)

def exR : R := ⟨0, 0, 0, false⟩
def exB : B := ⟨0, 0⟩

/-- The read of the status comes one cycle after the write of the command. -/
def exLost : List In :=
  [{ cmd := some SEND_AW }, {}, { cmd := some SEND_W }, { awReady := true }, { wReady := true }, { wReady := true }, {wReady := true}]

/-- **C370** (violated): `status` is still 1 in the cycle after the write of the command, a command which relies on it is lost: two
commands, one transfer and the component is ready. -/
theorem cmdSpec_violated : ¬ CmdSpec := by
  intro h
  obtain ⟨rest, hl, hr⟩ := h 32 0 0 exR exB (exLost ++ [{ cmd := some SEND_AR }]) (by
    simp [exLost, tester, reset, CtlOk, nextSt, cmdEn, partDone, SEND_AW, SEND_W, SEND_AR])
  have h1 : transfers ((tester 32).trace (reset 0 0 exR exB) (exLost ++ [{ cmd := some SEND_AR }])) = [1] := by decide +kernel
  have h2 : commands ((tester 32).trace (reset 0 0 exR exB) (exLost ++ [{ cmd := some SEND_AR }])) = [1, 2, 4] := by
    decide +kernel
  rw [h1, h2] at hr
  have := congrArg List.length hr
  simp at this
  omega

/-- The command in progress -/
def pending (s : State) : List Nat :=
  match s.st with
  | .waitAw => [SEND_AW]
  | .waitAr => [SEND_AR]
  | .waitW => [SEND_W]
  | .waitB => [RECV_B]
  | .waitR => [RECV_R]
  | .ready => if s.cmdVld && known s.cmd then [s.cmd] else []

def Inv (armed : Bool) (since : Nat) (s : State) : Prop :=
  (armed = true → pending s = [] ∧ s.st = .ready) ∧ (1 ≤ since → s.st = .ready → pending s = [])

theorem known_cases {c : Nat} (h : known c = true) : c = 1 ∨ c = 2 ∨ c = 3 ∨ c = 4 ∨ c = 5 := by
  simp [known] at h; omega

theorem nextSt_idle {s : State} {i : In} (h : s.st = .ready) (hp : pending s = []) : nextSt s i = .ready := by
  have hk : (s.cmdVld && known s.cmd) = false := by
    simp only [pending, h] at hp
    by_cases hh : (s.cmdVld && known s.cmd) = true
    · rw [if_pos hh] at hp; simp at hp
    · simpa using hh
  have hne : ∀ c, known c = true → cmdEn s c = false := by
    intro c hc
    cases hb : cmdEn s c with
    | false => rfl
    | true =>
      simp only [cmdEn, Bool.and_eq_true, beq_iff_eq] at hb
      rw [hb.1, hb.2, hc] at hk
      simp at hk
  simp only [nextSt, h]
  rw [hne SEND_AW rfl, hne SEND_AR rfl, hne SEND_W rfl, hne RECV_R rfl, hne RECV_B rfl]
  rfl

/-- Step without command -/
theorem step_none (cw : Nat) (s : State) (i : In) (hc : i.cmd = none) :
    transfer (i, (tester cw).out s i) ++ pending ((tester cw).next s i) = pending s ∧
    (((tester cw).next s i).st = .ready → pending ((tester cw).next s i) = []) ∧
    (s.st = .ready → pending s = [] → ((tester cw).next s i).st = .ready) := by
  refine ⟨?_, ?_, ?_⟩
  · rcases hs : s.st with _ | _ | _ | _ | _ | _
    · by_cases hp : (s.cmdVld && known s.cmd) = true
      · have hv : s.cmdVld = true := by simp at hp; exact hp.1
        have hk : known s.cmd = true := by simp at hp; exact hp.2
        rcases known_cases hk with h | h | h | h | h <;>
          simp [transfer, tester, pending, nextSt, cmdEn, hs, hv, h, SEND_AW, SEND_AR, SEND_W, RECV_B, RECV_R, known]
      · have hp0 : pending s = [] := by simp only [pending, hs]; rw [if_neg hp]
        have hst := nextSt_idle (i := i) hs hp0
        have hd : partDone s i = false := by simp [partDone, hs]
        have : pending ((tester cw).next s i) = pending s := by
          simp [pending, tester, hst, hs, hd, hc]
        rw [this]
        simp [transfer, tester, hs]
    · cases h : i.arReady <;> simp [transfer, tester, pending, nextSt, partDone, hs, h]
    · cases h : i.awReady <;> simp [transfer, tester, pending, nextSt, partDone, hs, h]
    · cases h : i.wReady <;> simp [transfer, tester, pending, nextSt, partDone, hs, h]
    · cases h : i.bCh <;> simp [transfer, tester, pending, nextSt, partDone, hs, h]
    · cases h : i.rCh <;> simp [transfer, tester, pending, nextSt, partDone, hs, h]
  · rcases hs : s.st with _ | _ | _ | _ | _ | _
    · intro h
      by_cases hp : (s.cmdVld && known s.cmd) = true
      · have hv : s.cmdVld = true := by simp at hp; exact hp.1
        have hk : known s.cmd = true := by simp at hp; exact hp.2
        exfalso
        revert h
        rcases known_cases hk with h | h | h | h | h <;>
          simp [tester, nextSt, cmdEn, hs, hv, h, SEND_AW, SEND_AR, SEND_W, RECV_B, RECV_R]
      · have hp0 : pending s = [] := by simp only [pending, hs]; rw [if_neg hp]
        have hst := nextSt_idle (i := i) hs hp0
        have hd : partDone s i = false := by simp [partDone, hs]
        have : pending ((tester cw).next s i) = pending s := by
          simp [pending, tester, hst, hs, hd, hc]
        rw [this, hp0]
    · cases h : i.arReady <;> simp [tester, pending, nextSt, partDone, hs, h]
    · cases h : i.awReady <;> simp [tester, pending, nextSt, partDone, hs, h]
    · cases h : i.wReady <;> simp [tester, pending, nextSt, partDone, hs, h]
    · cases h : i.bCh <;> simp [tester, pending, nextSt, partDone, hs, h]
    · cases h : i.rCh <;> simp [tester, pending, nextSt, partDone, hs, h]
  · intro h hp
    exact nextSt_idle h hp

/-- Step with a command in the idle state -/
theorem step_cmd (cw : Nat) (s : State) (i : In) (c : Nat) (hc : i.cmd = some c) (h : s.st = .ready) (hp : pending s = []) :
    transfer (i, (tester cw).out s i) = [] ∧ pending ((tester cw).next s i) = (some c).toList.filter known := by
  have hst := nextSt_idle (i := i) h hp
  have hd : partDone s i = false := by simp [partDone, h]
  refine ⟨by simp [transfer, tester, h], ?_⟩
  simp only [pending, tester, hst, hd, hc]
  by_cases hk : known c = true <;> simp [hk]

theorem run_aux (cw : Nat) (is : List In) (s : State) (armed : Bool) (since : Nat) (hi : Inv armed since s)
    (h : CtlOk 1 armed since ((tester cw).trace s is)) :
    transfers ((tester cw).trace s is) ++ pending ((tester cw).final s is) =
      pending s ++ commands ((tester cw).trace s is) := by
  induction is generalizing s armed since with
  | nil => simp [transfers, commands]
  | cons i is ih =>
    rw [Machine.trace_cons] at h ⊢
    rw [Machine.final_cons]
    simp only [CtlOk] at h
    cases hc : i.cmd with
    | none =>
      rw [hc] at h
      simp only at h
      obtain ⟨h1, h2, h3⟩ := step_none cw s i hc
      have hinv : Inv (armed || (decide (1 ≤ since) && ((tester cw).out s i).status)) (since + 1) ((tester cw).next s i) := by
        refine ⟨?_, fun _ => h2⟩
        intro ha
        have hidle : s.st = .ready ∧ pending s = [] := by
          simp only [Bool.or_eq_true, Bool.and_eq_true, decide_eq_true_eq] at ha
          rcases ha with ha | ⟨hs, hst⟩
          · exact ⟨(hi.1 ha).2, (hi.1 ha).1⟩
          · have : s.st = .ready := by
              simp [tester] at hst; exact hst.1
            exact ⟨this, hi.2 hs this⟩
        have := h3 hidle.1 hidle.2
        exact ⟨h2 this, this⟩
      have := ih _ _ _ hinv h
      simp only [transfers, commands, List.flatMap_cons, List.filterMap_cons, hc, Option.filter_none] at this ⊢
      rw [List.append_assoc, this, ← List.append_assoc, h1]
    | some c =>
      rw [hc] at h
      simp only at h
      obtain ⟨ha, h⟩ := h
      obtain ⟨hp, hst⟩ := hi.1 ha
      obtain ⟨h1, h2⟩ := step_cmd cw s i c hc hst hp
      have := ih _ _ _ ⟨by simp, by omega⟩ h
      simp only [transfers, commands, List.flatMap_cons, List.filterMap_cons, hc] at this ⊢
      rw [h1, List.nil_append, this, h2, hp]
      by_cases hk : known c = true <;> simp [hk, Option.filter]

theorem pending_le (s : State) : (pending s).length ≤ 1 := by
  unfold pending
  split <;> simp
  split <;> simp

/-- **C370** (part): it holds if the controller does not use the status of the first cycle after the command. Missing: the status of
that cycle. -/
theorem commands_partial (cw a w : Nat) (r : R) (b : B) (is : List In)
    (h : CtlOk 1 true 0 ((tester cw).trace (reset a w r b) is)) :
    ∃ rest, rest.length ≤ 1 ∧
      transfers ((tester cw).trace (reset a w r b) is) ++ rest = commands ((tester cw).trace (reset a w r b) is) := by
  have := run_aux cw is (reset a w r b) true 0 ⟨by simp [reset, pending], by omega⟩ h
  refine ⟨_, pending_le _, this.trans ?_⟩
  simp [reset, pending]

def exOk : List In := [{ cmd := some SEND_AW }, {}, { awReady := true }, {}, { cmd := some RECV_B }, {}, { bCh := some ⟨3, 2⟩ }]

example : CtlOk 1 true 0 ((tester 32).trace (reset 0 0 exR exB) exOk) ∧
    transfers ((tester 32).trace (reset 0 0 exR exB) exOk) = [SEND_AW, RECV_B] := by
  refine ⟨?_, by decide +kernel⟩
  simp [exOk, tester, reset, CtlOk, nextSt, cmdEn, partDone, SEND_AW, RECV_B]

/-- **C370**: at most one channel is active in a cycle. -/
theorem one_transfer (cw : Nat) (s : State) (i : In) : (transfer (i, (tester cw).out s i)).length ≤ 1 := by
  rcases hs : s.st with _ | _ | _ | _ | _ | _
  · simp [transfer, tester, hs]
  · cases h : i.arReady <;> simp [transfer, tester, hs, h]
  · cases h : i.awReady <;> simp [transfer, tester, hs, h]
  · cases h : i.wReady <;> simp [transfer, tester, hs, h]
  · cases h : i.bCh <;> simp [transfer, tester, hs, h]
  · cases h : i.rCh <;> simp [transfer, tester, hs, h]

/-! ## C371: registers with results -/

/-- The last transfer on the read and on the write response channel -/
def lastR (tr : List (In × Out)) : Option R := (tr.filterMap fun e => if e.2.rReady then e.1.rCh else none).getLast?
def lastB (tr : List (In × Out)) : Option B := (tr.filterMap fun e => if e.2.bReady then e.1.bCh else none).getLast?

/-- The control bus does not write the registers with results. -/
def NoWr (i : In) : Prop :=
  i.rid = none ∧ i.rdata = none ∧ i.rresp = none ∧ i.rlast = none ∧ i.bid = none ∧ i.bresp = none

/-- The registers hold the last transfers. -/
def ResultSpec : Prop := ∀ cw a w r b is i, (∀ i ∈ is, NoWr i) →
  (∀ x, lastR ((tester cw).trace (reset a w r b) is) = some x → ((tester cw).outAfter (reset a w r b) is i).r = x) ∧
  (∀ x, lastB ((tester cw).trace (reset a w r b) is) = some x → ((tester cw).outAfter (reset a w r b) is i).b = x)

def exRecvB : List In := [{ cmd := some RECV_B }, {}, { bCh := some ⟨3, 2⟩ }]
def exRecvR : List In := [{ cmd := some RECV_R }, {}, { rCh := some ⟨3, 2 ^ 40 + 7, 0, true⟩ }]

theorem noWr_example : (∀ i ∈ exRecvB, NoWr i) ∧ ∀ i ∈ exRecvR, NoWr i := by
  simp [exRecvB, exRecvR, NoWr]

/-- **C371** (violated): the write response is not stored, an error of a write can not be seen. -/
theorem resultSpec_violated : ¬ ResultSpec := by
  intro h
  have := (h 32 0 0 exR exB exRecvB {} noWr_example.1).2 ⟨3, 2⟩ (by decide +kernel)
  revert this
  decide +kernel

/-- **C371** (violated): upper bits of the data are lost if the data are wider than the control bus. -/
theorem result_truncated : ((tester 32).outAfter (reset 0 0 exR exB) exRecvR {}).r = ⟨3, 7, 0, true⟩ ∧
    lastR ((tester 32).trace (reset 0 0 exR exB) exRecvR) = some ⟨3, 2 ^ 40 + 7, 0, true⟩ := by decide +kernel

/-- **C371** (violated): `b_resp` is what it was at the begin, for all runs. -/
theorem bresp_never (cw a w : Nat) (r : R) (b : B) (is : List In) (i : In) (h : ∀ i ∈ is, NoWr i) :
    ((tester cw).outAfter (reset a w r b) is i).b.resp = b.resp := by
  have key : ∀ (is : List In) (s : State), (∀ i ∈ is, NoWr i) → ((tester cw).final s is).b.resp = s.b.resp := by
    intro is
    induction is with
    | nil => intro s _; rfl
    | cons j js ih =>
      intro s hj
      rw [Machine.final_cons, ih _ (fun i hi => hj i (List.mem_cons_of_mem _ hi))]
      have := (hj j (by simp)).2.2.2.2.2
      simp [tester, conn, this]
  exact key is _ h

/-- **C371** (part): the registers of the read channel and `b_id` hold the last transfer if the data are not wider than the register.
Missing: `b_resp`, wider data. -/
theorem result_partial (cw a w : Nat) (r : R) (b : B) (is : List In) (i : In) (h : ∀ i ∈ is, NoWr i)
    (hd : ∀ i ∈ is, ∀ x, i.rCh = some x → x.data < 2 ^ cw) :
    (∀ x, lastR ((tester cw).trace (reset a w r b) is) = some x → ((tester cw).outAfter (reset a w r b) is i).r = x) ∧
    (∀ x, lastB ((tester cw).trace (reset a w r b) is) = some x →
      ((tester cw).outAfter (reset a w r b) is i).b.id = x.id) := by
  have key : ∀ (n : Nat) (is : List In), is.length = n → (∀ i ∈ is, NoWr i) →
      (∀ i ∈ is, ∀ x, i.rCh = some x → x.data < 2 ^ cw) →
      (∀ x, lastR ((tester cw).trace (reset a w r b) is) = some x → ((tester cw).final (reset a w r b) is).r = x) ∧
      (∀ x, lastB ((tester cw).trace (reset a w r b) is) = some x →
        ((tester cw).final (reset a w r b) is).b.id = x.id) := by
    intro n
    induction n with
    | zero =>
      intro is hl _ _
      rw [List.length_eq_zero_iff.1 hl]
      simp [lastR, lastB]
    | succ n ih =>
      intro is hl hw hd
      rcases List.eq_nil_or_concat is with rfl | ⟨l, j, rfl⟩
      · simp at hl
      · rw [List.concat_eq_append] at *
        obtain ⟨i1, i2⟩ := ih l (by simpa using hl) (fun i hi => hw i (by simp [hi])) (fun i hi => hd i (by simp [hi]))
        have hj := hw j (by simp)
        have hdj := hd j (by simp)
        rw [Machine.trace_snoc, Machine.final_append]
        simp only [Machine.outAfter, Machine.final_cons, Machine.final_nil]
        generalize (tester cw).final (reset a w r b) l = s at *
        generalize (tester cw).trace (reset a w r b) l = tr at *
        obtain ⟨w1, w2, w3, w4, w5, w6⟩ := hj
        refine ⟨?_, ?_⟩
        · intro x hx
          simp only [lastR, List.filterMap_append, List.filterMap_cons, List.filterMap_nil] at hx i1
          by_cases hs : s.st = .waitR
          · cases hr : j.rCh with
            | none =>
              simp only [tester, hs, beq_self_eq_true, if_true, hr, List.append_nil] at hx
              have := i1 x hx
              simpa [tester, conn, rEn, hs, hr, w1, w2, w3, w4] using this
            | some y =>
              simp only [tester, hs, beq_self_eq_true, if_true, hr, List.getLast?_append, List.getLast?_singleton,
                Option.some_or, Option.some.injEq] at hx
              subst hx
              simp [tester, conn, rEn, hs, hr, w1, w2, w3, w4, Nat.mod_eq_of_lt (hdj y hr)]
          · have hrr : ((tester cw).out s j).rReady = false := by simp [tester, hs]
            simp only [hrr, Bool.false_eq_true, if_false, List.append_nil] at hx
            have := i1 x hx
            simpa [tester, conn, rEn, hs, w1, w2, w3, w4] using this
        · intro x hx
          simp only [lastB, List.filterMap_append, List.filterMap_cons, List.filterMap_nil] at hx i2
          by_cases hs : s.st = .waitB
          · cases hr : j.bCh with
            | none =>
              simp only [tester, hs, beq_self_eq_true, if_true, hr, List.append_nil] at hx
              have := i2 x hx
              simpa [tester, conn, bEn, hs, hr, w5] using this
            | some y =>
              simp only [tester, hs, beq_self_eq_true, if_true, hr, List.getLast?_append, List.getLast?_singleton,
                Option.some_or, Option.some.injEq] at hx
              subst hx
              simp [tester, conn, bEn, hs, hr, w5]
          · have hrr : ((tester cw).out s j).bReady = false := by simp [tester, hs]
            simp only [hrr, Bool.false_eq_true, if_false, List.append_nil] at hx
            have := i2 x hx
            simpa [tester, conn, bEn, hs, w5] using this
  exact key is.length is rfl h hd

example : lastR ((tester 64).trace (reset 0 0 exR exB) exRecvR) = some ⟨3, 2 ^ 40 + 7, 0, true⟩ ∧
    lastB ((tester 64).trace (reset 0 0 exR exB) exRecvB) = some ⟨3, 2⟩ := by decide +kernel

/-! ## C372: handshake of the AXI bus -/

/-- An offered item is kept until it is taken. -/
def HoldSpec : Prop := ∀ cw a w r b is i j,
  let o := (tester cw).outAfter (reset a w r b) is i
  let o' := (tester cw).outAfter (reset a w r b) (is ++ [i]) j
  (∀ x, o.aw = some x → i.awReady = false → o'.aw = some x) ∧
  (∀ x, o.ar = some x → i.arReady = false → o'.ar = some x) ∧
  (∀ x, o.w = some x → i.wReady = false → o'.w = some x)

/-- **C372** (violated): a write of a register changes the address while it is offered. -/
theorem holdSpec_violated : ¬ HoldSpec := by
  intro h
  have := (h 32 0 0 exR exB [{ cmd := some SEND_AW }, {}] { addr := some 5 } {}).1 0 (by decide +kernel) rfl
  revert this
  decide +kernel

/-- **C372** (part): valid is kept until ready, and the content if its registers are not written in the cycle. Missing: writes of the
registers of an offered item. -/
theorem hold_partial (cw a w : Nat) (r : R) (b : B) (is : List In) (i j : In) :
    let o := (tester cw).outAfter (reset a w r b) is i
    let o' := (tester cw).outAfter (reset a w r b) (is ++ [i]) j
    (∀ x, o.aw = some x → i.awReady = false → o'.aw = some (i.addr.getD x)) ∧
    (∀ x, o.ar = some x → i.arReady = false → o'.ar = some (i.addr.getD x)) ∧
    (∀ x, o.w = some x → i.wReady = false → o'.w = some (i.w.getD x)) ∧
    (o.rReady = true → i.rCh = none → o'.rReady = true) ∧ (o.bReady = true → i.bCh = none → o'.bReady = true) := by
  simp only [Machine.outAfter, Machine.final_append, Machine.final_cons, Machine.final_nil]
  generalize (tester cw).final (reset a w r b) is = s
  have hget : ∀ (o : Option Nat) (y : Nat), conn o none y = o.getD y := by intro o y; cases o <;> rfl
  simp only [tester, hget]
  refine ⟨?_, ?_, ?_, ?_, ?_⟩
  · intro x hx hr
    by_cases hs : s.st = .waitAw
    · simp [hs] at hx; subst hx; simp [nextSt, hs, hr]
    · simp [hs] at hx
  · intro x hx hr
    by_cases hs : s.st = .waitAr
    · simp [hs] at hx; subst hx; simp [nextSt, hs, hr]
    · simp [hs] at hx
  · intro x hx hr
    by_cases hs : s.st = .waitW
    · simp [hs] at hx; subst hx; simp [nextSt, hs, hr]
    · simp [hs] at hx
  · intro hs hr
    simp only [beq_iff_eq] at hs
    simp [nextSt, hs, hr]
  · intro hs hr
    simp only [beq_iff_eq] at hs
    simp [nextSt, hs, hr]

example : ((tester 32).outAfter (reset 7 0 exR exB) [{ cmd := some SEND_AW }, {}] {}).aw = some 7 := by decide +kernel

end Verif.AxiTester
