import Verif.Common
/-!
# Model of `I2cMasterBitCtrl` (hwtLib/peripheral/i2c/masterBitCntrl.py)

`i2c.*.o` is constant 0 (masterBitCntrl.py:313-314), `t = 1` drives the wire low and `t = 0` releases it, so the level
caused by the master is the negation of `t`. The reset values of the two counters are the signal `clk_cnt_initVal`, the
model leaves them arbitrary.
-/
namespace Verif.I2c

/-- masterBitCntrl.py:20, `other` is one of the codes 5, 6, 7 of the 3 bit signal -/
inductive Cmd | nop | start | stop | read | write | other
deriving DecidableEq, Repr

/-- masterBitCntrl.py:234-239 -/
inductive Fsm | idle | start0 | start1 | start2 | start3 | start4 | stop0 | stop1 | stop2 | stop3
  | rd0 | rd1 | rd2 | rd3 | wr0 | wr1 | wr2 | wr3
deriving DecidableEq, Repr

/-- The glitch filter of one wire: `filter_0`, `filter_1`, `filter1[2:0]`. -/
structure Filter where
  a : Bool
  b : Bool
  f2 : Bool
  f1 : Bool
  f0 : Bool

/-- masterBitCntrl.py:177-180 -/
def Filter.val (f : Filter) : Bool := (f.f2 && f.f1) || (f.f2 && f.f0) || (f.f1 && f.f0)

/-- masterBitCntrl.py:154-155, 172-175 -/
def Filter.next (f : Filter) (x en : Bool) : Filter where
  a := x
  b := f.a
  f2 := if en then f.f1 else f.f2
  f1 := if en then f.f0 else f.f1
  f0 := if en then f.b else f.f0

structure St where
  st : Fsm
  sdaChk : Bool
  sclT : Bool
  sdaT : Bool
  sclF : Filter
  sdaF : Filter
  filterCnt : Nat
  lastScl : Bool
  lastSda : Bool
  dout : Bool
  delayedSclT : Bool
  slaveWait : Bool
  clkCnt : Nat
  stateClkEn : Bool
  al : Bool
  cmdStop : Bool

structure In where
  cmd : Cmd
  din : Bool
  /-- `i2c.scl.i` -/
  scl : Bool
  /-- `i2c.sda.i` -/
  sda : Bool
  /-- `clk_cnt_initVal` -/
  initVal : Nat

structure Out where
  /-- `cntrl.rd` -/
  rd : Bool
  arbitrationLost : Bool
  dout : Bool
  /-- levels of the wires if nobody else drives them -/
  scl : Bool
  sda : Bool

/-- masterBitCntrl.py:256-280 -/
def nextSt (st : Fsm) (al : Bool) (c : Cmd) : Fsm :=
  if al then .idle else
  match st with
  | .idle => match c with
    | .nop => .idle
    | .start => .start0
    | .stop => .stop0
    | .write => .wr0
    | .read => .rd0
    | .other => .idle
  | .start0 => .start1 | .start1 => .start2 | .start2 => .start3 | .start3 => .start4 | .start4 => .idle
  | .stop0 => .stop1 | .stop1 => .stop2 | .stop2 => .stop3 | .stop3 => .idle
  | .rd0 => .rd1 | .rd1 => .rd2 | .rd2 => .rd3 | .rd3 => .idle
  | .wr0 => .wr1 | .wr1 => .wr2 | .wr2 => .wr3 | .wr3 => .idle

/-- masterBitCntrl.py:288-297, `none` if the register is not assigned -/
def sclSet : Fsm → Option Bool
  | .start1 | .start2 | .start3 | .stop1 | .stop2 | .stop3 | .rd1 | .rd2 | .wr1 | .wr2 => some false
  | .start4 | .stop0 | .rd0 | .rd3 | .wr0 | .wr3 => some true
  | .idle | .start0 => none

/-- masterBitCntrl.py:299-308 -/
def sdaSet (din : Bool) : Fsm → Option Bool
  | .start0 | .start1 | .stop3 | .rd0 | .rd1 | .rd2 | .rd3 => some false
  | .start2 | .start3 | .start4 | .stop0 | .stop1 | .stop2 => some true
  | .wr0 | .wr1 | .wr2 | .wr3 => some (!din)
  | .idle => none

/-- masterBitCntrl.py:310 -/
def ack : Fsm → Bool
  | .start4 | .stop3 | .rd3 | .wr3 => true
  | _ => false

/-- masterBitCntrl.py:190 -/
def stopCond (s : St) : Bool := (!s.lastSda && s.sdaF.val) && s.sclF.val
/-- masterBitCntrl.py:201 -/
def sclSync (s : St) : Bool := s.lastScl && !s.sclF.val && !s.sclT

def next (s : St) (i : In) : St where
  st := nextSt s.st s.al i.cmd
  -- masterBitCntrl.py:282-287: never set to 1
  sdaChk := if s.al then false else s.sdaChk
  sclT := if s.al then false else (sclSet s.st).getD s.sclT
  sdaT := if s.al then false else (sdaSet i.din s.st).getD s.sdaT
  sclF := s.sclF.next i.scl (decide (s.filterCnt = 0))
  sdaF := s.sdaF.next i.sda (decide (s.filterCnt = 0))
  filterCnt := if s.filterCnt = 0 then i.initVal else s.filterCnt - 1
  lastScl := s.sclF.val
  lastSda := s.sdaF.val
  -- masterBitCntrl.py:195-197
  dout := !s.lastScl && s.sclF.val
  -- masterBitCntrl.py:126-148
  delayedSclT := s.sclT
  slaveWait := (!s.sclT && s.delayedSclT && !s.sclF.val) || (s.slaveWait && !s.sclF.val)
  clkCnt := if decide (s.clkCnt = 0) || sclSync s then i.initVal else if s.slaveWait then s.clkCnt else s.clkCnt - 1
  stateClkEn := decide (s.clkCnt = 0) || sclSync s
  -- masterBitCntrl.py:213-225
  al := (s.sdaChk && !s.sdaF.val && !s.sdaT) || (decide (s.st = .idle) && (stopCond s && !s.cmdStop))
  cmdStop := if s.stateClkEn then decide (i.cmd = .stop) else s.cmdStop

def out (s : St) (_ : In) : Out where
  rd := !s.al && ack s.st
  arbitrationLost := s.al
  dout := s.dout
  scl := !s.sclT
  sda := !s.sdaT

def machine : Machine St In Out where
  out := out
  next := next

def filterInit : Filter := ⟨false, false, true, true, true⟩

def IsInit (s : St) : Prop :=
  s.st = .idle ∧ s.sdaChk = false ∧ s.sclT = false ∧ s.sdaT = false ∧ s.sclF = filterInit ∧ s.sdaF = filterInit ∧
  s.lastScl = true ∧ s.lastSda = true ∧ s.dout = false ∧ s.delayedSclT = true ∧ s.slaveWait = false ∧
  s.stateClkEn = true ∧ s.al = false ∧ s.cmdStop = false

/-! ### Bus decoder (specification) -/

inductive Ev | start | stop | bit (b : Bool)
deriving DecidableEq, Repr

/-- State of a listener: the last levels and the value of SDA at the last rise of SCL, if SDA did not change since. -/
structure Lis where
  scl : Bool
  sda : Bool
  pend : Option Bool
deriving DecidableEq, Repr

/-- A change of SDA while SCL is high is START or STOP, a high phase of SCL without such a change is a bit. -/
def Lis.next (d : Lis) (scl sda : Bool) : Lis × List Ev :=
  if d.scl && scl then
    if d.sda == sda then ({ d with scl := scl, sda := sda }, [])
    else (⟨scl, sda, none⟩, [if sda then .stop else .start])
  else if scl then (⟨scl, sda, some sda⟩, [])
  else if d.scl then (⟨scl, sda, none⟩, (d.pend.map Ev.bit).toList)
  else (⟨scl, sda, none⟩, [])

def events (d : Lis) : List (In × Out) → List Ev
  | [] => []
  | e :: tr => (d.next e.2.scl e.2.sda).2 ++ events (d.next e.2.scl e.2.sda).1 tr

/-- Idle bus. -/
def free : Lis := ⟨true, true, none⟩

def evOf (c : Cmd) (din : Bool) : List Ev :=
  match c with
  | .start => [.start] | .stop => [.stop] | .read => [.bit true] | .write => [.bit din] | .nop => [] | .other => []

/-- The events of the acknowledged commands, in order. A read releases SDA. -/
def done (tr : List (In × Out)) : List Ev := tr.flatMap fun e => if e.2.rd then evOf e.1.cmd e.1.din else []

/-- Commands which are executed. -/
def Cmd.real : Cmd → Bool
  | .nop | .other => false
  | _ => true

/-- The command which must be kept after a cycle. -/
def held (e : In × Out) : Option (Cmd × Bool) := if e.1.cmd.real && !e.2.rd then some (e.1.cmd, e.1.din) else none

/-- The bus is owned by the master after a cycle (between START and STOP). -/
def owned (op : Bool) (e : In × Out) : Bool :=
  if e.2.rd then (if e.1.cmd = .start then true else if e.1.cmd = .stop then false else op) else op

/-- The user keeps a command until it is acknowledged, the first command of a transfer is START and the arbitration is not lost. -/
def Legal : Option (Cmd × Bool) → Bool → List (In × Out) → Prop
  | _, _, [] => True
  | g, op, e :: tr => (∀ x, g = some x → (e.1.cmd, e.1.din) = x) ∧
    (e.1.cmd.real = true → op = false → e.1.cmd = .start) ∧ e.2.arbitrationLost = false ∧
    Legal (held e) (owned op e) tr

def heldAfter : Option (Cmd × Bool) → List (In × Out) → Option (Cmd × Bool)
  | g, [] => g
  | _, e :: tr => heldAfter (held e) tr

/-! ### Invariant -/

/-- The listener and the events not yet acknowledged for each state. -/
def Inv (s : St) (g : Option (Cmd × Bool)) (op : Bool) (d : Lis) (pre : List Ev) : Prop :=
  d.scl = !s.sclT ∧ d.sda = !s.sdaT ∧
  match s.st with
  | .idle => g = none ∧ pre = [] ∧ d.pend = none ∧ (if op then s.sclT = true else s.sclT = false ∧ s.sdaT = false)
  | .start0 => (∃ b, g = some (.start, b)) ∧ pre = [] ∧ d.pend = none ∧
      (if op then s.sclT = true else s.sclT = false ∧ s.sdaT = false)
  | .start1 => (∃ b, g = some (.start, b)) ∧ pre = [] ∧ d.pend = none ∧ s.sdaT = false
  | .start2 => (∃ b, g = some (.start, b)) ∧ pre = [] ∧ s.sclT = false ∧ s.sdaT = false
  | .start3 | .start4 => (∃ b, g = some (.start, b)) ∧ pre = [.start] ∧ d.pend = none ∧ s.sclT = false ∧ s.sdaT = true
  | .stop0 => op = true ∧ (∃ b, g = some (.stop, b)) ∧ pre = [] ∧ d.pend = none ∧ s.sclT = true
  | .stop1 => op = true ∧ (∃ b, g = some (.stop, b)) ∧ pre = [] ∧ d.pend = none ∧ s.sclT = true ∧ s.sdaT = true
  | .stop2 | .stop3 => op = true ∧ (∃ b, g = some (.stop, b)) ∧ pre = [] ∧ s.sclT = false ∧ s.sdaT = true
  | .rd0 => op = true ∧ (∃ b, g = some (.read, b)) ∧ pre = [] ∧ d.pend = none ∧ s.sclT = true
  | .rd1 => op = true ∧ (∃ b, g = some (.read, b)) ∧ pre = [] ∧ d.pend = none ∧ s.sclT = true ∧ s.sdaT = false
  | .rd2 | .rd3 => op = true ∧ (∃ b, g = some (.read, b)) ∧ pre = [] ∧ d.pend = some true ∧ s.sclT = false ∧ s.sdaT = false
  | .wr0 => op = true ∧ (∃ b, g = some (.write, b)) ∧ pre = [] ∧ d.pend = none ∧ s.sclT = true
  | .wr1 => op = true ∧ (∃ b, g = some (.write, b) ∧ s.sdaT = !b) ∧ pre = [] ∧ d.pend = none ∧ s.sclT = true
  | .wr2 | .wr3 => op = true ∧ (∃ b, g = some (.write, b) ∧ s.sdaT = (!b) ∧ d.pend = some b) ∧ pre = [] ∧ s.sclT = false

set_option linter.unusedSimpArgs false in
theorem inv_next {s : St} {g : Option (Cmd × Bool)} {op : Bool} {d : Lis} {pre : List Ev} {i : In} (h : Inv s g op d pre)
    (hg : ∀ x, g = some x → (i.cmd, i.din) = x) (ho : i.cmd.real = true → op = false → i.cmd = .start) (ha : s.al = false) :
    ∃ pre', Inv (next s i) (held (i, out s i)) (owned op (i, out s i))
      (d.next (!(next s i).sclT) (!(next s i).sdaT)).1 pre' ∧
      pre ++ (d.next (!(next s i).sclT) (!(next s i).sdaT)).2 =
        (if (out s i).rd then evOf i.cmd i.din else []) ++ pre' := by
  obtain ⟨hs, hd, h⟩ := h
  obtain ⟨dscl, dsda, dp⟩ := d
  simp only at hs hd h
  subst hs; subst hd
  cases hst : s.st
  all_goals simp only [hst] at h
  case idle =>
    refine ⟨[], ?_⟩
    obtain ⟨h1, h2, h3, h4⟩ := h
    subst h2; subst h3
    cases hc : i.cmd <;> cases op <;> simp [hc, Cmd.real] at ho h4 <;>
      simp [Inv, next, nextSt, sclSet, sdaSet, out, ack, held, owned, Cmd.real, Lis.next, evOf, hst, ha, hc, h4]
    all_goals (cases s.sdaT <;> simp)
  case start0 =>
    refine ⟨[], ?_⟩
    obtain ⟨⟨b, hx⟩, h2, h3, h4⟩ := h
    obtain ⟨hc, hb⟩ := Prod.mk.inj (hg _ hx)
    cases op <;> simp at h4 <;> simp [Inv, next, nextSt, sclSet, sdaSet, out, ack, held, owned, Cmd.real, Lis.next, evOf, hst, ha, hc, hb, h2, h3, h4]
  case start1 =>
    refine ⟨[], ?_⟩
    obtain ⟨⟨b, hx⟩, h2, h3, h4⟩ := h
    obtain ⟨hc, hb⟩ := Prod.mk.inj (hg _ hx)
    cases hq : s.sclT <;> simp [Inv, next, nextSt, sclSet, sdaSet, out, ack, held, owned, Cmd.real, Lis.next, evOf, hst, ha, hc, hb, h2, h3, h4, hq]
  case start2 =>
    refine ⟨[.start], ?_⟩
    obtain ⟨⟨b, hx⟩, h2, h3, h4⟩ := h
    obtain ⟨hc, hb⟩ := Prod.mk.inj (hg _ hx)
    simp [Inv, next, nextSt, sclSet, sdaSet, out, ack, held, owned, Cmd.real, Lis.next, evOf, hst, ha, hc, hb, h2, h3, h4]
  case start3 =>
    refine ⟨[.start], ?_⟩
    obtain ⟨⟨b, hx⟩, h2, h3, h4, h5⟩ := h
    obtain ⟨hc, hb⟩ := Prod.mk.inj (hg _ hx)
    simp [Inv, next, nextSt, sclSet, sdaSet, out, ack, held, owned, Cmd.real, Lis.next, evOf, hst, ha, hc, hb, h2, h3, h4, h5]
  case start4 =>
    refine ⟨[], ?_⟩
    obtain ⟨⟨b, hx⟩, h2, h3, h4, h5⟩ := h
    obtain ⟨hc, hb⟩ := Prod.mk.inj (hg _ hx)
    simp [Inv, next, nextSt, sclSet, sdaSet, out, ack, held, owned, Cmd.real, Lis.next, evOf, hst, ha, hc, hb, h2, h3, h4, h5]
  case stop0 =>
    refine ⟨[], ?_⟩
    obtain ⟨h1, ⟨b, hx⟩, h2, h3, h4⟩ := h
    obtain ⟨hc, hb⟩ := Prod.mk.inj (hg _ hx)
    cases hq : s.sdaT <;> simp [Inv, next, nextSt, sclSet, sdaSet, out, ack, held, owned, Cmd.real, Lis.next, evOf, hst, ha, hc, hb, h1, h2, h3, h4, hq]
  case stop1 =>
    refine ⟨[], ?_⟩
    obtain ⟨h1, ⟨b, hx⟩, h2, h3, h4, h5⟩ := h
    obtain ⟨hc, hb⟩ := Prod.mk.inj (hg _ hx)
    simp [Inv, next, nextSt, sclSet, sdaSet, out, ack, held, owned, Cmd.real, Lis.next, evOf, hst, ha, hc, hb, h1, h2, h3, h4, h5]
  case stop2 =>
    refine ⟨[], ?_⟩
    obtain ⟨h1, ⟨b, hx⟩, h2, h3, h4⟩ := h
    obtain ⟨hc, hb⟩ := Prod.mk.inj (hg _ hx)
    simp [Inv, next, nextSt, sclSet, sdaSet, out, ack, held, owned, Cmd.real, Lis.next, evOf, hst, ha, hc, hb, h1, h2, h3, h4]
  case stop3 =>
    refine ⟨[], ?_⟩
    obtain ⟨h1, ⟨b, hx⟩, h2, h3, h4⟩ := h
    obtain ⟨hc, hb⟩ := Prod.mk.inj (hg _ hx)
    simp [Inv, next, nextSt, sclSet, sdaSet, out, ack, held, owned, Cmd.real, Lis.next, evOf, hst, ha, hc, hb, h1, h2, h3, h4]
  case rd0 =>
    refine ⟨[], ?_⟩
    obtain ⟨h1, ⟨b, hx⟩, h2, h3, h4⟩ := h
    obtain ⟨hc, hb⟩ := Prod.mk.inj (hg _ hx)
    cases hq : s.sdaT <;> simp [Inv, next, nextSt, sclSet, sdaSet, out, ack, held, owned, Cmd.real, Lis.next, evOf, hst, ha, hc, hb, h1, h2, h3, h4, hq]
  case rd1 =>
    refine ⟨[], ?_⟩
    obtain ⟨h1, ⟨b, hx⟩, h2, h3, h4, h5⟩ := h
    obtain ⟨hc, hb⟩ := Prod.mk.inj (hg _ hx)
    simp [Inv, next, nextSt, sclSet, sdaSet, out, ack, held, owned, Cmd.real, Lis.next, evOf, hst, ha, hc, hb, h1, h2, h3, h4, h5]
  case rd2 =>
    refine ⟨[], ?_⟩
    obtain ⟨h1, ⟨b, hx⟩, h2, h3, h4, h5⟩ := h
    obtain ⟨hc, hb⟩ := Prod.mk.inj (hg _ hx)
    simp [Inv, next, nextSt, sclSet, sdaSet, out, ack, held, owned, Cmd.real, Lis.next, evOf, hst, ha, hc, hb, h1, h2, h3, h4, h5]
  case rd3 =>
    refine ⟨[], ?_⟩
    obtain ⟨h1, ⟨b, hx⟩, h2, h3, h4, h5⟩ := h
    obtain ⟨hc, hb⟩ := Prod.mk.inj (hg _ hx)
    simp [Inv, next, nextSt, sclSet, sdaSet, out, ack, held, owned, Cmd.real, Lis.next, evOf, hst, ha, hc, hb, h1, h2, h3, h4, h5]
  case wr0 =>
    refine ⟨[], ?_⟩
    obtain ⟨h1, ⟨b, hx⟩, h2, h3, h4⟩ := h
    obtain ⟨hc, hb⟩ := Prod.mk.inj (hg _ hx)
    cases hq : s.sdaT <;> simp [Inv, next, nextSt, sclSet, sdaSet, out, ack, held, owned, Cmd.real, Lis.next, evOf, hst, ha, hc, hb, h1, h2, h3, h4, hq]
  case wr1 =>
    refine ⟨[], ?_⟩
    obtain ⟨h1, ⟨b, hx, h5⟩, h2, h3, h4⟩ := h
    obtain ⟨hc, hb⟩ := Prod.mk.inj (hg _ hx)
    simp [Inv, next, nextSt, sclSet, sdaSet, out, ack, held, owned, Cmd.real, Lis.next, evOf, hst, ha, hc, hb, h1, h2, h3, h4, h5]
  case wr2 =>
    refine ⟨[], ?_⟩
    obtain ⟨h1, ⟨b, hx, h5, h3⟩, h2, h4⟩ := h
    obtain ⟨hc, hb⟩ := Prod.mk.inj (hg _ hx)
    simp [Inv, next, nextSt, sclSet, sdaSet, out, ack, held, owned, Cmd.real, Lis.next, evOf, hst, ha, hc, hb, h1, h2, h3, h4, h5]
  case wr3 =>
    refine ⟨[], ?_⟩
    obtain ⟨h1, ⟨b, hx, h5, h3⟩, h2, h4⟩ := h
    obtain ⟨hc, hb⟩ := Prod.mk.inj (hg _ hx)
    simp [Inv, next, nextSt, sclSet, sdaSet, out, ack, held, owned, Cmd.real, Lis.next, evOf, hst, ha, hc, hb, h1, h2, h3, h4, h5]

theorem run : ∀ (is : List In) (s : St) (g : Option (Cmd × Bool)) (op : Bool) (d : Lis) (pre : List Ev) (j : In),
    Inv s g op (d.next (!s.sclT) (!s.sdaT)).1 pre → Legal g op (machine.trace s is) →
    ∃ X op' d' pre', events d (machine.trace s (is ++ [j])) = (d.next (!s.sclT) (!s.sdaT)).2 ++ X ∧
      pre ++ X = done (machine.trace s is) ++ pre' ∧
      Inv (machine.final s is) (heldAfter g (machine.trace s is)) op' d' pre' := by
  intro is
  induction is with
  | nil =>
    intro s g op d pre j h _
    exact ⟨[], op, _, pre, by simp [Machine.trace, events]; rfl, by simp [Machine.trace, done], h⟩
  | cons i is ih =>
    intro s g op d pre j h hl
    have e : ∀ js, machine.trace s (i :: js) = (i, out s i) :: machine.trace (next s i) js := fun _ => rfl
    rw [List.cons_append, e, e]
    rw [e] at hl
    obtain ⟨l1, l2, l3, l4⟩ := hl
    obtain ⟨p1, k1, k2⟩ := inv_next h l1 l2 l3
    obtain ⟨X, op', d', pre', j1, j2, j3⟩ := ih _ _ _ _ _ j k1 l4
    refine ⟨_, op', d', pre', rfl, ?_, j3⟩
    show pre ++ events (d.next (!s.sclT) (!s.sdaT)).1 _ = done ((i, out s i) :: machine.trace (next s i) is) ++ pre'
    rw [j1, ← List.append_assoc, k2, List.append_assoc, j2, ← List.append_assoc]
    rfl

theorem init_inv {s : St} (h : IsInit s) : Inv s none false (free.next (!s.sclT) (!s.sdaT)).1 [] := by
  obtain ⟨h1, _, h3, h4, _⟩ := h
  simp [Inv, h1, h3, h4, free, Lis.next]

end Verif.I2c
