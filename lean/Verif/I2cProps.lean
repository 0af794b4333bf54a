import Verif.I2c
/-! Properties of `I2cMasterBitCtrl` (C113 - C116). -/
namespace Verif.I2c

def zero : St := ⟨.idle, false, false, false, filterInit, filterInit, 5, true, true, false, true, false, 5, true, false, false⟩
theorem zero_init : IsInit zero := ⟨rfl, rfl, rfl, rfl, rfl, rfl, rfl, rfl, rfl, rfl, rfl, rfl, rfl, rfl⟩
def cyc (c : Cmd) (din : Bool) : In := ⟨c, din, true, true, 5⟩

/-! ### C113 waveforms -/

/-- **C113** A listener on the bus sees the acknowledged commands, in order and nothing else; at most the START condition of
the command in progress is seen before its acknowledge. -/
theorem i2c_wave (s0 : St) (h0 : IsInit s0) (is : List In) (j : In) (hl : Legal none false (machine.trace s0 is)) :
    ∃ pre, events free (machine.trace s0 (is ++ [j])) = done (machine.trace s0 is) ++ pre ∧
      (pre = [] ∨ pre = [.start] ∧ ∃ b, heldAfter none (machine.trace s0 is) = some (.start, b)) := by
  obtain ⟨X, op, d, pre, h1, h2, h3⟩ := run is s0 none false free [] j (init_inv h0) hl
  have e : (free.next (!s0.sclT) (!s0.sdaT)).2 = [] := by
    obtain ⟨_, _, a, b, _⟩ := h0
    rw [a, b]; rfl
  refine ⟨pre, by rw [h1, e, List.nil_append, ← h2, List.nil_append], ?_⟩
  obtain ⟨_, _, h⟩ := h3
  split at h
  all_goals first
    | exact Or.inl h.2.1
    | exact Or.inl h.2.2.1
    | exact Or.inr ⟨h.2.1, h.1⟩

/-- START, write 1, write 0, read, repeated START, STOP -/
def demo : List In := List.replicate 6 (cyc .start false) ++ List.replicate 5 (cyc .write true) ++
  List.replicate 5 (cyc .write false) ++ List.replicate 5 (cyc .read false) ++ List.replicate 6 (cyc .start false) ++
  List.replicate 5 (cyc .stop false)

instance decLegal : ∀ (g : Option (Cmd × Bool)) (op : Bool) (tr : List (In × Out)), Decidable (Legal g op tr)
  | _, _, [] => isTrue trivial
  | g, op, e :: tr =>
    have := decLegal (held e) (owned op e) tr
    have : Decidable (∀ x, g = some x → (e.1.cmd, e.1.din) = x) := match g with
      | none => isTrue (fun x h => nomatch h)
      | some y => if h : (e.1.cmd, e.1.din) = y then isTrue (fun x hx => by rw [h]; exact Option.some.inj hx)
        else isFalse (fun hp => h (hp y rfl))
    inferInstanceAs (Decidable (_ ∧ _ ∧ _ ∧ _))

set_option maxRecDepth 16384 in
example : Legal none false (machine.trace zero demo) ∧
    events free (machine.trace zero (demo ++ [cyc .nop false])) = [.start, .bit true, .bit false, .bit true, .start, .stop] ∧
    done (machine.trace zero demo) = [.start, .bit true, .bit false, .bit true, .start, .stop] := by decide

theorem legal_left : ∀ (tr tr' : List (In × Out)) (g : Option (Cmd × Bool)) (op : Bool), Legal g op (tr ++ tr') → Legal g op tr := by
  intro tr
  induction tr with
  | nil => intros; trivial
  | cons e tr ih => intro tr' g op h; exact ⟨h.1, h.2.1, h.2.2.1, ih _ _ _ h.2.2.2⟩

theorem legal_al : ∀ (tr : List (In × Out)) (g : Option (Cmd × Bool)) (op : Bool), Legal g op tr →
    ∀ e ∈ tr, e.2.arbitrationLost = false := by
  intro tr
  induction tr with
  | nil => intro _ _ _ e he; simp at he
  | cons e tr ih =>
    intro g op h e' he
    rcases List.mem_cons.1 he with h' | h'
    · rw [h']; exact h.2.2.1
    · exact ih _ _ h.2.2.2 e' h'

/-- The state after `n` cycles of a command. -/
def pos : Cmd → Nat → Fsm
  | .start, 1 => .start0 | .start, 2 => .start1 | .start, 3 => .start2 | .start, 4 => .start3 | .start, 5 => .start4
  | .stop, 1 => .stop0 | .stop, 2 => .stop1 | .stop, 3 => .stop2 | .stop, 4 => .stop3
  | .read, 1 => .rd0 | .read, 2 => .rd1 | .read, 3 => .rd2 | .read, 4 => .rd3
  | .write, 1 => .wr0 | .write, 2 => .wr1 | .write, 3 => .wr2 | .write, 4 => .wr3
  | _, _ => .idle

theorem pos_run : ∀ (is : List In) (s : St) (c : Cmd) (k : Nat) (j : In), c.real = true → s.st = pos c k →
    (∀ i ∈ is, i.cmd = c) → (∀ e ∈ machine.trace s (is ++ [j]), e.2.arbitrationLost = false) →
    k + is.length ≤ (if c = .start then 5 else 4) → (machine.final s is).st = pos c (k + is.length) ∧ (machine.final s is).al = false := by
  intro is
  induction is with
  | nil => intro s c k j _ hs _ ha _; exact ⟨hs, ha _ List.mem_cons_self⟩
  | cons i is ih =>
    intro s c k j hc hs hi ha hn
    have h1 : (next s i).st = pos c (k + 1) := by
      have hal : s.al = false := ha (i, out s i) List.mem_cons_self
      have hk : k < 5 := by simp only [List.length_cons] at hn; split at hn <;> omega
      show nextSt s.st s.al i.cmd = _
      rw [hs, hal, hi i List.mem_cons_self]
      have : k = 0 ∨ k = 1 ∨ k = 2 ∨ k = 3 ∨ k = 4 := by omega
      rcases this with rfl | rfl | rfl | rfl | rfl <;> cases c <;> simp [Cmd.real] at hc <;> simp [nextSt, pos] <;>
        simp at hn <;> omega
    have := ih (next s i) c (k + 1) j hc h1 (fun x hx => hi x (List.mem_cons_of_mem _ hx))
      (fun e he => ha e (List.mem_cons_of_mem _ he)) (by simp only [List.length_cons] at hn; omega)
    rw [Machine.final_cons, List.length_cons, show k + (is.length + 1) = k + 1 + is.length by omega]
    exact this

theorem inv_idle {s : St} {op : Bool} {d : Lis} {pre : List Ev} (h : Inv s none op d pre) : s.st = .idle := by
  obtain ⟨_, _, h⟩ := h
  cases hs : s.st <;> simp [hs] at h ⊢

/-- **C113** A command kept from the idle state is acknowledged in its 6th cycle (START) or in the 5th one. -/
theorem i2c_latency (s0 : St) (h0 : IsInit s0) (h is : List In) (c : Cmd) (j : In)
    (hl : Legal none false (machine.trace s0 (h ++ (is ++ [j]))))
    (hf : heldAfter none (machine.trace s0 h) = none) (hc : c.real = true)
    (hi : ∀ i ∈ is, i.cmd = c) (hn : is.length ≤ if c = .start then 5 else 4) :
    (machine.outAfter s0 (h ++ is) j).rd = decide (is.length = if c = .start then 5 else 4) := by
  rw [Machine.trace_append] at hl
  obtain ⟨X, op, d, pre, _, _, h3⟩ := run h s0 none false free [] j (init_inv h0) (legal_left _ _ _ _ hl)
  rw [hf] at h3
  obtain ⟨a, b⟩ := pos_run is (machine.final s0 h) c 0 j hc (by rw [inv_idle h3]; cases c <;> rfl) hi
    (fun e he => legal_al _ _ _ hl e (List.mem_append_right _ he)) (by omega)
  rw [← Machine.final_append] at a b
  show (!(machine.final s0 (h ++ is)).al && ack (machine.final s0 (h ++ is)).st) = _
  rw [a, b, Nat.zero_add]
  generalize is.length = n at hn ⊢
  have : n ≤ 5 := by split at hn <;> omega
  have : n = 0 ∨ n = 1 ∨ n = 2 ∨ n = 3 ∨ n = 4 ∨ n = 5 := by omega
  rcases this with rfl | rfl | rfl | rfl | rfl | rfl <;> cases c <;> simp [Cmd.real] at hc <;> simp at hn <;>
    simp [pos, ack]

set_option maxRecDepth 16384 in
example : Legal none false (machine.trace zero (demo ++ (List.replicate 5 (cyc .start false) ++ [cyc .start false]))) ∧
    heldAfter none (machine.trace zero demo) = none ∧
    (machine.outAfter zero (demo ++ List.replicate 5 (cyc .start false)) (cyc .start false)).rd = true := by decide

/-! ### C114 arbitration -/

/-- Full statement of **C114**: if somebody holds SDA low while the master writes 1 the loss of the arbitration is reported. -/
def DetectsLoss : Prop := ∀ (s0 : St), IsInit s0 → ∀ f : Nat → In, (∀ n, (f n).sda = false) →
  (∃ n, (f n).cmd = .write ∧ (f n).din = true ∧ (machine.outAt s0 f n).rd = true) →
  ∃ n, (machine.outAt s0 f n).arbitrationLost = true

/-- SDA was never high, the arbitration is not lost. -/
structure Low (s : St) : Prop where
  chk : s.sdaChk = false
  al : s.al = false
  a : s.sdaF.a = false
  b : s.sdaF.b = false
  m1 : s.sdaF.f0 = true → s.sdaF.f1 = true
  m2 : s.sdaF.f1 = true → s.sdaF.f2 = true
  last : s.sdaF.val = true → s.lastSda = true

theorem low_next {s : St} {i : In} (h : Low s) (hi : i.sda = false) : Low (next s i) := by
  obtain ⟨h1, h2, h3, h4, h5, h6, h7⟩ := h
  have hstop : stopCond s = false := by
    unfold stopCond
    cases hv : s.sdaF.val
    · simp
    · simp [h7 hv]
  refine ⟨by simp [next, h1], by simp [next, h1, hstop], hi, h3, ?_, ?_, ?_⟩
  · simp only [next, Filter.next, h4]; split <;> simp_all
  · simp only [next, Filter.next, h4]; split <;> simp_all
  · simp only [next, Filter.next, h4, Filter.val] at h7 ⊢
    split
    · cases h0 : s.sdaF.f0 <;> cases h1 : s.sdaF.f1 <;> cases h2 : s.sdaF.f2 <;> simp_all
    · exact id

theorem low_init {s : St} (h : IsInit s) : Low s := by
  obtain ⟨h1, h2, h3, h4, h5, h6, h7, h8, h9, h10, h11, h12, h13, h14⟩ := h
  refine ⟨h2, h13, ?_, ?_, ?_, ?_, ?_⟩ <;> simp [h6, filterInit, h8]

theorem low_at {s0 : St} (h0 : IsInit s0) (f : Nat → In) (hf : ∀ n, (f n).sda = false) : ∀ n, Low (machine.stateAt s0 f n)
  | 0 => low_init h0
  | n + 1 => low_next (low_at h0 f hf n) (hf n)

/-- **C114** As long as SDA is low the loss is never reported, whatever the master writes. -/
theorem i2c_low_no_loss (s0 : St) (h0 : IsInit s0) (f : Nat → In) (hf : ∀ n, (f n).sda = false) (n : Nat) :
    (machine.outAt s0 f n).arbitrationLost = false := (low_at h0 f hf n).al

def contend (n : Nat) : In := ⟨if n < 6 then .start else .write, true, true, false, 5⟩

/-- **C114** is false: `sda_chk` is never set. -/
theorem i2c_no_arbitration : ¬ DetectsLoss := by
  intro hp
  obtain ⟨n, hn⟩ := hp zero zero_init contend (fun _ => rfl) ⟨10, rfl, rfl, rfl⟩
  rw [i2c_low_no_loss zero zero_init contend (fun _ => rfl) n] at hn
  simp at hn

/-- **C114** What holds: if the loss is reported the command is not acknowledged and both wires are released in the next cycle. -/
theorem i2c_abort_partial (s0 : St) (h : List In) (i j : In) (ha : (machine.outAfter s0 h i).arbitrationLost = true) :
    (machine.outAfter s0 h i).rd = false ∧ (machine.outAfter s0 (h ++ [i]) j).scl = true ∧
    (machine.outAfter s0 (h ++ [i]) j).sda = true ∧ (machine.outAfter s0 (h ++ [i]) j).rd = false := by
  have ha' : (machine.final s0 h).al = true := ha
  have e : machine.final s0 (h ++ [i]) = next (machine.final s0 h) i := by rw [Machine.final_append]; rfl
  unfold Machine.outAfter
  rw [e]
  refine ⟨?_, ?_, ?_, ?_⟩
  · show (!(machine.final s0 h).al && _) = false; rw [ha']; rfl
  · show (!(next (machine.final s0 h) i).sclT) = true; simp [next, ha']
  · show (!(next (machine.final s0 h) i).sdaT) = true; simp [next, ha']
  · show (!_ && ack (next (machine.final s0 h) i).st) = false; simp [next, ha', nextSt, ack]

/-- A STOP of another master while idle. -/
def foreign : List In := (List.range 40).map fun n => ⟨.nop, false, true, decide (n < 2 ∨ 20 ≤ n), 0⟩

set_option maxRecDepth 16384 in
example : ((machine.trace { zero with filterCnt := 0 } foreign).filter fun e => e.2.arbitrationLost).length = 2 := by decide

/-! ### C115 rate of SCL -/

/-- Full statement of **C115**: with a constant `clk_cnt_initVal = v` each high phase of SCL lasts at least `v` cycles. -/
def Rate : Prop := ∀ (v : Nat) (s0 : St), IsInit s0 → ∀ is : List In, (∀ i ∈ is, i.initVal = v) →
  Legal none false (machine.trace s0 is) → ∀ (p q : List Bool) (k : Nat),
  (machine.trace s0 is).map (fun e => e.2.scl) = p ++ [false] ++ List.replicate (k + 1) true ++ [false] ++ q → v ≤ k + 1

set_option maxRecDepth 16384 in
/-- **C115** is false: the transitions of the state machine are not gated by `stateClkEn`. -/
theorem i2c_no_rate : ¬ Rate := by
  intro hp
  have := hp 5 zero zero_init (List.replicate 6 (cyc .start false) ++ List.replicate 6 (cyc .write true)) (by decide) (by decide)
    (List.replicate 6 true ++ List.replicate 2 false) [] 1 (by decide)
  omega

theorem same_next {s t : St} {i j : In} (h : s.st = t.st ∧ s.sclT = t.sclT ∧ s.sdaT = t.sdaT) (hs : s.al = false) (ht : t.al = false)
    (hi : i.cmd = j.cmd ∧ i.din = j.din) :
    (next s i).st = (next t j).st ∧ (next s i).sclT = (next t j).sclT ∧ (next s i).sdaT = (next t j).sdaT := by
  obtain ⟨a, b, c⟩ := h
  obtain ⟨d, e⟩ := hi
  refine ⟨?_, ?_, ?_⟩
  · simp only [next, hs, ht, a, d]
  · simp only [next, hs, ht, a, b]
  · simp only [next, hs, ht, a, c, e]

/-- **C115** What holds: the wires and the acknowledges only depend on the commands (as long as the arbitration is not lost),
not on `clk_cnt_initVal` and not on a slave which stretches SCL. -/
theorem i2c_fixed_rate_partial (s0 t0 : St) (h0 : IsInit s0) (h1 : IsInit t0) : ∀ (is js : List In) (i j : In),
    (is ++ [i]).map (fun x => (x.cmd, x.din)) = (js ++ [j]).map (fun x => (x.cmd, x.din)) →
    (∀ e ∈ machine.trace s0 (is ++ [i]), e.2.arbitrationLost = false) →
    (∀ e ∈ machine.trace t0 (js ++ [j]), e.2.arbitrationLost = false) →
    (machine.outAfter s0 is i).scl = (machine.outAfter t0 js j).scl ∧ (machine.outAfter s0 is i).sda = (machine.outAfter t0 js j).sda ∧
    (machine.outAfter s0 is i).rd = (machine.outAfter t0 js j).rd := by
  have key : ∀ (is js : List In) (s t : St) (i j : In), s.st = t.st ∧ s.sclT = t.sclT ∧ s.sdaT = t.sdaT →
      (is ++ [i]).map (fun x => (x.cmd, x.din)) = (js ++ [j]).map (fun x => (x.cmd, x.din)) →
      (∀ e ∈ machine.trace s (is ++ [i]), e.2.arbitrationLost = false) →
      (∀ e ∈ machine.trace t (js ++ [j]), e.2.arbitrationLost = false) →
      (machine.outAfter s is i).scl = (machine.outAfter t js j).scl ∧ (machine.outAfter s is i).sda = (machine.outAfter t js j).sda ∧
      (machine.outAfter s is i).rd = (machine.outAfter t js j).rd := by
    intro is
    induction is with
    | nil =>
      intro js s t i j h hm ha hb
      cases js with
      | nil =>
        have a1 : s.al = false := ha (i, out s i) List.mem_cons_self
        have b1 : t.al = false := hb (j, out t j) List.mem_cons_self
        exact ⟨by show (!s.sclT) = !t.sclT; rw [h.2.1], by show (!s.sdaT) = !t.sdaT; rw [h.2.2],
          by show (!s.al && ack s.st) = (!t.al && ack t.st); rw [a1, b1, h.1]⟩
      | cons y js => simp at hm
    | cons x is ih =>
      intro js s t i j h hm ha hb
      cases js with
      | nil => simp at hm
      | cons y js =>
        have a1 : s.al = false := ha (x, out s x) List.mem_cons_self
        have b1 : t.al = false := hb (y, out t y) List.mem_cons_self
        simp only [List.cons_append, List.map_cons, List.cons.injEq] at hm
        exact ih js (next s x) (next t y) i j (same_next h a1 b1 (Prod.mk.inj hm.1)) hm.2
          (fun e he => ha e (List.mem_cons_of_mem _ he)) (fun e he => hb e (List.mem_cons_of_mem _ he))
  intro is js i j hm ha hb
  exact key is js s0 t0 i j ⟨by rw [h0.1, h1.1], by rw [h0.2.2.1, h1.2.2.1], by rw [h0.2.2.2.1, h1.2.2.2.1]⟩ hm ha hb

set_option maxRecDepth 16384 in
example : ∀ e ∈ machine.trace zero (demo ++ [cyc .nop false]), e.2.arbitrationLost = false := by decide

/-! ### C116 read data -/

/-- Full statement of **C116**: some fixed number of cycles after the acknowledge of a read `dout` is the value of SDA
(which was constant). -/
def ReadWorks : Prop := ∃ k, ∀ (s0 : St), IsInit s0 → ∀ (b : Bool) (f : Nat → In), (∀ n, (f n).sda = b) →
  ∀ n, (f n).cmd = .read → (machine.outAt s0 f n).rd = true → (machine.outAt s0 f (n + k)).dout = b

/-- **C116** `dout` does not depend on SDA nor on the commands, it is a pulse at a rise of SCL. -/
theorem i2c_dout_partial (s0 : St) (f g : Nat → In) (h : ∀ n, (f n).scl = (g n).scl ∧ (f n).initVal = (g n).initVal) (n : Nat) :
    (machine.outAt s0 f n).dout = (machine.outAt s0 g n).dout := by
  have key : ∀ n, (machine.stateAt s0 f n).sclF = (machine.stateAt s0 g n).sclF ∧
      (machine.stateAt s0 f n).filterCnt = (machine.stateAt s0 g n).filterCnt ∧
      (machine.stateAt s0 f n).lastScl = (machine.stateAt s0 g n).lastScl ∧
      (machine.stateAt s0 f n).dout = (machine.stateAt s0 g n).dout := by
    intro n
    induction n with
    | zero => exact ⟨rfl, rfl, rfl, rfl⟩
    | succ n ih =>
      obtain ⟨a, b, c, d⟩ := ih
      obtain ⟨e1, e2⟩ := h n
      have ef : machine.stateAt s0 f (n + 1) = next (machine.stateAt s0 f n) (f n) := rfl
      have eg : machine.stateAt s0 g (n + 1) = next (machine.stateAt s0 g n) (g n) := rfl
      rw [ef, eg]
      simp only [next, a, b, c, e1, e2, and_self]
  exact (key n).2.2.2

def readRun (b : Bool) (n : Nat) : In := ⟨if n < 6 then .start else .read, false, true, b, 5⟩

/-- **C116** is false: the value of SDA is not used. -/
theorem i2c_no_read : ¬ ReadWorks := by
  rintro ⟨k, hp⟩
  have h1 := hp zero zero_init true (readRun true) (fun _ => rfl) 10 rfl rfl
  have h2 := hp zero zero_init false (readRun false) (fun _ => rfl) 10 rfl rfl
  rw [i2c_dout_partial zero (readRun true) (readRun false) (fun _ => ⟨rfl, rfl⟩) (10 + k), h2] at h1
  simp at h1

end Verif.I2c
