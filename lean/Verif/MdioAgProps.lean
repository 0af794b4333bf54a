import Verif.MdioAg

namespace Verif.MdioAg

/-- `w` bits of `v`, the highest first -/
def bits : Nat → Nat → List Bool
  | 0, _ => []
  | w + 1, v => v.testBit w :: bits w v

theorem bits_length (w v : Nat) : (bits w v).length = w := by
  induction w with
  | zero => rfl
  | succ w ih => simp [bits, ih]

theorem popInt_bits (w v : Nat) (hv : v < 2 ^ w) (l : List Bool) : popInt w (bits w v ++ l) 0 = (v, l) := by
  have h : ∀ (w acc : Nat), popInt w (bits w v ++ l) acc = (2 ^ w * acc + v % 2 ^ w, l) := by
    intro w
    induction w with
    | zero => intro acc; simp [popInt, bits, Nat.mod_one]
    | succ w ih =>
      intro acc
      simp only [popInt, bits, List.cons_append, List.tail_cons, List.headD_cons]
      rw [ih]
      congr 1
      rw [Nat.pow_succ, Nat.mod_mul, Nat.testBit_eq_decide_div_mod_eq]
      have : (decide (v / 2 ^ w % 2 = 1)).toNat = v / 2 ^ w % 2 := by
        rcases Nat.mod_two_eq_zero_or_one (v / 2 ^ w) with h | h <;> rw [h] <;> rfl
      rw [this, Nat.mul_add, ← Nat.mul_assoc]
      omega
  rw [h, Nat.mod_eq_of_lt hv]
  simp

/-- a frame on the bus: number of preamble bits, PHY and register address, data or values on the line during the answer -/
inductive Frame
  | write (n pa ra d : Nat)
  | read (n pa ra : Nat) (line : List Bool)

/-- bits of a frame, IEEE 802.3 clause 22: PRE, ST = 01, OP, PHYAD, REGAD, TA, DATA -/
def Frame.bits : Frame → List Bool
  | .write n pa ra d => List.replicate n true ++ [false, true, false, true] ++ MdioAg.bits 5 pa ++ MdioAg.bits 5 ra ++ [true, false] ++ MdioAg.bits 16 d
  | .read n pa ra line => List.replicate n true ++ [false, true, true, false] ++ MdioAg.bits 5 pa ++ MdioAg.bits 5 ra ++ line

/-- a legal frame for registers `mem` -/
def Frame.ok (mem : Nat → Nat → Option Nat) : Frame → Prop
  | .write n pa ra d => 32 ≤ n ∧ pa < 32 ∧ ra < 32 ∧ d < 65536
  | .read n pa ra line => 32 ≤ n ∧ pa < 32 ∧ ra < 32 ∧ line.length = 18 ∧ (mem pa ra).isSome

/-- registers after a frame -/
def Frame.memAfter (mem : Nat → Nat → Option Nat) : Frame → Nat → Nat → Option Nat
  | .write _ pa ra d => fun p r => if p = pa ∧ r = ra then some d else mem p r
  | .read _ _ _ _ => mem

/-- bits sent by the agent as answer of a frame -/
def Frame.answer (mem : Nat → Nat → Option Nat) : Frame → List Bool
  | .write _ _ _ _ => []
  | .read _ pa ra _ => true :: false :: MdioAg.bits 16 ((mem pa ra).getD 0)

/-- between frames -/
structure Idle (s : St) : Prop where
  tx : s.tx = []
  err : s.err = false
  ta : s.ta = false
  rxw : s.rxw = false
  start : s.start = false
  rx : s.rx.length < 32
  pre : s.pre = true → s.rx = []
  last : s.last = false

/-- bits driven by the agent -/
def outs (s : St) (l : List Bool) : List Bool := (agent.trace s l).filterMap (·.2)

theorem outs_append (s : St) (a b : List Bool) : outs s (a ++ b) = outs s a ++ outs (agent.final s a) b := by
  simp [outs, Machine.trace_append]

theorem outs_cons (s : St) (b : Bool) (l : List Bool) : outs s (b :: l) = (period s b).2.toList ++ outs (period s b).1 l := by
  simp only [outs, Machine.trace_cons, List.filterMap_cons]
  cases h : (period s b).2 <;> simp [agent, h]

theorem final_cons' (s : St) (b : Bool) (l : List Bool) : agent.final s (b :: l) = agent.final (period s b).1 l := rfl

theorem period_eq (s : St) (b : Bool) (h1 : s.err = false) (h2 : s.last = false) :
    period s b = if (rise s b).err then (rise s b, none) else fall (rise s b) := by
  simp [period, h1, h2]

theorem preamble (n : Nat) : ∀ s, Idle s → (s.pre = true ∨ 32 ≤ s.rx.length + n) →
    agent.final s (List.replicate n true) = { s with pre := true, rx := [] } ∧ outs s (List.replicate n true) = [] := by
  induction n with
  | zero =>
    intro s h hp
    have := h.rx
    rcases hp with hp | hp
    · refine ⟨?_, rfl⟩
      have := h.pre hp
      cases s; simp_all
    · omega
  | succ n ih =>
    intro s h hp
    obtain ⟨htx, herr, hta, hrxw, hst, hrx, hpre, hlast⟩ := h
    rw [List.replicate_succ, final_cons', outs_cons]
    by_cases hpp : s.pre = true
    · have e : period s true = (s, none) := by
        simp [period, herr, hlast, rise, hpp, hst, hpre hpp, fall, htx]
      rw [e]
      have := ih s ⟨htx, herr, hta, hrxw, hst, hrx, hpre, hlast⟩ (Or.inl hpp)
      exact ⟨this.1, by simp [this.2]⟩
    · have hpp : s.pre = false := by simpa using hpp
      have hp : 32 ≤ s.rx.length + (n + 1) := by rcases hp with h | h; · simp [hpp] at h
                                                 · exact h
      by_cases h32 : s.rx.length + 1 = 32
      · have e : period s true = ({ s with pre := true, rx := [] }, none) := by
          simp [period, herr, hlast, rise, hpp, h32, fall, htx]
        rw [e]
        have := ih { s with pre := true, rx := [] } ⟨htx, herr, hta, hrxw, hst, by simp, by simp, hlast⟩ (Or.inl rfl)
        exact ⟨this.1, by simp [this.2]⟩
      · have e : period s true = ({ s with rx := s.rx ++ [true] }, none) := by
          simp [period, herr, hlast, rise, hpp, h32, fall, htx]
        rw [e]
        have := ih { s with rx := s.rx ++ [true] } ⟨htx, herr, hta, hrxw, hst, by simp; omega, by simp [hpp], hlast⟩
          (Or.inr (by simp; omega))
        exact ⟨this.1, by simp [this.2]⟩

/-- state in the middle of a frame -/
structure Mid (s : St) : Prop where
  tx : s.tx = []
  err : s.err = false
  start : s.start = true
  pre : s.pre = true
  last : s.last = false

theorem collectA (l : List Bool) : ∀ s, Mid s → s.ta = false → s.rxw = false → s.rx.length + l.length < 12 →
    agent.final s l = { s with rx := s.rx ++ l } ∧ outs s l = [] := by
  induction l with
  | nil => intro s _ _ _ _; exact ⟨by simp, rfl⟩
  | cons b l ih =>
    intro s h hta hrxw hl
    obtain ⟨htx, herr, hst, hpre, hlast⟩ := h
    simp only [List.length_cons] at hl
    have e : period s b = ({ s with rx := s.rx ++ [b] }, none) := by
      simp [period, herr, hlast, rise, hpre, hst, hta, hrxw, htx, show ¬ 12 ≤ s.rx.length + 1 by omega, fall]
    rw [final_cons', outs_cons, e]
    have := ih { s with rx := s.rx ++ [b] } ⟨htx, herr, hst, hpre, hlast⟩ hta hrxw (by simp; omega)
    exact ⟨by rw [this.1]; simp, by simp [this.2]⟩

theorem collectD (l : List Bool) : ∀ s, Mid s → s.ta = false → s.rxw = true → s.rx.length + l.length < 16 →
    agent.final s l = { s with rx := s.rx ++ l } ∧ outs s l = [] := by
  induction l with
  | nil => intro s _ _ _ _; exact ⟨by simp, rfl⟩
  | cons b l ih =>
    intro s h hta hrxw hl
    obtain ⟨htx, herr, hst, hpre, hlast⟩ := h
    simp only [List.length_cons] at hl
    have e : period s b = ({ s with rx := s.rx ++ [b] }, none) := by
      simp [period, herr, hlast, rise, hpre, hst, hta, hrxw, htx, show ¬ 16 ≤ s.rx.length + 1 by omega, fall]
    rw [final_cons', outs_cons, e]
    have := ih { s with rx := s.rx ++ [b] } ⟨htx, herr, hst, hpre, hlast⟩ hta hrxw (by simp; omega)
    exact ⟨by rw [this.1]; simp, by simp [this.2]⟩

/-- agent in the preamble receives ST and address -/
theorem header (s : St) (h : Idle s) (hp : s.pre = true) (o1 o2 : Bool) (pa ra : Nat) :
    ∃ s1 : St, Mid s1 ∧ s1.ta = false ∧ s1.rxw = false ∧ s1.mem = s.mem ∧ ∃ l b,
      bits 5 pa ++ bits 5 ra = l ++ [b] ∧ s1.rx = [o1, o2] ++ l ∧
      agent.final s ([false, true, o1, o2] ++ l) = s1 ∧ outs s ([false, true, o1, o2] ++ l) = [] := by
  obtain ⟨htx, herr, hta, hrxw, hst, hrx, hpre, hlast⟩ := h
  have hr := hpre hp
  have hl : (bits 5 pa ++ bits 5 ra).length = 10 := by simp [bits_length]
  obtain ⟨l, b, hlb⟩ : ∃ l b, bits 5 pa ++ bits 5 ra = l ++ [b] := by
    rcases List.eq_nil_or_concat (bits 5 pa ++ bits 5 ra) with h | ⟨l, b, h⟩
    · rw [h] at hl; simp at hl
    · exact ⟨l, b, by simpa using h⟩
  have hl9 : l.length = 9 := by rw [hlb] at hl; simpa using hl
  have e1 : period s false = ({ s with rx := [false] }, none) := by
    simp [period, herr, hlast, rise, hp, hst, hr, fall, htx]
  have e2 : period { s with rx := [false] } true = ({ s with rx := [], start := true }, none) := by
    simp [period, herr, hlast, rise, hp, hst, fall, htx]
  have hM : Mid { s with rx := [], start := true } := ⟨htx, herr, rfl, hp, hlast⟩
  have hc := collectA ([o1, o2] ++ l) { s with rx := [], start := true } hM hta hrxw (by simp; omega)
  refine ⟨{ s with rx := [o1, o2] ++ l, start := true }, ⟨htx, herr, rfl, hp, hlast⟩, hta, hrxw, rfl, l, b, hlb, rfl, ?_, ?_⟩
  · show agent.final s (false :: true :: ([o1, o2] ++ l)) = _
    rw [final_cons', e1, final_cons', e2, hc.1]
    simp
  · show outs s (false :: true :: ([o1, o2] ++ l)) = _
    rw [outs_cons, e1, outs_cons, e2, hc.2]
    simp

theorem popAddr (o1 o2 : Bool) (pa ra : Nat) (hpa : pa < 32) (hra : ra < 32) :
    popInt 2 ([o1, o2] ++ (bits 5 pa ++ bits 5 ra)) 0 = (2 * o1.toNat + o2.toNat, bits 5 pa ++ bits 5 ra) ∧
    popInt 5 (bits 5 pa ++ bits 5 ra) 0 = (pa, bits 5 ra) ∧ (popInt 5 (bits 5 ra) 0).1 = ra := by
  refine ⟨by simp [popInt], popInt_bits 5 pa (by omega) _, ?_⟩
  have := popInt_bits 5 ra (by omega) []
  rw [List.append_nil] at this
  rw [this]

theorem write_frame (s : St) (h : Idle s) (n pa ra d : Nat) (hf : (Frame.write n pa ra d).ok s.mem) :
    Idle (agent.final s (Frame.write n pa ra d).bits) ∧
      (agent.final s (Frame.write n pa ra d).bits).mem = (Frame.write n pa ra d).memAfter s.mem ∧
      outs s (Frame.write n pa ra d).bits = [] := by
  obtain ⟨hn, hpa, hra, hd⟩ := hf
  have hp := preamble n s h (Or.inr (by omega))
  have hI : Idle { s with pre := true, rx := [] } := ⟨h.tx, h.err, h.ta, h.rxw, h.start, by simp, by simp, h.last⟩
  obtain ⟨s1, hM, hta, hrxw, hmem, l, b, hlb, hrx, hfin, hout⟩ := header _ hI rfl false true pa ra
  obtain ⟨htx, herr, hst, hpre, hlast⟩ := hM
  have hpo := popAddr false true pa ra hpa hra
  have hl9 : l.length = 9 := by
    have := congrArg List.length hlb
    simp [bits_length] at this
    omega
  have e1 : period s1 b = ({ s1 with op := 1, pa := pa, ra := ra, rx := [], rxw := true, ta := true }, none) := by
    have e0 : s1.rx ++ [b] = [false, true] ++ (bits 5 pa ++ bits 5 ra) := by rw [hlb, hrx]; simp
    have e00 : ([false, true] ++ (bits 5 pa ++ bits 5 ra)).length = 12 := by simp [bits_length]
    rw [period_eq _ _ (by exact herr) (by exact hlast)]
    simp only [rise, hpre, hst, hta, hrxw, htx, e0, e00, hpo.1, hpo.2.1, hpo.2.2]
    simp [fall, herr]
  have e2 : ∀ t : St, Mid t → t.ta = true → t.op = 1 → t.rx = [] →
      agent.final t [true, false] = { t with rx := [], ta := false } ∧ outs t [true, false] = [] := by
    intro t ht h1 h2 h3
    obtain ⟨a1, a2, a3, a4, a5⟩ := ht
    have e1 : period t true = ({ t with rx := [true] }, none) := by
      simp [period, a2, a5, rise, a4, a3, h1, h3, fall, a1]
    have e2 : period { t with rx := [true] } false = ({ t with rx := [], ta := false }, none) := by
      simp [period, a2, a5, rise, a4, a3, h1, h2, fall, a1]
    rw [final_cons', e1, final_cons', e2, outs_cons, e1, outs_cons, e2]
    exact ⟨rfl, rfl⟩
  have hta2 := e2 { s1 with op := 1, pa := pa, ra := ra, rx := [], rxw := true, ta := true } ⟨htx, herr, hst, hpre, hlast⟩ rfl rfl rfl
  -- data
  obtain ⟨m, c, hmc⟩ : ∃ m c, bits 16 d = m ++ [c] := by
    rcases List.eq_nil_or_concat (bits 16 d) with h | ⟨l, b, h⟩
    · have := bits_length 16 d; rw [h] at this; simp at this
    · exact ⟨l, b, by simpa using h⟩
  have hm15 : m.length = 15 := by
    have := congrArg List.length hmc
    simp [bits_length] at this
    omega
  have hc := collectD m { s1 with op := 1, pa := pa, ra := ra, rx := [], rxw := true, ta := false }
    ⟨htx, herr, hst, hpre, hlast⟩ rfl rfl (by simp; omega)
  have hpd := popInt_bits 16 d (by omega) []
  rw [List.append_nil] at hpd
  have e3 : period { s1 with op := 1, pa := pa, ra := ra, rx := [] ++ m, rxw := true, ta := false } c
      = (resetState { s1 with rx := [], mem := memSet s1.mem pa ra d }, none) := by
    have e0 : ([] ++ m) ++ [c] = bits 16 d := by rw [hmc]; simp
    have e00 : (bits 16 d).length = 16 := bits_length _ _
    rw [period_eq _ _ (by exact herr) (by exact hlast)]
    simp only [rise, hpre, hst, e0, e00, hpd]
    simp [fall, htx, herr, resetState]
  have hbits : (Frame.write n pa ra d).bits
      = List.replicate n true ++ (([false, true, false, true] ++ l) ++ (b :: ([true, false] ++ (m ++ [c])))) := by
    simp only [Frame.bits, ← hmc, List.append_assoc]
    congr 2
    rw [← List.append_assoc (bits 5 pa), hlb]
    simp
  have hf : agent.final s (Frame.write n pa ra d).bits = resetState { s1 with rx := [], mem := memSet s1.mem pa ra d } := by
    rw [hbits, Machine.final_append, hp.1, Machine.final_append, hfin, final_cons', e1, Machine.final_append, hta2.1,
      Machine.final_append, hc.1, final_cons', e3]
    rfl
  have ho : outs s (Frame.write n pa ra d).bits = [] := by
    rw [hbits, outs_append, hp.1, hp.2, outs_append, hfin, hout, outs_cons, e1, outs_append, hta2.1, hta2.2,
      outs_append, hc.1, hc.2, outs_cons, e3]
    rfl
  rw [hf, ho]
  refine ⟨⟨htx, herr, rfl, rfl, rfl, by simp [resetState], by simp [resetState], hlast⟩, ?_, rfl⟩
  funext p r
  simp [resetState, memSet, Frame.memAfter, hmem]

theorem transmit (t : List Bool) : ∀ (s : St) (x : Bool) (line : List Bool), s.err = false → s.last = false → s.pre = true →
    s.start = true → s.ta = false → s.rxw = false → s.tx = x :: t → line.length = t.length + 1 →
    agent.final s line = { s with tx := [], last := true } ∧ outs s line = x :: t := by
  induction t with
  | nil =>
    intro s x line herr hlast hpre hst hta hrxw htx hl
    obtain ⟨b, rfl⟩ : ∃ b, line = [b] := List.length_eq_one_iff.1 (by simpa using hl)
    have e : period s b = ({ s with tx := [], last := true }, some x) := by
      simp [period, herr, hlast, rise, hpre, hst, hta, hrxw, htx, fall]
    rw [final_cons', outs_cons, e]
    exact ⟨rfl, rfl⟩
  | cons y t ih =>
    intro s x line herr hlast hpre hst hta hrxw htx hl
    cases line with
    | nil => simp at hl
    | cons b line =>
      have e : period s b = ({ s with tx := y :: t }, some x) := by
        simp [period, herr, hlast, rise, hpre, hst, hta, hrxw, htx, fall]
      rw [final_cons', outs_cons, e]
      have := ih { s with tx := y :: t } y line herr hlast hpre hst hta hrxw rfl (by simpa using hl)
      exact ⟨this.1, by simp [this.2]⟩

theorem readBits_eq (d : Nat) : readBits d = true :: false :: bits 16 d := rfl

theorem read_frame (s : St) (h : Idle s) (n pa ra : Nat) (line : List Bool) (hf : (Frame.read n pa ra line).ok s.mem) :
    Idle (agent.final s (Frame.read n pa ra line).bits) ∧
      (agent.final s (Frame.read n pa ra line).bits).mem = s.mem ∧
      outs s (Frame.read n pa ra line).bits = (Frame.read n pa ra line).answer s.mem := by
  obtain ⟨hn, hpa, hra, hline, hsome⟩ := hf
  obtain ⟨d, hd⟩ := Option.isSome_iff_exists.1 hsome
  have hp := preamble n s h (Or.inr (by omega))
  have hI : Idle { s with pre := true, rx := [] } := ⟨h.tx, h.err, h.ta, h.rxw, h.start, by simp, by simp, h.last⟩
  obtain ⟨s1, hM, hta, hrxw, hmem, l, b, hlb, hrx, hfin, hout⟩ := header _ hI rfl true false pa ra
  obtain ⟨htx, herr, hst, hpre, hlast⟩ := hM
  have hpo := popAddr true false pa ra hpa hra
  have e1 : period s1 b = ({ s1 with op := 2, pa := pa, ra := ra, rx := [], tx := false :: bits 16 d }, some true) := by
    have e0 : s1.rx ++ [b] = [true, false] ++ (bits 5 pa ++ bits 5 ra) := by rw [hlb, hrx]; simp
    have e00 : ([true, false] ++ (bits 5 pa ++ bits 5 ra)).length = 12 := by simp [bits_length]
    have hm : s1.mem pa ra = some d := by rw [hmem]; exact hd
    rw [period_eq _ _ (by exact herr) (by exact hlast)]
    simp only [rise, hpre, hst, hta, hrxw, htx, e0, e00, hpo.1, hpo.2.1, hpo.2.2, hm, readBits_eq]
    simp [fall, herr]
  obtain ⟨m, c, rfl⟩ : ∃ m c, line = m ++ [c] := by
    rcases List.eq_nil_or_concat line with h | ⟨l, b, h⟩
    · rw [h] at hline; simp at hline
    · exact ⟨l, b, by simpa using h⟩
  have hm17 : m.length = 17 := by simpa using hline
  have ht := transmit (bits 16 d) { s1 with op := 2, pa := pa, ra := ra, rx := [], tx := false :: bits 16 d } false m
    herr hlast hpre hst hta hrxw rfl (by rw [bits_length]; exact hm17)
  have e2 : period { s1 with op := 2, pa := pa, ra := ra, rx := [], tx := [], last := true } c
      = (resetState { s1 with rx := [c], tx := [] }, none) := by
    simp [period, herr, rise, resetState, fall, hlast]
  have hbits : (Frame.read n pa ra (m ++ [c])).bits
      = List.replicate n true ++ (([false, true, true, false] ++ l) ++ (b :: (m ++ [c]))) := by
    simp only [Frame.bits, List.append_assoc]
    congr 2
    rw [← List.append_assoc (bits 5 pa), hlb]
    simp
  have hf : agent.final s (Frame.read n pa ra (m ++ [c])).bits = resetState { s1 with rx := [c], tx := [] } := by
    rw [hbits, Machine.final_append, hp.1, Machine.final_append, hfin, final_cons', e1, Machine.final_append, ht.1,
      final_cons', e2]
    rfl
  have ho : outs s (Frame.read n pa ra (m ++ [c])).bits = true :: false :: bits 16 d := by
    rw [hbits, outs_append, hp.1, hp.2, outs_append, hfin, hout, outs_cons, e1, outs_append, ht.1, ht.2, outs_cons, e2]
    simp [outs]
  rw [hf, ho]
  refine ⟨⟨rfl, herr, rfl, rfl, rfl, by simp [resetState], by simp [resetState], hlast⟩, ?_, ?_⟩
  · simp [resetState, hmem]
  · simp [Frame.answer, hd]

/-! ## C396 -/

/-- legal sequences of frames -/
def legal (mem : Nat → Nat → Option Nat) : List Frame → Prop
  | [] => True
  | f :: fs => f.ok mem ∧ legal (f.memAfter mem) fs

def memAll (mem : Nat → Nat → Option Nat) : List Frame → Nat → Nat → Option Nat
  | [] => mem
  | f :: fs => memAll (f.memAfter mem) fs

def answers (mem : Nat → Nat → Option Nat) : List Frame → List Bool
  | [] => []
  | f :: fs => f.answer mem ++ answers (f.memAfter mem) fs

/-- For any legal sequence of frames the registers of the agent are what was written and the bits driven by the agent are
turnaround and data of the last write for every read. -/
theorem frames (mem : Nat → Nat → Option Nat) (fs : List Frame) (hl : legal mem fs) :
    let l := fs.flatMap Frame.bits
    (agent.final (St.init mem) l).mem = memAll mem fs ∧ (agent.final (St.init mem) l).err = false ∧
      (agent.trace (St.init mem) l).filterMap (·.2) = answers mem fs := by
  have h : ∀ (fs : List Frame) (s : St), Idle s → legal s.mem fs →
      (agent.final s (fs.flatMap Frame.bits)).mem = memAll s.mem fs ∧ (agent.final s (fs.flatMap Frame.bits)).err = false ∧
        outs s (fs.flatMap Frame.bits) = answers s.mem fs := by
    intro fs
    induction fs with
    | nil => intro s hs _; exact ⟨rfl, hs.err, rfl⟩
    | cons f fs ih =>
      intro s hs hl
      rw [List.flatMap_cons, Machine.final_append, outs_append]
      have hf : Idle (agent.final s f.bits) ∧ (agent.final s f.bits).mem = f.memAfter s.mem ∧ outs s f.bits = f.answer s.mem := by
        cases f with
        | write n pa ra d => exact write_frame s hs n pa ra d hl.1
        | read n pa ra line => exact read_frame s hs n pa ra line hl.1
      have := ih _ hf.1 (by rw [hf.2.1]; exact hl.2)
      rw [hf.2.1] at this
      exact ⟨this.1, this.2.1, by rw [this.2.2, hf.2.2]; rfl⟩
  exact h fs (St.init mem) ⟨rfl, rfl, rfl, rfl, rfl, by simp [St.init], by simp [St.init], rfl⟩ hl

example : legal (fun _ _ => none) [.write 32 3 7 0xBEEF, .read 40 3 7 (List.replicate 18 true)] := by
  simp [legal, Frame.ok, Frame.memAfter]

/-! ## C397: preamble -/

/-- the full statement: a register is changed only after 32 consecutive ones were on the line -/
def preamble_full : Prop := ∀ (mem : Nat → Nat → Option Nat) (l : List Bool),
  ¬ List.replicate 32 true <:+: l → (agent.final (St.init mem) l).mem = mem

theorem preamble_violated : ¬ preamble_full := by
  intro h
  have := h (fun _ _ => none) (List.replicate 32 false ++ [false, true, false, true] ++ bits 5 3 ++ bits 5 7 ++ [true, false] ++ bits 16 5)
    (by decide +kernel)
  have := congrFun (congrFun this 3) 7
  revert this
  decide +kernel

/-- number of bits which have to be received before a register is changed -/
def rem (s : St) : Nat :=
  if s.pre = false then 64 - s.rx.length
  else if s.start = false then 32 - s.rx.length
  else if s.ta = true then 18 - s.rx.length
  else if s.rxw = true then 16 - s.rx.length
  else 30 - s.rx.length

/-- order of phases -/
def Cons (s : St) : Prop := (s.pre = false → s.start = false) ∧ (s.start = false → s.ta = false ∧ s.rxw = false)

theorem rem_fall (s : St) : rem (fall s).1 = rem s ∧ (fall s).1.mem = s.mem ∧ (Cons s → Cons (fall s).1) := by
  simp only [fall]
  split <;> exact ⟨rfl, rfl, id⟩

theorem rem_rise (s : St) (b : Bool) (hc : Cons s) :
    rem s ≤ rem (rise s b) + 1 ∧ (2 ≤ rem s → (rise s b).mem = s.mem) ∧ Cons (rise s b) := by
  obtain ⟨rx, tx, pre, start, ta, rxw, op, pa, ra, mem, last, err⟩ := s
  have hrx : rx.isEmpty = false → 1 ≤ rx.length := by cases rx <;> simp
  cases pre <;> cases start <;> cases ta <;> cases rxw <;> simp [Cons] at hc <;>
    simp only [rise, Bool.not_false, Bool.not_true, Bool.false_eq_true, if_true, if_false, List.length_append,
      List.length_singleton]
  all_goals
    repeat' split
    all_goals
      refine ⟨?_, ?_, ?_⟩ <;> simp_all [rem, resetState, Cons] <;> omega

theorem rem_period (s : St) (b : Bool) (hc : Cons s) :
    rem s ≤ rem (period s b).1 + 1 ∧ (2 ≤ rem s → (period s b).1.mem = s.mem) ∧ Cons (period s b).1 := by
  by_cases he : s.err = true
  · have e : period s b = (s, none) := by simp [period, he]
    rw [e]
    exact ⟨by simp, fun _ => rfl, hc⟩
  · have he : s.err = false := by simpa using he
    have key : ∀ t : St, rem s ≤ rem t → t.mem = s.mem → Cons t →
        rem s ≤ rem (if (rise t b).err then (rise t b, (none : Option Bool)) else fall (rise t b)).1 + 1 ∧
          (2 ≤ rem s → (if (rise t b).err then (rise t b, (none : Option Bool)) else fall (rise t b)).1.mem = s.mem) ∧
          Cons (if (rise t b).err then (rise t b, (none : Option Bool)) else fall (rise t b)).1 := by
      intro t h1 h2 hct
      have h3 := rem_rise t b hct
      have h4 := rem_fall (rise t b)
      split
      · exact ⟨by simp; omega, fun h => by rw [← h2]; exact h3.2.1 (by omega), h3.2.2⟩
      · exact ⟨by rw [h4.1]; omega, fun h => by rw [h4.2.1, ← h2]; exact h3.2.1 (by omega), h4.2.2 h3.2.2⟩
    by_cases hl : s.last = true
    · have e : period s b = if (rise { resetState s with last := false } b).err then (rise { resetState s with last := false } b, none)
          else fall (rise { resetState s with last := false } b) := by
        simp [period, he, hl]
      rw [e]
      apply key
      · simp only [rem, resetState, if_true]; repeat' split
        all_goals omega
      · rfl
      · exact ⟨fun _ => rfl, fun _ => ⟨rfl, rfl⟩⟩
    · rw [period_eq s b he (by simpa using hl)]
      exact key s (Nat.le_refl _) rfl hc

/-- missing: the preamble has to be ones; proved: no register is changed before 64 bits (length of a frame) were received -/
theorem preamble_partial (mem : Nat → Nat → Option Nat) (l : List Bool) (hl : l.length < 64) :
    (agent.final (St.init mem) l).mem = mem := by
  have h : ∀ (l : List Bool) (s : St), Cons s → l.length < rem s → (agent.final s l).mem = s.mem := by
    intro l
    induction l with
    | nil => intro s _ _; rfl
    | cons b l ih =>
      intro s hc hl
      simp only [List.length_cons] at hl
      have := rem_period s b hc
      rw [final_cons', ih _ this.2.2 (by omega)]
      exact this.2.1 (by omega)
  exact h l (St.init mem) ⟨fun _ => rfl, fun _ => ⟨rfl, rfl⟩⟩ (by simpa [rem, St.init] using hl)

end Verif.MdioAg
