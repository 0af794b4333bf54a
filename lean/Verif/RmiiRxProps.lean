import Verif.RmiiRx
import Mathlib.Data.List.Induction

/-! # C175, C176: receiver of `RmiiAdapter` -/

namespace Verif.RmiiRx

open Verif

/-- What is delivered on `rx`: data, err, last. -/
def got (tr : List (In × Out)) : List (Option (List Nat) × Bool × Bool) :=
  tr.flatMap fun e => given e.2.vld (e.2.data, e.2.err, e.2.last)

theorem got_append (a b : List (In × Out)) : got (a ++ b) = got a ++ got b := by simp [got]

/-- Symbols of the line with carrier. -/
def syms (l : List Nat) : List In := l.map (⟨·, true⟩)
/-- No carrier; the data are arbitrary. -/
def noCarrier (l : List Nat) : List In := l.map (⟨·, false⟩)

/-- A frame on the line: `z` zero symbols, preamble, SFD, payload and a gap. -/
structure Frame where
  z : Nat
  payload : List (List Nat)
  gap : List Nat

def Frame.line (c : Cfg) (f : Frame) : List In :=
  syms (List.replicate f.z 0) ++ syms ((List.replicate 7 c.pre).flatten ++ c.sfd) ++ syms f.payload.flatten ++
    noCarrier f.gap

structure Frame.Ok (c : Cfg) (f : Frame) : Prop where
  bytes : ∀ b ∈ f.payload, b.length = c.K
  gap : c.K + 1 ≤ f.gap.length

/-- Bytes of the payload without errors, `last` on the last one. -/
def mark : List (List Nat) → List (Option (List Nat) × Bool × Bool)
  | [] => []
  | [b] => [(some b, false, true)]
  | b :: bs => (some b, false, false) :: mark bs

/-! ## Steps -/

@[simp] theorem skip0_ne : (Mode.skip0 == Mode.error) = false := rfl
@[simp] theorem preamble_ne : (Mode.preamble == Mode.error) = false := rfl
@[simp] theorem data_ne : (Mode.data == Mode.error) = false := rfl

/-- `i` symbols of the byte `b` were collected and the next one is registered. -/
structure P (c : Cfg) (b : List Nat) (m : Mode) (n i : Nat) (s : St) : Prop where
  cntr : s.cntr = i
  st : s.st = m
  len : s.reg0.length = c.K
  low : s.reg0.drop (c.K - i) = b.take i
  din : b[i]? = some s.din
  dv : s.dinVld = true
  pc : s.preCnt = n

variable {c : Cfg} {s : St}

theorem P.step {b : List Nat} {m : Mode} {n i : Nat} (h : P c b m n i s) (hm : m = .preamble ∨ m = .data)
    (hi : i + 1 < c.K) (d : Nat) (hd : b[i + 1]? = some d) :
    P c b m n (i + 1) (next c s ⟨d, true⟩) ∧ (next c s ⟨d, true⟩).reg1Vld = false ∧
      (next c s ⟨d, true⟩).reg1 = s.reg1 := by
  have hl : lastInB c s = false := by
    have : i ≠ c.K - 1 := by omega
    simp [lastInB, h.cntr, this]
  have hlow : (s.reg0.drop 1 ++ [s.din]).drop (c.K - (i + 1)) = b.take (i + 1) := by
    rw [List.drop_append, List.drop_drop, List.length_drop, h.len]
    have e1 : 1 + (c.K - (i + 1)) = c.K - i := by omega
    have e2 : c.K - (i + 1) - (c.K - 1) = 0 := by omega
    rw [e1, e2, h.low, List.drop_zero, List.take_add_one, h.din]
    rfl
  have hlen : (s.reg0.drop 1 ++ [s.din]).length = c.K := by
    simp [h.len]; omega
  have hmod : (i + 1) % c.K = i + 1 := Nat.mod_eq_of_lt hi
  refine ⟨⟨?_, ?_, ?_, ?_, ?_, rfl, ?_⟩, ?_, ?_⟩
  · rcases hm with rfl | rfl <;> simp [next, h.st, h.cntr, hmod]
  · rcases hm with rfl | rfl
    · simp [next, nextMode, h.st, hl]
    · have : i ≠ c.K - 1 := by omega
      simp [next, nextMode, h.st, h.cntr, this]
  · rcases hm with rfl | rfl <;> simpa [next, h.st, actual] using hlen
  · rcases hm with rfl | rfl <;> simpa only [next, h.st, actual] using hlow
  · exact hd
  · rcases hm with rfl | rfl <;> simp [next, nextPreCnt, h.st, hl, h.pc]
  · simp [next, hl]
  · simp [next, hl]

theorem P.actual_eq {b : List Nat} {m : Mode} {n : Nat} (h : P c b m n (c.K - 1) s) (hb : b.length = c.K)
    (hK : 1 ≤ c.K) : actual s = b := by
  have h1 := h.low
  have e : c.K - (c.K - 1) = 1 := by omega
  rw [e] at h1
  rw [actual, h1]
  have h2 := List.take_add_one (l := b) (i := c.K - 1)
  rw [h.din] at h2
  simp only [Option.toList_some] at h2
  rw [← h2, List.take_of_length_le (by omega)]

/-- The byte is not complete: nothing is delivered but the previous byte. -/
theorem P.run {b : List Nat} {m : Mode} {n : Nat} (hm : m = .preamble ∨ m = .data) (hb : b.length = c.K)
    (j : Nat) : ∀ (i : Nat) (s : St), P c b m n i s → i + j = c.K - 1 → 1 ≤ c.K →
      ∃ t, (machine c).final s (syms ((b.drop (i + 1)))) = t ∧ P c b m n (c.K - 1) t ∧ t.reg1 = s.reg1 ∧
        (0 < j → t.reg1Vld = false) ∧ (j = 0 → t = s) ∧
        got ((machine c).trace s (syms (b.drop (i + 1)))) =
          if j = 0 then [] else given s.reg1Vld (some s.reg1, false, false) := by
  induction j with
  | zero =>
    intro i s h hi hK
    have e : b.drop (i + 1) = [] := List.drop_of_length_le (by omega)
    have : i = c.K - 1 := by omega
    subst this
    rw [e]
    exact ⟨s, rfl, h, rfl, by omega, fun _ => rfl, rfl⟩
  | succ j ih =>
    intro i s h hi hK
    have hlt : i + 1 < b.length := by omega
    have e : b.drop (i + 1) = b[i + 1] :: b.drop (i + 1 + 1) := List.drop_eq_getElem_cons hlt
    obtain ⟨h1, h2, h3⟩ := h.step hm (by omega) b[i + 1] (List.getElem?_eq_getElem hlt)
    obtain ⟨t, t1, t2, t3, t4, t5, t6⟩ := ih (i + 1) _ h1 (by omega) hK
    have e' : syms (b.drop (i + 1)) = ⟨b[i + 1], true⟩ :: syms (b.drop (i + 1 + 1)) := by
      rw [e]; rfl
    rw [e', Machine.final_cons, Machine.trace_cons]
    refine ⟨t, t1, t2, t3.trans h3, ?_, by omega, ?_⟩
    · intro _
      by_cases q : j = 0
      · rw [t5 q]; exact h2
      · exact t4 (by omega)
    · have : ∀ e es, got (e :: es) = got [e] ++ got es := by intro e es; simp [got]
      rw [this]
      have hn : (machine c).next s ⟨b[i + 1], true⟩ = next c s ⟨b[i + 1], true⟩ := rfl
      rw [hn, t6, h2]
      have hne : m ≠ .error := by rcases hm with rfl | rfl <;> simp
      have ho : out c s ⟨b[i + 1], true⟩ = ⟨s.reg1Vld, some s.reg1, false, false⟩ := by
        have hse : (s.st == Mode.error) = false := by rw [h.st]; simpa using hne
        simp only [out, hse, h.dv]
        simp
      have ho' : (machine c).out s ⟨b[i + 1], true⟩ = out c s ⟨b[i + 1], true⟩ := rfl
      simp only [got, List.flatMap_cons, List.flatMap_nil, List.append_nil, ho', ho]
      by_cases q : j = 0 <;> simp [q, given]

theorem got_snoc (m : Machine St In Out) (s : St) (is : List In) (x : In) :
    got (m.trace s (is ++ [x])) = got (m.trace s is) ++ got [(x, m.out (m.final s is) x)] := by
  rw [Machine.trace_append, got_append]
  rfl

theorem final_snoc (m : Machine St In Out) (s : St) (is : List In) (x : In) :
    m.final s (is ++ [x]) = m.next (m.final s is) x := by
  rw [Machine.final_append]; rfl

/-- Rest of a byte of the header. -/
theorem P.endPre {b : List Nat} {n i : Nat} (h : P c b .preamble n i s) (hb : b.length = c.K) (hi : i < c.K)
    (hv : s.reg1Vld = false) (x : In) :
    ∃ t, (machine c).final s (syms (b.drop (i + 1)) ++ [x]) = t ∧ t.din = x.d ∧ t.dinVld = x.dv ∧
      t.cntr = 0 ∧ t.reg0.length = c.K ∧ t.reg1Vld = false ∧ t.preCnt = (n + 7) % 8 ∧
      t.st = (if n = 0 then (if b = c.sfd then .data else .error)
        else (if b = c.pre then .preamble else .error)) ∧
      got ((machine c).trace s (syms (b.drop (i + 1)) ++ [x])) = [] := by
  obtain ⟨t, t1, t2, t3, t4, t5, t6⟩ := P.run (.inl rfl) hb (c.K - 1 - i) i s h (by omega) (by omega)
  have hact := t2.actual_eq hb (by omega)
  have hl : lastInB c t = true := by simp [lastInB, t2.cntr, t2.dv]
  have hv' : t.reg1Vld = false := by
    by_cases q : c.K - 1 - i = 0
    · rw [t5 q]; exact hv
    · exact t4 (by omega)
  rw [final_snoc, got_snoc, t1, t6]
  refine ⟨_, rfl, rfl, rfl, ?_, ?_, ?_, ?_, ?_, ?_⟩
  · show (next c t x).cntr = 0
    have : c.K - 1 + 1 = c.K := by omega
    simp [next, t2.st, t2.cntr, this]
  · show (next c t x).reg0.length = c.K
    simp [next, t2.st, hact, hb]
  · show (next c t x).reg1Vld = false
    simp [next, t2.st]
  · show (next c t x).preCnt = _
    simp [next, nextPreCnt, t2.st, hl, t2.pc]
  · show (next c t x).st = _
    simp only [next, nextMode, t2.st, hl, if_true, hact, t2.pc]
    by_cases e0 : n = 0
    · by_cases e1 : b = c.sfd <;> simp [e0, e1]
    · by_cases e1 : b = c.pre <;> simp [e0, e1]
  · have ho : (machine c).out t x = out c t x := rfl
    simp [got, ho, out, t2.st, hv', hv, given]

theorem P.start {b : List Nat} {m : Mode} {n : Nat} (h1 : s.cntr = 0) (h2 : s.st = m)
    (h3 : s.reg0.length = c.K) (h4 : s.preCnt = n) (h5 : s.dinVld = true) (a : Nat) (l : List Nat)
    (hb : b = a :: l) (h6 : s.din = a) : P c b m n 0 s := by
  refine ⟨h1, h2, h3, ?_, ?_, h5, h4⟩
  · rw [Nat.sub_zero, ← h3]; simp
  · rw [hb, h6]; rfl

/-- Mode after the header byte `b` when `n` other bytes should follow. -/
def after (c : Cfg) (n : Nat) (b : List Nat) : Mode :=
  if n = 0 then (if b = c.sfd then .data else .error) else (if b = c.pre then .preamble else .error)

theorem nonempty_of (c : Cfg) (hK : 2 ≤ c.K) (k : Nat) (b : List Nat) (hb : b.length = c.K) :
    ∃ y0 Y, (List.replicate k c.pre).flatten ++ b = y0 :: Y := by
  cases h : (List.replicate k c.pre).flatten ++ b with
  | nil =>
    have h1 : ((List.replicate k c.pre).flatten ++ b).length = 0 := by rw [h]; rfl
    rw [List.length_append] at h1
    omega
  | cons y0 Y => exact ⟨y0, Y, rfl⟩

/-- `k` bytes of the preamble and the byte `b`. -/
theorem header (hok : Ok c) (b : List Nat) (hb : b.length = c.K) (k : Nat) :
    ∀ (n : Nat) (s : St) (a : Nat) (l : List Nat) (x : In), k ≤ n → n < 8 →
    (List.replicate k c.pre).flatten ++ b = a :: l → s.din = a → s.dinVld = true → s.cntr = 0 →
    s.st = .preamble → s.reg0.length = c.K → s.preCnt = n → s.reg1Vld = false →
    ∃ t, (machine c).final s (syms l ++ [x]) = t ∧ t.din = x.d ∧ t.dinVld = x.dv ∧ t.cntr = 0 ∧
      t.st = after c (n - k) b ∧ t.reg0.length = c.K ∧ t.reg1Vld = false ∧
      got ((machine c).trace s (syms l ++ [x])) = [] := by
  have hK := hok.K
  induction k with
  | zero =>
    intro n s a l x _ _ he h1 h2 h3 h4 h5 h6 h7
    simp only [List.replicate_zero, List.flatten_nil, List.nil_append] at he
    obtain ⟨t, t1, t2, t3, t4, t5, t6, t7, t8, t9⟩ :=
      (P.start h3 h4 h5 h6 h2 a l he h1).endPre hb (by omega) h7 x
    have e : b.drop (0 + 1) = l := by rw [he]; rfl
    rw [e] at t1 t9
    exact ⟨t, t1, t2, t3, t4, t8, t5, t6, t9⟩
  | succ k ih =>
    intro n s a l x hkn hn he h1 h2 h3 h4 h5 h6 h7
    obtain ⟨p0, p', hp, hp0⟩ := hok.start
    rw [List.replicate_succ, List.flatten_cons, List.append_assoc, hp] at he
    obtain ⟨y0, Y, hy⟩ := nonempty_of c hK k b hb
    rw [← hp, hy] at he
    rw [hp] at he
    simp only [List.cons_append, List.cons.injEq] at he
    obtain ⟨rfl, rfl⟩ := he
    obtain ⟨t, t1, t2, t3, t4, t5, t6, t7, t8, t9⟩ :=
      (P.start h3 h4 h5 h6 h2 p0 p' hp h1).endPre hok.pre (by omega) h7 ⟨y0, true⟩
    have e : c.pre.drop (0 + 1) = p' := by rw [hp]; rfl
    rw [e] at t1 t9
    rw [if_neg (by omega), if_pos rfl] at t8
    obtain ⟨u, u1, u2, u3, u4, u5, u6, u7, u8⟩ := ih (n - 1) t y0 Y x (by omega) (by omega) hy t2 t3 t4 t8 t5
      (by rw [t7]; omega) t6
    have e : syms (p' ++ y0 :: Y) ++ [x] = (syms p' ++ [⟨y0, true⟩]) ++ (syms Y ++ [x]) := by simp [syms]
    rw [e, Machine.final_append, Machine.trace_append, got_append, t1, t9, u1, u8]
    have e2 : n - 1 - k = n - (k + 1) := by omega
    rw [e2] at u5
    exact ⟨u, rfl, u2, u3, u4, u5, u6, u7, rfl⟩

/-- Nothing is received. -/
def Skip (s : St) : Prop := s.st = .skip0 ∧ s.reg1Vld = false

def Nothing (d : Nat) (dv : Bool) : Prop := dv = false ∨ d = 0

theorem skip_run (is : List In) : ∀ (s : St) (x : In), Skip s → Nothing s.din s.dinVld →
    (∀ y ∈ is, Nothing y.d y.dv) →
    ∃ t, (machine c).final s (is ++ [x]) = t ∧ Skip t ∧ t.din = x.d ∧ t.dinVld = x.dv ∧
      got ((machine c).trace s (is ++ [x])) = [] := by
  have hs : ∀ (s : St) (x : In), Skip s → Nothing s.din s.dinVld →
      Skip (next c s x) ∧ got [(x, out c s x)] = [] := by
    intro s x h1 h2
    refine ⟨⟨?_, ?_⟩, ?_⟩
    · rcases h2 with h2 | h2 <;> simp [next, nextMode, h1.1, h2]
    · simp [next, h1.1]
    · simp [got, out, h1.1, h1.2, given]
  induction is with
  | nil =>
    intro s x h1 h2 _
    exact ⟨_, rfl, (hs s x h1 h2).1, rfl, rfl, (hs s x h1 h2).2⟩
  | cons y is ih =>
    intro s x h1 h2 h3
    obtain ⟨t, t1, t2, t3, t4, t5⟩ := ih (next c s y) x (hs s y h1 h2).1 (h3 y (by simp))
      (fun z hz => h3 z (by simp [hz]))
    refine ⟨t, t1, t2, t3, t4, ?_⟩
    rw [List.cons_append, Machine.trace_cons]
    have : ∀ e es, got (e :: es) = got [e] ++ got es := by intro e es; simp [got]
    rw [this]
    exact List.append_eq_nil_iff.2 ⟨(hs s y h1 h2).2, t5⟩

/-- The byte in which the receiver leaves `skip0`. -/
theorem first_byte (hK : 2 ≤ c.K) (s : St) (b : List Nat) (hb : b.length = c.K) (p0 : Nat) (p' : List Nat)
    (hp : b = p0 :: p') (hp0 : p0 ≠ 0) (x : In) (h1 : s.din = p0) (h2 : s.dinVld = true) (h3 : Skip s) :
    ∃ t, (machine c).final s (syms p' ++ [x]) = t ∧ t.din = x.d ∧ t.dinVld = x.dv ∧ t.cntr = 0 ∧
      t.st = after c 7 b ∧ t.reg0.length = c.K ∧ t.preCnt = 6 ∧ t.reg1Vld = false ∧
      got ((machine c).trace s (syms p' ++ [x])) = [] := by
  have hlp := hb
  rw [hp] at hlp
  obtain ⟨p1, p'', rfl⟩ : ∃ p1 p'', p' = p1 :: p'' := by
    cases p' with
    | nil => simp at hlp; omega
    | cons p1 p'' => exact ⟨_, _, rfl⟩
  have hmod : 1 % c.K = 1 := Nat.mod_eq_of_lt (by omega)
  have hP : P c b .preamble 7 1 (next c s ⟨p1, true⟩) := by
    refine ⟨by simp [next, h3.1, hmod], by simp [next, nextMode, h3.1, h1, h2, hp0], ?_, ?_, ?_, rfl,
      by simp [next, nextPreCnt, h3.1, h1, h2, hp0]⟩
    · simp [next, h3.1]; omega
    · simp only [next, h3.1, h1, hp]
      rw [List.drop_append, List.length_replicate]
      simp
    · rw [hp]; rfl
  have hv : (next c s ⟨p1, true⟩).reg1Vld = false := by simp [next, h3.1]
  obtain ⟨t, t1, t2, t3, t4, t5, t6, t7, t8, t9⟩ := hP.endPre hb (by omega) hv x
  have e : b.drop (1 + 1) = p'' := by rw [hp]; rfl
  rw [e] at t1 t9
  have e : syms (p1 :: p'') ++ [x] = [⟨p1, true⟩] ++ (syms p'' ++ [x]) := by simp [syms]
  rw [e, Machine.final_append, Machine.trace_append, got_append]
  have e1 : (machine c).final s [⟨p1, true⟩] = next c s ⟨p1, true⟩ := rfl
  rw [e1, t1, t9]
  refine ⟨t, rfl, t2, t3, t4, t8, t5, t7, t6, ?_⟩
  have e2 : (machine c).trace s [⟨p1, true⟩] = [(⟨p1, true⟩, out c s ⟨p1, true⟩)] := rfl
  rw [e2]
  simp [got, out, h3.1, h3.2, given]

/-- `k` bytes of the preamble and the byte `b` from the beginning. -/
theorem first_header (hok : Ok c) (b : List Nat) (hb : b.length = c.K) (k : Nat) (hk : k ≤ 7) (s : St) (a : Nat)
    (l : List Nat) (x : In) (he : (List.replicate k c.pre).flatten ++ b = a :: l) (ha : a ≠ 0) (h1 : s.din = a)
    (h2 : s.dinVld = true) (h3 : Skip s) :
    ∃ t, (machine c).final s (syms l ++ [x]) = t ∧ t.din = x.d ∧ t.dinVld = x.dv ∧ t.cntr = 0 ∧
      t.st = after c (7 - k) b ∧ t.reg0.length = c.K ∧ t.reg1Vld = false ∧
      got ((machine c).trace s (syms l ++ [x])) = [] := by
  have hK := hok.K
  cases k with
  | zero =>
    simp only [List.replicate_zero, List.flatten_nil, List.nil_append] at he
    obtain ⟨t, t1, t2, t3, t4, t5, t6, t7, t8, t9⟩ := first_byte hK s b hb a l he ha x h1 h2 h3
    exact ⟨t, t1, t2, t3, t4, t5, t6, t8, t9⟩
  | succ k =>
    obtain ⟨p0, p', hp, hp0⟩ := hok.start
    rw [List.replicate_succ, List.flatten_cons, List.append_assoc] at he
    obtain ⟨y0, Y, hy⟩ := nonempty_of c hK k b hb
    rw [hy, hp] at he
    simp only [List.cons_append, List.cons.injEq] at he
    obtain ⟨rfl, rfl⟩ := he
    obtain ⟨t, t1, t2, t3, t4, t5, t6, t7, t8, t9⟩ :=
      first_byte hK s c.pre hok.pre p0 p' hp hp0 ⟨y0, true⟩ h1 h2 h3
    have t5' : t.st = .preamble := by rw [t5]; simp [after]
    obtain ⟨u, u1, u2, u3, u4, u5, u6, u7, u8⟩ := header hok b hb k 6 t y0 Y x (by omega) (by omega) hy t2 t3 t4
      t5' t6 t7 t8
    have e : syms (p' ++ y0 :: Y) ++ [x] = (syms p' ++ [⟨y0, true⟩]) ++ (syms Y ++ [x]) := by simp [syms]
    rw [e, Machine.final_append, Machine.trace_append, got_append, t1, t9, u1, u8]
    have e2 : 6 - k = 7 - (k + 1) := by omega
    rw [e2] at u5
    exact ⟨u, rfl, u2, u3, u4, u5, u6, u7, rfl⟩

/-! ## Payload -/

/-- Boundary of bytes. -/
structure D (c : Cfg) (s : St) : Prop where
  cntr : s.cntr = 0
  st : s.st = .data
  len : s.reg0.length = c.K

theorem D.byte (h : D c s) (hK : 2 ≤ c.K) (b : List Nat) (hb : b.length = c.K) (a : Nat) (l : List Nat)
    (he : b = a :: l) (h1 : s.din = a) (h2 : s.dinVld = true) (x : In) :
    ∃ t, (machine c).final s (syms l ++ [x]) = t ∧ D c t ∧ t.din = x.d ∧ t.dinVld = x.dv ∧
      t.reg1 = b ∧ t.reg1Vld = true ∧
      got ((machine c).trace s (syms l ++ [x])) = given s.reg1Vld (some s.reg1, false, false) := by
  obtain ⟨t, t1, t2, t3, t4, t5, t6⟩ :=
    P.run (n := s.preCnt) (.inr rfl) hb (c.K - 1) 0 s (P.start h.cntr h.st h.len rfl h2 a l he h1)
      (by omega) (by omega)
  rw [he] at t1 t6
  simp only [Nat.zero_add, List.drop_succ_cons, List.drop_zero] at t1 t6
  have hact := t2.actual_eq hb (by omega)
  have hl : lastInB c t = true := by simp [lastInB, t2.cntr, t2.dv]
  have hv' : t.reg1Vld = false := t4 (by omega)
  rw [final_snoc, got_snoc, t1, t6]
  refine ⟨next c t x, rfl, ⟨?_, ?_, ?_⟩, rfl, rfl, ?_, ?_, ?_⟩
  · have : c.K - 1 + 1 = c.K := by omega
    simp [next, t2.st, t2.cntr, this]
  · simp [next, nextMode, t2.st, t2.dv]
  · simp [next, t2.st, hact, hb]
  · simp [next, t2.st, hl, hact]
  · simp [next, t2.st, hl]
  · have ho : (machine c).out t x = out c t x := rfl
    have : ¬ c.K - 1 = 0 := by omega
    have e : got [(x, out c t x)] = [] := by simp [got, out, t2.st, hv', given]
    rw [ho, e, if_neg this, List.append_nil]

theorem gap_run (gs : List Nat) : ∀ (s : St) (i : Nat), s.st = .data → s.cntr = i → i < c.K →
    s.dinVld = false → c.K - i ≤ gs.length →
    ∃ t, (machine c).final s (noCarrier gs) = t ∧ Skip t ∧ t.dinVld = false ∧
      got ((machine c).trace s (noCarrier gs)) = given s.reg1Vld (some s.reg1, false, true) := by
  have hcons : ∀ e es, got (e :: es) = got [e] ++ got es := by intro e es; simp [got]
  induction gs with
  | nil => intro s i _ _ h _ h2; simp at h2; omega
  | cons g gs ih =>
    intro s i h1 h2 h3 h4 h5
    have e : noCarrier (g :: gs) = ⟨g, false⟩ :: noCarrier gs := rfl
    have hl : lastInB c s = false := by simp [lastInB, h4]
    have ho : got [((⟨g, false⟩ : In), out c s ⟨g, false⟩)] = given s.reg1Vld (some s.reg1, false, true) := by
      simp [got, out, h1, h4]
    have hv : (next c s ⟨g, false⟩).reg1Vld = false := by simp [next, hl]
    rw [e, Machine.final_cons, Machine.trace_cons, hcons]
    have e1 : (machine c).next s ⟨g, false⟩ = next c s ⟨g, false⟩ := rfl
    have e2 : (machine c).out s ⟨g, false⟩ = out c s ⟨g, false⟩ := rfl
    rw [e1, e2, ho]
    simp only [List.length_cons] at h5
    by_cases q : i = c.K - 1
    · have hsk : Skip (next c s ⟨g, false⟩) := ⟨by simp [next, nextMode, h1, h2, q, h4], hv⟩
      rcases List.eq_nil_or_concat gs with rfl | ⟨g', y, rfl⟩
      · exact ⟨_, rfl, hsk, rfl, by simp [noCarrier, Machine.trace_nil, got]⟩
      · have e3 : noCarrier (g' ++ [y]) = noCarrier g' ++ [⟨y, false⟩] := by simp [noCarrier]
        rw [List.concat_eq_append, e3]
        obtain ⟨t, t1, t2, t3, t4, t5⟩ := skip_run (c := c) (noCarrier g') (next c s ⟨g, false⟩) ⟨y, false⟩ hsk
          (.inl rfl) (by intro z hz; simp only [noCarrier, List.mem_map] at hz; obtain ⟨_, _, rfl⟩ := hz; exact .inl rfl)
        exact ⟨t, t1, t2, t4, by rw [t5, List.append_nil]⟩
    · have hmod : (i + 1) % c.K = i + 1 := Nat.mod_eq_of_lt (by omega)
      obtain ⟨t, t1, t2, t3, t4⟩ := ih (next c s ⟨g, false⟩) (i + 1) (by simp [next, nextMode, h1, h2, q])
        (by simp [next, h1, h2, hmod]) (by omega) rfl (by omega)
      rw [hv] at t4
      exact ⟨t, t1, t2, t3, by rw [t4]; simp [given]⟩

theorem payload_run (hK : 2 ≤ c.K) (bs : List (List Nat)) : ∀ (s : St) (x : In) (is : List In) (gs : List Nat),
    D c s → (∀ b ∈ bs, b.length = c.K) → c.K + 1 ≤ gs.length →
    s.din = x.d → s.dinVld = x.dv → x :: is = syms bs.flatten ++ noCarrier gs →
    ∃ t, (machine c).final s is = t ∧ Skip t ∧ t.dinVld = false ∧
      got ((machine c).trace s is) = mark ((if s.reg1Vld then [s.reg1] else []) ++ bs) := by
  induction bs with
  | nil =>
    intro s x is gs h hb hg h1 h2 he
    cases gs with
    | nil => simp at hg
    | cons g gs =>
      simp only [List.flatten_nil, syms, List.map_nil, List.nil_append, noCarrier, List.map_cons,
        List.cons.injEq] at he
      obtain ⟨rfl, rfl⟩ := he
      obtain ⟨t, t1, t2, t3, t4⟩ := gap_run (c := c) gs s 0 h.st h.cntr (by omega) h2 (by simp at hg; omega)
      refine ⟨t, t1, t2, t3, ?_⟩
      show got ((machine c).trace s (noCarrier gs)) = _
      rw [t4]
      cases s.reg1Vld <;> simp [mark, given]
  | cons b bs ih =>
    intro s x is gs h hb hg h1 h2 he
    have hbl := hb b (by simp)
    obtain ⟨a, l, rfl⟩ : ∃ a l, b = a :: l := by
      cases b with
      | nil => simp at hbl; omega
      | cons a l => exact ⟨a, l, rfl⟩
    obtain ⟨y, ys, hy⟩ : ∃ y ys, syms bs.flatten ++ noCarrier gs = y :: ys := by
      cases hc : syms bs.flatten ++ noCarrier gs with
      | nil =>
        have h3 : (syms bs.flatten ++ noCarrier gs).length = 0 := by rw [hc]; rfl
        simp [noCarrier] at h3
        rw [h3.2] at hg; simp at hg
      | cons y ys => exact ⟨y, ys, rfl⟩
    have e : syms ((a :: l) :: bs).flatten ++ noCarrier gs = ⟨a, true⟩ :: (syms l ++ y :: ys) := by
      rw [← hy]; simp [syms]
    rw [e] at he
    simp only [List.cons.injEq] at he
    obtain ⟨rfl, rfl⟩ := he
    obtain ⟨t, t1, t2, t3, t4, t5, t6, t7⟩ := h.byte hK (a :: l) hbl a l rfl h1 h2 y
    obtain ⟨u, u1, u2, u3, u4⟩ := ih t y ys gs t2 (fun b' hb' => hb b' (by simp [hb'])) hg t3 t4 hy.symm
    have e2 : syms l ++ y :: ys = (syms l ++ [y]) ++ ys := by simp
    rw [e2, Machine.final_append, Machine.trace_append, got_append, t1, t7, u1, u4]
    refine ⟨u, rfl, u2, u3, ?_⟩
    rw [t6, t5]
    cases s.reg1Vld <;> simp [mark, given]

theorem frame_run (hok : Ok c) (f : Frame) (hf : f.Ok c) (s : St) (hs : Skip s) (hd : s.dinVld = false) :
    ∃ t, (machine c).final s (f.line c) = t ∧ Skip t ∧ t.dinVld = false ∧
      got ((machine c).trace s (f.line c)) = mark f.payload := by
  obtain ⟨p0, p', hp, hp0⟩ := hok.start
  obtain ⟨a, l, he, ha⟩ : ∃ a l, (List.replicate 7 c.pre).flatten ++ c.sfd = a :: l ∧ a ≠ 0 := by
    rw [hp]; exact ⟨_, _, rfl, hp0⟩
  obtain ⟨y, ys, hy⟩ : ∃ y ys, syms f.payload.flatten ++ noCarrier f.gap = y :: ys := by
    cases hc : syms f.payload.flatten ++ noCarrier f.gap with
    | nil =>
      have h3 : (syms f.payload.flatten ++ noCarrier f.gap).length = 0 := by rw [hc]; rfl
      simp [noCarrier] at h3
      have := hf.gap
      rw [h3.2] at this; simp at this
    | cons y ys => exact ⟨y, ys, rfl⟩
  have hline : f.line c = (syms (List.replicate f.z 0) ++ [⟨a, true⟩]) ++ ((syms l ++ [y]) ++ ys) := by
    rw [Frame.line, he, List.append_assoc, hy]; simp [syms]
  obtain ⟨t, t1, t2, t3, t4, t5⟩ := skip_run (c := c) (syms (List.replicate f.z 0)) s ⟨a, true⟩ hs (.inl hd)
    (by intro z hz
        simp only [syms, List.mem_map, List.mem_replicate] at hz
        obtain ⟨_, ⟨_, rfl⟩, rfl⟩ := hz
        exact .inr rfl)
  obtain ⟨u, u1, u2, u3, u4, u5, u6, u7, u8⟩ := first_header hok c.sfd hok.sfd 7 (by omega) t a l y he ha t3 t4 t2
  obtain ⟨v, v1, v2, v3, v4⟩ := payload_run hok.K f.payload u y ys f.gap ⟨u4, by simpa [after] using u5, u6⟩ hf.bytes hf.gap u2 u3
    hy.symm
  rw [hline, Machine.final_append, Machine.trace_append, got_append, t1, t5, Machine.final_append,
    Machine.trace_append, got_append, u1, u8, v1, v4, u7]
  exact ⟨v, rfl, v2, v3, rfl⟩

/-! ## C175 -/

/-- The bytes of all frames are delivered in order without errors, and just the last byte of every frame is
marked; the time before the first frame, the lengths of the gaps and the symbols on the line without carrier
are arbitrary. -/
theorem rx_frames (c : Cfg) (hok : Ok c) (fs : List Frame) (hf : ∀ f ∈ fs, f.Ok c) (gs : List Nat)
    (s : St) (hs : IsInit c s) :
    got ((machine c).trace s (noCarrier gs ++ fs.flatMap (·.line c))) = fs.flatMap fun f => mark f.payload := by
  have key : ∀ s : St, Skip s → s.dinVld = false →
      got ((machine c).trace s (fs.flatMap (·.line c))) = fs.flatMap fun f => mark f.payload := by
    clear hs s
    induction fs with
    | nil => intro s _ _; rfl
    | cons f fs ih =>
      intro s h1 h2
      obtain ⟨t, t1, t2, t3, t4⟩ := frame_run hok f (hf f (by simp)) s h1 h2
      rw [List.flatMap_cons, Machine.trace_append, got_append, t1, t4,
        ih (fun g hg => hf g (by simp [hg])) t t2 t3, List.flatMap_cons]
  have h0 : Skip s := ⟨hs.st, hs.reg1Vld⟩
  rw [Machine.trace_append, got_append]
  rcases List.eq_nil_or_concat gs with rfl | ⟨g', y, rfl⟩
  · exact key s h0 hs.dinVld
  · have e3 : noCarrier (g' ++ [y]) = noCarrier g' ++ [⟨y, false⟩] := by simp [noCarrier]
    rw [List.concat_eq_append, e3]
    obtain ⟨t, t1, t2, t3, t4, t5⟩ := skip_run (c := c) (noCarrier g') s ⟨y, false⟩ h0
      (.inl hs.dinVld) (by intro z hz; simp only [noCarrier, List.mem_map] at hz; obtain ⟨_, _, rfl⟩ := hz; exact .inl rfl)
    rw [t1, t5, List.nil_append]
    exact key t t2 t4

/-- `RMII_W = 2` -/
def exC : Cfg := ⟨4, [1, 1, 1, 1], [1, 1, 1, 3]⟩
def s0 : St := ⟨0, false, [0, 0, 0, 0], [0, 0, 0, 0], false, 0, 0, .skip0⟩
def exF : Frame := ⟨2, [[0, 1, 2, 3], [3, 2, 1, 0]], [0, 1, 2, 3, 0]⟩

theorem exC_ok : Ok exC := ⟨by decide, rfl, rfl, ⟨1, [1, 1, 1], rfl, by decide⟩⟩
theorem s0_init : IsInit exC s0 := ⟨rfl, rfl, rfl, rfl, rfl, rfl⟩

example : Ok exC ∧ IsInit exC s0 ∧ (∀ f ∈ [exF, exF], f.Ok exC) ∧
    got ((machine exC).trace s0 (noCarrier [3] ++ [exF].flatMap (·.line exC))) =
      [(some [0, 1, 2, 3], false, false), (some [3, 2, 1, 0], false, true)] := by
  refine ⟨exC_ok, s0_init, ?_, by decide⟩
  intro f hf
  have : f = exF := by simpa using hf
  subst this
  exact ⟨by decide, by decide⟩

/-! ## C177: errors in the header -/

theorem error_run (l : List Nat) : ∀ (s : St) (x : In) (is : List In) (g : Nat) (gs : List Nat), s.st = .error →
    s.reg1Vld = false → 1 ≤ gs.length →
    s.din = x.d → s.dinVld = x.dv → x :: is = syms l ++ noCarrier (g :: gs) →
    ∃ t, (machine c).final s is = t ∧ Skip t ∧ t.dinVld = false ∧
      got ((machine c).trace s is) = List.replicate l.length (none, true, false) ++ [(none, true, true)] := by
  have hcons : ∀ e es, got (e :: es) = got [e] ++ got es := by intro e es; simp [got]
  induction l with
  | nil =>
    intro s x is g gs h1 h2 h3 h4 h5 he
    simp only [syms, List.map_nil, List.nil_append, noCarrier, List.map_cons, List.cons.injEq] at he
    obtain ⟨rfl, rfl⟩ := he
    cases gs with
    | nil => simp at h3
    | cons y gs =>
      simp only at h4 h5
      have hsk : Skip (next c s ⟨y, false⟩) := ⟨by simp [next, nextMode, h1, h5], by simp [next, h1]⟩
      have ho : got [((⟨y, false⟩ : In), out c s ⟨y, false⟩)] = [(none, true, true)] := by
        simp [got, out, h1, h5, given]
      rw [List.map_cons, Machine.final_cons, Machine.trace_cons, hcons]
      have e1 : (machine c).next s ⟨y, false⟩ = next c s ⟨y, false⟩ := rfl
      have e2 : (machine c).out s ⟨y, false⟩ = out c s ⟨y, false⟩ := rfl
      rw [e1, e2, ho]
      rcases List.eq_nil_or_concat gs with rfl | ⟨g', z, rfl⟩
      · exact ⟨_, rfl, hsk, rfl, rfl⟩
      · have e3 : (g'.concat z).map (fun x => (⟨x, false⟩ : In)) = noCarrier g' ++ [⟨z, false⟩] := by
          simp [noCarrier]
        rw [e3]
        obtain ⟨t, t1, t2, t3, t4, t5⟩ := skip_run (c := c) (noCarrier g') (next c s ⟨y, false⟩) ⟨z, false⟩ hsk
          (.inl rfl) (by intro z hz; simp only [noCarrier, List.mem_map] at hz; obtain ⟨_, _, rfl⟩ := hz; exact .inl rfl)
        exact ⟨t, t1, t2, t4, by rw [t5]; rfl⟩
  | cons a l ih =>
    intro s x is g gs h1 h2 h3 h4 h5 he
    have e : syms (a :: l) ++ noCarrier (g :: gs) = ⟨a, true⟩ :: (syms l ++ noCarrier (g :: gs)) := rfl
    rw [e] at he
    simp only [List.cons.injEq] at he
    obtain ⟨rfl, rfl⟩ := he
    simp only at h4 h5
    obtain ⟨y, ys, hy⟩ : ∃ y ys, syms l ++ noCarrier (g :: gs) = y :: ys := by
      cases l with
      | nil => exact ⟨_, _, rfl⟩
      | cons b l => exact ⟨_, _, rfl⟩
    rw [hy, Machine.final_cons, Machine.trace_cons, hcons]
    have e1 : (machine c).next s y = next c s y := rfl
    have e2 : (machine c).out s y = out c s y := rfl
    obtain ⟨t, t1, t2, t3, t4⟩ := ih (next c s y) y ys g gs (by simp [next, nextMode, h1, h5])
      (by simp [next, h1]) h3 rfl rfl hy.symm
    rw [e1, e2, t1, t4]
    refine ⟨t, rfl, t2, t3, ?_⟩
    simp [got, out, h1, h5, given, List.replicate_succ]

/-- A frame whose header byte number `k` is wrong (`w`), followed by `l` symbols. -/
structure Bad where
  z : Nat
  k : Nat
  w : List Nat
  l : List Nat
  gap : List Nat

def Bad.line (c : Cfg) (f : Bad) : List In :=
  syms (List.replicate f.z 0) ++ syms ((List.replicate f.k c.pre).flatten ++ f.w) ++ syms f.l ++ noCarrier f.gap

structure Bad.Ok (c : Cfg) (f : Bad) : Prop where
  k : f.k ≤ 7
  len : f.w.length = c.K
  wrong : f.w ≠ if f.k = 7 then c.sfd else c.pre
  /-- the zero symbols are not a part of the first byte -/
  start : f.k = 0 → ∀ a l, f.w = a :: l → a ≠ 0
  gap : 2 ≤ f.gap.length

theorem bad_run (hok : Ok c) (f : Bad) (hf : f.Ok c) (s : St) (hs : Skip s) (hd : s.dinVld = false) :
    ∃ t, (machine c).final s (f.line c) = t ∧ Skip t ∧ t.dinVld = false ∧
      got ((machine c).trace s (f.line c)) =
        List.replicate f.l.length (none, true, false) ++ [(none, true, true)] := by
  have hK := hok.K
  have hk := hf.k
  obtain ⟨p0, p', hp, hp0⟩ := hok.start
  obtain ⟨a, l, he, ha⟩ : ∃ a l, (List.replicate f.k c.pre).flatten ++ f.w = a :: l ∧ a ≠ 0 := by
    by_cases e : f.k = 0
    · obtain ⟨y0, Y, hy⟩ := nonempty_of c hK f.k f.w hf.len
      refine ⟨y0, Y, hy, hf.start e y0 Y ?_⟩
      rw [e] at hy; simpa using hy
    · obtain ⟨k, hk⟩ : ∃ k, f.k = k + 1 := ⟨f.k - 1, by omega⟩
      rw [hk, List.replicate_succ, List.flatten_cons, hp]
      exact ⟨_, _, rfl, hp0⟩
  obtain ⟨g, gs, hg⟩ : ∃ g gs, f.gap = g :: gs := by
    cases h : f.gap with
    | nil => have := hf.gap; rw [h] at this; simp at this
    | cons g gs => exact ⟨g, gs, rfl⟩
  have hgs : 1 ≤ gs.length := by have := hf.gap; rw [hg] at this; simp at this; omega
  obtain ⟨y, ys, hy⟩ : ∃ y ys, syms f.l ++ noCarrier (g :: gs) = y :: ys := by
    cases f.l with
    | nil => exact ⟨_, _, rfl⟩
    | cons b l => exact ⟨_, _, rfl⟩
  have hline : f.line c = (syms (List.replicate f.z 0) ++ [⟨a, true⟩]) ++ ((syms l ++ [y]) ++ ys) := by
    rw [Bad.line, he, List.append_assoc, hg, hy]; simp [syms]
  obtain ⟨t, t1, t2, t3, t4, t5⟩ := skip_run (c := c) (syms (List.replicate f.z 0)) s ⟨a, true⟩ hs (.inl hd)
    (by intro z hz
        simp only [syms, List.mem_map, List.mem_replicate] at hz
        obtain ⟨_, ⟨_, rfl⟩, rfl⟩ := hz
        exact .inr rfl)
  obtain ⟨u, u1, u2, u3, u4, u5, u6, u7, u8⟩ := first_header hok f.w hf.len f.k hk t a l y he ha t3 t4 t2
  have u5' : u.st = .error := by
    rw [u5, after]
    have hw := hf.wrong
    by_cases e : f.k = 7
    · rw [if_pos e] at hw
      simp [e, hw]
    · rw [if_neg e] at hw
      rw [if_neg (by omega), if_neg hw]
  obtain ⟨v, v1, v2, v3, v4⟩ := error_run (c := c) f.l u y ys g gs u5' u7 hgs u2 u3 hy.symm
  rw [hline, Machine.final_append, Machine.trace_append, got_append, t1, t5, Machine.final_append,
    Machine.trace_append, got_append, u1, u8, v1, v4]
  exact ⟨v, rfl, v2, v3, rfl⟩

/-- A frame with a wrong byte in the header delivers no data, just errors of which the last one is marked, and the
next frame is received. -/
theorem rx_bad_header (c : Cfg) (hok : Ok c) (f : Bad) (hf : f.Ok c) (g : Frame) (hg : g.Ok c)
    (s : St) (hs : IsInit c s) :
    got ((machine c).trace s (f.line c ++ g.line c)) =
      List.replicate f.l.length (none, true, false) ++ [(none, true, true)] ++ mark g.payload := by
  obtain ⟨t, t1, t2, t3, t4⟩ := bad_run hok f hf s ⟨hs.st, hs.reg1Vld⟩ hs.dinVld
  obtain ⟨u, u1, u2, u3, u4⟩ := frame_run hok g hg t t2 t3
  rw [Machine.trace_append, got_append, t1, t4, u4]

example : Bad.Ok exC ⟨1, 3, [1, 1, 2, 1], [0, 1], [0, 0]⟩ :=
  ⟨by decide, by decide, by decide, fun h => absurd h (by decide), by decide⟩

/-! ## C176: every gap resynchronises the receiver -/

/-- Whatever was on the line, a frame after a gap of at least `L` symbols is received. -/
def Resync (c : Cfg) (L : Nat) : Prop :=
  ∀ s, IsInit c s → ∀ (is : List In) (gap : List Nat) (f : Frame), L ≤ gap.length → f.Ok c →
    got ((machine c).trace s (is ++ noCarrier gap ++ f.line c)) =
      got ((machine c).trace s (is ++ noCarrier gap)) ++ mark f.payload

/-- A single symbol of a preamble blocks the receiver until the next frame, which is lost; the length of the gap
does not matter. -/
theorem resync_fails (L : Nat) : ¬ Resync exC L := by
  intro h
  have := h s0 s0_init [⟨1, true⟩] (List.replicate 8 0 ++ List.replicate (4 * L) 0) exF (by simp; omega)
    ⟨by decide, by decide⟩
  have hfix : ∀ m, (machine exC).final ((machine exC).final s0 ([⟨1, true⟩] ++ noCarrier (List.replicate 8 0)))
      (noCarrier (List.replicate (4 * m) 0)) =
        (machine exC).final s0 ([⟨1, true⟩] ++ noCarrier (List.replicate 8 0)) := by
    intro m
    induction m with
    | zero => rfl
    | succ m ih =>
      have e : noCarrier (List.replicate (4 * (m + 1)) 0) =
          noCarrier (List.replicate (4 * m) 0) ++ noCarrier (List.replicate 4 0) := by
        rw [Nat.mul_add, ← List.replicate_append_replicate]; simp [noCarrier]
      rw [e, Machine.final_append, ih]
      decide
  rw [Machine.trace_append, got_append, List.append_cancel_left_eq] at this
  have e : noCarrier (List.replicate 8 0 ++ List.replicate (4 * L) 0) =
      noCarrier (List.replicate 8 0) ++ noCarrier (List.replicate (4 * L) 0) := by simp [noCarrier]
  rw [e, ← List.append_assoc, Machine.final_append, hfix] at this
  revert this
  decide

theorem data_any (hK : 1 ≤ c.K) (l : List Nat) : ∀ (s : St) (x : In) (is : List In) (gs : List Nat),
    s.st = .data → s.cntr < c.K → c.K + 1 ≤ gs.length → s.din = x.d → s.dinVld = x.dv →
    x :: is = syms l ++ noCarrier gs →
    ∃ t, (machine c).final s is = t ∧ Skip t ∧ t.dinVld = false := by
  induction l with
  | nil =>
    intro s x is gs h1 h2 h3 h4 h5 he
    cases gs with
    | nil => simp at h3
    | cons g gs =>
      simp only [syms, List.map_nil, List.nil_append, noCarrier, List.map_cons, List.cons.injEq] at he
      obtain ⟨rfl, rfl⟩ := he
      obtain ⟨t, t1, t2, t3, t4⟩ := gap_run (c := c) gs s s.cntr h1 rfl h2 h5 (by simp at h3; omega)
      exact ⟨t, t1, t2, t3⟩
  | cons a l ih =>
    intro s x is gs h1 h2 h3 h4 h5 he
    have e : syms (a :: l) ++ noCarrier gs = ⟨a, true⟩ :: (syms l ++ noCarrier gs) := rfl
    rw [e] at he
    simp only [List.cons.injEq] at he
    obtain ⟨rfl, rfl⟩ := he
    simp only at h4 h5
    obtain ⟨y, ys, hy⟩ : ∃ y ys, syms l ++ noCarrier gs = y :: ys := by
      cases l with
      | nil =>
        cases gs with
        | nil => simp at h3
        | cons g gs => exact ⟨_, _, rfl⟩
      | cons b l => exact ⟨_, _, rfl⟩
    rw [hy, Machine.final_cons]
    refine ih (next c s y) y ys gs (by simp [next, nextMode, h1, h5]) ?_ h3 rfl rfl hy.symm
    simp only [next, h1]
    exact Nat.mod_lt _ (by omega)

/-- Missing: a carrier which ends in the header. After a frame with a whole header (right or wrong) and any number
of symbols the next frame is received. -/
theorem resync_partial (c : Cfg) (hok : Ok c) (z : Nat) (l gap : List Nat) (hgap : c.K + 1 ≤ gap.length)
    (f : Frame) (hf : f.Ok c) (s : St) (hs : IsInit c s) :
    got ((machine c).trace s (syms (List.replicate z 0) ++ syms ((List.replicate 7 c.pre).flatten ++ c.sfd) ++
      syms l ++ noCarrier gap ++ f.line c)) =
    got ((machine c).trace s (syms (List.replicate z 0) ++ syms ((List.replicate 7 c.pre).flatten ++ c.sfd) ++
      syms l ++ noCarrier gap)) ++ mark f.payload := by
  obtain ⟨p0, p', hp, hp0⟩ := hok.start
  obtain ⟨a, l', he, ha⟩ : ∃ a l, (List.replicate 7 c.pre).flatten ++ c.sfd = a :: l ∧ a ≠ 0 := by
    rw [hp]; exact ⟨_, _, rfl, hp0⟩
  obtain ⟨y, ys, hy⟩ : ∃ y ys, syms l ++ noCarrier gap = y :: ys := by
    cases hc : syms l ++ noCarrier gap with
    | nil =>
      have h3 : (syms l ++ noCarrier gap).length = 0 := by rw [hc]; rfl
      simp [noCarrier] at h3
      rw [h3.2] at hgap; simp at hgap
    | cons y ys => exact ⟨y, ys, rfl⟩
  have hline : syms (List.replicate z 0) ++ syms ((List.replicate 7 c.pre).flatten ++ c.sfd) ++
      syms l ++ noCarrier gap = (syms (List.replicate z 0) ++ [⟨a, true⟩]) ++ ((syms l' ++ [y]) ++ ys) := by
    rw [he, List.append_assoc, hy]; simp [syms]
  obtain ⟨t, t1, t2, t3, t4, t5⟩ := skip_run (c := c) (syms (List.replicate z 0)) s ⟨a, true⟩
    ⟨hs.st, hs.reg1Vld⟩ (.inl hs.dinVld)
    (by intro z hz
        simp only [syms, List.mem_map, List.mem_replicate] at hz
        obtain ⟨_, ⟨_, rfl⟩, rfl⟩ := hz
        exact .inr rfl)
  obtain ⟨u, u1, u2, u3, u4, u5, u6, u7, u8⟩ := first_header hok c.sfd hok.sfd 7 (by omega) t a l' y he ha t3 t4 t2
  have hK := hok.K
  obtain ⟨v, v1, v2, v3⟩ := data_any (c := c) (by omega) l u y ys gap (by simpa [after] using u5) (by omega)
    hgap u2 u3 hy.symm
  obtain ⟨w, w1, w2, w3, w4⟩ := frame_run hok f hf v v2 v3
  rw [Machine.trace_append, got_append]
  congr 1
  rw [hline, Machine.final_append, t1, Machine.final_append, u1, v1, w4]

/-! ## C178: every received frame ends with `last` -/

/-- Bytes received during one carrier are terminated by `last`. -/
def Terminated (c : Cfg) : Prop :=
  ∀ s, IsInit c s → ∀ (l gap : List Nat), c.K ≤ l.length → 2 * c.K ≤ gap.length →
    ∃ g e, got ((machine c).trace s (syms ((List.replicate 7 c.pre).flatten ++ c.sfd) ++
      syms l ++ noCarrier gap)) = g ++ [e] ∧ (e.2.2 = true ∨ e.2.1 = true)

/-- A frame which does not end on the boundary of bytes has neither `last` nor `err`. -/
theorem terminated_fails : ¬ Terminated exC := by
  intro h
  obtain ⟨g, e, h1, h2⟩ := h s0 s0_init [0, 1, 2, 3, 1] (List.replicate 8 0) (by decide) (by decide)
  have hv : got ((machine exC).trace s0 (syms ((List.replicate 7 exC.pre).flatten ++ exC.sfd) ++
      syms [0, 1, 2, 3, 1] ++ noCarrier (List.replicate 8 0))) = [] ++ [(some [0, 1, 2, 3], false, false)] := by
    decide
  rw [hv] at h1
  have := List.append_inj_right' h1 rfl
  simp only [List.cons.injEq, and_true] at this
  rw [← this] at h2
  simp at h2

/-- Holds for frames of whole bytes. -/
theorem terminated_partial (c : Cfg) (hok : Ok c) (bs : List (List Nat)) (hb : ∀ b ∈ bs, b.length = c.K)
    (hne : bs ≠ []) (gap : List Nat) (hg : c.K + 1 ≤ gap.length) (s : St) (hs : IsInit c s) :
    ∃ g b, got ((machine c).trace s (syms ((List.replicate 7 c.pre).flatten ++ c.sfd) ++
      syms bs.flatten ++ noCarrier gap)) = g ++ [(b, false, true)] ∧ ∀ e ∈ g, e.2 = (false, false) := by
  obtain ⟨t, t1, t2, t3, t4⟩ := frame_run hok ⟨0, bs, gap⟩ ⟨hb, hg⟩ s ⟨hs.st, hs.reg1Vld⟩ hs.dinVld
  have e : Frame.line c ⟨0, bs, gap⟩ = syms ((List.replicate 7 c.pre).flatten ++ c.sfd) ++
      syms bs.flatten ++ noCarrier gap := by simp [Frame.line, syms]
  rw [← e, t4]
  clear t1 t4 e hb
  induction bs with
  | nil => exact absurd rfl hne
  | cons b bs ih =>
    cases bs with
    | nil => exact ⟨[], some b, rfl, by simp⟩
    | cons b' bs =>
      obtain ⟨g, x, h1, h2⟩ := ih (by simp)
      refine ⟨(some b, false, false) :: g, x, ?_, ?_⟩
      · show (some b, false, false) :: mark (b' :: bs) = _
        rw [h1]; rfl
      · intro e he
        rcases List.mem_cons.1 he with rfl | he
        · rfl
        · exact h2 e he

end Verif.RmiiRx
