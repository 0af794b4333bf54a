import Verif.Common
/-!
# Model of `MdioMaster` (hwtLib/peripheral/mdio/master.py)

Words are MSB first lists of bits. The tick of the prescaler (`clk_half_period_en`, an instance of the timer proved
in `Verif.TimersProps`) is an input, so the statements hold for every prescaler and also for irregular ticks.
The open drain output is the flag `t` ("pull the line to 0"), the line is 1 unless somebody pulls it.
-/
namespace Verif.Mdio

/-- master.py:33-49 -/
structure Req where
  op : Nat
  phy : Nat
  reg : Nat
  wdata : Nat

/-- The `w` bits of `n`, MSB first. -/
def bits (w n : Nat) : List Bool := (List.range w).map fun k => n.testBit (w - 1 - k)

/-- master.py:184-185 (constants: intf.py:46-59) -/
def frame (q : Req) : List Bool :=
  [false, true] ++ bits 2 q.op ++ bits 5 q.phy ++ bits 5 q.reg ++ [true, false] ++ bits 16 q.wdata

/-- master.py:161 -/
inductive Fsm where
  | idle | pre | addr | ta | data
  deriving DecidableEq, Repr

structure St where
  mdc : Bool
  st : Fsm
  timer : Nat
  isRx : Bool
  rdVld : Bool
  tx : List Bool
  rx : List Bool
  deriving DecidableEq, Repr

structure In where
  tick : Bool
  vld : Bool
  req : Req
  /-- the level of the line -/
  io : Bool
  rrd : Bool

structure Out where
  rd : Bool
  mdc : Bool
  /-- pull the line to 0 -/
  t : Bool
  rvld : Bool
  rdata : List Bool
  deriving DecidableEq, Repr

/-- master.py:150-151 -/
def rising (s : St) (i : In) : Bool := i.tick && !s.mdc
def falling (s : St) (i : In) : Bool := i.tick && s.mdc

/-- master.py:126-132: the events of the packet timer (`CNTR_MAX = 63`) -/
def preLast (s : St) (i : In) : Bool := falling s i && s.timer == 31
def addrLast (s : St) (i : In) : Bool := falling s i && s.timer == 45
def taLastEn (s : St) : Bool := s.timer == 47
def dataLast (s : St) (i : In) : Bool := rising s i && s.timer == 63

/-- master.py:162-170 -/
def nextSt (s : St) (i : In) : Fsm :=
  match s.st with
  | .idle => if i.vld && !s.rdVld then .pre else .idle
  | .pre => if preLast s i then .addr else .pre
  | .addr => if addrLast s i then .ta else .addr
  | .ta => if taLastEn s && ((s.isRx && falling s i) || (!s.isRx && rising s i)) then .data else .ta
  | .data => if dataLast s i then .idle else .data

/-- master.py:120-125 (reset while idle), 146-148, 173-208 -/
def next (s : St) (i : In) : St where
  mdc := if i.tick then !s.mdc else s.mdc
  st := nextSt s i
  timer := if s.st = .idle then 0 else if falling s i then (s.timer + 1) % 64 else s.timer
  isRx := if s.st = .idle then i.req.op == 2 else s.isRx
  rdVld := if decide (s.st = .idle) && i.rrd then false else if addrLast s i then s.isRx else s.rdVld
  tx := if decide (s.st = .idle) && i.vld then frame i.req
        else if falling s i && (decide (s.st = .addr) || decide (s.st = .data) || decide (s.st = .ta)) then s.tx.tail ++ [false] else s.tx
  rx := if decide (s.st = .data) && s.isRx && rising s i then s.rx.tail ++ [i.io] else s.rx

/-- master.py:172, 189-197, 209-210 -/
def out (s : St) (_i : In) : Out where
  rd := decide (s.st = .idle) && !s.rdVld
  mdc := s.mdc
  t := !decide (s.st = .idle) && !s.tx.headD false && (decide (s.st = .addr) || ((decide (s.st = .data) || decide (s.st = .ta)) && !s.isRx))
  rvld := decide (s.st = .idle) && s.rdVld
  rdata := s.rx

def machine : Machine St In Out where
  out := out
  next := next

/-- Power-up: `tx` and `rx` are not reset. -/
def IsInit (s : St) : Prop := s.mdc = false ∧ s.st = .idle ∧ s.timer = 0 ∧ s.isRx = false ∧ s.rdVld = false ∧ s.rx.length = 16

/-! ### Observations -/

/-- MDC rises at the end of this cycle. -/
def rises (e : In × Out) : Bool := e.1.tick && !e.2.mdc
/-- No transaction is running. -/
def quiet (e : In × Out) : Bool := e.2.rd || e.2.rvld
/-- What the master contributes to the line at rising edges of MDC (`true` is the released line). -/
def levels (tr : List (In × Out)) : List Bool := tr.filterMap fun e => if rises e then some (!e.2.t) else none
/-- The line at rising edges of MDC. -/
def seen (tr : List (In × Out)) : List Bool := tr.filterMap fun e => if rises e then some e.1.io else none
/-- The 64 bits of a packet as driven by the master. -/
def expected (q : Req) : List Bool :=
  List.replicate 32 true ++ (if q.op = 2 then (frame q).take 14 ++ List.replicate 18 true else frame q)
def last16 (l : List Bool) : List Bool := l.drop (l.length - 16)

/-! ### Invariant -/

theorem frame_length (q : Req) : (frame q).length = 32 := by simp [frame, bits]

/-- The state as a function of the position in the packet. -/
def stOf (rx : Bool) (timer : Nat) (mdc : Bool) : Fsm :=
  if timer < 32 then .pre else if timer < 46 then .addr
  else if timer = 47 ∧ mdc = true ∧ rx = false then .data
  else if timer < 48 then .ta else .data

structure Busy (q : Req) (s : St) : Prop where
  rx : s.isRx = (q.op == 2)
  lt : s.timer < 64
  top : s.timer = 63 → s.mdc = false
  st : s.st = stOf s.isRx s.timer s.mdc
  tx : s.tx = (frame q).drop (s.timer - 32) ++ List.replicate (s.timer - 32) false
  vld : s.rdVld = (s.isRx && decide (46 ≤ s.timer))
  len : s.rx.length = 16

theorem busy_notIdle {q : Req} {s : St} (h : Busy q s) : s.st ≠ .idle := by
  rw [h.st]; unfold stOf; repeat' split
  all_goals simp

theorem head_drop (l : List Bool) (k n : Nat) (h : k < l.length) :
    (l.drop k ++ List.replicate n false).headD false = l[k] := by
  rw [List.drop_eq_getElem_cons h]; rfl

/-- The level driven in position `timer`. -/
theorem busy_level {q : Req} {s : St} (h : Busy q s) (i : In) :
    (expected q)[s.timer]? = some (!(out s i).t) := by
  have hl := h.lt
  have hf := frame_length q
  by_cases h1 : s.timer < 32
  · have hs : s.st = .pre := by rw [h.st]; simp [stOf, h1]
    have e : (out s i).t = false := by simp [out, hs]
    rw [e, expected, List.getElem?_append_left (by simpa using h1), List.getElem?_replicate, if_pos h1]
    rfl
  · have hd : s.tx.headD false = (frame q)[s.timer - 32]'(by omega) := by
      rw [h.tx]; exact head_drop _ _ _ _
    rw [expected, List.getElem?_append_right (by rw [List.length_replicate]; omega), List.length_replicate]
    by_cases h2 : s.timer < 46
    · have hs : s.st = .addr := by rw [h.st]; simp [stOf, h1, h2]
      have e : (out s i).t = !(frame q)[s.timer - 32]'(by omega) := by
        simp only [out, hs, hd]; simp
      rw [e, Bool.not_not]
      split
      · rw [List.getElem?_append_left (by rw [List.length_take, hf]; omega), List.getElem?_take, if_pos (by omega)]
        exact List.getElem?_eq_getElem _
      · exact List.getElem?_eq_getElem _
    · have hs : s.st = .data ∨ s.st = .ta := by
        rw [h.st]; unfold stOf; simp only [h1, h2, if_false]
        repeat' split
        all_goals simp
      split
      · next hq =>
        have hx : s.isRx = true := by rw [h.rx]; simp [hq]
        have e : (out s i).t = false := by rcases hs with h | h <;> simp [out, h, hx]
        rw [e, List.getElem?_append_right (by rw [List.length_take, hf]; omega), List.getElem?_replicate,
          if_pos (by rw [List.length_take, hf]; omega)]
        rfl
      · next hq =>
        have hx : s.isRx = false := by rw [h.rx]; simp [hq]
        have e : (out s i).t = !(frame q)[s.timer - 32]'(by omega) := by
          rcases hs with h | h <;> simp only [out, h, hx, hd] <;> simp
        rw [e, Bool.not_not]
        exact List.getElem?_eq_getElem _

theorem shift_drop (l : List Bool) (k : Nat) (h : k < l.length) :
    (l.drop k ++ List.replicate k false).tail ++ [false] = l.drop (k + 1) ++ List.replicate (k + 1) false := by
  rw [List.drop_eq_getElem_cons h, List.cons_append, List.tail_cons, List.append_assoc, List.replicate_succ']

/-- A packet ends with the rising edge in position 63. -/
theorem busy_next {q : Req} {s : St} (h : Busy q s) (i : In) :
    (rising s i = true ∧ s.timer = 63 ∧ (next s i).st = .idle ∧ (next s i).rdVld = (q.op == 2)) ∨
    (¬ (rising s i = true ∧ s.timer = 63) ∧ Busy q (next s i) ∧
      (next s i).timer + (next s i).mdc.toNat = s.timer + s.mdc.toNat + (rising s i).toNat) := by
  have hn := busy_notIdle h
  have hf := frame_length q
  obtain ⟨hrx, hlt, htop, hst, htx, hvld, hlen⟩ := h
  have hrl : (next s i).rx.length = 16 := by
    simp only [next]; split <;> simp [hlen]
  have hri : (next s i).isRx = s.isRx := by simp [next, hn]
  cases ht : i.tick
  · have hr : rising s i = false := by simp [rising, ht]
    have hfa : falling s i = false := by simp [falling, ht]
    right
    refine ⟨by simp [hr], ?_, ?_⟩
    · have e1 : (next s i).st = s.st := by
        simp only [next, nextSt, preLast, addrLast, dataLast, hr, hfa]
        cases hs : s.st <;> simp_all
      have e2 : (next s i).timer = s.timer := by simp [next, hn, hfa]
      have e3 : (next s i).mdc = s.mdc := by simp [next, ht]
      have e4 : (next s i).tx = s.tx := by simp [next, hn, hfa]
      have e5 : (next s i).rdVld = s.rdVld := by simp [next, hn, addrLast, hfa]
      exact ⟨by rw [hri, hrx], by rw [e2]; exact hlt, by rw [e2, e3]; exact htop, by rw [e1, e2, e3, hri]; exact hst,
        by rw [e4, e2]; exact htx, by rw [e5, e2, hri]; exact hvld, hrl⟩
    · simp [next, hn, hfa, ht, hr]
  · cases hm : s.mdc
    · have hr : rising s i = true := by simp [rising, ht, hm]
      have hfa : falling s i = false := by simp [falling, hm]
      have e2 : (next s i).timer = s.timer := by simp [next, hn, hfa]
      have e3 : (next s i).mdc = true := by simp [next, ht, hm]
      have e4 : (next s i).tx = s.tx := by simp [next, hn, hfa]
      have e5 : (next s i).rdVld = s.rdVld := by simp [next, hn, addrLast, hfa]
      by_cases h63 : s.timer = 63
      · left
        refine ⟨hr, h63, ?_, ?_⟩
        · have : s.st = .data := by rw [hst, h63]; simp [stOf]
          simp [next, nextSt, this, dataLast, hr, h63]
        · rw [e5, hvld, hrx, h63]; simp
      · right
        refine ⟨by simp [h63], ⟨by rw [hri, hrx], by rw [e2]; exact hlt, by rw [e2]; exact fun hc => absurd hc h63, ?_,
          by rw [e4, e2]; exact htx, by rw [e5, e2, hri]; exact hvld, hrl⟩, by rw [e2, e3, hr]; rfl⟩
        rw [e2, e3, hri]
        have e6 : (next s i).st = nextSt s i := rfl
        rw [e6]
        rw [hm] at hst
        unfold nextSt preLast addrLast dataLast taLastEn
        rw [hr, hfa]
        unfold stOf at hst ⊢
        by_cases h1 : s.timer < 32
        · simp only [h1, if_true] at hst ⊢; simp [hst]
        · by_cases h2 : s.timer < 46
          · simp only [h1, h2, if_true, if_false] at hst ⊢; simp [hst]
          · by_cases h3 : s.timer < 48
            · simp only [h1, h2, h3, if_true, if_false] at hst ⊢
              rw [hst]
              simp only [Bool.false_eq_true, false_and, and_false, if_false]
              cases s.isRx <;> simp
            · simp only [h1, h2, h3, if_false] at hst ⊢
              have : s.timer ≠ 47 := by omega
              rw [hst]; simp [this, h63]
    · have hr : rising s i = false := by simp [rising, hm]
      have hfa : falling s i = true := by simp [falling, ht, hm]
      have h63 : s.timer < 63 := by
        rcases Nat.lt_or_ge s.timer 63 with h | h
        · exact h
        · have := htop (by omega); rw [hm] at this; exact absurd this (by simp)
      have e2 : (next s i).timer = s.timer + 1 := by
        simp only [next, hn, hfa, if_true, if_false]; omega
      have e3 : (next s i).mdc = false := by simp [next, ht, hm]
      right
      refine ⟨by simp [hr], ⟨by rw [hri, hrx], by omega, fun _ => e3, ?_, ?_, ?_, hrl⟩, by rw [e2, e3, hr]; rfl⟩
      · rw [e2, e3, hri]
        have e6 : (next s i).st = nextSt s i := rfl
        rw [e6]
        rw [hm] at hst
        unfold nextSt preLast addrLast dataLast taLastEn
        rw [hr, hfa]
        unfold stOf at hst ⊢
        by_cases h1 : s.timer < 32
        · simp only [h1, if_true] at hst ⊢
          rw [hst]
          by_cases h31 : s.timer = 31
          · simp [h31]
          · have : s.timer + 1 < 32 := by omega
            simp [h31, this]
        · have h1' : ¬ s.timer + 1 < 32 := by omega
          by_cases h2 : s.timer < 46
          · simp only [h1, h1', h2, if_true, if_false] at hst ⊢
            rw [hst]
            by_cases h45 : s.timer = 45
            · simp [h45]
            · have : s.timer + 1 < 46 := by omega
              simp [h45, this]
          · have h2' : ¬ s.timer + 1 < 46 := by omega
            simp only [h1, h1', h2, h2', if_false, Bool.false_eq_true, false_and, and_false] at hst ⊢
            by_cases h3 : s.timer < 48
            · have : s.timer = 46 ∨ s.timer = 47 := by omega
              rcases this with h | h
              · simp [h] at hst; simp [hst, h]
              · cases hx : s.isRx
                · simp [h, hx] at hst; simp [hst, h]
                · simp [h, hx] at hst; simp [hst, h]
            · have h3' : ¬ s.timer + 1 < 48 := by omega
              have : s.timer ≠ 47 := by omega
              simp only [h3, h3', this, if_false, false_and] at hst ⊢
              simp [hst]
      · rw [e2]
        by_cases h1 : s.timer < 32
        · have hs : s.st = .pre := by rw [hst]; simp [stOf, h1]
          have z : s.timer + 1 - 32 = 0 := by omega
          have z' : s.timer - 32 = 0 := by omega
          rw [z]; rw [z'] at htx
          simp [next, hs, htx]
        · have hs : s.st = .addr ∨ s.st = .data ∨ s.st = .ta := by
            rw [hst]; unfold stOf; simp only [h1, if_false]
            repeat' split
            all_goals simp
          have z : s.timer + 1 - 32 = s.timer - 32 + 1 := by omega
          rw [z, ← shift_drop _ _ (by omega), ← htx]
          rcases hs with h | h | h <;> simp [next, h, hfa]
      · rw [e2, hri]
        simp only [next, hn, addrLast, hfa, decide_false, Bool.false_and, Bool.true_and, Bool.false_eq_true, if_false]
        by_cases h45 : s.timer = 45
        · simp [h45]
        · rw [hvld]
          have : (46 ≤ s.timer) ↔ (46 ≤ s.timer + 1) := by omega
          simp [h45, this]

theorem busy_rx {q : Req} {s : St} (h : Busy q s) (i : In) :
    (next s i).rx = if s.isRx && decide (48 ≤ s.timer) && rising s i then s.rx.tail ++ [i.io] else s.rx := by
  have : (s.isRx && decide (s.st = .data)) = (s.isRx && decide (48 ≤ s.timer)) := by
    cases hx : s.isRx
    · rfl
    · rw [h.st, hx]; unfold stOf
      by_cases h1 : s.timer < 32
      · have : ¬ 48 ≤ s.timer := by omega
        simp [h1, this]
      · by_cases h2 : s.timer < 46
        · have : ¬ 48 ≤ s.timer := by omega
          simp [h1, h2, this]
        · by_cases h3 : s.timer < 48
          · have : ¬ 48 ≤ s.timer := by omega
            simp [h1, h2, h3, this]
          · have : 48 ≤ s.timer := by omega
            simp [h1, h2, h3, this]
  rw [← this]
  simp only [next]
  rw [Bool.and_comm (decide _) s.isRx]

/-- The state after a request is accepted. -/
theorem busy_start {s : St} (i : In) (hs : s.st = .idle) (hv : i.vld = true) (hr : s.rdVld = false) (h16 : s.rx.length = 16)
    (ht : s.timer ≠ 45) : Busy i.req (next s i) ∧ (next s i).timer = 0 := by
  have ht' : (s.timer == 45) = false := by simpa using ht
  refine ⟨⟨by simp [next, hs], by simp [next, hs], by simp [next, hs], ?_, by simp [next, hs, hv], ?_, by simp [next, hs, h16]⟩,
    by simp [next, hs]⟩
  · simp [next, nextSt, hs, hv, hr, stOf]
  · simp [next, hs, hr, addrLast, ht']

theorem quiet_iff (s : St) (i : In) : quiet (i, out s i) = decide (s.st = .idle) := by
  unfold quiet out; cases s.rdVld <;> simp

def pos (s : St) : Nat := s.timer + s.mdc.toNat

theorem expected_length (q : Req) : (expected q).length = 64 := by
  have := frame_length q
  unfold expected; split <;> simp [this]

theorem levels_cons (s : St) (i : In) (is : List In) : levels (machine.trace s (i :: is)) =
    given (rising s i) (!(out s i).t) ++ levels (machine.trace (next s i) is) := by
  have e : machine.trace s (i :: is) = (i, out s i) :: machine.trace (next s i) is := rfl
  rw [e]; exact filterMap_cons_ite _ _ _ _

theorem seen_cons (s : St) (i : In) (is : List In) : seen (machine.trace s (i :: is)) =
    given (rising s i) i.io ++ seen (machine.trace (next s i) is) := by
  have e : machine.trace s (i :: is) = (i, out s i) :: machine.trace (next s i) is := rfl
  rw [e]; exact filterMap_cons_ite _ _ _ _

theorem seen_length (tr : List (In × Out)) : (seen tr).length = (levels tr).length := by
  induction tr with
  | nil => rfl
  | cons e tr ih =>
    unfold seen levels at ih ⊢
    rw [filterMap_cons_ite, filterMap_cons_ite, List.length_append, List.length_append, ih]
    cases rises e <;> rfl

theorem last16_shift (r : List Bool) (b : Bool) (l : List Bool) (hr : r.length = 16) :
    last16 (r ++ b :: l) = last16 (r.tail ++ [b] ++ l) := by
  match r, hr with
  | x :: r, hr =>
    have : r.length = 15 := by simpa using hr
    unfold last16
    have e : ((x :: r) ++ b :: l).length - 16 = l.length + 1 := by simp [this]
    have e' : ((x :: r).tail ++ [b] ++ l).length - 16 = l.length := by simp [this]; omega
    rw [e, e']
    simp

theorem last16_skip (r : List Bool) (b : Bool) (l : List Bool) (hl : 16 ≤ l.length) :
    last16 (r ++ b :: l) = last16 (r ++ l) := by
  unfold last16
  rw [List.drop_append, List.drop_append]
  have e1 : r.drop ((r ++ b :: l).length - 16) = [] := by
    apply List.drop_eq_nil_of_le; simp; omega
  have e2 : r.drop ((r ++ l).length - 16) = [] := by
    apply List.drop_eq_nil_of_le; simp; omega
  rw [e1, e2]
  simp only [List.length_append, List.length_cons, List.nil_append]
  have : r.length + (l.length + 1) - 16 - r.length = (r.length + l.length - 16 - r.length) + 1 := by omega
  rw [this, List.drop_succ_cons]

/-- A run inside one packet. -/
theorem busy_run {q : Req} : ∀ (is : List In) (s : St), Busy q s → (∀ e ∈ machine.trace s is, quiet e = false) →
    (Busy q (machine.final s is) ∧ pos (machine.final s is) = pos s + (levels (machine.trace s is)).length ∧
      levels (machine.trace s is) ++ (expected q).drop (pos (machine.final s is)) = (expected q).drop (pos s)) ∨
    ((machine.final s is).st = .idle ∧ (machine.final s is).rdVld = (q.op == 2) ∧
      levels (machine.trace s is) = (expected q).drop (pos s) ∧
      (q.op = 2 → (machine.final s is).rx = last16 (s.rx ++ seen (machine.trace s is)))) := by
  intro is
  induction is with
  | nil => intro s h _; exact Or.inl ⟨h, rfl, rfl⟩
  | cons i is ih =>
    intro s h hq
    have hq' : ∀ e ∈ machine.trace (next s i) is, quiet e = false := fun e he =>
      hq e (List.mem_cons_of_mem _ he)
    have hpos : pos s < 64 ∧ (rising s i = true → pos s = s.timer) := by
      have h1 := h.lt
      have h2 := h.top
      unfold pos rising
      cases hm : s.mdc
      · simp; omega
      · rw [hm] at h2
        have : s.timer ≠ 63 := fun hc => by simpa using h2 hc
        simp; omega
    have hlev : rising s i = true → (expected q).drop (pos s) = (!(out s i).t) :: (expected q).drop (pos s + 1) := by
      intro hr
      have hl := busy_level h i
      rw [← hpos.2 hr] at hl
      have := expected_length q
      rw [List.drop_eq_getElem_cons (by omega)]
      rw [List.getElem?_eq_getElem (by omega)] at hl
      rw [Option.some.inj hl]
    rw [levels_cons, seen_cons]
    rw [Machine.final_cons, show machine.next s i = next s i from rfl]
    rcases busy_next h i with ⟨hr, h63, hid, hvd⟩ | ⟨hne, hb, hp⟩
    · match is, hq' with
      | [], _ =>
        right
        refine ⟨hid, hvd, ?_, ?_⟩
        · rw [hr, hlev hr, hpos.2 hr, h63]
          have : (expected q).drop (63 + 1) = [] := by
            apply List.drop_eq_nil_of_le; rw [expected_length]; omega
          rw [this]; rfl
        · intro ho
          have hx : s.isRx = true := by rw [h.rx]; simp [ho]
          rw [hr]
          show (next s i).rx = last16 (s.rx ++ (given true i.io ++ []))
          rw [busy_rx h, hx, hr, h63]
          have := last16_shift s.rx i.io [] h.len
          show _ = last16 (s.rx ++ [i.io])
          rw [this]
          have h16 := h.len
          simp [last16, h16]
      | j :: js, hq' =>
        have := hq' _ List.mem_cons_self
        rw [show (j, machine.out (next s i) j) = (j, out (next s i) j) from rfl, quiet_iff, hid] at this
        simp at this
    · have hp' : pos (next s i) = pos s + (rising s i).toNat := hp
      have hdrop : given (rising s i) (!(out s i).t) ++ (expected q).drop (pos (next s i)) = (expected q).drop (pos s) := by
        rw [hp']
        cases hr : rising s i
        · rfl
        · rw [hlev hr]; rfl
      rcases ih _ hb hq' with ⟨a, b, c⟩ | ⟨a, b, c, d⟩
      · refine Or.inl ⟨a, ?_, ?_⟩
        · rw [b, hp']; cases rising s i <;> simp [given] <;> omega
        · rw [List.append_assoc, c, hdrop]
      · refine Or.inr ⟨a, b, by rw [c, hdrop], fun ho => ?_⟩
        rw [d ho, busy_rx h]
        have hx : s.isRx = true := by rw [h.rx]; simp [ho]
        cases hr : rising s i
        · simp [given]
        · by_cases h48 : 48 ≤ s.timer
          · simp [hx, h48, given, last16_shift _ _ _ h.len]
          · have : 16 ≤ (seen (machine.trace (next s i) is)).length := by
              rw [seen_length, c, List.length_drop, expected_length, hp', hr, hpos.2 hr]
              simp; omega
            simp [h48, given, last16_skip _ _ _ this]

/-- Between packets the packet timer is in one of two positions. -/
def Good (s : St) : Prop := (s.st = .idle ∧ (s.timer = 0 ∨ s.timer = 63) ∧ s.rx.length = 16) ∨ ∃ q, Busy q s

theorem good_init {s : St} (h : IsInit s) : Good s := Or.inl ⟨h.2.1, Or.inl h.2.2.1, h.2.2.2.2.2⟩

theorem good_next {s : St} (h : Good s) (i : In) : Good (next s i) := by
  rcases h with ⟨hs, ht, h16⟩ | ⟨q, h⟩
  · by_cases hacc : i.vld = true ∧ s.rdVld = false
    · exact Or.inr ⟨_, (busy_start i hs hacc.1 hacc.2 h16 (by omega)).1⟩
    · left
      refine ⟨?_, by simp [next, hs], by simp [next, hs, h16]⟩
      simp only [next, nextSt, hs]
      split
      · next hc => exact absurd (by simpa using hc) hacc
      · rfl
  · rcases busy_next h i with ⟨hr, h63, hid, _⟩ | ⟨_, hb, _⟩
    · left
      refine ⟨hid, Or.inr ?_, ?_⟩
      · have : falling s i = false := by
          unfold rising at hr; unfold falling; cases hm : s.mdc <;> simp_all
        simp [next, busy_notIdle h, this, h63]
      · have := h.len
        simp only [next]; split <;> simp [this]
    · exact Or.inr ⟨q, hb⟩

theorem good_final {s : St} (h : Good s) (is : List In) : Good (machine.final s is) :=
  Machine.inv_final machine Good (fun _ => True) (fun s i h _ => good_next (s := s) h i) is s h (fun _ _ => trivial)

end Verif.Mdio
