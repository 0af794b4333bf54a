import Verif.Mdio
/-!
# Properties C105 - C109 of `MdioMaster`
-/
namespace Verif.Mdio

private theorem accepted_busy {s0 : St} (h0 : IsInit s0) (h : List In) (i : In) (hv : i.vld = true)
    (hr : (machine.outAfter s0 h i).rd = true) :
    Busy i.req (machine.final s0 (h ++ [i])) ∧ (machine.final s0 (h ++ [i])).timer = 0 := by
  have e : machine.final s0 (h ++ [i]) = next (machine.final s0 h) i := by rw [Machine.final_append]; rfl
  have hg := good_final (good_init h0) h
  rw [e]
  have hr' : (decide ((machine.final s0 h).st = .idle) && !(machine.final s0 h).rdVld) = true := hr
  simp only [Bool.and_eq_true, decide_eq_true_eq, Bool.not_eq_true'] at hr'
  rcases hg with ⟨hs, ht, h16⟩ | ⟨q, hb⟩
  · exact busy_start i hs hv hr'.2 h16 (by omega)
  · exact absurd hr'.1 (busy_notIdle hb)

/-- **C105** Rising edges of MDC of an accepted request see the packet: while it runs a prefix of it, and when the
master becomes quiet again all of it. The packet is 32 ones, start, opcode, both addresses and then turnaround and
data of a write, or the released line of a read. One bit of the preamble is missing if MDC is high at the start. -/
theorem mdio_packet (s0 : St) (h0 : IsInit s0) (h : List In) (i : In) (hv : i.vld = true)
    (hr : (machine.outAfter s0 h i).rd = true) (is : List In)
    (hb : ∀ e ∈ machine.trace (machine.final s0 (h ++ [i])) is, quiet e = false) (j : In) :
    levels (machine.trace (machine.final s0 (h ++ [i])) is) <+:
      (expected i.req).drop (machine.final s0 (h ++ [i])).mdc.toNat ∧
    (quiet (j, machine.outAfter s0 (h ++ [i] ++ is) j) = true →
      levels (machine.trace (machine.final s0 (h ++ [i])) is) =
        (expected i.req).drop (machine.final s0 (h ++ [i])).mdc.toNat) := by
  obtain ⟨hB, ht⟩ := accepted_busy h0 h i hv hr
  have hp : pos (machine.final s0 (h ++ [i])) = (machine.final s0 (h ++ [i])).mdc.toNat := by
    unfold pos; omega
  have hq : quiet (j, machine.outAfter s0 (h ++ [i] ++ is) j) =
      decide ((machine.final (machine.final s0 (h ++ [i])) is).st = .idle) := by
    rw [← Machine.final_append, ← quiet_iff _ j]; rfl
  rw [hq]
  rcases busy_run is _ hB hb with ⟨a, _, c⟩ | ⟨_, _, c, _⟩
  · rw [hp] at c
    refine ⟨⟨_, c⟩, fun hc => absurd (by simpa using hc) (busy_notIdle a)⟩
  · rw [hp] at c
    exact ⟨c ▸ List.prefix_refl _, fun _ => c⟩

/-- **C106** The word returned by a read consists of the levels of the line at the last 16 rising edges of MDC, and
it is offered as soon as the transaction is over. A write offers nothing. -/
theorem mdio_read (s0 : St) (h0 : IsInit s0) (h : List In) (i : In) (hv : i.vld = true)
    (hr : (machine.outAfter s0 h i).rd = true) (is : List In)
    (hb : ∀ e ∈ machine.trace (machine.final s0 (h ++ [i])) is, quiet e = false) (j : In)
    (hq : quiet (j, machine.outAfter s0 (h ++ [i] ++ is) j) = true) :
    (machine.outAfter s0 (h ++ [i] ++ is) j).rvld = decide (i.req.op = 2) ∧
    (i.req.op = 2 → (machine.outAfter s0 (h ++ [i] ++ is) j).rdata =
      last16 (seen (machine.trace (machine.final s0 (h ++ [i])) is))) := by
  obtain ⟨hB, ht⟩ := accepted_busy h0 h i hv hr
  have e : machine.outAfter s0 (h ++ [i] ++ is) j = out (machine.final (machine.final s0 (h ++ [i])) is) j := by
    rw [← Machine.final_append]; rfl
  rw [e] at hq ⊢
  rw [quiet_iff] at hq
  rcases busy_run is _ hB hb with ⟨a, _, _⟩ | ⟨a, b, c, d⟩
  · exact absurd (by simpa using hq) (busy_notIdle a)
  · constructor
    · simp only [out, a, b]
      by_cases hc : i.req.op = 2 <;> simp [hc]
    · intro ho
      show (machine.final (machine.final s0 (h ++ [i])) is).rx = _
      rw [d ho]
      have hl : 16 ≤ (seen (machine.trace (machine.final s0 (h ++ [i])) is)).length := by
        rw [seen_length, c, List.length_drop, expected_length]
        have : pos (machine.final s0 (h ++ [i])) ≤ 1 := by
          unfold pos; have := Bool.toNat_le (machine.final s0 (h ++ [i])).mdc; omega
        omega
      unfold last16
      rw [List.drop_append]
      have e1 : ∀ (r l : List Bool), 16 ≤ l.length → r.drop ((r ++ l).length - 16) = [] := by
        intro r l h; apply List.drop_eq_nil_of_le; simp; omega
      rw [e1 _ _ hl, List.nil_append, List.length_append]
      congr 1
      omega

/-! ### Requests and results -/

def reads (tr : List (In × Out)) : Nat := tr.countP fun e => e.1.vld && e.2.rd && e.1.req.op == 2
def results (tr : List (In × Out)) : Nat := tr.countP fun e => e.2.rvld && e.1.rrd

private def owed (s : St) : Nat := if s.st = .idle then s.rdVld.toNat else s.isRx.toNat

private theorem owed_step {s : St} (h : Good s) (i : In) :
    owed s + (i.vld && (out s i).rd && i.req.op == 2).toNat = ((out s i).rvld && i.rrd).toNat + owed (next s i) := by
  rcases h with ⟨hs, ht, h16⟩ | ⟨q, h⟩
  · have ha : addrLast s i = false := by
      unfold addrLast
      have : (s.timer == 45) = false := by simp; omega
      simp [this]
    simp only [owed, out, hs, next, nextSt, ha]
    cases hv : i.vld <;> cases hr : s.rdVld <;> cases hrr : i.rrd <;> cases hop : (i.req.op == 2) <;> simp
  · have hn := busy_notIdle h
    have e1 : owed s = s.isRx.toNat := by simp [owed, hn]
    have e2 : (out s i).rd = false := by simp [out, hn]
    have e3 : (out s i).rvld = false := by simp [out, hn]
    rw [e1, e2, e3]
    rcases busy_next h i with ⟨_, _, hid, hvd⟩ | ⟨_, hb, _⟩
    · simp [owed, hid, hvd, h.rx]
    · simp [owed, busy_notIdle hb, hb.rx, h.rx]

private theorem owed_run : ∀ (is : List In) (s : St), Good s →
    owed s + reads (machine.trace s is) = results (machine.trace s is) + owed (machine.final s is) := by
  intro is
  induction is with
  | nil => intro s _; simp [reads, results]
  | cons i is ih =>
    intro s h
    have h1 := owed_step h i
    have h2 := ih _ (good_next h i)
    have e : machine.trace s (i :: is) = (i, out s i) :: machine.trace (next s i) is := rfl
    rw [e, Machine.final_cons, show machine.next s i = next s i from rfl]
    unfold reads results at h2 ⊢
    rw [List.countP_cons, List.countP_cons]
    have c : ∀ b : Bool, (if b = true then 1 else 0) = b.toNat := by intro b; cases b <;> rfl
    rw [c, c]
    dsimp only at *
    omega

/-- **C107** Each accepted read gives exactly one result and nothing else does: there is never more than one
result outstanding, and none when the master accepts a next request. -/
theorem mdio_one_result (s0 : St) (h0 : IsInit s0) (is : List In) :
    results (machine.trace s0 is) ≤ reads (machine.trace s0 is) ∧
    reads (machine.trace s0 is) ≤ results (machine.trace s0 is) + 1 ∧
    ∀ j, (machine.outAfter s0 is j).rd = true → reads (machine.trace s0 is) = results (machine.trace s0 is) := by
  have h := owed_run is s0 (good_init h0)
  have z : owed s0 = 0 := by simp [owed, h0.2.1, h0.2.2.2.2.1]
  have hl : owed (machine.final s0 is) ≤ 1 := by
    unfold owed; split <;> exact Bool.toNat_le _
  refine ⟨by omega, by omega, fun j hj => ?_⟩
  have hj' : (decide ((machine.final s0 is).st = .idle) && !(machine.final s0 is).rdVld) = true := hj
  simp only [Bool.and_eq_true, decide_eq_true_eq, Bool.not_eq_true'] at hj'
  have : owed (machine.final s0 is) = 0 := by simp [owed, hj'.1, hj'.2]
  omega

/-! ### Preamble -/

def q0 : Req := ⟨1, 3, 5, 0⟩
def s0 : St := ⟨false, .idle, 0, false, false, [], List.replicate 16 false⟩
/-- A cycle with a tick, with or without a request. -/
def step (v : Bool) : In := ⟨true, v, q0, true, true⟩

set_option maxRecDepth 16384

example : IsInit s0 := by unfold IsInit; decide
/-- a write from reset: MDC is high after the cycle of acceptance -/
example : levels (machine.trace (machine.final s0 [step true]) (List.replicate 126 (step false))) =
    List.replicate 31 true ++ [false, true] ++ [false, true] ++ [false, false, false, true, true] ++
      [false, false, true, false, true] ++ [true, false] ++ List.replicate 16 false := by
  decide
example : (expected q0).drop 1 = levels (machine.trace (machine.final s0 [step true]) (List.replicate 126 (step false))) ∧
    (machine.final s0 [step true]).mdc = true := by decide
/-- a read with all ones on the line -/
example : (machine.outAfter s0 ([⟨true, true, ⟨2, 3, 5, 0⟩, true, false⟩] ++ List.replicate 126 (step false)) (step false)).rvld = true ∧
    (machine.outAfter s0 ([⟨true, true, ⟨2, 3, 5, 0⟩, true, false⟩] ++ List.replicate 126 (step false)) (step false)).rdata =
      List.replicate 16 true := by decide

/-- Full statement of **C108**: the start of each packet, the first 0 driven after the request is accepted, is
preceded by (at least) 32 ones. -/
def Preamble : Prop := ∀ (s0 : St), IsInit s0 → ∀ (h : List In) (i : In), i.vld = true →
  (machine.outAfter s0 h i).rd = true → ∀ (is : List In) (n : Nat),
  (∀ e ∈ machine.trace (machine.final s0 (h ++ [i])) is, quiet e = false) →
  levels (machine.trace (machine.final s0 (h ++ [i])) is) = List.replicate n true ++ [false] →
  ∃ l, levels (machine.trace s0 (h ++ [i] ++ is)) = l ++ List.replicate 32 true ++ [false]

/-- **C108** is false: a request which waits at the end of a write is sent with 31 bits of preamble. -/
theorem mdio_preamble_short : ¬ Preamble := by
  intro hp
  obtain ⟨l, hl⟩ := hp s0 (by unfold IsInit; decide) (List.replicate 127 (step true)) { step true with tick := false } rfl (by decide)
    (List.replicate 64 (step true)) 31 (by decide) (by decide)
  have h1 := congrArg (fun l => (l.reverse.drop 1).take 32) hl
  have h2 : ((levels (machine.trace s0 (List.replicate 127 (step true) ++ [{ step true with tick := false }] ++ List.replicate 64 (step true)))).reverse.drop 1).take 32
      = List.replicate 31 true ++ [false] := by decide
  simp only [h2] at h1
  rw [List.append_assoc, List.reverse_append, List.reverse_append] at h1
  simp at h1

private theorem ones_unique : ∀ (n m : Nat) (x y : List Bool),
    List.replicate n true ++ false :: x = List.replicate m true ++ false :: y → n = m
  | 0, 0, _, _, _ => rfl
  | 0, m + 1, _, _, h => by simp [List.replicate_succ] at h
  | n + 1, 0, _, _, h => by simp [List.replicate_succ] at h
  | n + 1, m + 1, x, y, h => by
    rw [List.replicate_succ, List.replicate_succ, List.cons_append, List.cons_append] at h
    rw [ones_unique n m x y (List.cons.inj h).2]

/-- **C108** What holds: 32 ones of the preamble are sent if MDC is low when the packet starts, otherwise 31. -/
theorem mdio_preamble_partial (s0 : St) (h0 : IsInit s0) (h : List In) (i : In) (hv : i.vld = true)
    (hr : (machine.outAfter s0 h i).rd = true) (is : List In) (n : Nat)
    (hb : ∀ e ∈ machine.trace (machine.final s0 (h ++ [i])) is, quiet e = false)
    (hn : levels (machine.trace (machine.final s0 (h ++ [i])) is) = List.replicate n true ++ [false]) (j : In) :
    n = if (machine.outAfter s0 (h ++ [i]) j).mdc then 31 else 32 := by
  obtain ⟨t, ht⟩ := (mdio_packet s0 h0 h i hv hr is hb i).1
  rw [hn] at ht
  have e : ∃ y, (expected i.req).drop (machine.final s0 (h ++ [i])).mdc.toNat =
      List.replicate (if (machine.outAfter s0 (h ++ [i]) j).mdc then 31 else 32) true ++ false :: y := by
    have hm : (machine.outAfter s0 (h ++ [i]) j).mdc = (machine.final s0 (h ++ [i])).mdc := rfl
    have hx : ∃ y, (if i.req.op = 2 then (frame i.req).take 14 ++ List.replicate 18 true else frame i.req) = false :: y := by
      split
      · exact ⟨_, rfl⟩
      · exact ⟨_, rfl⟩
    obtain ⟨y, hy⟩ := hx
    rw [hm, expected, hy]
    cases (machine.final s0 (h ++ [i])).mdc
    · exact ⟨y, rfl⟩
    · exact ⟨y, rfl⟩
  obtain ⟨y, hy⟩ := e
  rw [hy, List.append_assoc] at ht
  exact ones_unique _ _ _ _ ht

/-! ### Hold time -/

/-- Full statement of **C109**: the master does not change the line together with a rising edge of MDC. -/
def Hold : Prop := ∀ (s0 : St), IsInit s0 → ∀ (h : List In) (i j : In), rises (i, machine.outAfter s0 h i) = true →
  (machine.outAfter s0 (h ++ [i]) j).t = (machine.outAfter s0 h i).t

/-- **C109** is false: the last bit of a write (here 0) is released by the same clock edge which raises MDC. -/
theorem mdio_no_hold : ¬ Hold := by
  intro hp
  have := hp s0 (by unfold IsInit; decide) ([step true] ++ List.replicate 125 (step false)) (step false) (step false) (by decide)
  revert this
  decide

/-- **C109** What holds: all bits but the last one of a packet are stable over the rising edge of MDC. -/
theorem mdio_hold_partial (s0 : St) (h0 : IsInit s0) (h : List In) (i j : In)
    (hr : rises (i, machine.outAfter s0 h i) = true)
    (hq : quiet (j, machine.outAfter s0 (h ++ [i]) j) = false) :
    (machine.outAfter s0 (h ++ [i]) j).t = (machine.outAfter s0 h i).t := by
  have e : machine.final s0 (h ++ [i]) = next (machine.final s0 h) i := by rw [Machine.final_append]; rfl
  have hg := good_final (good_init h0) h
  have e' : machine.outAfter s0 (h ++ [i]) j = out (next (machine.final s0 h) i) j := by
    unfold Machine.outAfter; rw [e]; rfl
  rw [e'] at hq ⊢
  rw [quiet_iff] at hq
  show (out (next (machine.final s0 h) i) j).t = (out (machine.final s0 h) i).t
  have hr' : rising (machine.final s0 h) i = true := hr
  generalize machine.final s0 h = s at hg hq hr' ⊢
  rcases hg with ⟨hs, ht, h16⟩ | ⟨q, hb⟩
  · have hst : (next s i).st = .pre ∨ (next s i).st = .idle := by
      simp only [next, nextSt, hs]; split <;> simp
    rcases hst with h | h <;> simp [out, hs, h]
  · rcases busy_next hb i with ⟨_, _, hid, _⟩ | ⟨_, hb', _⟩
    · simp [hid] at hq
    · have hf : falling s i = false := by
        unfold rising at hr'; unfold falling; cases hm : s.mdc <;> simp_all
      have ht : (next s i).timer = s.timer := by simp [next, busy_notIdle hb, hf]
      have h1 := busy_level hb i
      have h2 := busy_level hb' j
      rw [ht, h1] at h2
      simpa using (Option.some.inj h2).symm

example : rises (step false, machine.outAfter s0 ([step true] ++ List.replicate 63 (step false)) (step false)) = true ∧
    quiet (step false, machine.outAfter s0 ([step true] ++ List.replicate 63 (step false) ++ [step false]) (step false)) = false ∧
    (machine.outAfter s0 ([step true] ++ List.replicate 63 (step false)) (step false)).t = true := by decide

/-! ### Fields of the packet, read back from the bits -/

/-- Number with the bits `l`, MSB first. -/
def num (l : List Bool) : Nat := l.foldl (fun a b => 2 * a + b.toNat) 0

theorem num_append (l : List Bool) (b : Bool) : num (l ++ [b]) = 2 * num l + b.toNat := by simp [num]

theorem bits_succ (w n : Nat) : bits (w + 1) n = bits w (n / 2) ++ [n.testBit 0] := by
  unfold bits
  rw [List.range_succ, List.map_append]
  congr 1
  · apply List.map_congr_left
    intro k hk
    have := List.mem_range.1 hk
    rw [show w + 1 - 1 - k = (w - 1 - k) + 1 by omega, Nat.testBit_succ]
  · simp

theorem num_bits : ∀ (w n : Nat), n < 2 ^ w → num (bits w n) = n
  | 0, n, h => by have : n = 0 := by simpa using h
                  subst this; rfl
  | w + 1, n, h => by
    rw [bits_succ, num_append, num_bits w (n / 2) (by rw [Nat.pow_succ] at h; omega), Nat.testBit_zero]
    rcases Nat.mod_two_eq_zero_or_one n with h | h <;> simp [h] <;> omega

/-- The field of `w` bits after the first `a` bits. -/
def field (l : List Bool) (a w : Nat) : Nat := num ((l.drop a).take w)

/-- **C105** The layout of the 32 bits after the preamble: start 01, operation, 5 bit PHY address, 5 bit register address,
turn around 10, 16 bit data. -/
theorem mdio_frame (q : Req) (h1 : q.op < 4) (h2 : q.phy < 32) (h3 : q.reg < 32) (h4 : q.wdata < 65536) :
    (frame q).length = 32 ∧ field (frame q) 0 2 = 1 ∧ field (frame q) 2 2 = q.op ∧ field (frame q) 4 5 = q.phy ∧
    field (frame q) 9 5 = q.reg ∧ field (frame q) 14 2 = 2 ∧ field (frame q) 16 16 = q.wdata := by
  have e1 := num_bits 2 q.op h1
  have e2 := num_bits 5 q.phy h2
  have e3 := num_bits 5 q.reg h3
  have e4 := num_bits 16 q.wdata h4
  exact ⟨rfl, rfl, e1, e2, e3, rfl, e4⟩

example : frame ⟨1, 3, 5, 0x8001⟩ = [false, true, false, true] ++ [false, false, false, true, true] ++
    [false, false, true, false, true] ++ [true, false] ++ [true] ++ List.replicate 14 false ++ [true] := by decide

end Verif.Mdio
