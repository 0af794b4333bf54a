import Verif.ArrayBuffWriter
import Verif.AddrDecode
/-! Properties C149-C152 of `ArrayBuff_writer`. -/
namespace Verif.ArrayBuffWriter

/-- Parameters for which the component works: the sizes fit into the types used for them, at least 16 bit words, the timeout is at
least two cycles. -/
structure Cfg.Good (c : Cfg) : Prop extends c.Ok where
  len : c.BUFF_DEPTH ≤ 2 ^ c.lenWidth
  rem : c.BUFF_DEPTH < 2 ^ c.remWidth
  timeout2 : 2 ≤ c.TIMEOUT
  data2 : 16 ≤ c.DATA_WIDTH

theorem requests_append (a b : List (In × Out)) : requests (a ++ b) = requests a ++ requests b := by simp [requests]
theorem written_append (a b : List (In × Out)) : written (a ++ b) = written a ++ written b := by simp [written]
theorem accepted_append (a b : List (In × Out)) : accepted (a ++ b) = accepted a ++ accepted b := by simp [accepted]
theorem acks_append (c : Cfg) (a b : List (In × Out)) : acks c (a ++ b) = acks c a ++ acks c b := by simp [acks]
theorem total_append (a b : List Req) : total (a ++ b) = total a + total b := by simp [total]

theorem align_eq {c : Cfg} (hc : c.Good) : c.DATA_WIDTH / 8 = 2 ^ c.ALIGN_BITS := by
  obtain ⟨k, hk⟩ := hc.data
  have h8 : c.DATA_WIDTH / 8 = 2 ^ k := by rw [hk]; exact Nat.mul_div_cancel_left _ (by omega)
  have : 1 ≤ k := by
    have := hc.data2
    rcases k with _ | k
    · omega
    · omega
  rw [Cfg.ALIGN_BITS, h8, AddrDecode.log2ceil_pred this]

/-- what the next request asks for, by the array -/
theorem req_eq {c : Cfg} (hc : c.Good) {s : St} (h1 : 1 ≤ s.remaining) (h2 : s.remaining ≤ c.ITEMS) (h3 : 1 ≤ s.f.length)
    (h4 : s.f.length ≤ c.BUFF_DEPTH) :
    (endOfLenBlock c s = true ↔ s.remaining ≤ s.f.length) ∧ reqLen c s + 1 = min s.remaining s.f.length ∧
    sizeTmp c s = min s.remaining s.f.length := by
  have hR : c.ITEMS + 1 ≤ 2 ^ c.remWidth := le_two_pow_log2ceil _
  have hS : c.BUFF_DEPTH + 2 ≤ 2 ^ c.sizeWidth := le_two_pow_log2ceil _
  have hr := hc.rem
  have hl := hc.len
  have e1 : (s.remaining + 2 ^ c.remWidth - 1) % 2 ^ c.remWidth = s.remaining - 1 := by
    rw [show s.remaining + 2 ^ c.remWidth - 1 = (s.remaining - 1) + 2 ^ c.remWidth by omega, Nat.add_mod_right, Nat.mod_eq_of_lt (by omega)]
  have e2 : s.f.length % 2 ^ c.remWidth = s.f.length := Nat.mod_eq_of_lt (by omega)
  have e3 : (s.f.length + 2 ^ c.sizeWidth - 1) % 2 ^ c.sizeWidth = s.f.length - 1 := by
    rw [show s.f.length + 2 ^ c.sizeWidth - 1 = (s.f.length - 1) + 2 ^ c.sizeWidth by omega, Nat.add_mod_right, Nat.mod_eq_of_lt (by omega)]
  have he : endOfLenBlock c s = true ↔ s.remaining ≤ s.f.length := by
    simp only [endOfLenBlock, e1, e2, decide_eq_true_eq]; omega
  refine ⟨he, ?_, ?_⟩
  · simp only [reqLen, he, e1, e3]
    split
    · rw [Nat.mod_eq_of_lt (a := s.remaining - 1) (by omega)]; omega
    · rw [Nat.mod_eq_of_lt (a := s.f.length - 1) (by omega)]; omega
  · simp only [sizeTmp, he]
    split
    · rw [Nat.mod_eq_of_lt (a := s.remaining) (by omega)]; omega
    · omega

/-- the words to be sent yet -/
def pendingWords (s : St) : List Bool := if s.st = .tx then List.replicate (s.lastCntr - 1) false ++ [true] else []

structure Inv (c : Cfg) (b0 : Nat) (tr : List (In × Out)) (s : St) : Prop where
  base : s.base = b0
  rem1 : 1 ≤ s.remaining
  off : s.offset + s.remaining = c.ITEMS
  pos : total (requests tr) % c.ITEMS = s.offset
  plc : places c tr = (List.range (total (requests tr))).map fun k =>
    (b0 * 2 ^ c.ALIGN_BITS + k % c.ITEMS * (c.DATA_WIDTH / 8)) % 2 ^ c.ADDR_WIDTH
  len : s.f.length ≤ c.BUFF_DEPTH
  tmo : s.tmo = 0 → s.st = .input → s.f ≠ []
  tmo' : s.st ≠ .input → s.tmo ≠ 0
  tx : s.st = .tx → 1 ≤ s.lastCntr ∧ s.lastCntr ≤ s.f.length
  ntx : s.st ≠ .tx → s.lastCntr = 0
  words : (written tr).map Prod.snd ++ pendingWords s = (requests tr).flatMap lasts
  order : (written tr).map Prod.fst ++ s.f = accepted tr
  ptr : ∃ ac rest, requests tr = ac ++ rest ∧ ac.length = (acks c tr).length ∧ s.uploaded = total ac % 2 ^ 16 ∧
    if s.st = .input then rest = [] else ∃ q, rest = [q] ∧ q.len + 1 = s.sizeOf

theorem inv_holds {c : Cfg} (hc : c.Good) {s0 : St} (h0 : IsInit c s0) (is : List In) (hr : Running is) :
    Inv c s0.base ((machine c).trace s0 is) ((machine c).final s0 is) := by
  induction is using List.reverseRecOn with
  | nil =>
    have := hc.items
    have := hc.timeout2
    rw [Machine.trace_nil, Machine.final_nil]
    refine ⟨rfl, by rw [h0.remaining]; omega, by rw [h0.remaining, h0.offset]; omega, by simp [requests, total, h0.offset], by
      simp [places, requests, total], by simp [h0.f], by rw [h0.tmo]; omega, by simp [h0.st], by simp [h0.st], by simp [h0.lastCntr], by
      simp [written, requests, pendingWords, h0.st], by simp [written, accepted, h0.f], [], [], by simp [requests, acks, h0.uploaded, total, h0.st]⟩
  | append_singleton is x ih =>
    have hx := hr x (by simp)
    have ih := ih fun y hy => hr y (by simp [hy])
    rw [Machine.trace_snoc, Machine.final_append]
    have eo : (machine c).outAfter s0 is x = out c ((machine c).final s0 is) x := rfl
    have en : (machine c).final ((machine c).final s0 is) [x] = next c ((machine c).final s0 is) x := rfl
    rw [eo, en]
    generalize (machine c).final s0 is = s at *
    generalize (machine c).trace s0 is = tr at *
    obtain ⟨i1, i2, i3, i4, i5, i6, i7, i7', i8, i9, i10, i11, ac, rest, j1, j2, j3, j4⟩ := ih
    have hD := hc.depth
    have hT := hc.timeout2
    have hne : beginReq c s = true → s.st = .input → 1 ≤ s.f.length := by
      intro h hs
      simp [beginReq] at h
      rcases h with h | h
      · omega
      · have := List.length_pos_iff.2 (i7 h hs); omega
    have eS : (start c s x = true) → s.st = .input ∧ beginReq c s = true ∧ x.reqRd = true := by
      intro h; simp [start] at h; exact ⟨h.1.1, h.1.2, h.2⟩
    have eR : requests (tr ++ [(x, out c s x)]) = requests tr ++ given (start c s x)
        ⟨(s.base + s.offset) % 2 ^ c.idxWidth * 2 ^ c.ALIGN_BITS, reqLen c s⟩ := by
      rw [requests_append]; simp [requests, out, start]
    have eA : acks c (tr ++ [(x, out c s x)]) = acks c tr ++ given (decide (s.st = .ack) && reqAckHasCome c x) x.ackId := by
      rw [acks_append]
      congr 1
      rcases Bool.eq_false_or_eq_true x.ackVld with h | h <;> by_cases h2 : s.st = .ack <;> by_cases h3 : x.ackId = c.ID <;>
        simp [acks, out, reqAckHasCome, h, h2, h3]
    have eW1 : (written (tr ++ [(x, out c s x)])).map Prod.snd =
        (written tr).map Prod.snd ++ given (wAck s x && decide (s.st = .tx)) (s.lastCntr == 1) := by
      rw [written_append, List.map_append]
      congr 1
      rcases Bool.eq_false_or_eq_true (fVld s x) with h1 | h1 <;> rcases Bool.eq_false_or_eq_true x.wRd with h2 | h2 <;>
        by_cases h3 : s.st = .tx <;> simp [written, out, wAck, h1, h2, h3, given]
    -- order of the items
    have hord : (written (tr ++ [(x, out c s x)])).map Prod.fst ++ (next c s x).f = accepted (tr ++ [(x, out c s x)]) := by
      rw [written_append, accepted_append, ← i11, List.map_append]
      rcases s with ⟨st, sizeOf, base, offset, remaining, lastCntr, tmo, uploaded, f⟩
      rcases Bool.eq_false_or_eq_true x.fv with hv | hv <;> rcases Bool.eq_false_or_eq_true x.wRd with hw | hw <;>
      rcases f with _ | ⟨a, f⟩ <;> by_cases hs : st = .tx <;>
        simp [written, accepted, out, next, wAck, fVld, hv, hw, hs, given]
    have hfl : (next c s x).f.length + (if wAck s x && decide (s.st = .tx) then 1 else 0) =
        s.f.length + (if x.vld && (x.fRd && decide (s.f.length < c.BUFF_DEPTH)) then 1 else 0) := by
      simp only [next, List.length_append]
      have e1 : (if wAck s x && decide (s.st = .tx) then s.f.tail else s.f).length + (if wAck s x && decide (s.st = .tx) then 1 else 0) = s.f.length := by
        split
        · rename_i h
          simp [wAck, fVld] at h
          have := List.length_pos_iff.2 h.1.2.2
          simp; omega
        · simp
      have e2 : (given (x.vld && (x.fRd && decide (s.f.length < c.BUFF_DEPTH))) x.data).length =
          if x.vld && (x.fRd && decide (s.f.length < c.BUFF_DEPTH)) then 1 else 0 := by
        rcases Bool.eq_false_or_eq_true (x.vld && (x.fRd && decide (s.f.length < c.BUFF_DEPTH))) with h | h <;> rw [h] <;> simp
      omega
    have hlen : (next c s x).f.length ≤ c.BUFF_DEPTH := by
      by_cases h : s.f.length < c.BUFF_DEPTH
      · split at hfl <;> split at hfl <;> omega
      · simp [h] at hfl; split at hfl <;> omega
    have hbase : (next c s x).base = s0.base := by simp [next, hx, i1]
    have hpow : 0 < 2 ^ c.idxWidth := Nat.two_pow_pos _
    rcases Bool.eq_false_or_eq_true (start c s x) with hs | hs
    · -- a request is taken
      obtain ⟨hst, hb, hrd⟩ := eS hs
      have hf1 := hne hb hst
      obtain ⟨q1, q2, q3⟩ := req_eq hc i2 (by omega) hf1 i6
      have n1 : (next c s x).st = .tx := by simp [next, hst, hb, hrd]
      have n2 : (next c s x).lastCntr = min s.remaining s.f.length := by simp [next, hs, q3]
      have n3 : (next c s x).sizeOf = min s.remaining s.f.length := by simp [next, hs, q3]
      have n4 : (next c s x).uploaded = s.uploaded := by simp [next, hst]
      have hRW : c.ITEMS + 1 ≤ 2 ^ c.remWidth := le_two_pow_log2ceil _
      have hm : (s.remaining + 2 ^ c.remWidth - s.f.length % 2 ^ c.remWidth) % 2 ^ c.remWidth = s.remaining - s.f.length ∨
          s.remaining ≤ s.f.length := by
        by_cases h : s.remaining ≤ s.f.length
        · exact Or.inr h
        · left
          rw [Nat.mod_eq_of_lt (a := s.f.length) (by omega),
            show s.remaining + 2 ^ c.remWidth - s.f.length = (s.remaining - s.f.length) + 2 ^ c.remWidth by omega, Nat.add_mod_right,
            Nat.mod_eq_of_lt (by omega)]
      have n5 : (next c s x).remaining = if s.remaining ≤ s.f.length then c.ITEMS else s.remaining - s.f.length := by
        by_cases h : s.remaining ≤ s.f.length
        · simp [next, hs, q1, h]
        · simp only [next, hs, q1, h, if_true, if_false]
          exact hm.resolve_right h
      have n6 : (next c s x).offset = if s.remaining ≤ s.f.length then 0 else s.offset + s.f.length := by
        by_cases h : s.remaining ≤ s.f.length
        · simp [next, hs, q1, h]
        · simp only [next, hs, q1, h, if_true, if_false]
          exact Nat.mod_eq_of_lt (by omega)
      have eT : total (requests (tr ++ [(x, out c s x)])) = total (requests tr) + min s.remaining s.f.length := by
        rw [eR, hs, total_append, given_true]; simp [total, q2]
      have hit := hc.items
      have n7 : (next c s x).tmo = c.TIMEOUT - 1 := by simp [next, hst, hb, hrd]
      refine ⟨hbase, ?_, ?_, ?_, ?_, hlen, by simp [n1], by rw [n7]; omega, fun _ => ?_, by simp [n1], ?_, hord, ?_⟩
      · rw [n5]; split <;> omega
      · rw [n5, n6]; split <;> omega
      · rw [eT, n6, Nat.add_mod, i4]
        split
        · rename_i h
          rw [Nat.min_eq_left h]
          rcases Nat.eq_or_lt_of_le (show s.remaining ≤ c.ITEMS by omega) with h' | h'
          · rw [h', Nat.mod_self, show s.offset = 0 by omega]; simp
          · rw [Nat.mod_eq_of_lt h', i3, Nat.mod_self]
        · rename_i h
          rw [Nat.min_eq_right (by omega), Nat.mod_eq_of_lt (a := s.f.length) (by omega), Nat.mod_eq_of_lt (by omega)]
      · rw [eT, places, eR, hs, given_true, List.flatMap_append]
        rw [List.range_add, List.map_append]
        have i5' := i5
        rw [places] at i5'
        rw [i5']
        congr 1
        simp only [List.flatMap_cons, List.flatMap_nil, List.append_nil, List.map_map, q2]
        apply List.map_congr_left
        intro t ht
        have ht : t < min s.remaining s.f.length := by simpa using ht
        simp only [Function.comp]
        have e : (total (requests tr) + t) % c.ITEMS = s.offset + t := by
          rw [Nat.add_mod, i4, Nat.mod_eq_of_lt (a := t) (by omega), Nat.mod_eq_of_lt (by omega)]
        rw [e, align_eq hc, i1]
        have hA : 2 ^ c.ADDR_WIDTH = 2 ^ c.idxWidth * 2 ^ c.ALIGN_BITS := by
          rw [← Nat.pow_add]; congr 1; have := hc.addr; unfold Cfg.idxWidth; omega
        rw [hA, ← Nat.add_mul, ← Nat.add_mul, Nat.mul_mod_mul_right, Nat.mul_mod_mul_right, Nat.mod_add_mod]
        congr 2
        omega
      · rw [n2]
        have : s.f.length ≤ (next c s x).f.length := by simp [hst] at hfl; omega
        omega
      · rw [eW1, eR, hs, given_true, List.flatMap_append, ← i10]
        simp [hst, pendingWords, n1, n2, lasts, given, show min s.remaining s.f.length - 1 = reqLen c s by omega]
      · refine ⟨ac, [_], by rw [eR, hs, given_true, j1]; simp [hst] at j4; rw [j4, List.append_nil], by rw [eA]; simp [hst, j2, given], by rw [n4, j3], ?_⟩
        simp [n1, n3, q2]
    · -- no request
      have eR : requests (tr ++ [(x, out c s x)]) = requests tr := by rw [eR, hs]; simp [given]
      have n5 : (next c s x).remaining = s.remaining := by simp [next, hs]
      have n6 : (next c s x).offset = s.offset := by simp [next, hs]
      have n3 : (next c s x).sizeOf = s.sizeOf := by simp [next, hs]
      have hpl : places c (tr ++ [(x, out c s x)]) = places c tr := by rw [places, eR]; rfl
      rcases hst : s.st
      · have n1 : (next c s x).st = .input := by
          have : (beginReq c s && x.reqRd) = false := by simpa [start, hst] using hs
          simp only [next, hst, this]; rfl
        have n2 : (next c s x).lastCntr = 0 := by simp [next, hs, i9 (by simp [hst])]
        have n4 : (next c s x).uploaded = s.uploaded := by simp [next, hst]
        have hge : s.f.length ≤ (next c s x).f.length := by simp [hst] at hfl; omega
        refine ⟨hbase, by rw [n5]; exact i2, by rw [n5, n6]; exact i3, by rw [eR, n6]; exact i4, by rw [hpl, eR]; exact i5, hlen, ?_,
          by simp [n1], by simp [n1], fun _ => n2, ?_, hord, ?_⟩
        · intro ht _
          have hne' : s.f ≠ [] := by
            by_cases h0 : s.tmo = 0
            · exact i7 h0 hst
            · have : fVld s x = true := by
                rcases Bool.eq_false_or_eq_true (fVld s x) with h | h
                · exact h
                · rcases Bool.eq_false_or_eq_true (beginReq c s) with hb | hb
                  · have hr0 : x.reqRd = false := by simpa [start, hst, hb] using hs
                    simp [next, hst, hb, hr0] at ht; omega
                  · simp [next, hst, hb, h] at ht; omega
              simp [fVld] at this
              exact this.2
          have := List.length_pos_iff.2 hne'
          exact List.length_pos_iff.1 (by omega)
        · rw [eW1, eR, ← i10]; simp [pendingWords, n1, hst, given]
        · exact ⟨ac, rest, by rw [eR, j1], by rw [eA]; simp [hst, given, j2], by rw [n4, j3], by simpa [n1, hst] using j4⟩
      · obtain ⟨k1, k2⟩ := i8 hst
        have n4 : (next c s x).uploaded = s.uploaded := by simp [next, hst]
        have n7 : (next c s x).tmo = s.tmo := by simp [next, hst]
        have hz := i7' (by simp [hst])
        have n1 : (next c s x).st ≠ .input := by simp only [next, hst]; split <;> simp
        refine ⟨hbase, by rw [n5]; exact i2, by rw [n5, n6]; exact i3, by rw [eR, n6]; exact i4, by rw [hpl, eR]; exact i5, hlen,
          fun _ h => absurd h n1, fun _ => by rw [n7]; exact hz, ?_, ?_, ?_, hord, ?_⟩
        · intro h
          rcases Bool.eq_false_or_eq_true (wAck s x) with hw | hw
          · have h1 : s.lastCntr ≠ 1 := by
              intro h1; simp [next, hst, h1, hw] at h
            have : (next c s x).lastCntr = s.lastCntr - 1 := by simp [next, hs, hw]; omega
            simp [hw, hst] at hfl
            split at hfl <;> omega
          · have : (next c s x).lastCntr = s.lastCntr := by simp [next, hs, hw]
            simp [hw] at hfl
            split at hfl <;> omega
        · intro h
          have : s.lastCntr = 1 ∧ wAck s x = true := by
            by_cases h' : s.lastCntr = 1 ∧ wAck s x = true
            · exact h'
            · exfalso; apply h; simp only [next, hst]; simp at h'; simp; exact h'
          simp [next, hs, this.1, this.2]
        · rw [eW1, eR, ← i10]
          rcases Bool.eq_false_or_eq_true (wAck s x) with hw | hw
          · by_cases h1 : s.lastCntr = 1
            · have : (next c s x).st = .ack := by simp [next, hst, h1, hw]
              simp [pendingWords, this, hst, h1, hw, given]
            · have e1 : (next c s x).st = .tx := by simp [next, hst, h1]
              have e2 : (next c s x).lastCntr = s.lastCntr - 1 := by simp [next, hs, hw]; omega
              obtain ⟨d, hd⟩ : ∃ d, s.lastCntr = d + 2 := ⟨s.lastCntr - 2, by omega⟩
              simp [pendingWords, e1, e2, hst, hw, given, hd, List.replicate_succ]
          · have e1 : (next c s x).st = .tx := by simp [next, hst, hw]
            have e2 : (next c s x).lastCntr = s.lastCntr := by simp [next, hs, hw]
            simp [pendingWords, e1, e2, hst, hw, given]
        · exact ⟨ac, rest, by rw [eR, j1], by rw [eA]; simp [hst, given, j2], by rw [n4, j3], by simpa [n1, hst, n3] using j4⟩
      · have n2 : (next c s x).lastCntr = 0 := by simp [next, hs, i9 (by simp [hst])]
        have n7 : (next c s x).tmo = s.tmo := by simp [next, hst]
        have hz := i7' (by simp [hst])
        have n1 : (next c s x).st ≠ .tx := by simp only [next, hst]; split <;> simp
        refine ⟨hbase, by rw [n5]; exact i2, by rw [n5, n6]; exact i3, by rw [eR, n6]; exact i4, by rw [hpl, eR]; exact i5, hlen,
          fun h _ => absurd h (by rw [n7]; exact hz), fun _ => by rw [n7]; exact hz, fun h => absurd h n1, fun _ => n2, ?_, hord, ?_⟩
        · rw [eW1, eR, ← i10]; simp [pendingWords, n1, hst, given]
        · rw [eR, eA]
          rcases Bool.eq_false_or_eq_true (reqAckHasCome c x) with h | h
          · simp [hst] at j4
            obtain ⟨q, rfl, hq⟩ := j4
            refine ⟨ac ++ [q], [], by simp [j1], by simp [hst, h, given, j2], ?_, by simp [next, hst, h]⟩
            simp only [next, hst, h]
            rw [total_append]
            simp [j3, total, ← hq]
          · refine ⟨ac, rest, j1, by simp [h, given, j2], by simp [next, h, j3], ?_⟩
            have : (next c s x).st = .ack := by simp [next, hst, h]
            simpa [this, hst, n3] using j4

/-! ### C149 Places -/

/-- The full claim C149 for given parameters: the items are written to the array, one in each word, circularly. -/
def WritesCircular (c : Cfg) : Prop :=
  ∀ (s0 : St) (is : List In), IsInit c s0 → Running is →
    places c ((machine c).trace s0 is) = (List.range (total (requests ((machine c).trace s0 is)))).map fun k =>
      (s0.base * 2 ^ c.ALIGN_BITS + k % c.ITEMS * (c.DATA_WIDTH / 8)) % 2 ^ c.ADDR_WIDTH

/-- **C149, partial** -/
theorem arrayWriter_places_partial {c : Cfg} (hc : c.Good) : WritesCircular c := fun _ is h0 hr => (inv_holds hc h0 is hr).plc

/-- a cycle with everything ready, an item comes -/
def cyc (d : Nat) : In := ⟨none, true, d, true, true, false, 3, true, true, 0⟩
/-- no item comes -/
def idle : In := { cyc 0 with vld := false }
/-- with an acknowledge, no item comes -/
def idleA : In := { idle with ackVld := true }
/-- the initial state with base address register 1 -/
def initSt (c : Cfg) : St := ⟨.input, 0, 1, 0, c.ITEMS, 0, c.TIMEOUT - 1, 0, []⟩
theorem initSt_init (c : Cfg) (h : 1 < 2 ^ c.idxWidth) : IsInit c (initSt c) := ⟨rfl, h, rfl, rfl, rfl, rfl, rfl, rfl⟩

/-- array of 3 items, buffer of 4 items -/
def narrow : Cfg := ⟨3, 4, 100, 64, 32, 3⟩
/-- words of 8 bits -/
def bytes : Cfg := ⟨8, 4, 100, 8, 32, 3⟩
/-- buffer of 6 items -/
def odd : Cfg := ⟨8, 6, 100, 64, 32, 3⟩
/-- timeout of one cycle -/
def hasty : Cfg := ⟨8, 4, 1, 64, 32, 3⟩

theorem cfgs_ok : narrow.Ok ∧ bytes.Ok ∧ odd.Ok ∧ hasty.Ok :=
  ⟨⟨by decide, by decide, by decide, ⟨3, by decide⟩, by decide⟩, ⟨by decide, by decide, by decide, ⟨0, by decide⟩, by decide⟩,
    ⟨by decide, by decide, by decide, ⟨3, by decide⟩, by decide⟩, ⟨by decide, by decide, by decide, ⟨3, by decide⟩, by decide⟩⟩

/-- **C149 does not hold** for a buffer greater than the array: the size of the buffer is cut to the width of the counter of
remaining places, the burst leaves the array. -/
theorem arrayWriter_narrow_fails : ¬ WritesCircular narrow := fun h =>
  absurd (h (initSt narrow) [cyc 1, cyc 2, cyc 3, cyc 4, idle] (initSt_init _ (by decide)) (by unfold Running; decide)) (by decide)

/-- **C149 does not hold** for words of 8 bits: addresses are aligned to 2 bytes. -/
theorem arrayWriter_bytes_fails : ¬ WritesCircular bytes := fun h =>
  absurd (h (initSt bytes) [cyc 1, cyc 2, cyc 3, cyc 4, idle, cyc 5, cyc 5, cyc 6, cyc 7, idleA, cyc 8, idle] (initSt_init _ (by decide))
    (by unfold Running; decide)) (by decide)

/-! ### C150 Bursts -/

/-- The full claim C150 for given parameters: the words sent are the items in order, with `last` exactly on the final word of each
requested burst; when the writer waits for an acknowledge the bursts are complete; `uploaded` counts the items of acknowledged
bursts. -/
def SendsBursts (c : Cfg) : Prop :=
  ∀ (s0 : St) (is : List In) (x : In), IsInit c s0 → Running is →
    ((written ((machine c).trace s0 is)).map Prod.fst <+: accepted ((machine c).trace s0 is)) ∧
    ((written ((machine c).trace s0 is)).map Prod.snd <+: (requests ((machine c).trace s0 is)).flatMap lasts) ∧
    (((machine c).outAfter s0 is x).ackRd = true →
      (written ((machine c).trace s0 is)).map Prod.snd = (requests ((machine c).trace s0 is)).flatMap lasts) ∧
    ((machine c).outAfter s0 is x).uploaded =
      total ((requests ((machine c).trace s0 is)).take (acks c ((machine c).trace s0 is)).length) % 2 ^ 16

/-- **C150, partial** -/
theorem arrayWriter_bursts_partial {c : Cfg} (hc : c.Good) : SendsBursts c := by
  intro s0 is x h0 hr
  have h := inv_holds hc h0 is hr
  refine ⟨⟨_, h.order⟩, ⟨_, h.words⟩, fun ha => ?_, ?_⟩
  · have ha : decide (((machine c).final s0 is).st = .ack) = true := ha
    simp at ha
    rw [← h.words]
    simp [pendingWords, ha]
  · obtain ⟨ac, rest, h1, h2, h3, -⟩ := h.ptr
    have e : ((machine c).outAfter s0 is x).uploaded = ((machine c).final s0 is).uploaded := rfl
    rw [e, h3, h1, ← h2, List.take_left]

/-- **C150 does not hold** if `BUFF_DEPTH` is greater than the greatest length of a burst, which is not prevented by the assertion
on the widths: 6 words are sent for a request of 2 words. -/
theorem arrayWriter_len_fails : ¬ SendsBursts odd := fun h =>
  absurd (h (initSt odd) [cyc 1, cyc 2, cyc 3, cyc 4, cyc 5, cyc 6, idle, idle, idle, idle, idle, idle, idle] idle
    (initSt_init _ (by decide)) (by unfold Running; decide)).2.1 (by decide)

/-! ### C151 No waiting for other items -/

/-- The full claim C151 for given parameters: a burst is requested only when its words are in the buffer, that is: no more words
are requested than items taken. -/
def HasWords (c : Cfg) : Prop :=
  ∀ (s0 : St) (is : List In), IsInit c s0 → Running is →
    total (requests ((machine c).trace s0 is)) ≤ (accepted ((machine c).trace s0 is)).length

/-- **C151, partial** -/
theorem arrayWriter_words_partial {c : Cfg} (hc : c.Good) : HasWords c := by
  intro s0 is h0 hr
  have h := inv_holds hc h0 is hr
  have e1 := congrArg List.length h.words
  have e2 := congrArg List.length h.order
  have e3 : ∀ qs : List Req, (qs.flatMap lasts).length = total qs := by
    intro qs; simp [List.length_flatMap, lasts, total]
  rw [e3] at e1
  simp only [List.length_append, List.length_map] at e1 e2
  have : (pendingWords ((machine c).final s0 is)).length ≤ ((machine c).final s0 is).f.length := by
    unfold pendingWords
    split
    · have := h.tx (by assumption)
      simp; omega
    · simp
  omega

/-- **C151 does not hold** for a timeout of one cycle: a request is made with the empty buffer. -/
theorem arrayWriter_timeout_fails : ¬ HasWords hasty := fun h =>
  absurd (h (initSt hasty) [idle] (initSt_init _ (by decide)) (by unfold Running; decide)) (by decide)

/-- array of 5 items, buffer of 4 -/
def good : Cfg := ⟨5, 4, 4, 64, 32, 3⟩
/-- two bursts, the second one ends at the end of the array; a third one after the timeout -/
def goodRun : List In :=
  [cyc 1, cyc 2, cyc 3, cyc 4, idle, cyc 5, cyc 5, cyc 6, cyc 7, idleA, cyc 8, idle, idle, idleA, idle, idle, idle, idle, idle, idle]

/-- non-vacuity of C149-C151: bursts of 4, 1 and 3 items; the third one is at the begin of the array -/
example : good.Good ∧ IsInit good (initSt good) ∧ Running goodRun ∧
    requests ((machine good).trace (initSt good) goodRun) = [⟨8, 3⟩, ⟨40, 0⟩, ⟨8, 2⟩] ∧
    written ((machine good).trace (initSt good) goodRun) =
      [(1, false), (2, false), (3, false), (4, true), (5, true), (6, false), (7, false)] :=
  ⟨⟨⟨by decide, by decide, by decide, ⟨3, by decide⟩, by decide⟩, by decide, by decide, by decide, by decide⟩,
    initSt_init _ (by decide), by unfold Running; decide, by decide, by decide⟩

/-! ### C152 Stable requests -/

/-- The full claim C152 for given parameters: a request which is not taken stays. -/
def StableRequest (c : Cfg) : Prop :=
  ∀ (s0 : St) (is : List In) (x y : In), IsInit c s0 → Running (is ++ [x]) →
    ((machine c).outAfter s0 is x).reqVld = true → x.reqRd = false →
    ((machine c).outAfter s0 (is ++ [x]) y).reqVld = true ∧
    ((machine c).outAfter s0 (is ++ [x]) y).req = ((machine c).outAfter s0 is x).req

/-- **C152 does not hold**: the length of a request made by the timeout grows with the number of items in the buffer. -/
theorem arrayWriter_unstable : ¬ StableRequest good := fun h =>
  absurd (h (initSt good) [cyc 1, idle, idle, idle] { cyc 2 with reqRd := false } idle (initSt_init _ (by decide))
    (by unfold Running; decide) (by decide) (by decide)).2 (by decide)

/-- **C152, partial**: it holds if no item comes. -/
theorem arrayWriter_stable_partial {c : Cfg} {s0 : St} (is : List In) (x y : In) (hr : Running (is ++ [x]))
    (hv : ((machine c).outAfter s0 is x).reqVld = true) (hrd : x.reqRd = false)
    (hn : (x.vld && ((machine c).outAfter s0 is x).rd) = false) :
    ((machine c).outAfter s0 (is ++ [x]) y).reqVld = true ∧
    ((machine c).outAfter s0 (is ++ [x]) y).req = ((machine c).outAfter s0 is x).req := by
  have hx := hr x (by simp)
  have e1 : (machine c).outAfter s0 (is ++ [x]) y = out c (next c ((machine c).final s0 is) x) y := by
    show out c ((machine c).final s0 (is ++ [x])) y = _
    rw [Machine.final_append]; rfl
  have e2 : (machine c).outAfter s0 is x = out c ((machine c).final s0 is) x := rfl
  rw [e1]
  rw [e2] at hv hn ⊢
  generalize (machine c).final s0 is = s at *
  simp only [out] at hv hn
  have hst : s.st = .input := by simp at hv; exact hv.1
  have hb : beginReq c s = true := by simp at hv; exact hv.2
  have hs : start c s x = false := by simp [start, hrd]
  have n1 : (next c s x).st = .input := by simp [next, hst, hrd]
  have n2 : (next c s x).base = s.base := by simp [next, hx]
  have n3 : (next c s x).offset = s.offset := by simp [next, hs]
  have n4 : (next c s x).remaining = s.remaining := by simp [next, hs]
  have n5 : (next c s x).tmo = s.tmo := by simp [next, hst, hb, hrd]
  have n6 : (next c s x).f = s.f := by simp only [next]; rw [hn]; simp [hst, given]
  have n7 : endOfLenBlock c (next c s x) = endOfLenBlock c s := by simp [endOfLenBlock, n4, n6]
  constructor
  · simpa [out, n1, beginReq, n5, n6] using hb
  · simp [out, n2, n3, reqLen, n4, n6, n7]

/-- non-vacuity of `arrayWriter_stable_partial` -/
example : ((machine good).outAfter (initSt good) [cyc 1, idle, idle, idle] { idle with reqRd := false }).reqVld = true ∧
    ({ idle with reqRd := false } : In).reqRd = false := ⟨by decide, rfl⟩

end Verif.ArrayBuffWriter
