import Verif.Ping

/-! # Properties of `Axi4SPingResponder` (C313, C314) -/

namespace Verif.Ping

open Verif

/-! ## checksum -/

/-- ones' complement sum of 16 bit words (RFC 1071) -/
def ocAdd (a b : Nat) : Nat := if a + b < 65536 then a + b else a + b - 65535
def ocSum (ws : List Nat) : Nat := ws.foldl ocAdd 0
def rfcChecksum (ws : List Nat) : Nat := 65535 - ocSum ws

/-- C313: checksum of the echo reply (type 0, code 0, checksum 0, identifier, sequence number) -/
def C313 : Prop := ∀ ident seqNo, ident < 65536 → seqNo < 65536 → checksum ident seqNo = rfcChecksum [0, 0, ident, seqNo]

/-- **C313** (violated) the end around carry is missing -/
theorem checksum_fails : ¬ C313 := by
  intro h
  exact absurd (h 65535 1 (by decide) (by decide)) (by decide)

theorem rfc_eq (a b : Nat) (ha : a < 65536) : rfcChecksum [0, 0, a, b] = 65535 - ocAdd a b := by
  simp [rfcChecksum, ocSum, ocAdd, ha]

/-- **C313** (partial) correct exactly if the sum fits in 16 bits -/
theorem checksum_partial (a b : Nat) (ha : a < 65536) (hb : b < 65536) :
    checksum a b = rfcChecksum [0, 0, a, b] ↔ a + b < 65536 := by
  rw [rfc_eq a b ha]
  unfold checksum ocAdd
  split
  · omega
  · omega

example : checksum 0x1234 7 = 0xedc4 := by decide

/-! ## replies -/

/-- one cycle: the next word is offered, the consumer is ready -/
structure Cyc where
  vld : Bool
  rdy : Bool

/-- the responder, frames of the source, accepted requests, accepted words of replies (word number, last, contents of the request) -/
structure Sys where
  s : St
  src : List (Nat → Nat)
  reqs : List (Nat → Nat)
  outs : List (Nat × Bool × List Nat)

def inp (c : Cfg) (y : Sys) (x : Cyc) : In where
  vld := x.vld && !y.src.isEmpty
  data := (y.src.headD fun _ => 0) y.s.idx
  last := y.s.idx == c.N - 1
  rdy := x.rdy

/-- the last word of the request is accepted -/
def done (c : Cfg) (y : Sys) (x : Cyc) : Bool := (inp c y x).vld && rxReady y.s && (inp c y x).last

def sys (c : Cfg) (y : Sys) (x : Cyc) : Sys where
  s := next c y.s (inp c y x)
  src := if done c y x then y.src.tail else y.src
  reqs := if done c y x then y.reqs ++ [y.src.headD fun _ => 0] else y.reqs
  outs := y.outs ++ given (y.s.sending && x.rdy) (y.s.tidx, y.s.tidx == c.M - 1, (List.range c.N).map y.s.resp)

def run (c : Cfg) (y : Sys) (xs : List Cyc) : Sys := xs.foldl (sys c) y

def sys0 (r0 : Nat → Nat) (src : List (Nat → Nat)) : Sys := ⟨init r0, src, [], []⟩

/-- an echo request for this station -/
def forMe (c : Cfg) (f : Nat → Nat) : Bool := c.dstOf (f c.d) == c.myIp && c.typeOf (f c.t) == echoRequest

/-- words of the reply -/
def reply (c : Cfg) (f : Nat → Nat) : List (Nat × Bool × List Nat) :=
  (List.range c.M).map fun j => (j, j == c.M - 1, (List.range c.N).map f)

structure CfgOk (c : Cfg) : Prop where
  n : 0 < c.N
  m : 0 < c.M
  d : c.d < c.N
  t : c.t < c.N

/-- C314: every echo request for this station (and nothing else) is answered by one complete reply -/
def C314 : Prop := ∀ (c : Cfg), CfgOk c → ∀ (r0 : Nat → Nat) (src : List (Nat → Nat)) (xs : List Cyc),
  (run c (sys0 r0 src) xs).s.sending = false →
  (run c (sys0 r0 src) xs).outs = ((run c (sys0 r0 src) xs).reqs.filter (forMe c)).flatMap (reply c)

def exC (N : Nat) : Cfg := ⟨N, 2, 0, 0, fun x => x, fun _ => 8, 5⟩

theorem exC_ok (N : Nat) (h : 0 < N) : CfgOk (exC N) := ⟨h, Nat.zero_lt_two, h, h⟩

/-- **C314** (violated) the last word is withdrawn if the consumer is not ready -/
theorem reply_fails : ¬ C314 := by
  intro h
  have := h (exC 2) (exC_ok 2 (by decide)) (fun _ => 0) [fun _ => 5] [⟨true, true⟩, ⟨true, true⟩, ⟨true, true⟩, ⟨true, false⟩]
    (by decide)
  exact absurd (congrArg List.length this) (by decide)

/-- **C314** (violated) with a wide bus the decision uses fields of the previous request -/
theorem decision_fails : ¬ ∀ (c : Cfg), CfgOk c → ∀ (r0 : Nat → Nat) (src : List (Nat → Nat)) (xs : List Cyc),
    (∀ x ∈ xs, x.rdy = true) → (run c (sys0 r0 src) xs).s.sending = false →
    (run c (sys0 r0 src) xs).outs = ((run c (sys0 r0 src) xs).reqs.filter (forMe c)).flatMap (reply c) := by
  intro h
  have := h (exC 1) (exC_ok 1 (by decide)) (fun _ => 0) [fun _ => 5] [⟨true, true⟩, ⟨true, true⟩, ⟨true, true⟩]
    (by decide) (by decide)
  exact absurd (congrArg List.length this) (by decide)

structure Inv (c : Cfg) (y : Sys) : Prop where
  idx : y.s.idx < c.N
  got : ∀ j, j < y.s.idx → y.s.resp j = (y.src.headD fun _ => 0) j
  ne : y.s.idx ≠ 0 → y.src ≠ []
  echo : c.t < y.s.idx → y.s.isEcho = (c.typeOf ((y.src.headD fun _ => 0) c.t) == echoRequest)
  idle : y.s.sending = false → y.s.tidx = 0 ∧ y.outs = (y.reqs.filter (forMe c)).flatMap (reply c)
  busy : y.s.sending = true → y.s.idx = 0 ∧ y.s.tidx < c.M ∧ ∃ pre f, y.reqs = pre ++ [f] ∧ forMe c f = true ∧
    (∀ j, j < c.N → y.s.resp j = f j) ∧ y.outs = (pre.filter (forMe c)).flatMap (reply c) ++ (reply c f).take y.s.tidx

theorem map_range_congr {α : Type} {f g : Nat → α} {n : Nat} (h : ∀ j, j < n → f j = g j) :
    (List.range n).map f = (List.range n).map g :=
  List.map_congr_left fun j hj => h j (List.mem_range.1 hj)

theorem reply_get (c : Cfg) (f : Nat → Nat) (j : Nat) (h : j < c.M) :
    (reply c f)[j]? = some (j, j == c.M - 1, (List.range c.N).map f) := by
  simp [reply, h]

theorem step_inv {c : Cfg} (hc : CfgOk c) (hd : c.d < c.N - 1) (ht : c.t < c.N - 1) {y : Sys} (h : Inv c y) (x : Cyc)
    (hx : y.s.sending = true → y.s.tidx = c.M - 1 → x.rdy = true) : Inv c (sys c y x) := by
  have hn := hc.n
  have hm := hc.m
  cases hs : y.s.sending with
  | true =>
    obtain ⟨h0, htl, pre, f, hreq, hfor, hresp, houts⟩ := h.busy hs
    have hdone : done c y x = false := by simp [done, rxReady, hs]
    have hl : (inp c y x).last = false := by
      show (y.s.idx == c.N - 1) = false
      rw [h0]; simp; omega
    have hrd : rxReady y.s = false := by simp [rxReady, hs]
    have e1 : (sys c y x).s.idx = y.s.idx := by simp [sys, next, hrd]
    have e2 : (sys c y x).s.resp = y.s.resp := by simp [sys, next, hrd]
    have e3 : (sys c y x).s.isEcho = y.s.isEcho := by simp [sys, next, hrd]
    have e4 : (sys c y x).src = y.src := by simp [sys, hdone]
    have e5 : (sys c y x).reqs = y.reqs := by simp [sys, hdone]
    have e6 : (sys c y x).s.sending = if y.s.tidx == c.M - 1 then false else true := by simp [sys, next, hl, hs]
    have e7 : (sys c y x).s.tidx = if x.rdy then (if y.s.tidx == c.M - 1 then 0 else y.s.tidx + 1) else y.s.tidx := by
      simp [sys, next, hs, inp]
    have e8 : (sys c y x).outs = y.outs ++ given x.rdy (y.s.tidx, y.s.tidx == c.M - 1, (List.range c.N).map f) := by
      simp only [sys, hs, Bool.true_and]
      rw [map_range_congr hresp]
    refine ⟨by rw [e1]; exact h.idx, by rw [e1, e2, e4]; exact h.got, by rw [e1, e4]; exact h.ne, ?_, ?_, ?_⟩
    · rw [e1, e3, e4]; exact h.echo
    · intro hs'
      rw [e6] at hs'
      have hlast : y.s.tidx = c.M - 1 := by
        by_cases hh : y.s.tidx = c.M - 1
        · exact hh
        · rw [if_neg (by simpa using hh)] at hs'; exact absurd hs' (by decide)
      have hr := hx hs hlast
      refine ⟨by rw [e7, hr]; simp [hlast], ?_⟩
      rw [e8, hr, houts, e5, hreq, List.filter_append, List.flatMap_append, List.append_assoc]
      congr 1
      have hrl : (reply c f).length = c.M := by simp [reply]
      have hg := reply_get c f y.s.tidx htl
      have : (reply c f).take (y.s.tidx + 1) = reply c f := by rw [hlast, List.take_of_length_le (by omega)]
      rw [List.take_add_one, hg] at this
      have hff : List.filter (forMe c) [f] = [f] := by simp [hfor]
      rw [hff]
      simpa [given] using this
    · intro hs'
      rw [e6] at hs'
      have hlast : ¬ y.s.tidx = c.M - 1 := by
        intro hh; rw [if_pos (by simpa using hh)] at hs'; exact absurd hs' (by decide)
      have hnb : (y.s.tidx == c.M - 1) = false := by simpa using hlast
      refine ⟨by rw [e1]; exact h0, ?_, pre, f, by rw [e5]; exact hreq, hfor, by rw [e2]; exact hresp, ?_⟩
      · rw [e7, hnb]; split
        · simp; omega
        · exact htl
      · rw [e8, e7, hnb, houts]
        cases x.rdy with
        | false => simp [given]
        | true =>
          have hg := reply_get c f y.s.tidx htl
          simp only [if_true, Bool.false_eq_true, if_false]
          rw [List.take_add_one, hg, hnb]
          simp [given]
  | false =>
    obtain ⟨ht0, houts⟩ := h.idle hs
    have hrd : rxReady y.s = true := by simp [rxReady, hs]
    have e7 : (sys c y x).s.tidx = 0 := by simp [sys, next, hs, ht0]
    have e8 : (sys c y x).outs = y.outs := by simp [sys, hs, given]
    have hidx := h.idx
    cases hv : (inp c y x).vld with
    | false =>
      have hdone : done c y x = false := by simp [done, hv]
      have e1 : (sys c y x).s.idx = y.s.idx := by simp [sys, next, hv]
      have e2 : (sys c y x).s.resp = y.s.resp := by simp [sys, next, hv]
      have e3 : (sys c y x).s.isEcho = y.s.isEcho := by simp [sys, next, hv]
      have e4 : (sys c y x).src = y.src := by simp [sys, hdone]
      have e5 : (sys c y x).reqs = y.reqs := by simp [sys, hdone]
      have e6 : (sys c y x).s.sending = false := by simp [sys, next, hv, hs]
      refine ⟨by rw [e1]; exact h.idx, by rw [e1, e2, e4]; exact h.got, by rw [e1, e4]; exact h.ne,
        by rw [e1, e3, e4]; exact h.echo, fun _ => ⟨e7, by rw [e8, e5]; exact houts⟩, fun hh => ?_⟩
      rw [e6] at hh; exact absurd hh (by decide)
    | true =>
      have hsrc : y.src ≠ [] := by
        have : (x.vld && !y.src.isEmpty) = true := hv
        intro hh; rw [hh] at this; simp at this
      cases hl : y.s.idx == c.N - 1 with
      | false =>
        have hl' : (inp c y x).last = false := hl
        have hnl : y.s.idx ≠ c.N - 1 := by simpa using hl
        have hdone : done c y x = false := by simp [done, hl']
        have e1 : (sys c y x).s.idx = y.s.idx + 1 := by simp [sys, next, hv, hrd, hl']
        have e2 : (sys c y x).s.resp = upd y.s.resp y.s.idx ((y.src.headD fun _ => 0) y.s.idx) := by
          simp [sys, next, hrd, inp]
          intro h1
          have : (x.vld && !y.src.isEmpty) = true := hv
          simp at this
          exact absurd (h1 this.1) this.2
        have e3 : (sys c y x).s.isEcho = if y.s.idx == c.t then c.typeOf ((y.src.headD fun _ => 0) y.s.idx) == echoRequest
            else y.s.isEcho := by
          show (if (inp c y x).vld && rxReady y.s && y.s.idx == c.t then _ else _) = _
          rw [hv, hrd]; rfl
        have e4 : (sys c y x).src = y.src := by simp [sys, hdone]
        have e5 : (sys c y x).reqs = y.reqs := by simp [sys, hdone]
        have e6 : (sys c y x).s.sending = false := by simp [sys, next, hl', hs]
        refine ⟨by rw [e1]; omega, ?_, by rw [e4]; exact fun _ => hsrc, ?_, fun _ => ⟨e7, by rw [e8, e5]; exact houts⟩, fun hh => ?_⟩
        · intro j hj
          rw [e1] at hj
          rw [e2, e4]
          by_cases hji : j = y.s.idx
          · subst hji; rw [upd_same]
          · rw [upd_ne _ _ _ _ hji]; exact h.got j (by omega)
        · rw [e1, e3, e4]
          intro hlt
          by_cases hti : y.s.idx = c.t
          · rw [if_pos (by simpa using hti), hti]
          · rw [if_neg (by simpa using hti)]; exact h.echo (by omega)
        · rw [e6] at hh; exact absurd hh (by decide)
      | true =>
        have hl' : (inp c y x).last = true := hl
        have hlast : y.s.idx = c.N - 1 := by simpa using hl
        have hdone : done c y x = true := by simp [done, hl', hv, hrd]
        have e1 : (sys c y x).s.idx = 0 := by simp [sys, next, hv, hrd, hl']
        have e5 : (sys c y x).reqs = y.reqs ++ [y.src.headD fun _ => 0] := by simp only [sys, hdone, if_true]
        have hg := h.got c.d (by omega)
        have he := h.echo (by omega)
        have e6 : (sys c y x).s.sending = forMe c (y.src.headD fun _ => 0) := by
          show (if (inp c y x).last && (inp c y x).vld then _ else _) = _
          rw [hl', hv]
          simp only [Bool.and_self, if_true]
          rw [hg, he]
          unfold forMe
          rw [Bool.beq_comm]
        have e2 : (sys c y x).s.resp = upd y.s.resp y.s.idx ((y.src.headD fun _ => 0) y.s.idx) := by
          show (if (inp c y x).vld && rxReady y.s then _ else _) = _
          rw [hv, hrd]; rfl
        refine ⟨by rw [e1]; exact hn, by rw [e1]; intro j hj; exact absurd hj (Nat.not_lt_zero _), by rw [e1]; intro hh; exact absurd rfl hh,
          by rw [e1]; intro hh; exact absurd hh (Nat.not_lt_zero _), fun hh => ⟨e7, ?_⟩, fun hh => ⟨e1, by rw [e7]; exact hm, ?_⟩⟩
        · rw [e6] at hh
          rw [e8, e5, houts, List.filter_append]
          simp only [List.filter_cons, List.filter_nil, hh, Bool.false_eq_true, if_false, List.append_nil]
        · rw [e6] at hh
          refine ⟨y.reqs, _, e5, hh, ?_, by rw [e8, e7, houts]; simp⟩
          intro j hj
          rw [e2]
          by_cases hji : j = y.s.idx
          · subst hji; rw [upd_same]
          · rw [upd_ne _ _ _ _ hji]; exact h.got j (by omega)

theorem init_inv {c : Cfg} (hc : CfgOk c) (r0 : Nat → Nat) (src : List (Nat → Nat)) : Inv c (sys0 r0 src) :=
  ⟨hc.n, fun j hj => absurd hj (Nat.not_lt_zero _), fun h => absurd rfl h, fun h => absurd h (Nat.not_lt_zero _), fun _ => ⟨rfl, rfl⟩,
    fun h => absurd h (by simp [sys0, init])⟩

/-- the consumer is ready for the last word of a reply in the first cycle when it is offered -/
def Along (c : Cfg) : Sys → List Cyc → Prop
  | _, [] => True
  | y, x :: xs => (y.s.sending = true → y.s.tidx = c.M - 1 → x.rdy = true) ∧ Along c (sys c y x) xs

theorem run_inv {c : Cfg} (hc : CfgOk c) (hd : c.d < c.N - 1) (ht : c.t < c.N - 1) : ∀ (xs : List Cyc) (y : Sys), Inv c y →
    Along c y xs → Inv c (run c y xs) := by
  intro xs
  induction xs with
  | nil => exact fun _ h _ => h
  | cons x xs ih => exact fun y h ha => ih _ (step_inv hc hd ht h x ha.1) ha.2

/-- **C314** (partial) if the address and the type are not in the last word (narrow bus) and the consumer takes the last word
at once, every request is answered by one complete reply with contents of the request -/
theorem reply_partial {c : Cfg} (hc : CfgOk c) (hd : c.d < c.N - 1) (ht : c.t < c.N - 1) (r0 : Nat → Nat)
    (src : List (Nat → Nat)) (xs : List Cyc) (ha : Along c (sys0 r0 src) xs) :
    let y := run c (sys0 r0 src) xs
    y.outs <+: (y.reqs.filter (forMe c)).flatMap (reply c) ∧
    (y.s.sending = false → y.outs = (y.reqs.filter (forMe c)).flatMap (reply c)) := by
  have h := run_inv hc hd ht xs _ (init_inv hc r0 src) ha
  refine ⟨?_, fun hs => (h.idle hs).2⟩
  cases hs : (run c (sys0 r0 src) xs).s.sending with
  | false => rw [(h.idle hs).2]; exact List.prefix_refl _
  | true =>
    obtain ⟨-, -, pre, f, hreq, hfor, -, houts⟩ := h.busy hs
    rw [houts, hreq, List.filter_append, List.flatMap_append]
    refine (List.prefix_append_right_inj _).2 ?_
    simp only [List.filter_cons, hfor, if_true, List.filter_nil, List.flatMap_cons, List.flatMap_nil, List.append_nil]
    exact List.take_prefix _ _

/-- non-vacuity: two requests, the second for somebody else -/
example : let y := run (exC 2) (sys0 (fun _ => 0) [fun _ => 5, fun _ => 6]) (List.replicate 7 ⟨true, true⟩)
    y.outs = [(0, false, [5, 5]), (1, true, [5, 5])] ∧ y.reqs.length = 2 := by decide

end Verif.Ping
