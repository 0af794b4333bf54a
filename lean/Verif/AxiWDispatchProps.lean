import Verif.AxiWDispatch
import Mathlib.Data.List.Induction
/-!
# Properties C86, C87 of `AxiWriteAggregatorWriteDispatcher`
-/
namespace Verif.AxiWDispatch

universe u v
variable {α : Type u} {κ : Type v}

/-- Number of words read for one item. -/
def words (N : Nat) : Nat := maxOff N + 1
/-- Is word number `n` of the whole stream the last one of its item? -/
def lastOf (N n : Nat) : Bool := n % words N == words N - 1

structure Inv (N : Nat) (item : Nat → Nat × κ) (ram : Nat → α) (s : St α κ) (r e b a : Nat) : Prop where
  off_le : s.off ≤ maxOff N
  r_eq : r = words N * e + s.off
  pend : s.pending = true → s.lastD = lastOf N (r - 1)
  cnt : b + s.rd.valid.toNat + s.bk.valid.toNat + s.pending.toNat = r
  rdv : s.rd.valid = true → s.rd.data = ram b ∧ s.rd.last = lastOf N b
  bkv : s.bk.valid = true → s.rd.valid = true ∧ s.pending = false ∧ s.bk.data = ram (b + 1) ∧
    s.bk.last = lastOf N (b + 1)
  acnt : a + s.awVld.toNat = e + (if s.off = 0 then 0 else 1)
  awv : s.awVld = true → (s.awId, s.awKey) = item a

theorem last_eq {N r e off : Nat} (h : off ≤ maxOff N) (hr : r = words N * e + off) :
    lastOf N r = (off == maxOff N) := by
  unfold lastOf
  have : r % words N = off := by
    rw [hr, Nat.mul_add_mod, Nat.mod_eq_of_lt (by unfold words; omega)]
  rw [this]; rfl

theorem step {N : Nat} {item : Nat → Nat × κ} {ram : Nat → α} {s : St α κ} {r e b a : Nat} {i : In α κ}
    (h : Inv N item ram s r e b a) (hx : i.xvld = true → (i.xidx, i.xkey) = item e)
    (hd : s.pending = true → i.dout = ram (r - 1)) :
    Inv N item ram (next N s i) (r + (req (i, out N s i)).toNat) (e + (exe (i, out N s i)).toNat)
      (b + (s.rd.valid && i.wReady).toNat) (a + (s.awVld && i.awReady).toNat) := by
  obtain ⟨off_le, r_eq, pend, cnt, rdv, bkv, acnt, awv⟩ := h
  have hreq : req (i, out N s i) = (rAck s i && (i.awReady || !first s) && i.xvld && i.enRd) := rfl
  have hexe : exe (i, out N s i) = (req (i, out N s i) && s.off == maxOff N) := by
    rw [hreq]
    show (i.xvld && popReq N s i) = _
    unfold popReq busAck last
    cases i.xvld <;> cases i.enRd <;> cases rAck s i <;> simp
  have hld : awLd s i = (req (i, out N s i) && s.off == 0) := by
    rw [hreq]
    unfold awLd busAck first
    cases i.xvld <;> cases i.enRd <;> cases rAck s i <;> cases (s.off == 0) <;> cases i.awReady <;> rfl
  have hpn : (next N s i).pending = req (i, out N s i) := by
    rw [hreq]
    show (enVld s i && rAck s i && i.enRd) = _
    unfold enVld busAck
    cases i.xvld <;> cases i.enRd <;> cases rAck s i <;> simp
  have hoff : (next N s i).off = if req (i, out N s i) then (if s.off ≠ maxOff N then s.off + 1 else 0) else s.off := by
    rw [hreq]
    show nextOff N s i = _
    unfold nextOff busAck
    cases i.xvld <;> cases i.enRd <;> cases rAck s i <;> simp
  have hlast : (next N s i).lastD = if req (i, out N s i) then s.off == maxOff N else s.lastD := rfl
  have hack : req (i, out N s i) = true → rAck s i = true ∧ i.xvld = true ∧ (i.awReady = true ∨ s.off ≠ 0) := by
    rw [hreq]; unfold first
    cases i.xvld <;> cases i.enRd <;> cases rAck s i <;> cases i.awReady <;> simp
  generalize req (i, out N s i) = rq at *
  have hw : words N = maxOff N + 1 := rfl
  refine ⟨?_, ?_, ?_, ?_, ?_, ?_, ?_, ?_⟩
  · rw [hoff]; split
    · split <;> omega
    · exact off_le
  · rw [hoff, hexe]
    cases rq
    · simpa using r_eq
    · by_cases c : s.off = maxOff N
      · simp [c]; rw [Nat.mul_add, r_eq, c, hw]; omega
      · have cb : (s.off == maxOff N) = false := by simpa using c
        rw [cb, if_pos rfl, if_pos c]; simp; omega
  · rw [hpn, hlast]
    intro q; rw [q]
    simp only [if_true, Bool.toNat_true, Nat.add_sub_cancel]
    exact (last_eq off_le r_eq).symm
  · rw [hpn]
    show b + _ + (nextRd s i).valid.toNat + (nextBk s i).valid.toNat + _ = _
    have hk : s.bk.valid = true → s.rd.valid = true ∧ s.pending = false := fun q => ⟨(bkv q).1, (bkv q).2.1⟩
    revert cnt hk hack
    unfold nextRd nextBk rAck
    cases h1 : s.rd.valid <;> cases s.bk.valid <;> cases s.pending <;> cases i.wReady <;> cases rq <;> simp [h1] <;> omega
  · show (nextRd s i).valid = true → (nextRd s i).data = _ ∧ (nextRd s i).last = _
    have hk : s.bk.valid = true → s.rd.valid = true ∧ s.pending = false := fun q => ⟨(bkv q).1, (bkv q).2.1⟩
    unfold nextRd rAck
    cases hrv : s.rd.valid
    · cases hpv : s.pending
      · simp
        intro q; have := (hk q).1; rw [hrv] at this; cases this
      · have hb : s.bk.valid = false := by
          cases q : s.bk.valid
          · rfl
          · have := (hk q).1; rw [hrv] at this; cases this
        simp [hrv, hpv, hb] at cnt ⊢
        refine ⟨?_, ?_⟩
        · rw [hd hpv]; congr 1; omega
        · rw [pend hpv]; congr 1; omega
    · cases hwr : i.wReady
      · simp
        exact rdv
      · cases hpv : s.pending
        · simp
          intro q
          exact ⟨(bkv q).2.2.1, (bkv q).2.2.2⟩
        · have hb : s.bk.valid = false := by
            cases q : s.bk.valid
            · rfl
            · have := (hk q).2; rw [hpv] at this; cases this
          simp [hrv, hpv, hb] at cnt ⊢
          refine ⟨?_, ?_⟩
          · rw [hd hpv]; congr 1; omega
          · rw [pend hpv]; congr 1; omega
  · rw [hpn]
    show (nextBk s i).valid = true → (nextRd s i).valid = true ∧ rq = false ∧ (nextBk s i).data = _ ∧ (nextBk s i).last = _
    unfold nextBk nextRd
    have hk : s.bk.valid = true → s.rd.valid = true ∧ s.pending = false := fun q => ⟨(bkv q).1, (bkv q).2.1⟩
    cases hrv : s.rd.valid
    · simp
    · cases hwr : i.wReady
      · have hra : rAck s i = false := by unfold rAck; rw [hrv, hwr]; rfl
        have hrq : rq = false := by
          cases q : rq
          · rfl
          · have := (hack q).1; rw [hra] at this; cases this
        cases hpv : s.pending
        · simp [hra, hrq]
          intro q
          exact ⟨hrv, (bkv q).2.2.1, (bkv q).2.2.2⟩
        · have hb : s.bk.valid = false := by
            cases q : s.bk.valid
            · rfl
            · have := (hk q).2; rw [hpv] at this; cases this
          simp [hrv, hpv, hb] at cnt ⊢
          refine ⟨?_, hrq, ?_, ?_⟩
          · rw [hra]; exact hrv
          · rw [hd hpv]; congr 1; omega
          · rw [pend hpv]; congr 1; omega
      · simp
  · rw [hoff, hexe]
    show a + _ + (if awLd s i then true else s.awVld && !i.awReady).toNat = _
    rw [hld]
    cases hrq : rq
    · revert acnt
      cases s.awVld <;> cases i.awReady <;> simp
    · have h3 := (hack hrq).2.2
      have h0 : s.off = 0 → i.awReady = true := by
        intro q; rcases h3 with h3 | h3
        · exact h3
        · exact absurd q h3
      by_cases c0 : s.off = 0
      · rw [h0 c0]
        by_cases c1 : s.off = maxOff N
        · have : 0 = maxOff N := by omega
          revert acnt
          cases s.awVld <;> simp [c0, ← this]
        · have cb : (s.off == maxOff N) = false := by simpa using c1
          rw [cb, if_pos rfl, if_pos c1]
          revert acnt
          cases s.awVld <;> simp [c0]
      · by_cases c1 : s.off = maxOff N
        · have : ¬ maxOff N = 0 := by omega
          revert acnt
          cases s.awVld <;> cases i.awReady <;> simp [c1, this]
        · have cb : (s.off == maxOff N) = false := by simpa using c1
          rw [cb, if_pos rfl, if_pos c1]
          revert acnt
          cases s.awVld <;> cases i.awReady <;> simp [c0]
  · show (if awLd s i then true else s.awVld && !i.awReady) = true →
      ((if awLd s i then i.xidx else s.awId), (if awLd s i then i.xkey else s.awKey)) = _
    rw [hld]
    cases hc : (rq && s.off == 0)
    · simp
      intro q1 q2
      rw [q1, q2]
      simpa using awv q1
    · simp
      simp only [Bool.and_eq_true, beq_iff_eq] at hc
      obtain ⟨h1, h2, h3⟩ := hack hc.1
      have hr : i.awReady = true := by
        rcases h3 with h3 | h3
        · exact h3
        · exact absurd hc.2 h3
      rw [hr, hx h2]
      congr 1
      rw [hc.2] at acnt
      simp at acnt ⊢
      exact acnt.symm

private theorem Feeds.init {item : Nat → Nat × κ} {a b : List (In α κ × Out α κ)} (h : Feeds item (a ++ b)) :
    Feeds item a := by
  intro pre e post he hv
  exact h pre e (post ++ b) (by rw [he]; simp) hv

private theorem Answers.init {ram : Nat → α} {a b : List (In α κ × Out α κ)} (h : Answers ram (a ++ b)) :
    Answers ram a := by
  intro pre e e' post he hv
  exact h pre e e' (post ++ b) (by rw [he]; simp) hv

private theorem countP_snoc {β : Type _} (p : β → Bool) (l : List β) (x : β) :
    (l ++ [x]).countP p = l.countP p + (p x).toNat := by
  rw [List.countP_append, List.countP_singleton]
  cases p x <;> rfl

private theorem range_map_snoc {β : Type _} (f : Nat → β) (n : Nat) (c : Bool) (v : β) (h : c = true → v = f n) :
    (List.range n).map f ++ (if c then some v else none).toList = (List.range (n + c.toNat)).map f := by
  cases c
  · simp
  · simp [List.range_succ, h rfl]

private theorem filterMap_snoc {β γ : Type _} (f : β → Option γ) (l : List β) (x : β) :
    (l ++ [x]).filterMap f = l.filterMap f ++ (f x).toList := by
  rw [List.filterMap_append]
  cases h : f x <;> simp [h]

private theorem reach (N : Nat) (item : Nat → Nat × κ) (ram : Nat → α) (s0 : St α κ) (h0 : IsInit s0)
    (is : List (In α κ)) (hf : Feeds item ((machine N).trace s0 is)) (ha : Answers ram ((machine N).trace s0 is)) :
    ∃ b a, Inv N item ram ((machine N).final s0 is) (reqs ((machine N).trace s0 is))
        (execs ((machine N).trace s0 is)) b a ∧
      (((machine N).final s0 is).pending = true → ∃ pre e, (machine N).trace s0 is = pre ++ [e] ∧ req e = true) ∧
      beats ((machine N).trace s0 is) = (List.range b).map (fun n => (ram n, lastOf N n)) ∧
      aws ((machine N).trace s0 is) = (List.range a).map (fun n => ((item n).1, (item n).2, N - 1)) ∧
      reads ((machine N).trace s0 is) = (List.range (reqs ((machine N).trace s0 is))).map
        (fun n => ((item (n / words N)).1, n % words N)) := by
  induction is using List.reverseRecOn with
  | nil =>
    obtain ⟨h1, h2, h3, h4, h5⟩ := h0
    refine ⟨0, 0, ⟨?_, ?_, ?_, ?_, ?_, ?_, ?_, ?_⟩, ?_, rfl, rfl, rfl⟩
    · show s0.off ≤ _; omega
    · show 0 = words N * 0 + s0.off; omega
    · show s0.pending = true → _; rw [h3]; intro q; cases q
    · show 0 + s0.rd.valid.toNat + s0.bk.valid.toNat + s0.pending.toNat = 0
      rw [h3, h4, h5]; rfl
    · show s0.rd.valid = true → _; rw [h4]; intro q; cases q
    · show s0.bk.valid = true → _; rw [h5]; intro q; cases q
    · show 0 + s0.awVld.toNat = 0 + (if s0.off = 0 then 0 else 1)
      rw [h1, h2]; rfl
    · show s0.awVld = true → _; rw [h1]; intro q; cases q
    · show s0.pending = true → _; rw [h3]; intro q; cases q
  | append_singleton is i ih =>
    have e : (machine N).trace s0 (is ++ [i]) = (machine N).trace s0 is ++
      [(i, out N ((machine N).final s0 is) i)] := Machine.trace_snoc _ _ _ _
    have ef : (machine N).final s0 (is ++ [i]) = next N ((machine N).final s0 is) i := by
      rw [Machine.final_append]; rfl
    rw [e] at hf ha
    obtain ⟨b, a, hI, hp, hb, haw, hrd⟩ := ih hf.init ha.init
    rw [e, ef]
    generalize (machine N).trace s0 is = tr at *
    generalize (machine N).final s0 is = s at *
    have hx : i.xvld = true → (i.xidx, i.xkey) = item (execs tr) := hf tr (i, out N s i) [] rfl
    have hd : s.pending = true → i.dout = ram (reqs tr - 1) := by
      intro q
      obtain ⟨pre, e1, he, hr⟩ := hp q
      have := ha pre e1 (i, out N s i) [] (by rw [he]; simp) hr
      rw [he, reqs, countP_snoc, hr]
      exact this
    have hst := step hI hx hd
    refine ⟨b + (s.rd.valid && i.wReady).toNat, a + (s.awVld && i.awReady).toNat, ?_, ?_, ?_, ?_, ?_⟩
    · rw [reqs, countP_snoc, execs, countP_snoc]
      exact hst
    · intro q
      refine ⟨tr, _, rfl, ?_⟩
      have : (next N s i).pending = req (i, out N s i) := by
        show (enVld s i && rAck s i && i.enRd) = (enVld s i && i.enRd)
        unfold enVld busAck
        cases i.xvld <;> cases i.enRd <;> cases rAck s i <;> simp
      rw [← this]; exact q
    · rw [beats, filterMap_snoc]
      show beats tr ++ (if s.rd.valid && i.wReady then some (s.rd.data, s.rd.last) else none).toList = _
      rw [hb]
      apply range_map_snoc
      intro q
      simp only [Bool.and_eq_true] at q
      obtain ⟨q1, q2⟩ := hI.rdv q.1
      rw [q1, q2]
    · rw [aws, filterMap_snoc]
      show aws tr ++ (if s.awVld && i.awReady then some (s.awId, s.awKey, N - 1) else none).toList = _
      rw [haw]
      apply range_map_snoc
      intro q
      simp only [Bool.and_eq_true] at q
      have := hI.awv q.1
      rw [← this]
    · rw [reads, filterMap_snoc]
      show reads tr ++ (if req (i, out N s i) then some (i.xidx, s.off) else none).toList = _
      rw [hrd]
      show _ = List.map _ (List.range (List.countP req (tr ++ [(i, out N s i)])))
      rw [countP_snoc]
      apply range_map_snoc
      intro q
      have hv : i.xvld = true := by
        revert q
        show (rAck s i && (i.awReady || !first s) && i.xvld && i.enRd) = true → _
        cases i.xvld <;> simp
      have hxx := hx hv
      have hlt := hI.off_le
      have hw : words N = maxOff N + 1 := rfl
      have hr := hI.r_eq
      have d1 : reqs tr / words N = execs tr := by
        rw [hr, Nat.mul_add_div (by omega), Nat.div_eq_of_lt (by omega)]; omega
      have d2 : reqs tr % words N = s.off := by
        rw [hr, Nat.mul_add_mod, Nat.mod_eq_of_lt (by omega)]
      rw [d1, d2, ← hxx]

/-- **C86** What is sent, for every cache line of `N` words: accepted addresses are those of the taken items in
order; the accepted data are the words read from the memory in order, each `words N`-th marked as last; the memory is
read word by word for each item. Nothing is lost: at most two words are waiting, and a taken item has its address
sent or ready to be sent. -/
theorem wdispatch_stream (N : Nat) (item : Nat → Nat × κ) (ram : Nat → α) (s0 : St α κ) (h0 : IsInit s0)
    (is : List (In α κ)) (hf : Feeds item ((machine N).trace s0 is)) (ha : Answers ram ((machine N).trace s0 is)) :
    let tr := (machine N).trace s0 is
    aws tr = (List.range (aws tr).length).map (fun n => ((item n).1, (item n).2, N - 1)) ∧
    beats tr = (List.range (beats tr).length).map (fun n => (ram n, n % words N == words N - 1)) ∧
    reads tr = (List.range (reqs tr)).map (fun n => ((item (n / words N)).1, n % words N)) ∧
    (beats tr).length ≤ reqs tr ∧ reqs tr ≤ (beats tr).length + 2 ∧
    execs tr = reqs tr / words N ∧ execs tr ≤ (aws tr).length + 1 ∧ (aws tr).length ≤ execs tr + 1 := by
  intro tr
  obtain ⟨b, a, hI, -, hb, haw, hrd⟩ := reach N item ram s0 h0 is hf ha
  have lb : (beats tr).length = b := by rw [hb]; simp
  have la : (aws tr).length = a := by rw [haw]; simp
  have hc := hI.cnt
  have hac := hI.acnt
  rw [lb, la]
  refine ⟨haw, hb, hrd, ?_, ?_, ?_, ?_, ?_⟩
  · show b ≤ reqs ((machine N).trace s0 is); omega
  · show reqs ((machine N).trace s0 is) ≤ b + 2
    have hk : ((machine N).final s0 is).bk.valid = true → ((machine N).final s0 is).pending = false :=
      fun q => (hI.bkv q).2.1
    have h1 := Bool.toNat_le ((machine N).final s0 is).rd.valid
    revert hc hk
    cases ((machine N).final s0 is).bk.valid <;> cases ((machine N).final s0 is).pending <;> simp <;> omega
  · have hr := hI.r_eq
    have hlt := hI.off_le
    have hw : words N = maxOff N + 1 := rfl
    show _ = reqs ((machine N).trace s0 is) / words N
    rw [hr, Nat.mul_add_div (by omega), Nat.div_eq_of_lt (by omega)]; rfl
  · show execs ((machine N).trace s0 is) ≤ _
    have := Bool.toNat_le ((machine N).final s0 is).awVld
    revert hac; split <;> omega
  · show _ ≤ execs ((machine N).trace s0 is) + 1
    revert hac; split <;> omega

/-- Full statement of **C86**: the number of words of each burst is what the address channel announces. -/
def BurstLength : Prop := ∀ N, 0 < N → words N = N

/-- **C86** The burst has the announced length exactly if the cache line has a power of two of bus words. -/
theorem wdispatch_burst_partial (N : Nat) (hN : 0 < N) : words N = N ↔ ∃ k, N = 2 ^ k := by
  unfold words maxOff
  split
  · rename_i h; subst h; exact ⟨fun _ => ⟨0, rfl⟩, fun _ => rfl⟩
  · rename_i h
    have hp := Nat.two_pow_pos (log2ceil N)
    constructor
    · intro q; exact ⟨log2ceil N, by omega⟩
    · rintro ⟨k, hk⟩
      have hk0 : k ≠ 0 := by intro q; subst q; exact h hk
      have : log2ceil N = k := by
        unfold log2ceil
        have hp := Nat.two_pow_pos (k - 1)
        have hk' : 2 ^ k = 2 * 2 ^ (k - 1) := by rw [← Nat.pow_succ']; congr 1; omega
        rw [if_neg (by omega)]
        have : Nat.log2 (N - 1) = k - 1 :=
          (Nat.log2_eq_iff (by omega)).2 ⟨by omega, by rw [show k - 1 + 1 = k by omega]; omega⟩
        omega
      rw [this, hk]; omega

/-- **C86** is false: with a line of 3 words 4 are sent. -/
theorem wdispatch_burst_wrong : ¬ BurstLength := by
  intro h; exact absurd (h 3 (by decide)) (by decide)

/-- Full statement of **C87**: a slave which accepts an address only after it is offered gets an offer once there is an
item and the memory and the data channel are ready. -/
def OffersFirst (N : Nat) : Prop := ∀ (s0 : St Nat Nat), IsInit s0 → ∀ (stim : Nat → In Nat Nat),
  (∀ t, (stim t).xvld = true ∧ (stim t).enRd = true ∧ (stim t).wReady = true) →
  (∀ t, (stim t).awReady = ((machine N).outAt s0 stim t).awVld) →
  ∃ t, ((machine N).outAt s0 stim t).awVld = true

private theorem never_aux (N : Nat) (is : List (In α κ)) : ∀ s0 : St α κ, s0.awVld = false → s0.off = 0 →
    (∀ e ∈ (machine N).trace s0 is, e.1.awReady = e.2.awVld) →
    ((machine N).final s0 is).awVld = false ∧ ∀ e ∈ (machine N).trace s0 is, e.2.awVld = false ∧ req e = false := by
  induction is with
  | nil => intro s0 h1 h2 _; exact ⟨h1, by simp⟩
  | cons i is ih =>
    intro s0 h1 h2 h
    simp only [Machine.trace_cons, List.mem_cons, forall_eq_or_imp] at h ⊢
    have hr : i.awReady = false := by
      have := h.1
      rw [this]; exact h1
    have hba : busAck s0 i = false := by
      unfold busAck first; rw [hr, h2]; simp
    have hn1 : ((machine N).next s0 i).awVld = false := by
      show (if awLd s0 i then true else s0.awVld && !i.awReady) = false
      unfold awLd; rw [hba, h1]; rfl
    have hn2 : ((machine N).next s0 i).off = 0 := by
      show nextOff N s0 i = 0
      unfold nextOff; rw [hba]; exact h2
    obtain ⟨a, b⟩ := ih _ hn1 hn2 h.2
    refine ⟨a, ⟨h1, ?_⟩, b⟩
    show (enVld s0 i && i.enRd) = false
    unfold enVld; rw [hba]; rfl

/-- **C87** is false for each size: with such a slave no address is ever offered and nothing is ever read,
whatever the other inputs do. -/
theorem wdispatch_deadlock (N : Nat) (s0 : St α κ) (h0 : IsInit s0) (is : List (In α κ))
    (h : ∀ e ∈ (machine N).trace s0 is, e.1.awReady = e.2.awVld) :
    ∀ e ∈ (machine N).trace s0 is, e.2.awVld = false ∧ req e = false :=
  (never_aux N is s0 h0.1 h0.2.1 h).2

theorem wdispatch_not_offered (N : Nat) : ¬ OffersFirst N := by
  intro h
  let s0 : St Nat Nat := ⟨false, 0, 0, 0, false, false, ⟨false, 0, false⟩, ⟨false, 0, false⟩⟩
  let i : In Nat Nat := ⟨true, 0, 0, true, 0, false, true⟩
  have key : ∀ t, ((machine N).stateAt s0 (fun _ => i) t).awVld = false ∧
      ((machine N).stateAt s0 (fun _ => i) t).off = 0 := by
    intro t
    induction t with
    | zero => exact ⟨rfl, rfl⟩
    | succ t ih =>
      show (next N ((machine N).stateAt s0 (fun _ => i) t) i).awVld = false ∧
        (next N ((machine N).stateAt s0 (fun _ => i) t) i).off = 0
      generalize (machine N).stateAt s0 (fun _ => i) t = s at *
      have hba : busAck s i = false := by
        unfold busAck first; rw [ih.2]; simp [i]
      refine ⟨?_, ?_⟩
      · show (if awLd s i then true else s.awVld && !i.awReady) = false
        unfold awLd; rw [hba, ih.1]; rfl
      · show nextOff N s i = 0
        unfold nextOff; rw [hba]; exact ih.2
  obtain ⟨t, ht⟩ := h s0 ⟨rfl, rfl, rfl, rfl, rfl⟩ (fun _ => i) (fun _ => ⟨rfl, rfl, rfl⟩) (fun t => (key t).1.symm)
  have := (key t).1
  rw [show ((machine N).outAt s0 (fun _ => i) t).awVld = ((machine N).stateAt s0 (fun _ => i) t).awVld from rfl, this] at ht
  cases ht

/-- **C87**, what holds: if the slave is ready the address is offered in the cycle after the item came. Missing:
slaves which wait for the offer. -/
theorem wdispatch_offers_partial (N : Nat) (s0 : St α κ) (h0 : IsInit s0) (i j : In α κ)
    (hi : i.xvld = true ∧ i.enRd = true ∧ i.awReady = true) :
    ((machine N).outAfter s0 [i] j).awVld = true ∧ ((machine N).outAfter s0 [i] j).awKey = i.xkey := by
  obtain ⟨h1, h2, h3, h4, h5⟩ := h0
  have : awLd s0 i = true := by
    unfold awLd busAck rAck first; rw [h2, h4, hi.1, hi.2.1, hi.2.2]; rfl
  refine ⟨?_, ?_⟩
  · show (if awLd s0 i then true else s0.awVld && !i.awReady) = true
    rw [this]; rfl
  · show (if awLd s0 i then i.xkey else s0.awKey) = i.xkey
    rw [this]; rfl

/-- Two items of a line of two words, with a stall of the data channel. -/
def exIs : List (In Nat Nat) :=
  [⟨true, 3, 30, true, 0, true, true⟩, ⟨true, 3, 30, true, 100, false, false⟩, ⟨true, 4, 40, true, 101, false, false⟩,
   ⟨true, 4, 40, true, 0, true, true⟩, ⟨true, 4, 40, true, 102, false, true⟩, ⟨false, 0, 0, true, 103, false, true⟩]
def exS : St Nat Nat := ⟨false, 0, 0, 0, false, false, ⟨false, 0, false⟩, ⟨false, 0, false⟩⟩

example : IsInit exS ∧ beats ((machine 2).trace exS exIs) = [(100, false), (101, true), (102, false)] ∧
    aws ((machine 2).trace exS exIs) = [(3, 30, 1)] ∧ reads ((machine 2).trace exS exIs) = [(3, 0), (3, 1), (4, 0), (4, 1)] := by
  refine ⟨⟨rfl, rfl, rfl, rfl, rfl⟩, by decide, by decide, by decide⟩

example : Feeds (fun n => if n = 0 then (3, 30) else (4, 40)) ((machine 2).trace exS exIs) := by
  intro pre e post he hv
  match pre, he with
  | [], he => cases he; decide
  | [_], he => cases he; decide
  | [_, _], he => cases he; decide
  | [_, _, _], he => cases he; decide
  | [_, _, _, _], he => cases he; decide
  | [_, _, _, _, _], he => cases he; cases hv
  | _ :: _ :: _ :: _ :: _ :: _ :: _, he => simp [exIs, Machine.trace] at he

example : Answers (fun n => 100 + n) ((machine 2).trace exS exIs) := by
  intro pre e e' post he hv
  match pre, he with
  | [], he => cases he; decide
  | [_], he => cases he; decide
  | [_, _], he => cases he; cases hv
  | [_, _, _], he => cases he; decide
  | [_, _, _, _], he => cases he; decide
  | _ :: _ :: _ :: _ :: _ :: _, he =>
    have := congrArg List.length he
    simp [exIs] at this
    omega

end Verif.AxiWDispatch
