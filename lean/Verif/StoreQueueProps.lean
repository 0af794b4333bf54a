import Verif.StoreQueueInv
/-!
# Properties C335-C339 of the speculative read of `Axi4StoreQueueWritePropagating`
-/
namespace Verif.StoreQueue

open WriteAgg (Cfg BW lines words mBs bytesIn bytesOut MasterOk MemOk)

variable {α : Type}

/-! ## The pipeline -/

theorem agg_final (g : Cfg) (xs : List (In α)) : ∀ s : St α,
    ((machine g).final s xs).agg = (WriteAgg.machine g).final s.agg (xs.map (·.agg)) ∧
    aggTr ((machine g).trace s xs) = (WriteAgg.machine g).trace s.agg (xs.map (·.agg)) := by
  induction xs with
  | nil => intro s; exact ⟨rfl, rfl⟩
  | cons x xs ih =>
    intro s
    obtain ⟨h1, h2⟩ := ih (next g s x)
    refine ⟨h1, ?_⟩
    show (x.agg, _) :: aggTr ((machine g).trace (next g s x) xs) = _
    rw [h2]; rfl

/-- Both registers of the first stage are filled together. -/
theorem occ_eq (g : Cfg) (s0 : St α) (h0 : IsInit g s0) (xs : List (In α)) :
    ((machine g).final s0 xs).lr.occ = ((machine g).final s0 xs).t0.occ := by
  refine (machine g).inv_final (fun s => s.lr.occ = s.t0.occ) (fun _ => True) ?_ xs s0 (by rw [h0.lr, h0.t0]) (by simp)
  intro s x h _
  show (HsReg.stageNext s.lr (t0InRd s x) (lookupIn s x) (lrRd s x)).occ =
    (HsReg.stageNext s.t0 (lrInRd s x) (recIn s x) (t0Rd s x)).occ
  unfold HsReg.stageNext t0InRd lrInRd t0Rd lrRd HsReg.stageRd
  simp only [h]

/-- Ids inside the pipeline, older first. -/
private def held (s : St α) : List Nat :=
  given (s.t1.occ && s.t1.reg.reqValid) s.t1.reg.reqId ++ given (s.t0.occ && s.t0.reg.reqValid) s.t0.reg.reqId

private theorem held_len (s : St α) : (held s).length ≤ 2 := by
  unfold held
  rw [List.length_append]
  cases (s.t1.occ && s.t1.reg.reqValid) <;> cases (s.t0.occ && s.t0.reg.reqValid) <;> simp [given]

/-- **C335** Each accepted speculative read is answered once, with its id, in order; at most 2 are inside. -/
theorem sq_answers (g : Cfg) (s0 : St α) (h0 : IsInit g s0) (xs : List (In α)) :
    let tr := (machine g).trace s0 xs
    answers tr <+: reqs tr ∧ (reqs tr).length ≤ (answers tr).length + 2 := by
  intro tr
  have h := ((machine g).conserve (fun s => s.lr.occ = s.t0.occ) (fun _ => True) held
    (fun e => if e.2.rqRd then some ((e.1.rq.map Prod.fst).getD 0) else none)
    (fun e => if e.2.rVld && e.1.rdRdy then some e.2.rId else none) ?_ xs s0 (by rw [h0.lr, h0.t0]) (by simp)).2
  · have hz : held s0 = [] := by unfold held; rw [h0.t0, h0.t1]; rfl
    rw [hz, List.nil_append] at h
    have h' : reqs tr = answers tr ++ held ((machine g).final s0 xs) := h
    refine ⟨⟨_, h'.symm⟩, ?_⟩
    rw [h', List.length_append]
    have := held_len ((machine g).final s0 xs)
    omega
  · intro s x ho _
    refine ⟨?_, ?_⟩
    · show (HsReg.stageNext s.lr (t0InRd s x) (lookupIn s x) (lrRd s x)).occ =
        (HsReg.stageNext s.t0 (lrInRd s x) (recIn s x) (t0Rd s x)).occ
      unfold HsReg.stageNext t0InRd lrInRd t0Rd lrRd HsReg.stageRd
      simp only [ho]
    · obtain ⟨sa, ⟨o0, r0⟩, ⟨o1, r1⟩, ⟨ol, rl⟩, fr, dd⟩ := s
      have ho' : ol = o0 := ho
      subst ho'
      obtain ⟨xa, rq, rdy⟩ := x
      obtain ⟨k0, d0, v0, rk0, ri0, re0, rv0⟩ := r0
      obtain ⟨k1, d1, v1, rk1, ri1, re1, rv1⟩ := r1
      cases rq <;> cases ol <;> cases o1 <;> cases rdy <;> cases rv0 <;> cases rv1 <;> rfl

/-- A read accepted in the cycle `x0` is in the last stage after `x1` if the consumer is ready in `x0`, `x1`. -/
private structure Pipe (g : Cfg) (s : St α) (x0 x1 : In α) (s2 : St α) : Prop where
  o1 : s2.t1.occ = true
  r1 : s2.t1.reg = recIn s x0
  r0 : s2.t0.reg = recIn (next g s x0) x1
  fr : s2.fram = (List.range g.M).any (fun k => lookupIn s x0 k && (next g s x0).agg.fifo.valid k)
  dd : s2.fram = true → s2.dout = (next g s x0).agg.ram.mem
    (OneHot.oneHotToBin g.M (fun k => lookupIn s x0 k && (next g s x0).agg.fifo.valid k))

private theorem pipe (g : Cfg) (s : St α) (x0 x1 : In α) (ho : s.lr.occ = s.t0.occ) (h0 : x0.rdRdy = true) (h1 : x1.rdRdy = true) :
    Pipe g s x0 x1 (next g (next g s x0) x1) := by
  have a1 : t1InRd s x0 = true := by unfold t1InRd t1Rd HsReg.stageRd; rw [h0]; simp
  have a2 : t0InRd s x0 = true := by
    unfold t0InRd t0Rd HsReg.stageRd; rw [a1, ho]; cases s.t0.occ <;> rfl
  have a3 : lrInRd s x0 = true := by
    unfold lrInRd lrRd HsReg.stageRd; rw [a1, ho]; cases s.t0.occ <;> rfl
  have e0 : (next g s x0).t0 = ⟨true, recIn s x0⟩ := by
    show HsReg.stageNext s.t0 (lrInRd s x0) (recIn s x0) (t0Rd s x0) = _
    unfold t0InRd HsReg.stageRd at a2
    unfold HsReg.stageNext HsReg.stageWe
    rw [a3]
    cases hq : s.t0.occ <;> simp_all
  have el : (next g s x0).lr = ⟨true, lookupIn s x0⟩ := by
    show HsReg.stageNext s.lr (t0InRd s x0) (lookupIn s x0) (lrRd s x0) = _
    unfold lrInRd HsReg.stageRd at a3
    unfold HsReg.stageNext HsReg.stageWe
    rw [a2]
    cases hq : s.lr.occ <;> simp_all
  generalize hs1 : next g s x0 = s1 at *
  have b1 : t1InRd s1 x1 = true := by unfold t1InRd t1Rd HsReg.stageRd; rw [h1]; simp
  have b2 : t0Rd s1 x1 = true := by unfold t0Rd; rw [el, b1]; rfl
  have b3 : lrRd s1 x1 = true := by unfold lrRd; rw [e0, b1]; rfl
  have b4 : lrInRd s1 x1 = true := by unfold lrInRd HsReg.stageRd; rw [b3]; simp
  have hf : framNext g s1 x1 = (List.range g.M).any (fun k => lookupIn s x0 k && s1.agg.fifo.valid k) := by
    unfold framNext
    rw [b3, el]
    show (List.range g.M).any (inRam s1) = _
    unfold inRam
    rw [el]
  have hi : inRam s1 = fun k => lookupIn s x0 k && s1.agg.fifo.valid k := by
    unfold inRam; rw [el]
  have e1 : (next g s1 x1).t1 = ⟨true, s1.t0.reg⟩ := by
    show HsReg.stageNext s1.t1 (s1.lr.occ && s1.t0.occ) s1.t0.reg (t1Rd s1 x1) = _
    have h4 : t1Rd s1 x1 = true := by unfold t1Rd; rw [h1]; rfl
    unfold HsReg.stageNext HsReg.stageWe
    rw [h4, el, e0]
    cases s1.t1.occ <;> rfl
  subst hs1
  refine ⟨by rw [e1], by rw [e1, e0], ?_, hf, ?_⟩
  · show (HsReg.stageNext (next g s x0).t0 (lrInRd (next g s x0) x1) (recIn (next g s x0) x1) (t0Rd (next g s x0) x1)).reg = _
    unfold HsReg.stageNext HsReg.stageWe
    rw [b4, b2]; simp
  · intro q
    have q' : framNext g (next g s x0) x1 = true := q
    show (if framNext g (next g s x0) x1 then (next g s x0).agg.ram.mem (OneHot.oneHotToBin g.M (inRam (next g s x0)))
      else (next g s x0).dout) = _
    rw [q', hi]; rfl

/-! ## What is answered -/

/-- The run of the aggregator after the first `k` of the cycles. -/
private structure Run (g : Cfg) (tr : WriteAgg.Tr α) (s : WriteAgg.St α) : Prop where
  known : ∃ key word rw' ph p e r b a, WriteAgg.Known g tr s key word rw' ph p e r b a
  j : WriteAgg.JInv g.M tr s

private theorem run_ok (g : Cfg) (hM : 0 < g.M) (hn : g.n = 1) (s0 : St α) (h0 : IsInit g s0) (xs : List (In α))
    (hma : MasterOk g.n (aggTr ((machine g).trace s0 xs))) (hme : MemOk g.n (aggTr ((machine g).trace s0 xs))) :
    Run g (aggTr ((machine g).trace s0 xs)) ((machine g).final s0 xs).agg := by
  obtain ⟨e1, e2⟩ := agg_final g xs s0
  rw [e2] at hma hme ⊢
  rw [e1]
  have hn0 : 0 < g.n := by omega
  have hw : AxiWDispatch.words g.n = g.n := (AxiWDispatch.wdispatch_burst_partial g.n hn0).2 ⟨0, hn⟩
  exact ⟨WriteAgg.reach g hM hn0 hw _ h0.agg _ hma hme, WriteAgg.jreach g hM hn _ h0.agg _ hma hme⟩

private theorem aggTr_app (g : Cfg) (s0 : St α) (a b : List (In α)) : ∃ t,
    aggTr ((machine g).trace s0 (a ++ b)) = aggTr ((machine g).trace s0 a) ++ t := by
  rw [Machine.trace_append]
  exact ⟨_, List.map_append⟩

private theorem ma_pre {n : Nat} {a b : WriteAgg.Tr α} (h : MasterOk n (a ++ b)) : MasterOk n a := h.init
private theorem me_pre {n : Nat} {a b : WriteAgg.Tr α} (h : MemOk n (a ++ b)) : MemOk n a := h.init

private theorem lines_pre (a b : WriteAgg.Tr α) : lines a <+: lines (a ++ b) := by
  unfold lines; rw [List.filterMap_append]; exact List.prefix_append _ _
private theorem words_pre (a b : WriteAgg.Tr α) : words a <+: words (a ++ b) := by
  unfold words; rw [List.filterMap_append]; exact List.prefix_append _ _

private theorem get_pre {β : Type} {a b : List β} (h : a <+: b) {j : Nat} {v : β} (hj : a[j]? = some v) : b[j]? = some v := by
  obtain ⟨t, rfl⟩ := h
  have : j < a.length := by
    rcases Nat.lt_or_ge j a.length with h | h
    · exact h
    · rw [List.getElem?_eq_none h] at hj; cases hj
  rw [List.getElem?_append_left this, hj]

/-- The cycles of one speculative read: the request is in `x0`, the answer is offered in the second cycle after it. -/
structure Read (g : Cfg) (s0 : St α) (xs : List (In α)) (x0 x1 : In α) (id key : Nat) : Prop where
  M_pos : 0 < g.M
  one : g.n = 1
  init : IsInit g s0
  req : x0.rq = some (id, key)
  rdy0 : x0.rdRdy = true
  rdy1 : x1.rdRdy = true
  master : MasterOk g.n (aggTr ((machine g).trace s0 (xs ++ [x0, x1])))
  mem : MemOk g.n (aggTr ((machine g).trace s0 (xs ++ [x0, x1])))

section
variable {g : Cfg} {s0 : St α} {xs : List (In α)} {x0 x1 : In α} {id key : Nat}

private theorem Read.run0 (h : Read g s0 xs x0 x1 id key) :
    Run g (aggTr ((machine g).trace s0 xs)) ((machine g).final s0 xs).agg := by
  obtain ⟨t, ht⟩ := aggTr_app g s0 xs [x0, x1]
  have h1 := h.master; have h2 := h.mem
  rw [ht] at h1 h2
  exact run_ok g h.M_pos h.one s0 h.init xs (ma_pre h1) (me_pre h2)

private theorem Read.run1 (h : Read g s0 xs x0 x1 id key) :
    Run g (aggTr ((machine g).trace s0 (xs ++ [x0]))) (next g ((machine g).final s0 xs) x0).agg := by
  obtain ⟨t, ht⟩ := aggTr_app g s0 (xs ++ [x0]) [x1]
  rw [List.append_assoc] at ht
  have h1 := h.master; have h2 := h.mem
  rw [show [x0, x1] = [x0] ++ [x1] from rfl, ht] at h1 h2
  have := run_ok g h.M_pos h.one s0 h.init (xs ++ [x0]) (ma_pre h1) (me_pre h2)
  rwa [Machine.final_append] at this

private theorem Read.run2 (h : Read g s0 xs x0 x1 id key) :
    Run g (aggTr ((machine g).trace s0 (xs ++ [x0, x1]))) (next g (next g ((machine g).final s0 xs) x0) x1).agg := by
  have := run_ok g h.M_pos h.one s0 h.init (xs ++ [x0, x1]) h.master h.mem
  rwa [Machine.final_append] at this

private theorem Read.pipe (h : Read g s0 xs x0 x1 id key) :
    Pipe g ((machine g).final s0 xs) x0 x1 (next g (next g ((machine g).final s0 xs) x0) x1) :=
  StoreQueue.pipe g _ x0 x1 (occ_eq g s0 h.init xs) h.rdy0 h.rdy1

private theorem after2 (x2 : In α) : (machine g).outAfter s0 (xs ++ [x0, x1]) x2 =
    out g (next g (next g ((machine g).final s0 xs) x0) x1) x2 := by
  unfold Machine.outAfter
  rw [Machine.final_append]; rfl

/-- **C336** The read is accepted at once and the answer comes in the second cycle after it; if it is `EXOKAY` then each write of
the line which was accepted before the read is confirmed by the memory (the `j`-th line is the `j / M`-th use of the id `j % M`). -/
theorem sq_exokay (h : Read g s0 xs x0 x1 id key) (x2 : In α) :
    ((machine g).outAfter s0 xs x0).rqRd = true ∧
    ((machine g).outAfter s0 (xs ++ [x0, x1]) x2).rVld = true ∧
    ((machine g).outAfter s0 (xs ++ [x0, x1]) x2).rId = id ∧
    (((machine g).outAfter s0 (xs ++ [x0, x1]) x2).rOk = false →
      ∀ j, ((lines (aggTr ((machine g).trace s0 xs))).map Prod.fst)[j]? = some key →
        j / g.M < mBs (j % g.M) (aggTr ((machine g).trace s0 (xs ++ [x0])))) := by
  have P := h.pipe
  have hocc := occ_eq g s0 h.init xs
  have R0 := h.run0
  obtain ⟨t01, ht01⟩ := aggTr_app g s0 xs [x0]
  have hbs : mBs (α := α) = fun k tr => tr.countP fun e => e.1.mB == some k := rfl
  have e01 : aggTr ((machine g).trace s0 (xs ++ [x0])) = aggTr ((machine g).trace s0 xs) ++
      [(x0.agg, WriteAgg.out g ((machine g).final s0 xs).agg x0.agg)] := by
    rw [Machine.trace_snoc]; unfold aggTr; rw [List.map_append]; rfl
  rw [after2]
  have hreq : ((machine g).outAfter s0 xs x0).rqRd = true := by
    show (x0.rq.isSome && t0InRd ((machine g).final s0 xs) x0 && lrInRd ((machine g).final s0 xs) x0) = true
    have a1 : t1InRd ((machine g).final s0 xs) x0 = true := by unfold t1InRd t1Rd HsReg.stageRd; rw [h.rdy0]; simp
    have a2 : t0InRd ((machine g).final s0 xs) x0 = true := by
      unfold t0InRd t0Rd HsReg.stageRd; rw [a1, hocc]; cases ((machine g).final s0 xs).t0.occ <;> rfl
    have a3 : lrInRd ((machine g).final s0 xs) x0 = true := by
      unfold lrInRd lrRd HsReg.stageRd; rw [a1, hocc]; cases ((machine g).final s0 xs).t0.occ <;> rfl
    rw [a2, a3, h.req]; rfl
  generalize (machine g).final s0 xs = s at *
  generalize hs2 : next g (next g s x0) x1 = s2 at *
  generalize aggTr ((machine g).trace s0 xs) = tr at *
  rw [e01]
  obtain ⟨p1, p2, p3, p4, p5⟩ := P
  refine ⟨hreq, ?_, ?_, ?_⟩
  · show (s2.t1.occ && s2.t1.reg.reqValid) = true
    rw [p1, p2]; simp [recIn, h.req]
  · show s2.t1.reg.reqId = id
    rw [p2]; simp [recIn, h.req]
  · intro hex j hj
    have hex' : (inActual s2 || inReg1 s2 || inReg2 s2 || s2.fram) = false := hex
    simp only [Bool.or_eq_false_iff] at hex'
    obtain ⟨⟨-, n2⟩, n3⟩ := hex'
    obtain ⟨⟨kf, wf, rf, ph, p, e, r, b, a, K⟩, J⟩ := R0
    have hll : (lines tr).length = (words tr).length := by
      have := congrArg List.length K.lines
      rw [h.one] at this
      unfold WriteAgg.ln at this
      simpa using this
    have hjl : j < (words tr).length := by
      rcases Nat.lt_or_ge j (words tr).length with q | q
      · exact q
      · rw [List.getElem?_eq_none (by rw [List.length_map, hll]; exact q)] at hj; cases hj
    have hjo : j + s.agg.tmp.occ.toNat < (words tr).length := by
      cases ho : s.agg.tmp.occ
      · simpa using hjl
      · obtain ⟨r1, -, -⟩ := WriteAgg.known_reg K h.one ho
        rcases Nat.lt_or_ge (j + 1) (words tr).length with q | q
        · simpa using q
        · exfalso
          have : j = (words tr).length - 1 := by omega
          rw [← this, hj] at r1
          simp only [Option.some.injEq] at r1
          have : inReg2 s2 = true := by
            unfold inReg2 recVld
            rw [p1, p2]
            simp [recIn, h.req, ho, ← r1]
          rw [this] at n2
          cases n2
    have hmbs : mBs (j % g.M) (tr ++ [(x0.agg, WriteAgg.out g s.agg x0.agg)]) =
        mBs (j % g.M) tr + (x0.agg.mB == some (j % g.M)).toNat := by
      unfold mBs
      rw [List.countP_append, List.countP_singleton]
      cases (x0.agg.mB == some (j % g.M)) <;> rfl
    rw [hmbs]
    rcases Nat.lt_or_ge (j / g.M) (mBs (j % g.M) tr) with q | q
    · omega
    · obtain ⟨q1, q2, q3, q4⟩ := J.item j hjo q
      rw [hj] at q3
      simp only [Option.some.injEq] at q3
      have hlk : lookupIn s x0 (j % g.M) = true := by
        unfold lookupIn; rw [q2, ← q3, h.req]; simp
      rw [p4, List.any_eq_false] at n3
      have hnv := n3 (j % g.M) (List.mem_range.2 (Nat.mod_lt _ h.M_pos))
      rw [hlk] at hnv
      simp only [Bool.true_and, Bool.not_eq_true] at hnv
      have hnv' : FifoOoo.nextValid s.agg.fifo (WriteAgg.fifoIn g s.agg x0.agg) (j % g.M) = false := hnv
      unfold FifoOoo.nextValid at hnv'
      by_cases hx : x0.agg.mB = some (j % g.M)
      · rw [hx]; simp; omega
      · rw [if_neg (show ¬ (WriteAgg.fifoIn g s.agg x0.agg).conf = some (j % g.M) from hx), q2] at hnv'
        simp at hnv'

/-- **C337** An `OKAY` answer contains the bytes of some write of the line which was accepted before the answer. -/
theorem sq_okay (h : Read g s0 xs x0 x1 id key) (x2 : In α)
    (hok : ((machine g).outAfter s0 (xs ++ [x0, x1]) x2).rOk = true) :
    ∃ (j : Nat) (w : BW α), ((lines (aggTr ((machine g).trace s0 (xs ++ [x0, x1])))).map Prod.fst)[j]? = some key ∧
      (words (aggTr ((machine g).trace s0 (xs ++ [x0, x1]))))[j]? = some w ∧
      ∀ i d, bytesIn w i = some d → ((machine g).outAfter s0 (xs ++ [x0, x1]) x2).rData i = d := by
  have P := h.pipe
  have R0 := h.run0
  have R1 := h.run1
  have R2 := h.run2
  rw [after2] at hok ⊢
  obtain ⟨t12, ht12⟩ := aggTr_app g s0 (xs ++ [x0]) [x1]
  obtain ⟨t02, ht02⟩ := aggTr_app g s0 xs [x0, x1]
  rw [List.append_assoc] at ht12
  have ht12' : aggTr ((machine g).trace s0 (xs ++ [x0, x1])) = aggTr ((machine g).trace s0 (xs ++ [x0])) ++ t12 := ht12
  generalize aggTr ((machine g).trace s0 (xs ++ [x0, x1])) = tr2 at *
  generalize aggTr ((machine g).trace s0 (xs ++ [x0])) = tr1 at *
  generalize aggTr ((machine g).trace s0 xs) = tr0 at *
  generalize (machine g).final s0 xs = s at *
  generalize hs1 : next g s x0 = s1 at *
  generalize hs2 : next g s1 x1 = s2 at *
  obtain ⟨p1, p2, p3, p4, p5⟩ := P
  rw [hs1] at p3 p4 p5
  have hreqK : (recIn s x0).reqKey = key := by simp [recIn, h.req]
  have fin : ∀ (tr : WriteAgg.Tr α) (sa : WriteAgg.St α), Run g tr sa → (∃ t, tr2 = tr ++ t) → sa.tmp.occ = true →
      sa.tmp.reg.key = key → ∃ (j : Nat) (w : BW α), ((lines tr2).map Prod.fst)[j]? = some key ∧ (words tr2)[j]? = some w ∧
      ∀ i d, bytesIn w i = some d → sa.tmp.reg.w.din i = d := by
    intro tr sa R ht ho hk
    obtain ⟨⟨kf, wf, rf, ph, p, e, r, b, a, K⟩, -⟩ := R
    obtain ⟨t, rfl⟩ := ht
    obtain ⟨r1, r2, -⟩ := WriteAgg.known_reg K h.one ho
    refine ⟨(words tr).length - 1, sa.tmp.reg.w, ?_, get_pre (words_pre _ _) r2, ?_⟩
    · rw [← hk]; exact get_pre ((lines_pre _ _).map _) r1
    · intro i d hd
      unfold bytesIn at hd
      split at hd
      · exact Option.some.inj hd
      · cases hd
  show ∃ (j : Nat) (w : BW α), ((lines tr2).map Prod.fst)[j]? = some key ∧ (words tr2)[j]? = some w ∧ ∀ i d, bytesIn w i = some d → (if inActual s2 then s2.agg.tmp.reg.w.din
    else if inReg1 s2 then s2.t0.reg.data else if inReg2 s2 then s2.t1.reg.data else s2.dout.data) i = d
  by_cases c1 : inActual s2 = true
  · rw [if_pos c1]
    unfold inActual at c1
    simp only [Bool.and_eq_true, beq_iff_eq] at c1
    refine fin tr2 s2.agg R2 ⟨[], by simp⟩ c1.1.1 ?_
    rw [c1.1.2, p2, hreqK]
  · rw [if_neg c1]
    by_cases c2 : inReg1 s2 = true
    · rw [if_pos c2]
      unfold inReg1 at c2
      simp only [Bool.and_eq_true, beq_iff_eq] at c2
      rw [p3, p2, hreqK] at c2
      have := fin tr1 s1.agg R1 ⟨_, ht12'⟩ c2.1.1.2 c2.1.2
      rw [p3]
      exact this
    · rw [if_neg c2]
      by_cases c3 : inReg2 s2 = true
      · rw [if_pos c3]
        unfold inReg2 recVld at c3
        rw [p1, p2] at c3
        simp only [Bool.and_eq_true] at c3
        have hkk : s.agg.tmp.reg.key = key := by
          have := c3.2
          simp [recIn, h.req] at this
          exact this
        have := fin tr0 s.agg R0 ⟨_, ht02⟩ c3.1.2 hkk
        rw [p2]
        exact this
      · rw [if_neg c3]
        have hf : s2.fram = true := by
          have hok' : (inActual s2 || inReg1 s2 || inReg2 s2 || s2.fram) = true := hok
          simp only [Bool.or_eq_true] at hok'
          rcases hok' with ((q | q) | q) | q
          · exact absurd q c1
          · exact absurd q c2
          · exact absurd q c3
          · exact q
        have hd := p5 hf
        rw [p4, List.any_eq_true] at hf
        obtain ⟨k', hk1, hk2⟩ := hf
        have hsp := (OneHot.oneHotToBin_spec h.M_pos (fun k => lookupIn s x0 k && s1.agg.fifo.valid k)
          ⟨k', List.mem_range.1 hk1, hk2⟩).1
        have hlt := OneHot.oneHotToBin_lt h.M_pos (fun k => lookupIn s x0 k && s1.agg.fifo.valid k)
        generalize OneHot.oneHotToBin g.M (fun k => lookupIn s x0 k && s1.agg.fifo.valid k) = k at *
        simp only [Bool.and_eq_true] at hsp
        obtain ⟨l1, l2⟩ := hsp
        unfold lookupIn at l1
        rw [h.req] at l1
        simp only [Bool.and_eq_true, beq_iff_eq] at l1
        have hcam : s1.agg.cam k = key := by
          obtain ⟨⟨kf, wf, rf, ph, p, e, r, b, a, K⟩, -⟩ := R0
          have hn0 : 0 < g.n := by rw [h.one]; exact Nat.one_pos
          have hw : AxiWDispatch.words g.n = g.n := (AxiWDispatch.wdispatch_burst_partial g.n hn0).2 ⟨0, h.one⟩
          have hc := K.inv.ctl hn0 hw
          rw [← hs1]
          show (if WriteAgg.camWrite g s.agg then upd s.agg.cam s.agg.fifo.ptr.wr s.agg.tmp.reg.key else s.agg.cam) k = key
          rw [hc.camw]
          split
          · rename_i hq
            simp only [Bool.and_eq_true] at hq
            rw [upd_ne]
            · exact l1.1
            · intro hk
              have := hq.1
              unfold WriteAgg.push FifoOoo.wrd at this
              rw [← hk, l1.2] at this
              simp at this
          · exact l1.1
        obtain ⟨-, J⟩ := R1
        obtain ⟨j, j1, j2, j3⟩ := J.slot k hlt l2
        rw [← j2] at j3
        obtain ⟨-, -, i3, i4⟩ := J.item j j1 j3
        rw [j2, hcam] at i3
        rw [j2] at i4
        cases hwj : (words tr1)[j]? with
        | none => rw [hwj] at i4; cases i4
        | some w =>
          rw [hwj] at i4
          simp only [Option.map_some, Option.some.injEq] at i4
          rw [ht12']
          refine ⟨j, w, get_pre ((lines_pre _ _).map _) i3, get_pre (words_pre _ _) hwj, ?_⟩
          intro i d hb
          rw [i4] at hb
          rw [hd]
          unfold bytesOut at hb
          split at hb
          · exact Option.some.inj hb
          · cases hb

end

/-! ## Which of the writes is returned -/

/-- Full statement of **C338**: no write of the line which was accepted before the read is newer than the returned one. -/
def Latest (α : Type) (g : Cfg) : Prop := ∀ (s0 : St α) (xs : List (In α)) (x0 x1 x2 : In α) (id key : Nat),
  Read g s0 xs x0 x1 id key → ((machine g).outAfter s0 (xs ++ [x0, x1]) x2).rOk = true →
  ∃ (j : Nat) (w : BW α), ((lines (aggTr ((machine g).trace s0 (xs ++ [x0, x1])))).map Prod.fst)[j]? = some key ∧
    (words (aggTr ((machine g).trace s0 (xs ++ [x0, x1]))))[j]? = some w ∧
    (∀ i d, bytesIn w i = some d → ((machine g).outAfter s0 (xs ++ [x0, x1]) x2).rData i = d) ∧
    ∀ j', j < j' → ((lines (aggTr ((machine g).trace s0 xs))).map Prod.fst)[j']? ≠ some key

/-- What holds of **C338**: if the line is written once, the answer contains this write. -/
theorem sq_latest_partial {g : Cfg} {s0 : St α} {xs : List (In α)} {x0 x1 : In α} {id key : Nat}
    (h : Read g s0 xs x0 x1 id key) (x2 : In α) (hok : ((machine g).outAfter s0 (xs ++ [x0, x1]) x2).rOk = true) (j : Nat)
    (hone : ∀ j', ((lines (aggTr ((machine g).trace s0 (xs ++ [x0, x1])))).map Prod.fst)[j']? = some key → j' = j) :
    ∃ w : BW α, (words (aggTr ((machine g).trace s0 (xs ++ [x0, x1]))))[j]? = some w ∧
      ∀ i d, bytesIn w i = some d → ((machine g).outAfter s0 (xs ++ [x0, x1]) x2).rData i = d := by
  obtain ⟨j', w, h1, h2, h3⟩ := sq_okay h x2 hok
  rw [hone j' h1] at h2
  exact ⟨w, h2, h3⟩

/-- Full statement of **C339**: each byte of an `OKAY` answer was written by a write of the line. -/
def Written (α : Type) (g : Cfg) : Prop := ∀ (s0 : St α) (xs : List (In α)) (x0 x1 x2 : In α) (id key : Nat),
  Read g s0 xs x0 x1 id key → ((machine g).outAfter s0 (xs ++ [x0, x1]) x2).rOk = true → ∀ i, i < g.nb →
  ∃ (j : Nat) (w : BW α), ((lines (aggTr ((machine g).trace s0 (xs ++ [x0, x1])))).map Prod.fst)[j]? = some key ∧
    (words (aggTr ((machine g).trace s0 (xs ++ [x0, x1]))))[j]? = some w ∧
    bytesIn w i = some (((machine g).outAfter s0 (xs ++ [x0, x1]) x2).rData i)

/-- What holds of **C339**: with all bytes of all writes enabled the whole answer was written. -/
theorem sq_written_partial {g : Cfg} {s0 : St α} {xs : List (In α)} {x0 x1 : In α} {id key : Nat}
    (h : Read g s0 xs x0 x1 id key) (x2 : In α) (hok : ((machine g).outAfter s0 (xs ++ [x0, x1]) x2).rOk = true)
    (hall : ∀ w ∈ words (aggTr ((machine g).trace s0 (xs ++ [x0, x1]))), ∀ i, i < g.nb → w.we i = true) :
    ∃ (j : Nat) (w : BW α), ((lines (aggTr ((machine g).trace s0 (xs ++ [x0, x1])))).map Prod.fst)[j]? = some key ∧
      (words (aggTr ((machine g).trace s0 (xs ++ [x0, x1]))))[j]? = some w ∧
      ∀ i, i < g.nb → bytesIn w i = some (((machine g).outAfter s0 (xs ++ [x0, x1]) x2).rData i) := by
  obtain ⟨j, w, h1, h2, h3⟩ := sq_okay h x2 hok
  refine ⟨j, w, h1, h2, fun i hi => ?_⟩
  have : bytesIn w i = some (w.din i) := by
    unfold bytesIn; rw [hall w (List.mem_of_getElem? h2) i hi]; rfl
  rw [this, h3 i _ this]

private def gs : Cfg := ⟨2, 1, 2⟩
private def rec0 : Rec Nat := ⟨0, fun _ => 0, false, 0, 0, false, false⟩
private def sq0 : St Nat := ⟨WriteAgg.st0, ⟨false, rec0⟩, ⟨false, rec0⟩, ⟨false, fun _ => false⟩, false, ⟨fun _ => 0, fun _ => false⟩⟩
/-- A write of the line `key` with the data `d` in the enabled bytes, the memory accepts nothing. -/
private def w1 (key d : Nat) (we : Nat → Bool) : In Nat :=
  ⟨⟨true, key, 0, true, ⟨fun i => if we i then d else 0, we⟩, true, true, false, false, none⟩, none, true⟩
private def idle : In Nat := ⟨⟨false, 0, 0, false, WriteAgg.z, true, true, false, false, none⟩, none, true⟩
private def rd (key : Nat) : In Nat := { idle with rq := some (3, key) }

private theorem sq0_init : IsInit gs sq0 :=
  ⟨⟨rfl, rfl, rfl, rfl, rfl, ⟨rfl, rfl, rfl, rfl, rfl⟩, rfl, rfl, rfl⟩, rfl, rfl, rfl, rfl⟩

private theorem mk (xs : List (In Nat)) (key : Nat)
    (h : WriteAgg.okAll 1 (aggTr ((machine gs).trace sq0 (xs ++ [rd key, idle]))) = true) : Read gs sq0 xs (rd key) idle 3 key :=
  ⟨by decide, rfl, sq0_init, rfl, rfl, rfl, (WriteAgg.okAll_sound h).1, (WriteAgg.okAll_sound h).2⟩

private def all : Nat → Bool := fun _ => true
private def twice : List (In Nat) := [w1 5 7 all, w1 5 8 all, idle, idle]
private def half : List (In Nat) := [w1 5 7 (· == 0), idle, idle]

private theorem twice_ok : Read gs sq0 twice (rd 5) idle 3 5 := mk _ _ (by decide +kernel)
private theorem half_ok : Read gs sq0 half (rd 5) idle 3 5 := mk _ _ (by decide +kernel)

private theorem lt_of_get {β : Type} {l : List β} {j : Nat} {v : β} (h : l[j]? = some v) : j < l.length := by
  rcases Nat.lt_or_ge j l.length with q | q
  · exact q
  · rw [List.getElem?_eq_none q] at h; cases h

/-- **C338** fails: the line 5 is written with 7 and then with 8, the read returns 7. -/
theorem sq_not_latest : ¬ Latest Nat gs := by
  intro h
  obtain ⟨j, w, h1, h2, h3, h4⟩ := h sq0 twice (rd 5) idle idle 3 5 twice_ok (by decide +kernel)
  have hj := lt_of_get h1
  rw [show ((lines (aggTr ((machine gs).trace sq0 (twice ++ [rd 5, idle])))).map Prod.fst).length = 2 by decide +kernel] at hj
  have : j = 0 ∨ j = 1 := by omega
  rcases this with rfl | rfl
  · exact h4 1 (by decide) (by decide +kernel)
  · have e : ((words (aggTr ((machine gs).trace sq0 (twice ++ [rd 5, idle]))))[1]?).map (fun w => bytesIn w 0) = some (some 8) := by
      decide +kernel
    rw [h2] at e
    have := h3 0 8 (Option.some.inj e)
    revert this
    decide +kernel

/-- **C339** fails: the byte 1 of the line was not written, the answer is `OKAY`. -/
theorem sq_not_written : ¬ Written Nat gs := by
  intro h
  obtain ⟨j, w, h1, h2, h3⟩ := h sq0 half (rd 5) idle idle 3 5 half_ok (by decide +kernel) 1 (by decide)
  have hj := lt_of_get h1
  rw [show ((lines (aggTr ((machine gs).trace sq0 (half ++ [rd 5, idle])))).map Prod.fst).length = 1 by decide +kernel] at hj
  have : j = 0 := by omega
  subst this
  have e : ((words (aggTr ((machine gs).trace sq0 (half ++ [rd 5, idle]))))[0]?).map (fun w => bytesIn w 1) = some none := by
    decide +kernel
  rw [h2] at e
  have e' : bytesIn w 1 = none := Option.some.inj e
  rw [e'] at h3
  cases h3

/-! ## Non-vacuity -/

/-- A read of a line which is stored, of a line which is not, and of a line in `w_in_reg`. -/
example : Read gs sq0 twice (rd 5) idle 3 5 ∧ Read gs sq0 twice (rd 6) idle 3 6 ∧
    Read gs sq0 [w1 4 7 all, w1 5 9 all] (rd 5) idle 3 5 ∧
    ((machine gs).outAfter sq0 (twice ++ [rd 5, idle]) idle).rOk = true ∧
    ((machine gs).outAfter sq0 (twice ++ [rd 6, idle]) idle).rOk = false ∧
    ((machine gs).outAfter sq0 ([w1 4 7 all, w1 5 9 all] ++ [rd 5, idle]) idle).rOk = true ∧
    ((machine gs).outAfter sq0 ([w1 4 7 all, w1 5 9 all] ++ [rd 5, idle]) idle).rData 1 = 9 :=
  ⟨twice_ok, mk _ _ (by decide +kernel), mk _ _ (by decide +kernel), by decide +kernel, by decide +kernel, by decide +kernel,
    by decide +kernel⟩

/-- The hypotheses of the partial theorems: one write of the line 5, all bytes. -/
example : (∀ j' : Nat, j' < 5 → ((lines (aggTr ((machine gs).trace sq0 ([w1 4 7 all, w1 5 9 all] ++ [rd 5, idle])))).map
      Prod.fst)[j']? = some 5 → j' = 1) ∧
    (∀ w ∈ words (aggTr ((machine gs).trace sq0 ([w1 4 7 all, w1 5 9 all] ++ [rd 5, idle]))), ∀ i, i < gs.nb → w.we i = true) ∧
    reqs ((machine gs).trace sq0 ([w1 4 7 all, w1 5 9 all] ++ [rd 5, idle, idle])) = [3] ∧
    answers ((machine gs).trace sq0 ([w1 4 7 all, w1 5 9 all] ++ [rd 5, idle, idle])) = [3] := by
  refine ⟨by decide +kernel, ?_, by decide +kernel, by decide +kernel⟩
  have : (words (aggTr ((machine gs).trace sq0 ([w1 4 7 all, w1 5 9 all] ++ [rd 5, idle])))).all
      (fun w => w.we 0 && w.we 1) = true := by decide +kernel
  rw [List.all_eq_true] at this
  intro w hw i hi
  have h2 := this w hw
  simp only [Bool.and_eq_true] at h2
  have : i = 0 ∨ i = 1 := by have : gs.nb = 2 := rfl; omega
  rcases this with rfl | rfl
  · exact h2.1
  · exact h2.2

end Verif.StoreQueue
