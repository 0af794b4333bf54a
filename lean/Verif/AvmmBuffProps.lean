import Verif.AvmmBuff
import Mathlib.Data.List.Induction

/-!
# Properties of `AvalonMmBuff` (C193 - C196)
-/

namespace Verif.AvmmBuff

open Verif

variable {α β ρ : Type}

/-! ## One buffer -/

def bq (D : Nat) (b : Buf α) : List α := if D = 1 then given b.reg.occ b.reg.reg else HsFifo.queue D b.fifo
def BInv (D : Nat) (b : Buf α) : Prop := D = 1 ∨ (2 ≤ D ∧ HsFifo.Inv D b.fifo)

theorem toList_given (b : Bool) (a : α) [Decidable (b = true)] : (if b = true then some a else none).toList = given b a := by
  cases b <;> simp

theorem buf_step {D : Nat} (b : Buf α) (i : HsFifo.In α) (h : BInv D b) :
    BInv D (bufNext D b i) ∧ bq D b ++ given (i.vld && bufRd D b i.rd) i.data =
      given (bufVld D b && i.rd) (bufData D b) ++ bq D (bufNext D b i) := by
  rcases h with h | ⟨h, hi⟩
  · subst h
    refine ⟨.inl rfl, ?_⟩
    obtain ⟨⟨occ, reg⟩, fifo⟩ := b
    obtain ⟨v, d, r⟩ := i
    simp only [bq, bufNext, bufRd, bufVld, bufData, if_true, HsReg.stageNext, HsReg.stageWe, HsReg.stageRd]
    cases occ <;> cases v <;> cases r <;> simp
  · have hD : D ≠ 1 := by omega
    have hs := HsFifo.step b.fifo i hi
    simp only [bq, bufNext, bufRd, bufVld, bufData, BInv, if_neg hD]
    refine ⟨.inr ⟨h, hs.1⟩, ?_⟩
    rw [← toList_given, ← toList_given]
    exact hs.2

theorem bq_le {D : Nat} (b : Buf α) (h : BInv D b) : (bq D b).length ≤ D := by
  rcases h with h | ⟨h, hi⟩
  · subst h
    simp only [bq, if_true]
    cases b.reg.occ <;> simp
  · have hD : D ≠ 1 := by omega
    simp only [bq, if_neg hD]
    exact HsFifo.queue_le h _ hi

theorem buf_init {D : Nat} (hD : 1 ≤ D) (b : Buf α) (h : BufInit D b) : BInv D b ∧ bq D b = [] := by
  rcases Nat.lt_or_ge 1 D with h1 | h1
  · obtain ⟨m, d, hf⟩ := h.fifo
    have hne : D ≠ 1 := by omega
    simp only [BInv, bq, if_neg hne, hf]
    exact ⟨.inr ⟨h1, HsFifo.init_inv [] (by simp; omega) m d⟩, HsFifo.init_queue [] (by simp; omega) m d⟩
  · have : D = 1 := by omega
    subst this
    simp [BInv, bq, h.reg]

theorem queue_len {D : Nat} (s : HsFifo.St α) :
    (HsFifo.queue D s).length = (if s.outVld then 1 else 0) + Fifo.len (D - 1) s.fifo := by
  unfold HsFifo.queue
  rw [List.length_append]
  have : (Fifo.queue (D - 1) s.fifo).length = Fifo.len (D - 1) s.fifo := by simp [Fifo.queue]
  rw [this]
  split <;> simp

/-- it is not ready only if it is almost full -/
theorem buf_ready {D : Nat} (b : Buf α) (h : BInv D b) (rd : Bool) (hr : bufRd D b rd = false) :
    D - 1 ≤ (bq D b).length ∧ 1 ≤ (bq D b).length := by
  rcases h with h | ⟨h, hi⟩
  · subst h
    simp only [bufRd, if_true, HsReg.stageRd] at hr
    simp only [bq, if_true]
    revert hr
    cases b.reg.occ <;> simp
  · have hD : D ≠ 1 := by omega
    simp only [bufRd, if_neg hD] at hr
    simp only [bq, if_neg hD, queue_len]
    have := (Fifo.writeWait_iff hi).1 (by simpa using hr)
    omega

/-- state of a buffer with an output which is always read -/
def Small (D : Nat) (b : Buf α) : Prop := D = 1 ∨ (3 ≤ D ∧ Fifo.len (D - 1) b.fifo.fifo ≤ 1)

theorem small_step {D : Nat} (b : Buf α) (i : HsFifo.In α) (hb : BInv D b) (h : Small D b) (hr : i.rd = true) :
    Small D (bufNext D b i) ∧ bufRd D b i.rd = true ∧ (bq D b).length ≤ 2 := by
  rcases h with h | ⟨h, hl⟩
  · subst h
    refine ⟨.inl rfl, ?_, ?_⟩
    · simp [bufRd, HsReg.stageRd, hr]
    · have := bq_le b hb; omega
  · have hD : D ≠ 1 := by omega
    rcases hb with hb | ⟨_, hi⟩
    · omega
    simp only [Small, bufNext, bufRd, bq, if_neg hD, queue_len]
    have hw : Fifo.writeWait b.fifo.fifo = false := by
      cases hh : Fifo.writeWait b.fifo.fifo with
      | false => rfl
      | true => have := (Fifo.writeWait_iff hi).1 hh; omega
    refine ⟨.inr ⟨h, ?_⟩, by simp [hw], by split <;> omega⟩
    have hs := (Fifo.step_ptr hi (HsFifo.proto b.fifo i)).2.2.2.2
    have hn : (HsFifo.next D b.fifo i).fifo = Fifo.next (D - 1) b.fifo.fifo (HsFifo.fifoIn b.fifo i) := rfl
    rw [hn]
    have hren : (HsFifo.fifoIn b.fifo i).ren = !Fifo.readWait b.fifo.fifo := by simp [HsFifo.fifoIn, hr]
    rw [hren] at hs
    have h1 : (HsFifo.fifoIn b.fifo i).wen.toNat ≤ 1 := Bool.toNat_le _
    cases hrw : Fifo.readWait b.fifo.fifo with
    | true =>
      have := (Fifo.readWait_iff hi).1 hrw
      omega
    | false => rw [hrw] at hs; simp at hs; omega

theorem small_init {D : Nat} (hD : D = 1 ∨ 3 ≤ D) (b : Buf α) (h : BufInit D b) : Small D b := by
  rcases hD with h1 | h1
  · exact .inl h1
  · refine .inr ⟨h1, ?_⟩
    obtain ⟨hi, hq⟩ := buf_init (by omega) b h
    have hne : D ≠ 1 := by omega
    simp only [bq, if_neg hne] at hq
    have := congrArg List.length hq
    rw [queue_len] at this
    simp at this
    omega

/-! ## C193 requests -/

theorem req_run (c : Cfg) (s₀ : St α β ρ) (h0 : IsInit c s₀) (hd : 1 ≤ c.reqD) (is : List (In α β ρ)) :
    BInv c.reqD ((machine c).final s₀ is).a ∧ reqs ((machine c).trace s₀ is) =
      mReqs ((machine c).trace s₀ is) ++ bq c.reqD ((machine c).final s₀ is).a := by
  obtain ⟨h1, h2⟩ := buf_init hd _ h0.a
  have := (machine c).conserveL (fun s : St α β ρ => BInv c.reqD s.a) (fun _ => True) (fun s => bq c.reqD s.a)
    (fun e => given (e.1.vld && !e.2.wait) e.1.req) (fun e => if e.1.wait then [] else e.2.req.toList)
    (by
      intro s x h _
      have hs := buf_step s.a ⟨x.vld, x.req, !x.wait⟩ h
      refine ⟨hs.1, ?_⟩
      have h2 := hs.2
      simp only [machine, out, next, Bool.not_not] at h2 ⊢
      rw [h2]
      cases x.wait <;> cases bufVld c.reqD s.a <;> simp)
    is s₀ h1 (fun _ _ => trivial)
  refine ⟨this.1, ?_⟩
  have h3 := this.2
  rw [h2, List.nil_append] at h3
  exact h3

/-- Requests are performed exactly once and in order, at most `depth` of them are stored. -/
theorem requests_forwarded (c : Cfg) (s₀ : St α β ρ) (h0 : IsInit c s₀) (hd : 1 ≤ c.reqD) (is : List (In α β ρ)) :
    mReqs ((machine c).trace s₀ is) <+: reqs ((machine c).trace s₀ is) ∧
    (reqs ((machine c).trace s₀ is)).length ≤ (mReqs ((machine c).trace s₀ is)).length + c.reqD := by
  obtain ⟨h1, h2⟩ := req_run c s₀ h0 hd is
  have := bq_le _ h1
  rw [h2]
  exact ⟨⟨_, rfl⟩, by rw [List.length_append]; omega⟩

/-- A request which is not accepted by the slave is kept. -/
theorem request_stable (c : Cfg) (s₀ : St α β ρ) (is : List (In α β ρ)) (x y : In α β ρ) (r : ρ)
    (hr : ((machine c).outAfter s₀ is x).req = some r) (hw : x.wait = true) :
    ((machine c).outAfter s₀ (is ++ [x]) y).req = some r := by
  simp only [Machine.outAfter, Machine.final_append, Machine.final_cons, Machine.final_nil] at *
  generalize (machine c).final s₀ is = s at *
  simp only [machine, out, next] at *
  by_cases hD : c.reqD = 1
  · simp only [hD, bufVld, bufData, bufNext, if_true, HsReg.stageNext, HsReg.stageWe] at *
    split at hr
    · rename_i ho
      simp [ho, hw, hr]
    · simp at hr
  · simp only [bufVld, bufData, bufNext, if_neg hD] at *
    split at hr
    · rename_i ho
      have hren : (HsFifo.fifoIn s.a.fifo ⟨x.vld, x.req, !x.wait⟩).ren = false := by simp [HsFifo.fifoIn, ho, hw]
      have hrd := Fifo.fifoRead_eq (HsFifo.proto s.a.fifo ⟨x.vld, x.req, !x.wait⟩)
      rw [hren] at hrd
      simp only [HsFifo.next, Fifo.next, hrd]
      simpa [ho, hw] using hr
    · simp at hr

/-- A stored request is offered at the latest in the next cycle. -/
theorem request_offered (c : Cfg) (s₀ : St α β ρ) (h0 : IsInit c s₀) (hd : 1 ≤ c.reqD) (is : List (In α β ρ))
    (x y : In α β ρ)
    (hne : (mReqs ((machine c).trace s₀ is)).length < (reqs ((machine c).trace s₀ is)).length) :
    ((machine c).outAfter s₀ is x).req ≠ none ∨ ((machine c).outAfter s₀ (is ++ [x]) y).req ≠ none := by
  obtain ⟨h1, h2⟩ := req_run c s₀ h0 hd is
  rw [h2, List.length_append] at hne
  simp only [Machine.outAfter, Machine.final_append, Machine.final_cons, Machine.final_nil]
  generalize (machine c).final s₀ is = s at *
  simp only [machine, out, next]
  rcases h1 with h1 | ⟨h1, hi⟩
  · simp only [bq, h1, if_true, bufVld] at *
    left
    cases ho : s.a.reg.occ
    · simp [ho] at hne
    · simp
  · have hD : c.reqD ≠ 1 := by omega
    simp only [bq, if_neg hD, bufVld, bufNext, queue_len] at *
    cases ho : s.a.fifo.outVld
    · right
      simp [ho] at hne
      have : Fifo.readWait s.a.fifo.fifo = false := by
        cases hh : Fifo.readWait s.a.fifo.fifo with
        | false => rfl
        | true => have := (Fifo.readWait_iff hi).1 hh; omega
      simp [HsFifo.next, ho, this]
    · left; simp

/-! ## Demo -/

def fifo0 : HsFifo.St Nat := HsFifo.init 4 [] (fun _ => 0) 0
def s0 (D : Nat) : St Nat Nat Nat :=
  let b : Buf Nat := ⟨⟨false, 0⟩, HsFifo.init D [] (fun _ => 0) 0⟩
  ⟨b, b, b⟩
theorem s0_init (a D : Nat) (h : a ≠ 1 ∨ D = 1) : IsInit ⟨a, D⟩ (s0 D) := by
  have h1 : (Cfg.mk a D).rD = D := by
    simp only [Cfg.rD, Cfg.depth]; split <;> simp_all
  have h2 : (Cfg.mk a D).reqD = D := by
    simp only [Cfg.reqD, Cfg.depth]; split
    · rcases h with h | h
      · omega
      · omega
    · rfl
  refine ⟨?_, ?_, ?_⟩
  · rw [h1]; exact ⟨rfl, _, _, rfl⟩
  · rw [h1]; exact ⟨rfl, _, _, rfl⟩
  · rw [h2]; exact ⟨rfl, _, _, rfl⟩

def inp (vld : Bool) (req : Nat) (wait rdv : Bool) (rdata : Nat) (wrv : Bool) (resp : Nat) : In Nat Nat Nat :=
  ⟨vld, req, wait, rdv, rdata, wrv, resp⟩
def demo : List (In Nat Nat Nat) :=
  [inp true 1 true false 0 false 0, inp true 2 true false 0 false 0, inp true 3 true false 0 false 0,
   inp false 0 false true 10 false 0, inp true 4 false true 11 false 0, inp false 0 true true 12 true 2,
   inp false 0 false false 0 false 0, inp false 0 false false 0 false 0]
example : reqs ((machine ⟨4, 4⟩).trace (s0 4) demo) = [1, 2, 3, 4] ∧
    mReqs ((machine ⟨4, 4⟩).trace (s0 4) demo) = [1, 2, 3, 4] ∧
    sData ((machine ⟨4, 4⟩).trace (s0 4) demo) = [10, 11, 12] ∧
    ((machine ⟨4, 4⟩).outAfter (s0 4) (demo.take 2) (inp true 3 true false 0 false 0)).req = some 1 := by decide

/-! ## C194 no read data or write response is lost -/

/-- All but the last two read data and write responses were already delivered, in order. -/
def DataOk (c : Cfg) : Prop :=
  ∀ (s₀ : St Nat Nat Nat) (is : List (In Nat Nat Nat)), IsInit c s₀ →
    (∃ q, q.length ≤ 2 ∧ mData ((machine c).trace s₀ is) = sData ((machine c).trace s₀ is) ++ q) ∧
    (∃ q, q.length ≤ 2 ∧ mResp ((machine c).trace s₀ is) = sResp ((machine c).trace s₀ is) ++ q)

theorem data_partial (c : Cfg) (hc : c.dD = 1 ∨ 3 ≤ c.dD) (s₀ : St α β ρ) (h0 : IsInit c s₀) (is : List (In α β ρ)) :
    (∃ q, q.length ≤ 2 ∧ mData ((machine c).trace s₀ is) = sData ((machine c).trace s₀ is) ++ q) ∧
    (∃ q, q.length ≤ 2 ∧ mResp ((machine c).trace s₀ is) = sResp ((machine c).trace s₀ is) ++ q) := by
  have hr : c.rD = 1 ∨ 3 ≤ c.rD := by
    simp only [Cfg.rD, Cfg.depth]
    rcases hc with h | h
    · left; simp [h]
    · right; rw [if_neg (by omega)]; exact h
  constructor
  · obtain ⟨h1, h2⟩ := buf_init (by omega) _ h0.r
    have := (machine c).conserveL (fun s : St α β ρ => BInv c.rD s.r ∧ Small c.rD s.r) (fun _ => True)
      (fun s => bq c.rD s.r) (fun e => given e.1.rdv e.1.rdata) (fun e => given e.2.rdv e.2.rdata)
      (by
        intro s x h _
        have hs := buf_step s.r ⟨x.rdv, x.rdata, true⟩ h.1
        have hm := small_step s.r ⟨x.rdv, x.rdata, true⟩ h.1 h.2 rfl
        refine ⟨⟨hs.1, hm.1⟩, ?_⟩
        have h2 := hs.2
        simp only [hm.2.1, Bool.and_true] at h2
        exact h2)
      is s₀ ⟨h1, small_init hr _ h0.r⟩ (fun _ _ => trivial)
    obtain ⟨⟨hb, hs⟩, h3⟩ := this
    rw [h2, List.nil_append] at h3
    refine ⟨_, ?_, h3⟩
    rcases hb' : bq c.rD ((machine c).final s₀ is).r with _ | ⟨d, l⟩
    · simp
    · have := (small_step _ ⟨false, d, true⟩ hb hs rfl).2.2
      rw [hb'] at this
      exact this
  · obtain ⟨h1, h2⟩ := buf_init (by omega) _ h0.w
    have := (machine c).conserveL (fun s : St α β ρ => BInv c.rD s.w ∧ Small c.rD s.w) (fun _ => True)
      (fun s => bq c.rD s.w) (fun e => given e.1.wrv e.1.resp) (fun e => given e.2.wrv e.2.resp)
      (by
        intro s x h _
        have hs := buf_step s.w ⟨x.wrv, x.resp, true⟩ h.1
        have hm := small_step s.w ⟨x.wrv, x.resp, true⟩ h.1 h.2 rfl
        refine ⟨⟨hs.1, hm.1⟩, ?_⟩
        have h2 := hs.2
        simp only [hm.2.1, Bool.and_true] at h2
        exact h2)
      is s₀ ⟨h1, small_init hr _ h0.w⟩ (fun _ _ => trivial)
    obtain ⟨⟨hb, hs⟩, h3⟩ := this
    rw [h2, List.nil_append] at h3
    refine ⟨_, ?_, h3⟩
    rcases hb' : bq c.rD ((machine c).final s₀ is).w with _ | ⟨d, l⟩
    · simp
    · have := (small_step _ ⟨false, d, true⟩ hb hs rfl).2.2
      rw [hb'] at this
      exact this

def lost : List (In Nat Nat Nat) :=
  [inp false 0 false true 10 false 0, inp false 0 false true 11 false 0, inp false 0 false true 12 false 0,
   inp false 0 false false 0 false 0, inp false 0 false false 0 false 0]

/-- A fifo with `DEPTH = 2` can not accept words in consecutive clock cycles, the data have no handshake. -/
theorem data_fails : ¬ DataOk ⟨2, 2⟩ := by
  intro h
  obtain ⟨⟨q, _, h1⟩, _⟩ := h (s0 2) lost (s0_init 2 2 (.inl (by decide)))
  have e1 : mData ((machine ⟨2, 2⟩).trace (s0 2) lost) = [10, 11, 12] := by decide
  have e2 : sData ((machine ⟨2, 2⟩).trace (s0 2) lost) = [10, 12] := by decide
  rw [e1, e2] at h1
  simp at h1

/-! ## C195 responses of reads -/

/-- Read data are delivered together with the response which the slave gave to them. -/
def ReadRespOk (c : Cfg) : Prop :=
  ∀ (s₀ : St Nat Nat Nat) (is : List (In Nat Nat Nat)), IsInit c s₀ →
    sRead ((machine c).trace s₀ is) <+: mRead ((machine c).trace s₀ is)

theorem read_resp_fails : ¬ ReadRespOk ⟨4, 4⟩ ∧ ¬ ReadRespOk ⟨1, 1⟩ := by
  constructor
  · intro h
    have := h (s0 4) [inp false 0 false true 10 false 2, inp false 0 false false 0 false 0,
      inp false 0 false false 0 false 0] (s0_init 4 4 (.inl (by decide)))
    revert this
    decide
  · intro h
    have := h (s0 1) [inp false 0 false true 10 false 2, inp false 0 false false 0 false 0,
      inp false 0 false false 0 false 0] (s0_init 1 1 (.inr (by decide)))
    revert this
    decide

/-- The response of the slave to reads is ignored in each configuration. -/
theorem read_resp_ignored (c : Cfg) (s₀ : St α β ρ) (is : List (In α β ρ)) (f : In α β ρ → β) :
    ((machine c).trace s₀ (is.map fun x => if x.wrv then x else { x with resp := f x })).map Prod.snd =
    ((machine c).trace s₀ is).map Prod.snd := by
  induction is generalizing s₀ with
  | nil => rfl
  | cons x is ih =>
    simp only [List.map_cons, Machine.trace_cons]
    rcases Bool.eq_false_or_eq_true x.wrv with hw | hw
    · rw [if_pos hw, ih]
    ·
      have hn : (machine c).next s₀ { x with resp := f x } = (machine c).next s₀ x := by
        simp only [machine, next]
        congr 1
        rw [hw]
        unfold bufNext
        split
        · simp only [HsReg.stageNext, HsReg.stageWe]
          cases s₀.w.reg.occ <;> rfl
        · simp only [HsFifo.next, HsFifo.fifoIn, Bool.false_and]
          congr 2
      rw [if_neg (by simp [hw]), hn, ih]
      rfl

/-! ## C196 capacity of the address buffer -/

/-- The buffer stores up to `ADDR_BUFF_DEPTH` requests (one less is possible if the output register of the fifo is
empty). -/
def CapOk (c : Cfg) : Prop :=
  ∀ (s₀ : St Nat Nat Nat) (is : List (In Nat Nat Nat)) (x : In Nat Nat Nat), IsInit c s₀ →
    (reqs ((machine c).trace s₀ is)).length ≤ (mReqs ((machine c).trace s₀ is)).length + c.aD ∧
    ((reqs ((machine c).trace s₀ is)).length < (mReqs ((machine c).trace s₀ is)).length + max 1 (c.aD - 1) →
      ((machine c).outAfter s₀ is x).wait = false)

theorem cap_fails : ¬ CapOk ⟨8, 4⟩ := by
  intro h
  have := (h (s0 4) (List.replicate 5 (inp true 1 true false 0 false 0)) (inp true 1 true false 0 false 0)
    (s0_init 8 4 (.inl (by decide)))).2
  revert this
  decide

/-- The capacity is `DATA_BUFF_DEPTH`. -/
theorem cap_partial (c : Cfg) (hd : 1 ≤ c.dD) (s₀ : St α β ρ) (h0 : IsInit c s₀) (is : List (In α β ρ)) (x : In α β ρ) :
    let d := if c.aD = 1 then 1 else c.dD
    (reqs ((machine c).trace s₀ is)).length ≤ (mReqs ((machine c).trace s₀ is)).length + d ∧
    ((reqs ((machine c).trace s₀ is)).length < (mReqs ((machine c).trace s₀ is)).length + max 1 (d - 1) →
      ((machine c).outAfter s₀ is x).wait = false) := by
  intro d
  have hd1 : c.reqD = d := rfl
  have hd2 : 1 ≤ c.reqD := by rw [hd1]; simp only [d]; split <;> omega
  obtain ⟨h1, h2⟩ := req_run c s₀ h0 hd2 is
  refine ⟨hd1 ▸ (requests_forwarded c s₀ h0 hd2 is).2, ?_⟩
  intro hl
  rw [h2, List.length_append] at hl
  have ho : ((machine c).outAfter s₀ is x).wait = !bufRd c.reqD ((machine c).final s₀ is).a (!x.wait) := rfl
  rw [ho]
  cases hr : bufRd c.reqD ((machine c).final s₀ is).a (!x.wait) with
  | true => rfl
  | false =>
    have := buf_ready _ h1 _ hr
    rw [← hd1] at hl
    omega

example : (reqs ((machine ⟨4, 4⟩).trace (s0 4) (demo.take 2))).length <
    (mReqs ((machine ⟨4, 4⟩).trace (s0 4) (demo.take 2))).length + 3 := by decide

end Verif.AvmmBuff
