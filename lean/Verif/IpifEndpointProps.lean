import Verif.IpifEndpoint
import Mathlib.Data.List.Induction

/-!
# Properties of `IpifEndpoint` alone and behind `Axi4Lite_to_Ipif` (C214 - C216)
-/

namespace Verif.IpifEndpoint

open Verif

variable {D B : Type}

/-! ## AXI4Lite memory -/

abbrev SysTr (D B : Type) := List (SysIn D B × AxiLiteIpif.Out Nat D B)

/-- accepted requests (`true` for reads) -/
def reqs (tr : SysTr D B) : List (Bool × Nat) :=
  tr.flatMap fun p =>
    (if p.1.arValid && p.2.arReady then [(true, p.1.arAddr)] else []) ++
      (if p.1.awValid && p.2.awReady then [(false, p.1.awAddr)] else [])
def wbeats (tr : SysTr D B) : List D := tr.filterMap fun p => if p.1.wValid && p.2.wReady then some p.1.wData else none
def rbeats (tr : SysTr D B) : List (Option D) := tr.filterMap fun p => if p.2.rValid && p.1.rReady then some p.2.rData else none
def bcount (tr : SysTr D B) : Nat := tr.countP fun p => p.2.bValid && p.1.bReady

/-- Results of the reads and the memory after the requests are done one after another. A write without data is not done, nothing
after it is done. -/
def replay (idx : Nat → Nat) : (Nat → D) → List (Bool × Nat) → List D → List D × (Nat → D)
  | m, [], _ => ([], m)
  | m, (true, a) :: r, w => ((m (idx a)) :: (replay idx m r w).1, (replay idx m r w).2)
  | m, (false, a) :: r, d :: w => replay idx (upd m (idx a) d) r w
  | m, (false, _) :: _, [] => ([], m)

def nw (r : List (Bool × Nat)) : Nat := r.countP fun q => !q.1

theorem replay_read (idx : Nat → Nat) (m : Nat → D) (r : List (Bool × Nat)) (w : List D) (h : nw r = w.length) (a : Nat) :
    replay idx m (r ++ [(true, a)]) w = ((replay idx m r w).1 ++ [(replay idx m r w).2 (idx a)], (replay idx m r w).2) := by
  induction r generalizing m w with
  | nil => simp [replay]
  | cons q r ih =>
    obtain ⟨k, b⟩ := q
    cases k with
    | true => simp only [List.cons_append, replay]; rw [ih m w (by simpa [nw] using h)]
    | false =>
      cases w with
      | nil => simp [nw] at h
      | cons d w => simp only [List.cons_append, replay]; exact ih _ w (by simpa [nw] using h)

theorem replay_wait (idx : Nat → Nat) (m : Nat → D) (r : List (Bool × Nat)) (w : List D) (h : nw r = w.length) (a : Nat) :
    replay idx m (r ++ [(false, a)]) w = replay idx m r w := by
  induction r generalizing m w with
  | nil => cases w <;> simp [replay, nw] at h ⊢
  | cons q r ih =>
    obtain ⟨k, b⟩ := q
    cases k with
    | true => simp only [List.cons_append, replay]; rw [ih m w (by simpa [nw] using h)]
    | false =>
      cases w with
      | nil => simp [nw] at h
      | cons d w => simp only [List.cons_append, replay]; exact ih _ w (by simpa [nw] using h)

theorem replay_write (idx : Nat → Nat) (m : Nat → D) (r : List (Bool × Nat)) (w : List D) (h : nw r = w.length) (a : Nat) (d : D) :
    replay idx m (r ++ [(false, a)]) (w ++ [d]) = ((replay idx m r w).1, upd (replay idx m r w).2 (idx a) d) := by
  induction r generalizing m w with
  | nil => cases w <;> simp [replay, nw] at h ⊢
  | cons q r ih =>
    obtain ⟨k, b⟩ := q
    cases k with
    | true => simp only [List.cons_append, replay]; rw [ih m w (by simpa [nw] using h)]
    | false =>
      cases w with
      | nil => simp [nw] at h
      | cons e w => simp only [List.cons_append, replay]; exact ih _ w (by simpa [nw] using h)

/-- addresses of the items of the array -/
def MemAddr (c : Cfg) (a : Nat) : Prop := inMy c a = true ∧ isMem c a = true ∧ c.isReg a = false

/-- The accepted requests are to the array. -/
def Mapped (c : Cfg) (tr : SysTr D B) : Prop := ∀ q ∈ reqs tr, MemAddr c q.2

/-- what is known in a state of the FSMs after the requests `r`, data `w` and answers `o`, `nb` -/
def Rel (c : Cfg) (m₀ : Nat → D) (r : List (Bool × Nat)) (w : List D) (o : List (Option D)) (nb : Nat) (s : SysSt D B) : Prop :=
  s.1.dataRVld = false ∧
  match s.1.st, s.2.st with
  | .idle, .idle => nw r = w.length ∧ replay (cell c) m₀ r w = (o.filterMap id, s.2.mem) ∧ o.all Option.isSome ∧ nb = nw r ∧
      o.length + nb = r.length
  | .read, .idle => ∃ r', r = r' ++ [(true, s.1.addr)] ∧ nw r' = w.length ∧ replay (cell c) m₀ r' w = (o.filterMap id, s.2.mem) ∧
      o.all Option.isSome ∧ nb = nw r' ∧ o.length + nb = r'.length ∧ MemAddr c s.1.addr
  | .read, .rdData => ∃ r', r = r' ++ [(true, s.1.addr)] ∧ nw r' = w.length ∧ replay (cell c) m₀ r' w = (o.filterMap id, s.2.mem) ∧
      o.all Option.isSome ∧ nb = nw r' ∧ o.length + nb = r'.length ∧ MemAddr c s.1.addr ∧ s.2.dout = s.2.mem (cell c s.1.addr)
  | .readAck, .idle => ∃ r', r = r' ++ [(true, s.1.addr)] ∧ nw r' = w.length ∧ replay (cell c) m₀ r' w = (o.filterMap id, s.2.mem) ∧
      o.all Option.isSome ∧ nb = nw r' ∧ o.length + nb = r'.length ∧ s.1.dataR = s.2.mem (cell c s.1.addr)
  | .writeWaitData, .idle => ∃ r', r = r' ++ [(false, s.1.addr)] ∧ nw r' = w.length ∧
      replay (cell c) m₀ r' w = (o.filterMap id, s.2.mem) ∧ o.all Option.isSome ∧ nb = nw r' ∧ o.length + nb = r'.length ∧ MemAddr c s.1.addr
  | .write, .idle => ∃ r' w', r = r' ++ [(false, s.1.addr)] ∧ w = w' ++ [s.1.dataW] ∧ nw r' = w'.length ∧
      replay (cell c) m₀ r' w' = (o.filterMap id, s.2.mem) ∧ o.all Option.isSome ∧ nb = nw r' ∧ o.length + nb = r'.length ∧ MemAddr c s.1.addr
  | .write, .writeAck => ∃ r' w', r = r' ++ [(false, s.1.addr)] ∧ w = w' ++ [s.1.dataW] ∧ nw r' = w'.length ∧
      replay (cell c) m₀ r' w' = (o.filterMap id, s.2.mem) ∧ o.all Option.isSome ∧ nb = nw r' ∧ o.length + nb = r'.length ∧ MemAddr c s.1.addr
  | .writeAck, .idle => ∃ r' w', r = r' ++ [(false, s.1.addr)] ∧ w = w' ++ [s.1.dataW] ∧ nw r' = w'.length ∧
      replay (cell c) m₀ r w = (o.filterMap id, s.2.mem) ∧ o.all Option.isSome ∧ nb = nw r' ∧ o.length + nb = r'.length
  | _, _ => False

theorem nw_snoc (r : List (Bool × Nat)) (k : Bool) (a : Nat) : nw (r ++ [(k, a)]) = nw r + (if k then 0 else 1) := by
  cases k <;> simp [nw]

/-- requests, data and answers of one cycle -/
def rq (p : SysIn D B × AxiLiteIpif.Out Nat D B) : List (Bool × Nat) :=
  (if p.1.arValid && p.2.arReady then [(true, p.1.arAddr)] else []) ++ (if p.1.awValid && p.2.awReady then [(false, p.1.awAddr)] else [])
def wq (p : SysIn D B × AxiLiteIpif.Out Nat D B) : List D := if p.1.wValid && p.2.wReady then [p.1.wData] else []
def oq (p : SysIn D B × AxiLiteIpif.Out Nat D B) : List (Option D) := if p.2.rValid && p.1.rReady then [p.2.rData] else []
def bq (p : SysIn D B × AxiLiteIpif.Out Nat D B) : Nat := if p.2.bValid && p.1.bReady then 1 else 0

theorem step_idle (c : Cfg) (m₀ : Nat → D) (r : List (Bool × Nat)) (w : List D) (o : List (Option D)) (nb : Nat)
    (br : AxiLiteIpif.St Nat D B) (ep : St D) (x : SysIn D B) (h : Rel c m₀ r w o nb (br, ep))
    (hm : ∀ q ∈ rq (x, sysOut c (br, ep) x), MemAddr c q.2) :
    Rel c m₀ (r ++ rq (x, sysOut c (br, ep) x)) (w ++ wq (x, sysOut c (br, ep) x)) (o ++ oq (x, sysOut c (br, ep) x))
      (nb + bq (x, sysOut c (br, ep) x)) ((sys c).next (br, ep) x) := by
  obtain ⟨bst, addr, dataR, vld, dataW, strbW, resp⟩ := br
  obtain ⟨est, mem, dout⟩ := ep
  obtain ⟨arV, arA, awV, awA, wV, wD, wS, rR, bR, regs, junk, un⟩ := x
  cases bst <;> cases est <;> obtain ⟨hv, h⟩ := h <;> simp only at hv h <;> try exact absurd h id
  all_goals subst hv
  · -- idle
    obtain ⟨h1, h2, h3, h4, h5⟩ := h
    cases arV with
    | true =>
      simp [rq, wq, oq, bq, sysOut, sys, AxiLiteIpif.out, AxiLiteIpif.next, AxiLiteIpif.nextFsm, AxiLiteIpif.idle, brIn, epIn, out,
        next, Rel, wAck] at hm ⊢
      exact ⟨h1, h2, by simpa using h3, h4, h5, hm⟩
    | false =>
      cases awV with
      | true =>
        simp [rq, wq, oq, bq, sysOut, sys, AxiLiteIpif.out, AxiLiteIpif.next, AxiLiteIpif.nextFsm, AxiLiteIpif.idle, brIn, epIn, out,
          next, Rel, wAck] at hm ⊢
        exact ⟨h1, h2, by simpa using h3, h4, h5, hm⟩
      | false =>
        simp [rq, wq, oq, bq, sysOut, sys, AxiLiteIpif.out, AxiLiteIpif.next, AxiLiteIpif.nextFsm, AxiLiteIpif.idle, brIn, epIn, out,
          next, Rel, wAck] at hm ⊢
        exact ⟨h1, h2, by simpa using h3, h4, h5⟩
  · -- write, idle
    obtain ⟨r', w', h1, h2, h3, h4, h5, h6, h7, h8⟩ := h
    have hi := h8.1
    simp [rq, wq, oq, bq, sysOut, sys, AxiLiteIpif.out, AxiLiteIpif.next, AxiLiteIpif.nextFsm, AxiLiteIpif.idle, brIn, epIn, out,
      next, Rel, wAck, hi]
    exact ⟨r', h1, w', h2, h3, h4, by simpa using h5, h6, h7, h8⟩
  · -- write, writeAck
    obtain ⟨r', w', h1, h2, h3, h4, h5, h6, h7, h8⟩ := h
    have hi := h8.2.1
    have hr : replay (cell c) m₀ r w = (o.filterMap id, upd mem (cell c addr) dataW) := by
      rw [h1, h2, replay_write (cell c) m₀ r' w' h3, h4]
    cases bR with
    | true =>
      simp [rq, wq, oq, bq, sysOut, sys, AxiLiteIpif.out, AxiLiteIpif.next, AxiLiteIpif.nextFsm, AxiLiteIpif.idle, brIn, epIn, out,
        next, Rel, wAck, hi]
      refine ⟨?_, hr, by simpa using h5, ?_, ?_⟩
      · rw [h1, h2, nw_snoc]; simp [h3]
      · rw [h1, nw_snoc]; simp [h6]
      · rw [h1]; simp; omega
    | false =>
      simp [rq, wq, oq, bq, sysOut, sys, AxiLiteIpif.out, AxiLiteIpif.next, AxiLiteIpif.nextFsm, AxiLiteIpif.idle, brIn, epIn, out,
        next, Rel, wAck, hi]
      exact ⟨r', h1, w', h2, h3, hr, by simpa using h5, h6, h7⟩
  · -- writeWaitData
    obtain ⟨r', h1, h3, h4, h5, h6, h7, h8⟩ := h
    cases wV with
    | true =>
      simp [rq, wq, oq, bq, sysOut, sys, AxiLiteIpif.out, AxiLiteIpif.next, AxiLiteIpif.nextFsm, AxiLiteIpif.idle, brIn, epIn, out,
        next, Rel, wAck]
      exact ⟨r', h1, h3, h4, by simpa using h5, h6, h7, h8⟩
    | false =>
      simp [rq, wq, oq, bq, sysOut, sys, AxiLiteIpif.out, AxiLiteIpif.next, AxiLiteIpif.nextFsm, AxiLiteIpif.idle, brIn, epIn, out,
        next, Rel, wAck]
      exact ⟨r', h1, h3, h4, by simpa using h5, h6, h7, h8⟩
  · -- writeAck
    obtain ⟨r', w', h1, h2, h3, h4, h5, h6, h7⟩ := h
    cases bR with
    | true =>
      simp [rq, wq, oq, bq, sysOut, sys, AxiLiteIpif.out, AxiLiteIpif.next, AxiLiteIpif.nextFsm, AxiLiteIpif.idle, brIn, epIn, out,
        next, Rel, wAck]
      refine ⟨?_, h4, by simpa using h5, ?_, ?_⟩
      · rw [h1, h2, nw_snoc]; simp [h3]
      · rw [h1, nw_snoc]; simp [h6]
      · rw [h1]; simp; omega
    | false =>
      simp [rq, wq, oq, bq, sysOut, sys, AxiLiteIpif.out, AxiLiteIpif.next, AxiLiteIpif.nextFsm, AxiLiteIpif.idle, brIn, epIn, out,
        next, Rel, wAck]
      exact ⟨r', h1, w', h2, h3, h4, by simpa using h5, h6, h7⟩
  · -- read, idle
    obtain ⟨r', h1, h3, h4, h5, h6, h7, h8⟩ := h
    have hi := h8.1
    have hj := h8.2.1
    simp [rq, wq, oq, bq, sysOut, sys, AxiLiteIpif.out, AxiLiteIpif.next, AxiLiteIpif.nextFsm, AxiLiteIpif.idle, brIn, epIn, out,
      next, Rel, wAck, hi, hj]
    exact ⟨r', h1, h3, h4, by simpa using h5, h6, h7, h8⟩
  · -- read, rdData
    obtain ⟨r', h1, h3, h4, h5, h6, h7, h8, h9⟩ := h
    have hj := h8.2.1
    have hk := h8.2.2
    cases rR with
    | true =>
      simp [rq, wq, oq, bq, sysOut, sys, AxiLiteIpif.out, AxiLiteIpif.next, AxiLiteIpif.nextFsm, AxiLiteIpif.idle, brIn, epIn, out,
        next, Rel, wAck, hj, hk]
      refine ⟨?_, ?_, by simpa using h5, ?_, ?_⟩
      · rw [h1, nw_snoc]; simp [h3]
      · rw [h1, replay_read _ _ _ _ h3, h4, h9]
      · rw [h1, nw_snoc]; simp [h6]
      · rw [h1]; simp; omega
    | false =>
      simp [rq, wq, oq, bq, sysOut, sys, AxiLiteIpif.out, AxiLiteIpif.next, AxiLiteIpif.nextFsm, AxiLiteIpif.idle, brIn, epIn, out,
        next, Rel, wAck, hj, hk]
      exact ⟨r', h1, h3, h4, by simpa using h5, h6, h7, h9⟩
  · -- readAck
    obtain ⟨r', h1, h3, h4, h5, h6, h7, h9⟩ := h
    cases rR with
    | true =>
      simp [rq, wq, oq, bq, sysOut, sys, AxiLiteIpif.out, AxiLiteIpif.next, AxiLiteIpif.nextFsm, AxiLiteIpif.idle, brIn, epIn, out,
        next, Rel, wAck]
      refine ⟨?_, ?_, by simpa using h5, ?_, ?_⟩
      · rw [h1, nw_snoc]; simp [h3]
      · rw [h1, replay_read _ _ _ _ h3, h4, h9]
      · rw [h1, nw_snoc]; simp [h6]
      · rw [h1]; simp; omega
    | false =>
      simp [rq, wq, oq, bq, sysOut, sys, AxiLiteIpif.out, AxiLiteIpif.next, AxiLiteIpif.nextFsm, AxiLiteIpif.idle, brIn, epIn, out,
        next, Rel, wAck]
      exact ⟨r', h1, h3, h4, by simpa using h5, h6, h7, h9⟩

theorem reqs_snoc (tr : SysTr D B) (p : SysIn D B × AxiLiteIpif.Out Nat D B) : reqs (tr ++ [p]) = reqs tr ++ rq p := by
  simp [reqs, rq]
theorem wbeats_snoc (tr : SysTr D B) (p : SysIn D B × AxiLiteIpif.Out Nat D B) : wbeats (tr ++ [p]) = wbeats tr ++ wq p := by
  simp only [wbeats, wq, List.filterMap_append, List.filterMap_cons, List.filterMap_nil]
  cases p.1.wValid && p.2.wReady <;> rfl
theorem rbeats_snoc (tr : SysTr D B) (p : SysIn D B × AxiLiteIpif.Out Nat D B) : rbeats (tr ++ [p]) = rbeats tr ++ oq p := by
  simp only [rbeats, oq, List.filterMap_append, List.filterMap_cons, List.filterMap_nil]
  cases p.2.rValid && p.1.rReady <;> rfl
theorem bcount_snoc (tr : SysTr D B) (p : SysIn D B × AxiLiteIpif.Out Nat D B) : bcount (tr ++ [p]) = bcount tr + bq p := by
  simp only [bcount, bq, List.countP_append, List.countP_cons, List.countP_nil]
  cases p.2.bValid && p.1.bReady <;> rfl

theorem rel_run (c : Cfg) (s : SysSt D B) (hs : SysInit s) (is : List (SysIn D B)) (hm : Mapped c ((sys c).trace s is)) :
    Rel c s.2.mem (reqs ((sys c).trace s is)) (wbeats ((sys c).trace s is)) (rbeats ((sys c).trace s is))
      (bcount ((sys c).trace s is)) ((sys c).final s is) := by
  induction is using List.reverseRecOn with
  | nil => simp [Rel, hs.br.st, hs.br.vld, hs.ep, reqs, wbeats, rbeats, bcount, nw, replay]
  | append_singleton is x ih =>
    rw [Machine.trace_snoc] at hm ⊢
    rw [Machine.final_append]
    unfold Mapped at hm ih
    rw [reqs_snoc] at hm
    have ih := ih fun q hq => hm q (List.mem_append_left _ hq)
    rw [reqs_snoc, wbeats_snoc, rbeats_snoc, bcount_snoc]
    exact step_idle c _ _ _ _ _ _ _ x ih fun q hq => hm q (List.mem_append_right _ hq)

/-- C214: The answers of the reads are the values in the memory which is read and written by the requests one after another in the
order in which they were accepted; all reads and writes but the last request are answered. -/
theorem axi_memory (c : Cfg) (s : SysSt D B) (hs : SysInit s) (is : List (SysIn D B)) (hm : Mapped c ((sys c).trace s is)) :
    let tr := (sys c).trace s is
    (rbeats tr <+: (replay (fun a => (a - c.mlo) / c.step) s.2.mem (reqs tr) (wbeats tr)).1.map some) ∧
      (rbeats tr).length + bcount tr ≤ (reqs tr).length ∧ (reqs tr).length ≤ (rbeats tr).length + bcount tr + 1 := by
  rw [show (fun a => (a - c.mlo) / c.step) = cell c from rfl]
  have h := rel_run c s hs is hm
  simp only
  generalize (sys c).trace s is = tr at h
  generalize (sys c).final s is = f at h
  have hsome : ∀ o : List (Option D), o.all Option.isSome = true → (o.filterMap id).map some = o := by
    intro o ho
    induction o with
    | nil => rfl
    | cons a o ih =>
      simp only [List.all_cons, Bool.and_eq_true] at ho
      obtain ⟨h1, h2⟩ := ho
      cases a with
      | none => cases h1
      | some a => simp [ih h2]
  obtain ⟨⟨bst, addr, dataR, vld, dataW, strbW, resp⟩, ⟨est, mem, dout⟩⟩ := f
  cases bst <;> cases est <;> obtain ⟨hv, h⟩ := h <;> simp only at hv h <;> try exact absurd h id
  · obtain ⟨h1, h2, h3, h4, h5⟩ := h
    rw [h2, hsome _ h3]
    exact ⟨List.prefix_refl _, by omega, by omega⟩
  · obtain ⟨r', w', h1, h2, h3, h4, h5, h6, h7, h8⟩ := h
    rw [h1, h2, replay_write _ _ _ _ h3, h4, hsome _ h5]
    exact ⟨List.prefix_refl _, by simp; omega, by simp; omega⟩
  · obtain ⟨r', w', h1, h2, h3, h4, h5, h6, h7, h8⟩ := h
    rw [h1, h2, replay_write _ _ _ _ h3, h4, hsome _ h5]
    exact ⟨List.prefix_refl _, by simp; omega, by simp; omega⟩
  · obtain ⟨r', h1, h3, h4, h5, h6, h7, h8⟩ := h
    rw [h1, replay_wait _ _ _ _ h3, h4, hsome _ h5]
    exact ⟨List.prefix_refl _, by simp; omega, by simp; omega⟩
  · obtain ⟨r', w', h1, h2, h3, h4, h5, h6, h7⟩ := h
    rw [h4, hsome _ h5, h1]
    exact ⟨List.prefix_refl _, by simp; omega, by simp; omega⟩
  all_goals
    obtain ⟨r', h1, h3, h4, h5, h6, h7, h8⟩ := h
    rw [h1, replay_read _ _ _ _ h3, h4, List.map_append, hsome _ h5]
    exact ⟨List.prefix_append _ _, by simp; omega, by simp; omega⟩

/-- C214: the read is answered two cycles after it was accepted, independent of anything else -/
theorem read_latency (c : Cfg) (s : SysSt D B) (hs : SysInit s) (is : List (SysIn D B)) (hm : Mapped c ((sys c).trace s is))
    (x y z : SysIn D B) (hx : x.arValid = true) (hr : ((sys c).outAfter s is x).arReady = true) (ha : MemAddr c x.arAddr) :
    ((sys c).outAfter s (is ++ [x]) y).rValid = false ∧ ((sys c).outAfter s (is ++ [x, y]) z).rValid = true := by
  have h := rel_run c s hs is hm
  unfold Machine.outAfter at *
  simp only [Machine.final_append, Machine.final_cons, Machine.final_nil] at hr ⊢
  generalize (sys c).trace s is = tr at h
  generalize (sys c).final s is = f at h hr ⊢
  obtain ⟨⟨bst, addr, dataR, vld, dataW, strbW, resp⟩, ⟨est, mem, dout⟩⟩ := f
  obtain ⟨hv, h⟩ := h
  simp only at hv h
  subst hv
  cases bst <;> simp [sys, sysOut, AxiLiteIpif.out, AxiLiteIpif.idle] at hr
  cases est <;> simp only at h
  simp [sys, sysOut, AxiLiteIpif.out, AxiLiteIpif.next, AxiLiteIpif.nextFsm, AxiLiteIpif.idle, brIn, epIn, out, next, hx, ha.1]

/-! ## Example: the second item of an array in `[16, 32)`, the written value is read -/

def exCfg : Cfg := { lo := 0, hi := 32, mlo := 16, mhi := 32, step := 4, isReg := fun a => a == 0 }
def exNop : SysIn Nat Unit := ⟨false, 0, false, 0, false, 0, (), true, true, fun _ => 5, 77, 88⟩
def exInit : SysSt Nat Unit := (⟨.idle, 0, 0, false, 0, (), false⟩, ⟨.idle, fun i => 100 + i, 0⟩)
def exIn : List (SysIn Nat Unit) :=
  [{ exNop with arValid := true, arAddr := 20 }, exNop, exNop, { exNop with awValid := true, awAddr := 20 },
   { exNop with wValid := true, wData := 9 }, exNop, exNop, { exNop with arValid := true, arAddr := 20, awValid := true, awAddr := 24 }, exNop, exNop,
   { exNop with awValid := true, awAddr := 24 }]

example : SysInit exInit := ⟨⟨rfl, rfl⟩, rfl⟩
example : Mapped exCfg ((sys exCfg).trace exInit exIn) := by
  unfold Mapped MemAddr
  decide
example : rbeats ((sys exCfg).trace exInit exIn) = [some 101, some 9] ∧ bcount ((sys exCfg).trace exInit exIn) = 1 ∧
    reqs ((sys exCfg).trace exInit exIn) = [(true, 20), (false, 20), (true, 20), (false, 24)] := by decide

/-! ## Acknowledge of the endpoint -/

/-- C215: acknowledge of a cycle is exactly the answer to the request in the address space of the endpoint in the previous cycle, unless
that cycle had an acknowledge itself -/
theorem acked_exact (c : Cfg) (s : St D) (is : List (In D)) (x y : In D) :
    let o := (machine c).outAfter s is x
    let o' := (machine c).outAfter s (is ++ [x]) y
    (o'.rdack = true ↔ x.cs = true ∧ x.rnw = true ∧ (c.lo ≤ x.addr ∧ x.addr < c.hi) ∧ o.rdack = false ∧ o.wrack = false) ∧
    (o'.wrack = true ↔ x.cs = true ∧ x.rnw = false ∧ (c.lo ≤ x.addr ∧ x.addr < c.hi) ∧ o.rdack = false ∧ o.wrack = false) := by
  unfold Machine.outAfter
  rw [Machine.final_append]
  simp only [Machine.final_cons, Machine.final_nil]
  generalize (machine c).final s is = t
  obtain ⟨st, mem, dout⟩ := t
  obtain ⟨cs, rnw, addr, wdata, regs, junk⟩ := x
  have e : ∀ b, inMy c addr = b → (c.lo ≤ addr ∧ addr < c.hi ↔ b = true) := by
    intro b hb
    rw [← hb]; simp [inMy]
  cases st <;> cases cs <;> cases rnw <;> cases h : inMy c addr <;>
    simp [machine, out, next, wAck, e _ h, h]

/-- the accesses to the address space -/
def Answered (c : Cfg) : Prop :=
  ∀ (s : SysSt Nat Unit), SysInit s → ∀ is x, x.arValid = true → ((sys c).outAfter s is x).arReady = true →
    ∃ k, ∀ js : List (SysIn Nat Unit), k ≤ js.length → (∀ j ∈ js, j.rReady = true) → ∃ j ∈ (sys c).trace ((sys c).final s (is ++ [x])) js, j.2.rValid = true

/-- C216: a request outside of the address space of the endpoint is never answered and nothing is accepted after it -/
theorem hang (c : Cfg) (s : SysSt D B) (hb : s.1.st = .read ∨ s.1.st = .write) (hv : s.1.dataRVld = false) (he : s.2.st = .idle)
    (ha : inMy c s.1.addr = false) (is : List (SysIn D B)) :
    ∀ p ∈ (sys c).trace s is, p.2.rValid = false ∧ p.2.bValid = false ∧ p.2.arReady = false ∧ p.2.awReady = false ∧ p.2.wReady = false := by
  induction is generalizing s with
  | nil => simp
  | cons x is ih =>
    obtain ⟨⟨bst, addr, dataR, vld, dataW, strbW, resp⟩, ⟨est, mem, dout⟩⟩ := s
    simp only at hb hv he ha
    subst hv he
    have hn : ((sys c).next (⟨bst, addr, dataR, false, dataW, strbW, resp⟩, ⟨.idle, mem, dout⟩) x).1.st = bst ∧
        ((sys c).next (⟨bst, addr, dataR, false, dataW, strbW, resp⟩, ⟨.idle, mem, dout⟩) x).1.dataRVld = false ∧
        ((sys c).next (⟨bst, addr, dataR, false, dataW, strbW, resp⟩, ⟨.idle, mem, dout⟩) x).1.addr = addr ∧
        ((sys c).next (⟨bst, addr, dataR, false, dataW, strbW, resp⟩, ⟨.idle, mem, dout⟩) x).2.st = .idle := by
      rcases hb with rfl | rfl <;>
        simp [sys, AxiLiteIpif.next, AxiLiteIpif.nextFsm, AxiLiteIpif.idle, brIn, epIn, out, next, wAck, ha]
    intro p hp
    rw [Machine.trace_cons, List.mem_cons] at hp
    rcases hp with rfl | hp
    · rcases hb with rfl | rfl <;> simp [sys, sysOut, AxiLiteIpif.out, AxiLiteIpif.idle, brIn, epIn, out, wAck]
    · exact ih _ (by rw [hn.1]; exact hb) hn.2.1 hn.2.2.2 (by rw [hn.2.2.1]; exact ha) p hp

/-- C216: not every accepted read is answered: the address is behind the address space of the endpoint -/
theorem answered_fails : ¬Answered exCfg := by
  intro h
  obtain ⟨k, hk⟩ := h exInit ⟨⟨rfl, rfl⟩, rfl⟩ [] { exNop with arValid := true, arAddr := 64 } rfl rfl
  obtain ⟨j, hj, hr⟩ := hk (List.replicate k exNop) (by simp) (by
    intro j hj
    rw [List.eq_of_mem_replicate hj]; rfl)
  have := (hang exCfg _ (Or.inl rfl) rfl rfl rfl _ j hj).1
  rw [this] at hr
  cases hr

/-- C216: the requests to the array are answered -/
theorem answered_partial (c : Cfg) (s : SysSt D B) (hs : SysInit s) (is : List (SysIn D B)) (hm : Mapped c ((sys c).trace s is))
    (x : SysIn D B) (hx : x.arValid = true) (hr : ((sys c).outAfter s is x).arReady = true) (ha : MemAddr c x.arAddr)
    (js : List (SysIn D B)) (hj : 2 ≤ js.length) : ∃ j ∈ (sys c).trace ((sys c).final s (is ++ [x])) js, j.2.rValid = true := by
  match js, hj with
  | y :: z :: js, _ =>
    have h := (read_latency c s hs is hm x y z hx hr ha).2
    refine ⟨(z, (sys c).outAfter s (is ++ [x, y]) z), ?_, h⟩
    have e : (sys c).outAfter s (is ++ [x, y]) z = (sys c).out ((sys c).next ((sys c).final s (is ++ [x])) y) z := by
      simp [Machine.outAfter, Machine.final_append]
    rw [e]
    simp

end Verif.IpifEndpoint
