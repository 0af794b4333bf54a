import Verif.FifoArray
/-!
# Property C31 of `FifoArray`

`system n` is the component together with a user which keeps many FIFOs in it and drives the ports as
documented; an entry of its trace is (request, (contents of FIFOs at the start of the cycle, output)).
-/
namespace Verif.FifoArray

open OneHot

universe u
variable {α : Type u}

abbrev Entry (α : Type u) := Req α × (Lists α × Out α)

/-- Trace of a `FifoArray` with `n` items and its user, from reset with all FIFOs empty. -/
abbrev run (n : Nat) (v0 : Nat → α) (x0 : Nat → Nat) (qs : List (Req α)) : List (Entry α) :=
  (system n).trace (fun _ => [], init v0 x0) qs

/-- State after the requests `qs`. -/
abbrev after (n : Nat) (v0 : Nat → α) (x0 : Nat → Nat) (qs : List (Req α)) : Lists α × St α :=
  (system n).final (fun _ => [], init v0 x0) qs

/-- Data accepted by the component to FIFO `id`. -/
def inserted (id : Nat) (t : List (Entry α)) : List α :=
  t.filterMap fun e => if e.1.insVld && e.2.2.insRd && e.1.insId == id then some e.1.data else none

/-- Data which the component handed out (`pop.data` while `pop.vld` and `pop.rd`) for FIFO `id`. -/
def popped (id : Nat) (t : List (Entry α)) : List α :=
  t.filterMap fun e =>
    if e.1.pops e.2.1 && e.2.2.popVld && e.1.popId == id then some e.2.2.popData else none

/-- The assumption under which the lists are independent: on `append = 0` the (documented as ignored)
`insert.addr` is not the address of a node with a successor. -/
def JunkOk (e : Entry α) : Prop := e.1.JunkOk e.2.1

theorem reach_inv {n : Nat} (hn : 0 < n) (v0 : Nat → α) (x0 : Nat → Nat) (qs : List (Req α))
    (hj : ∀ e ∈ run n v0 x0 qs, JunkOk e) :
    Inv n (after n v0 x0 qs).1 (after n v0 x0 qs).2 :=
  Machine.inv_final (system n) (fun s => Inv n s.1 s.2) JunkOk
    (fun _ q h hq => step_inv hn h q hq) qs _ (init_inv n hn v0 x0) hj

/-- outputs on a pop of a non-empty FIFO -/
theorem pop_out {n : Nat} {F : Lists α} {s : St α} (h : Inv n F s) (q : Req α) {a : Nat} {x : α}
    {t : List (Nat × α)} (hF : F q.popId = (a, x) :: t) :
    let o := out n s (q.drive F)
    o.popVld = true ∧ o.popData = x ∧ (o.popLast = true ↔ t = []) ∧
      (∀ b y t', t = (b, y) :: t' → o.popAddrNext = b) := by
  have hm : (a, x) ∈ F q.popId := by rw [hF]; exact List.mem_cons_self
  have hm' : a ∈ (F q.popId).map Prod.fst := List.mem_map.2 ⟨_, hm, rfl⟩
  have hv := (h.valid_iff a (h.lt _ _ hm)).2 ⟨_, hm'⟩
  have ea : (q.drive F).popAddr = a := by simp [Req.drive, hF]
  refine ⟨popVld_iff.2 ⟨a, h.lt _ _ hm, hv⟩, ?_, ?_, ?_⟩
  · show s.values (q.drive F).popAddr = x
    rw [ea]; exact h.data_eq _ _ hm
  · show (s.last (q.drive F).popAddr && s.valid (q.drive F).popAddr) = true ↔ _
    rw [ea, hv, Bool.and_true, h.last_iff _ _ hm']
    constructor
    · rintro ⟨u, y, e⟩
      cases u with
      | nil => rw [hF] at e; simp at e; exact e.2
      | cons nd u =>
        exfalso
        have hnd := h.nodup q.popId
        rw [hF] at e hnd
        simp at e
        simp only [List.map_cons, List.nodup_cons] at hnd
        apply hnd.1
        rw [e.2]; simp
    · rintro rfl
      exact ⟨[], x, hF⟩
  · rintro b y t' rfl
    show s.nxt (q.drive F).popAddr = b
    rw [ea]
    exact h.next_eq q.popId a b ⟨[], t', x, y, hF⟩

/-- **C31** (`_partial`: needs `JunkOk`, see `fifoArray_junk_addr_corrupts`). Every FIFO hands out just
its own data in order of insertion; what was not handed out yet is stored. -/
theorem fifoArray_order_partial {n : Nat} (hn : 0 < n) (v0 : Nat → α) (x0 : Nat → Nat)
    (qs : List (Req α)) (hj : ∀ e ∈ run n v0 x0 qs, JunkOk e) (id : Nat) :
    inserted id (run n v0 x0 qs) =
      popped id (run n v0 x0 qs) ++ ((after n v0 x0 qs).1 id).map Prod.snd := by
  have h := Machine.conserve (system n) (fun s => Inv n s.1 s.2) JunkOk
    (fun s => (s.1 id).map Prod.snd)
    (fun e : Entry α =>
      if e.1.insVld && e.2.2.insRd && e.1.insId == id then some e.1.data else none)
    (fun e : Entry α =>
      if e.1.pops e.2.1 && e.2.2.popVld && e.1.popId == id then some e.2.2.popData else none)
    (by
      rintro ⟨F, s⟩ q hI hq
      refine ⟨step_inv hn hI q hq, ?_⟩
      simp only [toList_ite]
      -- contents after the pop
      have h1 : (F id).map Prod.snd = given (q.pops F && (out n s (q.drive F)).popVld && q.popId == id)
          (out n s (q.drive F)).popData ++ (q.afterPop F id).map Prod.snd := by
        rcases pops_cases F q with hp | ⟨a, x, t, hF, hp⟩
        · unfold Req.afterPop; rw [hp]; rfl
        · obtain ⟨h1, h2, -⟩ := pop_out hI q hF
          unfold Req.afterPop
          rw [hp, h1, h2]
          by_cases e : q.popId = id
          · subst e; simp [hF]
          · have e' : id ≠ q.popId := fun h => e h.symm
            simp [upd_ne _ _ _ _ e', beq_eq_false_iff_ne.2 e]
      have h2 : (q.after F (out n s (q.drive F)).insRd s.insNext id).map Prod.snd =
          (q.afterPop F id).map Prod.snd ++
            given (q.insVld && (out n s (q.drive F)).insRd && q.insId == id) q.data := by
        unfold Req.after
        cases hi : (q.insVld && (out n s (q.drive F)).insRd)
        · simp
        · by_cases e : q.insId = id
          · subst e; simp
          · have e' : id ≠ q.insId := fun h => e h.symm
            simp [upd_ne _ _ _ _ e', beq_eq_false_iff_ne.2 e]
      show (F id).map Prod.snd ++ given (q.insVld && (out n s (q.drive F)).insRd && q.insId == id) q.data
        = given _ _ ++ (q.after F (out n s (q.drive F)).insRd s.insNext id).map Prod.snd
      rw [h2, h1, List.append_assoc]
      rfl)
    qs (fun _ => [], init v0 x0) (init_inv n hn v0 x0) hj
  exact h.2

/-- **C31** A pop from a non-empty FIFO is always possible and returns its first item; `last` says
whether this was the only one, `addr_next` is the address of the next one. -/
theorem fifoArray_pop_partial {n : Nat} (hn : 0 < n) (v0 : Nat → α) (x0 : Nat → Nat)
    (qs : List (Req α)) (hj : ∀ e ∈ run n v0 x0 qs, JunkOk e) (q : Req α) {a : Nat} {x : α}
    {t : List (Nat × α)} (hF : (after n v0 x0 qs).1 q.popId = (a, x) :: t) :
    let o := ((system n).outAfter (fun _ => [], init v0 x0) qs q).2
    o.popVld = true ∧ o.popData = x ∧ (o.popLast = true ↔ t = []) ∧
      (∀ b y t', t = (b, y) :: t' → o.popAddrNext = b) :=
  pop_out (reach_inv hn v0 x0 qs hj) q hF

/-- **C31** `insert.rd = 1` iff some slot is not used by any FIFO, and then `insert.addr_ret` is such
a slot. -/
theorem fifoArray_alloc_partial {n : Nat} (hn : 0 < n) (v0 : Nat → α) (x0 : Nat → Nat)
    (qs : List (Req α)) (hj : ∀ e ∈ run n v0 x0 qs, JunkOk e) (q : Req α) :
    let F := (after n v0 x0 qs).1
    let o := ((system n).outAfter (fun _ => [], init v0 x0) qs q).2
    (o.insRd = true ↔ ∃ a, a < n ∧ ∀ id, a ∉ (F id).map Prod.fst) ∧
      (o.insRd = true → o.insAddrRet < n ∧ ∀ id, o.insAddrRet ∉ (F id).map Prod.fst) := by
  have hI := reach_inv hn v0 x0 qs hj
  have hfree : ∀ a, a < n → ((after n v0 x0 qs).2.valid a = false ↔
      ∀ id, a ∉ ((after n v0 x0 qs).1 id).map Prod.fst) := by
    intro a ha
    rw [← Bool.not_eq_true, hI.valid_iff a ha]
    exact not_exists
  intro F o
  have h1 : o.insRd = true ↔ ∃ a, a < n ∧ (after n v0 x0 qs).2.valid a = false := insRd_iff
  refine ⟨?_, ?_⟩
  · rw [h1]
    constructor
    · rintro ⟨a, ha, hv⟩; exact ⟨a, ha, (hfree a ha).1 hv⟩
    · rintro ⟨a, ha, hv⟩; exact ⟨a, ha, (hfree a ha).2 hv⟩
  · intro hr
    obtain ⟨hb, hf⟩ := hI.free (h1.1 hr)
    exact ⟨hb, (hfree _ hb).1 hf⟩

/-- The assumption `JunkOk` is met by a user which puts `insert.addr_ret` on `insert.addr` whenever it
starts a new list. -/
theorem junkOk_of_addrRet {n : Nat} {F : Lists α} {s : St α} (h : Inv n F s) (q : Req α)
    (hj : q.junk = s.insNext) (hr : (out n s (q.drive F)).insRd = true) : q.JunkOk F := by
  obtain ⟨hb, hf⟩ := h.free (insRd_iff.1 hr)
  rintro _ _ id c ⟨u, v, x, y, e⟩
  have hm : s.insNext ∈ (q.afterPop F id).map Prod.fst := by rw [e, hj]; simp
  have hm2 : s.insNext ∈ (F id).map Prod.fst := by
    rcases pops_cases F q with hp | ⟨a, z, t, hF, hp⟩
    · have e1 : q.afterPop F = F := by unfold Req.afterPop; rw [hp]; rfl
      rwa [e1] at hm
    · have e1 : q.afterPop F = upd F q.popId t := by
        unfold Req.afterPop; rw [hp, hF]; rfl
      rw [e1] at hm
      by_cases e2 : id = q.popId
      · subst e2
        rw [upd_same] at hm
        rw [hF, List.map_cons]
        exact List.mem_cons_of_mem _ hm
      · rwa [upd_ne _ _ _ _ e2] at hm
  have := (h.valid_iff _ hb).2 ⟨id, hm2⟩
  rw [hf] at this; cases this

/-! ## Non-vacuity and the violation -/

def ins (id : Nat) (d junk : Nat) : Req Nat := ⟨true, id, d, junk, false, 0⟩
def pop (id : Nat) : Req Nat := ⟨false, 0, 0, 0, true, id⟩

def goodHist : List (Req Nat) := [ins 0 10 0, ins 0 11 3, ins 1 20 3, ins 0 12 3, pop 0, pop 1, pop 0]

-- the history uses two FIFOs, data is interleaved, everything is delivered
example : popped 0 (run 4 (fun _ => 0) (fun _ => 0) goodHist) = [10, 11] ∧
    popped 1 (run 4 (fun _ => 0) (fun _ => 0) goodHist) = [20] ∧
    inserted 0 (run 4 (fun _ => 0) (fun _ => 0) goodHist) = [10, 11, 12] ∧
    ((after 4 (fun _ => 0) (fun _ => 0) goodHist).1 0) = [(3, 12)] := by decide

theorem consec_mem {l : List (Nat × α)} {a b : Nat} (h : Consec l a b) : a ∈ l.map Prod.fst := by
  obtain ⟨u, v, x, y, rfl⟩ := h
  simp

-- the hypothesis `JunkOk` is satisfied by a history with two FIFOs
example : ∀ e ∈ run 4 (fun _ => (0 : Nat)) (fun _ => 0) [ins 0 10 0, ins 0 11 3, ins 1 20 3], JunkOk e := by
  simp only [run, Machine.trace_cons, Machine.trace_nil, List.mem_cons, List.not_mem_nil, or_false,
    forall_eq_or_imp, forall_eq]
  refine ⟨?_, ?_, ?_⟩
  · intro _ _ id c hc
    have := consec_mem hc
    revert this
    show ¬ _ ∈ List.map Prod.fst ([] : List (Nat × Nat))
    simp
  · intro _ h
    exact absurd h (by decide)
  · intro _ _ id c hc
    have h3 := consec_mem hc
    by_cases e : id = 0
    · subst e
      revert h3
      decide
    · have : (ins 1 20 3).afterPop (after 4 (fun _ => (0 : Nat)) (fun _ => 0) [ins 0 10 0, ins 0 11 3]).1 id
          = [] := by
        show upd (upd (fun _ => []) 0 _) 0 _ id = []
        rw [upd_ne _ _ _ _ e, upd_ne _ _ _ _ e]
      rw [show ((system 4).next ((system 4).next (fun _ => [], init (fun _ => (0 : Nat)) (fun _ => 0))
        (ins 0 10 0)) (ins 0 11 3)) = after 4 (fun _ => (0 : Nat)) (fun _ => 0) [ins 0 10 0, ins 0 11 3]
        from rfl] at h3
      change _ ∈ List.map Prod.fst ((ins 1 20 3).afterPop
        (after 4 (fun _ => (0 : Nat)) (fun _ => 0) [ins 0 10 0, ins 0 11 3]).1 id) at h3
      rw [this] at h3
      simp at h3

/-- FIFO 0 holds nodes 0 → 1 (data 10, 11). Starting FIFO 1 with the ignored `insert.addr = 0`
overwrites the link of node 0. -/
def badHist : List (Req Nat) := [ins 0 10 0, ins 0 11 0, ins 1 20 0]

/-- Full statement of C31 (`addr_next` is the next node, for every history of requests). -/
def AddrNextFull (n : Nat) : Prop :=
  ∀ (v0 : Nat → Nat) (x0 : Nat → Nat) (qs : List (Req Nat)) (q : Req Nat) (a x b y : Nat)
    (t : List (Nat × Nat)),
    (after n v0 x0 qs).1 q.popId = (a, x) :: (b, y) :: t →
    ((system n).outAfter (fun _ => [], init v0 x0) qs q).2.popAddrNext = b

/-- **C31 is violated** without the extra assumption: `insert.addr` is documented as ignored when
`append = 0`, but it is written. -/
theorem fifoArray_junk_addr_corrupts : ¬ AddrNextFull 4 := by
  intro h
  have := h (fun _ => 0) (fun _ => 0) badHist (pop 0) 0 10 1 11 [] (by decide)
  revert this
  decide

end Verif.FifoArray
