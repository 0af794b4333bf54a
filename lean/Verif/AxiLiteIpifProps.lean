import Verif.AxiLiteIpif
import Mathlib.Data.List.Induction

/-!
# Properties of `Axi4Lite_to_Ipif` (C211 - C213)
-/

namespace Verif.AxiLiteIpif

open Verif

variable {A D B : Type}

abbrev Tr (A D B : Type) := List (In A D B × Out A D B)

/-- addresses accepted from AXI (`true` for reads) -/
def reqs (tr : Tr A D B) : List (Bool × A) :=
  tr.flatMap fun p =>
    (if p.1.arValid && p.2.arReady then [(true, p.1.arAddr)] else []) ++
      (if p.1.awValid && p.2.awReady then [(false, p.1.awAddr)] else [])

/-- data accepted from AXI -/
def wbeats (tr : Tr A D B) : List (D × B) := tr.filterMap fun p => if p.1.wValid && p.2.wReady then some (p.1.wData, p.1.wStrb) else none

/-- transactions acknowledged on IPIF -/
def done (tr : Tr A D B) : List (Bool × A) :=
  tr.filterMap fun p => if p.2.cs && (if p.2.rnw then p.1.rdack else p.1.wrack) then some (p.2.rnw, p.2.addr) else none

/-- data written on IPIF -/
def written (tr : Tr A D B) : List (D × B) :=
  tr.filterMap fun p => if p.2.cs && !p.2.rnw && p.1.wrack then some (p.2.wdata, p.2.be) else none

/-- answers of reads and writes on IPIF -/
def rdacks (tr : Tr A D B) : List (Option D × Bool) :=
  tr.filterMap fun p => if p.2.cs && p.2.rnw && p.1.rdack then some (some p.1.data, p.1.error) else none
def wracks (tr : Tr A D B) : List Bool :=
  tr.filterMap fun p => if p.2.cs && !p.2.rnw && p.1.wrack then some p.1.error else none

/-- answers on AXI -/
def rbeats (tr : Tr A D B) : List (Option D × Bool) :=
  tr.filterMap fun p => if p.2.rValid && p.1.rReady then some (p.2.rData, p.2.resp) else none
def bbeats (tr : Tr A D B) : List Bool :=
  tr.filterMap fun p => if p.2.bValid && p.1.bReady then some p.2.resp else none

/-- the slave acknowledges only while it is selected and only the kind of the transaction -/
def SlaveOk (p : In A D B × Out A D B) : Prop :=
  (p.1.rdack = true → p.2.cs = true ∧ p.2.rnw = true) ∧ (p.1.wrack = true → p.2.cs = true ∧ p.2.rnw = false)

def qReq (s : St A D B) : List (Bool × A) :=
  match s.st with
  | .read => [(true, s.addr)]
  | .write => [(false, s.addr)]
  | .writeWaitData => [(false, s.addr)]
  | _ => []
def qW (s : St A D B) : List (D × B) := if s.st = .write then [(s.dataW, s.strbW)] else []
def qR (s : St A D B) : List (Option D × Bool) := if s.st = .readAck then [(some s.dataR, s.resp)] else []
def qB (s : St A D B) : List Bool := if s.st = .writeAck then [s.resp] else []

theorem filterMap_flatMap {α β : Type} (f : α → Option β) (l : List α) : l.filterMap f = l.flatMap fun a => (f a).toList := by
  induction l with
  | nil => rfl
  | cons a l ih => rw [List.filterMap_cons, List.flatMap_cons, ← ih]; cases f a <;> rfl

def Inv (s : St A D B) : Prop := s.dataRVld = false

theorem inv_step (s : St A D B) (x : In A D B) (hi : Inv s) (hk : SlaveOk (x, out s x)) : Inv (next s x) := by
  unfold Inv at *
  simp only [next]
  split
  · rename_i h
    cases hr : x.rdack with
    | false => rfl
    | true =>
      have := (hk.1 hr).1
      simp only [idle, decide_eq_true_eq] at h
      simp [out, h] at this
  · exact hi

/-- C211: the transactions on IPIF are the requests accepted from AXI, each once and in the same order -/
theorem requests_once (s : St A D B) (hs : IsInit s) (is : List (In A D B)) (hk : ∀ p ∈ machine.trace s is, SlaveOk p) :
    ∃ pend : List (Bool × A), pend.length ≤ 1 ∧ reqs (machine.trace s is) = done (machine.trace s is) ++ pend := by
  have h := Machine.conserveL machine Inv SlaveOk qReq
    (fun p => (if p.1.arValid && p.2.arReady then [(true, p.1.arAddr)] else []) ++
      (if p.1.awValid && p.2.awReady then [(false, p.1.awAddr)] else []))
    (fun p => (if p.2.cs && (if p.2.rnw then p.1.rdack else p.1.wrack) then some (p.2.rnw, p.2.addr) else none).toList)
    (by
      intro s x hi hk
      refine ⟨inv_step s x hi hk, ?_⟩
      unfold Inv at hi
      obtain ⟨st, addr, dataR, vld, dataW, strbW, resp⟩ := s
      obtain ⟨arV, arA, awV, awA, wV, wD, wS, rR, bR, rda, wra, er, dt⟩ := x
      simp only at hi
      subst hi
      cases st <;> cases arV <;> cases awV <;> cases wV <;> cases rR <;> cases bR <;> cases rda <;> cases wra <;>
        simp [machine, qReq, next, nextFsm, out, idle, SlaveOk] at hk ⊢)
    is s hs.vld hk
  refine ⟨qReq (machine.final s is), ?_, ?_⟩
  · unfold qReq; split <;> simp
  · have h2 := h.2
    have e : qReq s = [] := by simp [qReq, hs.st]
    rw [e, List.nil_append] at h2
    unfold reqs
    rw [h2]
    congr 1
    unfold done
    rw [filterMap_flatMap]

/-- C211: the data written on IPIF are the data accepted from AXI -/
theorem writes_once (s : St A D B) (hs : IsInit s) (is : List (In A D B)) (hk : ∀ p ∈ machine.trace s is, SlaveOk p) :
    ∃ pend : List (D × B), pend.length ≤ 1 ∧ wbeats (machine.trace s is) = written (machine.trace s is) ++ pend := by
  have h := Machine.conserve machine Inv SlaveOk qW
    (fun p => if p.1.wValid && p.2.wReady then some (p.1.wData, p.1.wStrb) else none)
    (fun p => if p.2.cs && !p.2.rnw && p.1.wrack then some (p.2.wdata, p.2.be) else none)
    (by
      intro s x hi hk
      refine ⟨inv_step s x hi hk, ?_⟩
      unfold Inv at hi
      obtain ⟨st, addr, dataR, vld, dataW, strbW, resp⟩ := s
      obtain ⟨arV, arA, awV, awA, wV, wD, wS, rR, bR, rda, wra, er, dt⟩ := x
      simp only at hi
      subst hi
      cases st <;> cases arV <;> cases awV <;> cases wV <;> cases rR <;> cases bR <;> cases rda <;> cases wra <;>
        simp [machine, qW, next, nextFsm, out, idle, SlaveOk] at hk ⊢)
    is s hs.vld hk
  refine ⟨qW (machine.final s is), ?_, ?_⟩
  · unfold qW; split <;> simp
  · have h2 := h.2
    have e : qW s = [] := by simp [qW, hs.st]
    rw [e, List.nil_append] at h2
    exact h2

/-- C212: the answers of reads on AXI are the answers on IPIF -/
theorem reads_answered (s : St A D B) (hs : IsInit s) (is : List (In A D B)) (hk : ∀ p ∈ machine.trace s is, SlaveOk p) :
    ∃ pend : List (Option D × Bool), pend.length ≤ 1 ∧ rdacks (machine.trace s is) = rbeats (machine.trace s is) ++ pend := by
  have h := Machine.conserve machine Inv SlaveOk qR
    (fun p => if p.2.cs && p.2.rnw && p.1.rdack then some (some p.1.data, p.1.error) else none)
    (fun p => if p.2.rValid && p.1.rReady then some (p.2.rData, p.2.resp) else none)
    (by
      intro s x hi hk
      refine ⟨inv_step s x hi hk, ?_⟩
      unfold Inv at hi
      obtain ⟨st, addr, dataR, vld, dataW, strbW, resp⟩ := s
      obtain ⟨arV, arA, awV, awA, wV, wD, wS, rR, bR, rda, wra, er, dt⟩ := x
      simp only at hi
      subst hi
      cases st <;> cases arV <;> cases awV <;> cases wV <;> cases rR <;> cases bR <;> cases rda <;> cases wra <;>
        simp [machine, qR, next, nextFsm, out, idle, SlaveOk] at hk ⊢)
    is s hs.vld hk
  refine ⟨qR (machine.final s is), ?_, ?_⟩
  · unfold qR; split <;> simp
  · have h2 := h.2
    have e : qR s = [] := by simp [qR, hs.st]
    rw [e, List.nil_append] at h2
    exact h2

/-- C212: the answers of writes on AXI are the answers on IPIF -/
theorem writes_answered (s : St A D B) (hs : IsInit s) (is : List (In A D B)) (hk : ∀ p ∈ machine.trace s is, SlaveOk p) :
    ∃ pend : List Bool, pend.length ≤ 1 ∧ wracks (machine.trace s is) = bbeats (machine.trace s is) ++ pend := by
  have h := Machine.conserve machine Inv SlaveOk qB
    (fun p => if p.2.cs && !p.2.rnw && p.1.wrack then some p.1.error else none)
    (fun p => if p.2.bValid && p.1.bReady then some p.2.resp else none)
    (by
      intro s x hi hk
      refine ⟨inv_step s x hi hk, ?_⟩
      unfold Inv at hi
      obtain ⟨st, addr, dataR, vld, dataW, strbW, resp⟩ := s
      obtain ⟨arV, arA, awV, awA, wV, wD, wS, rR, bR, rda, wra, er, dt⟩ := x
      simp only at hi
      subst hi
      cases st <;> cases arV <;> cases awV <;> cases wV <;> cases rR <;> cases bR <;> cases rda <;> cases wra <;>
        simp [machine, qB, next, nextFsm, out, idle, SlaveOk] at hk ⊢)
    is s hs.vld hk
  refine ⟨qB (machine.final s is), ?_, ?_⟩
  · unfold qB; split <;> simp
  · have h2 := h.2
    have e : qB s = [] := by simp [qB, hs.st]
    rw [e, List.nil_append] at h2
    exact h2

/-- C213: a selected IPIF transaction is not changed until it is acknowledged -/
theorem ipif_stable (s : St A D B) (hs : IsInit s) (is : List (In A D B)) (x y : In A D B)
    (hk : ∀ p ∈ machine.trace s (is ++ [x]), SlaveOk p) (hc : (machine.outAfter s is x).cs = true)
    (ha : x.rdack = false) (hb : x.wrack = false) :
    let o := machine.outAfter s is x
    let o' := machine.outAfter s (is ++ [x]) y
    o'.cs = true ∧ o'.rnw = o.rnw ∧ o'.addr = o.addr ∧ o'.wdata = o.wdata ∧ o'.be = o.be := by
  rw [Machine.trace_append] at hk
  have hi : Inv (machine.final s is) := Machine.inv_final machine Inv SlaveOk inv_step is s hs.vld
    fun e he => hk e (List.mem_append_left _ he)
  unfold Machine.outAfter at hc ⊢
  rw [Machine.final_append]
  generalize machine.final s is = t at *
  unfold Inv at hi
  obtain ⟨st, addr, dataR, vld, dataW, strbW, resp⟩ := t
  simp only at hi
  subst hi
  cases st <;> simp [machine, out, next, nextFsm, idle, ha, hb] at hc ⊢

/-- C213: an answer on AXI stays unchanged until it is taken -/
theorem axi_stable (s : St A D B) (hs : IsInit s) (is : List (In A D B)) (x y : In A D B)
    (hk : ∀ p ∈ machine.trace s (is ++ [x, y]), SlaveOk p) :
    let o := machine.outAfter s is x
    let o' := machine.outAfter s (is ++ [x]) y
    (o.rValid = true → x.rReady = false → o'.rValid = true ∧ o'.rData = o.rData ∧ o'.resp = o.resp) ∧
      (o.bValid = true → x.bReady = false → o'.bValid = true ∧ o'.resp = o.resp) := by
  rw [Machine.trace_append] at hk
  have hi : Inv (machine.final s is) := Machine.inv_final machine Inv SlaveOk inv_step is s hs.vld
    fun e he => hk e (List.mem_append_left _ he)
  have h1 := hk (x, machine.out (machine.final s is) x) (List.mem_append_right _ (by simp))
  have h2 := hk (y, machine.out (machine.next (machine.final s is) x) y) (List.mem_append_right _ (by simp))
  unfold Machine.outAfter
  rw [Machine.final_append]
  generalize machine.final s is = t at *
  unfold Inv at hi
  obtain ⟨st, addr, dataR, vld, dataW, strbW, resp⟩ := t
  simp only at hi
  subst hi
  obtain ⟨arV, arA, awV, awA, wV, wD, wS, rR, bR, rda, wra, er, dt⟩ := x
  obtain ⟨arV', arA', awV', awA', wV', wD', wS', rR', bR', rda', wra', er', dt'⟩ := y
  cases st <;> cases rda <;> cases wra <;> cases rda' <;> cases wra' <;> cases rR <;> cases bR <;>
    simp [machine, out, next, nextFsm, idle, SlaveOk] at h1 h2 ⊢

/-- C213: a request is accepted whenever no transaction is in progress, reads have priority, an accepted read selects the slave in the next cycle -/
theorem idle_accepts (s : St A D B) (hs : IsInit s) (is : List (In A D B)) (x y : In A D B)
    (hk : ∀ p ∈ machine.trace s is, SlaveOk p)
    (hr : (reqs (machine.trace s is)).length = (rbeats (machine.trace s is)).length + (bbeats (machine.trace s is)).length) :
    let o := machine.outAfter s is x
    o.arReady = true ∧ o.awReady = !x.arValid ∧
      (x.arValid = true → (machine.outAfter s (is ++ [x]) y).cs = true ∧ (machine.outAfter s (is ++ [x]) y).rnw = true ∧
        (machine.outAfter s (is ++ [x]) y).addr = x.arAddr) := by
  have cnt : Inv (machine.final s is) ∧ (reqs (machine.trace s is)).length =
      (rbeats (machine.trace s is)).length + (bbeats (machine.trace s is)).length +
        (if (machine.final s is).st = .idle then 0 else 1) := by
    clear hr
    induction is using List.reverseRecOn with
    | nil => exact ⟨hs.vld, by simp [reqs, rbeats, bbeats, hs.st]⟩
    | append_singleton is x ih =>
      rw [Machine.trace_snoc] at hk ⊢
      obtain ⟨hi, ih⟩ := ih fun e he => hk e (List.mem_append_left _ he)
      have h1 := hk _ (List.mem_append_right _ (List.mem_singleton.2 rfl))
      rw [Machine.final_append]
      refine ⟨inv_step _ _ hi h1, ?_⟩
      simp only [reqs, rbeats, bbeats, List.flatMap_append, List.filterMap_append, List.length_append] at ih ⊢
      rw [ih]
      clear ih hk
      unfold Machine.outAfter at *
      generalize machine.final s is = t at *
      unfold Inv at hi
      obtain ⟨st, addr, dataR, vld, dataW, strbW, resp⟩ := t
      simp only at hi
      subst hi
      obtain ⟨arV, arA, awV, awA, wV, wD, wS, rR, bR, rda, wra, er, dt⟩ := x
      cases st <;> cases arV <;> cases awV <;> cases wV <;> cases rda <;> cases wra <;> cases rR <;> cases bR <;>
        simp [machine, out, next, nextFsm, idle, SlaveOk] at h1 ⊢ <;> omega
  have hidle : (machine.final s is).st = .idle := by
    by_contra hne
    have := cnt.2
    rw [if_neg hne] at this
    omega
  unfold Machine.outAfter
  rw [Machine.final_append]
  clear hr cnt
  generalize machine.final s is = t at *
  refine ⟨?_, ?_, fun ha => ?_⟩
  · simp [machine, out, idle, hidle]
  · simp [machine, out, idle, hidle]
  · simp [machine, out, next, nextFsm, idle, hidle, ha]

/-! ## Example: a write and a read, the master takes the answers late -/

def nop : In Nat Nat Nat := ⟨false, 0, false, 0, false, 0, 0, false, false, false, false, false, 0⟩
def exInit : St Nat Nat Nat := ⟨.idle, 0, 0, false, 0, 0, false⟩
def exIn : List (In Nat Nat Nat) :=
  [{ nop with awValid := true, awAddr := 4, wValid := true, wData := 11, wStrb := 15 }, { nop with wValid := true, wData := 11, wStrb := 15 },
   nop, { nop with wrack := true, error := true }, nop, { nop with bReady := true },
   { nop with arValid := true, arAddr := 8, awValid := true, awAddr := 12 }, { nop with rdack := true, data := 7 }, nop, { nop with rReady := true },
   { nop with awValid := true, awAddr := 12 }]

example : IsInit exInit := ⟨rfl, rfl⟩
example : ∀ p ∈ machine.trace exInit exIn, SlaveOk p := by
  unfold SlaveOk
  decide
example : reqs (machine.trace exInit exIn) = [(false, 4), (true, 8), (false, 12)] ∧ done (machine.trace exInit exIn) = [(false, 4), (true, 8)] ∧
    written (machine.trace exInit exIn) = [(11, 15)] ∧ rbeats (machine.trace exInit exIn) = [(some 7, false)] ∧
    bbeats (machine.trace exInit exIn) = [true] := by decide

/-- a slave which acknowledges while it is not selected: the read returns data which were never read from the address -/
example :
    let is : List (In Nat Nat Nat) := [{ nop with rdack := true, data := 1 }, { nop with arValid := true, arAddr := 8, rdack := true, data := 2 },
      { nop with rReady := true }]
    rbeats (machine.trace exInit is) = [(some 2, false)] ∧ done (machine.trace exInit is) = [] := by decide

end Verif.AxiLiteIpif
