import Verif.IpifBus
import Verif.Mi32BusProps

/-!
# Properties of `IpifBuff` and `IpifInterconnectMatrix` (C230 - C232)
-/

namespace Verif.IpifBus

open Verif

variable {Q D : Type}

/-- the transaction ends with either of the acknowledgements -/
def Resp.done (r : Resp D) : Bool := r.rdack || r.wrack

@[simp] theorem ack_done (r : Resp D) : r.ack = r.done := rfl

abbrev Tr (Q D : Type) := List (In Q D × Out Q D)

/-- transactions finished on `s`: a request with its response -/
def sTrans (tr : Tr Q D) : List (Q × Resp D) := tr.flatMap fun e => if e.1.cs && e.2.resp.done then [(e.1.req, e.2.resp)] else []
/-- transactions finished on `m` -/
def mTrans (tr : Tr Q D) : List (Q × Resp D) := tr.flatMap fun e => if e.2.cs && e.1.resp.done then [(e.2.req, e.1.resp)] else []

/-- the master holds the request until it is acknowledged -/
def Holds (tr : Tr Q D) : Prop :=
  ∀ (k : Nat) e e', tr[k]? = some e → tr[k + 1]? = some e' → e.1.cs = true → e.2.resp.done = false → e'.1.cs = true ∧ e'.1.req = e.1.req

/-- the slave acknowledges only if it is selected -/
def Polite (tr : Tr Q D) : Prop := ∀ e ∈ tr, e.1.resp.done = true → e.2.cs = true

/-- each transaction of `s` was done on `m` exactly once, with its own response, one may be on the way back -/
def Once (tr : Tr Q D) : Prop := ∃ p : List (Q × Resp D), p.length ≤ 1 ∧ mTrans tr = sTrans tr ++ p

/-- full statement: for any values of the registers after reset -/
def OnceAlways (Q D : Type) : Prop :=
  ∀ (s : St Q D), s.cs = false → ∀ is : List (In Q D), Holds (buff.trace s is) → Polite (buff.trace s is) → Once (buff.trace s is)

structure BInv (tr : Tr Q D) (s : St Q D) (p : List (Q × Resp D)) : Prop where
  eq : mTrans tr = sTrans tr ++ p
  idle : s.resp.done = false → p = []
  ack : s.resp.done = true → ∃ e, tr.getLast? = some e ∧ p = [(e.1.req, s.resp)] ∧ e.1.cs = true ∧ e.2.resp.done = false
  cs : s.resp.done = false → s.cs = true → ∃ e, tr.getLast? = some e ∧ e.1.cs = true ∧ e.1.req = s.req ∧ e.2.resp.done = false

theorem holds_last {tr : Tr Q D} {e f : In Q D × Out Q D} (h : Holds (tr ++ [f])) (hl : tr.getLast? = some e) (h1 : e.1.cs = true)
    (h2 : e.2.resp.done = false) : f.1.cs = true ∧ f.1.req = e.1.req := by
  have hne : tr ≠ [] := by rintro rfl; simp at hl
  have hlen : 0 < tr.length := List.length_pos_iff.2 hne
  refine h (tr.length - 1) e f ?_ ?_ h1 h2
  · rw [List.getElem?_append_left (by omega), ← List.getLast?_eq_getElem?]; exact hl
  · have : tr.length - 1 + 1 = tr.length := by omega
    rw [this]; simp

theorem holds_prefix {tr : Tr Q D} {f : In Q D × Out Q D} (h : Holds (tr ++ [f])) : Holds tr := by
  intro k e e' h1 h2
  have hk := (List.getElem?_eq_some_iff.1 h2).1
  exact h k e e' (by rw [List.getElem?_append_left (by omega)]; exact h1) (by rw [List.getElem?_append_left hk]; exact h2)

theorem sTrans_snoc (tr : Tr Q D) (e : In Q D × Out Q D) :
    sTrans (tr ++ [e]) = sTrans tr ++ if e.1.cs && e.2.resp.done then [(e.1.req, e.2.resp)] else [] := by simp [sTrans]
theorem mTrans_snoc (tr : Tr Q D) (e : In Q D × Out Q D) :
    mTrans (tr ++ [e]) = mTrans tr ++ if e.2.cs && e.1.resp.done then [(e.2.req, e.1.resp)] else [] := by simp [mTrans]

theorem binv_step {tr : Tr Q D} {s : St Q D} {p : List (Q × Resp D)} (x : In Q D) (h : BInv tr s p)
    (hh : Holds (tr ++ [(x, buff.out s x)])) (hp : x.resp.done = true → (buff.out s x).cs = true) :
    ∃ p', p'.length ≤ 1 ∧ BInv (tr ++ [(x, buff.out s x)]) (buff.next s x) p' := by
  by_cases ha : s.resp.done = true
  · obtain ⟨e, he, h1, h2, h3⟩ := h.ack ha
    obtain ⟨h4, h5⟩ := holds_last hh he h2 h3
    simp only at h4 h5
    have hx : x.resp.done = false := by
      rw [Bool.eq_false_iff]; intro hx; have := hp hx; simp [buff, ha] at this
    refine ⟨[], by simp, ?_, fun _ => rfl, ?_, ?_⟩
    · rw [mTrans_snoc, sTrans_snoc, h.eq, h1]
      simp [buff, ha, h4, h5]
    · intro hx'; rw [show (buff.next s x).resp = x.resp from rfl, hx] at hx'; cases hx'
    · intro _ hc; simp [buff, ha] at hc
  · have ha' : s.resp.done = false := by simpa using ha
    have hp0 := h.idle ha'
    have hs : mTrans tr = sTrans tr := by rw [h.eq, hp0]; simp
    by_cases hx : x.resp.done = true
    · have hcs : s.cs = true := by have := hp hx; simpa [buff, ha'] using this
      obtain ⟨e, he, h1, h2, h3⟩ := h.cs ha' hcs
      obtain ⟨h4, h5⟩ := holds_last hh he h1 h3
      simp only at h4 h5
      refine ⟨[(x.req, x.resp)], by simp, ?_, ?_, ?_, ?_⟩
      · rw [mTrans_snoc, sTrans_snoc, hs]
        simp [buff, ha', hcs, hx, h5, h2]
      · intro hx'; rw [show (buff.next s x).resp = x.resp from rfl, hx] at hx'; cases hx'
      · intro _; exact ⟨(x, buff.out s x), by simp, rfl, h4, ha'⟩
      · intro hx'; rw [show (buff.next s x).resp = x.resp from rfl, hx] at hx'; cases hx'
    · have hx' : x.resp.done = false := by simpa using hx
      refine ⟨[], by simp, ?_, fun _ => rfl, ?_, ?_⟩
      · rw [mTrans_snoc, sTrans_snoc, hs]
        simp [buff, ha', hx']
      · intro h9; exact absurd h9 hx
      · intro _ hc
        exact ⟨(x, buff.out s x), by simp, by simpa [buff, ha'] using hc, rfl, ha'⟩

/-- C230: each transaction passes once if the response registers are idle after the reset or the master waits one clock -/
theorem once_partial (s : St Q D) (hc : s.cs = false) (is : List (In Q D))
    (h0 : s.resp.done = false ∨ ∀ x, is.head? = some x → x.cs = false)
    (hh : Holds (buff.trace s is)) (hp : Polite (buff.trace s is)) : Once (buff.trace s is) := by
  -- from an idle state
  have idle : ∀ (s : St Q D) (is : List (In Q D)), s.cs = false → s.resp.done = false → Holds (buff.trace s is) → Polite (buff.trace s is) →
      Once (buff.trace s is) := by
    intro s is hc h0 hh hp
    have : ∃ p, p.length ≤ 1 ∧ BInv (buff.trace s is) (buff.final s is) p := by
      induction is using List.reverseRecOn with
      | nil =>
        refine ⟨[], by simp, rfl, fun _ => rfl, fun h => ?_, fun _ h => ?_⟩
        · rw [Machine.final_nil, h0] at h; cases h
        · rw [Machine.final_nil, hc] at h; cases h
      | append_singleton is x ih =>
        rw [Machine.trace_snoc] at *
        obtain ⟨p, -, h⟩ := ih (holds_prefix hh) (fun e he => hp e (by simp [he]))
        simp only [Machine.final_append, Machine.final_cons, Machine.final_nil]
        exact binv_step x h hh (hp (x, buff.outAfter s is x) (by simp))
    obtain ⟨p, h1, h2⟩ := this
    exact ⟨p, h1, h2.eq⟩
  rcases h0 with h0 | h0
  · exact idle s is hc h0 hh hp
  · cases is with
    | nil => exact ⟨[], by simp, rfl⟩
    | cons x is =>
      have hx := h0 x rfl
      rw [Machine.trace_cons] at hh hp ⊢
      have hm : (buff.out s x).cs = false := by simp [buff, hc]
      have hxa : x.resp.done = false := by
        rw [Bool.eq_false_iff]; intro h
        have := hp (x, buff.out s x) (by simp) h
        simp [hm] at this
      have hn : (buff.next s x).cs = false := by simp [buff, hx]
      obtain ⟨p, h1, h2⟩ := idle (buff.next s x) is hn hxa
        (fun k e e' he he' => hh (k + 1) e e' (by simpa using he) (by simpa using he')) (fun e he => hp e (by simp [he]))
      refine ⟨p, h1, ?_⟩
      simp only [mTrans, sTrans, List.flatMap_cons, hm, hx] at h2 ⊢
      simpa using h2

/-- C230: response registers have no reset value, if they power up with an acknowledge then a transaction which is started
immediately is acknowledged without being done -/
theorem once_fails : ¬OnceAlways Unit Unit := by
  intro h
  obtain ⟨p, -, h2⟩ := h ⟨false, (), ⟨true, false, false, ()⟩⟩ rfl [⟨true, (), ⟨false, false, false, ()⟩⟩]
    (by intro k e e' _ h2; simp [Machine.trace_cons, Machine.trace_nil] at h2)
    (by intro e he h2; simp [Machine.trace_cons, Machine.trace_nil] at he; subst he; cases h2)
  simp [mTrans, sTrans, Machine.trace_cons, Machine.trace_nil, buff, Resp.done] at h2

/-- C231: latency: the request is on `m` in the next cycle, a response is on `s` in the next cycle and the slave is deselected then
and in the cycle after it -/
theorem latency (s : St Q D) (x y z : In Q D) (hx : x.resp.done = true) :
    (buff.outAfter s [x] y).resp = x.resp ∧ (buff.outAfter s [x] y).cs = false ∧ (buff.outAfter s [x, y] z).cs = false := by
  refine ⟨rfl, ?_, ?_⟩
  · show (if x.resp.done then false else _) = false
    rw [hx]; rfl
  · show (if y.resp.done then false else if x.resp.done then false else _) = false
    rw [hx]; simp

theorem select_latency (s : St Q D) (x y : In Q D) (hs : s.resp.done = false) (hx : x.resp.done = false) :
    (buff.outAfter s [x] y).cs = x.cs ∧ (buff.outAfter s [x] y).req = x.req := by
  refine ⟨?_, rfl⟩
  show (if x.resp.done then false else if s.resp.done then false else x.cs) = x.cs
  rw [hx, hs]; rfl

/-- two transactions directly one after the other, the slave acknowledges immediately -/
def isEx : List (In Nat Nat) :=
  let no : Resp Nat := ⟨false, false, false, 0⟩
  [⟨true, 1, no⟩, ⟨true, 1, ⟨true, false, false, 5⟩⟩, ⟨true, 1, no⟩, ⟨true, 2, no⟩, ⟨true, 2, ⟨false, true, false, 0⟩⟩, ⟨true, 2, no⟩, ⟨false, 0, no⟩]

def sEx : St Nat Nat := ⟨false, 0, ⟨false, false, false, 0⟩⟩

theorem isEx_polite : Polite (buff.trace sEx isEx) := by unfold Polite; decide
theorem isEx_holds : Holds (buff.trace sEx isEx) := by
  intro k e e' h1 h2
  have hk : k < 6 := by
    have := (List.getElem?_eq_some_iff.1 h2).1
    simp [isEx] at this; omega
  have : ∀ k < 6, ∀ e ∈ (buff.trace sEx isEx)[k]?, ∀ e' ∈ (buff.trace sEx isEx)[k + 1]?, e.1.cs = true → e.2.resp.done = false →
      e'.1.cs = true ∧ e'.1.req = e.1.req := by decide
  exact this k hk e h1 e' h2
example : sTrans (buff.trace sEx isEx) = [(1, ⟨true, false, false, 5⟩), (2, ⟨false, true, false, 0⟩)] := by decide
example : Once (buff.trace sEx isEx) := once_partial sEx rfl isEx (.inl rfl) isEx_holds isEx_polite

/-! ## `IpifInterconnectMatrix` -/


/-- C232: a request in the region of a slave selects only this slave, with the relative address, the response is the response of this slave
whatever the other slaves do -/
theorem routing (c : Mi32Bus.Cfg) (h : Mi32Bus.Valid c) (m : Bus Q) (r : Nat → Resp D) (i : Nat) (p : Nat × Nat) (hp : c.slaves[i]? = some p)
    (ha : Mi32Bus.InRegion p m.addr) :
    (toSlave c m i).cs = m.cs ∧ (toSlave c m i).addr = m.addr - p.1 ∧ (toSlave c m i).req = m.req ∧
    (∀ j, j ≠ i → (toSlave c m j).cs = false) ∧
    toMaster c m r = ⟨(r i).rdack, (r i).wrack, (r i).error, some (r i).data⟩ := by
  have hc := (Mi32Bus.cs_iff h i m.addr p hp).2 ha
  have hany : ∀ f : Nat → Bool, ((List.range (Mi32Bus.n c)).any fun j => Mi32Bus.cs c j m.addr && f j) = f i := by
    intro f
    rw [Bool.eq_iff_iff]
    simp only [List.any_eq_true, List.mem_range, Bool.and_eq_true]
    constructor
    · rintro ⟨j, -, hj, hj2⟩
      rw [Mi32Bus.cs_excl h hc hj]; exact hj2
    · intro h1
      exact ⟨i, Mi32Bus.cs_lt hc, hc, h1⟩
  refine ⟨by simp [toSlave, hc], ?_, rfl, ?_, ?_⟩
  · simp only [toSlave, hp]
    exact Mi32Bus.saddr_eq h i m.addr p hp ha
  · intro j hj
    simp only [toSlave, Bool.and_eq_false_iff]
    right
    rw [Bool.eq_false_iff]
    intro h1
    exact hj (Mi32Bus.cs_excl h h1 hc)
  · have hf : (List.range (Mi32Bus.n c)).find? (fun j => Mi32Bus.cs c j m.addr) = some i := by
      cases hf : (List.range (Mi32Bus.n c)).find? fun j => Mi32Bus.cs c j m.addr with
      | none => exact absurd hc (List.find?_eq_none.1 hf i (List.mem_range.2 (Mi32Bus.cs_lt hc)))
      | some j =>
        have hj : Mi32Bus.cs c j m.addr = true := by simpa using List.find?_some hf
        rw [Mi32Bus.cs_excl h hj hc]
    simp only [toMaster, hany, hf, Option.map_some]

/-- C232: an access outside of the regions is never acknowledged -/
theorem unmapped (c : Mi32Bus.Cfg) (h : Mi32Bus.Valid c) (m : Bus Q) (r : Nat → Resp D) (ha : ∀ p ∈ c.slaves, ¬Mi32Bus.InRegion p m.addr) :
    (toMaster c m r).done = false ∧ (toMaster c m r).error = false ∧ ∀ i, (toSlave c m i).cs = false := by
  have hcs : ∀ i, Mi32Bus.cs c i m.addr = false := by
    intro i
    rw [Bool.eq_false_iff]
    intro h1
    have hi := Mi32Bus.cs_lt h1
    have hp : c.slaves[i]? = some c.slaves[i] := List.getElem?_eq_getElem hi
    exact ha _ (List.getElem_mem hi) ((Mi32Bus.cs_iff h i m.addr _ hp).1 h1)
  refine ⟨by simp [toMaster, Resp.done, hcs], by simp [toMaster, hcs], fun i => by simp [toSlave, hcs]⟩

example : Mi32Bus.Valid Mi32Bus.cEx2 ∧ Mi32Bus.InRegion (16, 16) 20 ∧ (toSlave Mi32Bus.cEx2 (⟨true, 20, 7⟩ : Bus Nat) 1).addr = 4 ∧
    (toMaster Mi32Bus.cEx2 (⟨true, 20, 7⟩ : Bus Nat) (fun i => (⟨i == 1, i == 0, i == 2, i⟩ : Resp Nat))) = ⟨true, false, false, some 1⟩ :=
  ⟨Mi32Bus.cEx2_valid, by unfold Mi32Bus.InRegion; decide, by decide +kernel, by decide +kernel⟩

end Verif.IpifBus
