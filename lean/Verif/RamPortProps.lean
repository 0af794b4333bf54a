import Verif.RamPort
/-!
# Property C26 of `RamAsAddrDataRdVld`
-/
namespace Verif.RamPort

universe u
variable {α : Type u}

/-- **C26** For every schedule of reads, writes and stalls the delivered words are the answers of the
accepted reads in order; at most two answers are outstanding. -/
theorem ramPort_in_order (mem0 : Nat → α) (d0 d1 d2 : α) (is : List (In α)) :
    delivered (machine.trace (init mem0 d0 d1 d2) is) <+:
      answers mem0 (machine.trace (init mem0 d0 d1 d2) is) ∧
    (answers mem0 (machine.trace (init mem0 d0 d1 d2) is)).length ≤
      (delivered (machine.trace (init mem0 d0 d1 d2) is)).length + 2 := by
  have h := core is (init mem0 d0 d1 d2) (by simp [Inv, init])
  have hq : q (init mem0 d0 d1 d2) = [] := rfl
  rw [hq, List.nil_append] at h
  have h2 : answers mem0 (machine.trace (init mem0 d0 d1 d2) is) = _ := h.2
  refine ⟨⟨_, h2.symm⟩, ?_⟩
  rw [h2, List.length_append]
  have := q_le _ h.1
  omega

/-- **C26** no answer gets stuck: after two cycles with a ready consumer all answers of earlier
reads have been delivered. -/
theorem ramPort_progress (mem0 : Nat → α) (d0 d1 d2 : α) (is : List (In α)) (i j : In α)
    (hi : i.rd = true) (hj : j.rd = true) :
    (answers mem0 (machine.trace (init mem0 d0 d1 d2) is)).length ≤
      (delivered (machine.trace (init mem0 d0 d1 d2) (is ++ [i, j]))).length := by
  have h := core is (init mem0 d0 d1 d2) (by simp [Inv, init])
  have hq : q (init mem0 d0 d1 d2) = [] := rfl
  rw [hq, List.nil_append] at h
  have h2 : answers mem0 (machine.trace (init mem0 d0 d1 d2) is) = _ := h.2
  rw [h2, Machine.trace_append]
  unfold delivered
  rw [List.filterMap_append, List.length_append, List.length_append]
  apply Nat.add_le_add_left
  generalize machine.final (init mem0 d0 d1 d2) is = s at *
  obtain ⟨p, v, d, ov, od, m, dt⟩ := s
  obtain ⟨⟨h1, h2⟩, _⟩ := h
  cases p <;> cases v <;> cases ov <;> simp at h1 h2 <;>
    simp [q, machine, out, next, hi, hj]

/-- **C26** an offered answer is stable and writes are never blocked forever: a write is refused only
in a cycle in which a read is accepted. -/
theorem ramPort_stable (mem0 : Nat → α) (d0 d1 d2 : α) (is : List (In α)) (i j : In α) :
    ((machine.outAfter (init mem0 d0 d1 d2) is i).vld = true → i.rd = false →
      (machine.outAfter (init mem0 d0 d1 d2) (is ++ [i]) j).vld = true ∧
      (machine.outAfter (init mem0 d0 d1 d2) (is ++ [i]) j).data
        = (machine.outAfter (init mem0 d0 d1 d2) is i).data) ∧
    ((machine.outAfter (init mem0 d0 d1 d2) is i).wRd = false →
      i.rAddrVld = true ∧ (machine.outAfter (init mem0 d0 d1 d2) is i).rAddrRd = true) := by
  simp only [Machine.outAfter, Machine.final_append, Machine.final_cons, Machine.final_nil]
  generalize machine.final (init mem0 d0 d1 d2) is = s
  constructor
  · intro hv hr
    have hv' : s.vld = true := hv
    simp [machine, out, next, hv', hr]
  · intro h
    have h' : (!rEn s i || !i.rAddrVld) = false := h
    simp at h'
    exact ⟨h'.2, h'.1⟩

def exHist : List (In Nat) :=
  [⟨true, 0, true, 1, fun _ => 50, false, 0⟩, ⟨false, 0, true, 1, fun _ => 50, false, 0⟩,
   ⟨true, 1, false, 0, id, false, 0⟩, ⟨true, 1, false, 0, id, true, 0⟩,
   ⟨true, 0, true, 0, fun _ => 7, true, 99⟩, ⟨false, 0, false, 0, id, true, 98⟩,
   ⟨false, 0, false, 0, id, true, 97⟩]
example : delivered (machine.trace (init (fun a => a + 10) 0 0 0) exHist) = [10, 50, 10] ∧
    answers (fun a => a + 10) (machine.trace (init (fun a => a + 10) 0 0 0) exHist) = [10, 50, 10] := by
  decide

end Verif.RamPort
