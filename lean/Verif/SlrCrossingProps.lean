import Verif.SlrCrossing
/-! Properties C160-C161 of `HsSlrCrossing`. -/
namespace Verif.SlrCrossing

variable {α : Type}

/-- the newest `a` entries of the shift register, the oldest first -/
def unread : Nat → (Nat → Option α) → List α
  | 0, _ => []
  | a + 1, m => (m a).toList ++ unread a m

theorem unread_shift (r : Option α) (m : Nat → Option α) (a : Nat) (ha : a < DEPTH) : unread (a + 1) (shift r m) = unread a m ++ r.toList := by
  induction a with
  | zero => simp [unread, shift]
  | succ a ih =>
    rw [unread, ih (by omega)]
    simp [unread, shift, ha]

def zeros (s : St α) : Nat := (if s.inReady then 0 else 1) + (if s.crossIn then 0 else 1) + (if s.cross then 0 else 1)

/-- words on the way -/
def pending (s : St α) : List α := s.o.toList ++ unread (s.addr + 1) s.mem ++ if s.cross then s.reg.toList else []

structure Good (s : St α) : Prop where
  addr : s.addr = zeros s
  rd : s.regRd = s.crossIn

structure Inv (tr : List (In α × Out α)) (s : St α) : Prop extends Good s where
  words : accepted tr = delivered tr ++ pending s

theorem nextAddr_eq (s : St α) (x : In α) (h : s.addr = zeros s) :
    nextAddr s x = if !outCe s x && s.cross then s.addr + 1 else if outCe s x && !s.cross then s.addr - 1 else s.addr := by
  unfold nextAddr
  unfold zeros at h
  cases hc : s.cross <;> cases ho : outCe s x <;> simp [hc] at h ⊢
  · have : (if s.inReady then 0 else 1) ≤ 1 := by split <;> omega
    have : (if s.crossIn then 0 else 1) ≤ 1 := by split <;> omega
    unfold DEPTH
    have := Nat.mod_eq_of_lt (show s.addr - 1 < 4 by omega)
    rw [show s.addr + 4 - 1 = s.addr - 1 + 4 by omega, Nat.add_mod_right]
    exact this
  · have : (if s.inReady then 0 else 1) ≤ 1 := by split <;> omega
    have : (if s.crossIn then 0 else 1) ≤ 1 := by split <;> omega
    unfold DEPTH
    exact Nat.mod_eq_of_lt (by omega)

theorem good_step (s : St α) (x : In α) (h : Good s) : Good (next s x) := by
  refine ⟨?_, rfl⟩
  show nextAddr s x = _
  rw [nextAddr_eq s x h.addr]
  have := h.addr
  unfold zeros at *
  simp only [next]
  rcases Bool.eq_false_or_eq_true s.cross with hc | hc <;> rcases Bool.eq_false_or_eq_true (outCe s x) with ho | ho <;>
    rcases Bool.eq_false_or_eq_true s.inReady with hi | hi <;> rcases Bool.eq_false_or_eq_true s.crossIn with hj | hj <;>
    simp [hc, ho, hi, hj] at this ⊢ <;> omega

theorem zeros_le (s : St α) : zeros s ≤ 3 ∧ (s.cross = true → zeros s ≤ 2) ∧ (s.cross = false → 1 ≤ zeros s) := by
  unfold zeros
  cases s.inReady <;> cases s.crossIn <;> cases s.cross <;> simp

theorem pending_step (s : St α) (x : In α) (h : Good s) (ha : s.addr = zeros s) :
    pending s ++ (if s.regRd then x.s.toList else []) = (if x.rd then s.o.toList else []) ++ pending (next s x) := by
  have hz := zeros_le s
  rw [← ha] at hz
  have e1 : (next s x).addr = nextAddr s x := rfl
  have e2 : (next s x).cross = s.regRd := h.rd.symm
  have e3 : (next s x).reg = x.s := rfl
  have e4 : (next s x).mem = if s.cross then shift s.reg s.mem else s.mem := rfl
  have e5 : (next s x).o = if outCe s x then s.mem s.addr else s.o := rfl
  unfold pending
  rw [e1, e2, e3, e4, e5, nextAddr_eq s x ha, ← List.append_assoc]
  congr 1
  cases hc : s.cross <;> cases ho : outCe s x
  · have : x.rd = false := by cases hx : x.rd <;> simp [outCe, hx] at ho ⊢
    simp [this]
  · have h1 := hz.2.2 hc
    have hx : (if x.rd then s.o.toList else []) = s.o.toList := by
      cases hx : x.rd <;> simp [outCe, hx] at ho ⊢
      exact ho
    rw [hx]
    obtain ⟨a, ha'⟩ : ∃ a, s.addr = a + 1 := ⟨s.addr - 1, by omega⟩
    rw [ha']
    simp [unread]
  · have h1 := hz.2.1 hc
    have : x.rd = false := by cases hx : x.rd <;> simp [outCe, hx] at ho ⊢
    simp only [this, Bool.not_false, Bool.true_and, if_true, if_false, Bool.false_eq_true, List.nil_append]
    rw [unread_shift _ _ _ (by unfold DEPTH; omega), List.append_assoc]
  · have h1 := hz.2.1 hc
    have hx : (if x.rd then s.o.toList else []) = s.o.toList := by
      cases hx : x.rd <;> simp [outCe, hx] at ho ⊢
      exact ho
    rw [hx]
    simp only [Bool.not_true, Bool.false_and, Bool.and_false, Bool.false_eq_true, if_false, if_true]
    rw [unread_shift _ _ _ (by unfold DEPTH; omega)]
    simp only [unread, List.append_assoc]

theorem inv_step (tr : List (In α × Out α)) (s : St α) (x : In α) (h : Inv tr s) : Inv (tr ++ [(x, out s x)]) (next s x) := by
  refine ⟨good_step s x h.toGood, ?_⟩
  have eA : accepted (tr ++ [(x, out s x)]) = accepted tr ++ if s.regRd then x.s.toList else [] := by simp [accepted, out]
  have eD : delivered (tr ++ [(x, out s x)]) = delivered tr ++ if x.rd then s.o.toList else [] := by simp [delivered, out]
  rw [eA, eD, h.words, List.append_assoc, List.append_assoc, pending_step s x h.toGood h.addr]

theorem inv_first (s : St α) (hs : IsInit s) (x : In α) (hx : x.s = none) : Inv [(x, out s x)] (next s x) := by
  obtain ⟨h1, h2, h3, h4, h5, h6, h7, h8⟩ := hs
  have hn : nextAddr s x = 0 := by simp [nextAddr, outCe, h5, h6, h8]
  refine ⟨⟨?_, rfl⟩, ?_⟩
  · show nextAddr s x = _
    rw [hn]
    simp [zeros, next, outCe, h3, h4, h8]
  · have ea : (next s x).addr = 0 := hn
    unfold pending
    rw [ea]
    simp [accepted, delivered, out, h2, h8, next, h5, h1, h7, hx, unread, shift, outCe, h6]

theorem inv (s : St α) (hs : IsInit s) (x : In α) (hx : x.s = none) (is : List (In α)) :
    Inv (machine.trace s (x :: is)) (machine.final s (x :: is)) := by
  induction is using List.reverseRecOn with
  | nil => exact inv_first s hs x hx
  | append_singleton is y ih =>
    rw [← List.cons_append, Machine.trace_snoc, Machine.final_append]
    exact inv_step _ _ y ih

/-! ## C160: transfer -/

/-- full property: the words delivered are the words accepted, in order, each once -/
def Transfers : Prop := ∀ (s : St Nat) (_ : IsInit s) (is : List (In Nat)), delivered (machine.trace s is) <+: accepted (machine.trace s is)

def init0 : St Nat := ⟨none, false, true, true, true, 0, fun _ => none, none⟩

/-- **C160** (the full property fails) A word offered in the first cycle after the reset is not accepted (`reg.rd` is 0 after the reset) but it enters the
shift register (`cross_ce_inreg` is 1 after the reset), so it is delivered twice. -/
theorem slr_duplicates : ¬ Transfers := fun h =>
  absurd (h init0 ⟨rfl, rfl, rfl, rfl, rfl, rfl, rfl, rfl⟩ [⟨some 5, true⟩, ⟨some 5, true⟩, ⟨none, true⟩, ⟨none, true⟩, ⟨none, true⟩]) (by decide)

/-- **C160** If no word is offered in the first cycle after the reset the words delivered are the words accepted, in order, each once. -/
theorem slr_transfers_partial (s : St α) (hs : IsInit s) (x : In α) (hx : x.s = none) (is : List (In α)) :
    delivered (machine.trace s (x :: is)) <+: accepted (machine.trace s (x :: is)) := by
  rw [(inv s hs x hx is).words]
  exact List.prefix_append ..

theorem quiet_accepted (s : St α) (js : List (In α)) (hj : ∀ x ∈ js, x.s = none) : accepted (machine.trace s js) = [] := by
  induction js generalizing s with
  | nil => rfl
  | cons x js ih =>
    have := ih (machine.next s x) (fun y hy => hj y (List.mem_cons_of_mem _ hy))
    rw [Machine.trace_cons]
    simp only [accepted, List.flatMap_cons] at *
    rw [this, hj x List.mem_cons_self]
    simp

/-- five cycles without an input and with a ready consumer empty the pipeline -/
theorem drain5 (s : St α) (h : Good s) (js : List (In α)) (hl : js.length = 5) (hj : ∀ x ∈ js, x.s = none ∧ x.rd = true) :
    pending (machine.final s js) = [] := by
  match js, hl with
  | [a, b, c, d, e], _ =>
    have ha := hj a (by simp)
    have hb := hj b (by simp)
    have hc := hj c (by simp)
    have hd := hj d (by simp)
    have he := hj e (by simp)
    obtain ⟨reg, rr, i1, i2, i3, addr, mem, o⟩ := s
    have h1 := h.addr
    have h2 := h.rd
    simp only [zeros] at h1 h2
    subst h2
    simp only [Machine.final, machine]
    cases i1 <;> cases rr <;> cases i3 <;> simp at h1 <;> subst h1 <;>
      simp [next, pending, nextAddr, outCe, ha, hb, hc, hd, he, unread, shift, DEPTH]

/-- **C160** Nothing is lost: everything accepted is delivered by five cycles in which the consumer is ready. -/
theorem slr_drains_partial (s : St α) (hs : IsInit s) (x : In α) (hx : x.s = none) (is js : List (In α)) (hl : js.length = 5)
    (hj : ∀ x ∈ js, x.s = none ∧ x.rd = true) :
    delivered (machine.trace s (x :: is ++ js)) = accepted (machine.trace s (x :: is)) := by
  have h1 := (inv s hs x hx is)
  have h2 := (inv s hs x hx (is ++ js)).words
  rw [← List.cons_append, Machine.final_append, drain5 _ h1.toGood js hl hj, List.append_nil] at h2
  rw [← h2, Machine.trace_append]
  unfold accepted
  rw [List.flatMap_append]
  have := quiet_accepted (machine.final s (x :: is)) js fun y hy => (hj y hy).1
  unfold accepted at this
  rw [this, List.append_nil]

/-! ## C161: stability of the output -/

/-- **C161** A word offered and not taken is offered in the next cycle too. -/
theorem slr_stable (s : St α) (is : List (In α)) (x y : In α) (w : α) (h : (machine.outAfter s is x).m = some w) (hx : x.rd = false) :
    (machine.outAfter s (is ++ [x]) y).m = some w := by
  have e1 : (machine.outAfter s is x).m = (machine.final s is).o := rfl
  have e2 : (machine.outAfter s (is ++ [x]) y).m = (machine.final s (is ++ [x])).o := rfl
  rw [e1] at h
  rw [e2, Machine.final_append]
  show (next (machine.final s is) x).o = some w
  simp [next, outCe, hx, h]

/-- words under a stalled consumer -/
def demo : List (In Nat) := [⟨none, true⟩, ⟨some 1, false⟩, ⟨some 2, false⟩, ⟨some 3, false⟩, ⟨some 4, false⟩, ⟨some 5, false⟩, ⟨some 6, false⟩, ⟨some 7, false⟩, ⟨some 8, false⟩]
example : IsInit init0 := ⟨rfl, rfl, rfl, rfl, rfl, rfl, rfl, rfl⟩
example : accepted (machine.trace init0 demo) = [1, 2, 3, 4, 5] ∧ delivered (machine.trace init0 demo) = [] := by decide
example : delivered (machine.trace init0 (demo ++ List.replicate 5 ⟨none, true⟩)) = [1, 2, 3, 4, 5] := by decide

end Verif.SlrCrossing
