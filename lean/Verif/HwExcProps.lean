import Verif.HwExc
/-
C353-C358: hardware exceptions.
-/

namespace Verif.HwExc

/-- Values accepted on `dataIn`. -/
def inVals (tr : List (In × Out)) : List Nat :=
  tr.filterMap fun e => if e.1.vld && e.2.irdy then some e.1.data else none

/-- Values transferred on `dataOut`. -/
def outVals (tr : List (In × Out)) : List Nat :=
  tr.filterMap fun e => if e.2.ovld && e.1.ordy then some e.2.odata else none

/-- C353: what is transferred on `dataOut` are the accepted values which do not raise an exception,
in order, none lost and none duplicated, whatever the handlers of the exceptions do. -/
theorem raise_data (s : St) (is : List In) :
    outVals (raiseM.trace s is) = (inVals (raiseM.trace s is)).filter (fun v => 2 ≤ v) := by
  induction is generalizing s with
  | nil => rfl
  | cons i is ih =>
    have e1 : ∀ x xs, outVals (x :: xs) =
        (if x.2.ovld && x.1.ordy then [x.2.odata] else []) ++ outVals xs := by
      intro x xs
      simp only [outVals, List.filterMap_cons]
      cases x.2.ovld && x.1.ordy <;> simp
    have e2 : ∀ x xs, inVals (x :: xs) =
        (if x.1.vld && x.2.irdy then [x.1.data] else []) ++ inVals xs := by
      intro x xs
      simp only [inVals, List.filterMap_cons]
      cases x.1.vld && x.2.irdy <;> simp
    rw [Machine.trace_cons, e1, e2, List.filter_append, ih]
    congr 1
    obtain ⟨p0, p1⟩ := s
    obtain ⟨v, d, r, r0, r1⟩ := i
    show (if nodeVld v (!(p0 || det0 v d || p1 || det1 v d)) (det0 v d || det1 v d) && r
        then [d] else []) =
      List.filter (fun v => 2 ≤ v)
        (if v && nodeRd r (det0 v d || det1 v d) (!(p0 || p1)) then [d] else [])
    match d with
    | 0 => cases v <;> cases p0 <;> cases p1 <;> cases r <;> rfl
    | 1 => cases v <;> cases p0 <;> cases p1 <;> cases r <;> rfl
    | n + 2 =>
      have h0 : det0 v (n + 2) = false := by simp [det0]
      have h1 : det1 v (n + 2) = false := by simp [det1]
      rw [h0, h1]
      cases v <;> cases p0 <;> cases p1 <;> cases r <;> simp [nodeVld, nodeRd]

/-- C353: a value offered on `dataOut` stays there until it is taken if it stays on `dataIn`, and
`dataOut.vld` does not wait for `dataOut.rd`. -/
theorem raise_stable (s : St) (h : List In) (i j : In)
    (hv : (raiseM.outAfter s h i).ovld = true) (hn : i.ordy = false)
    (hold : i.vld = true ∧ (raiseM.outAfter s h i).irdy = false → j.vld = true ∧ j.data = i.data) :
    (raiseM.outAfter s (h ++ [i]) j).ovld = true ∧
    (raiseM.outAfter s (h ++ [i]) j).odata = (raiseM.outAfter s h i).odata := by
  unfold Machine.outAfter at *
  rw [Machine.final_append]
  revert hv hold
  generalize raiseM.final s h = t
  intro hv hold
  obtain ⟨p0, p1⟩ := t
  obtain ⟨v, d, r, r0, r1⟩ := i
  obtain ⟨v', d', r', r0', r1'⟩ := j
  simp only at hn
  subst hn
  match d with
  | 0 => exact absurd hv (by cases v <;> cases p0 <;> cases p1 <;> simp [raiseM, raiseOut, nodeVld, det0, det1])
  | 1 => exact absurd hv (by cases v <;> cases p0 <;> cases p1 <;> simp [raiseM, raiseOut, nodeVld, det0, det1])
  | n + 2 =>
    have h0 : ∀ v, det0 v (n + 2) = false := by simp [det0]
    have h1 : ∀ v, det1 v (n + 2) = false := by simp [det1]
    simp only [raiseM, raiseOut, h0, h1, nodeVld, nodeRd] at hv hold
    obtain ⟨hvv, hdd⟩ := hold (by revert hv; cases v <;> cases p0 <;> cases p1 <;> simp)
    subst hvv hdd
    simp only [Machine.final_cons, Machine.final_nil, raiseM, raiseOut, raiseNext, h0, h1, nodeVld,
      pendNext]
    revert hv
    cases v <;> cases p0 <;> cases p1 <;> simp

example : outVals (raiseM.trace init
    [⟨true, 5, true, false, false⟩, ⟨true, 0, false, false, false⟩, ⟨true, 7, true, false, false⟩,
     ⟨true, 7, true, true, false⟩, ⟨true, 7, true, false, false⟩, ⟨true, 1, true, false, true⟩,
     ⟨true, 9, true, false, false⟩]) = [5, 7, 9] := by decide +kernel

/-! ### C354: the pending flag -/

/-- In some cycle exception 0 was raised and `rd` was 0 since (including that cycle). -/
def Waiting0 (tr : List (In × Out)) : Prop :=
  ∃ a e b, tr = a ++ e :: b ∧ e.2.vld0 = true ∧ ∀ x ∈ e :: b, x.1.rd0 = false

def Waiting1 (tr : List (In × Out)) : Prop :=
  ∃ a e b, tr = a ++ e :: b ∧ e.2.vld1 = true ∧ ∀ x ∈ e :: b, x.1.rd1 = false

theorem waiting_snoc (v r : (In × Out) → Bool) (tr : List (In × Out)) (x : In × Out) :
    (∃ a e b, tr ++ [x] = a ++ e :: b ∧ v e = true ∧ ∀ y ∈ e :: b, r y = false) ↔
    r x = false ∧ (v x = true ∨ ∃ a e b, tr = a ++ e :: b ∧ v e = true ∧ ∀ y ∈ e :: b, r y = false) := by
  constructor
  · rintro ⟨a, e, b, h, hv, hr⟩
    cases List.eq_nil_or_concat b with
    | inl hb =>
      subst hb
      obtain ⟨rfl, h2⟩ := List.append_inj' h rfl
      cases h2
      exact ⟨hr _ List.mem_cons_self, .inl hv⟩
    | inr hb =>
      obtain ⟨b', y, rfl⟩ := hb
      rw [List.concat_eq_append] at h hr
      rw [← List.cons_append, ← List.append_assoc] at h
      obtain ⟨rfl, h2⟩ := List.append_inj' h rfl
      cases h2
      refine ⟨hr _ (by simp), .inr ⟨a, e, b', rfl, hv, fun y hy => hr y ?_⟩⟩
      cases hy with
      | head => exact List.mem_cons_self
      | tail _ hy => exact List.mem_cons_of_mem _ (List.mem_append.2 (.inl hy))
  · rintro ⟨hx, hv | ⟨a, e, b, rfl, hv, hr⟩⟩
    · exact ⟨tr, x, [], rfl, hv, by intro y hy; simp only [List.mem_singleton] at hy; rw [hy]; exact hx⟩
    · refine ⟨a, e, b ++ [x], by simp, hv, ?_⟩
      intro y hy
      rw [← List.cons_append, List.mem_append] at hy
      obtain hy | hy := hy
      · exact hr y hy
      · simp only [List.mem_singleton] at hy; rw [hy]; exact hx

theorem pending_iff (is : List In) :
    ((raiseM.final init is).p0 = true ↔ Waiting0 (raiseM.trace init is)) ∧
    ((raiseM.final init is).p1 = true ↔ Waiting1 (raiseM.trace init is)) := by
  have key : ∀ n, ∀ is : List In, is.length = n →
      ((raiseM.final init is).p0 = true ↔ Waiting0 (raiseM.trace init is)) ∧
      ((raiseM.final init is).p1 = true ↔ Waiting1 (raiseM.trace init is)) := by
    intro n
    induction n with
    | zero =>
      intro is hl
      cases is with
      | nil =>
        refine ⟨⟨fun h => (by cases h), ?_⟩, ⟨fun h => (by cases h), ?_⟩⟩ <;>
        · rintro ⟨a, e, b, h, _⟩
          simp at h
      | cons => simp at hl
    | succ n ih =>
      intro is hl
      cases List.eq_nil_or_concat is with
      | inl h => subst h; simp at hl
      | inr h =>
        obtain ⟨l, i, rfl⟩ := h
        rw [List.concat_eq_append] at hl ⊢
        simp only [List.length_append, List.length_singleton, Nat.add_right_cancel_iff] at hl
        obtain ⟨h0, h1⟩ := ih l hl
        rw [Machine.final_append, Machine.trace_snoc]
        unfold Waiting0 Waiting1 at *
        rw [waiting_snoc (fun e => e.2.vld0) (fun e => e.1.rd0),
          waiting_snoc (fun e => e.2.vld1) (fun e => e.1.rd1), ← h0, ← h1]
        unfold Machine.outAfter
        generalize raiseM.final init l = t
        simp only [Machine.final_cons, Machine.final_nil, raiseM, raiseNext, raiseOut, pendNext]
        constructor
        · generalize det0 i.vld i.data = d
          cases t.p0 <;> cases d <;> cases i.rd0 <;> simp
        · generalize det1 i.vld i.data = d
          cases t.p1 <;> cases d <;> cases i.rd1 <;> simp
  exact key _ is rfl

/-- C354: `dataIn` and `dataOut` are stalled exactly while an exception is waiting for its handler:
after a raise until a cycle with `rd`; otherwise a value passes as soon as `dataOut` is ready or
the value raises. -/
theorem raise_stalls (is : List In) (i : In) :
    (Waiting0 (raiseM.trace init is) ∨ Waiting1 (raiseM.trace init is) →
      (raiseM.outAfter init is i).irdy = false ∧ (raiseM.outAfter init is i).ovld = false) ∧
    (¬ Waiting0 (raiseM.trace init is) ∧ ¬ Waiting1 (raiseM.trace init is) →
      ((raiseM.outAfter init is i).irdy = true ↔ i.ordy = true ∨ (i.vld = true ∧ i.data < 2)) ∧
      ((raiseM.outAfter init is i).ovld = true ↔ i.vld = true ∧ 2 ≤ i.data)) := by
  obtain ⟨h0, h1⟩ := pending_iff is
  rw [← h0, ← h1]
  unfold Machine.outAfter
  generalize raiseM.final init is = t
  obtain ⟨v, d, r, r0, r1⟩ := i
  obtain ⟨p0, p1⟩ := t
  match d with
  | 0 => cases v <;> cases p0 <;> cases p1 <;> cases r <;> simp [raiseM, raiseOut, nodeRd, nodeVld, det0, det1]
  | 1 => cases v <;> cases p0 <;> cases p1 <;> cases r <;> simp [raiseM, raiseOut, nodeRd, nodeVld, det0, det1]
  | n + 2 =>
    have h0 : ∀ v, det0 v (n + 2) = false := by simp [det0]
    have h1 : ∀ v, det1 v (n + 2) = false := by simp [det1]
    simp only [raiseM, raiseOut, h0, h1, nodeRd, nodeVld]
    cases v <;> cases p0 <;> cases p1 <;> cases r <;> simp

example : Waiting0 (raiseM.trace init [⟨true, 0, true, false, true⟩, ⟨true, 8, true, false, true⟩]) :=
  ⟨[], _, _, rfl, by decide, by decide⟩

/-! ### C355: the handshake of the exception interface -/

/-- The source of `dataIn` follows the handshake: it keeps a value until it is accepted. -/
def Compliant (tr : List (In × Out)) : Prop :=
  ∀ a x y b, tr = a ++ x :: y :: b → x.1.vld = true → x.2.irdy = false →
    y.1.vld = true ∧ y.1.data = x.1.data

/-- C355, full statement: an exception which was raised and not acknowledged stays raised. -/
def RaiseHeld : Prop :=
  ∀ (is : List In), Compliant (raiseM.trace init is) →
    ∀ a x y b, raiseM.trace init is = a ++ x :: y :: b →
      (x.2.vld0 = true → x.1.rd0 = false → y.2.vld0 = true) ∧
      (x.2.vld1 = true → x.1.rd1 = false → y.2.vld1 = true)

def exDropped : List In := [⟨true, 0, true, false, false⟩, ⟨true, 5, true, false, false⟩]

def complCheck : List (In × Out) → Bool
  | x :: y :: l => (!(x.1.vld && !x.2.irdy) || (y.1.vld && y.1.data == x.1.data)) &&
      complCheck (y :: l)
  | _ => true

theorem compliant_of_check (tr : List (In × Out)) (h : complCheck tr = true) : Compliant tr := by
  intro a
  induction a generalizing tr with
  | nil =>
    intro x y b htr hv hr
    subst htr
    simp only [List.nil_append, complCheck, hv, hr] at h
    simpa using (by simpa using h : (y.1.vld = true ∧ y.1.data = x.1.data) ∧ _).1
  | cons z a ih =>
    intro x y b htr hv hr
    subst htr
    refine ih (a ++ x :: y :: b) ?_ x y b rfl hv hr
    cases a with
    | nil => simp only [List.cons_append, List.nil_append, complCheck, Bool.and_eq_true] at h ⊢; exact h.2
    | cons w a => simp only [List.cons_append, complCheck, Bool.and_eq_true] at h; exact h.2

/-- C355 violated: the value which raises is consumed in the cycle of the raise and `vld` falls in
the next cycle although the handler was not ready. -/
theorem raiseHeld_violated : ¬ RaiseHeld := by
  intro h
  have := h exDropped
    (compliant_of_check _ (by decide +kernel))
    [] _ _ _ rfl
  exact absurd (this.1 (by decide) (by decide)) (by decide)

theorem vld_eq (is : List In) (s : St) : ∀ e ∈ raiseM.trace s is,
    e.2.vld0 = det0 e.1.vld e.1.data ∧ e.2.vld1 = det1 e.1.vld e.1.data := by
  induction is generalizing s with
  | nil => simp
  | cons i is ih =>
    intro e he
    cases he with
    | head => exact ⟨rfl, rfl⟩
    | tail _ he => exact ih _ e he

/-- C355 as far as it holds: `vld` stays while the raising value is not accepted (because the other
exception is waiting). -/
theorem raise_held_partial (is : List In) (hc : Compliant (raiseM.trace init is))
    {a b : List (In × Out)} {x y : In × Out} (htr : raiseM.trace init is = a ++ x :: y :: b)
    (hn : x.2.irdy = false) :
    (x.2.vld0 = true → y.2.vld0 = true) ∧ (x.2.vld1 = true → y.2.vld1 = true) := by
  have hmem := vld_eq is init
  have hx := hmem x (by rw [htr]; simp)
  have hy := hmem y (by rw [htr]; simp)
  rw [hx.1, hx.2, hy.1, hy.2]
  have := hc a x y b htr
  constructor
  · intro h
    have hv : x.1.vld = true := by
      revert h; cases x.1.vld <;> simp [det0]
    obtain ⟨h1, h2⟩ := this hv hn
    rw [h1, h2]; rw [hv] at h; exact h
  · intro h
    have hv : x.1.vld = true := by
      revert h; cases x.1.vld <;> simp [det1]
    obtain ⟨h1, h2⟩ := this hv hn
    rw [h1, h2]; rw [hv] at h; exact h

/-! ### C356: one acknowledged exception per raising value -/

def shakes0 (tr : List (In × Out)) : Nat := (tr.filter fun e => e.2.vld0 && e.1.rd0).length
def shakes1 (tr : List (In × Out)) : Nat := (tr.filter fun e => e.2.vld1 && e.1.rd1).length

/-- C356, full statement: once no exception is waiting, each handler has taken
(`vld & rd`) as many exceptions as there were raising values accepted. -/
def ExactlyOnce : Prop :=
  ∀ (is : List In), Compliant (raiseM.trace init is) →
    ¬ Waiting0 (raiseM.trace init is) → ¬ Waiting1 (raiseM.trace init is) →
    shakes0 (raiseM.trace init is) = (inVals (raiseM.trace init is)).count 0 ∧
    shakes1 (raiseM.trace init is) = (inVals (raiseM.trace init is)).count 1

/-- The handler of exception 0 answers one cycle later. -/
def exLost : List In := [⟨true, 0, true, false, true⟩, ⟨false, 0, true, true, true⟩]

/-- The value 0 waits while exception 1 is being handled; the handler of 0 is always ready. -/
def exTwice : List In :=
  [⟨true, 1, true, true, false⟩, ⟨true, 0, true, true, false⟩, ⟨true, 0, true, true, false⟩,
   ⟨true, 0, true, true, true⟩, ⟨true, 0, true, true, false⟩]

/-- One value 0 was accepted, no exception 0 was ever transferred and the component runs on. -/
theorem lost_example : shakes0 (raiseM.trace init exLost) = 0 ∧
    inVals (raiseM.trace init exLost) = [0] ∧ (raiseM.final init exLost) = init := by
  decide +kernel

/-- One value 0 was accepted, but the handler took four exceptions. -/
theorem twice_example : shakes0 (raiseM.trace init exTwice) = 4 ∧
    inVals (raiseM.trace init exTwice) = [1, 0] ∧ (raiseM.final init exTwice) = init := by
  decide +kernel

/-- C356 violated. -/
theorem exactlyOnce_violated : ¬ ExactlyOnce := by
  intro h
  have hf := (lost_example).2.2
  have := (h exLost
    (compliant_of_check _ (by decide +kernel))
    (by rw [← (pending_iff exLost).1, hf]; decide)
    (by rw [← (pending_iff exLost).2, hf]; decide)).1
  revert this
  decide +kernel

theorem alwaysReady_run (is : List In) (h : ∀ i ∈ is, i.rd0 = true ∧ i.rd1 = true) :
    shakes0 (raiseM.trace init is) = (inVals (raiseM.trace init is)).count 0 ∧
    shakes1 (raiseM.trace init is) = (inVals (raiseM.trace init is)).count 1 := by
  induction is with
  | nil => exact ⟨rfl, rfl⟩
  | cons i is ih =>
    have hi := h i List.mem_cons_self
    have hn : raiseM.next init i = init := by
      show raiseNext init i = init
      simp [raiseNext, init, pendNext, hi]
    obtain ⟨ih0, ih1⟩ := ih fun j hj => h j (List.mem_cons_of_mem _ hj)
    rw [Machine.trace_cons, hn]
    have e0 : ∀ x xs, shakes0 (x :: xs) = (if x.2.vld0 && x.1.rd0 then 1 else 0) + shakes0 xs := by
      intro x xs
      simp only [shakes0, List.filter_cons]
      split <;> simp <;> omega
    have e1 : ∀ x xs, shakes1 (x :: xs) = (if x.2.vld1 && x.1.rd1 then 1 else 0) + shakes1 xs := by
      intro x xs
      simp only [shakes1, List.filter_cons]
      split <;> simp <;> omega
    have e2 : ∀ x xs, inVals (x :: xs) =
        (if x.1.vld && x.2.irdy then [x.1.data] else []) ++ inVals xs := by
      intro x xs
      simp only [inVals, List.filterMap_cons]
      cases x.1.vld && x.2.irdy <;> simp
    rw [e0, e1, e2, List.count_append, List.count_append, ← ih0, ← ih1]
    obtain ⟨v, d, r, r0, r1⟩ := i
    obtain ⟨h1, h2⟩ := hi
    simp only at h1 h2
    subst h1 h2
    match d with
    | 0 => cases v <;> cases r <;> simp [raiseM, raiseOut, init, nodeRd, nodeVld, det0, det1]
    | 1 => cases v <;> cases r <;> simp [raiseM, raiseOut, init, nodeRd, nodeVld, det0, det1]
    | n + 2 =>
      have h0 : ∀ v, det0 v (n + 2) = false := by simp [det0]
      have h1 : ∀ v, det1 v (n + 2) = false := by simp [det1]
      simp only [raiseM, raiseOut, h0, h1, nodeRd, nodeVld]
      cases v <;> cases r <;> simp [init]

/-- C356 as far as it holds: if the handlers are always ready, each accepted raising value is one
transferred exception. -/
theorem exactly_once_partial (is : List In) (h : ∀ i ∈ is, i.rd0 = true ∧ i.rd1 = true) :
    shakes0 (raiseM.trace init is) = (inVals (raiseM.trace init is)).count 0 ∧
    shakes1 (raiseM.trace init is) = (inVals (raiseM.trace init is)).count 1 :=
  alwaysReady_run is h

/-- C356: in any run no raising value is accepted without its exception being raised in that cycle. -/
theorem raised_when_accepted (s : St) (is : List In) :
    ∀ e ∈ raiseM.trace s is, e.1.vld = true → e.2.irdy = true →
      (e.1.data = 0 → e.2.vld0 = true) ∧ (e.1.data = 1 → e.2.vld1 = true) := by
  induction is generalizing s with
  | nil => simp
  | cons i is ih =>
    intro e he
    cases he with
    | head =>
      intro hv _
      simp only at hv
      constructor
      · intro hd
        show det0 i.vld i.data = true
        rw [hv, hd]; rfl
      · intro hd
        show det1 i.vld i.data = true
        rw [hv, hd]; rfl
    | tail _ he => exact ih _ e he

example : shakes0 (raiseM.trace init [⟨true, 0, false, true, true⟩, ⟨true, 3, true, true, true⟩,
      ⟨true, 1, true, true, true⟩, ⟨true, 0, true, true, true⟩]) = 2 := by decide +kernel

/-! ### C357: `HwExceptionCatch` -/

def cinVals (tr : List (CIn × COut)) : List Nat :=
  tr.filterMap fun e => if e.1.vld && e.2.irdy then some e.1.data else none

def coutVals (tr : List (CIn × COut)) : List Nat :=
  tr.filterMap fun e => if e.2.ovld && e.1.ordy then some e.2.odata else none

theorem cin_cons (x : CIn × COut) (xs) : cinVals (x :: xs) =
    (if x.1.vld && x.2.irdy then [x.1.data] else []) ++ cinVals xs := by
  simp only [cinVals, List.filterMap_cons]
  cases x.1.vld && x.2.irdy <;> simp

theorem cout_cons (x : CIn × COut) (xs) : coutVals (x :: xs) =
    (if x.2.ovld && x.1.ordy then [x.2.odata] else []) ++ coutVals xs := by
  simp only [coutVals, List.filterMap_cons]
  cases x.2.ovld && x.1.ordy <;> simp

/-- One step, by the value. -/
theorem catch_step (s : CSt) (i : CIn) :
    ((s.e = true ∨ s.c.p0 = true) → (catchM.out s i).ovld = false ∧ ((catchM.next s i).e = true ∨ (catchM.next s i).c.p0 = true) ∧
      (i.vld = true → (catchM.out s i).irdy = true → i.data = 2)) ∧
    (s.e = false → s.c.p0 = false →
      (catchM.out s i).odata = i.data ∧
      (i.vld = true ∧ (catchM.out s i).irdy = true ∧ (i.data = 0 ∨ i.data = 2) →
        (catchM.out s i).ovld = false ∧ ((catchM.next s i).e = true ∨ (catchM.next s i).c.p0 = true)) ∧
      (i.vld = true ∧ (catchM.out s i).irdy = true ∧ i.data = 1 → (catchM.out s i).ovld = false) ∧
      (i.vld = true ∧ (catchM.out s i).irdy = true ∧ 3 ≤ i.data → (catchM.out s i).ovld = true ∧ i.ordy = true) ∧
      (¬ (i.vld = true ∧ (catchM.out s i).irdy = true) → ((catchM.out s i).ovld && i.ordy) = false)) := by
  obtain ⟨e, p0, p1⟩ := s
  obtain ⟨v, d, r, r1⟩ := i
  match d with
  | 0 => cases e <;> cases p0 <;> cases p1 <;> cases v <;> cases r <;> cases r1 <;>
      simp [catchM, catchOut, catchNext, childIn, raiseOut, raiseNext, det0, det1, nodeRd, nodeVld, pendNext]
  | 1 => cases e <;> cases p0 <;> cases p1 <;> cases v <;> cases r <;> cases r1 <;>
      simp [catchM, catchOut, catchNext, childIn, raiseOut, raiseNext, det0, det1, nodeRd, nodeVld, pendNext]
  | 2 => cases e <;> cases p0 <;> cases p1 <;> cases v <;> cases r <;> cases r1 <;>
      simp [catchM, catchOut, catchNext, childIn, raiseOut, raiseNext, det0, det1, nodeRd, nodeVld, pendNext]
  | n + 3 =>
    have h0 : ∀ v, det0 v (n + 3) = false := by simp [det0]
    have h1 : ∀ v, det1 v (n + 3) = false := by simp [det1]
    have h2 : (n + 3 == 2) = false := by simp
    simp only [catchM, catchOut, catchNext, childIn, raiseOut, raiseNext, h0, h1, h2, nodeRd,
      nodeVld, pendNext]
    cases e <;> cases p0 <;> cases p1 <;> cases v <;> cases r <;> cases r1 <;> simp

theorem catch_dead (is : List CIn) : ∀ s : CSt, (s.e = true ∨ s.c.p0 = true) →
    coutVals (catchM.trace s is) = [] ∧ ∀ v ∈ cinVals (catchM.trace s is), v = 2 := by
  induction is with
  | nil => intro s _; exact ⟨rfl, by simp [cinVals]⟩
  | cons i is ih =>
    intro s hs
    obtain ⟨h1, h2, h3⟩ := (catch_step s i).1 hs
    obtain ⟨i1, i2⟩ := ih _ h2
    rw [Machine.trace_cons, cout_cons, cin_cons, i1]
    constructor
    · simp [h1]
    · intro v hv
      rw [List.mem_append] at hv
      obtain hv | hv := hv
      · split at hv
        · rename_i hc
          simp only [Bool.and_eq_true] at hc
          simp only [List.mem_singleton] at hv
          rw [hv]
          exact h3 hc.1 hc.2
        · simp at hv
      · exact i2 v hv

/-- C357: `dataOut` of `HwExceptionCatch` carries exactly the values other than 1 which were
accepted before the first 0 or 2, in order; after a 0 or 2 was accepted nothing is transferred any
more (until reset). -/
theorem catch_data (is : List CIn) :
    coutVals (catchM.trace cinit is) =
      ((cinVals (catchM.trace cinit is)).takeWhile fun v => v != 0 && v != 2).filter (· != 1) := by
  have key : ∀ (s : CSt), s.e = false → s.c.p0 = false → coutVals (catchM.trace s is) =
      ((cinVals (catchM.trace s is)).takeWhile fun v => v != 0 && v != 2).filter (· != 1) := by
    induction is with
    | nil => intro s _ _; rfl
    | cons i is ih =>
      intro s he hp
      obtain ⟨ho, h1, h2, h3, h4⟩ := (catch_step s i).2 he hp
      rw [Machine.trace_cons, cout_cons, cin_cons]
      by_cases hd : (catchM.next s i).e = true ∨ (catchM.next s i).c.p0 = true
      · obtain ⟨d1, d2⟩ := catch_dead is _ hd
        rw [d1]
        have tail0 : ∀ l : List Nat, (∀ v ∈ l, v = 2) →
            l.takeWhile (fun v => v != 0 && v != 2) = [] := by
          intro l hl
          cases l with
          | nil => rfl
          | cons v l => rw [hl v List.mem_cons_self]; rfl
        by_cases hc : i.vld = true ∧ (catchM.out s i).irdy = true
        · rw [if_pos (by rw [hc.1, hc.2]; rfl : (i.vld && (catchM.out s i).irdy) = true)]
          by_cases h02 : i.data = 0 ∨ i.data = 2
          · rw [(h1 ⟨hc.1, hc.2, h02⟩).1]
            obtain h | h := h02 <;> rw [h] <;> simp
          · exfalso
            have hne0 : i.data ≠ 0 := fun h => h02 (.inl h)
            have hne2 : i.data ≠ 2 := fun h => h02 (.inr h)
            have : catchM.next s i = catchNext s i := rfl
            rw [this] at hd
            simp only [catchNext, childIn, raiseNext, pendNext, he, hp, det0] at hd
            simp [hne0, hne2] at hd
        · have hc' : (i.vld && (catchM.out s i).irdy) = false := by simpa using hc
          simp only [hc', h4 hc, Bool.false_eq_true, if_false, List.nil_append]
          rw [tail0 _ d2]
          rfl
      · have hd' : (catchM.next s i).e = false ∧ (catchM.next s i).c.p0 = false := by
          cases h : (catchM.next s i).e <;> cases h' : (catchM.next s i).c.p0 <;> simp_all
        rw [ih _ hd'.1 hd'.2]
        by_cases hc : i.vld = true ∧ (catchM.out s i).irdy = true
        · rw [if_pos (by rw [hc.1, hc.2]; rfl : (i.vld && (catchM.out s i).irdy) = true)]
          have hn02 : ¬ (i.data = 0 ∨ i.data = 2) := fun h => hd (h1 ⟨hc.1, hc.2, h⟩).2
          have hne0 : i.data ≠ 0 := fun h => hn02 (.inl h)
          have hne2 : i.data ≠ 2 := fun h => hn02 (.inr h)
          by_cases h1' : i.data = 1
          · rw [h2 ⟨hc.1, hc.2, h1'⟩, h1']
            simp
          · obtain ⟨a1, a2⟩ := h3 ⟨hc.1, hc.2, by omega⟩
            rw [a1, a2, ho]
            simp [hne0, hne2, h1']
        · have hc' : (i.vld && (catchM.out s i).irdy) = false := by simpa using hc
          simp only [hc', h4 hc, Bool.false_eq_true, if_false, List.nil_append]
  exact key cinit rfl rfl

example : coutVals (catchM.trace cinit
    [⟨true, 5, true, true⟩, ⟨true, 1, true, true⟩, ⟨true, 6, true, true⟩, ⟨true, 2, true, true⟩,
     ⟨true, 7, true, true⟩]) = [5, 6] ∧
   cinVals (catchM.trace cinit
    [⟨true, 5, true, true⟩, ⟨true, 1, true, true⟩, ⟨true, 6, true, true⟩, ⟨true, 2, true, true⟩,
     ⟨true, 7, true, true⟩]) = [5, 1, 6, 2] := by decide +kernel

/-- C358, full statement (documentation of the class): the wire stalls until reset if 0 or 2
appears, i.e. nothing is accepted after it. -/
def CatchStalls : Prop :=
  ∀ (is : List CIn) (i : CIn), (0 ∈ cinVals (catchM.trace cinit is) ∨
      2 ∈ cinVals (catchM.trace cinit is)) → i.vld = true →
    (catchM.outAfter cinit is i).irdy = false

/-- C358 violated: after a 0 the value 2 is still accepted (and lost). -/
theorem catchStalls_violated : ¬ CatchStalls := by
  intro h
  have := h [⟨true, 0, true, true⟩] ⟨true, 2, true, true⟩ (.inl (by decide +kernel)) rfl
  revert this
  decide +kernel

theorem e_sticky (is : List CIn) (s : CSt) (h : s.e = true) : (catchM.final s is).e = true := by
  induction is generalizing s with
  | nil => exact h
  | cons i is ih =>
    apply ih
    show pendNext s.e _ false = true
    rw [h]; rfl

theorem dead_sticky (is : List CIn) (s : CSt) (h : s.e = true ∨ s.c.p0 = true) :
    (catchM.final s is).e = true ∨ (catchM.final s is).c.p0 = true := by
  induction is generalizing s with
  | nil => exact h
  | cons i is ih => exact ih _ ((catch_step s i).1 h).2.1

theorem acc_two (is : List CIn) (s : CSt) (h : 2 ∈ cinVals (catchM.trace s is)) :
    (catchM.final s is).e = true := by
  induction is generalizing s with
  | nil => simp [cinVals] at h
  | cons i is ih =>
    rw [Machine.trace_cons, cin_cons, List.mem_append] at h
    obtain h | h := h
    · split at h
      · rename_i hc
        simp only [Bool.and_eq_true] at hc
        simp only [List.mem_singleton] at h
        rw [Machine.final_cons]
        apply e_sticky
        show pendNext s.e (i.vld && i.data == 2) false = true
        rw [hc.1, ← h]
        cases s.e <;> rfl
      · simp at h
    · exact ih _ h

theorem acc_zero (is : List CIn) (s : CSt) (h : 0 ∈ cinVals (catchM.trace s is)) :
    (catchM.final s is).e = true ∨ (catchM.final s is).c.p0 = true := by
  induction is generalizing s with
  | nil => simp [cinVals] at h
  | cons i is ih =>
    rw [Machine.trace_cons, cin_cons, List.mem_append] at h
    obtain h | h := h
    · split at h
      · rename_i hc
        simp only [Bool.and_eq_true] at hc
        simp only [List.mem_singleton] at h
        rw [Machine.final_cons]
        apply dead_sticky
        by_cases hd : s.e = true ∨ s.c.p0 = true
        · exact ((catch_step s i).1 hd).2.1
        · have : s.e = false ∧ s.c.p0 = false := by
            cases h1 : s.e <;> cases h2 : s.c.p0 <;> simp_all
          exact ((catch_step s i).2 this.1 this.2).2.1 ⟨hc.1, hc.2, .inl h.symm⟩ |>.2
      · simp at h
    · exact ih _ h

/-- C358 as far as it holds: after a 2 nothing is accepted any more; after a 0 nothing but a 2. -/
theorem catch_stalls_partial (is : List CIn) (i : CIn) (hv : i.vld = true) :
    (2 ∈ cinVals (catchM.trace cinit is) → (catchM.outAfter cinit is i).irdy = false) ∧
    (0 ∈ cinVals (catchM.trace cinit is) → i.data ≠ 2 →
      (catchM.outAfter cinit is i).irdy = false) := by
  constructor
  · intro h
    have := acc_two is cinit h
    show nodeRd _ _ (!(catchM.final cinit is).e) = false
    rw [this]
    simp [nodeRd]
  · intro h hd
    have := ((catch_step _ i).1 (acc_zero is cinit h)).2.2 hv
    cases hr : (catchM.outAfter cinit is i).irdy with
    | false => rfl
    | true => exact absurd (this hr) hd

example : (0 : Nat) ∈ cinVals (catchM.trace cinit [⟨true, 4, true, true⟩, ⟨true, 0, true, true⟩]) := by
  decide +kernel

end Verif.HwExc
