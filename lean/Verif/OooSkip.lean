import Verif.OooOpProps
/-!
# Pipeline of `OutOfOrderCummulativeOp` with operations which are not stored to the write history

`OooOp.lean` for a component with `write_cancel`: the stage WAIT_FOR_WRITE_ACK gives an item to the history only with a write response
(`out_valid`, outOfOrderCummulativeOp.py:553, :507-509), an item with a canceled write may leave without it (:552). `sk` is this case; what
it means for the values is the hypothesis of `inv_stepC`.
-/
namespace Verif.OooOp

universe u v w
variable {A : Type u} {T : Type v} {D : Type w} [DecidableEq A]

/-- The component and its ports after a clock cycle, without a store to the history if `sk`. -/
def sysC (sk : Bool) (f : T → D → D) (y : Sys A T D) (x : In A T D) : Sys A T D :=
  ({ next f y.1 x with hist := if sk then y.1.hist else (next f y.1 x).hist }, y.2.step x (out y.1 x))

/-- `S` is `L` without some of operations which did not change the value. -/
inductive Skips (M0 : A → D) : List (Item A T D) → List (Item A T D) → Prop where
  | nil : Skips M0 [] []
  | keep (i : Item A T D) {S L : List (Item A T D)} : Skips M0 S L → Skips M0 (i :: S) (i :: L)
  | drop (i : Item A T D) {S L : List (Item A T D)} : i.data = val M0 L i.addr → Skips M0 S L → Skips M0 S (i :: L)

theorem skips_some {M0 : A → D} {S L : List (Item A T D)} (h : Skips M0 S L) (H : Nat) (a : A) (j : Item A T D)
    (hj : (S.take H).find? (fun i => i.addr == a) = some j) : val M0 L a = j.data := by
  induction h generalizing H with
  | nil => simp at hj
  | keep i h ih =>
    cases H with
    | zero => simp at hj
    | succ H =>
      rw [List.take_succ_cons, List.find?_cons] at hj
      rw [val_cons]
      by_cases ha : i.addr = a
      · simp [ha] at hj; rw [if_pos ha, hj]
      · have : (i.addr == a) = false := by simp [ha]
        rw [this] at hj
        rw [if_neg ha]; exact ih H hj
  | drop i hi h ih =>
    rw [val_cons]
    by_cases ha : i.addr = a
    · rw [if_pos ha, hi, ha]; exact ih H hj
    · rw [if_neg ha]; exact ih H hj

theorem skips_none {M0 : A → D} {S L : List (Item A T D)} (h : Skips M0 S L) (H k : Nat) (hk : k ≤ H) (a : A)
    (hj : (S.take H).find? (fun i => i.addr == a) = none) : val M0 L a = val M0 (L.drop k) a := by
  induction h generalizing H k with
  | nil => simp
  | keep i h ih =>
    cases k with
    | zero => rfl
    | succ k =>
      obtain ⟨H, rfl⟩ : ∃ H', H = H' + 1 := ⟨H - 1, by omega⟩
      rw [List.take_succ_cons, List.find?_cons] at hj
      rw [val_cons, List.drop_succ_cons]
      by_cases ha : i.addr = a
      · simp [ha] at hj
      · have : (i.addr == a) = false := by simp [ha]
        rw [this] at hj
        rw [if_neg ha]; exact ih H k (by omega) hj
  | drop i hi h ih =>
    cases k with
    | zero => rfl
    | succ k =>
      rw [val_cons, List.drop_succ_cons]
      by_cases ha : i.addr = a
      · rw [if_pos ha, hi, ha]; exact ih H k (by omega) hj
      · rw [if_neg ha]; exact ih H k (by omega) hj

structure InvC (f : T → D → D) (M0 : A → D) (p H : Nat) (y : Sys A T D) : Prop where
  lenM : y.1.mid.length = p
  hist : ∃ S, y.1.hist = (S.map some ++ List.replicate H none).take H ∧ Skips M0 S y.2.douts
  wr : y.2.writes = items y.1.mid ++ y.2.douts
  atom : Atomic f M0 (comp y)
  i2 : ∀ i, y.1.s2 = some i → (∃ j, y.1.wb = some j ∧ j.addr = i.addr) ∨ i.data = val M0 (comp y) i.addr
  i1 : ∀ i, y.1.s1 = some i →
    Snap M0 H y (if y.1.s2.isSome && y.1.wb.isSome then (items y.1.mid).length else 0) i
  i0 : ∀ i, y.1.s0 = some i →
    Snap M0 H y ((items y.1.mid).length + if y.1.s1.isSome && y.1.s2.isSome && y.1.wb.isSome then 1 else 0) i

theorem invC_init (f : T → D → D) (M0 : A → D) (p H : Nat) : InvC f M0 p H (sysInit p H) := by
  refine ⟨by simp [sysInit, init], ⟨[], by simp [sysInit, init], .nil⟩, by simp [sysInit, init, Obs.init, items], ?_, ?_, ?_, ?_⟩
  · exact atomic_nil f M0
  all_goals intro i h; simp [sysInit, init] at h

theorem fwdC_eq {f : T → D → D} {M0 : A → D} {p H : Nat} {y : Sys A T D} (h : InvC f M0 p H y) :
    ∃ S, Skips M0 S y.2.douts ∧
      ∀ a, fwd y.1 a = (y.1.wb.toList ++ items y.1.mid ++ S.take H).find? fun i => i.addr == a := by
  obtain ⟨S, hS, hR⟩ := h.hist
  refine ⟨S, hR, fun a => ?_⟩
  unfold fwd
  have e1 : (y.1.wb :: y.1.mid ++ y.1.hist).filterMap id = y.1.wb.toList ++ items y.1.mid ++ items y.1.hist := by
    show items _ = _
    rw [List.cons_append, items_cons, items_append, List.append_assoc]
  rw [e1, hS, items_hist]

theorem comp_eqC {f : T → D → D} {M0 : A → D} {p H : Nat} {y : Sys A T D} (h : InvC f M0 p H y) :
    comp y = (y.1.wb.toList ++ items y.1.mid) ++ y.2.douts := by
  rw [comp, h.wr, List.append_assoc]

theorem fwdC_some {f : T → D → D} {M0 : A → D} {p H : Nat} {y : Sys A T D} (h : InvC f M0 p H y) (a : A) (j : Item A T D)
    (hj : fwd y.1 a = some j) : j.data = val M0 (comp y) a := by
  obtain ⟨S, hR, hf⟩ := fwdC_eq h
  rw [hf, List.find?_append] at hj
  rw [comp_eqC h, val_append]
  cases hu : (y.1.wb.toList ++ items y.1.mid).find? (fun i => i.addr == a) with
  | some k => rw [hu] at hj; simp at hj; rw [hj]
  | none =>
    rw [hu] at hj
    simp only [Option.none_or] at hj
    exact (skips_some hR H a j hj).symm

theorem forwardC_snap {f : T → D → D} {M0 : A → D} {p H : Nat} {y : Sys A T D} (h : InvC f M0 p H y) {i : Item A T D}
    (hs : Snap M0 H y 0 i) : (forward y.1 i).data = val M0 (comp y) i.addr := by
  unfold forward
  cases hf : fwd y.1 i.addr with
  | some j => exact fwdC_some h _ j hf
  | none =>
    obtain ⟨m, hm, hA, hd⟩ := hs
    simp only
    obtain ⟨S, hR, hf'⟩ := fwdC_eq h
    rw [hf', List.find?_append] at hf
    have hu : (y.1.wb.toList ++ items y.1.mid).find? (fun j => j.addr == i.addr) = none := by
      cases hu : (y.1.wb.toList ++ items y.1.mid).find? (fun j => j.addr == i.addr) with
      | none => rfl
      | some k => rw [hu] at hf; simp at hf
    have hv : (S.take H).find? (fun j => j.addr == i.addr) = none := by rw [hu] at hf; simpa using hf
    have hc := comp_eqC h
    rw [hd, hc]
    generalize hU : y.1.wb.toList ++ items y.1.mid = U at *
    have hlen : (comp y).length = U.length + y.2.douts.length := by rw [hc]; simp
    generalize hk : (U ++ y.2.douts).length - m = k
    have hk' : k = U.length + y.2.douts.length - m := by rw [← hk]; simp
    rw [val_append, hu]
    simp only
    by_cases hkU : k ≤ U.length
    · rw [List.drop_append_of_le_length hkU, val_append]
      have : (U.drop k).find? (fun j => j.addr == i.addr) = none := by
        rw [List.find?_eq_none] at hu ⊢
        intro x hx; exact hu x (List.mem_of_mem_drop hx)
      rw [this]
    · have e : (U ++ y.2.douts).drop k = y.2.douts.drop (k - U.length) := by
        rw [List.drop_append, List.drop_eq_nil_of_le (by omega), List.nil_append]
      rw [e]
      exact (skips_none hR H (k - U.length) (by omega) i.addr hv).symm

theorem forwardC_cur {f : T → D → D} {M0 : A → D} {p H : Nat} {y : Sys A T D} (h : InvC f M0 p H y) {i : Item A T D}
    (hd : i.data = val M0 (comp y) i.addr) : (forward y.1 i).data = val M0 (comp y) i.addr := by
  unfold forward
  cases hf : fwd y.1 i.addr with
  | some j => exact fwdC_some h _ j hf
  | none => exact hd

theorem compC_step (sk : Bool) (f : T → D → D) (y : Sys A T D) (x : In A T D) : comp (sysC sk f y x) = new f y.1 x ++ comp y :=
  comp_step f y x

theorem snapC_step (sk : Bool) (f : T → D → D) {M0 : A → D} {H : Nat} {y : Sys A T D} {φ φ' : Nat} {i : Item A T D} (x : In A T D)
    (h : Snap M0 H y φ i) (hA : (sysC sk f y x).2.douts.length + φ' ≤ y.2.douts.length + φ) : Snap M0 H (sysC sk f y x) φ' i := by
  obtain ⟨m, hm, hB, hd⟩ := h
  refine ⟨m, ?_, by omega, ?_⟩
  · rw [compC_step]; simp; omega
  · rw [hd, compC_step, drop_last _ _ hm]

theorem wrC_step (sk : Bool) (f : T → D → D) {p : Nat} (hp : 0 < p) {y : Sys A T D} (hM : y.1.mid.length = p)
    (hW : y.2.writes = items y.1.mid ++ y.2.douts) (x : In A T D) :
    (sysC sk f y x).2.writes = items (sysC sk f y x).1.mid ++ (sysC sk f y x).2.douts := by
  obtain ⟨s, o⟩ := y
  simp only at hM hW
  have hne : s.mid ≠ [] := by intro e; rw [e] at hM; simp at hM; omega
  have hit := midNext_items s.mid hne x.ack (if wbOut s x then s.wb else none)
  simp only [sysC, next, Obs.step, out]
  have e : wait s = s.mid.getLast?.join := rfl
  rw [← List.append_assoc, e, hit, hW, ← List.append_assoc]
  congr 2
  by_cases hb : wbOut s x = true
  · have : midRdy s.mid x.ack = true := by simp [wbOut] at hb; exact hb.1
    simp [this]
  · simp [hb]

theorem acksC_step (sk : Bool) (f : T → D → D) {p : Nat} (hp : 0 < p) {y : Sys A T D} (hM : y.1.mid.length = p)
    (hW : y.2.writes = items y.1.mid ++ y.2.douts) (x : In A T D) :
    (sysC sk f y x).2.douts.length + (items (sysC sk f y x).1.mid).length
      = y.2.douts.length + (items y.1.mid).length + (if wbOut y.1 x then y.1.wb else none).toList.length := by
  have h' := congrArg List.length (wrC_step sk f hp hM hW x)
  have h'' := congrArg List.length hW
  have e : (sysC sk f y x).2.writes = (if wbOut y.1 x then y.1.wb else none).toList ++ y.2.writes := rfl
  rw [e] at h'
  simp only [List.length_append] at h' h''
  omega

theorem acksC_le (sk : Bool) (f : T → D → D) {p : Nat} (hp : 0 < p) {y : Sys A T D} (hM : y.1.mid.length = p) (x : In A T D) :
    (sysC sk f y x).2.douts.length ≤ y.2.douts.length + (items y.1.mid).length ∧
    (sysC sk f y x).2.douts.length ≤ y.2.douts.length + 1 := by
  have e : (sysC sk f y x).2.douts = (if x.ack then wait y.1 else none).toList ++ y.2.douts := rfl
  rw [e]
  have hne : y.1.mid ≠ [] := by intro e; rw [e] at hM; simp at hM; omega
  have hit := congrArg List.length (midNext_items y.1.mid hne x.ack none)
  simp only [List.length_append] at hit
  have ew : wait y.1 = y.1.mid.getLast?.join := rfl
  rw [← ew] at hit
  have h0 : (if midRdy y.1.mid x.ack = true then (none : Option (Item A T D)).toList else []).length = 0 := by split <;> rfl
  rw [h0] at hit
  constructor
  · simp only [List.length_append]; omega
  · cases (if x.ack then wait y.1 else none) <;> simp

theorem histC_step (sk : Bool) (f : T → D → D) {M0 : A → D} {H : Nat} {y : Sys A T D} {x : In A T D}
    (h : ∃ S, y.1.hist = (S.map some ++ List.replicate H none).take H ∧ Skips M0 S y.2.douts)
    (hsk : sk = true → ∀ i, x.ack = true → wait y.1 = some i → i.data = val M0 y.2.douts i.addr) :
    ∃ S, (sysC sk f y x).1.hist = (S.map some ++ List.replicate H none).take H ∧ Skips M0 S (sysC sk f y x).2.douts := by
  obtain ⟨S, hH, hR⟩ := h
  have ed : (sysC sk f y x).2.douts = (if x.ack then wait y.1 else none).toList ++ y.2.douts := rfl
  have eh : (sysC sk f y x).1.hist = if sk then y.1.hist else
      if x.ack && (wait y.1).isSome then (wait y.1 :: y.1.hist).take y.1.hist.length else y.1.hist := rfl
  rw [ed, eh]
  by_cases ha : (x.ack && (wait y.1).isSome) = true
  · have ha' := ha
    simp only [Bool.and_eq_true] at ha'
    obtain ⟨k, hk⟩ := Option.isSome_iff_exists.mp ha'.2
    rw [if_pos ha'.1, hk]
    cases sk with
    | true => exact ⟨S, hH, .drop k (hsk rfl k ha'.1 hk) hR⟩
    | false =>
      refine ⟨k :: S, ?_, .keep k hR⟩
      have hl : y.1.hist.length = H := by rw [hH]; simp
      rw [if_neg (by simp), if_pos (by simp [ha'.1]), hl, hH]
      cases H with
      | zero => simp
      | succ n =>
        simp only [List.map_cons, List.cons_append, List.take_succ_cons, List.take_take]
        congr 2
        omega
  · rw [if_neg ha]
    have : (if x.ack then wait y.1 else none) = none := by
      cases hx : x.ack
      · rfl
      · rw [hx] at ha; simp at ha ⊢; exact ha
    rw [this]
    refine ⟨S, ?_, hR⟩
    split <;> exact hH

theorem inv_stepC (sk : Bool) (f : T → D → D) {M0 : A → D} {p H h0 : Nat} (hp : 0 < p) (hH : p + 2 + h0 ≤ H) {y : Sys A T D}
    (h : InvC f M0 p H y) {x : In A T D} (hx : Fresh M0 h0 y x)
    (hsk : sk = true → ∀ i, x.ack = true → wait y.1 = some i → i.data = val M0 y.2.douts i.addr) :
    InvC f M0 p H (sysC sk f y x) := by
  have hac := acksC_step sk f hp h.lenM h.wr x
  have hle := acksC_le sk f hp h.lenM x
  have hlen : (sysC sk f y x).1.mid.length = p := by
    show (midNext _ _ _).length = p
    rw [midNext_length, h.lenM]
  refine ⟨hlen, histC_step sk f h.hist hsk, wrC_step sk f hp h.lenM h.wr x, ?_, ?_, ?_, ?_⟩
  · rw [compC_step]
    unfold new
    split
    · cases h2 : y.1.s2 with
      | none => exact h.atom
      | some i =>
        refine atomic_cons h.atom ?_
        show f i.ts (opIn y.1 i) = f i.ts (val M0 (comp y) i.addr)
        congr 1
        unfold opIn
        rcases h.i2 i h2 with ⟨j, hj, hja⟩ | hd
        · rw [hj]; simp only [hja, if_true]
          rw [comp, hj]
          show _ = val M0 (j :: _) _
          rw [val_cons, if_pos hja]
        · cases hj : y.1.wb with
          | none => exact hd
          | some j =>
            simp only
            split
            · next hja => rw [comp, hj]; show _ = val M0 (j :: _) _; rw [val_cons, if_pos hja]
            · exact hd
    · exact h.atom
  · intro i hi
    have e2 : (sysC sk f y x).1.s2 = (if rdy2 y.1 x then y.1.s1 else y.1.s2).map (forward y.1) := rfl
    have ewb : (sysC sk f y x).1.wb = if wbRdy y.1 x then y.1.s2.map fun i => { i with data := f i.ts (opIn y.1 i) } else y.1.wb := rfl
    rw [e2] at hi
    obtain ⟨k, hk, rfl⟩ := Option.map_eq_some_iff.mp hi
    rw [forward_addr]
    have key : (forward y.1 k).data = val M0 (comp y) k.addr ∨ (wbRdy y.1 x = false ∧ ∃ j, y.1.wb = some j ∧ j.addr = k.addr) := by
      by_cases hr : rdy2 y.1 x = true
      · rw [if_pos hr] at hk
        left
        refine forwardC_snap h ?_
        obtain ⟨m, a, b, c⟩ := h.i1 k hk
        exact ⟨m, a, by omega, c⟩
      · rw [if_neg hr] at hk
        simp only [rdy2, Bool.or_eq_true, not_or, Bool.not_eq_true] at hr
        rcases h.i2 k hk with hj | hd
        · exact .inr ⟨hr.2, hj⟩
        · exact .inl (forwardC_cur h hd)
    rcases key with hd | ⟨hr, hj⟩
    · rw [compC_step, new, ewb]
      by_cases hr : wbRdy y.1 x = true
      · rw [if_pos hr, if_pos hr]
        cases h2 : y.1.s2 with
        | none => exact .inr hd
        | some q =>
          by_cases ha : q.addr = k.addr
          · exact .inl ⟨_, rfl, ha⟩
          · right
            rw [hd]
            show _ = val M0 (_ :: _) _
            rw [val_cons, if_neg ha]
            rfl
      · rw [if_neg hr, if_neg hr]; right; exact hd
    · left; rw [ewb, hr]; exact hj
  · intro i hi
    have e1 : (sysC sk f y x).1.s1 = if rdy1 y.1 x then y.1.s0 else y.1.s1 := rfl
    rw [e1] at hi
    by_cases hr : rdy1 y.1 x = true
    · rw [if_pos hr] at hi
      refine snapC_step sk f x (h.i0 i hi) ?_
      have e2 : (sysC sk f y x).1.s2.isSome = (if rdy2 y.1 x then y.1.s1 else y.1.s2).isSome := by
        show ((if rdy2 y.1 x then y.1.s1 else y.1.s2).map (forward y.1)).isSome = _
        simp
      have ewb : (sysC sk f y x).1.wb.isSome = (if wbRdy y.1 x then y.1.s2 else y.1.wb).isSome := by
        show (if wbRdy y.1 x then y.1.s2.map _ else y.1.wb).isSome = _
        split <;> simp
      rw [e2, ewb]
      by_cases hw : wbOut y.1 x = true
      · have hb : wbRdy y.1 x = true := by simp [wbRdy, hw]
        have h2 : rdy2 y.1 x = true := by simp [rdy2, hb]
        rw [hb, h2]
        rw [hw] at hac
        simp only [if_true] at hac ⊢
        cases hwb : y.1.wb <;> cases y.1.s1 <;> cases y.1.s2 <;> simp [hwb] at hac ⊢ <;> omega
      · rw [if_neg hw] at hac
        simp at hac
        generalize (if y.1.s1.isSome && y.1.s2.isSome && y.1.wb.isSome then 1 else 0) = q
        have : ∀ b : Bool, (if b = true then (items (sysC sk f y x).1.mid).length else 0) ≤ (items (sysC sk f y x).1.mid).length := by
          intro b; cases b <;> simp
        exact Nat.le_trans (Nat.add_le_add_left (this _) _) (by omega)
    · rw [if_neg hr] at hi
      simp only [rdy1, rdy2, wbRdy, Bool.or_eq_true, not_or, Bool.not_eq_true] at hr
      obtain ⟨_, h2, hb, hw⟩ := hr
      refine snapC_step sk f x (h.i1 i hi) ?_
      have a2 : y.1.s2.isSome = true := by cases h2' : y.1.s2 <;> simp [h2'] at h2 ⊢
      have ab : y.1.wb.isSome = true := by cases h2' : y.1.wb <;> simp [h2'] at hb ⊢
      rw [a2, ab]
      rw [hw] at hac
      simp at hac
      simp only [Bool.and_self, if_true]
      split <;> omega
  · intro i hi
    have e0 : (sysC sk f y x).1.s0 = if rdy0 y.1 x then x.r else y.1.s0 := rfl
    rw [e0] at hi
    by_cases hr : rdy0 y.1 x = true
    · rw [if_pos hr] at hi
      obtain ⟨m, hm, hA, hd⟩ := hx i hi hr
      have hs : Snap M0 H y (p + 2) i := by
        refine ⟨m, ?_, by omega, ?_⟩
        · simp [comp]; omega
        · rw [hd, comp, drop_last _ _ hm]
      refine snapC_step sk f x hs ?_
      have := items_length_le (sysC sk f y x).1.mid
      rw [hlen] at this
      split <;> omega
    · rw [if_neg hr] at hi
      simp only [rdy0, rdy1, rdy2, wbRdy, Bool.or_eq_true, not_or, Bool.not_eq_true] at hr
      obtain ⟨_, h1, h2, hb, hw⟩ := hr
      refine snapC_step sk f x (h.i0 i hi) ?_
      have a1 : y.1.s1.isSome = true := by cases h2' : y.1.s1 <;> simp [h2'] at h1 ⊢
      have a2 : y.1.s2.isSome = true := by cases h2' : y.1.s2 <;> simp [h2'] at h2 ⊢
      have ab : y.1.wb.isSome = true := by cases h2' : y.1.wb <;> simp [h2'] at hb ⊢
      rw [a1, a2, ab]
      rw [hw] at hac
      simp at hac
      simp only [Bool.and_self, if_true]
      split <;> omega

end Verif.OooOp
