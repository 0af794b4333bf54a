import Verif.OooHash
import Verif.OooSkip
/-! # Properties of the hash table of counters -/
namespace Verif.OooHash
open Verif.OooOp

universe u
variable {A : Type u} [DecidableEq A]

/-! ## What the operations do -/

/-- The item of the table is the one which the operation looks for. -/
def Same (t : Req) (old : Main) : Prop := t.orig.valid = true ∧ old.valid = true ∧ t.orig.key = old.key

/-- New item of the table and the returned one, from the documentation of `OPERATION` (counterHashTable.py:26-32). -/
structure Correct (W : Nat) (t : Req) (old : Main) (new : Main) (res : Res) : Prop where
  /-- `key_match` -/
  flag : res.keyMatch = true ↔ Same t old
  /-- SWAP inserts and returns the original item -/
  swap : t.op = 0 → new = t.orig ∧ res.orig = old
  /-- LOOKUP_OR_SWAP and LOOKUP increment the counter if the key was found -/
  hit : (t.op = 1 ∨ t.op = 2) → Same t old → new = ⟨old.valid, old.key, (old.value + 1) % 2 ^ W⟩ ∧ res.orig = t.orig
  /-- LOOKUP_OR_SWAP of a missing key inserts and returns the original item -/
  miss1 : t.op = 1 → ¬ Same t old → new = t.orig ∧ res.orig = old
  /-- LOOKUP of a missing key changes nothing -/
  miss2 : t.op = 2 → ¬ Same t old → new = old ∧ res.orig = t.orig

instance (t : Req) (old : Main) : Decidable (Same t old) := by unfold Same; infer_instance

theorem mainOp_correct (W : Nat) (t : Req) (old : Main) (lk : Bool) (h : lk = decide (Same t old)) :
    Correct W t old (mainOp W t old lk).1 (mainOp W t old lk).2 := by
  by_cases hs : Same t old
  · rw [decide_eq_true hs] at h
    subst h
    refine ⟨by simp [mainOp, hs], ?_, ?_, ?_, ?_⟩
    · intro e; simp [mainOp, e]
    · rintro (e | e) _ <;> simp [mainOp, e]
    · intro _ n; exact absurd hs n
    · intro _ n; exact absurd hs n
  · rw [decide_eq_false hs] at h
    subst h
    refine ⟨by simp [mainOp, hs], ?_, ?_, ?_, ?_⟩
    · intro e; simp [mainOp, e]
    · intro _ n; exact absurd n hs
    · intro e _; simp [mainOp, e]
    · intro e _; simp [mainOp, e]

/-- The new item as a function, for the pipeline of `OooOp`. -/
def opF (W : Nat) (t : Req) (d : Main) : Main := (mainOp W t d (decide (Same t d))).1

/-! ## The latest key match -/

theorem pick_eq (a : A) (g : Option (HItem A) → Bool) (l : List (Option (HItem A))) :
    pick a l (l.map g) = ((items l).find? fun j => j.addr == a).map fun j => g (some j) := by
  induction l with
  | nil => rfl
  | cons x xs ih =>
    cases x with
    | none => simp only [List.map_cons, pick, items_cons, Option.toList_none, List.nil_append]; exact ih
    | some j =>
      simp only [List.map_cons, pick, items_cons, Option.toList_some, List.cons_append, List.nil_append, List.find?_cons]
      by_cases h : j.addr = a
      · simp [h]
      · have : (j.addr == a) = false := by simp [h]
        rw [if_neg h, this]
        exact ih

/-- Data of STATE_LOAD are those of the newest stage with the address, except of WRITE_BACK. -/
def Late (s : PSt A) : Prop :=
  ∀ i, s.s2 = some i → (∀ w, s.wb = some w → w.addr ≠ i.addr) →
    ∀ j, (items (s.mid ++ s.hist)).find? (fun j => j.addr == i.addr) = some j → j.data.1 = i.data.1

structure Good (h : HSt A) : Prop where
  own : h.own = keyCompare h.s.s2 h.s.s2
  km : h.km = (h.s.wb :: h.s.mid ++ h.s.hist).map (keyCompare h.s.s2)

theorem forwardH_addr (s : PSt A) (i : HItem A) : (forwardH s i).addr = i.addr := by
  unfold forwardH; split <;> rfl

theorem good_next (W : Nat) (h : HSt A) (x : HIn A) : Good (next W h x) := ⟨rfl, rfl⟩

theorem good_init (p H : Nat) : Good (init p H : HSt A) := by
  refine ⟨rfl, ?_⟩
  · have : (keyCompare (none : Option (HItem A))) = fun _ => false := by funext j; cases j <;> rfl
    simp only [init, OooOp.init, this]
    rw [List.cons_append, List.map_cons, List.map_append, List.map_replicate, List.map_replicate,
      List.replicate_append_replicate, ← List.replicate_succ]
    congr 1; omega

/-- The registers always give the result of the comparison with the value on which `main_op` works. -/
theorem latest_eq (h : HSt A) (hg : Good h) (hl : Late h.s) (i : HItem A) (hi : h.s.s2 = some i) :
    latest h i.addr = decide (Same i.ts (opIn h.s i).1) := by
  have hk : ∀ j : HItem A, j.addr = i.addr → keyCompare (some i) (some j) = decide (Same i.ts j.data.1) := by
    intro j hj
    rw [Bool.eq_iff_iff, decide_eq_true_iff]
    simp [keyCompare, hj, Same, and_assoc]
  unfold latest
  rw [hg.km, hg.own, hi, pick_eq, List.cons_append, items_cons]
  cases hwb : h.s.wb with
  | none =>
    simp only [Option.toList_none, List.nil_append, opIn, hwb]
    cases hf : (items (h.s.mid ++ h.s.hist)).find? (fun j => j.addr == i.addr) with
    | none => simp only [Option.map_none, Option.getD_none]; exact hk i rfl
    | some j =>
      have hja : j.addr = i.addr := by have := List.find?_some hf; simpa using this
      simp only [Option.map_some, Option.getD_some, hk j hja]
      rw [hl i hi (by simp [hwb]) j hf]
  | some w =>
    simp only [Option.toList_some, List.cons_append, List.nil_append, List.find?_cons, opIn, hwb]
    by_cases hw : w.addr = i.addr
    · simp only [hw, beq_self_eq_true, Option.map_some, Option.getD_some, if_true, hk w hw]
    · have : (w.addr == i.addr) = false := by simp [hw]
      simp only [this, if_neg hw]
      cases hf : (items (h.s.mid ++ h.s.hist)).find? (fun j => j.addr == i.addr) with
      | none => simp only [Option.map_none, Option.getD_none]; exact hk i rfl
      | some j =>
        have hja : j.addr = i.addr := by have := List.find?_some hf; simpa using this
        simp only [Option.map_some, Option.getD_some, hk j hja]
        rw [hl i hi (by intro w' e; rw [hwb] at e; injection e with e; rw [← e]; exact hw) j hf]

/-! ## Forgetting of the results: the pipeline of `OooOp` with the operation `opF` -/

def mI (i : HItem A) : Item A Req Main := ⟨i.addr, i.ts, i.data.1⟩
def mO (o : Option (HItem A)) : Option (Item A Req Main) := o.map mI
def mS (s : PSt A) : St A Req Main := ⟨mO s.s0, mO s.s1, mO s.s2, mO s.wb, s.mid.map mO, s.hist.map mO⟩
def mIn (x : In A Req (Main × Res)) : In A Req Main := ⟨mO x.r, x.awr, x.wr, x.ack⟩


omit [DecidableEq A] in
theorem mO_isNone (o : Option (HItem A)) : (mO o).isNone = o.isNone := by cases o <;> rfl
omit [DecidableEq A] in
theorem mO_isSome (o : Option (HItem A)) : (mO o).isSome = o.isSome := by cases o <;> rfl
omit [DecidableEq A] in
theorem mO_ite (b : Bool) (x y : Option (HItem A)) : mO (if b then x else y) = if b then mO x else mO y := by cases b <;> rfl

omit [DecidableEq A] in
theorem midRdy_map (l : List (Option (HItem A))) (ack : Bool) : midRdy (l.map mO) ack = midRdy l ack := by
  induction l with
  | nil => rfl
  | cons x xs ih => simp only [List.map_cons, midRdy, ih, mO_isNone]

omit [DecidableEq A] in
theorem midNext_map (l : List (Option (HItem A))) (ack : Bool) (i : Option (HItem A)) :
    midNext (l.map mO) ack (mO i) = (midNext l ack i).map mO := by
  induction l generalizing i with
  | nil => rfl
  | cons x xs ih => simp only [List.map_cons, midNext, ih, mO_isNone, midRdy_map, mO_ite]

omit [DecidableEq A] in
theorem wait_map (s : PSt A) : wait (mS s) = mO (wait s) := by
  unfold wait mS
  simp only [List.getLast?_map]
  cases s.mid.getLast? with
  | none => rfl
  | some o => cases o <;> rfl

omit [DecidableEq A] in
theorem wbOut_map (s : PSt A) (x : In A Req (Main × Res)) : wbOut (mS s) (mIn x) = wbOut s x := by
  simp only [wbOut, mS, mIn, midRdy_map]
omit [DecidableEq A] in
theorem wbRdy_map (s : PSt A) (x : In A Req (Main × Res)) : wbRdy (mS s) (mIn x) = wbRdy s x := by
  simp only [wbRdy, wbOut_map]; simp only [mS, mO_isNone]
omit [DecidableEq A] in
theorem rdy2_map (s : PSt A) (x : In A Req (Main × Res)) : rdy2 (mS s) (mIn x) = rdy2 s x := by
  simp only [rdy2, wbRdy_map]; simp only [mS, mO_isNone]
omit [DecidableEq A] in
theorem rdy1_map (s : PSt A) (x : In A Req (Main × Res)) : rdy1 (mS s) (mIn x) = rdy1 s x := by
  simp only [rdy1, rdy2_map]; simp only [mS, mO_isNone]
omit [DecidableEq A] in
theorem rdy0_map (s : PSt A) (x : In A Req (Main × Res)) : rdy0 (mS s) (mIn x) = rdy0 s x := by
  simp only [rdy0, rdy1_map]; simp only [mS, mO_isNone]

omit [DecidableEq A] in
theorem items_map (l : List (Option (HItem A))) : items (l.map mO) = (items l).map mI := by
  induction l with
  | nil => rfl
  | cons x xs ih => rw [List.map_cons, items_cons, items_cons, ih]; cases x <;> rfl

theorem fwd_map (s : PSt A) (a : A) : fwd (mS s) a = mO (fwd s a) := by
  unfold fwd mS
  have : ((mO s.wb :: s.mid.map mO ++ s.hist.map mO).filterMap id) = ((s.wb :: s.mid ++ s.hist).filterMap id).map mI := by
    show items _ = (items _).map mI
    rw [← items_map, List.map_append, List.map_cons]
  rw [this, List.find?_map]
  rfl

theorem forward_map (s : PSt A) (i : HItem A) : forward (mS s) (mI i) = mI (forwardH s i) := by
  unfold forward forwardH
  have : (mI i).addr = i.addr := rfl
  rw [this, fwd_map]
  cases fwd s i.addr <;> rfl

theorem opIn_map (s : PSt A) (i : HItem A) : opIn (mS s) (mI i) = (opIn s i).1 := by
  unfold opIn mS mO mI
  cases s.wb with
  | none => rfl
  | some w =>
    simp only [Option.map_some]
    by_cases h : w.addr = i.addr <;> simp [h]

/-- A canceled item leaves without a write response. -/
def skip (x : HIn A) : Bool := !x.bv

theorem next_map (W : Nat) (h : HSt A) (hg : Good h) (hl : Late h.s) (x : HIn A) :
    mS (nextS W h x) = { OooOp.next (opF W) (mS h.s) (mIn (eff h.s x)) with
      hist := if skip x then (mS h.s).hist else (OooOp.next (opF W) (mS h.s) (mIn (eff h.s x))).hist } := by
  have hs2 : ∀ o : Option (HItem A), mO (o.map (forwardH h.s)) = (mO o).map (forward (mS h.s)) := by
    intro o; cases o with
    | none => rfl
    | some i => simp only [mO, Option.map_some, forward_map]
  unfold OooOp.next
  rw [rdy0_map, rdy1_map, rdy2_map, wbRdy_map, wbOut_map, wait_map]
  have hwb : mO (h.s.s2.map fun i => { i with data := mainOp W i.ts (opIn h.s i).1 (latest h i.addr) })
      = (mO h.s.s2).map fun i => { i with data := opF W i.ts (opIn (mS h.s) i) } := by
    cases hi : h.s.s2 with
    | none => rfl
    | some i =>
      simp only [mO, Option.map_some, opIn_map]
      rw [latest_eq h hg hl i hi]
      rfl
  have hh : ∀ (a : Option (HItem A)) (l : List (Option (HItem A))),
      ((a :: l).take l.length).map mO = (mO a :: l.map mO).take (l.map mO).length := by
    intro a l; simp
  unfold nextS mS
  dsimp only [mIn]
  congr 1
  · exact mO_ite _ _ _
  · exact mO_ite _ _ _
  · rw [hs2, mO_ite]; rfl
  · rw [mO_ite, hwb]; rfl
  · rw [← midNext_map, mO_ite]; rfl
  · simp only [mO_isSome, skip, eff]
    cases x.bv with
    | false => simp
    | true =>
      simp only [Bool.not_true, Bool.true_or, Bool.true_and, Bool.and_true]
      by_cases hc : ((wait h.s).isSome && x.rd) = true
      · have hc' : (x.rd && (wait h.s).isSome) = true := by rw [Bool.and_comm]; exact hc
        rw [if_pos hc, hh, if_neg (by simp)]; exact (if_pos hc').symm
      · have hc' : ¬ (x.rd && (wait h.s).isSome) = true := by rw [Bool.and_comm]; exact hc
        rw [if_neg hc, if_neg (by simp)]; exact (if_neg hc').symm

/-! ## What is seen on the ports -/

structure HObs (A : Type u) where
  /-- addresses and states received with read data -/
  reads : List (A × Req)
  /-- operations which passed WRITE_BACK -/
  ops : List (HItem A)
  /-- writes to the memory (aw, w) -/
  writes : List (HItem A)
  /-- dataOut -/
  douts : List (HItem A)
  /-- number of write responses taken -/
  bs : Nat

def HObs.step (o : HObs A) (x : HIn A) (y : HOut A) : HObs A where
  reads := (if y.rRdy then (x.r.map fun i => (i.addr, i.ts)).toList else []) ++ o.reads
  ops := y.op.toList ++ o.ops
  writes := y.write.toList ++ o.writes
  douts := y.dout.toList ++ o.douts
  bs := o.bs + y.bTaken.toNat

def hsys (W : Nat) (y : HSt A × HObs A) (x : HIn A) : HSt A × HObs A := (next W y.1 x, y.2.step x (hout y.1.s x))
def hrun (W : Nat) (y : HSt A × HObs A) (xs : List (HIn A)) : HSt A × HObs A := xs.foldl (hsys W) y
def hinit (p H : Nat) : HSt A × HObs A := (init p H, ⟨[], [], [], [], 0⟩)

/-- Value of the address in the memory after the writes (the newest first). -/
def hval (M0 : A → Main) (ws : List (HItem A)) (a : A) : Main :=
  match ws.find? fun i => i.addr == a with
  | some i => i.data.1
  | none => M0 a

/-- The operations which write to the memory. -/
def real (ops : List (HItem A)) : List (HItem A) := ops.filter fun i => !(i.ts.op == 2 && !i.data.2.keyMatch)

/-- Data read from the memory are the value after the writes of some of the operations; at most `h0` of the finished operations are
missing. -/
def HFresh (M0 : A → Main) (h0 : Nat) (y : HSt A × HObs A) (x : HIn A) : Prop :=
  ∀ i, x.r = some i → (hout y.1.s x).rRdy = true →
    ∃ m, m ≤ y.2.ops.length ∧ y.2.douts.length ≤ m + h0 ∧
      i.data.1 = hval M0 (real (y.2.ops.drop (y.2.ops.length - m))) i.addr

def HAlong (W : Nat) (P : HSt A × HObs A → HIn A → Prop) : HSt A × HObs A → List (HIn A) → Prop
  | _, [] => True
  | y, x :: xs => P y x ∧ HAlong W P (hsys W y x) xs

/-- Every operation works on the value in the memory after all the operations before it. -/
def Lin (W : Nat) (M0 : A → Main) (ws : List (HItem A)) : Prop :=
  ∀ post w pre, ws = post ++ w :: pre → Correct W w.ts (hval M0 (real pre) w.addr) w.data.1 w.data.2

/-- The same with all the operations written. -/
def Lin0 (W : Nat) (M0 : A → Main) (ws : List (HItem A)) : Prop :=
  ∀ post w pre, ws = post ++ w :: pre → Correct W w.ts (hval M0 pre w.addr) w.data.1 w.data.2

theorem lin_tail {W : Nat} {M0 : A → Main} {l ws : List (HItem A)} (h : Lin0 W M0 (l ++ ws)) : Lin0 W M0 ws := by
  intro post w pre e
  exact h (l ++ post) w pre (by rw [e, List.append_assoc])

theorem lin_cons {W : Nat} {M0 : A → Main} {w : HItem A} {ws : List (HItem A)} (h : Lin0 W M0 ws)
    (hw : Correct W w.ts (hval M0 ws w.addr) w.data.1 w.data.2) : Lin0 W M0 (w :: ws) := by
  intro post w' pre e
  cases post with
  | nil => simp at e; obtain ⟨rfl, rfl⟩ := e; exact hw
  | cons b post => simp at e; exact h post w' pre e.2

theorem hval_cons (M0 : A → Main) (i : HItem A) (ws : List (HItem A)) (a : A) :
    hval M0 (i :: ws) a = if i.addr = a then i.data.1 else hval M0 ws a := by
  unfold hval
  rw [List.find?_cons]
  by_cases h : i.addr = a
  · simp [h]
  · have : (i.addr == a) = false := by simp [h]
    rw [this, if_neg h]

theorem cancelled_same {W : Nat} {t : Req} {old new : Main} {r : Res} (h : Correct W t old new r) (h2 : t.op = 2)
    (hk : r.keyMatch = false) : new = old :=
  (h.miss2 h2 (fun hs => by rw [h.flag.mpr hs] at hk; cases hk)).1

theorem hval_real {W : Nat} {M0 : A → Main} {ws : List (HItem A)} (h : Lin0 W M0 ws) (a : A) : hval M0 (real ws) a = hval M0 ws a := by
  induction ws with
  | nil => rfl
  | cons w ws ih =>
    have ih := ih (lin_tail (l := [w]) h)
    have hc := h [] w ws rfl
    unfold real
    rw [List.filter_cons]
    split
    · rw [hval_cons, hval_cons, ← ih]; rfl
    · next hn =>
      have hn' : w.ts.op = 2 ∧ w.data.2.keyMatch = false := by simpa using hn
      rw [hval_cons, cancelled_same hc hn'.1 hn'.2]
      have e : hval M0 (real ws) a = hval M0 ws a := ih
      unfold real at e
      rw [e]
      split
      · next ha => rw [ha]
      · rfl

theorem lin_of_lin0 {W : Nat} {M0 : A → Main} {ws : List (HItem A)} (h : Lin0 W M0 ws) : Lin W M0 ws := by
  intro post w pre e
  rw [hval_real (lin_tail (l := post ++ [w]) (ws := pre) (by rw [List.append_assoc]; exact e ▸ h))]
  exact h post w pre e

def mObs (o : HObs A) : Obs A Req Main := ⟨o.reads, o.ops.map mI, o.douts.map mI⟩
def mSys (y : HSt A × HObs A) : Sys A Req Main := (mS y.1.s, mObs y.2)

theorem hval_map (M0 : A → Main) (ws : List (HItem A)) (a : A) : val M0 (ws.map mI) a = hval M0 ws a := by
  unfold val hval
  rw [List.find?_map]
  have : (fun i : Item A Req Main => i.addr == a) ∘ mI = fun i : HItem A => i.addr == a := rfl
  rw [this]
  cases ws.find? (fun i : HItem A => i.addr == a) <;> rfl

omit [DecidableEq A] in
theorem obs_map (o : HObs A) (s : PSt A) (x : HIn A) :
    mObs (o.step x (hout s x)) = (mObs o).step (mIn (eff s x)) (out (mS s) (mIn (eff s x))) := by
  have ht : ∀ o : Option (HItem A), (mO o).toList = o.toList.map mI := by intro o; cases o <;> rfl
  unfold Obs.step out mObs HObs.step hout
  dsimp only
  rw [rdy0_map, wbOut_map, wait_map]
  congr 1
  · congr 1
    simp only [mIn, eff]
    cases x.r <;> rfl
  · have : (mS s).wb = mO s.wb := rfl
    rw [this, List.map_append, ← ht, mO_ite]; rfl
  · have : (mIn (eff s x)).ack = ((x.bv || cancel (wait s)) && x.rd) := rfl
    rw [this, List.map_append, ← ht, mO_ite]; rfl

theorem sys_map (W : Nat) (y : HSt A × HObs A) (hg : Good y.1) (hl : Late y.1.s) (x : HIn A) :
    mSys (hsys W y x) = sysC (skip x) (opF W) (mSys y) (mIn (eff y.1.s x)) := by
  unfold mSys hsys sysC
  dsimp only
  rw [obs_map, ← next_map W y.1 hg hl x]
  rfl

theorem fresh_map {W : Nat} (M0 : A → Main) (h0 : Nat) (y : HSt A × HObs A) (hlin : Lin0 W M0 y.2.ops) (x : HIn A) (h : HFresh M0 h0 y x) :
    Fresh M0 h0 (mSys y) (mIn (eff y.1.s x)) := by
  intro i hi hr
  obtain ⟨i0, e0, rfl⟩ := Option.map_eq_some_iff.mp hi
  have hr' : (hout y.1.s x).rRdy = true := by
    have := rdy0_map y.1.s (eff y.1.s x)
    simp only [out, mSys, hout] at hr ⊢
    rw [← this]; exact hr
  obtain ⟨m, h1, h2, h3⟩ := h i0 e0 hr'
  refine ⟨m, ?_, ?_, ?_⟩
  · simpa [mSys, mObs] using h1
  · simpa [mSys, mObs] using h2
  · simp only [mSys, mObs, List.length_map, ← List.map_drop, hval_map]
    rw [← hval_real (lin_tail (l := y.2.ops.take (y.2.ops.length - m)) (by rw [List.take_append_drop]; exact hlin))]
    exact h3

/-- Items computed so far, the newest first. -/
def hcomp (y : HSt A × HObs A) : List (HItem A) := y.1.s.wb.toList ++ y.2.ops

omit [DecidableEq A] in
theorem comp_map (y : HSt A × HObs A) : comp (mSys y) = (hcomp y).map mI := by
  unfold comp hcomp mSys mObs mS
  dsimp only
  rw [List.map_append]
  cases y.1.s.wb <;> rfl

structure HInv (W : Nat) (M0 : A → Main) (p H : Nat) (y : HSt A × HObs A) : Prop where
  good : Good y.1
  inv : InvC (opF W) M0 p H (mSys y)
  lin : Lin0 W M0 (hcomp y)
  ops : y.2.ops = items y.1.s.mid ++ y.2.douts
  writes : y.2.writes = real y.2.ops
  bs : y.2.bs = (real y.2.douts).length

theorem late_of_inv {W : Nat} {M0 : A → Main} {p H : Nat} {y : HSt A × HObs A} (h : InvC (opF W) M0 p H (mSys y)) : Late y.1.s := by
  intro i hi hw j hj
  have hwm : ∀ k, (mSys y).1.wb = some k → k.addr ≠ i.addr := by
    intro k hk
    obtain ⟨w, e, rfl⟩ := Option.map_eq_some_iff.mp hk
    exact hw w e
  have hf : fwd y.1.s i.addr = some j := by
    unfold fwd
    have e : (y.1.s.wb :: y.1.s.mid ++ y.1.s.hist).filterMap id = y.1.s.wb.toList ++ items (y.1.s.mid ++ y.1.s.hist) := by
      show items _ = _
      rw [List.cons_append, items_cons]
    rw [e]
    cases hwb : y.1.s.wb with
    | none => exact hj
    | some w =>
      have : (w.addr == i.addr) = false := by simp; exact hw w hwb
      simp only [Option.toList_some, List.cons_append, List.nil_append, List.find?_cons, this]
      exact hj
  have h1 := fwdC_some h i.addr (mI j) (by show fwd (mS y.1.s) _ = _; rw [fwd_map, hf]; rfl)
  rcases h.i2 (mI i) (by show mO y.1.s.s2 = _; rw [hi]; rfl) with ⟨k, hk, hk2⟩ | e
  · exact absurd hk2 (hwm k hk)
  · exact h1.trans e.symm

theorem opIn_val {f : Req → Main → Main} {M0 : A → Main} {p H : Nat} {y : Sys A Req Main} (h : InvC f M0 p H y)
    (i : Item A Req Main) (hi : y.1.s2 = some i) : opIn y.1 i = val M0 (comp y) i.addr := by
  unfold opIn comp
  cases hw : y.1.wb with
  | none =>
    rcases h.i2 i hi with ⟨j, e, _⟩ | e
    · rw [hw] at e; cases e
    · simp only; rw [e, comp, hw]
  | some w =>
    simp only [Option.toList_some, List.cons_append, List.nil_append, val_cons]
    by_cases ha : w.addr = i.addr
    · rw [if_pos ha, if_pos ha]
    · rw [if_neg ha, if_neg ha]
      rcases h.i2 i hi with ⟨j, e, e2⟩ | e
      · rw [hw] at e; injection e with e; subst e; exact absurd e2 ha
      · rw [e, comp, hw]
        simp only [Option.toList_some, List.cons_append, List.nil_append, val_cons, if_neg ha]

omit [DecidableEq A] in
theorem items_last (l : List (Option (HItem A))) (i : HItem A) (h : l.getLast?.join = some i) : ∃ m, items l = m ++ [i] := by
  have hl : l.getLast? = some (some i) := by
    cases e : l.getLast? with
    | none => rw [e] at h; cases h
    | some o => rw [e] at h; cases o with
      | none => cases h
      | some j => rw [show j = i from by simpa using h]
  obtain ⟨m, rfl⟩ := List.getLast?_eq_some_iff.mp hl
  exact ⟨items m, by rw [items_append]; rfl⟩

omit [DecidableEq A] in
theorem real_append (l m : List (HItem A)) : real (l ++ m) = real l ++ real m := List.filter_append ..

theorem hinv_step {W : Nat} {M0 : A → Main} {p H h0 : Nat} (hp : 0 < p) (hH : p + 2 + h0 ≤ H) {y : HSt A × HObs A}
    (h : HInv W M0 p H y) {x : HIn A} (hx : HFresh M0 h0 y x) : HInv W M0 p H (hsys W y x) := by
  have hm : y.1.s.mid ≠ [] := by
    have := h.inv.lenM
    intro e
    simp [mSys, mS, e] at this; omega
  have hl := late_of_inv h.inv
  have hlo : Lin0 W M0 y.2.ops := lin_tail h.lin
  refine ⟨good_next W y.1 x, ?_, ?_, ?_, ?_, ?_⟩
  · rw [sys_map W y h.good hl x]
    refine inv_stepC (skip x) (opF W) hp hH h.inv (fresh_map M0 h0 y hlo x hx) ?_
    intro hsk i hack hi
    have hw : wait (mS y.1.s) = some i := hi
    rw [wait_map] at hw
    obtain ⟨i0, e0, rfl⟩ := Option.map_eq_some_iff.mp hw
    have hc : cancelled i0 = true := by
      have : ((x.bv || cancel (wait y.1.s)) && x.rd) = true := hack
      have hb : x.bv = false := by simpa [skip] using hsk
      rw [hb, e0] at this
      simp only [Bool.false_or, Bool.and_eq_true] at this
      exact this.1
    obtain ⟨m, hm⟩ := items_last y.1.s.mid i0 e0
    have hcor := hlo m i0 y.2.douts (by rw [h.ops, hm]; simp)
    have hc' : i0.data.2.keyMatch = false ∧ i0.ts.op = 2 := by simpa [cancelled] using hc
    show i0.data.1 = val M0 (y.2.douts.map mI) i0.addr
    rw [hval_map]
    exact cancelled_same hcor hc'.2 hc'.1
  · have hc : hcomp (hsys W y x)
        = (if wbRdy y.1.s (eff y.1.s x) then (y.1.s.s2.map fun i =>
            { i with data := mainOp W i.ts (opIn y.1.s i).1 (latest y.1 i.addr) }).toList else []) ++ hcomp y := by
      simp only [hcomp, hsys, next, nextS, HObs.step, hout, wbRdy]
      rcases Bool.eq_false_or_eq_true (wbOut y.1.s (eff y.1.s x)) with eW | eW <;> simp only [eW] <;> cases y.1.s.wb <;> simp
    rw [hc]
    by_cases hr : wbRdy y.1.s (eff y.1.s x) = true
    · rw [if_pos hr]
      cases hi : y.1.s.s2 with
      | none => simpa using h.lin
      | some i =>
        simp only [Option.map_some, Option.toList_some, List.cons_append, List.nil_append]
        refine lin_cons h.lin ?_
        dsimp only
        have hv := opIn_val h.inv (mI i) (by simp [mSys, mS, mO, hi])
        rw [comp_map, hval_map] at hv
        have he : opIn (mSys y).1 (mI i) = (opIn y.1.s i).1 := opIn_map y.1.s i
        rw [he] at hv
        have ha : (mI i).addr = i.addr := rfl
        rw [ha] at hv
        rw [← hv]
        exact mainOp_correct W i.ts _ _ (latest_eq y.1 h.good hl i hi)
    · rw [if_neg hr]; exact h.lin
  · have hit := midNext_items y.1.s.mid hm (eff y.1.s x).ack (if wbOut y.1.s (eff y.1.s x) then y.1.s.wb else none)
    have e : wait y.1.s = y.1.s.mid.getLast?.join := rfl
    have ed : (hsys W y x).2.douts = (if (eff y.1.s x).ack then wait y.1.s else none).toList ++ y.2.douts := rfl
    have eo : (hsys W y x).2.ops = (if wbOut y.1.s (eff y.1.s x) then y.1.s.wb else none).toList ++ y.2.ops := rfl
    have em : (hsys W y x).1.s.mid = midNext y.1.s.mid (eff y.1.s x).ack (if wbOut y.1.s (eff y.1.s x) then y.1.s.wb else none) := rfl
    rw [ed, eo, em, ← List.append_assoc, e, hit, h.ops, ← List.append_assoc]
    congr 2
    by_cases hb : wbOut y.1.s (eff y.1.s x) = true
    · have : midRdy y.1.s.mid (eff y.1.s x).ack = true := by simp [wbOut] at hb; exact hb.1
      simp [this]
    · simp [hb]
  · have eo : (hsys W y x).2.ops = (if wbOut y.1.s (eff y.1.s x) then y.1.s.wb else none).toList ++ y.2.ops := rfl
    have ew : (hsys W y x).2.writes = (if midRdy y.1.s.mid (eff y.1.s x).ack && !cancel y.1.s.wb && (x.awr && x.wr) then y.1.s.wb else none).toList
        ++ y.2.writes := rfl
    rw [eo, ew, real_append, h.writes]
    congr 1
    have hw : wbOut y.1.s (eff y.1.s x) = (midRdy y.1.s.mid (eff y.1.s x).ack && ((x.awr || cancel y.1.s.wb) && (x.wr || cancel y.1.s.wb))) := rfl
    rw [hw]
    cases hwb : y.1.s.wb with
    | none => simp [real]
    | some w =>
      generalize midRdy y.1.s.mid (eff y.1.s x).ack = r
      cases hc : cancelled w with
      | true =>
        have hc' : w.data.2.keyMatch = false ∧ w.ts.op = 2 := by simpa [cancelled] using hc
        cases r <;> simp [cancel, hc, real, hc']
      | false =>
        have hc' : ¬ (w.data.2.keyMatch = false ∧ w.ts.op = 2) := by
          intro e; rw [cancelled, e.1, e.2] at hc; simp at hc
        have hf : (!(w.ts.op == 2 && !w.data.2.keyMatch)) = true := by
          cases hk : w.data.2.keyMatch <;> simp [hk] at hc' ⊢; exact hc'
        simp only [cancel, hc, Bool.or_false, Bool.not_false, Bool.and_true]
        cases (r && (x.awr && x.wr))
        · rfl
        · simp only [if_true, Option.toList_some, real, List.filter_cons, hf, List.filter_nil]
  · have ed : (hsys W y x).2.douts = (if (x.bv || cancel (wait y.1.s)) && x.rd then wait y.1.s else none).toList ++ y.2.douts := rfl
    have eb : (hsys W y x).2.bs = y.2.bs + ((wait y.1.s).isSome && !cancel (wait y.1.s) && x.bv && x.rd).toNat := rfl
    rw [ed, eb, h.bs, real_append, List.length_append, Nat.add_comm]
    congr 1
    cases wait y.1.s with
    | none => simp [real]
    | some w =>
      cases hc : cancelled w with
      | true =>
        have hc' : w.data.2.keyMatch = false ∧ w.ts.op = 2 := by simpa [cancelled] using hc
        cases x.rd <;> simp [cancel, hc, real, hc']
      | false =>
        have hc' : ¬ (w.data.2.keyMatch = false ∧ w.ts.op = 2) := by
          intro e; rw [cancelled, e.1, e.2] at hc; simp at hc
        have hf : (!(w.ts.op == 2 && !w.data.2.keyMatch)) = true := by
          cases hk : w.data.2.keyMatch <;> simp [hk] at hc' ⊢; exact hc'
        simp only [cancel, hc, Bool.or_false, Bool.not_false, Bool.and_true, Option.isSome_some, Bool.true_and]
        cases (x.bv && x.rd)
        · rfl
        · simp only [if_true, Option.toList_some, real, List.filter_cons, hf, List.filter_nil]; rfl

theorem hinv_init (W : Nat) (M0 : A → Main) (p H : Nat) : HInv W M0 p H (hinit p H) := by
  refine ⟨good_init p H, ?_, ?_, ?_, rfl, rfl⟩
  · have : mSys (hinit p H : HSt A × HObs A) = sysInit p H := by
      simp [mSys, hinit, init, sysInit, mS, OooOp.init, mO, mObs, Obs.init]
    rw [this]; exact invC_init _ _ _ _
  · intro post w pre e
    simp [hcomp, hinit, init, OooOp.init] at e
  · simp [hinit, init, OooOp.init, items]

theorem hinv_run {W : Nat} {M0 : A → Main} {p H h0 : Nat} (hp : 0 < p) (hH : p + 2 + h0 ≤ H) {y : HSt A × HObs A}
    (h : HInv W M0 p H y) {xs : List (HIn A)} (hx : HAlong W (HFresh M0 h0) y xs) :
    HInv W M0 p H (hrun W y xs) := by
  induction xs generalizing y with
  | nil => exact h
  | cons x xs ih => exact ih (hinv_step hp hH h hx.1) hx.2

/-- The full claim for a configuration of the pipeline: with a memory which returns the writes of all the operations finished before, the
table behaves as if every operation was executed at once. -/
def Linearizable (p H : Nat) : Prop :=
  ∀ (W : Nat) (M0 : Nat → Main) (xs : List (HIn Nat)), HAlong W (HFresh M0 0) (hinit p H) xs →
    Lin W M0 (hrun W (hinit p H) xs).2.ops

/-- Missing to the full claim: a history shorter than `p + 2` items. The table behaves as if every operation (lookup, swap, both) was
executed at once, in the order of the pipeline, and `dataOut` shows exactly the finished operations in that order with their results. -/
theorem linearizable_partial (W : Nat) (M0 : A → Main) (p H h0 : Nat) (hp : 0 < p) (hH : p + 2 + h0 ≤ H)
    (xs : List (HIn A)) (hx : HAlong W (HFresh M0 h0) (hinit p H) xs) :
    Lin W M0 (hrun W (hinit p H) xs).2.ops ∧
      ∃ d, (hrun W (hinit p H) xs).2.ops = d ++ (hrun W (hinit p H) xs).2.douts ∧ d.length ≤ p := by
  have h := hinv_run hp hH (hinv_init W M0 p H) hx
  refine ⟨lin_of_lin0 (lin_tail h.lin), _, h.ops, Nat.le_trans (items_length_le _) ?_⟩
  have := h.inv.lenM
  simp only [mSys, mS, List.length_map] at this
  omega

/-- Exactly the operations except of a `LOOKUP` without a match are written to the memory, one write response is taken for each of them
which is finished, and after the writes the memory has the values of all the operations. Missing: as in `linearizable_partial`. -/
theorem writes_partial (W : Nat) (M0 : A → Main) (p H h0 : Nat) (hp : 0 < p) (hH : p + 2 + h0 ≤ H)
    (xs : List (HIn A)) (hx : HAlong W (HFresh M0 h0) (hinit p H) xs) :
    (hrun W (hinit p H) xs).2.writes
        = (hrun W (hinit p H) xs).2.ops.filter (fun i => !(i.ts.op == 2 && !i.data.2.keyMatch)) ∧
      (hrun W (hinit p H) xs).2.bs
        = ((hrun W (hinit p H) xs).2.douts.filter (fun i => !(i.ts.op == 2 && !i.data.2.keyMatch))).length ∧
      ∀ a, hval M0 (hrun W (hinit p H) xs).2.writes a = hval M0 (hrun W (hinit p H) xs).2.ops a := by
  have h := hinv_run hp hH (hinv_init W M0 p H) hx
  refine ⟨h.writes, h.bs, fun a => ?_⟩
  rw [h.writes]
  exact hval_real (lin_tail h.lin) a

/-! ## Examples -/

def demoM0 : Nat → Main := fun _ => ⟨false, 0, 0⟩
def demoRd (a op key v : Nat) : HIn Nat :=
  ⟨some ⟨a, ⟨op, ⟨true, key, v⟩⟩, (⟨false, 0, 0⟩, ⟨⟨false, 0, 0⟩, false⟩)⟩, true, true, true, true⟩
def demoIdle : HIn Nat := ⟨none, true, true, true, true⟩

/-- insert of a key, increment of it with forwarding, a lookup of another key, its insert which returns the counter -/
def demo : List (HIn Nat) :=
  [demoRd 3 1 7 10, demoRd 3 1 7 0, demoRd 3 2 8 0, demoRd 3 1 8 20, demoIdle, demoIdle, demoIdle, demoIdle, demoIdle]

instance decHFresh (M0 : Nat → Main) (h0 : Nat) (y : HSt Nat × HObs Nat) (x : HIn Nat) : Decidable (HFresh M0 h0 y x) :=
  match hr : x.r with
  | none => isTrue (by intro i hi; rw [hr] at hi; cases hi)
  | some i =>
    decidable_of_iff ((hout y.1.s x).rRdy = true → ∃ m, m < y.2.ops.length + 1 ∧ (y.2.douts.length ≤ m + h0 ∧
        i.data.1 = hval M0 (real (y.2.ops.drop (y.2.ops.length - m))) i.addr)) (by
      constructor
      · intro h j hj hrd
        rw [hr] at hj; injection hj with hj; subst hj
        obtain ⟨m, h1, h2, h3⟩ := h hrd
        exact ⟨m, by omega, h2, h3⟩
      · intro h hrd
        obtain ⟨m, h1, h2, h3⟩ := h i hr hrd
        exact ⟨m, by omega, h2, h3⟩)

instance decHAlong (W : Nat) (P : HSt Nat × HObs Nat → HIn Nat → Prop) [∀ y x, Decidable (P y x)] :
    ∀ (xs : List (HIn Nat)) (y : HSt Nat × HObs Nat), Decidable (HAlong W P y xs)
  | [], _ => isTrue trivial
  | x :: xs, y => @instDecidableAnd _ _ _ (decHAlong W P xs (hsys W y x))

example : HAlong 31 (HFresh demoM0 0) (hinit 1 3) demo := by decide +kernel
example : (hrun 31 (hinit 1 3) demo).2.douts.reverse.map (·.data)
    = [(⟨true, 7, 10⟩, ⟨⟨false, 0, 0⟩, false⟩), (⟨true, 7, 11⟩, ⟨⟨true, 7, 0⟩, true⟩), (⟨true, 7, 11⟩, ⟨⟨true, 8, 0⟩, false⟩),
      (⟨true, 8, 20⟩, ⟨⟨true, 7, 11⟩, false⟩)] := by decide +kernel

/-- The lookup of a missing key is not written; the response of the last write is taken without waiting for it. -/
example : (hrun 31 (hinit 1 3) demo).2.writes.length = 3 ∧ (hrun 31 (hinit 1 3) demo).2.bs = 3 := by decide +kernel
/-- The memory does not respond: a canceled lookup passes anyway. -/
example : (hrun 31 (hinit 1 3) (⟨(demoRd 3 2 8 0).r, false, false, false, true⟩ :: List.replicate 6 ⟨none, false, false, false, true⟩)).2.douts.length = 1
    := by decide +kernel

/-- Two increments of one key and an insert to another address between. -/
def lost : List (HIn Nat) :=
  [demoRd 0 1 7 10, demoRd 5 1 9 30, demoIdle, demoIdle, demoIdle, demoRd 0 1 7 20, demoIdle, demoIdle, demoIdle, demoIdle]

/-- With the default configuration the second lookup of an inserted key inserts it again. -/
theorem default_violated : ¬ Linearizable 1 1 := by
  intro h
  have h1 := h 31 demoM0 lost (by decide +kernel)
  have e : (hrun 31 (hinit 1 1) lost).2.ops
      = [] ++ ⟨0, ⟨1, ⟨true, 7, 20⟩⟩, (⟨true, 7, 20⟩, ⟨⟨false, 0, 0⟩, false⟩)⟩ ::
        [⟨5, ⟨1, ⟨true, 9, 30⟩⟩, (⟨true, 9, 30⟩, ⟨⟨false, 0, 0⟩, false⟩)⟩,
          ⟨0, ⟨1, ⟨true, 7, 10⟩⟩, (⟨true, 7, 10⟩, ⟨⟨false, 0, 0⟩, false⟩)⟩] := by decide +kernel
  have := (h1 _ _ _ e).flag
  revert this
  decide

/-- The configuration of counterHashTable_test with 4 items in history. -/
theorem lin_14 : Linearizable 1 4 := fun W M0 xs h => (linearizable_partial W M0 1 4 0 (by omega) (by omega) xs h).1

end Verif.OooHash
