import Verif.OooOp

/-! # Properties of `OutOfOrderCummulativeOp` -/

namespace Verif.OooOp

universe u v w

variable {A : Type u} {T : Type v} {D : Type w}

/-! ## What is seen on the ports -/

/-- Transfers on the ports so far, the newest first. -/
structure Obs (A : Type u) (T : Type v) (D : Type w) where
  /-- address and transaction state of the items received with read data -/
  reads : List (A × T)
  /-- writes (aw, w) -/
  writes : List (Item A T D)
  /-- dataOut, each together with the write response -/
  douts : List (Item A T D)

def Obs.init : Obs A T D := ⟨[], [], []⟩

def Obs.step (o : Obs A T D) (x : In A T D) (y : Out A T D) : Obs A T D where
  reads := (if y.rRdy then (x.r.map fun i => (i.addr, i.ts)).toList else []) ++ o.reads
  writes := y.write.toList ++ o.writes
  douts := y.dout.toList ++ o.douts

/-- The component and what was seen on the ports. -/
abbrev Sys (A : Type u) (T : Type v) (D : Type w) := St A T D × Obs A T D

def sysInit (p H : Nat) : Sys A T D := (OooOp.init p H, Obs.init)

def sys [DecidableEq A] (f : T → D → D) (y : Sys A T D) (x : In A T D) : Sys A T D :=
  (next f y.1 x, y.2.step x (out y.1 x))

def run [DecidableEq A] (f : T → D → D) (y : Sys A T D) (xs : List (In A T D)) : Sys A T D := xs.foldl (sys f) y

/-- Value of the address `a` in the memory after the writes `ws` (the newest first). -/
def val [DecidableEq A] (M0 : A → D) (ws : List (Item A T D)) (a : A) : D :=
  match ws.find? fun i => i.addr == a with
  | some i => i.data
  | none => M0 a

/-- Every write stores the operation applied on the value after all the previous writes. -/
def Atomic [DecidableEq A] (f : T → D → D) (M0 : A → D) (ws : List (Item A T D)) : Prop :=
  ∀ post w pre, ws = post ++ w :: pre → w.data = f w.ts (val M0 pre w.addr)

/-- The data read from the memory are the value after some of the writes, at most `h0` of acknowledged writes are missing. -/
def Fresh [DecidableEq A] (M0 : A → D) (h0 : Nat) (y : Sys A T D) (x : In A T D) : Prop :=
  ∀ i, x.r = some i → (out y.1 x).rRdy = true →
    ∃ m, m ≤ y.2.writes.length ∧ y.2.douts.length ≤ m + h0 ∧
      i.data = val M0 (y.2.writes.drop (y.2.writes.length - m)) i.addr

/-- `P` holds in every clock cycle. -/
def Along [DecidableEq A] (f : T → D → D) (P : Sys A T D → In A T D → Prop) : Sys A T D → List (In A T D) → Prop
  | _, [] => True
  | y, x :: xs => P y x ∧ Along f P (sys f y x) xs

/-! ## Lists of items -/

def items (l : List (Option (Item A T D))) : List (Item A T D) := l.filterMap id

theorem items_cons (x : Option (Item A T D)) (l : List (Option (Item A T D))) : items (x :: l) = x.toList ++ items l := by
  cases x <;> simp [items]

theorem items_append (l m : List (Option (Item A T D))) : items (l ++ m) = items l ++ items m := by
  simp [items]

theorem midNext_length (l : List (Option (Item A T D))) (ack : Bool) (i : Option (Item A T D)) :
    (midNext l ack i).length = l.length := by
  induction l generalizing i with
  | nil => rfl
  | cons x xs ih => simp [midNext, ih]

theorem midNext_items (l : List (Option (Item A T D))) (hl : l ≠ []) (ack : Bool) (i : Option (Item A T D)) :
    items (midNext l ack i) ++ (if ack then l.getLast?.join else none).toList
      = (if midRdy l ack then i.toList else []) ++ items l := by
  induction l generalizing i with
  | nil => exact absurd rfl hl
  | cons x xs ih =>
    cases xs with
    | nil => cases x <;> cases ack <;> cases i <;> simp [midNext, midRdy, items]
    | cons z zs =>
      have h := ih (by simp) x
      have e : (x :: z :: zs).getLast? = (z :: zs).getLast? := by simp
      rw [e, midNext, items_cons, items_cons x, List.append_assoc, h]
      cases x with
      | none => simp [midRdy]
      | some k =>
        show _ = (if (Option.isNone (some k) || midRdy (z :: zs) ack) = true then _ else _) ++ _
        generalize midRdy (z :: zs) ack = R
        cases R <;> simp

theorem items_hist (L : List (Item A T D)) (H k : Nat) :
    items ((L.map some ++ List.replicate k none).take H) = L.take H := by
  induction L generalizing H with
  | nil => simp [items, List.take_replicate]
  | cons a L ih =>
    cases H with
    | zero => rfl
    | succ H => simp only [List.map_cons, List.cons_append, List.take_succ_cons, items_cons, ih]; rfl

theorem items_length_le (l : List (Option (Item A T D))) : (items l).length ≤ l.length := List.length_filterMap_le _ _

/-! ## Values -/

section
variable [DecidableEq A]

theorem val_cons (M0 : A → D) (i : Item A T D) (ws : List (Item A T D)) (a : A) :
    val M0 (i :: ws) a = if i.addr = a then i.data else val M0 ws a := by
  unfold val
  rw [List.find?_cons]
  by_cases h : i.addr = a
  · simp [h]
  · have : (i.addr == a) = false := by simp [h]
    simp [h, this]

theorem val_append (M0 : A → D) (l m : List (Item A T D)) (a : A) :
    val M0 (l ++ m) a = (match l.find? (fun i => i.addr == a) with | some i => i.data | none => val M0 m a) := by
  unfold val
  rw [List.find?_append]
  cases l.find? (fun i => i.addr == a) <;> rfl

theorem atomic_nil (f : T → D → D) (M0 : A → D) : Atomic f M0 [] := by
  intro post w pre h; simp at h

theorem atomic_cons {f : T → D → D} {M0 : A → D} {w : Item A T D} {ws : List (Item A T D)}
    (h : Atomic f M0 ws) (hw : w.data = f w.ts (val M0 ws w.addr)) : Atomic f M0 (w :: ws) := by
  intro post w' pre e
  cases post with
  | nil => simp at e; obtain ⟨rfl, rfl⟩ := e; exact hw
  | cons b post => simp at e; exact h post w' pre e.2

theorem atomic_tail {f : T → D → D} {M0 : A → D} {l ws : List (Item A T D)}
    (h : Atomic f M0 (l ++ ws)) : Atomic f M0 ws := by
  intro post w pre e
  exact h (l ++ post) w pre (by rw [e, List.append_assoc])

/-! ## The order of items -/

def keys (l : List (Item A T D)) : List (A × T) := l.map fun i => (i.addr, i.ts)

structure Order (p H : Nat) (y : Sys A T D) : Prop where
  lenM : y.1.mid.length = p
  hist : y.1.hist = (y.2.douts.map some ++ List.replicate H none).take H
  wr : y.2.writes = items y.1.mid ++ y.2.douts
  rd : y.2.reads = keys (y.1.s0.toList ++ y.1.s1.toList ++ y.1.s2.toList ++ y.1.wb.toList) ++ keys y.2.writes

omit [DecidableEq A] in
theorem order_init (p H : Nat) : Order p H (sysInit p H : Sys A T D) := by
  refine ⟨by simp [sysInit, init], ?_, ?_, ?_⟩ <;> simp [sysInit, init, Obs.init, items, keys]

/-- Items for which the new value was computed (the newest first). -/
def comp (y : Sys A T D) : List (Item A T D) := y.1.wb.toList ++ y.2.writes

theorem forward_key (s : St A T D) (i : Item A T D) : ((forward s i).addr, (forward s i).ts) = (i.addr, i.ts) := by
  unfold forward; split <;> rfl

omit [DecidableEq A] in
theorem keys_append (l m : List (Item A T D)) : keys (l ++ m) = keys l ++ keys m := by simp [keys]

theorem keys_map_forward (s : St A T D) (i : Option (Item A T D)) : keys (i.map (forward s)).toList = keys i.toList := by
  cases i with
  | none => rfl
  | some i => simp only [keys, Option.map_some, Option.toList_some, List.map_cons, List.map_nil, forward_key]

theorem order_step (f : T → D → D) {p H : Nat} (hp : 0 < p) {y : Sys A T D} (h : Order p H y) (x : In A T D) :
    Order p H (sys f y x) := by
  obtain ⟨s, o⟩ := y
  obtain ⟨hM, hH, hW, hR⟩ := h
  simp only at hM hH hW hR
  have hne : s.mid ≠ [] := by intro e; rw [e] at hM; simp at hM; omega
  have hit := midNext_items s.mid hne x.ack (if wbOut s x then s.wb else none)
  refine ⟨?_, ?_, ?_, ?_⟩
  · simp only [sys, next, midNext_length, hM]
  · simp only [sys, next, Obs.step, out]
    by_cases ha : (x.ack && (wait s).isSome) = true
    · rw [if_pos ha]
      simp only [Bool.and_eq_true] at ha
      obtain ⟨k, hk⟩ := Option.isSome_iff_exists.mp ha.2
      have hl : s.hist.length = H := by rw [hH]; simp
      rw [if_pos ha.1, hk, hl, hH]
      cases H with
      | zero => simp
      | succ n =>
        simp only [Option.toList_some, List.map_append, List.map_cons, List.map_nil, List.cons_append, List.nil_append,
          List.take_succ_cons, List.take_take]
        congr 2
        omega
    · rw [if_neg ha, hH]
      have : (if x.ack then wait s else none) = none := by
        cases hx : x.ack
        · rfl
        · rw [hx] at ha; simp at ha ⊢; exact ha
      rw [this]; rfl
  · simp only [sys, next, Obs.step, out]
    have e : wait s = s.mid.getLast?.join := rfl
    rw [← List.append_assoc, e, hit, hW, ← List.append_assoc]
    congr 2
    by_cases hb : wbOut s x = true
    · have : midRdy s.mid x.ack = true := by simp [wbOut] at hb; exact hb.1
      simp [this]
    · simp [hb]
  · simp only [sys, next, Obs.step, out]
    rw [hR]
    simp only [keys_append, keys_map_forward]
    have hwb : ∀ i : Option (Item A T D), keys (i.map fun i => { i with data := f i.ts (opIn s i) }).toList = keys i.toList := by
      intro i; cases i <;> rfl
    have hr : (x.r.map fun i => (i.addr, i.ts)).toList = keys x.r.toList := by cases x.r <;> rfl
    rw [hr]
    simp only [rdy0, rdy1, rdy2, wbRdy]
    rcases Bool.eq_false_or_eq_true (wbOut s x) with eW | eW <;> simp only [eW] <;> cases s.wb <;> cases s.s2 <;> cases s.s1 <;>
      cases s.s0 <;> simp [keys]

theorem order_run (f : T → D → D) {p H : Nat} (hp : 0 < p) {y : Sys A T D} (h : Order p H y) (xs : List (In A T D)) :
    Order p H (run f y xs) := by
  induction xs generalizing y with
  | nil => exact h
  | cons x xs ih => exact ih (order_step f hp h x)

/-- Every item received with read data is written exactly once and in the order in which the items were received, dataOut shows exactly
the written items in the same order, at most 4 items wait for the write and at most `p` items for the acknowledge. -/
theorem in_order (f : T → D → D) (p H : Nat) (hp : 0 < p) (xs : List (In A T D)) :
    ∃ w d, (run f (sysInit p H) xs).2.reads = w ++ (run f (sysInit p H) xs).2.writes.map (fun i => (i.addr, i.ts)) ∧ w.length ≤ 4 ∧
      (run f (sysInit p H) xs).2.writes = d ++ (run f (sysInit p H) xs).2.douts ∧ d.length ≤ p := by
  have h := order_run f hp (order_init p H) xs
  refine ⟨_, _, h.rd, ?_, h.wr, ?_⟩
  · generalize (run f (sysInit p H) xs).1 = s
    rcases s with ⟨s0, s1, s2, wb, mid, hist⟩
    cases s0 <;> cases s1 <;> cases s2 <;> cases wb <;> simp [keys]
  · exact Nat.le_trans (items_length_le _) (Nat.le_of_eq h.lenM)

/-! ## No lost update -/

/-- An item with data read after the first `m` writes; with `φ` more acknowledges the missing writes still are in history. -/
def Snap (M0 : A → D) (H : Nat) (y : Sys A T D) (φ : Nat) (i : Item A T D) : Prop :=
  ∃ m, m ≤ (comp y).length ∧ y.2.douts.length + φ ≤ m + H ∧ i.data = val M0 ((comp y).drop ((comp y).length - m)) i.addr

structure Inv (f : T → D → D) (M0 : A → D) (p H : Nat) (y : Sys A T D) : Prop extends Order p H y where
  atom : Atomic f M0 (comp y)
  i2 : ∀ i, y.1.s2 = some i → (∃ j, y.1.wb = some j ∧ j.addr = i.addr) ∨ i.data = val M0 (comp y) i.addr
  i1 : ∀ i, y.1.s1 = some i →
    Snap M0 H y (if y.1.s2.isSome && y.1.wb.isSome then (items y.1.mid).length else 0) i
  i0 : ∀ i, y.1.s0 = some i →
    Snap M0 H y ((items y.1.mid).length + if y.1.s1.isSome && y.1.s2.isSome && y.1.wb.isSome then 1 else 0) i

theorem inv_init (f : T → D → D) (M0 : A → D) (p H : Nat) : Inv f M0 p H (sysInit p H) := by
  refine ⟨order_init p H, ?_, ?_, ?_, ?_⟩
  · exact atomic_nil f M0
  all_goals intro i h; simp [sysInit, init] at h

/-- The forwarding searches the newest of computed items. -/
theorem fwd_eq {p H : Nat} {y : Sys A T D} (h : Order p H y) (a : A) :
    fwd y.1 a = ((comp y).take (y.1.wb.toList.length + (items y.1.mid).length + H)).find? fun i => i.addr == a := by
  unfold fwd
  have e : (y.1.wb :: y.1.mid ++ y.1.hist).filterMap id
      = (comp y).take (y.1.wb.toList.length + (items y.1.mid).length + H) := by
    have e1 : (y.1.wb :: y.1.mid ++ y.1.hist).filterMap id = y.1.wb.toList ++ items y.1.mid ++ items y.1.hist := by
      show items _ = _
      rw [List.cons_append, items_cons, items_append, List.append_assoc]
    rw [e1, h.hist, items_hist, comp, h.wr, ← List.append_assoc]
    have e2 : y.1.wb.toList.length + (items y.1.mid).length = (y.1.wb.toList ++ items y.1.mid).length := by
      rw [List.length_append]
    rw [e2, List.take_length_add_append]
  rw [e]

theorem forward_snap {M0 : A → D} {p H : Nat} {y : Sys A T D} (h : Order p H y) {i : Item A T D} (hs : Snap M0 H y 0 i) :
    (forward y.1 i).data = val M0 (comp y) i.addr := by
  obtain ⟨m, hm, hA, hd⟩ := hs
  have hlen : (comp y).length = y.1.wb.toList.length + (items y.1.mid).length + y.2.douts.length := by
    rw [comp, h.wr]; simp; omega
  unfold forward
  rw [fwd_eq h]
  generalize hn : y.1.wb.toList.length + (items y.1.mid).length + H = n
  have hv := val_append M0 ((comp y).take n) ((comp y).drop n) i.addr
  rw [List.take_append_drop] at hv
  cases hf : ((comp y).take n).find? (fun j => j.addr == i.addr) with
  | some j => rw [hf] at hv; simp only; exact hv.symm
  | none =>
    simp only
    rw [hd]
    -- no match in the first part, thus none in its prefix
    generalize hk : (comp y).length - m = k
    have hkn : k ≤ n := by omega
    have hv' := val_append M0 ((comp y).take k) ((comp y).drop k) i.addr
    rw [List.take_append_drop] at hv'
    have hf' : ((comp y).take k).find? (fun j => j.addr == i.addr) = none := by
      rw [List.find?_eq_none] at hf ⊢
      intro j hj
      have : (comp y).take k = ((comp y).take n).take k := by rw [List.take_take]; congr 1; omega
      rw [this] at hj
      exact hf j (List.mem_of_mem_take hj)
    rw [hf'] at hv'
    exact hv'.symm

theorem forward_cur {M0 : A → D} {p H : Nat} {y : Sys A T D} (h : Order p H y) {i : Item A T D}
    (hd : i.data = val M0 (comp y) i.addr) : (forward y.1 i).data = val M0 (comp y) i.addr := by
  unfold forward
  rw [fwd_eq h]
  generalize y.1.wb.toList.length + (items y.1.mid).length + H = n
  have hv := val_append M0 ((comp y).take n) ((comp y).drop n) i.addr
  rw [List.take_append_drop] at hv
  cases hf : ((comp y).take n).find? (fun j => j.addr == i.addr) with
  | some j => rw [hf] at hv; simp only; exact hv.symm
  | none => exact hd

theorem forward_addr (s : St A T D) (i : Item A T D) : (forward s i).addr = i.addr := by
  unfold forward; split <;> rfl

/-- The newly computed item. -/
def new (f : T → D → D) (s : St A T D) (x : In A T D) : List (Item A T D) :=
  if wbRdy s x then (s.s2.map fun i => { i with data := f i.ts (opIn s i) }).toList else []

theorem comp_step (f : T → D → D) (y : Sys A T D) (x : In A T D) : comp (sys f y x) = new f y.1 x ++ comp y := by
  obtain ⟨s, o⟩ := y
  simp only [comp, sys, next, Obs.step, out, new, wbRdy]
  rcases Bool.eq_false_or_eq_true (wbOut s x) with eW | eW <;> simp only [eW] <;> cases s.wb <;> simp

omit [DecidableEq A] in
theorem drop_last (l c : List (Item A T D)) {m : Nat} (hm : m ≤ c.length) :
    (l ++ c).drop ((l ++ c).length - m) = c.drop (c.length - m) := by
  have e : (l ++ c).length - m = l.length + (c.length - m) := by simp; omega
  rw [e, List.drop_length_add_append]

theorem snap_step (f : T → D → D) {M0 : A → D} {H : Nat} {y : Sys A T D} {φ φ' : Nat} {i : Item A T D} (x : In A T D)
    (h : Snap M0 H y φ i) (hA : (sys f y x).2.douts.length + φ' ≤ y.2.douts.length + φ) : Snap M0 H (sys f y x) φ' i := by
  obtain ⟨m, hm, hB, hd⟩ := h
  refine ⟨m, ?_, by omega, ?_⟩
  · rw [comp_step]; simp; omega
  · rw [hd, comp_step, drop_last _ _ hm]

/-- Acknowledged and unacknowledged writes. -/
theorem acks_step (f : T → D → D) {p H : Nat} (hp : 0 < p) {y : Sys A T D} (h : Order p H y) (x : In A T D) :
    (sys f y x).2.douts.length + (items (sys f y x).1.mid).length
      = y.2.douts.length + (items y.1.mid).length + (if wbOut y.1 x then y.1.wb else none).toList.length := by
  have h' := congrArg List.length (order_step f hp h x).wr
  have h'' := congrArg List.length h.wr
  have e : (sys f y x).2.writes = (if wbOut y.1 x then y.1.wb else none).toList ++ y.2.writes := rfl
  rw [e] at h'
  simp only [List.length_append] at h' h''
  omega

theorem acks_le (f : T → D → D) {p H : Nat} (hp : 0 < p) {y : Sys A T D} (h : Order p H y) (x : In A T D) :
    (sys f y x).2.douts.length ≤ y.2.douts.length + (items y.1.mid).length ∧
    (sys f y x).2.douts.length ≤ y.2.douts.length + 1 := by
  have e : (sys f y x).2.douts = (if x.ack then wait y.1 else none).toList ++ y.2.douts := rfl
  rw [e]
  have hne : y.1.mid ≠ [] := by intro e; have := h.lenM; rw [e] at this; simp at this; omega
  have hit := congrArg List.length (midNext_items y.1.mid hne x.ack none)
  simp only [List.length_append] at hit
  have ew : wait y.1 = y.1.mid.getLast?.join := rfl
  rw [← ew] at hit
  have h0 : (if midRdy y.1.mid x.ack = true then (none : Option (Item A T D)).toList else []).length = 0 := by split <;> rfl
  rw [h0] at hit
  constructor
  · simp only [List.length_append]; omega
  · cases (if x.ack then wait y.1 else none) <;> simp

theorem inv_step (f : T → D → D) {M0 : A → D} {p H h0 : Nat} (hp : 0 < p) (hH : p + 2 + h0 ≤ H) {y : Sys A T D}
    (h : Inv f M0 p H y) {x : In A T D} (hx : Fresh M0 h0 y x) : Inv f M0 p H (sys f y x) := by
  have ho := order_step f hp h.toOrder x
  have hac := acks_step f hp h.toOrder x
  have hle := acks_le f hp h.toOrder x
  refine ⟨ho, ?_, ?_, ?_, ?_⟩
  · rw [comp_step]
    unfold new
    split
    · cases h2 : y.1.s2 with
      | none => exact h.atom
      | some i =>
        refine atomic_cons h.atom ?_
        show f i.ts (opIn y.1 i) = f i.ts (val M0 (comp y) i.addr)
        congr 1
        unfold opIn
        rcases h.i2 i h2 with ⟨j, hj, hja⟩ | hd
        · rw [hj]; simp only [hja, if_true]
          rw [comp, hj]
          show _ = val M0 (j :: _) _
          rw [val_cons, if_pos hja]
        · cases hj : y.1.wb with
          | none => exact hd
          | some j =>
            simp only
            split
            · next hja => rw [comp, hj]; show _ = val M0 (j :: _) _; rw [val_cons, if_pos hja]
            · exact hd
    · exact h.atom
  · intro i hi
    have e2 : (sys f y x).1.s2 = (if rdy2 y.1 x then y.1.s1 else y.1.s2).map (forward y.1) := rfl
    have ewb : (sys f y x).1.wb = if wbRdy y.1 x then y.1.s2.map fun i => { i with data := f i.ts (opIn y.1 i) } else y.1.wb := rfl
    rw [e2] at hi
    obtain ⟨k, hk, rfl⟩ := Option.map_eq_some_iff.mp hi
    rw [forward_addr]
    have key : (forward y.1 k).data = val M0 (comp y) k.addr ∨ (wbRdy y.1 x = false ∧ ∃ j, y.1.wb = some j ∧ j.addr = k.addr) := by
      by_cases hr : rdy2 y.1 x = true
      · rw [if_pos hr] at hk
        left
        refine forward_snap h.toOrder ?_
        obtain ⟨m, a, b, c⟩ := h.i1 k hk
        exact ⟨m, a, by omega, c⟩
      · rw [if_neg hr] at hk
        simp only [rdy2, Bool.or_eq_true, not_or, Bool.not_eq_true] at hr
        rcases h.i2 k hk with hj | hd
        · exact .inr ⟨hr.2, hj⟩
        · exact .inl (forward_cur h.toOrder hd)
    rcases key with hd | ⟨hr, hj⟩
    · rw [comp_step, new, ewb]
      by_cases hr : wbRdy y.1 x = true
      · rw [if_pos hr, if_pos hr]
        cases h2 : y.1.s2 with
        | none => exact .inr hd
        | some q =>
          by_cases ha : q.addr = k.addr
          · exact .inl ⟨_, rfl, ha⟩
          · right
            rw [hd]
            show _ = val M0 (_ :: _) _
            rw [val_cons, if_neg ha]
            rfl
      · rw [if_neg hr, if_neg hr]; right; exact hd
    · left; rw [ewb, hr]; exact hj
  · intro i hi
    have e1 : (sys f y x).1.s1 = if rdy1 y.1 x then y.1.s0 else y.1.s1 := rfl
    rw [e1] at hi
    by_cases hr : rdy1 y.1 x = true
    · rw [if_pos hr] at hi
      refine snap_step f x (h.i0 i hi) ?_
      have e2 : (sys f y x).1.s2.isSome = (if rdy2 y.1 x then y.1.s1 else y.1.s2).isSome := by
        show ((if rdy2 y.1 x then y.1.s1 else y.1.s2).map (forward y.1)).isSome = _
        simp
      have ewb : (sys f y x).1.wb.isSome = (if wbRdy y.1 x then y.1.s2 else y.1.wb).isSome := by
        show (if wbRdy y.1 x then y.1.s2.map _ else y.1.wb).isSome = _
        split <;> simp
      rw [e2, ewb]
      by_cases hw : wbOut y.1 x = true
      · have hb : wbRdy y.1 x = true := by simp [wbRdy, hw]
        have h2 : rdy2 y.1 x = true := by simp [rdy2, hb]
        rw [hb, h2]
        rw [hw] at hac
        simp only [if_true] at hac ⊢
        cases hwb : y.1.wb <;> cases y.1.s1 <;> cases y.1.s2 <;> simp [hwb] at hac ⊢ <;> omega
      · rw [if_neg hw] at hac
        simp at hac
        generalize (if y.1.s1.isSome && y.1.s2.isSome && y.1.wb.isSome then 1 else 0) = q
        have : ∀ b : Bool, (if b = true then (items (sys f y x).1.mid).length else 0) ≤ (items (sys f y x).1.mid).length := by
          intro b; cases b <;> simp
        exact Nat.le_trans (Nat.add_le_add_left (this _) _) (by omega)
    · rw [if_neg hr] at hi
      simp only [rdy1, rdy2, wbRdy, Bool.or_eq_true, not_or, Bool.not_eq_true] at hr
      obtain ⟨_, h2, hb, hw⟩ := hr
      refine snap_step f x (h.i1 i hi) ?_
      have a2 : y.1.s2.isSome = true := by cases h2' : y.1.s2 <;> simp [h2'] at h2 ⊢
      have ab : y.1.wb.isSome = true := by cases h2' : y.1.wb <;> simp [h2'] at hb ⊢
      rw [a2, ab]
      rw [hw] at hac
      simp at hac
      simp only [Bool.and_self, if_true]
      split <;> omega
  · intro i hi
    have e0 : (sys f y x).1.s0 = if rdy0 y.1 x then x.r else y.1.s0 := rfl
    rw [e0] at hi
    by_cases hr : rdy0 y.1 x = true
    · rw [if_pos hr] at hi
      obtain ⟨m, hm, hA, hd⟩ := hx i hi hr
      have hs : Snap M0 H y (p + 2) i := by
        refine ⟨m, ?_, by omega, ?_⟩
        · simp [comp]; omega
        · rw [hd, comp, drop_last _ _ hm]
      refine snap_step f x hs ?_
      have := items_length_le (sys f y x).1.mid
      rw [ho.lenM] at this
      split <;> omega
    · rw [if_neg hr] at hi
      simp only [rdy0, rdy1, rdy2, wbRdy, Bool.or_eq_true, not_or, Bool.not_eq_true] at hr
      obtain ⟨_, h1, h2, hb, hw⟩ := hr
      refine snap_step f x (h.i0 i hi) ?_
      have a1 : y.1.s1.isSome = true := by cases h2' : y.1.s1 <;> simp [h2'] at h1 ⊢
      have a2 : y.1.s2.isSome = true := by cases h2' : y.1.s2 <;> simp [h2'] at h2 ⊢
      have ab : y.1.wb.isSome = true := by cases h2' : y.1.wb <;> simp [h2'] at hb ⊢
      rw [a1, a2, ab]
      rw [hw] at hac
      simp at hac
      simp only [Bool.and_self, if_true]
      split <;> omega

theorem inv_run (f : T → D → D) {M0 : A → D} {p H h0 : Nat} (hp : 0 < p) (hH : p + 2 + h0 ≤ H) {y : Sys A T D}
    (h : Inv f M0 p H y) {xs : List (In A T D)} (hx : Along f (Fresh M0 h0) y xs) : Inv f M0 p H (run f y xs) := by
  induction xs generalizing y with
  | nil => exact h
  | cons x xs ih => exact ih (inv_step f hp hH h hx.1) hx.2

/-- No update is lost if the history has at least `p + 2 + h0` items. -/
theorem atomic_partial (f : T → D → D) (M0 : A → D) (p H h0 : Nat) (hp : 0 < p) (hH : p + 2 + h0 ≤ H) (xs : List (In A T D))
    (hx : Along f (Fresh M0 h0) (sysInit p H) xs) : Atomic f M0 (run f (sysInit p H) xs).2.writes :=
  atomic_tail (inv_run f hp hH (inv_init f M0 p H) hx).atom

/-! ## Examples and the size of history -/

/-- The full claim: no update is lost with the given configuration, for a memory which returns all the writes acknowledged before. -/
def NoLostUpdate (p H : Nat) : Prop :=
  ∀ (f : Unit → Nat → Nat) (M0 : Nat → Nat) (xs : List (In Nat Unit Nat)),
    Along f (Fresh M0 0) (sysInit p H) xs → Atomic f M0 (run f (sysInit p H) xs).2.writes

def rd (a d : Nat) : In Nat Unit Nat := ⟨some ⟨a, (), d⟩, true, true, true⟩
def idle : In Nat Unit Nat := ⟨none, true, true, true⟩

instance decFresh (M0 : Nat → Nat) (h0 : Nat) (y : Sys Nat Unit Nat) (x : In Nat Unit Nat) : Decidable (Fresh M0 h0 y x) :=
  match hx : x.r with
  | none => .isTrue (by intro i h; rw [hx] at h; cases h)
  | some i =>
    if hr : (out y.1 x).rRdy = true then
      if h : (List.range (y.2.writes.length + 1)).any (fun m => decide (y.2.douts.length ≤ m + h0 ∧
          i.data = val M0 (y.2.writes.drop (y.2.writes.length - m)) i.addr)) = true then
        .isTrue (by
          intro j hj _
          rw [hx] at hj
          cases hj
          obtain ⟨m, hm, h'⟩ := List.any_eq_true.mp h
          rw [decide_eq_true_eq] at h'
          exact ⟨m, by rw [List.mem_range] at hm; omega, h'⟩)
      else .isFalse (by
        intro hf
        obtain ⟨m, hm, h'⟩ := hf i hx hr
        exact h (List.any_eq_true.mpr ⟨m, by rw [List.mem_range]; omega, decide_eq_true h'⟩))
    else .isTrue (by intro j _ h; exact absurd h hr)

instance decAlong (f : Unit → Nat → Nat) (P : Sys Nat Unit Nat → In Nat Unit Nat → Prop) [∀ y x, Decidable (P y x)] :
    (y : Sys Nat Unit Nat) → (xs : List (In Nat Unit Nat)) → Decidable (Along f P y xs)
  | _, [] => .isTrue trivial
  | y, x :: xs =>
    have := decAlong f P (sys f y x) xs
    inferInstanceAs (Decidable (_ ∧ _))

/-- Two increments of one counter and an increment of another between. -/
def lost11 : List (In Nat Unit Nat) := [rd 0 0, rd 5 0, idle, idle, idle, rd 0 0, idle, idle, idle, idle]

/-- The default configuration (WRITE_TO_WRITE_ACK_LATENCY=1, WRITE_ACK_TO_READ_DATA_LATENCY=1) loses an update. -/
theorem noLost_default_fails : ¬ NoLostUpdate 1 1 := by
  intro h
  have h1 := h (fun _ d => d + 1) (fun _ => 0) lost11 (by decide +kernel)
  have e : (run (fun _ d => d + 1) (sysInit 1 1) lost11).2.writes = [⟨0, (), 1⟩] ++ ⟨5, (), 1⟩ :: [⟨0, (), 1⟩] := by decide +kernel
  have := h1 [] _ _ e
  revert this
  decide

def lost12 : List (In Nat Unit Nat) :=
  [rd 0 0, rd 4 0, rd 6 0, rd 1 0, rd 5 0, rd 0 0, idle, ⟨none, false, false, true⟩, idle, idle, idle]

/-- The bound of `atomic_partial` can not be lowered. -/
theorem noLost_tight_fails : ¬ NoLostUpdate 1 2 := by
  intro h
  have h1 := h (fun _ d => d + 1) (fun _ => 0) lost12 (by decide +kernel)
  have e : (run (fun _ d => d + 1) (sysInit 1 2) lost12).2.writes
      = [⟨0, (), 1⟩] ++ [⟨5, (), 1⟩, ⟨1, (), 1⟩, ⟨6, (), 1⟩, ⟨4, (), 1⟩, ⟨0, (), 1⟩] := by decide +kernel
  have := h1 [] _ _ e
  revert this
  decide

/-- The full claim for 3 items in history. -/
theorem noLost_13 : NoLostUpdate 1 3 := fun f M0 xs h => atomic_partial f M0 1 3 0 (by omega) (by omega) xs h

example : Along (fun _ d => d + 1) (Fresh (fun _ => 0) 0) (sysInit 1 3) lost12 := by decide +kernel
example : (run (fun _ d => d + 1) (sysInit 1 3) lost12).2.writes.head? = some ⟨0, (), 2⟩ := by decide +kernel
example : (run (fun _ d => d + 1) (sysInit 1 3) (lost12 ++ [idle])).2.douts.map (·.data) = [2, 1, 1, 1, 1, 1] := by decide +kernel

/-! ## Progress -/

/-- A clock cycle in which the memory accepts writes and acknowledges, dataOut is ready, no read data come. -/
def Free (x : In A T D) : Prop := x.r = none ∧ x.awr = true ∧ x.wr = true ∧ x.ack = true

omit [DecidableEq A] in
theorem midRdy_true (l : List (Option (Item A T D))) : midRdy l true = true := by
  induction l with
  | nil => rfl
  | cons x xs ih => simp [midRdy, ih]

omit [DecidableEq A] in
theorem midNext_true (l : List (Option (Item A T D))) (i : Option (Item A T D)) : midNext l true i = (i :: l).take l.length := by
  induction l generalizing i with
  | nil => rfl
  | cons x xs ih => simp [midNext, midRdy_true, ih]

structure Drained (n : Nat) (s : St A T D) : Prop where
  d0 : 1 ≤ n → s.s0 = none
  d1 : 2 ≤ n → s.s1 = none
  d2 : 3 ≤ n → s.s2 = none
  d3 : 4 ≤ n → s.wb = none
  dm : ∀ k, k + 5 ≤ n → s.mid[k]?.join = none

theorem drained_step (f : T → D → D) {n : Nat} {s : St A T D} (h : Drained n s) {x : In A T D} (hx : Free x) :
    Drained (n + 1) (next f s x) := by
  obtain ⟨hr, h1, h2, h3⟩ := hx
  have hw : wbOut s x = true := by simp [wbOut, h1, h2, h3, midRdy_true]
  refine ⟨?_, ?_, ?_, ?_, ?_⟩
  · intro _; simp [next, rdy0, rdy1, rdy2, wbRdy, hw, hr]
  · intro hn; simp [next, rdy1, rdy2, wbRdy, hw]; exact h.d0 (by omega)
  · intro hn; simp [next, rdy2, wbRdy, hw]; exact h.d1 (by omega)
  · intro hn; simp [next, wbRdy, hw]; exact h.d2 (by omega)
  · intro k hk
    simp only [next, h3, hw, midNext_true, if_true]
    rw [List.getElem?_take]
    split
    · cases k with
      | zero => simp; exact h.d3 (by omega)
      | succ k => simp only [List.getElem?_cons_succ]; exact h.dm k (by omega)
    · rfl

theorem drained_run (f : T → D → D) {n : Nat} {y : Sys A T D} (h : Drained n y.1) {xs : List (In A T D)}
    (hx : ∀ x ∈ xs, Free x) : Drained (n + xs.length) (run f y xs).1 := by
  induction xs generalizing n y with
  | nil => exact h
  | cons x xs ih =>
    have := ih (n := n + 1) (y := sys f y x) (drained_step f h (hx x (by simp))) (fun z hz => hx z (by simp [hz]))
    rw [List.length_cons]
    have e : n + (xs.length + 1) = n + 1 + xs.length := by omega
    rw [e]
    exact this

/-- After anything what happened, `p + 4` clock cycles in which nothing blocks finish all the items. -/
theorem finishes (f : T → D → D) (p H : Nat) (hp : 0 < p) (xs ys : List (In A T D)) (hy : ∀ x ∈ ys, Free x) (hl : p + 4 ≤ ys.length) :
    (run f (sysInit p H) (xs ++ ys)).2.douts.map (fun i => (i.addr, i.ts)) = (run f (sysInit p H) (xs ++ ys)).2.reads := by
  have h := order_run f hp (order_init p H) (xs ++ ys)
  have hd : Drained (0 + ys.length) (run f (sysInit p H) (xs ++ ys)).1 := by
    rw [run, List.foldl_append]
    exact drained_run f (y := run f (sysInit p H) xs) ⟨by omega, by omega, by omega, by omega, by omega⟩ hy
  have hm : items (run f (sysInit p H) (xs ++ ys)).1.mid = [] := by
    have hlen := h.lenM
    have hdm := hd.dm
    generalize (run f (sysInit p H) (xs ++ ys)).1.mid = l at *
    unfold items
    rw [List.filterMap_eq_nil_iff]
    intro a ha
    obtain ⟨k, hk, rfl⟩ := List.getElem_of_mem ha
    have := hdm k (by omega)
    rw [List.getElem?_eq_getElem hk] at this
    simpa using this
  have hr := h.rd
  have hw := h.wr
  rw [hm, List.nil_append] at hw
  rw [hd.d0 (by omega), hd.d1 (by omega), hd.d2 (by omega), hd.d3 (by omega), hw] at hr
  rw [hr]
  simp [keys]

example : Free idle ∧ (run (fun _ d => d + 1) (sysInit 1 3) (lost12 ++ List.replicate 5 idle)).2.reads.length = 6 := by
  unfold Free; decide +kernel

/-! ## Valid and ready of the write channels -/

/-- A slave which makes the channel ready in the clock cycle after it saw the valid (AXI4 allows the slave to wait for the valid). -/
def Waits (f : T → D → D) : (lastAw lastW : Bool) → Sys A T D → List (In A T D) → Prop
  | _, _, _, [] => True
  | a, w, y, x :: xs => x.awr = a ∧ x.wr = w ∧
      Waits f (out y.1 x).awVld (out y.1 x).wVld (sys f y x) xs

/-- The full claim: with such a slave something is written at last, once an item was received. -/
def NoDeadlock (p H : Nat) : Prop :=
  ∃ n, ∀ xs : List (In Nat Unit Nat), Waits (fun _ d => d + 1) false false (sysInit p H) xs → n ≤ xs.length →
    (run (fun _ d => d + 1) (sysInit p H) xs).2.reads ≠ [] → (run (fun _ d => d + 1) (sysInit p H) xs).2.writes ≠ []

/-- With such a slave no write is ever done: each of aw.valid, w.valid waits for ready of the other. -/
theorem waits_never (f : T → D → D) (p H : Nat) (xs : List (In A T D)) (h : Waits f false false (sysInit p H) xs) :
    (run f (sysInit p H) xs).2.writes = [] := by
  have key : ∀ (xs : List (In A T D)) (y : Sys A T D), y.2.writes = [] → Waits f false false y xs → (run f y xs).2.writes = [] := by
    intro xs
    induction xs with
    | nil => intro y hy _; exact hy
    | cons x xs ih =>
      intro y hy hw
      obtain ⟨e1, e2, h3⟩ := hw
      refine ih (sys f y x) ?_ ?_
      · simp [sys, Obs.step, out, wbOut, e1, hy]
      · simpa [out, e1, e2] using h3
  exact key xs _ rfl h

def waitIn : In Nat Unit Nat := ⟨some ⟨0, (), 0⟩, false, false, false⟩

theorem noDeadlock_fails (p H : Nat) : ¬ NoDeadlock p H := by
  rintro ⟨n, h⟩
  have hw : ∀ (k : Nat) (y : Sys Nat Unit Nat), Waits (fun _ d => d + 1) false false y (List.replicate k waitIn) := by
    intro k
    induction k with
    | zero => intro y; trivial
    | succ k ih =>
      intro y
      refine ⟨by simp [waitIn], by simp [waitIn], ?_⟩
      have := ih (sys (fun _ d => d + 1) y waitIn)
      simpa [out, waitIn] using this
  have hr : ∀ (k : Nat) (y : Sys Nat Unit Nat), y.2.reads ≠ [] → (run (fun _ d => d + 1) y (List.replicate k waitIn)).2.reads ≠ [] := by
    intro k
    induction k with
    | zero => intro y hy; exact hy
    | succ k ih => intro y hy; exact ih _ (by simp [sys, Obs.step, hy])
  refine h (List.replicate (n + 1) waitIn) (hw _ _) (by simp) ?_ (waits_never _ _ _ _ (hw _ _))
  exact hr n _ (by simp [sys, Obs.step, sysInit, init, out, rdy0, waitIn])

omit [DecidableEq A] in
/-- With a slave which does not wait: see `finishes`. The valid itself waits only for the ready of the other channel and for the room
behind WRITE_BACK. -/
theorem awVld_partial (s : St A T D) (x : In A T D) (h : x.awr = true) (hw : x.wr = true) :
    (out s x).awVld = (out s x).write.isSome ∧ (out s x).wVld = (out s x).write.isSome := by
  simp only [out, wbOut, h, hw, Bool.and_true]
  cases midRdy s.mid x.ack <;> cases s.wb <;> simp

example : Waits (fun _ d => d + 1) false false (sysInit 1 1) [waitIn, waitIn] := by simp [Waits, waitIn, out]

end
end Verif.OooOp
