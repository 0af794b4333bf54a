import Verif.LiteEndpoint
/-!
# Properties C96 - C98 of `AxiLiteEndpoint`
-/
namespace Verif.LiteEndpoint

universe u v
variable {A : Type u} {α : Type v}

private theorem splice {β : Type u} {a x b n y z f : List β} (h1 : a ++ x = b ++ n) (h2 : n ++ y = z ++ f) :
    a ++ (x ++ y) = (b ++ z) ++ f := by
  rw [← List.append_assoc, h1, List.append_assoc, h2, List.append_assoc]

/-- **C96** Reads: each accepted read gets one response, in order, at most one is in progress; the response is OKAY exactly
for addresses in the range of the endpoint. -/
theorem liteEndpoint_reads (d : Dec A) (s0 : St A α) (h0 : IsInit s0) (is : List (In A α)) :
    let tr := (machine d).trace s0 is
    readResps tr <+: (reads tr).map d.inRange ∧ (reads tr).length ≤ (readResps tr).length + 1 := by
  have key : ∀ (is : List (In A α)) (s : St A α),
      given (s.rSt != .idle) (d.inRange s.arAddr) ++ (reads ((machine d).trace s is)).map d.inRange =
        readResps ((machine d).trace s is) ++
          given (((machine d).final s is).rSt != .idle) (d.inRange ((machine d).final s is).arAddr) := by
    intro is
    induction is with
    | nil => intro s; exact List.append_nil _
    | cons i is ih =>
      intro s
      have e : (machine d).trace s (i :: is) = (i, out d s i) :: (machine d).trace (next d s i) is := rfl
      have ef : (machine d).final s (i :: is) = (machine d).final (next d s i) is := rfl
      rw [e, ef]
      have ih := ih (next d s i)
      simp only [reads, readResps, filterMap_cons_ite, List.map_append] at ih ⊢
      refine splice ?_ ih
      show given (s.rSt != .idle) (d.inRange s.arAddr) ++
          List.map d.inRange (given (i.arValid && ((s.rSt == .idle) && !wHs s i)) i.arAddr) =
        given ((s.rSt == .data) && i.rReady) (d.inRange s.arAddr) ++
          given (nextR d s i != .idle) (d.inRange (if i.arValid && (s.rSt == .idle) then i.arAddr else s.arAddr))
      unfold nextR
      cases s.rSt <;> cases i.arValid <;> cases wHs s i <;> cases isBram d i.arAddr <;> cases i.rReady <;> rfl
  have := key is s0
  rw [h0.1] at this
  have e : given ((RSt.idle : RSt) != .idle) (d.inRange s0.arAddr) = [] := rfl
  rw [e, List.nil_append] at this
  refine ⟨⟨_, this.symm⟩, ?_⟩
  have hl := congrArg List.length this
  rw [List.length_map, List.length_append] at hl
  rw [hl]
  cases (((machine d).final s0 is).rSt != .idle) <;> simp

/-- **C96** Writes: the n-th accepted data are written exactly once to the n-th accepted address and confirmed by one
response with the code for the address; at most one write is in progress. -/
theorem liteEndpoint_writes (d : Dec A) (s0 : St A α) (h0 : IsInit s0) (is : List (In A α)) :
    let tr := (machine d).trace s0 is
    (writesDone tr).map (·.2) = wDatas tr ∧ (writesDone tr).map (·.1) <+: awAddrs tr ∧
    writeResps tr <+: (writesDone tr).map (fun w => d.inRange w.1) ∧
    (awAddrs tr).length ≤ (writeResps tr).length + 1 := by
  have key : ∀ (is : List (In A α)) (s : St A α),
      (writesDone ((machine d).trace s is)).map (·.2) = wDatas ((machine d).trace s is) ∧
      given (s.wSt == .data) s.awAddr ++ awAddrs ((machine d).trace s is) =
        (writesDone ((machine d).trace s is)).map (·.1) ++
          given (((machine d).final s is).wSt == .data) ((machine d).final s is).awAddr ∧
      given (s.wSt == .resp) (d.inRange s.awAddr) ++ (writesDone ((machine d).trace s is)).map (fun w => d.inRange w.1) =
        writeResps ((machine d).trace s is) ++
          given (((machine d).final s is).wSt == .resp) (d.inRange ((machine d).final s is).awAddr) := by
    intro is
    induction is with
    | nil => intro s; exact ⟨rfl, List.append_nil _, List.append_nil _⟩
    | cons i is ih =>
      intro s
      have e : (machine d).trace s (i :: is) = (i, out d s i) :: (machine d).trace (next d s i) is := rfl
      have ef : (machine d).final s (i :: is) = (machine d).final (next d s i) is := rfl
      have ed : writesDone ((i, out d s i) :: (machine d).trace (next d s i) is) =
          given (wHs s i) (s.awAddr, i.wData) ++ writesDone ((machine d).trace (next d s i) is) := by
        unfold writesDone
        rw [List.filterMap_cons]
        have hwr : (i, out d s i).2.wr = if wHs s i then some (s.awAddr, i.wData) else none := rfl
        rw [hwr]
        cases wHs s i <;> rfl
      rw [e, ef, ed]
      obtain ⟨a, b, c⟩ := ih (next d s i)
      simp only [wDatas, awAddrs, writeResps, filterMap_cons_ite, List.map_append] at a b c ⊢
      refine ⟨?_, splice ?_ b, splice ?_ c⟩
      · rw [a]; congr 1
        show List.map _ (given (i.wValid && (s.wSt == .data)) _) = given (i.wValid && (s.wSt == .data)) i.wData
        cases i.wValid && (s.wSt == .data) <;> rfl
      · show given (s.wSt == .data) s.awAddr ++ given (i.awValid && (s.wSt == .idle)) i.awAddr =
          List.map _ (given (i.wValid && (s.wSt == .data)) _) ++
            given (nextW s i == .data) (if (s.wSt == .idle) && i.awValid then i.awAddr else s.awAddr)
        unfold nextW
        cases s.wSt <;> cases i.awValid <;> cases i.wValid <;> cases i.bReady <;> rfl
      · show given (s.wSt == .resp) (d.inRange s.awAddr) ++ List.map _ (given (i.wValid && (s.wSt == .data)) _) =
          given ((s.wSt == .resp) && i.bReady) (d.inRange s.awAddr) ++
            given (nextW s i == .resp) (d.inRange (if (s.wSt == .idle) && i.awValid then i.awAddr else s.awAddr))
        unfold nextW
        cases s.wSt <;> cases i.awValid <;> cases i.wValid <;> cases i.bReady <;> rfl
  obtain ⟨a, b, c⟩ := key is s0
  rw [h0.2] at b c
  have e1 : given ((WSt.idle : WSt) == .data) s0.awAddr = [] := rfl
  have e2 : given ((WSt.idle : WSt) == .resp) (d.inRange s0.awAddr) = [] := rfl
  rw [e1, List.nil_append] at b
  rw [e2, List.nil_append] at c
  refine ⟨a, ⟨_, b.symm⟩, ⟨_, c.symm⟩, ?_⟩
  have hb := congrArg List.length b
  have hc := congrArg List.length c
  rw [List.length_append, List.length_map] at hb hc
  have hx : ∀ (w : WSt) (x : Bool) (y : A), (given (w == .resp) x).length + (given (w == .data) y).length ≤ 1 := by
    intro w x y
    cases w
    · exact Nat.zero_le _
    · exact Nat.le_refl _
    · exact Nat.le_refl _
  have := hx ((machine d).final s0 is).wSt (d.inRange ((machine d).final s0 is).awAddr) ((machine d).final s0 is).awAddr
  omega

/-- What the accepted writes make of the contents of the memories. -/
def stored (d : Dec A) (m : Nat → Nat → α) (ws : List (A × α)) : Nat → Nat → α :=
  ws.foldl (fun m w k x => if d.mine k w.1 = true ∧ x = d.sub k w.1 then w.2 else m k x) m

/-- **C96**, memories: each memory contains exactly the data of the accepted writes which belong to it, at the
decoded item and in the order of acceptance, no matter which reads are running. -/
theorem liteEndpoint_mem (d : Dec A) (s0 : St A α) (is : List (In A α)) :
    ((machine d).final s0 is).mem = stored d s0.mem (writesDone ((machine d).trace s0 is)) := by
  induction is generalizing s0 with
  | nil => rfl
  | cons i is ih =>
    have e : (machine d).trace s0 (i :: is) = (i, out d s0 i) :: (machine d).trace (next d s0 i) is := rfl
    rw [Machine.final_cons, ih, e]
    unfold writesDone
    rw [List.filterMap_cons, show (machine d).next s0 i = next d s0 i from rfl]
    have hm : (next d s0 i).mem = fun k x => if pw d s0 i k && x == portAddr d s0 i k then i.wData else s0.mem k x := rfl
    rw [hm]
    cases hw : wHs s0 i
    · have hp : ∀ k, pw d s0 i k = false := by intro k; unfold pw; rw [hw]; rfl
      simp [out, hw, hp]
    · have hp : ∀ k, pw d s0 i k = d.mine k s0.awAddr := by intro k; unfold pw; rw [hw]; rfl
      simp only [out, hw, if_true]
      show stored d _ _ = stored d s0.mem (_ :: _)
      unfold stored
      rw [List.foldl_cons]
      congr 1
      funext k x
      rw [hp]
      cases hk : d.mine k s0.awAddr
      · simp
      · have : portAddr d s0 i k = d.sub k s0.awAddr := by unfold portAddr; rw [hp, hk]; rfl
        simp [this]

/-! ## C97: read data -/

/-- The value given for a read of memory `k` at the response: `e` accepts the read, `mid` contains no response, in `e'`
the response is offered. -/
def IsRead (d : Dec A) (k : Nat) (tr pre : List (In A α × Out A α)) (e : In A α × Out A α)
    (mid : List (In A α × Out A α)) (e' : In A α × Out A α) (post : List (In A α × Out A α)) : Prop :=
  tr = pre ++ e :: (mid ++ e' :: post) ∧ arHs e = true ∧ d.mine k e.1.arAddr = true ∧
  (∀ x ∈ mid, rHs x = false) ∧ e'.2.rValid = true

/-- The state before the `n`-th cycle. -/
def before (d : Dec A) (s0 : St A α) (is : List (In A α)) (n : Nat) : St A α := (machine d).final s0 (is.take n)

/-- Full statement of **C97**: a read of a memory returns a value the addressed item had in a cycle between the request and
the response. -/
def ReadData (A : Type u) (α : Type v) : Prop := ∀ (d : Dec A) (s0 : St A α) (is : List (In A α)) (k : Nat) pre e mid e' post,
  IsInit s0 → k < d.ports → (∀ a j, d.mine j a = true → j = k ∨ d.mine k a = false) →
  (∀ i ∈ is, ∀ a, d.mine k a = true → i.reg a = none) →
  IsRead d k ((machine d).trace s0 is) pre e mid e' post →
  ∃ n, pre.length ≤ n ∧ n ≤ pre.length + 1 + mid.length ∧ e'.2.rData = (before d s0 is n).mem k (d.sub k e.1.arAddr)

/-- One memory with the addresses below 8. -/
def dec1 : Dec Nat := ⟨1, fun k a => k == 0 && decide (a < 8), fun _ a => a, fun a => decide (a < 8)⟩
def s1 : St Nat Nat := ⟨.idle, 0, 0, 0, .idle, 0, fun _ x => 10 + x, fun _ => 0⟩
/-- A read of item 0 and a write of 99 to item 1 which comes one cycle later; the memory gives the old value of the written
item at its output. -/
def racyIs : List (In Nat Nat) :=
  [⟨true, 0, true, true, 1, false, 0, true, fun _ => none, fun _ => 0⟩,
   ⟨false, 0, true, false, 0, true, 99, true, fun _ => none, fun _ => 11⟩,
   ⟨false, 0, true, false, 0, false, 0, true, fun _ => none, fun _ => 0⟩,
   ⟨false, 0, true, false, 0, false, 0, true, fun _ => none, fun _ => 0⟩]

/-- the write of 99 to item 1 -/
example : ((machine dec1).final s1 racyIs).mem 0 1 = 99 ∧ writesDone ((machine dec1).trace s1 racyIs) = [(1, 99)] := by decide

private def tr1 := (machine dec1).trace s1 racyIs

/-- **C97** is false: the read of item 0 returns the value of item 1. -/
theorem liteEndpoint_read_wrong : ¬ ReadData Nat Nat := by
  intro h
  have := h dec1 s1 racyIs 0 [] tr1[0] [tr1[1], tr1[2]] tr1[3] [] ⟨rfl, rfl⟩ (by decide) (by
      intro a j hj
      left
      simp [dec1] at hj
      exact hj.1)
    (by intro i hi a _; simp [racyIs] at hi; rcases hi with rfl | rfl | rfl | rfl <;> rfl)
    ⟨rfl, by decide, by decide, by decide, by decide⟩
  obtain ⟨n, _, h2, h3⟩ := this
  have h2 : n ≤ 3 := h2
  have h4 : ∀ m, m ≤ 3 → (before dec1 s1 racyIs m).mem 0 0 = 10 := by decide
  have h3 : (11 : Nat) = (before dec1 s1 racyIs n).mem 0 0 := h3
  rw [h4 n h2] at h3
  cases h3

private theorem key_data (d : Dec A) (k : Nat) (a : A) (v : α) :
    ∀ (mid : List (In A α × Out A α)) (is : List (In A α)) (s : St A α) (e' : In A α × Out A α)
      (post : List (In A α × Out A α)),
      (machine d).trace s is = mid ++ e' :: post → (∀ x ∈ mid, rHs x = false) → e'.2.rValid = true →
      (∀ x ∈ mid, writesMem d k x = false) →
      s.arAddr = a → s.bramIdx = k → s.dout k = v → s.mem k (d.sub k a) = v →
      (s.rSt = .bramRd ∨ (s.rSt = .data ∧ s.rdata = v)) → e'.1.reg a = none → e'.2.rData = v := by
  intro mid
  induction mid with
  | nil =>
    intro is s e' post he _ hr _ ha _ _ _ hst hreg
    match is, he with
    | i :: is, he =>
      rw [Machine.trace_cons] at he
      have he := (List.cons.inj he).1
      subst he
      have hr : (s.rSt == .data) = true := hr
      rcases hst with h | ⟨_, h⟩
      · rw [h] at hr; cases hr
      · show (i.reg s.arAddr).getD s.rdata = v
        have hreg : i.reg a = none := hreg
        rw [ha, hreg, h]; rfl
  | cons m mid ih =>
    intro is s e' post he hn hr hw ha hk hd hm hst hreg
    match is, he with
    | i :: is, he =>
      rw [Machine.trace_cons] at he
      obtain ⟨h1, h2⟩ := List.cons.inj he
      have hn0 := hn m (List.mem_cons_self ..)
      have hw0 := hw m (List.mem_cons_self ..)
      rw [← h1] at hn0 hw0
      have hn0 : ((s.rSt == .data) && i.rReady) = false := hn0
      have hpw : pw d s i k = false := by
        have hw0 : (match (if wHs s i then some (s.awAddr, i.wData) else none) with
          | some (a, _) => d.mine k a | none => false) = false := hw0
        unfold pw
        cases hh : wHs s i
        · rfl
        · rw [hh] at hw0; simpa using hw0
      have hne : ¬ s.rSt = .idle := by rcases hst with h | ⟨h, _⟩ <;> rw [h] <;> decide
      have hneb : (s.rSt == .idle) = false := by simpa using hne
      refine ih is (next d s i) e' post h2 (fun x hx => hn x (List.mem_cons_of_mem _ hx)) hr
        (fun x hx => hw x (List.mem_cons_of_mem _ hx)) ?_ ?_ ?_ ?_ ?_ hreg
      · show (if (i.arValid && (s.rSt == .idle)) = true then i.arAddr else s.arAddr) = a
        rw [hneb, Bool.and_false]; exact ha
      · show nextIdx d s i = k
        unfold nextIdx
        rw [if_neg hne]; exact hk
      · show (if en d s i k = true then (if pw d s i k = true then i.junk k else s.mem k (portAddr d s i k)) else s.dout k) = v
        rw [hpw]
        unfold portAddr
        rw [hpw]
        split
        · simp only [Bool.false_eq_true, if_false]
          rw [ha]; exact hm
        · exact hd
      · show (if (pw d s i k && (d.sub k a) == portAddr d s i k) = true then i.wData else s.mem k (d.sub k a)) = v
        rw [hpw]; exact hm
      · show nextR d s i = .bramRd ∨ (nextR d s i = .data ∧ s.dout s.bramIdx = v)
        rw [hk]
        unfold nextR
        rcases hst with h | ⟨h, _⟩
        · rw [h]
          cases wHs s i
          · right; exact ⟨rfl, hd⟩
          · left; rfl
        · rw [h] at hn0 ⊢
          cases hrr : i.rReady
          · right; exact ⟨rfl, hd⟩
          · rw [hrr] at hn0; cases hn0

private theorem mem_input (m : Machine (St A α) (In A α) (Out A α)) : ∀ (is : List (In A α)) (s : St A α)
    (e : In A α × Out A α), e ∈ m.trace s is → e.1 ∈ is := by
  intro is
  induction is with
  | nil => intro s e h; cases h
  | cons i is ih =>
    intro s e h
    rw [Machine.trace_cons] at h
    rcases List.mem_cons.1 h with rfl | h
    · exact List.mem_cons_self ..
    · exact List.mem_cons_of_mem _ (ih _ _ h)

/-- **C97**, what holds: the value the item had at the request is returned if the same memory is not written between request
and response; this holds for each cycle in which the response is offered, so the data are stable (**C98**). Missing: reads with a concurrent write to (any item of) the same memory. -/
theorem liteEndpoint_read_partial (d : Dec A) (s0 : St A α) (is : List (In A α)) (k : Nat) (pre mid post) (e e')
    (hk : k < d.ports) (hone : ∀ a j, d.mine j a = true → d.mine k a = true → j = k)
    (hreg : ∀ i ∈ is, ∀ a, d.mine k a = true → i.reg a = none)
    (hr : IsRead d k ((machine d).trace s0 is) pre e mid e' post) (hw : ∀ x ∈ mid, writesMem d k x = false) :
    e'.2.rData = (before d s0 is pre.length).mem k (d.sub k e.1.arAddr) := by
  obtain ⟨he, har, hmine, hno, hyes⟩ := hr
  induction pre generalizing s0 is with
  | nil =>
    match is, he with
    | i :: is, he =>
      rw [Machine.trace_cons] at he
      obtain ⟨h1, h2⟩ := List.cons.inj he
      subst h1
      have hmine : d.mine k i.arAddr = true := hmine
      have har : (i.arValid && ((s0.rSt == .idle) && !wHs s0 i)) = true := har
      simp only [Bool.and_eq_true, Bool.not_eq_true', beq_iff_eq] at har
      obtain ⟨h3, h4, h5⟩ := har
      have hpw : pw d s0 i k = false := by unfold pw; rw [h5]; rfl
      have hb : isBram d i.arAddr = true := by
        unfold isBram
        rw [List.any_eq_true]
        exact ⟨k, List.mem_range.2 hk, hmine⟩
      have hreg' : e'.1.reg i.arAddr = none := by
        have hmem : e'.1 ∈ is := by
          have hm : e' ∈ (machine d).trace ((machine d).next s0 i) is := by rw [h2]; simp
          exact mem_input _ _ _ _ hm
        exact hreg _ (List.mem_cons_of_mem _ hmem) _ hmine
      refine key_data d k i.arAddr _ mid is (next d s0 i) e' post h2 hno hyes hw ?_ ?_ ?_ ?_ ?_ hreg'
      · show (if (i.arValid && (s0.rSt == .idle)) = true then i.arAddr else s0.arAddr) = i.arAddr
        rw [h3, h4]; rfl
      · show nextIdx d s0 i = k
        unfold nextIdx
        rw [if_pos h4]
        cases hf : (List.range d.ports).find? fun k => d.mine k i.arAddr with
        | none =>
          rw [List.find?_eq_none] at hf
          exact absurd hmine (hf k (List.mem_range.2 hk))
        | some j => exact hone i.arAddr j ((by simpa using List.find?_some hf)) hmine
      · show (if en d s0 i k = true then (if pw d s0 i k = true then i.junk k else s0.mem k (portAddr d s0 i k)) else s0.dout k) =
          s0.mem k (d.sub k i.arAddr)
        have : en d s0 i k = true := by unfold en; rw [h3, hmine]; rfl
        rw [this, hpw, portAddr, hpw, h4]; rfl
      · show (if (pw d s0 i k && (d.sub k i.arAddr) == portAddr d s0 i k) = true then i.wData else s0.mem k (d.sub k i.arAddr)) = _
        rw [hpw]; rfl
      · left
        show nextR d s0 i = .bramRd
        unfold nextR
        rw [h4, h3, hb, h5]; rfl
  | cons p pre ih =>
    match is, he with
    | i :: is, he =>
      rw [Machine.trace_cons] at he
      exact ih ((machine d).next s0 i) is (fun i hi => hreg i (List.mem_cons_of_mem _ hi)) (List.cons.inj he).2

/-- The same read with the write of another endpoint word: 10 is returned. -/
example : IsRead dec1 0 ((machine dec1).trace s1 [⟨true, 0, true, true, 9, false, 0, true, fun _ => none, fun _ => 0⟩,
      ⟨false, 0, true, false, 0, true, 99, true, fun _ => none, fun _ => 11⟩,
      ⟨false, 0, true, false, 0, false, 0, true, fun _ => none, fun _ => 0⟩,
      ⟨false, 0, true, false, 0, false, 0, true, fun _ => none, fun _ => 0⟩]) []
    (⟨true, 0, true, true, 9, false, 0, true, fun _ => none, fun _ => 0⟩, ⟨true, false, 0, true, true, false, false, true, none⟩)
    [(⟨false, 0, true, false, 0, true, 99, true, fun _ => none, fun _ => 11⟩, ⟨false, false, 0, true, false, true, false, false, some (9, 99)⟩),
     (⟨false, 0, true, false, 0, false, 0, true, fun _ => none, fun _ => 0⟩, ⟨false, false, 10, true, false, false, true, false, none⟩)]
    (⟨false, 0, true, false, 0, false, 0, true, fun _ => none, fun _ => 0⟩, ⟨false, true, 10, true, true, false, false, false, none⟩) [] := by
  refine ⟨rfl, by decide, by decide, by decide, by decide⟩

/-! ## C98: stable read data -/

/-- Full statement of **C98**: read data do not change while they wait. -/
def Stable (A : Type u) (α : Type v) : Prop := ∀ (d : Dec A) (s0 : St A α) (is : List (In A α)) pre e e' post,
  IsInit s0 → (machine d).trace s0 is = pre ++ e :: e' :: post → e.2.rValid = true → e.1.rReady = false →
    e'.2.rData = e.2.rData

/-- A read of item 0 which waits while item 1 is written. -/
def waitIs : List (In Nat Nat) :=
  [⟨true, 0, false, false, 0, false, 0, true, fun _ => none, fun _ => 0⟩,
   ⟨false, 0, false, true, 1, false, 0, true, fun _ => none, fun _ => 0⟩,
   ⟨false, 0, false, false, 0, true, 99, true, fun _ => none, fun _ => 11⟩,
   ⟨false, 0, false, false, 0, false, 0, true, fun _ => none, fun _ => 0⟩,
   ⟨false, 0, true, false, 0, false, 0, true, fun _ => none, fun _ => 0⟩]

private def tr2 := (machine dec1).trace s1 waitIs

/-- **C98** is false: a write to the memory changes the waiting data. -/
theorem liteEndpoint_unstable : ¬ Stable Nat Nat := by
  intro h
  have := h dec1 s1 waitIs [tr2[0], tr2[1], tr2[2]] tr2[3] tr2[4] [] ⟨rfl, rfl⟩ rfl (by decide) (by decide)
  revert this
  decide

/-- A directly mapped word which changes while the response waits. -/
def regIs : List (In Nat Nat) :=
  [⟨true, 8, false, false, 0, false, 0, true, fun _ => some 1, fun _ => 0⟩,
   ⟨false, 0, false, false, 0, false, 0, true, fun _ => some 2, fun _ => 0⟩,
   ⟨false, 0, true, false, 0, false, 0, true, fun _ => some 3, fun _ => 0⟩]
private def tr3 := (machine dec1).trace s1 regIs

/-- **C98** is false for directly mapped words as well. -/
theorem liteEndpoint_reg_unstable : tr3[1].2.rValid = true ∧ tr3[1].1.rReady = false ∧ tr3[1].2.rData = 2 ∧
    tr3[2].2.rData = 3 := by decide

end Verif.LiteEndpoint
