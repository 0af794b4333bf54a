import Verif.RamTrans
/-! Properties of `RamTransactional` (C117 - C119). -/
namespace Verif.RamTrans
universe u v

def st0 : St Nat Nat := ⟨fun a k => 10 * a + k, 0, false, false, 0, false, 0, 0, 0, false, 0, 0, false, false,
  ⟨false, ⟨0, 0, false, false, false⟩⟩, ⟨false, ⟨0, 0, false, false, false⟩⟩⟩
def mem0 : Nat → Nat → Nat := fun a k => 10 * a + k
theorem st0_init : IsInit mem0 st0 := ⟨rfl, rfl, rfl, rfl, rfl, rfl, rfl, rfl, rfl, rfl, rfl⟩

/-- read request, write address (with flush), write data, ready of the three outputs -/
def inp (r : Option (Nat × Nat)) (w : Option (Nat × Bool)) (d : Option Nat) (rr : Bool) (fr : Bool) : In Nat Nat :=
  ⟨r.isSome, (r.getD (0, 0)).1, (r.getD (0, 0)).2, rr, w.isSome, (w.getD (0, false)).1, (w.getD (0, false)).2, d.isSome,
   fun _ => d.getD 0, fr, fr, 0⟩

/-! ### C117 data of writes -/

/-- The data beats which were accepted belong to the accepted addresses, `N` to each of them. -/
def Paired {α ι : Type} (N : Nat) (tr : List (In α ι × Out α ι)) : Prop :=
  (beats tr).length ≤ (wAddrs tr).length * N ∧ (wAddrs tr).length * N < (beats tr).length + N

/-- Full statement of **C117**: `N` data beats are taken for each accepted write and the memory contains what was written. -/
def WritesPaired : Prop := ∀ (α ι : Type) (N : Nat), 0 < N → ∀ (m : Nat → Nat → α) (s0 : St α ι), IsInit m s0 →
  ∀ is : List (In α ι), Paired N ((machine N).trace s0 is)

/-- A read occupies the pipeline, its consumer is not ready and a flush write comes. -/
def stalled : List (In Nat Nat) := [inp (some (5, 1)) none none false true, inp none none none false true,
  inp none none none false true, inp none (some (7, true)) (some 98) false true, inp none (some (7, true)) (some 99) false true]

/-- **C117** is false: the address of a flush write waits until the old item can be read but its data are taken (and written
to the first word of the item) in every cycle. -/
theorem ramtrans_beats_lost : ¬ WritesPaired := by
  intro hp
  exact absurd (hp Nat Nat 2 (by omega) mem0 st0 st0_init stalled).1 (by decide)

/-- The number of beats taken and the first word of the item, the write itself was never accepted. -/
theorem ramtrans_beats_witness : (beats ((machine 2).trace st0 stalled)).length = 2 ∧ wAddrs ((machine 2).trace st0 stalled) = [] ∧
    ((machine 2).final st0 stalled).mem 7 0 = 99 := by decide

/-- **C117** What holds: as long as no write asks for a flush `N` beats are taken for each write and word `k` of the item is
written by the beat `k` of the write (`specMem`). -/
theorem ramtrans_writes_partial {α : Type u} {ι : Type v} (N : Nat) (hN : 0 < N) (m : Nat → Nat → α) (s0 : St α ι) (h0 : IsInit m s0)
    (is : List (In α ι)) (hf : ∀ i ∈ is, (i.wVld && i.wFlush) = false) :
    (beats ((machine N).trace s0 is)).length ≤ (wAddrs ((machine N).trace s0 is)).length * N ∧
    (wAddrs ((machine N).trace s0 is)).length * N < (beats ((machine N).trace s0 is)).length + N ∧
    ((machine N).final s0 is).mem = specMem N m (wAddrs ((machine N).trace s0 is)) (beats ((machine N).trace s0 is)) := by
  obtain ⟨g, Ed, k1, k2, k3, ⟨w1, w2, w3⟩, k5, k6, k7, k8⟩ := run hN m s0 h0 is hf
  refine ⟨?_, ?_, w1⟩
  all_goals
    cases hv : ((machine N).final s0 is).wV
    · have := w2 hv; omega
    · obtain ⟨as', e1, e2⟩ := w3 hv
      have := (k6.w1 hv)
      rw [e1, e2, List.length_append, List.length_singleton, Nat.add_mul]
      omega

/-- two writes at once with pauses and a read -/
def mixed : List (In Nat Nat) := [inp none (some (7, false)) (some 70) true true, inp (some (7, 3)) (some (8, false)) none true true,
  inp none (some (8, false)) (some 71) true true, inp none (some (8, false)) (some 80) true true,
  inp none none (some 81) true true, inp none none none true true]

example : (∀ i ∈ mixed, (i.wVld && i.wFlush) = false) ∧ wAddrs ((machine 2).trace st0 mixed) = [7, 8] ∧
    (beats ((machine 2).trace st0 mixed)).length = 4 ∧ ((machine 2).final st0 mixed).mem 8 1 = 81 := by decide

/-! ### C118 flush -/

/-- Full statement of **C118**: the flush port gives the old contents of the item of each accepted write with flush, word by word
and exactly once, and reads give only data of accepted reads; here for a single write with flush after power-up: once the write is complete and
the memory had time to flush (the last `N + 3` cycles bring no request) the flush port gave the item. -/
def FlushGivesOld : Prop := ∀ (α ι : Type) (N : Nat), 0 < N → ∀ (m : Nat → Nat → α) (s0 : St α ι), IsInit m s0 →
  ∀ (a : Nat) (is js : List (In α ι)), (∀ i ∈ is ++ js, i.rVld = false ∧ i.rReady = true ∧ i.fdReady = true ∧ i.faReady = true ∧
    (i.wVld = true → i.wFlush = true ∧ i.wAddr = a)) → (∀ j ∈ js, j.wVld = false) → js.length = N + 3 →
    wAddrs ((machine N).trace s0 (is ++ js)) = [a] → (beats ((machine N).trace s0 (is ++ js))).length = N →
    flushed ((machine N).trace s0 (is ++ js)) = (List.range N).map (fun k => (m a k, decide (k + 1 = N))) ∧
    delivered ((machine N).trace s0 (is ++ js)) = []

/-- The data of the write come later than its address. -/
def late : List (In Nat Nat) := [inp none (some (7, true)) none true true, inp none (some (7, true)) none true true,
  inp none (some (7, true)) (some 98) true true, inp none none (some 99) true true]
def quiet : List (In Nat Nat) := List.replicate 5 (inp none none none true true)

/-- **C118** is false: the read of the old item does not wait for the data of the write. -/
theorem ramtrans_flush_wrong : ¬ FlushGivesOld := by
  intro hp
  have h := hp Nat Nat 2 (by omega) mem0 st0 st0_init 7 late quiet (by decide) (by decide) rfl (by decide) (by decide)
  exact absurd h.2 (by decide)

/-- What comes instead: the item is flushed twice, the second word of the first flush is given as read data. -/
theorem ramtrans_flush_witness : flushed ((machine 2).trace st0 (late ++ quiet)) = [(70, false), (70, false), (71, true)] ∧
    flushAddrs ((machine 2).trace st0 (late ++ quiet)) = [7, 7] ∧
    delivered ((machine 2).trace st0 (late ++ quiet)) = [(71, 0, true)] := by decide

/-- **C118** What holds: a write with flush into an idle memory whose data come without a pause while the flush port is ready
and no read comes. The flush port gives the address and the `N` old words in order, the last one marked, the memory contains
the new words, nothing appears on the read port and the memory is idle again. -/
theorem ramtrans_flush_partial {α : Type u} {ι : Type v} (N : Nat) (hN : 0 < N) (a : Nat) (s0 : St α ι) (h0 : Idle s0)
    (is : List (In α ι)) (hi : ∀ k i, is[k]? = some i → FlushIn N a k i) (hl : N + 2 ≤ is.length) :
    flushed ((machine N).trace s0 is) = (List.range N).map (fun k => (s0.mem a k, decide (k + 1 = N))) ∧
    flushAddrs ((machine N).trace s0 is) = [a] ∧ delivered ((machine N).trace s0 is) = [] ∧
    wAddrs ((machine N).trace s0 is) = [a] ∧ (beats ((machine N).trace s0 is)).length = N ∧
    (∀ k i, k < N → is[k]? = some i → ((machine N).final s0 is).mem a k = i.dUpd (s0.mem a k)) ∧
    (∀ x y, (x ≠ a ∨ N ≤ y) → ((machine N).final s0 is).mem x y = s0.mem x y) ∧ Idle ((machine N).final s0 is) := by
  obtain ⟨k1, k2, k3, k4, k5, k6, k7⟩ := flush_run hN a s0 h0 is hi
  refine ⟨?_, ?_, k5, ?_, ?_, ?_, ?_, ?_⟩
  · rw [k3, show min N (is.length - 2) = N by omega]
  · rw [k4, decide_eq_true (by omega), given_true]
  · rw [k6, decide_eq_true (by omega), given_true]
  · rw [k7]; omega
  · intro k i hk hi'
    rw [k2, hi']
    simp [hk]
  · intro x y h
    rw [k2]
    split
    · rw [if_neg (by omega)]
    · rfl
  · have e1 : decide (0 < is.length ∧ is.length < N) = false := by simp; omega
    have e2 : decide (0 < is.length ∧ is.length ≤ N) = false := by simp; omega
    have e3 : decide (1 < is.length ∧ is.length ≤ N + 1) = false := by simp; omega
    have e4 : ¬ is.length < N := by omega
    obtain ⟨a1, a2, a3, a4, a5, a6, a7, a8, a9, a10, a11, a12, a13, a14, a15, a16⟩ := k1
    rw [e1] at a1 a2
    rw [e2] at a9 a10
    rw [e3] at a11 a12
    rw [if_neg e4] at a4 a5
    exact ⟨a9, a11, a8, a1, a4, a2, a5, a10, a12⟩

/-- **C118** The memory is idle after power-up. -/
theorem ramtrans_idle_init {α : Type u} {ι : Type v} (m : Nat → Nat → α) (s0 : St α ι) (h0 : IsInit m s0) : Idle s0 := by
  obtain ⟨h1, h2, h3, h4, h5, h6, h7, h8, h9, h10, h11⟩ := h0
  exact ⟨h2, h3, h4, h6, h5, h8, h7, h10, h11⟩

/-- **C118** Without flush the memory is idle again `N + 1` cycles after the last request if the read port is ready and
the current write got all its data. -/
theorem ramtrans_idle_again {α : Type u} {ι : Type v} (N : Nat) (hN : 0 < N) (m : Nat → Nat → α) (s0 : St α ι) (h0 : IsInit m s0)
    (is js : List (In α ι)) (hf : ∀ i ∈ is ++ js, (i.wVld && i.wFlush) = false)
    (hr : ∀ j ∈ js, j.rReady = true ∧ j.rVld = false) (hl : N + 1 ≤ js.length)
    (hw : (beats ((machine N).trace s0 (is ++ js))).length = (wAddrs ((machine N).trace s0 (is ++ js))).length * N) :
    Idle ((machine N).final s0 (is ++ js)) := by
  have hz := left_run hN m s0 h0 is js hf hr
  obtain ⟨g, Ed, k1, k2, k3, ⟨w1, w2, w3⟩, k5, k6, k7, k8⟩ := run hN m s0 h0 (is ++ js) hf
  obtain ⟨a1, a2⟩ := aligned_run hN m s0 h0 (is ++ js) hf
  generalize (machine N).trace s0 (is ++ js) = tr at *
  generalize (machine N).final s0 (is ++ js) = s at *
  have hz : left N s = 0 := by omega
  have hV : s.rV = false := by
    cases h : s.rV
    · rfl
    · simp [left, h] at hz
  have hm0 : s.m0.occ = false := by
    cases h : s.m0.occ
    · rfl
    · simp [left, hV, h] at hz
  have hm1 : s.m1.occ = false := by
    cases h : s.m1.occ
    · rfl
    · simp [left, hV, hm0, h] at hz
  rw [hm0] at a2
  have a2 := a2.symm
  rw [Bool.or_eq_false_iff] at a2
  have hwV : s.wV = false := by
    cases h : s.wV
    · rfl
    · obtain ⟨as', e1, e2⟩ := w3 h
      have := (k6.w1 h)
      rw [hw, e1, List.length_append, List.length_singleton, Nat.add_mul] at e2
      omega
  exact ⟨a2.2, by rw [← a1, hm1], a2.1, hV, k6.r0 hV, hwV, k6.w0 hwV, hm0, hm1⟩

def flush4 : List (In Nat Nat) := [inp none (some (7, true)) (some 90) true true, inp none (some (3, false)) (some 91) true true,
  inp none none (some 92) true true, inp none none (some 93) true true, inp none none none true true, inp none none none true true]

example : (∀ k i, flush4[k]? = some i → FlushIn 4 7 k i) ∧
    flushed ((machine 4).trace st0 flush4) = [(70, false), (71, false), (72, false), (73, true)] ∧
    flushAddrs ((machine 4).trace st0 flush4) = [7] ∧ ((machine 4).final st0 flush4).mem 7 3 = 93 := by
  refine ⟨?_, by decide, by decide, by decide⟩
  intro k i h
  have hk : k < 6 := (List.getElem?_eq_some_iff.1 h).1
  have : k = 0 ∨ k = 1 ∨ k = 2 ∨ k = 3 ∨ k = 4 ∨ k = 5 := by omega
  rcases this with rfl | rfl | rfl | rfl | rfl | rfl <;> (cases h; exact ⟨rfl, rfl, by decide, by decide, by decide, by decide⟩)

example : (∀ i ∈ mixed ++ quiet, (i.wVld && i.wFlush) = false) ∧ (∀ j ∈ quiet, j.rReady = true ∧ j.rVld = false) ∧
    quiet.length = 5 ∧ (beats ((machine 2).trace st0 (mixed ++ quiet))).length = 4 ∧
    (wAddrs ((machine 2).trace st0 (mixed ++ quiet))).length = 2 := by decide

/-! ### C119 reads -/

/-- Writes which are complete: the contents of the memory between two writes. -/
def itemAfter {α : Type u} (N : Nat) (m : Nat → Nat → α) (as : List Nat) (bs : List (α → α)) (n : Nat) (a : Nat) : List α :=
  (List.range N).map fun k => specMem N m (as.take n) (bs.take (n * N)) a k

/-- Full statement of **C119**: reads are atomic, a read of one item (here the only one of the run, without a flush) gives the contents
of the item between two writes. -/
def ReadsAtomic : Prop := ∀ (α ι : Type) (N : Nat), 0 < N → ∀ (m : Nat → Nat → α) (s0 : St α ι), IsInit m s0 →
  ∀ is : List (In α ι), (∀ i ∈ is, (i.wVld && i.wFlush) = false) → ∀ t a id, reads 0 ((machine N).trace s0 is) = [(t, a, id)] →
  (delivered ((machine N).trace s0 is)).length = N →
  ∃ n, (delivered ((machine N).trace s0 is)).map (·.1) =
    itemAfter N m (wAddrs ((machine N).trace s0 is)) (beats ((machine N).trace s0 is)) n a

/-- The read of an item comes between the two data beats of a write of the same item. -/
def torn : List (In Nat Nat) := [inp none (some (7, false)) (some 98) true true, inp (some (7, 3)) none none true true,
  inp none none none true true, inp none none (some 99) true true] ++ quiet

theorem torn_given : delivered ((machine 2).trace st0 torn) = [(98, 3, false), (71, 3, true)] := by decide

/-- **C119** is false: the words of one read come from before and after a write. -/
theorem ramtrans_torn_read : ¬ ReadsAtomic := by
  intro hp
  obtain ⟨n, hn⟩ := hp Nat Nat 2 (by omega) mem0 st0 st0_init torn (by decide) 1 7 3 (by decide) (by decide)
  rw [torn_given] at hn
  have ha : wAddrs ((machine 2).trace st0 torn) = [7] := by decide
  have hb : (beats ((machine 2).trace st0 torn)).length = 2 := by decide
  rcases Nat.eq_zero_or_pos n with h | h
  · subst h; revert hn; decide
  · unfold itemAfter at hn
    rw [List.take_of_length_le (by rw [ha]; exact h), List.take_of_length_le (by omega)] at hn
    revert hn; decide

/-- **C119** What holds without flush: each accepted read gives its `N` words in the order of the requests with its id and the
last word marked, each word is the contents of the memory (`specAt`: all beats until then) at some time between the request and
its delivery; nothing else is given and nothing appears on the flush port. -/
theorem ramtrans_reads_partial {α : Type u} {ι : Type v} (N : Nat) (hN : 0 < N) (m : Nat → Nat → α) (s0 : St α ι) (h0 : IsInit m s0)
    (is : List (In α ι)) (hf : ∀ i ∈ is, (i.wVld && i.wFlush) = false) :
    ∃ given pending, (reads 0 ((machine N).trace s0 is)).flatMap (expand N) = given ++ pending ∧ pending.length ≤ N + 1 ∧
      List.Forall₂ (Served N m ((machine N).trace s0 is)) given (delivered ((machine N).trace s0 is)) ∧
      flushed ((machine N).trace s0 is) = [] ∧ flushAddrs ((machine N).trace s0 is) = [] := by
  obtain ⟨g, Ed, k1, k2, k3, k4, k5, k6, k7, k8⟩ := run hN m s0 h0 is hf
  have hlen := k1.length_eq
  rw [List.length_append] at hlen
  have hq : (qd ((machine N).final s0 is)).length ≤ 2 := by
    unfold qd
    rw [List.length_zipWith]
    refine Nat.le_trans (Nat.min_le_right _ _) ?_
    unfold qm
    cases ((machine N).final s0 is).m0.occ <;> cases ((machine N).final s0 is).m1.occ <;> simp [given]
  have ht : (todo N ((machine N).final s0 is) g).length ≤ N - 1 := by
    unfold todo
    split
    · rename_i h
      have := k6.r1 h
      simp; omega
    · simp
  have hs : Ed = Ed.take (delivered ((machine N).trace s0 is)).length ++ Ed.drop (delivered ((machine N).trace s0 is)).length :=
    (List.take_append_drop _ _).symm
  refine ⟨Ed.take (delivered ((machine N).trace s0 is)).length,
    Ed.drop (delivered ((machine N).trace s0 is)).length ++ todo N ((machine N).final s0 is) g, ?_, ?_, ?_, k7, k8⟩
  · rw [← List.append_assoc, List.take_append_drop, k2]
  · rw [List.length_append, List.length_drop]; omega
  · have := List.forall₂_take (delivered ((machine N).trace s0 is)).length k1
    rwa [List.take_left] at this

/-- **C119** All words are given `N + 1` cycles after the last request if the consumer is ready. -/
theorem ramtrans_reads_complete {α : Type u} {ι : Type v} (N : Nat) (hN : 0 < N) (m : Nat → Nat → α) (s0 : St α ι) (h0 : IsInit m s0)
    (is js : List (In α ι)) (hf : ∀ i ∈ is ++ js, (i.wVld && i.wFlush) = false)
    (hr : ∀ j ∈ js, j.rReady = true ∧ j.rVld = false) (hl : N + 1 ≤ js.length) :
    List.Forall₂ (Served N m ((machine N).trace s0 (is ++ js))) ((reads 0 ((machine N).trace s0 (is ++ js))).flatMap (expand N))
      (delivered ((machine N).trace s0 (is ++ js))) := by
  have hz := left_run hN m s0 h0 is js hf hr
  obtain ⟨g, Ed, k1, k2, k3, k4, k5, k6, k7, k8⟩ := run hN m s0 h0 (is ++ js) hf
  generalize (machine N).trace s0 (is ++ js) = tr at *
  generalize (machine N).final s0 (is ++ js) = s at *
  have hz : left N s = 0 := by omega
  have hV : s.rV = false := by
    cases h : s.rV
    · rfl
    · simp [left, h] at hz
  have hm0 : s.m0.occ = false := by
    cases h : s.m0.occ
    · rfl
    · simp [left, hV, h] at hz
  have hm1 : s.m1.occ = false := by
    cases h : s.m1.occ
    · rfl
    · simp [left, hV, hm0, h] at hz
  have hq : qd s = [] := by simp [qd, qm, hm0, hm1, given]
  have ht : todo N s g = [] := by simp [todo, hV]
  rw [k2, ht, List.append_nil]
  rwa [hq, List.append_nil] at k1

/-- Two reads, each of two words. -/
def reads2 : List (In Nat Nat) := [inp (some (7, 3)) none none true true, inp (some (5, 4)) none none false true,
  inp (some (5, 4)) none none false true, inp (some (5, 4)) none none true true] ++ List.replicate 4 (inp none none none true true)

example : (∀ i ∈ reads2, (i.wVld && i.wFlush) = false) ∧
    delivered ((machine 2).trace st0 reads2) = [(70, 3, false), (71, 3, true), (50, 4, false), (51, 4, true)] := by decide

end Verif.RamTrans
