import Verif.FifoOoo
import Mathlib.Data.List.Induction
/-!
# Properties C82 - C85 of `FifoOutOfOrderRead`, `FifoOutOfOrderReadFiltered`
-/
namespace Verif.FifoOoo

open Fifo (init_inv)

/-- The run from reset. -/
abbrev run (N : Nat) (is : List In) : List (In × Out) := (machine N).trace (init N) is
/-- Outputs after the history `is`. -/
abbrev now (N : Nat) (is : List In) (i : In) : Out := (machine N).outAfter (init N) is i

/-- Number of `write_confirm` handshakes. -/
def writeCnt (tr : List (In × Out)) : Nat := tr.countP fun e => e.1.wvld && e.2.wrd
/-- Number of `read_execute` handshakes. -/
def execCnt (tr : List (In × Out)) : Nat := tr.countP fun e => e.1.xrd && e.2.xvld

private theorem Disciplined.init {N : Nat} {a b : List (In × Out)} (h : Disciplined N (a ++ b)) : Disciplined N a := by
  intro pre e post he k hk
  exact h pre e (post ++ b) (by rw [he]; simp) k hk

private theorem reach {N : Nat} (hN : 0 < N) (is : List In) (hd : Disciplined N (run N is)) :
    Inv N ((machine N).final (init N) is) (fun k => phase k (run N is)) ∧
    ((machine N).final (init N) is).ptr.wr = writeCnt (run N is) % N ∧
    ((machine N).final (init N) is).ptr.rd = execCnt (run N is) % N := by
  induction is using List.reverseRecOn with
  | nil =>
    refine ⟨⟨init_inv hN [] (by simpa using hN) _ _, ?_, ?_, ?_, ?_⟩, ?_, ?_⟩
    · intro k _; simp [init, run, phase]
    · intro k _
      simp [init, run, phase, InWin, Fifo.init]
    · intro k _ h; simp [run, phase] at h
    · intro k _ h; simp [init] at h
    · simp [init, run, writeCnt, Fifo.init]
    · simp [init, run, execCnt, Fifo.init]
  | append_singleton is i ih =>
    have e : run N (is ++ [i]) = run N is ++ [(i, now N is i)] := Machine.trace_snoc _ _ _ _
    rw [e] at hd
    obtain ⟨ih, iw, ir⟩ := ih hd.init
    have hst := step_inv (i := i) ih (by
      intro k hk
      exact hd (run N is) (i, now N is i) [] rfl k hk)
    have hf : (machine N).final (init N) (is ++ [i]) = (machine N).next ((machine N).final (init N) is) i := by
      rw [Machine.final_append]; rfl
    rw [hf, e]
    have hpp := ptr_proto ((machine N).final (init N) is) i
    have e1 : (ptrIn ((machine N).final (init N) is) i).wen
        = (i.wvld && wrd ((machine N).final (init N) is)) := by simp [ptrIn, wrd, Bool.and_assoc]
    have hmod : ∀ a, Ring.inc N (a % N) = (a + 1) % N := by
      intro a
      have hlt := Nat.mod_lt a hN
      unfold Ring.inc
      split
      · rename_i h
        rw [← Nat.mod_add_mod a N 1, h, Nat.mod_self]
      · rw [← Nat.mod_add_mod a N 1, Nat.mod_eq_of_lt (by omega : a % N + 1 < N)]
    refine ⟨?_, ?_, ?_⟩
    · have : (fun k => phase k (run N is ++ [(i, now N is i)]))
          = (fun k => phaseStep k (phase k (run N is)) (i, (machine N).out ((machine N).final (init N) is) i)) := by
        funext k
        show List.foldl _ _ _ = _
        rw [List.foldl_append]; rfl
      rw [this]; exact hst
    · have : writeCnt (run N is ++ [(i, now N is i)])
          = writeCnt (run N is) + (i.wvld && wrd ((machine N).final (init N) is)).toNat := by
        show List.countP _ _ = _
        rw [List.countP_append]
        show _ + List.countP _ [_] = _
        congr 1
      rw [this]
      show (if Fifo.fifoWrite _ _ then Fifo.incPtr N _ else _) = _
      rw [Fifo.fifoWrite_eq hpp, e1, Fifo.incPtr_eq ih.ptr.wr_lt, iw, hmod]
      cases (i.wvld && wrd ((machine N).final (init N) is)) <;> rfl
    · have : execCnt (run N is ++ [(i, now N is i)])
          = execCnt (run N is) + (ptrIn ((machine N).final (init N) is) i).ren.toNat := by
        show List.countP _ _ = _
        rw [List.countP_append]
        show _ + List.countP _ [_] = _
        congr 1
      rw [this]
      show (if Fifo.fifoRead _ _ then Fifo.incPtr N _ else _) = _
      rw [Fifo.fifoRead_eq hpp, Fifo.incPtr_eq ih.ptr.rd_lt, ir, hmod]
      cases (ptrIn ((machine N).final (init N) is) i).ren <;> rfl

/-- **C82** As long as only items being read are confirmed, an item can be written exactly when it is free (never
written or its last read was confirmed), and its read is offered exactly when it is written and not yet read. -/
theorem fifoOoo_no_reuse (N : Nat) (hN : 0 < N) (is : List In) (i : In) (hd : Disciplined N (run N is)) :
    ((now N is i).wrd = true ↔ phase (now N is i).wptr (run N is) = .free) ∧
    ((now N is i).xvld = true ↔ phase (now N is i).xidx (run N is) = .alloc) := by
  obtain ⟨h, -, -⟩ := reach hN is hd
  exact ⟨h.wrd_iff, h.xvld_iff⟩

/-- **C82** Items are written and read out in the cyclic order `0, 1, ..., N-1, 0, ...`, whatever the order of
the confirmations is. -/
theorem fifoOoo_order (N : Nat) (hN : 0 < N) (is : List In) (i : In) (hd : Disciplined N (run N is)) :
    (now N is i).wptr = writeCnt (run N is) % N ∧ (now N is i).xidx = execCnt (run N is) % N := by
  obtain ⟨-, hw, hr⟩ := reach hN is hd
  exact ⟨hw, hr⟩

/-- **C83** An item is locked while it is read, and a locked item is being read or is the next one to be read; the
valid flag is set exactly for items which are not free. -/
theorem fifoOoo_lock (N : Nat) (hN : 0 < N) (is : List In) (i : In) (hd : Disciplined N (run N is)) (k : Nat)
    (hk : k < N) :
    (phase k (run N is) = .reading → (now N is i).lock k = true) ∧
    ((now N is i).lock k = true → phase k (run N is) = .reading ∨
      (phase k (run N is) = .alloc ∧ (now N is i).xidx = k)) ∧
    ((now N is i).valid k = true ↔ phase k (run N is) ≠ .free) := by
  obtain ⟨h, -, -⟩ := reach hN is hd
  exact ⟨h.lock1 k hk, h.lock2 k hk, h.valid k hk⟩

/-- Confirm of item 1 before item 0, reuse of 0 only after its own confirm. -/
example : Disciplined 2 (run 2 [⟨true, false, none⟩, ⟨true, true, none⟩, ⟨true, true, none⟩, ⟨true, true, some 1⟩]) ∧
    phase 0 (run 2 [⟨true, false, none⟩, ⟨true, true, none⟩, ⟨true, true, none⟩, ⟨true, true, some 1⟩]) = .reading ∧
    (now 2 [⟨true, false, none⟩, ⟨true, true, none⟩, ⟨true, true, none⟩, ⟨true, true, some 1⟩]
      ⟨true, true, none⟩).wrd = false := by
  refine ⟨?_, by decide, by decide⟩
  intro pre e post he k hk
  match pre, he with
  | [], he => cases he; cases hk
  | [_], he => cases he; cases hk
  | [_, _], he => cases he; cases hk
  | [_, _, _], he => cases he; cases hk; decide
  | _ :: _ :: _ :: _ :: _, he => simp [run, Machine.trace] at he

/-! ## C84: lookup -/

/-- Full statement of **C84**: the lookup finds the written items with the searched key. -/
def LookupFinds : Prop := ∀ (N : Nat), 0 < N → ∀ (is : List In) (i : In), Disciplined N (run N is) →
  ∀ (cam : Nat → Nat) (key k : Nat), k < N → phase k (run N is) = .alloc → cam k = key →
    preLookup cam key (now N is i) k = true

/-- **C84** is false: an item waiting in the queue is not found, although nothing else is stored. -/
theorem fifoOoo_lookup_misses : ¬ LookupFinds := by
  intro h
  have := h 2 (by decide) [⟨true, false, none⟩, ⟨true, false, none⟩, ⟨false, false, none⟩] ⟨false, false, none⟩ (by
    intro pre e post he k hk
    match pre, he with
    | [], he => cases he; cases hk
    | [_], he => cases he; cases hk
    | [_, _], he => cases he; cases hk
    | _ :: _ :: _ :: _, he => simp [run, Machine.trace] at he) (fun k => 7 * k) 7 1 (by decide) (by decide) rfl
  exact absurd this (by decide)

/-- **C84** The lookup returns only items which can not be updated any more: those being read and the next one. -/
theorem fifoOoo_lookup_locked (N : Nat) (hN : 0 < N) (is : List In) (i : In) (hd : Disciplined N (run N is))
    (cam : Nat → Nat) (key k : Nat) (hk : k < N) (h : preLookup cam key (now N is i) k = true) :
    phase k (run N is) = .reading ∨ (phase k (run N is) = .alloc ∧ (now N is i).xidx = k) := by
  apply (fifoOoo_lock N hN is i hd k hk).2.1
  unfold preLookup at h
  simp only [Bool.and_eq_true] at h
  exact h.2

private theorem lock_stays {N : Nat} (hN : 0 < N) (is js : List In) (k : Nat) (hk : k < N)
    (hd : Disciplined N (run N (is ++ js))) (hn : ∀ j ∈ js, j.conf ≠ some k)
    (hl : ((machine N).final (init N) is).lock k = true) :
    ((machine N).final (init N) (is ++ js)).lock k = true := by
  induction js using List.reverseRecOn with
  | nil => simpa using hl
  | append_singleton js j ih =>
    rw [← List.append_assoc] at hd ⊢
    have e : run N (is ++ js ++ [j]) = run N (is ++ js) ++ [(j, now N (is ++ js) j)] := Machine.trace_snoc _ _ _ _
    rw [e] at hd
    have hl' := ih hd.init (fun x hx => hn x (by simp [hx]))
    obtain ⟨h, -, -⟩ := reach hN (is ++ js) hd.init
    rw [Machine.final_append]
    show nextLock N _ j k = true
    have hne : phase k (run N (is ++ js)) ≠ .free := by
      rcases h.lock2 k hk hl' with q | ⟨q, _⟩ <;> rw [q] <;> simp
    have hv := (h.valid k hk).2 hne
    unfold nextLock
    rw [if_neg (hn j (by simp))]
    have hwe : ¬ (writeEn ((machine N).final (init N) (is ++ js)) j
        && ((machine N).final (init N) (is ++ js)).ptr.wr == k) = true := by
      intro q
      simp only [Bool.and_eq_true, beq_iff_eq] at q
      have h1 := Fifo.fifoWrite_eq (ptr_proto ((machine N).final (init N) (is ++ js)) j)
      have h2 : (ptrIn ((machine N).final (init N) (is ++ js)) j).wen = true := h1 ▸ q.1
      have h3 : wrd ((machine N).final (init N) (is ++ js)) = true := by
        revert h2; simp [ptrIn, wrd]
        intro _ a b; exact ⟨a, b⟩
      have h4 := h.wrd_iff.1 h3
      rw [q.2] at h4
      exact hne h4
    rw [if_neg hwe]
    split
    · exact hv
    · exact hl'

/-- **C84** Consequence for `AxiWriteAggregator`: the result of the lookup is only used for items which are not
locked, so unless the item was confirmed in between no found item is ever a target of a merge. -/
theorem fifoOoo_never_merge (N : Nat) (hN : 0 < N) (is js : List In) (i i' : In)
    (hd : Disciplined N (run N (is ++ js)))
    (cam : Nat → Nat) (key k : Nat) (hk : k < N) (hn : ∀ j ∈ js, j.conf ≠ some k) :
    mergeTargets (preLookup cam key (now N is i)) (now N (is ++ js) i') k = false := by
  unfold mergeTargets
  cases hp : preLookup cam key (now N is i) k
  · rfl
  · unfold preLookup at hp
    simp only [Bool.and_eq_true] at hp
    have := lock_stays hN is js k hk hd hn hp.2
    have h2 : (now N (is ++ js) i').lock k = true := this
    rw [h2]; simp

/-- **C84**, what holds: an item being read is found by its key. Missing: items which wait. -/
theorem fifoOoo_lookup_partial (N : Nat) (hN : 0 < N) (is : List In) (i : In) (hd : Disciplined N (run N is))
    (cam : Nat → Nat) (key k : Nat) (hk : k < N) (hp : phase k (run N is) = .reading) :
    preLookup cam key (now N is i) k = true ↔ cam k = key := by
  obtain ⟨h1, -, h3⟩ := fifoOoo_lock N hN is i hd k hk
  unfold preLookup
  rw [h1 hp, h3.2 (by rw [hp]; simp)]
  simp

/-! ## C85: widths -/

/-- Full statement of **C85**: the index ports have the width of the pointers they are connected to. -/
def WidthsAgree : Prop := ∀ N, 2 ≤ N → indexWidth N = ptrWidth N

private theorem log2ceil_eq {n k : Nat} (hk : 1 ≤ k) (h1 : 2 ^ (k - 1) < n) (h2 : n ≤ 2 ^ k) : log2ceil n = k := by
  unfold log2ceil
  have hp := Nat.two_pow_pos (k - 1)
  rw [if_neg (by omega)]
  have : Nat.log2 (n - 1) = k - 1 := by
    have hk' : 2 ^ k = 2 * 2 ^ (k - 1) := by rw [← Nat.pow_succ']; congr 1; omega
    exact (Nat.log2_eq_iff (by omega)).2 ⟨by omega, by rw [show k - 1 + 1 = k by omega]; omega⟩
  omega

/-- **C85** is false exactly for the sizes `2^k + 1`. -/
theorem fifoOoo_width_partial (N : Nat) (hN : 2 ≤ N) :
    indexWidth N = ptrWidth N ↔ ∀ k, 1 ≤ k → N ≠ 2 ^ k + 1 := by
  unfold indexWidth ptrWidth
  constructor
  · intro h k hk hNk
    have hp := Nat.two_pow_pos (k - 1)
    have hk' : 2 ^ k = 2 * 2 ^ (k - 1) := by rw [← Nat.pow_succ']; congr 1; omega
    have hs : 2 ^ (k + 1) = 2 * 2 ^ k := Nat.pow_succ'
    have a : log2ceil (N - 1) = k := by
      rw [hNk]; simp only [Nat.add_sub_cancel]
      exact log2ceil_eq hk (by omega) (Nat.le_refl _)
    have b : log2ceil N = k + 1 := by
      rw [hNk]
      exact log2ceil_eq (by omega) (by rw [Nat.add_sub_cancel]; omega) (by omega)
    omega
  · intro h
    by_cases h2 : N = 2
    · subst h2; decide
    · have hlt : Nat.log2 (N - 2) = Nat.log2 (N - 1) := by
        have h1 := (Nat.log2_eq_iff (n := N - 2) (by omega)).1 rfl
        refine ((Nat.log2_eq_iff (n := N - 1) (by omega)).2 ⟨by omega, ?_⟩).symm
        have := h (Nat.log2 (N - 2) + 1) (by omega)
        omega
      unfold log2ceil
      rw [if_neg (by omega), if_neg (by omega)]
      rw [show N - 1 - 1 = N - 2 by omega, hlt]

theorem fifoOoo_width_wrong : ¬ WidthsAgree := by
  intro h
  exact absurd (h 5 (by decide)) (by decide)

example : indexWidth 4 = ptrWidth 4 ∧ indexWidth 5 = 2 ∧ ptrWidth 5 = 3 := by decide

end Verif.FifoOoo
