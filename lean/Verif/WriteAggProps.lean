import Verif.WriteAggStep
import Verif.FifoOooProps
import Mathlib.Data.List.Induction
/-!
# Properties C330-C333 of `AxiWriteAggregator`
-/
namespace Verif.WriteAgg

open FifoOoo (Phase)

variable {α : Type}

theorem MemOk.init {n : Nat} {a b : Tr α} (h : MemOk n (a ++ b)) : MemOk n a := by
  intro pre e post he
  exact h pre e (post ++ b) (by rw [he]; simp)

theorem MasterOk.init {n : Nat} {a b : Tr α} (h : MasterOk n (a ++ b)) : MasterOk n a := by
  intro pre e post he
  exact h pre e (post ++ b) (by rw [he]; simp)

theorem filterMap_snoc {β γ : Type _} (f : β → Option γ) (l : List β) (x : β) :
    (l ++ [x]).filterMap f = l.filterMap f ++ (f x).toList := by
  rw [List.filterMap_append]
  cases h : f x <;> simp [h]

private theorem range_map_snoc {β : Type _} (f f' : Nat → β) (n : Nat) (c : Bool) (v : β) (hf : ∀ k, k < n → f' k = f k)
    (h : c = true → v = f' n) :
    (List.range n).map f ++ (if c then some v else none).toList = (List.range (n + c.toNat)).map f' := by
  have h1 : (List.range n).map f = (List.range n).map f' := by
    apply List.map_congr_left
    intro k hk
    exact (hf k (List.mem_range.1 hk)).symm
  rw [h1]
  cases c
  · simp
  · simp [List.range_succ, h rfl]

theorem words_eq {s : St α} {g : Cfg} (x : In α) : (x.wVld && wRd g s x) = take g s x := by
  unfold wRd take tmpInVld
  cases x.wVld <;> cases (x.awVld || !first g s) <;> cases tmpInRd g s <;> cases (bInRd s || !last g x) <;> rfl

theorem lines_eq {s : St α} {g : Cfg} (x : In α) : (x.awVld && awRd g s x) = (take g s x && first g s) := by
  unfold awRd take tmpInVld
  cases x.wVld <;> cases x.awVld <;> cases first g s <;> cases tmpInRd g s <;> cases (bInRd s || !last g x) <;> rfl

/-- Number of lines of which the first word is among the first `c` ones. -/
def ln (n c : Nat) : Nat := (c + n - 1) / n

private theorem ln_lt {n c j : Nat} (hn : 0 < n) (h : j < ln n c) : j * n < c := by
  unfold ln at h
  have := (Nat.lt_div_iff_mul_lt hn).1 h
  omega

private theorem ln_succ {n c : Nat} (hn : 0 < n) : ln n (c + 1) = ln n c + (c % n == 0).toNat := by
  unfold ln
  have h1 := Nat.div_add_mod c n
  have h2 := Nat.mod_lt c hn
  rw [show c + 1 + n - 1 = c + n by omega, Nat.add_div_right _ hn]
  by_cases h : c % n = 0
  · have : c + n - 1 = n * (c / n) + (n - 1) := by omega
    rw [this, Nat.mul_add_div hn, Nat.div_eq_of_lt (show n - 1 < n by omega)]
    simp [h]
  · have : c + n - 1 = n * (c / n) + n + (c % n - 1) := by omega
    rw [this, ← Nat.mul_succ, Nat.mul_add_div hn, Nat.div_eq_of_lt (show c % n - 1 < n by omega)]
    simp [h]

private theorem ln_eq {n c : Nat} (hn : 0 < n) (h : c % n = 0) : ln n c = c / n := by
  have h3 := ln_succ (c := c) hn
  unfold ln at *
  rw [show c + 1 + n - 1 = c + n by omega, Nat.add_div_right _ hn, h] at h3
  simp at h3
  omega

private theorem range_prefix {a b : Nat} (h : a ≤ b) : List.range a <+: List.range b := by
  have := List.take_prefix a (List.range b)
  rwa [List.take_range, Nat.min_eq_left h] at this

/-- What is known after a run. -/
structure Known (g : Cfg) (tr : Tr α) (s : St α) (key : Nat → Nat) (word : Nat → BW α)
    (rw' : Nat → CumMask.Word α) (ph : Nat → Phase) (p e r b a : Nat) : Prop where
  inv : Inv g key word rw' s ph (words tr).length p e r b a (fun k => mBs k tr)
  words : words tr = (List.range (words tr).length).map word
  lines : (lines tr).map Prod.fst = (List.range (ln g.n (WriteAgg.words tr).length)).map key
  aws : mAws tr = (List.range a).map (fun j => (j % g.M, key j, g.n - 1))
  beats : mWords tr = (List.range b).map (fun q => (rw' q, q % g.n == g.n - 1))

theorem Known.a_le {g : Cfg} {tr : Tr α} {s : St α} {key : Nat → Nat} {word : Nat → BW α}
    {rw' : Nat → CumMask.Word α} {ph : Nat → Phase} {p e r b a : Nat} (h : Known g tr s key word rw' ph p e r b a) :
    a + s.disp.awVld.toNat ≤ p / g.n := by
  have h3 := h.inv.disp.acnt
  have h4 := h.inv.len
  by_cases h0 : s.disp.off = 0
  · rw [if_pos h0] at h3; omega
  · have := h.inv.offe h0
    rw [if_neg h0] at h3; omega

/-- A response of the memory belongs to an item which was taken by the dispatcher. -/
theorem Known.mb {g : Cfg} {tr : Tr α} {s : St α} {key : Nat → Nat} {word : Nat → BW α}
    {rw' : Nat → CumMask.Word α} {ph : Nat → Phase} {p e r b a : Nat} (h : Known g tr s key word rw' ph p e r b a)
    (hM : 0 < g.M) (hn : 0 < g.n) (hw : AxiWDispatch.words g.n = g.n) (k : Nat)
    (h1 : mBs k tr < (((mAws tr).take (complete g.n tr)).map Prod.fst).count k) : k < g.M ∧ mBs k tr < cnt g.M k e := by
  obtain ⟨I, -, -, K3, K4⟩ := h
  have hbr : b ≤ r := by have := I.disp.cnt; omega
  have hre : r = g.n * e + s.disp.off := by have := I.disp.r_eq; rwa [hw] at this
  have hol : s.disp.off < g.n := by have := I.disp.off_le; unfold AxiWDispatch.words at hw; omega
  have hm : complete g.n tr ≤ e := by
    unfold complete
    rw [K4]
    have : b / g.n ≤ e := by
      apply Nat.le_of_lt_succ
      rw [Nat.div_lt_iff_lt_mul hn, Nat.mul_comm, Nat.mul_succ]
      omega
    simp; omega
  have hma : complete g.n tr ≤ a := by
    unfold complete; rw [K3]; simp; omega
  have h2 : (((mAws tr).take (complete g.n tr)).map Prod.fst) = (List.range (complete g.n tr)).map (· % g.M) := by
    rw [K3, ← List.map_take, List.take_range, Nat.min_eq_left hma, List.map_map]; rfl
  rw [h2] at h1
  have h3 : ((List.range (complete g.n tr)).map (· % g.M)).count k = cnt g.M k (complete g.n tr) := by
    rw [List.count, List.countP_map]; rfl
  refine ⟨?_, ?_⟩
  · have : 0 < ((List.range (complete g.n tr)).map (· % g.M)).count k := by omega
    rw [List.count_pos_iff] at this
    obtain ⟨j, -, hj⟩ := List.mem_map.1 this
    rw [← hj]; exact Nat.mod_lt _ hM
  · rw [h3] at h1
    exact Nat.lt_of_lt_of_le h1 (cnt_mono _ _ hm)

theorem reach (g : Cfg) (hM : 0 < g.M) (hn : 0 < g.n) (hw : AxiWDispatch.words g.n = g.n) (s0 : St α) (h0 : IsInit g s0)
    (xs : List (In α)) : MasterOk g.n ((machine g).trace s0 xs) → MemOk g.n ((machine g).trace s0 xs) →
    ∃ key word rw' ph p e r b a,
      Known g ((machine g).trace s0 xs) ((machine g).final s0 xs) key word rw' ph p e r b a := by
  induction xs using List.reverseRecOn with
  | nil =>
    intro _ _
    obtain ⟨i1, i2, i3, i4, i5, i6⟩ := h0
    obtain ⟨d1, d2, d3, d4, d5⟩ := i6
    refine ⟨fun _ => 0, fun _ => s0.tmp.reg.w, fun _ => s0.ram.mem 0, fun _ => .free, 0, 0, 0, 0, 0, ?_, rfl, ?_, rfl, rfl⟩
    · refine ⟨?_, ?_, ?_, ?_, ?_, ?_, ?_, ?_, ?_, ?_, ?_, ?_, ?_, ?_, ?_, i5, ?_, ?_, ?_, ?_⟩
      · simp [i2, words]
      · rw [show (machine g).final s0 [] = s0 from rfl, i4]
        refine ⟨Fifo.init_inv hM [] (by simpa using hM) _ _, ?_, ?_, ?_, ?_⟩
        · intro k _; simp [FifoOoo.init]
        · intro k _; simp [FifoOoo.init, FifoOoo.InWin, Fifo.init]
        · intro k _ h; cases h
        · intro k _ h; simp [FifoOoo.init] at h
      · rw [show (machine g).final s0 [] = s0 from rfl, i4]; simp [FifoOoo.init, Fifo.init]
      · rw [show (machine g).final s0 [] = s0 from rfl, i4]; simp [FifoOoo.init, Fifo.init]
      · rw [show (machine g).final s0 [] = s0 from rfl, i4]; simp [FifoOoo.init, Fifo.init, Fifo.len]
      · simpa using i3
      · intro _; simp [words, i1]
      · simp [words]
      · rw [show (machine g).final s0 [] = s0 from rfl, i2]; simp
      · rw [show (machine g).final s0 [] = s0 from rfl, i2]; simp [words]
      · simp
      · simp [words]
      · intro j _ hj; simp at hj
      · intro j _ hj; omega
      · intro j hj; omega
      · rw [show (machine g).final s0 [] = s0 from rfl, d3]; simp
      · refine ⟨?_, ?_, ?_, ?_, ?_, ?_, ?_, ?_⟩ <;> simp [d1, d2, d3, d4, d5]
      · simp [d2]
      · intro k _; simp [cnt, mBs]
    · simp [lines, words, ln]; omega
  | append_singleton xs x ih =>
    intro hma hme
    rw [Machine.trace_snoc] at hma hme ⊢
    obtain ⟨key, word, rw', ph, p, e, r, b, a, K⟩ := ih hma.init hme.init
    have hal := K.a_le
    have K0 := K
    generalize htr : (machine g).trace s0 xs = tr at *
    have hfin : (machine g).final s0 (xs ++ [x]) = next g ((machine g).final s0 xs) x := by
      rw [Machine.final_append]; rfl
    rw [hfin]
    have hout : (machine g).outAfter s0 xs x = out g ((machine g).final s0 xs) x := rfl
    rw [hout] at hma hme ⊢
    generalize (machine g).final s0 xs = s at *
    obtain ⟨I, K1, K2, K3, K4⟩ := K
    generalize hcl : (words tr).length = c at *
    let key2 : Nat → Nat := if c % g.n = 0 then upd key (c / g.n) x.awKey else key
    let word2 : Nat → BW α := upd word c x.w
    let rw2 : Nat → CumMask.Word α := upd rw' r (s.ram.mem (s.fifo.ptr.rd * g.n + s.disp.off))
    have hk2 : ∀ j, j * g.n < c → key2 j = key j := by
      intro j hj
      show (if c % g.n = 0 then upd key (c / g.n) x.awKey else key) j = _
      split
      · rename_i hz
        rw [upd_ne]
        intro hjc
        rw [hjc, Nat.mul_comm] at hj
        have := Nat.div_add_mod c g.n
        omega
      · rfl
    have hw2 : ∀ q, q < c → word2 q = word q := fun q hq => upd_ne _ _ _ _ (by omega)
    have hr2 : ∀ q, q < r → rw2 q = rw' q := fun q hq => upd_ne _ _ _ _ (by omega)
    have I2 := I.congr hn hw hk2 hw2 hr2
    have hfi : first g s = (c % g.n == 0) := by
      unfold first
      by_cases hn1 : g.n = 1
      · simp [hn1, Nat.mod_one]
      · rw [I.first hn1]; simp [hn1]
    have htk : (x.wVld && wRd g s x) = take g s x := words_eq x
    have hwl : (words (tr ++ [(x, out g s x)])) = words tr ++ (if take g s x then some x.w else none).toList := by
      rw [words, filterMap_snoc, ← words, ← htk]; rfl
    have hwlen : (words (tr ++ [(x, out g s x)])).length = c + (take g s x).toNat := by
      rw [hwl, List.length_append, hcl]
      cases take g s x <;> rfl
    have hbr : b ≤ r := by have := I.disp.cnt; omega
    have hre : r = g.n * e + s.disp.off := by have := I.disp.r_eq; rwa [hw] at this
    have hol : s.disp.off < g.n := by have := I.disp.off_le; unfold AxiWDispatch.words at hw; omega
    have hS := I2.step (x := x) hn hw
      (by
        intro ht
        have hv : x.wVld = true := by rw [← htk] at ht; simp only [Bool.and_eq_true] at ht; exact ht.1
        have := hma tr (x, out g s x) [] rfl hv
        rw [hcl] at this; exact this)
      (by
        intro _ hz
        show (if c % g.n = 0 then upd key (c / g.n) x.awKey else key) (c / g.n) = _
        rw [if_pos hz, upd_same])
      (by intro _; exact upd_same _ _ _)
      (by intro _; exact upd_same _ _ _)
      (by
        intro k hk
        exact K0.mb hM hn hw k (hme tr (x, out g s x) [] rfl k hk))
    refine ⟨key2, word2, rw2,
      fun k => FifoOoo.phaseStep k (ph k) (fifoIn g s x, (FifoOoo.machine g.M).out s.fifo (fifoIn g s x)),
      p + (push s).toNat, e + (exe g s x).toNat, r + (req g s x).toNat, b + (s.disp.rd.valid && x.mWRd).toNat,
      a + (s.disp.awVld && x.mAwRd).toNat, ⟨?_, ?_, ?_, ?_, ?_⟩⟩
    · rw [hwlen]
      have hbs : (fun k => mBs k (tr ++ [(x, out g s x)])) = fun k => mBs k tr + (x.mB == some k).toNat := by
        funext k
        unfold mBs
        rw [List.countP_append, List.countP_singleton]
        cases (x.mB == some k) <;> rfl
      rw [hbs]
      exact hS
    · rw [hwlen, hwl]
      rw [K1]
      exact range_map_snoc _ _ _ _ _ hw2 (fun _ => (upd_same _ _ _).symm)
    · rw [hwlen]
      have h1 : lines (tr ++ [(x, out g s x)]) = lines tr ++
          (if take g s x && c % g.n == 0 then some (x.awKey, x.awId) else none).toList := by
        rw [lines, filterMap_snoc, ← lines, ← hfi, ← lines_eq]; rfl
      rw [h1, List.map_append, K2]
      have h2 : ln g.n (c + (take g s x).toNat) = ln g.n c + (take g s x && c % g.n == 0).toNat := by
        cases take g s x
        · simp
        · simp only [Bool.toNat_true, Bool.true_and]; exact ln_succ hn
      rw [h2]
      rw [← range_map_snoc key key2 _ _ x.awKey (fun j hj => hk2 j (ln_lt hn hj)) ?_]
      · cases (take g s x && c % g.n == 0) <;> rfl
      · intro q
        simp only [Bool.and_eq_true, beq_iff_eq] at q
        rw [ln_eq hn q.2]
        show _ = (if c % g.n = 0 then upd key (c / g.n) x.awKey else key) (c / g.n)
        rw [if_pos q.2, upd_same]
    · have h1 : mAws (tr ++ [(x, out g s x)]) = mAws tr ++
          (if s.disp.awVld && x.mAwRd then some (s.disp.awId, s.disp.awKey, g.n - 1) else none).toList := by
        rw [mAws, filterMap_snoc, ← mAws]; rfl
      have hpc : p ≤ c := by have := I.p_eq; omega
      have hjc : ∀ j, j < p / g.n → j * g.n < c := by
        intro j hj
        have := (Nat.lt_div_iff_mul_lt hn).1 hj
        omega
      rw [h1, K3]
      refine range_map_snoc _ _ _ _ _ ?_ ?_
      · intro j hj
        rw [hk2 j (hjc j (by omega))]
      · intro q
        simp only [Bool.and_eq_true] at q
        have := I2.disp.awv q.1
        simp only [Prod.mk.injEq] at this
        rw [this.1, this.2]
    · have h1 : mWords (tr ++ [(x, out g s x)]) = mWords tr ++
          (if s.disp.rd.valid && x.mWRd then some (s.disp.rd.data, s.disp.rd.last) else none).toList := by
        rw [mWords, filterMap_snoc, ← mWords]; rfl
      rw [h1, K4]
      refine range_map_snoc _ _ _ _ _ ?_ ?_
      · intro j hj
        rw [hr2 j (by omega)]
      · intro q
        simp only [Bool.and_eq_true] at q
        obtain ⟨q1, q2⟩ := I2.disp.rdv q.1
        rw [q1, q2]; unfold AxiWDispatch.lastOf; rw [hw]

/-- **C330** Every accepted line is sent to `m` as exactly one burst, in order of acceptance, with the id of its item, with the
bytes which were written in each of its words, with `last` on the last word; a bounded number of lines is inside. -/
theorem writeAgg_stream (g : Cfg) (hM : 0 < g.M) {k : Nat} (hk : g.n = 2 ^ k) (s0 : St α) (h0 : IsInit g s0) (xs : List (In α))
    (hma : MasterOk g.n ((machine g).trace s0 xs)) (hme : MemOk g.n ((machine g).trace s0 xs)) :
    let tr := (machine g).trace s0 xs
    mAws tr <+: (lines tr).mapIdx (fun j l => (j % g.M, l.1, g.n - 1)) ∧
    (mWords tr).map (fun w => bytesOut w.1) <+: (words tr).map bytesIn ∧
    (mWords tr).map Prod.snd = (List.range (mWords tr).length).map (fun q => q % g.n == g.n - 1) ∧
    (lines tr).length = ((words tr).length + g.n - 1) / g.n ∧
    (words tr).length ≤ (mWords tr).length + (g.M + 1) * g.n + 3 ∧
    (words tr).length / g.n ≤ (mAws tr).length + g.M + 2 := by
  have hn : 0 < g.n := by rw [hk]; exact Nat.two_pow_pos _
  have hw : AxiWDispatch.words g.n = g.n := (AxiWDispatch.wdispatch_burst_partial g.n hn).2 ⟨k, hk⟩
  obtain ⟨key, word, rw', ph, p, e, r, b, a, K⟩ := reach g hM hn hw s0 h0 xs hma hme
  have hal := K.a_le
  obtain ⟨I, K1, K2, K3, K4⟩ := K
  intro tr
  change Inv g key word rw' _ ph (words tr).length p e r b a (fun k => mBs k tr) at I
  have hpe := I.p_eq
  have hocc := Bool.toNat_le (((machine g).final s0 xs).tmp.occ)
  have hlen := I.len
  have hll := I.fifo.ptr.len_le
  have hr := I.disp.r_eq
  rw [hw] at hr
  have hc := I.disp.cnt
  have hac := I.disp.acnt
  have t1 := Bool.toNat_le (((machine g).final s0 xs).disp.rd.valid)
  have t2 := Bool.toNat_le (((machine g).final s0 xs).disp.bk.valid)
  have t3 := Bool.toNat_le (((machine g).final s0 xs).disp.pending)
  have t4 := Bool.toNat_le (((machine g).final s0 xs).disp.awVld)
  have hbr : b ≤ (words tr).length := by have := I.r_le hw; omega
  have hkl : (lines tr).length = ln g.n (words tr).length := by
    have := congrArg List.length K2
    simpa using this
  have ha : a ≤ ln g.n (words tr).length := by
    have h1 : p / g.n ≤ ln g.n (words tr).length := by
      unfold ln; exact Nat.div_le_div_right (by omega)
    omega
  have hmi : (lines tr).mapIdx (fun j l => (j % g.M, l.1, g.n - 1)) =
      (List.range (ln g.n (words tr).length)).map (fun j => (j % g.M, key j, g.n - 1)) := by
    apply List.ext_getElem
    · simp [hkl]
    · intro j h1 h2
      have h3 : j < (lines tr).length := by simpa using h1
      have h4 : ((lines tr).map Prod.fst)[j]? = ((List.range (ln g.n (words tr).length)).map key)[j]? := by
        rw [show (lines tr).map Prod.fst = _ from K2]
      rw [hkl] at h3
      rw [List.getElem?_eq_getElem (by simp [hkl, h3]), List.getElem?_eq_getElem (by simp [h3])] at h4
      simp at h4
      simp [h4]
  refine ⟨?_, ?_, ?_, hkl, ?_, ?_⟩
  · rw [hmi, show mAws tr = _ from K3]
    exact ((range_prefix ha)).map _
  · rw [show mWords tr = _ from K4, show words tr = _ from K1, List.map_map, List.map_map]
    have h1 : (List.range b).map ((fun w : CumMask.Word α × Bool => bytesOut w.1) ∘ fun q => (rw' q, q % g.n == g.n - 1)) =
        (List.range b).map (bytesIn ∘ word) := by
      apply List.map_congr_left
      intro q hq
      exact I.rwok q (by have := List.mem_range.1 hq; omega)
    rw [h1]
    exact (range_prefix hbr).map _
  · rw [show mWords tr = _ from K4]
    simp
  · rw [show mWords tr = _ from K4]
    simp only [List.length_map, List.length_range]
    have h1 := Nat.div_add_mod p g.n
    have h2 := Nat.mod_lt p hn
    have h3 : g.n * (p / g.n) ≤ g.n * (e + g.M) := Nat.mul_le_mul_left _ (by omega)
    rw [Nat.mul_add] at h3
    rw [Nat.add_mul, Nat.mul_comm g.M]
    omega
  · rw [show mAws tr = _ from K3]
    simp only [List.length_map, List.length_range]
    have h3 : (words tr).length / g.n ≤ (p + 1) / g.n := Nat.div_le_div_right (by omega)
    rw [div_succ hn] at h3
    have := Bool.toNat_le (p % g.n == g.n - 1)
    split at hac <;> omega

/-- **C334** An id is not used for two transactions on `m` at once. -/
theorem writeAgg_ids (g : Cfg) (hM : 0 < g.M) {k : Nat} (hk : g.n = 2 ^ k) (s0 : St α) (h0 : IsInit g s0) (xs : List (In α))
    (hma : MasterOk g.n ((machine g).trace s0 xs)) (hme : MemOk g.n ((machine g).trace s0 xs)) :
    let tr := (machine g).trace s0 xs
    ∀ i, ((mAws tr).map Prod.fst).count i ≤ mBs i tr + 1 := by
  have hn : 0 < g.n := by rw [hk]; exact Nat.two_pow_pos _
  have hw : AxiWDispatch.words g.n = g.n := (AxiWDispatch.wdispatch_burst_partial g.n hn).2 ⟨k, hk⟩
  obtain ⟨key, word, rw', ph, p, e, r, b, a, K⟩ := reach g hM hn hw s0 h0 xs hma hme
  obtain ⟨I, -, -, K3, -⟩ := K
  intro tr i
  have h1 : ((mAws tr).map Prod.fst).count i = cnt g.M i a := by
    rw [show mAws tr = _ from K3, List.map_map, List.count, List.countP_map]; rfl
  rw [h1]
  by_cases hi : i < g.M
  · obtain ⟨c1, c2, c3⟩ := I.conf i hi
    have hac := I.disp.acnt
    by_cases h0 : ((machine g).final s0 xs).disp.off = 0
    · rw [if_pos h0] at hac
      have := cnt_mono g.M i (show a ≤ e by omega)
      have c2' : cnt g.M i e ≤ mBs i tr + 1 := c2
      omega
    · rw [if_neg h0] at hac
      have h2 := cnt_mono g.M i (show a ≤ e + 1 by omega)
      rw [cnt_succ] at h2
      have c2' : cnt g.M i e ≤ mBs i tr + 1 := c2
      by_cases hei : e % g.M = i
      · have h3 := I.offe h0
        have h4 := I.len
        have h5 := Fifo.readWait_iff I.fifo.ptr
        have h6 : (!Fifo.readWait ((machine g).final s0 xs).fifo.ptr) = true := by
          cases hrw : Fifo.readWait ((machine g).final s0 xs).fifo.ptr
          · rfl
          · have := h5.1 hrw; omega
        have h7 := I.fifo.xvld_iff.1 h6
        rw [I.rd, hei] at h7
        rw [h7] at c3
        have c3' : ¬ mBs i tr < cnt g.M i e := fun h => by have := c3.2 h; cases this
        have := Bool.toNat_le (e % g.M == i)
        omega
      · have : (e % g.M == i) = false := by simpa using hei
        rw [this] at h2
        simp at h2
        omega
  · have : cnt g.M i a = 0 := by
      unfold cnt
      rw [List.countP_eq_zero]
      intro j _
      have := Nat.mod_lt j hM
      simp; omega
    omega

/-! ## Responses -/

/-- What is known about the responses after a run. -/
private structure RInv (g : Cfg) (tr : Tr α) (s : St α) : Prop where
  first : g.n ≠ 1 → s.wfirst = ((words tr).length % g.n == 0)
  nlines : (lines tr).length = ln g.n (words tr).length
  id : 0 < (words tr).length → ((lines tr).getLast?).map Prod.snd = some s.tmp.reg.id
  resp : resps tr ++ HsReg.bQ s.b = ((lines tr).take ((words tr).length / g.n)).map (fun l => some l.2)

private theorem bQ_step (s : HsReg.BSt Nat) (i : HsReg.In Nat) :
    HsReg.bQ s ++ (if i.vld && (HsReg.bOut s i).rd then some (some i.data) else none).toList =
      (if (HsReg.bOut s i).vld && i.rd then some (HsReg.bOut s i).data else none).toList ++ HsReg.bQ (HsReg.bNext s i) := by
  obtain ⟨o0, o1, p, r0, r1⟩ := s
  obtain ⟨v, d, r⟩ := i
  cases o0 <;> cases o1 <;> cases p <;> cases v <;> cases r <;> rfl

private theorem take_tmp {g : Cfg} {s : St α} {x : In α} (ht : take g s x = true) : (next g s x).tmp.reg = tmpIn g s x := by
  unfold take tmpInRd at ht
  simp only [Bool.and_eq_true] at ht
  show (HsReg.stageNext s.tmp (tmpInVld g s x) (tmpIn g s x) (tmpRd g s)).reg = _
  unfold HsReg.stageNext HsReg.stageWe
  rw [ht.1]
  have h2 := ht.2
  unfold HsReg.stageRd at h2
  cases ho : s.tmp.occ <;> simp_all

private theorem notake_tmp {g : Cfg} {s : St α} {x : In α} (ht : take g s x = false) : (next g s x).tmp.reg = s.tmp.reg := by
  unfold take tmpInRd HsReg.stageRd at ht
  show (HsReg.stageNext s.tmp (tmpInVld g s x) (tmpIn g s x) (tmpRd g s)).reg = _
  unfold HsReg.stageNext HsReg.stageWe
  cases ho : s.tmp.occ <;> cases hv : tmpInVld g s x <;> cases hr : tmpRd g s <;> simp_all

private theorem rreach (g : Cfg) (hn : 0 < g.n) (s0 : St α) (h0 : IsInit g s0)
    (xs : List (In α)) : MasterOk g.n ((machine g).trace s0 xs) →
    RInv g ((machine g).trace s0 xs) ((machine g).final s0 xs) := by
  induction xs using List.reverseRecOn with
  | nil =>
    intro _
    obtain ⟨i1, i2, i3, i4, i5, i6, i7, i8, i9⟩ := h0
    refine ⟨?_, ?_, ?_, ?_⟩
    · intro _; simp [words, i1]
    · show 0 = (0 + g.n - 1) / g.n
      exact (Nat.div_eq_of_lt (by omega)).symm
    · simp [words]
    · show resps [] ++ HsReg.bQ s0.b = _
      unfold HsReg.bQ
      rw [i7, i8]; simp [resps, lines]
  | append_singleton xs x ih =>
    intro hma
    rw [Machine.trace_snoc] at hma ⊢
    obtain ⟨I1, I2, I3, I4⟩ := ih hma.init
    generalize htr : (machine g).trace s0 xs = tr at *
    have hfin : (machine g).final s0 (xs ++ [x]) = next g ((machine g).final s0 xs) x := by
      rw [Machine.final_append]; rfl
    rw [hfin]
    have hout : (machine g).outAfter s0 xs x = out g ((machine g).final s0 xs) x := rfl
    rw [hout] at hma ⊢
    generalize (machine g).final s0 xs = s at *
    generalize hcl : (words tr).length = c at *
    have hfi : first g s = (c % g.n == 0) := by
      unfold first
      by_cases hn1 : g.n = 1
      · simp [hn1, Nat.mod_one]
      · rw [I1 hn1]; simp [hn1]
    have htk : (x.wVld && wRd g s x) = take g s x := words_eq x
    have hwl : (words (tr ++ [(x, out g s x)])) = words tr ++ (if take g s x then some x.w else none).toList := by
      rw [words, filterMap_snoc, ← words, ← htk]; rfl
    have hwlen : (words (tr ++ [(x, out g s x)])).length = c + (take g s x).toNat := by
      rw [hwl, List.length_append, hcl]
      cases take g s x <;> rfl
    have hli : lines (tr ++ [(x, out g s x)]) = lines tr ++
        (if take g s x && c % g.n == 0 then some (x.awKey, x.awId) else none).toList := by
      rw [lines, filterMap_snoc, ← lines, ← hfi, ← lines_eq]; rfl
    have hre : resps (tr ++ [(x, out g s x)]) = resps tr ++
        (if (HsReg.bOut s.b (bIn g s x)).vld && (bIn g s x).rd then some (HsReg.bOut s.b (bIn g s x)).data else none).toList := by
      rw [resps, filterMap_snoc, ← resps]; rfl
    have hlast : take g s x = true → x.wLast = (c % g.n == g.n - 1) := by
      intro ht
      have hv : x.wVld = true := by rw [← htk] at ht; simp only [Bool.and_eq_true] at ht; exact ht.1
      have := hma tr (x, out g s x) [] rfl hv
      rw [hcl] at this; exact this
    have hl2 : take g s x = true → last g x = (c % g.n == g.n - 1) := by
      intro ht
      unfold last
      rw [hlast ht]
      by_cases hn1 : g.n = 1
      · simp [hn1, Nat.mod_one]
      · simp [hn1]
    have hacc : ((bIn g s x).vld && (HsReg.bOut s.b (bIn g s x)).rd) = (take g s x && c % g.n == g.n - 1) := by
      have h1 : ((bIn g s x).vld && (HsReg.bOut s.b (bIn g s x)).rd) = (take g s x && last g x) := by
        show (((x.awVld || !first g s) && x.wVld && tmpInRd g s && last g x) && bInRd s) = _
        unfold take tmpInVld
        cases (x.awVld || !first g s) <;> cases x.wVld <;> cases tmpInRd g s <;> cases last g x <;> cases bInRd s <;> rfl
      rw [h1]
      cases ht : take g s x
      · rfl
      · rw [hl2 ht]
    have hbq := bQ_step s.b (bIn g s x)
    rw [hacc] at hbq
    cases ht : take g s x
    · -- no word accepted
      rw [ht] at hwlen hli hbq
      simp at hwlen hli hbq
      refine ⟨?_, ?_, ?_, ?_⟩
      · intro hn1
        rw [hwlen, ← I1 hn1]
        show (if take g s x then x.wLast else s.wfirst) = _
        rw [ht]; rfl
      · rw [hwlen, hli, I2]
      · rw [hwlen, hli, notake_tmp ht]; exact I3
      · rw [hwlen, hli, ← I4, hre, List.append_assoc, hbq]
        congr 1
        simp only [Bool.and_eq_true]; rfl
    · rw [ht] at hwlen hli hbq
      simp only [Bool.toNat_true, Bool.true_and] at hwlen hli hbq
      have hid : ((lines (tr ++ [(x, out g s x)])).getLast?).map Prod.snd = some (next g s x).tmp.reg.id := by
        rw [take_tmp ht, hli]
        unfold tmpIn
        rw [hfi]
        by_cases hz : c % g.n = 0
        · simp [hz]
        · have hz' : (c % g.n == 0) = false := by simpa using hz
          rw [hz']
          simp only [Bool.false_eq_true, if_false, Option.toList_none, List.append_nil]
          refine I3 ?_
          rcases Nat.eq_zero_or_pos c with z | z
          · rw [z] at hz; simp at hz
          · exact z
      have hnl : (lines (tr ++ [(x, out g s x)])).length = ln g.n (c + 1) := by
        rw [hli, List.length_append, I2, ln_succ hn]
        cases (c % g.n == 0) <;> rfl
      refine ⟨?_, ?_, ?_, ?_⟩
      · intro hn1
        rw [hwlen]
        show (if take g s x then x.wLast else s.wfirst) = _
        rw [ht, if_pos rfl, hlast ht, mod_succ hn]
        by_cases q : c % g.n = g.n - 1
        · simp [q]
        · simp [q]
      · rw [hwlen]; exact hnl
      · intro _; exact hid
      · rw [hwlen, hre, List.append_assoc]
        have hbq2 : (if ((HsReg.bOut s.b (bIn g s x)).vld && (bIn g s x).rd) = true then some (HsReg.bOut s.b (bIn g s x)).data
          else none).toList ++ HsReg.bQ (next g s x).b = HsReg.bQ s.b ++
            (if (c % g.n == g.n - 1) = true then some (some (bIn g s x).data) else none).toList := hbq.symm
        rw [hbq2, ← List.append_assoc, I4]
        have hcn : c / g.n ≤ (lines tr).length := by
          rw [I2]; unfold ln; exact Nat.div_le_div_right (by omega)
        have htk0 : (lines (tr ++ [(x, out g s x)])).take (c / g.n) = (lines tr).take (c / g.n) := by
          rw [hli, List.take_append_of_le_length hcn]
        rw [div_succ hn]
        by_cases q : c % g.n = g.n - 1
        · have q' : (c % g.n == g.n - 1) = true := by simpa using q
          rw [q']
          simp only [Bool.toNat_true, if_true, Option.toList_some]
          -- the line `c / n` is the last one
          have hl1 : (lines (tr ++ [(x, out g s x)])).length = c / g.n + 1 := by
            rw [hnl]; unfold ln
            have := div_succ (p := c) hn
            rw [q'] at this
            have h3 := Nat.div_add_mod c g.n
            rw [show c + 1 + g.n - 1 = g.n * (c / g.n + 1) + (g.n - 1) by rw [Nat.mul_add]; omega, Nat.mul_add_div hn,
              Nat.div_eq_of_lt (show g.n - 1 < g.n by omega)]
          have hdat : (bIn g s x).data = (next g s x).tmp.reg.id := by
            rw [take_tmp ht]
            show (if g.n = 1 then x.awId else s.tmp.reg.id) = _
            unfold tmpIn
            rw [hfi]
            by_cases hn1 : g.n = 1
            · simp [hn1, Nat.mod_one]
            · have : (c % g.n == 0) = false := by rw [q]; simp; omega
              rw [if_neg hn1, this]; rfl
          rw [List.take_of_length_le (by omega : _ ≤ c / g.n + 1)]
          have hs : lines (tr ++ [(x, out g s x)]) = (lines (tr ++ [(x, out g s x)])).take (c / g.n) ++
              (lines (tr ++ [(x, out g s x)])).drop (c / g.n) := (List.take_append_drop _ _).symm
          have hd : ((lines (tr ++ [(x, out g s x)])).drop (c / g.n)).map (fun l => some l.2) = [some (bIn g s x).data] := by
            have h5 : ((lines (tr ++ [(x, out g s x)])).drop (c / g.n)).length = 1 := by rw [List.length_drop, hl1]; omega
            obtain ⟨l, hl⟩ := List.length_eq_one_iff.1 h5
            rw [hl] at hs
            rw [hs] at hid
            simp at hid
            rw [hl, hdat]
            simp [hid]
          conv_rhs => rw [hs, List.map_append, hd, htk0]
        · have q' : (c % g.n == g.n - 1) = false := by simpa using q
          rw [q']
          simp [htk0]

/-- **C331** The responses on `s` have the ids of the lines in order, each comes only after all words of its line were accepted and
at most 2 lines wait for it. -/
theorem writeAgg_responses (g : Cfg) (hn : 0 < g.n) (s0 : St α) (h0 : IsInit g s0) (xs : List (In α))
    (hma : MasterOk g.n ((machine g).trace s0 xs)) :
    let tr := (machine g).trace s0 xs
    resps tr <+: (lines tr).map (fun l => some l.2) ∧
    (resps tr).length ≤ (words tr).length / g.n ∧ (words tr).length / g.n ≤ (resps tr).length + 2 := by
  intro tr
  obtain ⟨I1, I2, I3, I4⟩ := rreach g hn s0 h0 xs hma
  have h1 := HsReg.bQ_length ((machine g).final s0 xs).b
  have h2 := congrArg List.length I4
  have hcn : (words tr).length / g.n ≤ (lines tr).length := by
    rw [show (lines tr).length = _ from I2]; unfold ln
    exact Nat.div_le_div_right (show (words tr).length ≤ (words tr).length + g.n - 1 by omega)
  rw [List.length_append, List.length_map, List.length_take, Nat.min_eq_left hcn] at h2
  have h2' : (resps tr).length + (HsReg.bQ ((machine g).final s0 xs).b).length = (words tr).length / g.n := h2
  refine ⟨?_, by omega, by omega⟩
  have h3 : resps tr <+: ((lines tr).take ((words tr).length / g.n)).map (fun l => some l.2) := ⟨_, I4⟩
  exact h3.trans ((List.take_prefix _ _).map _)

/-! ## Merging -/

/-- Full statement of **C332**: a line which is written twice while the first write waits (nothing was sent on `m` yet) is sent
only once. -/
def Merges (g : Cfg) : Prop := ∀ (s0 : St Nat), IsInit g s0 → ∀ xs ys : List (In Nat),
  MasterOk g.n ((machine g).trace s0 (xs ++ ys)) → MemOk g.n ((machine g).trace s0 (xs ++ ys)) →
  (∀ x ∈ xs, x.mAwRd = false ∧ x.mWRd = false) → (∀ y ∈ ys, y.awVld = false) →
  (∀ l ∈ lines ((machine g).trace s0 xs), ∀ l' ∈ lines ((machine g).trace s0 xs), l.1 = l'.1) →
  (mAws ((machine g).trace s0 (xs ++ ys))).length ≤ 1

/-- Full statement of **C333**: while a transaction of a line is on its way to the memory no other one of the same line is
started. -/
def OneInFlight (g : Cfg) : Prop := ∀ (s0 : St Nat), IsInit g s0 → ∀ xs : List (In Nat),
  MasterOk g.n ((machine g).trace s0 xs) → MemOk g.n ((machine g).trace s0 xs) →
  ∀ pre e post, (machine g).trace s0 xs = pre ++ e :: post → (e.2.mAwVld && e.1.mAwRd) = true →
  ∀ j t, (mAws pre)[j]? = some t → t.2.1 = e.2.mAwKey →
    (((mAws pre).take (j + 1)).map Prod.fst).count t.1 ≤ mBs t.1 pre

/-- A configuration with `2 ^ m` items, 1 word per line. -/
def g1 : Cfg := ⟨2, 1, 1⟩
def z : BW Nat := ⟨fun _ => 0, fun _ => true⟩
def st0 : St Nat where
  wfirst := true
  tmp := ⟨false, ⟨0, 0, z, false, fun _ => false, false⟩⟩
  prev := fun _ => true
  off := 0
  fifo := FifoOoo.init 2
  cam := fun _ => 0
  ram := ⟨fun _ => ⟨fun _ => 0, fun _ => false⟩, false, fun _ => ⟨fun _ => 0, fun _ => false⟩⟩
  disp := ⟨false, 0, 0, 0, false, false, ⟨false, ⟨fun _ => 0, fun _ => false⟩, false⟩, ⟨false, ⟨fun _ => 0, fun _ => false⟩, false⟩⟩
  b := HsReg.bInit none 0 0

theorem st0_init : IsInit g1 st0 := by
  refine ⟨rfl, rfl, rfl, rfl, rfl, ⟨rfl, rfl, rfl, rfl, rfl⟩, rfl, rfl, rfl⟩

/-- A write of the line 5; `m` ready or not. -/
def wr (v id d : Nat) (rdy : Bool) : In Nat :=
  ⟨v == 1, 5, id, v == 1, ⟨fun _ => d, fun _ => true⟩, true, true, rdy, rdy, none⟩

private def blocked : List (In Nat) := [wr 1 0 7 false, wr 1 1 8 false, wr 0 0 0 false, wr 0 0 0 false]
private def drain : List (In Nat) := List.replicate 8 (wr 0 0 0 true)

private theorem mem_fst {S I O : Type} (m : Machine S I O) (xs : List I) : ∀ s, ∀ e ∈ m.trace s xs, e.1 ∈ xs := by
  induction xs with
  | nil => intro s e h; cases h
  | cons i is ih =>
    intro s e h
    rw [Machine.trace_cons, List.mem_cons] at h
    rcases h with h | h
    · rw [h]; exact List.mem_cons_self
    · exact List.mem_cons_of_mem _ (ih _ e h)

private theorem ok1 (xs : List (In Nat)) (h : ∀ x ∈ xs, x.wLast = true ∧ x.mB = none) :
    MasterOk g1.n ((machine g1).trace st0 xs) ∧ MemOk g1.n ((machine g1).trace st0 xs) := by
  refine ⟨?_, ?_⟩
  · intro pre e post he _
    have := mem_fst (machine g1) xs st0 e (by rw [he]; simp)
    rw [(h _ this).1]
    show true = (_ % 1 == 0)
    simp [Nat.mod_one]
  · intro pre e post he k hk
    have := mem_fst (machine g1) xs st0 e (by rw [he]; simp)
    rw [(h _ this).2] at hk
    cases hk

private theorem bd_ok : ∀ x ∈ blocked ++ drain, x.wLast = true ∧ x.mB = none := by
  decide +kernel

/-- **C332** fails: the second write of the line is not merged although the first one waits. -/
theorem writeAgg_not_merged : ¬ Merges g1 := by
  intro h
  obtain ⟨h1, h2⟩ := ok1 _ bd_ok
  have := h st0 st0_init blocked drain h1 h2
    (by decide +kernel) (by decide +kernel) (by decide +kernel)
  exact absurd this (by decide +kernel)

/-- **C333** fails: the second transaction of the line is started although the first one has no response. -/
theorem writeAgg_two_in_flight : ¬ OneInFlight g1 := by
  intro h
  obtain ⟨h1, h2⟩ := ok1 _ bd_ok
  let w := wr 0 0 0 true
  have := h st0 st0_init (blocked ++ drain) h1 h2 ((machine g1).trace st0 (blocked ++ [w, w]))
    (w, out g1 ((machine g1).final st0 (blocked ++ [w, w])) w) _
    (by rw [show blocked ++ drain = (blocked ++ [w, w]) ++ w :: List.replicate 5 w from rfl, Machine.trace_append]; rfl)
    (by decide +kernel) 0 (0, 5, 0) (by decide +kernel) (by decide +kernel)
  exact absurd this (by decide +kernel)

/-! ## Non-vacuity -/

/-- Two writes of one line pass with two words per line; all hypotheses are met and everything is delivered. -/
private def g2 : Cfg := ⟨2, 2, 1⟩
private def w2 (key id d : Nat) (l : Bool) : In Nat :=
  ⟨!l, key, id, true, ⟨fun _ => d, fun _ => true⟩, l, true, true, true, none⟩
private def i2 (mb : Option Nat) : In Nat := ⟨false, 0, 0, false, z, false, true, true, true, mb⟩
private def run2 : List (In Nat) := [w2 5 0 1 false, w2 0 0 2 true, w2 6 1 3 false, w2 0 0 4 true] ++ List.replicate 8 (i2 none) ++
  [i2 (some 0), i2 (some 1)]

def okMem (n : Nat) (pre : Tr Nat) : Option Nat → Bool
  | none => true
  | some i => decide (mBs i pre < (((mAws pre).take (complete n pre)).map Prod.fst).count i)
def okAt (n : Nat) (pre : Tr Nat) (e : In Nat × Out Nat) : Bool :=
  (!e.1.wVld || e.1.wLast == ((words pre).length % n == n - 1)) && okMem n pre e.1.mB
/-- `MasterOk`, `MemOk` decided over the prefixes. -/
def okAll (n : Nat) (tr : Tr Nat) : Bool :=
  (List.range tr.length).all fun k => (tr[k]?).all (okAt n (tr.take k))

theorem okAll_sound {n : Nat} {tr : Tr Nat} (h : okAll n tr = true) : MasterOk n tr ∧ MemOk n tr := by
  unfold okAll at h
  rw [List.all_eq_true] at h
  have key : ∀ pre e post, tr = pre ++ e :: post → okAt n pre e = true := by
    intro pre e post he
    have := h pre.length (by rw [List.mem_range, he]; simp)
    rw [he] at this
    simpa using this
  refine ⟨?_, ?_⟩
  · intro pre e post he hv
    have := key pre e post he
    unfold okAt at this
    rw [hv] at this
    simp only [Bool.and_eq_true, Bool.not_true, Bool.false_or, beq_iff_eq] at this
    exact this.1
  · intro pre e post he k hk
    have := key pre e post he
    unfold okAt okMem at this
    rw [hk] at this
    simp only [Bool.and_eq_true, decide_eq_true_eq] at this
    exact this.2

example : IsInit g2 st0 ∧ MasterOk g2.n ((machine g2).trace st0 run2) ∧
    MemOk g2.n ((machine g2).trace st0 run2) ∧ (0 < g2.M ∧ g2.n = 2 ^ 1) ∧
    mAws ((machine g2).trace st0 run2) = [(0, 5, 1), (1, 6, 1)] ∧
    (mWords ((machine g2).trace st0 run2)).map (fun w => (w.1.data 0, w.2)) = [(1, false), (2, true), (3, false), (4, true)] ∧
    resps ((machine g2).trace st0 run2) = [some 0, some 1] ∧ mBs 1 ((machine g2).trace st0 run2) = 1 := by
  have hok : okAll g2.n ((machine g2).trace st0 run2) = true := by decide +kernel
  refine ⟨⟨rfl, rfl, rfl, rfl, rfl, ⟨rfl, rfl, rfl, rfl, rfl⟩, rfl, rfl, rfl⟩, (okAll_sound hok).1, (okAll_sound hok).2, ?_⟩
  decide +kernel

/-- What remains of **C332**, **C333**: without merging the transactions of the lines are still started in the order of the writes,
none is left out and none is repeated. -/
theorem writeAgg_order_partial (g : Cfg) (hM : 0 < g.M) {k : Nat} (hk : g.n = 2 ^ k) (s0 : St α) (h0 : IsInit g s0)
    (xs : List (In α)) (hma : MasterOk g.n ((machine g).trace s0 xs)) (hme : MemOk g.n ((machine g).trace s0 xs)) :
    (mAws ((machine g).trace s0 xs)).map (fun t => t.2.1) <+: (lines ((machine g).trace s0 xs)).map Prod.fst := by
  have h := (writeAgg_stream g hM hk s0 h0 xs hma hme).1.map (fun t => t.2.1)
  have h2 : ∀ l : List (Nat × Nat), (l.mapIdx fun j t => (j % g.M, t.1, g.n - 1)).map (fun t => t.2.1) = l.map Prod.fst := by
    intro l
    apply List.ext_getElem <;> simp
  rw [← h2]; exact h

end Verif.WriteAgg
