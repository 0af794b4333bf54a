import Verif.StoreQueue
import Verif.WriteAggProps
/-! What the items of the write aggregator contain until the memory confirms them (one word per line). -/
namespace Verif.WriteAgg

open FifoOoo (Phase)

variable {α : Type}

/-- The item `j` (the `j`-th accepted line) is stored and not confirmed. -/
structure JInv (M : Nat) (tr : Tr α) (s : St α) : Prop where
  item : ∀ j, j + s.tmp.occ.toNat < (words tr).length → mBs (j % M) tr ≤ j / M →
    mBs (j % M) tr = j / M ∧ s.fifo.valid (j % M) = true ∧ ((lines tr).map Prod.fst)[j]? = some (s.cam (j % M)) ∧
    ((words tr)[j]?).map bytesIn = some (bytesOut (s.ram.mem (j % M)))
  slot : ∀ k, k < M → s.fifo.valid k = true → ∃ j, j + s.tmp.occ.toNat < (words tr).length ∧ j % M = k ∧ mBs k tr ≤ j / M

section
variable {g : Cfg} {key : Nat → Nat} {word : Nat → BW α} {rw' : Nat → CumMask.Word α} {s : St α} {ph : Nat → Phase}
  {c p e r b a : Nat} {cf : Nat → Nat} {x : In α}

theorem Inv.mem_next (h : Inv g key word rw' s ph c p e r b a cf) (hn : 0 < g.n) (hw : AxiWDispatch.words g.n = g.n) :
    (next g s x).ram.mem = if push s then upd s.ram.mem (s.fifo.ptr.wr * g.n + s.off)
      (CumMask.newWord g.nb s.ram (ramW g s) (s.ram.mem (s.fifo.ptr.wr * g.n + s.off))) else s.ram.mem := by
  have hc := h.ctl hn hw
  show (if CumMask.write s.ram (ramW g s) then upd s.ram.mem (ramW g s).addr
    (CumMask.newWord g.nb s.ram (ramW g s) (s.ram.mem (ramW g s).addr)) else s.ram.mem) = _
  have hwrt : CumMask.write s.ram (ramW g s) = push s := by
    unfold CumMask.write
    rw [hc.vld]
    cases hp : push s
    · rfl
    · have ho : s.tmp.occ = true := by unfold push at hp; simp only [Bool.and_eq_true] at hp; exact hp.1
      rw [hc.ow ho]; rfl
  rw [hwrt]
  cases hp : push s
  · rfl
  · rw [hc.addr hp, hw]

theorem Inv.new_word (h : Inv g key word rw' s ph c p e r b a cf) (hn : 0 < g.n) (hw : AxiWDispatch.words g.n = g.n)
    (hp : push s = true) (old : CumMask.Word α) :
    bytesOut (CumMask.newWord g.nb s.ram (ramW g s) old) = bytesIn s.tmp.reg.w := by
  have hc := h.ctl hn hw
  have ho : s.tmp.occ = true := by unfold push at hp; simp only [Bool.and_eq_true] at hp; exact hp.1
  funext i
  have h2 : CumMask.weMask g.nb (ramW g s) (i / 8) = true := by
    unfold CumMask.weMask; rw [hc.ow ho]; simp
  simp only [bytesOut, bytesIn, CumMask.newWord, h2, h.pre, if_true]
  show (if s.tmp.reg.w.we i then some (if s.tmp.reg.w.we i then s.tmp.reg.w.din i else _) else none) = _
  cases s.tmp.reg.w.we i <;> rfl

end

/-- The line and the word in `w_in_reg` are the last accepted ones. -/
theorem known_reg {g : Cfg} {tr : Tr α} {s : St α} {key : Nat → Nat} {word : Nat → BW α}
    {rw' : Nat → CumMask.Word α} {ph : Nat → Phase} {p e r b a : Nat} (h : Known g tr s key word rw' ph p e r b a)
    (hn : g.n = 1) (ho : s.tmp.occ = true) :
    ((lines tr).map Prod.fst)[(words tr).length - 1]? = some s.tmp.reg.key ∧
    (words tr)[(words tr).length - 1]? = some s.tmp.reg.w ∧ p + 1 = (words tr).length := by
  obtain ⟨I, K1, K2, -, -⟩ := h
  have hpe := I.p_eq
  rw [ho] at hpe
  simp only [Bool.toNat_true] at hpe
  have hk := I.tmpKey (by omega)
  have hwd := I.tmpW ho
  rw [hn, Nat.div_one] at hk
  refine ⟨?_, ?_, hpe⟩
  · rw [K2, hk, hn]
    unfold ln
    rw [Nat.div_one, Nat.add_sub_cancel, List.getElem?_map, List.getElem?_range (by omega)]; rfl
  · conv_lhs => rw [K1]
    rw [hwd]
    rw [List.length_map, List.length_range, List.getElem?_map, List.getElem?_range (by omega)]; rfl

/-- Before the item `p` its slot is used `p / M` times. -/
theorem cnt_self {M : Nat} (hM : 0 < M) (p : Nat) : cnt M (p % M) p ≤ p / M := by
  have key : ∀ k, k < M → ∀ p, cnt M k p ≤ (p + M - 1 - k) / M := by
    intro k hk p
    induction p with
    | zero => simp [cnt]
    | succ p ih =>
      rw [cnt_succ]
      by_cases h : p % M = k
      · have h1 := Nat.div_add_mod p M
        rw [show p + 1 + M - 1 - k = M * (p / M) + M by omega, Nat.add_div_right _ hM, Nat.mul_div_cancel_left _ hM]
        rw [show p + M - 1 - k = M * (p / M) + (M - 1) by omega, Nat.mul_add_div hM,
          Nat.div_eq_of_lt (show M - 1 < M by omega)] at ih
        have := Bool.toNat_le (p % M == k)
        omega
      · have h2 : (p % M == k) = false := by simpa using h
        rw [h2]
        have := Nat.div_le_div_right (c := M) (show p + M - 1 - k ≤ p + 1 + M - 1 - k by omega)
        simp only [Bool.toNat_false]; omega
  have h := key (p % M) (Nat.mod_lt _ hM) p
  have h1 := Nat.div_add_mod p M
  rw [show p + M - 1 - p % M = M * (p / M) + (M - 1) by have := Nat.mod_lt p hM; omega, Nat.mul_add_div hM,
    Nat.div_eq_of_lt (show M - 1 < M by omega)] at h
  exact h

theorem jreach (g : Cfg) (hM : 0 < g.M) (hn : g.n = 1) (s0 : St α) (h0 : IsInit g s0)
    (xs : List (In α)) : MasterOk g.n ((machine g).trace s0 xs) → MemOk g.n ((machine g).trace s0 xs) →
    JInv g.M ((machine g).trace s0 xs) ((machine g).final s0 xs) := by
  have hn0 : 0 < g.n := by omega
  have hw : AxiWDispatch.words g.n = g.n := (AxiWDispatch.wdispatch_burst_partial g.n hn0).2 ⟨0, hn⟩
  induction xs using List.reverseRecOn with
  | nil =>
    intro _ _
    refine ⟨?_, ?_⟩
    · intro j hj; simp [words] at hj
    · intro k _ hv
      have : s0.fifo.valid k = true := hv
      rw [h0.fifo] at this
      cases this
  | append_singleton xs x ih =>
    intro hma hme
    rw [Machine.trace_snoc] at hma hme ⊢
    have J := ih hma.init hme.init
    obtain ⟨key, word, rw', ph, p, e, r, b, a, K⟩ := reach g hM hn0 hw s0 h0 xs hma.init hme.init
    generalize htr : (machine g).trace s0 xs = tr at *
    have hfin : (machine g).final s0 (xs ++ [x]) = next g ((machine g).final s0 xs) x := by
      rw [Machine.final_append]; rfl
    rw [hfin]
    have hout : (machine g).outAfter s0 xs x = out g ((machine g).final s0 xs) x := rfl
    rw [hout] at hma hme ⊢
    generalize (machine g).final s0 xs = s at *
    have I := K.inv
    have hc := I.ctl hn0 hw
    obtain ⟨t1, t2⟩ := tmp_next (x := x) hc
    have tp := take_push (x := x) hc
    have hpe := I.p_eq
    have hmb : ∀ k, x.mB = some k → k < g.M ∧ mBs k tr < cnt g.M k e := fun k hk =>
      K.mb hM hn0 hw k (hme tr (x, out g s x) [] rfl k hk)
    have htk : (x.wVld && wRd g s x) = take g s x := words_eq x
    have hwl : (words (tr ++ [(x, out g s x)])) = words tr ++ (if take g s x then some x.w else none).toList := by
      rw [words, filterMap_snoc, ← words, ← htk]; rfl
    have hwlen : (words (tr ++ [(x, out g s x)])).length = (words tr).length + (take g s x).toNat := by
      rw [hwl, List.length_append]
      cases take g s x <;> rfl
    have hlpre : ((lines tr).map Prod.fst) <+: ((lines (tr ++ [(x, out g s x)])).map Prod.fst) := by
      unfold lines; rw [List.filterMap_append, List.map_append]; exact List.prefix_append _ _
    have hwpre : words tr <+: words (tr ++ [(x, out g s x)]) := by
      rw [hwl]; exact List.prefix_append _ _
    have hll : (lines tr).length = (words tr).length := by
      have := congrArg List.length K.lines
      rw [hn] at this
      unfold ln at this
      simpa using this
    have hbs : ∀ k, mBs k (tr ++ [(x, out g s x)]) = mBs k tr + (x.mB == some k).toNat := by
      intro k
      unfold mBs
      rw [List.countP_append, List.countP_singleton]
      cases (x.mB == some k) <;> rfl
    -- number of pushed words
    have hpocc : (words tr).length + (take g s x).toNat - ((next g s x).tmp.occ).toNat = p + (push s).toNat ∧
        p + (push s).toNat + ((next g s x).tmp.occ).toNat = (words tr).length + (take g s x).toNat := by
      rw [t1]
      have h1 : push s = true → s.tmp.occ = true := by
        intro q; unfold push at q; simp only [Bool.and_eq_true] at q; exact q.1
      cases ht : take g s x
      · revert h1 hpe
        cases push s <;> cases s.tmp.occ <;> simp <;> omega
      · have := tp ht
        rw [← this]; simp; omega
    have hvn : ∀ k, (next g s x).fifo.valid k = (if x.mB = some k then false else
        if (push s && s.fifo.ptr.wr == k) then true else s.fifo.valid k) := by
      intro k
      show FifoOoo.nextValid s.fifo (fifoIn g s x) k = _
      unfold FifoOoo.nextValid
      have hwe : FifoOoo.writeEn s.fifo (fifoIn g s x) = push s := by
        unfold FifoOoo.writeEn
        rw [Fifo.fifoWrite_eq (FifoOoo.ptr_proto s.fifo (fifoIn g s x))]
        show (confirm g s && !Fifo.writeWait s.fifo.ptr && !s.fifo.valid s.fifo.ptr.wr) = _
        have hil : insLast g s = true := by
          unfold insLast AxiWDispatch.maxOff; rw [I.off, hn]; simp [Nat.mod_one]
        rw [hc.conf, hil, Bool.and_true, Bool.and_assoc]
        show (push s && FifoOoo.wrd s.fifo) = _
        unfold push
        cases FifoOoo.wrd s.fifo <;> simp
      rw [hwe]; rfl
    have hcn : (next g s x).cam = if push s then upd s.cam s.fifo.ptr.wr s.tmp.reg.key else s.cam := by
      show (if camWrite g s then upd s.cam s.fifo.ptr.wr s.tmp.reg.key else s.cam) = _
      have hil : insLast g s = true := by
        unfold insLast AxiWDispatch.maxOff; rw [I.off, hn]; simp [Nat.mod_one]
      rw [hc.camw, hil, Bool.and_true]
    have hmn := I.mem_next (x := x) hn0 hw
    have hoff : s.off = 0 := by rw [I.off, hn, Nat.mod_one]
    rw [hn, hoff, Nat.mul_one, Nat.add_zero] at hmn
    have hwr : s.fifo.ptr.wr = p % g.M := by rw [I.wr, hn, Nat.div_one]
    have hfree : push s = true → s.fifo.valid s.fifo.ptr.wr = false := by
      intro q; unfold push FifoOoo.wrd at q; simp only [Bool.and_eq_true, Bool.not_eq_true'] at q; exact q.2.2
    -- a confirmed item was stored
    have hcv : ∀ k, x.mB = some k → s.fifo.valid k = true := by
      intro k hk
      obtain ⟨q1, q2⟩ := hmb k hk
      have := (I.conf k q1).2.2.2 q2
      exact (I.fifo.valid k q1).2 (by rw [this]; simp)
    have hold : ∀ j, j < p → mBs (j % g.M) (tr ++ [(x, out g s x)]) ≤ j / g.M → x.mB ≠ some (j % g.M) ∧
        mBs (j % g.M) tr = j / g.M ∧ s.fifo.valid (j % g.M) = true ∧
        ((lines tr).map Prod.fst)[j]? = some (s.cam (j % g.M)) ∧
        ((words tr)[j]?).map bytesIn = some (bytesOut (s.ram.mem (j % g.M))) := by
      intro j hj hm
      rw [hbs] at hm
      have := J.item j (by omega) (by omega)
      refine ⟨?_, this⟩
      intro hx
      rw [hx] at hm
      simp at hm
      omega
    refine ⟨?_, ?_⟩
    · intro j hj hm
      rw [hwlen] at hj
      have hj2 : j < p + (push s).toNat := by omega
      by_cases hjp : j < p
      · obtain ⟨q0, q1, q2, q3, q4⟩ := hold j hjp hm
        have hne : push s = true → j % g.M ≠ s.fifo.ptr.wr := by
          intro hp heq
          have := hfree hp
          rw [← heq, q2] at this
          cases this
        refine ⟨?_, ?_, ?_, ?_⟩
        · rw [hbs]
          have : (x.mB == some (j % g.M)) = false := by simpa using q0
          rw [this]; simpa using q1
        · rw [hvn, if_neg q0, q2]; simp
        · rw [hcn]
          have h1 : ((lines (tr ++ [(x, out g s x)])).map Prod.fst)[j]? = ((lines tr).map Prod.fst)[j]? := by
            obtain ⟨t, ht⟩ := hlpre
            rw [← ht, List.getElem?_append_left (by rw [List.length_map, hll]; omega)]
          rw [h1, q3]
          cases hp : push s
          · rfl
          · rw [if_pos rfl, upd_ne _ _ _ _ (hne hp)]
        · rw [hmn]
          have h1 : (words (tr ++ [(x, out g s x)]))[j]? = (words tr)[j]? := by
            obtain ⟨t, ht⟩ := hwpre
            rw [← ht, List.getElem?_append_left (by omega)]
          rw [h1, q4]
          cases hp : push s
          · rfl
          · rw [if_pos rfl, upd_ne _ _ _ _ (hne hp)]
      · -- the word stored in this cycle
        have hp : push s = true := by
          cases hp : push s
          · rw [hp] at hj2; simp at hj2; omega
          · rfl
        rw [hp] at hj2
        simp at hj2
        have hjeq : j = p := by omega
        subst hjeq
        have ho : s.tmp.occ = true := by unfold push at hp; simp only [Bool.and_eq_true] at hp; exact hp.1
        obtain ⟨r1, r2, r3⟩ := known_reg K hn ho
        have hx : x.mB ≠ some (j % g.M) := by
          intro hx
          have h1 := hcv _ hx
          have h2 := hfree hp
          rw [hwr, h1] at h2
          cases h2
        have hbx : (x.mB == some (j % g.M)) = false := by simpa using hx
        rw [hbs, hbx] at hm
        simp only [Bool.toNat_false, Nat.add_zero] at hm
        have hge : j / g.M ≤ mBs (j % g.M) tr := by
          rcases Nat.lt_or_ge j g.M with hlt | hge
          · rw [Nat.div_eq_of_lt hlt]; exact Nat.zero_le _
          · apply Nat.le_of_not_lt
            intro hlt
            have e1 : (j - g.M) % g.M = j % g.M := by
              rw [Nat.mod_eq_sub_mod hge]
            have e2 : (j - g.M) / g.M = j / g.M - 1 := by
              have := Nat.div_eq_sub_div hM hge
              omega
            have := J.item (j - g.M) (by rw [ho]; simp; omega) (by rw [e1, e2]; omega)
            have h2 := hfree hp
            rw [hwr, ← e1, this.2.1] at h2
            cases h2
        have hidx : (words tr).length - 1 = j := by omega
        rw [hidx] at r1 r2
        refine ⟨?_, ?_, ?_, ?_⟩
        · rw [hbs, hbx]; simp; omega
        · rw [hvn, if_neg hx, hp, hwr]; simp
        · rw [hcn, hp, if_pos rfl, hwr, upd_same]
          obtain ⟨t, ht⟩ := hlpre
          rw [← ht, List.getElem?_append_left (by rw [List.length_map, hll]; omega), r1]
        · rw [hmn, hp, if_pos rfl, hwr, upd_same]
          obtain ⟨t, ht⟩ := hwpre
          rw [← ht, List.getElem?_append_left (by omega), r2, I.new_word hn0 hw hp]; rfl
    · intro k hk hv
      rw [hvn] at hv
      by_cases hx : x.mB = some k
      · rw [if_pos hx] at hv; cases hv
      · rw [if_neg hx] at hv
        have hbx : (x.mB == some k) = false := by simpa using hx
        rw [hbs, hbx, hwlen]
        simp only [Bool.toNat_false, Nat.add_zero]
        by_cases hwk : (push s && s.fifo.ptr.wr == k) = true
        · simp only [Bool.and_eq_true, beq_iff_eq] at hwk
          refine ⟨p, ?_, ?_, ?_⟩
          · rw [hwk.1] at hpocc; simp at hpocc; omega
          · rw [← hwr, hwk.2]
          · -- all uses before are confirmed
            have hcnt := (I.conf k hk).1
            have hc1 : mBs k tr ≤ cnt g.M k e := hcnt
            have hle : e ≤ p := by have := I.len; rw [hn, Nat.div_one] at this; omega
            have h2 := cnt_mono g.M k hle
            have h3 : cnt g.M k p ≤ p / g.M := by
              rw [← hwk.2, hwr]; exact cnt_self hM p
            omega
        · rw [if_neg hwk] at hv
          obtain ⟨j, h1, h2, h3⟩ := J.slot k hk hv
          exact ⟨j, by omega, h2, h3⟩

end Verif.WriteAgg
