import Verif.WriteAggInv
/-! Step of the invariant of `AxiWriteAggregator`. -/
namespace Verif.WriteAgg

open FifoOoo (Phase)

variable {α : Type}
variable {g : Cfg} {key : Nat → Nat} {word : Nat → BW α} {rw' : Nat → CumMask.Word α} {s : St α} {ph : Nat → Phase}
  {c p e r b a : Nat} {cf : Nat → Nat} {x : In α}

/-- The dispatcher takes an item / reads a word. -/
def exe (g : Cfg) (s : St α) (x : In α) : Bool := AxiWDispatch.exe (dispIn g s x, dispOut g s x)
def req (g : Cfg) (s : St α) (x : In α) : Bool := AxiWDispatch.req (dispIn g s x, dispOut g s x)

theorem div_succ {n p : Nat} (hn : 0 < n) : (p + 1) / n = p / n + (p % n == n - 1).toNat := by
  by_cases h : p % n = n - 1
  · have h1 := Nat.div_add_mod p n
    have : p + 1 = n * (p / n + 1) := by rw [Nat.mul_add]; omega
    rw [this, Nat.mul_div_cancel_left _ hn]
    simp [h]
  · have h1 := Nat.div_add_mod p n
    have h2 := Nat.mod_lt p hn
    have h3 : p + 1 = n * (p / n) + (p % n + 1) := by omega
    rw [h3, Nat.mul_add_div hn, Nat.div_eq_of_lt (show p % n + 1 < n by omega)]
    simp [h]

theorem mod_succ {n p : Nat} (hn : 0 < n) : (p + 1) % n = if p % n ≠ n - 1 then p % n + 1 else 0 := by
  have h1 := Nat.div_add_mod p n
  have h2 := Nat.mod_lt p hn
  split
  · have : p + 1 = n * (p / n) + (p % n + 1) := by omega
    rw [this, Nat.mul_add_mod, Nat.mod_eq_of_lt (by omega)]
  · have : p + 1 = n * (p / n + 1) := by rw [Nat.mul_add]; omega
    rw [this, Nat.mul_mod_right]

theorem inc_mod {M : Nat} (hM : 0 < M) (a : Nat) : Ring.inc M (a % M) = (a + 1) % M := by
  unfold Ring.inc
  rw [mod_succ hM]
  have := Nat.mod_lt a hM
  split <;> split <;> omega

theorem Inv.r_le (h : Inv g key word rw' s ph c p e r b a cf) (hw : AxiWDispatch.words g.n = g.n) : r ≤ p := by
  have h1 := h.disp.r_eq
  have h2 := h.disp.off_le
  have h3 := h.len
  rw [hw] at h1
  have h4 := Nat.mul_div_le p g.n
  by_cases h0 : s.disp.off = 0
  · have := Nat.mul_le_mul_left g.n (show e ≤ p / g.n by omega)
    omega
  · have := Nat.mul_le_mul_left g.n (Nat.succ_le_of_lt (h.offe h0))
    have hmax : AxiWDispatch.maxOff g.n + 1 = g.n := hw
    rw [Nat.mul_succ] at this
    omega

/-- The state of `w_in_reg` after the cycle. -/
theorem tmp_next (hc : Ctl g s) :
    (next g s x).tmp.occ = (take g s x || (s.tmp.occ && !push s)) ∧
    (next g s x).tmp.reg = (if take g s x then tmpIn g s x else s.tmp.reg) := by
  have h3 := hc.rd
  show (HsReg.stageNext s.tmp (tmpInVld g s x) (tmpIn g s x) (tmpRd g s)).occ = _ ∧
    (HsReg.stageNext s.tmp (tmpInVld g s x) (tmpIn g s x) (tmpRd g s)).reg = _
  unfold HsReg.stageNext HsReg.stageWe take tmpInRd HsReg.stageRd push
  cases ho : s.tmp.occ
  · simp
  · rw [h3 ho]
    cases FifoOoo.wrd s.fifo <;> cases tmpInVld g s x <;> simp

theorem take_push (hc : Ctl g s) (ht : take g s x = true) : s.tmp.occ = push s := by
  have h3 := hc.rd
  unfold take tmpInRd HsReg.stageRd at ht
  unfold push
  cases ho : s.tmp.occ
  · rfl
  · rw [ho] at ht
    simp only [if_true, Bool.and_eq_true] at ht
    rw [← h3 ho, ht.2]; rfl

theorem lock_next {N : Nat} {f : FifoOoo.St} {i : FifoOoo.In} {k : Nat} (h : f.valid k = true → f.lock k = true)
    (hw : ¬ (FifoOoo.writeEn f i && f.ptr.wr == k) = true) (hv : FifoOoo.nextValid f i k = true) :
    FifoOoo.nextLock N f i k = true := by
  unfold FifoOoo.nextValid at hv
  unfold FifoOoo.nextLock
  by_cases c1 : i.conf = some k
  · rw [if_pos c1] at hv; cases hv
  · rw [if_neg c1, if_neg hw] at hv
    rw [if_neg c1, if_neg hw, hv, h hv]
    simp

theorem Inv.step (h : Inv g key word rw' s ph c p e r b a cf) (hn : 0 < g.n) (hw : AxiWDispatch.words g.n = g.n)
    (hl : take g s x = true → x.wLast = (c % g.n == g.n - 1))
    (hk : take g s x = true → c % g.n = 0 → key (c / g.n) = x.awKey)
    (hwd : take g s x = true → word c = x.w)
    (hrw : req g s x = true → rw' r = s.ram.mem (s.fifo.ptr.rd * g.n + s.disp.off))
    (hB : ∀ k, x.mB = some k → k < g.M ∧ cf k < cnt g.M k e) :
    Inv g key word rw' (next g s x) (fun k => FifoOoo.phaseStep k (ph k) (fifoIn g s x, (FifoOoo.machine g.M).out s.fifo (fifoIn g s x)))
      (c + (take g s x).toNat) (p + (push s).toNat) (e + (exe g s x).toNat) (r + (req g s x).toNat)
      (b + (s.disp.rd.valid && x.mWRd).toNat) (a + (s.disp.awVld && x.mAwRd).toNat)
      (fun k => cf k + (x.mB == some k).toNat) := by
  have hc := h.ctl hn hw
  obtain ⟨t1, t2⟩ := tmp_next (x := x) hc
  have tp := take_push (x := x) hc
  have hM := h.fifo.ptr.pos
  have hmax : AxiWDispatch.maxOff g.n = g.n - 1 := by unfold AxiWDispatch.words at hw; omega
  have hil : insLast g s = (p % g.n == g.n - 1) := by unfold insLast; rw [hmax, h.off]
  have hoff := h.off
  -- the fifo
  have hren : (FifoOoo.ptrIn s.fifo (fifoIn g s x)).ren = exe g s x := by
    show ((dispOut g s x).xrd && !Fifo.readWait s.fifo.ptr) = ((!Fifo.readWait s.fifo.ptr) && (dispOut g s x).xrd)
    rw [Bool.and_comm]
  have hwen : (FifoOoo.ptrIn s.fifo (fifoIn g s x)).wen = (push s && insLast g s) := by
    show (confirm g s && !Fifo.writeWait s.fifo.ptr && !s.fifo.valid s.fifo.ptr.wr) = _
    rw [hc.conf, Bool.and_assoc]
    show (push s && insLast g s && FifoOoo.wrd s.fifo) = _
    unfold push
    cases FifoOoo.wrd s.fifo <;> simp
  have hpp := FifoOoo.ptr_proto s.fifo (fifoIn g s x)
  have hxv : exe g s x = true → Fifo.readWait s.fifo.ptr = false := by
    intro q
    have : ((!Fifo.readWait s.fifo.ptr) && (dispOut g s x).xrd) = true := q
    simp only [Bool.and_eq_true, Bool.not_eq_true'] at this
    exact this.1
  have hrv : req g s x = true → Fifo.readWait s.fifo.ptr = false := by
    intro q
    have : (AxiWDispatch.busAck s.disp (dispIn g s x) && (!Fifo.readWait s.fifo.ptr) && (dispIn g s x).enRd) = true := q
    simp only [Bool.and_eq_true, Bool.not_eq_true'] at this
    exact this.1.2
  have hne : Fifo.readWait s.fifo.ptr = false → e < p / g.n := by
    intro q
    have h1 := Fifo.readWait_iff h.fifo.ptr
    rw [q] at h1
    have h2 := h.len
    have : Fifo.len g.M s.fifo.ptr ≠ 0 := fun h3 => by simp [h3] at h1
    omega
  have hwl : FifoOoo.wrd s.fifo = true → p / g.n < e + g.M := by
    intro q
    have h1 := Fifo.writeWait_iff h.fifo.ptr
    have h2 := h.len
    have h3 := h.fifo.ptr.len_le
    have h4 : Fifo.writeWait s.fifo.ptr = false := by
      unfold FifoOoo.wrd at q; simp only [Bool.and_eq_true, Bool.not_eq_true'] at q; exact q.1
    rw [h4] at h1
    have : Fifo.len g.M s.fifo.ptr ≠ g.M := fun h5 => by simp [h5] at h1
    omega
  have hst := FifoOoo.step_inv (i := fifoIn g s x) h.fifo (by
    intro k q
    obtain ⟨q1, q2⟩ := hB k q
    exact ⟨q1, Or.inl ((h.conf k q1).2.2.2 q2)⟩)
  have hpn : (p + (push s).toNat) / g.n = p / g.n + (push s && insLast g s).toNat := by
    cases hp : push s
    · simp
    · rw [hil]; simp only [Bool.toNat_true, Bool.true_and]; exact div_succ hn
  obtain ⟨-, -, -, -, hlen⟩ := Fifo.step_ptr h.fifo.ptr hpp
  rw [hren, hwen] at hlen
  have hwr' : (next g s x).fifo.ptr.wr = (p + (push s).toNat) / g.n % g.M := by
    show (if Fifo.fifoWrite s.fifo.ptr _ then Fifo.incPtr g.M s.fifo.ptr.wr else s.fifo.ptr.wr) = _
    rw [Fifo.fifoWrite_eq hpp, hwen, Fifo.incPtr_eq h.fifo.ptr.wr_lt, h.wr, inc_mod hM, hpn]
    cases (push s && insLast g s) <;> rfl
  have hrd' : (next g s x).fifo.ptr.rd = (e + (exe g s x).toNat) % g.M := by
    show (if Fifo.fifoRead s.fifo.ptr _ then Fifo.incPtr g.M s.fifo.ptr.rd else s.fifo.ptr.rd) = _
    rw [Fifo.fifoRead_eq hpp, hren, Fifo.incPtr_eq h.fifo.ptr.rd_lt, h.rd, inc_mod hM]
    cases exe g s x <;> rfl
  have hpe := h.p_eq
  have hrle := h.r_le hw
  have hoe : r = g.n * e + s.disp.off := by have := h.disp.r_eq; rwa [hw] at this
  have hoffl : s.disp.off < g.n := by have := h.disp.off_le; omega
  have hr1 : r / g.n = e := by rw [hoe, Nat.mul_add_div hn, Nat.div_eq_of_lt hoffl]; rfl
  have hr2 : r % g.n = s.disp.off := by rw [hoe, Nat.mul_add_mod, Nat.mod_eq_of_lt hoffl]
  have hrp1 : req g s x = true → r < p := by
    intro q
    have h1 := hne (hrv q)
    have h2 := Nat.mul_le_mul_left g.n (Nat.succ_le_of_lt h1)
    have h4 := Nat.mul_div_le p g.n
    rw [Nat.mul_succ] at h2
    omega
  -- the dispatcher
  have hdisp := AxiWDispatch.step (i := dispIn g s x) h.disp (by
      intro q
      have h1 := hne (by simpa [dispIn] using q)
      show (s.fifo.ptr.rd, s.cam s.fifo.ptr.rd) = (e % g.M, key e)
      rw [h.rd, h.cams e (Nat.le_refl _) h1]) h.dout
  have hpend : (next g s x).disp.pending = req g s x := by
    show (AxiWDispatch.enVld s.disp (dispIn g s x) && AxiWDispatch.rAck s.disp (dispIn g s x) && (dispIn g s x).enRd) =
      (AxiWDispatch.enVld s.disp (dispIn g s x) && (dispIn g s x).enRd)
    unfold AxiWDispatch.enVld AxiWDispatch.busAck
    cases (dispIn g s x).xvld <;> cases (dispIn g s x).enRd <;> cases AxiWDispatch.rAck s.disp (dispIn g s x) <;> simp
  -- the memory
  have hmem : (next g s x).ram.mem = if push s then upd s.ram.mem (s.fifo.ptr.wr * g.n + s.off)
      (CumMask.newWord g.nb s.ram (ramW g s) (s.ram.mem (s.fifo.ptr.wr * g.n + s.off))) else s.ram.mem := by
    show (if CumMask.write s.ram (ramW g s) then upd s.ram.mem (ramW g s).addr
      (CumMask.newWord g.nb s.ram (ramW g s) (s.ram.mem (ramW g s).addr)) else s.ram.mem) = _
    have hwrt : CumMask.write s.ram (ramW g s) = push s := by
      unfold CumMask.write
      rw [hc.vld]
      cases hp : push s
      · rfl
      · have ho : s.tmp.occ = true := by unfold push at hp; simp only [Bool.and_eq_true] at hp; exact hp.1
        rw [hc.ow ho]; rfl
    rw [hwrt]
    cases hp : push s
    · rfl
    · rw [hc.addr hp, hw]
  have hnew : push s = true → bytesOut (CumMask.newWord g.nb s.ram (ramW g s) (s.ram.mem (s.fifo.ptr.wr * g.n + s.off))) =
      bytesIn (word p) := by
    intro hp
    have ho : s.tmp.occ = true := by unfold push at hp; simp only [Bool.and_eq_true] at hp; exact hp.1
    have h1 : s.tmp.reg.w = word p := by
      rw [h.tmpW ho]; rw [ho] at hpe; simp at hpe; congr 1; omega
    rw [← h1]
    funext i
    have h2 : CumMask.weMask g.nb (ramW g s) (i / 8) = true := by
      unfold CumMask.weMask; rw [hc.ow ho]; simp
    simp only [bytesOut, bytesIn, CumMask.newWord, h2, h.pre, if_true]
    show (if s.tmp.reg.w.we i then some (if s.tmp.reg.w.we i then s.tmp.reg.w.din i else _) else none) = _
    cases s.tmp.reg.w.we i <;> rfl
  have hslot : ∀ q, r ≤ q → q < p → push s = true → q / g.n % g.M * g.n + q % g.n ≠ s.fifo.ptr.wr * g.n + s.off := by
    intro q hq1 hq2 hp heq
    have hwrd : FifoOoo.wrd s.fifo = true := by unfold push at hp; simp only [Bool.and_eq_true] at hp; exact hp.2
    have h1 := hwl hwrd
    rw [h.wr, hoff] at heq
    have m1 := Nat.mod_lt q hn
    have m2 := Nat.mod_lt p hn
    have d1 : (q / g.n % g.M * g.n + q % g.n) / g.n = q / g.n % g.M := by
      rw [Nat.mul_comm, Nat.mul_add_div hn, Nat.div_eq_of_lt m1]; rfl
    have d2 : (p / g.n % g.M * g.n + p % g.n) / g.n = p / g.n % g.M := by
      rw [Nat.mul_comm, Nat.mul_add_div hn, Nat.div_eq_of_lt m2]; rfl
    have d3 : (q / g.n % g.M * g.n + q % g.n) % g.n = q % g.n := by
      rw [Nat.mul_comm, Nat.mul_add_mod, Nat.mod_eq_of_lt m1]
    have d4 : (p / g.n % g.M * g.n + p % g.n) % g.n = p % g.n := by
      rw [Nat.mul_comm, Nat.mul_add_mod, Nat.mod_eq_of_lt m2]
    have e1 : q / g.n % g.M = p / g.n % g.M := by rw [← d1, ← d2, heq]
    have e2 : q % g.n = p % g.n := by rw [← d3, ← d4, heq]
    have f1 := Nat.div_add_mod q g.n
    have f2 := Nat.div_add_mod p g.n
    have l1 : q / g.n < p / g.n := by
      apply Nat.lt_of_mul_lt_mul_left (a := g.n); omega
    have l2 : e ≤ q / g.n := by rw [← hr1]; exact Nat.div_le_div_right hq1
    have f3 := Nat.div_add_mod (q / g.n) g.M
    have f4 := Nat.div_add_mod (p / g.n) g.M
    have l3 : (q / g.n) / g.M < (p / g.n) / g.M := by
      apply Nat.lt_of_mul_lt_mul_left (a := g.M); omega
    have l4 := Nat.mul_le_mul_left g.M (Nat.succ_le_of_lt l3)
    rw [Nat.mul_succ] at l4
    omega
  -- which phases
  have hexec : ∀ k, FifoOoo.executes (fifoIn g s x, (FifoOoo.machine g.M).out s.fifo (fifoIn g s x)) k =
      (exe g s x && e % g.M == k) := by
    intro k
    show ((dispOut g s x).xrd && (!Fifo.readWait s.fifo.ptr) && s.fifo.ptr.rd == k) = _
    rw [h.rd, ← hren]; rfl
  have hwrites : ∀ k, FifoOoo.writes (fifoIn g s x, (FifoOoo.machine g.M).out s.fifo (fifoIn g s x)) k = true →
      ph k = .free := by
    intro k q
    have q1 : (confirm g s && FifoOoo.wrd s.fifo && s.fifo.ptr.wr == k) = true := q
    simp only [Bool.and_eq_true, beq_iff_eq] at q1
    rw [← q1.2]
    exact h.fifo.wrd_iff.1 q1.1.2
  have hfi : WriteAgg.first g s = (c % g.n == 0) := by
    unfold WriteAgg.first
    by_cases hn1 : g.n = 1
    · simp [hn1, Nat.mod_one]
    · rw [h.first hn1]; simp [hn1]
  refine ⟨?_, hst, hwr', hrd', ?_, ?_, ?_, ?_, ?_, ?_, ?_, ?_, ?_, ?_, ?_, ?_, ?_, ?_, ?_, ?_⟩
  · -- p_eq
    rw [t1]
    cases ht : take g s x
    · have : push s = true → s.tmp.occ = true := by
        intro q; unfold push at q; simp only [Bool.and_eq_true] at q; exact q.1
      revert this hpe
      cases push s <;> cases s.tmp.occ <;> simp
    · have := tp ht
      rw [← this]; simp; omega
  · -- len
    show Fifo.len g.M (Fifo.next g.M s.fifo.ptr (FifoOoo.ptrIn s.fifo (fifoIn g s x))) + _ = _
    rw [hpn, ← h.len]; omega
  · -- off
    show nextOff g s = _
    rw [hc.off, hmax, hoff]
    cases push s
    · rfl
    · simp only [Bool.toNat_true, if_true]; rw [mod_succ hn]
  · -- first
    intro hn1
    show (if take g s x then x.wLast else s.wfirst) = _
    cases ht : take g s x
    · simpa using h.first hn1
    · rw [if_pos rfl, hl ht]
      simp only [Bool.toNat_true]
      rw [mod_succ hn]
      by_cases q : c % g.n = g.n - 1
      · simp [q]
      · simp [q]
  · -- tmpKey
    intro hcp
    rw [t2]
    cases ht : take g s x
    · rw [ht] at hcp; simp at hcp ⊢; exact h.tmpKey hcp
    · simp only [Bool.toNat_true, if_true, Nat.add_sub_cancel]
      unfold tmpIn
      rw [hfi]
      by_cases q : c % g.n = 0
      · simp only [q, beq_self_eq_true, if_true]; exact (hk ht q).symm
      · have : (c % g.n == 0) = false := by simpa using q
        rw [this]
        simp only [Bool.false_eq_true, if_false]
        have hc0 : 0 < c := by
          rcases Nat.eq_zero_or_pos c with z | z
          · subst z; simp at q
          · exact z
        rw [h.tmpKey hc0]
        congr 1
        have := div_succ (p := c - 1) hn
        rw [show c - 1 + 1 = c by omega] at this
        have h2 := mod_succ (p := c - 1) hn
        rw [show c - 1 + 1 = c by omega] at h2
        by_cases q3 : (c - 1) % g.n = g.n - 1
        · rw [if_neg (by simpa using q3)] at h2; exact absurd h2 q
        · have q4 : ((c - 1) % g.n == g.n - 1) = false := by simpa using q3
          rw [q4] at this; simpa using this.symm
  · -- tmpW
    intro ho
    rw [t2]
    rw [t1] at ho
    cases ht : take g s x
    · rw [ht] at ho
      simp only [Bool.false_or, Bool.and_eq_true, Bool.not_eq_true'] at ho
      simp; exact h.tmpW ho.1
    · simp only [Bool.toNat_true, if_true, Nat.add_sub_cancel]
      rw [hwd ht]
      unfold tmpIn; split <;> rfl
  · -- lk
    intro ho k hkM hcam hv
    have hwe : FifoOoo.writeEn s.fifo (fifoIn g s x) = (push s && insLast g s) := by
      unfold FifoOoo.writeEn; rw [Fifo.fifoWrite_eq hpp, hwen]
    refine lock_next (i := fifoIn g s x) (k := k) ?_ ?_ hv
    · -- valid implies locked before
      rw [t2] at hcam
      cases ht : take g s x
      · rw [ht] at hcam ho
        simp only [Bool.false_eq_true, if_false] at hcam
        rw [t1, ht] at ho
        simp only [Bool.false_or, Bool.and_eq_true, Bool.toNat_false, Nat.add_zero] at ho
        exact h.lk (ho.imp And.left id) k hkM hcam
      · rw [ht] at hcam
        simp only [if_true] at hcam
        unfold tmpIn at hcam
        rw [hfi] at hcam
        by_cases q : c % g.n = 0
        · rw [q] at hcam
          simp only [beq_self_eq_true, if_true, lookup, Bool.and_eq_true] at hcam
          exact fun _ => hcam.2
        · have : (c % g.n == 0) = false := by simpa using q
          rw [this] at hcam
          exact h.lk (Or.inr q) k hkM hcam
    · rw [hwe]
      intro q
      simp only [Bool.and_eq_true, beq_iff_eq] at q
      obtain ⟨⟨q1, q2⟩, q3⟩ := q
      have q1' := q1
      unfold push at q1'
      simp only [Bool.and_eq_true] at q1'
      have hcz : c % g.n = 0 := by
        rw [hil] at q2
        simp only [beq_iff_eq] at q2
        rw [q1'.1] at hpe
        simp at hpe
        rw [← hpe, mod_succ hn, if_neg (by simpa using q2)]
      cases ht : take g s x
      · rw [t1, ht, q1] at ho
        simp at ho
        exact ho hcz
      · rw [t2, ht] at hcam
        simp only [if_true] at hcam
        unfold tmpIn at hcam
        rw [hfi, hcz] at hcam
        simp only [beq_self_eq_true, if_true, lookup, Bool.and_eq_true] at hcam
        have h1 := hcam.1.2
        have h2 := q1'.2
        unfold FifoOoo.wrd at h2
        rw [q3] at h2
        rw [h1] at h2
        simp at h2
  · -- prev
    intro hp k hkM
    show (if s.tmp.occ && tmpRd g s then camIdx s else s.prev) k = false
    cases ho : s.tmp.occ
    · have : push s = false := by unfold push; rw [ho]; rfl
      rw [this] at hp
      simpa using h.prev hp k hkM
    · rw [hc.rd ho]
      have : push s = FifoOoo.wrd s.fifo := by unfold push; rw [ho]; rfl
      rw [this] at hp
      cases hwr : FifoOoo.wrd s.fifo
      · rw [hwr] at hp; simpa using h.prev hp k hkM
      · simpa using hc.idx ho k hkM
  · -- col
    intro hc0 hcol
    rw [t2] at hcol
    cases ht : take g s x
    · rw [ht] at hcol hc0
      simp at hcol hc0 ⊢
      exact h.col hc0 hcol
    · rw [ht] at hcol
      simp only [if_true] at hcol
      simp only [Bool.toNat_true]
      rcases Nat.eq_zero_or_pos c with z | z
      · unfold tmpIn at hcol
        rw [hfi, z] at hcol
        have ho : s.tmp.occ = false := by
          cases ho : s.tmp.occ
          · rfl
          · rw [ho, z] at hpe; simp at hpe
        simp [tick, ho] at hcol
      · omega
  · -- cams
    intro j hj1 hj2
    rw [hpn] at hj2
    show (if camWrite g s then upd s.cam s.fifo.ptr.wr s.tmp.reg.key else s.cam) (j % g.M) = key j
    rw [hc.camw]
    cases hp : (push s && insLast g s)
    · rw [hp] at hj2
      simp at hj2 ⊢
      exact h.cams j (by omega) hj2
    · rw [hp] at hj2
      simp only [Bool.toNat_true] at hj2
      simp only [if_true]
      simp only [Bool.and_eq_true] at hp
      have q1' := hp.1
      unfold push at q1'
      simp only [Bool.and_eq_true] at q1'
      rw [q1'.1] at hpe
      simp at hpe
      by_cases q : j = p / g.n
      · rw [q, ← h.wr, upd_same, h.tmpKey (by omega), ← hpe]; rfl
      · rw [upd_ne]
        · exact h.cams j (by omega) (by omega)
        · rw [h.wr]
          intro e1
          have h1 := hwl q1'.2
          have f3 := Nat.div_add_mod j g.M
          have f4 := Nat.div_add_mod (p / g.n) g.M
          have l3 : j / g.M < (p / g.n) / g.M := by
            apply Nat.lt_of_mul_lt_mul_left (a := g.M); omega
          have l4 := Nat.mul_le_mul_left g.M (Nat.succ_le_of_lt l3)
          rw [Nat.mul_succ] at l4
          omega
  · -- mem
    intro q hq1 hq2
    rw [hmem]
    cases hp : push s
    · rw [hp] at hq2
      simp at hq2 ⊢
      exact h.mem q (by omega) hq2
    · rw [hp] at hq2
      simp only [Bool.toNat_true] at hq2
      simp only [if_true]
      by_cases hqp : q = p
      · rw [hqp, ← h.wr, ← hoff, upd_same, hnew hp]
      · rw [upd_ne _ _ _ _ (hslot q (by omega) (by omega) hp)]
        exact h.mem q (by omega) (by omega)
  · -- rwok
    intro q hq
    cases hr : req g s x
    · rw [hr] at hq; exact h.rwok q (by simpa using hq)
    · rw [hr] at hq
      simp only [Bool.toNat_true] at hq
      by_cases hqr : q = r
      · have := h.mem r (Nat.le_refl _) (hrp1 hr)
        rw [hr1, hr2, ← h.rd] at this
        rw [hqr, hrw hr, this]
      · exact h.rwok q (by omega)
  · -- pre
    show (if (ramW g s).vld then !s.ram.preload && (ramW g s).accumulate && !(ramW g s).overwrite else s.ram.preload) = false
    rw [h.pre, hc.vld]
    cases hp : push s
    · rfl
    · have ho : s.tmp.occ = true := by unfold push at hp; simp only [Bool.and_eq_true] at hp; exact hp.1
      rw [hc.ow ho]; simp
  · -- dout
    rw [hpend]
    intro hr
    rw [hr]
    simp only [Bool.toNat_true, Nat.add_sub_cancel]
    show (if CumMask.acc (ramW g s) || (dispOut g s x).enVld then
      s.ram.mem (if CumMask.acc (ramW g s) then (ramW g s).addr else _) else s.ram.dout 0) = _
    have hev : (dispOut g s x).enVld = true := by
      have : ((dispOut g s x).enVld && (dispIn g s x).enRd) = true := hr
      simp only [Bool.and_eq_true] at this; exact this.1
    rw [hc.acc, hev, hrw hr]
    simp only [Bool.false_or, if_true, Bool.false_eq_true, if_false]
    rw [← hw]; rfl
  · exact hdisp
  · -- offe
    intro h0
    have e1 := hdisp.r_eq
    have e2 := hdisp.off_le
    rw [hw] at e1
    rw [hpn]
    have e3 : (r + (req g s x).toNat) = g.n * (e + (exe g s x).toNat) + (next g s x).disp.off := e1
    have hex : exe g s x = false := by
      cases hx : exe g s x
      · rfl
      · rw [hx] at e3
        simp only [Bool.toNat_true, Nat.mul_add, Nat.mul_one] at e3
        have := Bool.toNat_le (req g s x)
        omega
    rw [hex]
    cases hr : req g s x
    · rw [hex, hr] at e3
      simp at e3
      have := h.offe (by omega)
      simp; omega
    · have := hne (hrv hr)
      simp; omega
  · -- conf
    intro k hkM
    obtain ⟨c1, c2, c3⟩ := h.conf k hkM
    rw [show ∀ d : Bool, cnt g.M k (e + d.toNat) = cnt g.M k e + (d && e % g.M == k).toNat by
      intro d; cases d
      · simp
      · simp [cnt_succ]]
    rw [← hexec k]
    have hxa : FifoOoo.executes (fifoIn g s x, (FifoOoo.machine g.M).out s.fifo (fifoIn g s x)) k = true → ph k = .alloc := by
      intro q
      have q1 : ((dispOut g s x).xrd && (!Fifo.readWait s.fifo.ptr) && s.fifo.ptr.rd == k) = true := q
      simp only [Bool.and_eq_true, beq_iff_eq] at q1
      rw [← q1.2]
      exact h.fifo.xvld_iff.1 q1.1.2
    have hwf := hwrites k
    have hBk := hB k
    show cf k + (x.mB == some k).toNat ≤ _ ∧ _ ∧ ((if x.mB = some k then Phase.free else
      if FifoOoo.executes (fifoIn g s x, (FifoOoo.machine g.M).out s.fifo (fifoIn g s x)) k then Phase.reading else
      if FifoOoo.writes (fifoIn g s x, (FifoOoo.machine g.M).out s.fifo (fifoIn g s x)) k then Phase.alloc else ph k) = Phase.reading ↔ _)
    generalize FifoOoo.executes (fifoIn g s x, (FifoOoo.machine g.M).out s.fifo (fifoIn g s x)) k = X at *
    generalize FifoOoo.writes (fifoIn g s x, (FifoOoo.machine g.M).out s.fifo (fifoIn g s x)) k = W at *
    by_cases hm : x.mB = some k
    · have h1 := (hBk hm).2
      have h2 := c3.2 h1
      cases X
      · simp [hm]; omega
      · rw [hxa rfl] at h2; simp at h2
    · have hm' : (x.mB == some k) = false := by simpa using hm
      rw [hm', if_neg hm]
      cases X
      · cases W
        · simpa using ⟨c1, c2, c3⟩
        · have := hwf rfl
          rw [this] at c3
          simp at c3
          simp; omega
      · have := hxa rfl
        rw [this] at c3
        simp at c3
        simp; omega

end Verif.WriteAgg
