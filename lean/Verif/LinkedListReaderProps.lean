import Verif.LinkedListReader
/-!
# Properties C141 - C143 of `CLinkedListReader`
-/
namespace Verif.LinkedListReader

/-- `n` words of the memory from the index `a` as one answer -/
def seg (c : Cfg) (mem : Nat → Nat) (id a n : Nat) : List Word :=
  (List.range n).map fun t => ⟨id, mem ((a + t) % 2 ^ c.INDEX_WIDTH), t + 1 == n⟩

theorem seg_cons (c : Cfg) (mem : Nat → Nat) (id a n : Nat) :
    seg c mem id a (n + 1) = ⟨id, mem (a % 2 ^ c.INDEX_WIDTH), n == 0⟩ :: seg c mem id (a + 1) n := by
  unfold seg
  rw [List.range_succ_eq_map, List.map_cons, List.map_map]
  congr 1
  · simp only [Nat.add_zero]
    congr 1
    cases n <;> simp
  · apply List.map_congr_left
    intro t _
    show Word.mk _ _ _ = _
    congr 1
    · congr 2; omega
    · simp

theorem answer_seg (c : Cfg) (mem : Nat → Nat) (id b a len : Nat) (h : b = a % 2 ^ c.INDEX_WIDTH) :
    answer c mem ⟨id, b * 2 ^ c.ALIGN_BITS, len⟩ = seg c mem id a (len + 1) := by
  unfold answer seg
  apply List.map_congr_left
  intro t _
  rw [Nat.mul_div_cancel _ (Nat.pow_pos (by omega)), h, Nat.mod_add_mod]
  simp

/-- What a request asks for. -/
structure ReqOk (c : Cfg) (s : St) (l : Bool) (n : Nat) : Prop where
  sel : reqSel c s = (if l then c.ID_LAST else c.ID, n - 1, if l then c.ITEMS_IN_BLOCK else s.rem - n)
  pos : 1 ≤ n
  le : if l then n = s.rem + 1 ∧ s.rem ≤ sizeByPtrs c s else n ≤ s.rem ∧ n ≤ sizeByPtrs c s

theorem mod_sub_self {a b w : Nat} (h : b ≤ a) (ha : a < 2 ^ w) : (a + 2 ^ w - b) % 2 ^ w = a - b := by
  rw [show a + 2 ^ w - b = (a - b) + 2 ^ w by omega, Nat.add_mod_right, Nat.mod_eq_of_lt (by omega)]

theorem req_ok {c : Cfg} (hc : c.Ok) (hw : c.inBlockWidth ≤ c.PTR_WIDTH) {s : St} (hrd : s.rd < 2 ^ c.PTR_WIDTH)
    (hwr : s.wr < 2 ^ c.PTR_WIDTH) (hrem : s.rem ≤ c.ITEMS_IN_BLOCK) (hs : hasSpace s = true) : ∃ l n, ReqOk c s l n := by
  have h1 : c.ITEMS_IN_BLOCK + 1 ≤ 2 ^ c.inBlockWidth := le_two_pow_log2ceil _
  have h2 : 2 ^ c.inBlockWidth ≤ 2 ^ c.PTR_WIDTH := Nat.pow_le_pow_right (by omega) hw
  have h3 : c.BURST_LEN ≤ 2 ^ c.lenWidth := le_two_pow_log2ceil _
  have hb := hc.burst
  have hz : 1 ≤ sizeByPtrs c s := by
    have hne : s.wr ≠ s.rd := by simpa [hasSpace] using hs
    unfold sizeByPtrs
    by_cases h : s.rd ≤ s.wr
    · rw [mod_sub_self h hwr]; omega
    · rw [Nat.mod_eq_of_lt (by omega)]; omega
  have hzl : sizeByPtrs c s < 2 ^ c.PTR_WIDTH := Nat.mod_lt _ (by omega)
  have hcs : constraingSpace c s = min s.rem (sizeByPtrs c s) := by
    unfold constraingSpace
    rw [Nat.mod_eq_of_lt (by omega)]
    split <;> omega
  by_cases hbig : c.BURST_LEN < constraingSpace c s
  · refine ⟨false, c.BURST_LEN, ?_, by omega, ?_⟩
    · rw [reqSel, if_pos hbig, Nat.mod_eq_of_lt (by omega), mod_sub_self (by omega) (by omega)]
      simp
    · simp; omega
  · by_cases hl : (constrained c s && decide (s.rem < c.BURST_LEN)) = true
    · refine ⟨true, s.rem + 1, ?_, by omega, ?_⟩
      · rw [Bool.and_eq_true] at hl
        have h4 := of_decide_eq_true hl.1
        have h5 := of_decide_eq_true hl.2
        have h6 : sizeByPtrs c s % 2 ^ c.inBlockWidth ≤ sizeByPtrs c s := Nat.mod_le _ _
        rw [reqSel, if_neg hbig, if_pos (by simp [hl.1, h5]), hcs, Nat.min_eq_left (by omega), Nat.mod_eq_of_lt (by omega)]
        simp
      · rw [Bool.and_eq_true] at hl
        have h4 := of_decide_eq_true hl.1
        have h6 : sizeByPtrs c s % 2 ^ c.inBlockWidth ≤ sizeByPtrs c s := Nat.mod_le _ _
        simp; omega
    · have hrem1 : 1 ≤ s.rem := by
        rcases Nat.eq_zero_or_pos s.rem with h | h
        · exfalso; apply hl
          simp [constrained, h]; omega
        · exact h
      refine ⟨false, constraingSpace c s, ?_, by omega, ?_⟩
      · rw [reqSel, if_neg hbig, if_neg hl, mod_sub_self (by omega) (by omega), Nat.mod_eq_of_lt (a := constraingSpace c s - 1) (by omega),
          Nat.mod_eq_of_lt (a := constraingSpace c s) (by omega), mod_sub_self (by omega) (by omega)]
        simp
      · simp; omega

theorem item_at (c : Cfg) (mem : Nat → Nat) (b m j : Nat) (h : j < c.ITEMS_IN_BLOCK) :
    item c mem b (m * c.ITEMS_IN_BLOCK + j) = mem ((node c mem b m + j) % 2 ^ c.INDEX_WIDTH) := by
  unfold item
  rw [Nat.mul_comm m, Nat.mul_add_div (by omega), Nat.mul_add_mod, Nat.div_eq_of_lt h, Nat.mod_eq_of_lt h, Nat.add_zero]

structure Inv (c : Cfg) (mem : Nat → Nat) (s0 : St) (tr : List (In × Out)) (s : St) (m j : Nat) (l : Bool) (n : Nat) : Prop where
  base : s.base = (node c mem s0.base m + j) % 2 ^ c.INDEX_WIDTH
  rd : s.rd < 2 ^ c.PTR_WIDTH
  wr : s.wr < 2 ^ c.PTR_WIDTH
  jle : j ≤ c.ITEMS_IN_BLOCK
  items : delivered tr ++ s.f = (List.range (m * c.ITEMS_IN_BLOCK + j)).map (item c mem s0.base)
  ans : taken tr ++ seg c mem (if l then c.ID_LAST else c.ID) (node c mem s0.base m + j) n = (requests tr).flatMap (answer c mem)
  idle : s.pend = false → n = 0 ∧ l = false
  busy : s.pend = true → 1 ≤ n
  rem : if l then j + n = c.ITEMS_IN_BLOCK + 1 ∧ s.rem = c.ITEMS_IN_BLOCK else s.rem + n + j = c.ITEMS_IN_BLOCK
  req : itemsRequested c tr = m * c.ITEMS_IN_BLOCK + j + (if l then n - 1 else n)
  avail : NoOverrun c tr → (if l then n - 1 else n) ≤ dist c s.wr s.rd ∧
    m * c.ITEMS_IN_BLOCK + j + dist c s.wr s.rd = dist c s0.wr s0.rd + produced c tr

theorem dist_eq {c : Cfg} {a b : Nat} (ha : a < 2 ^ c.PTR_WIDTH) (hb : b < 2 ^ c.PTR_WIDTH) :
    dist c a b = if b ≤ a then a - b else a + 2 ^ c.PTR_WIDTH - b := by
  unfold dist
  split
  · rw [mod_sub_self (by omega) ha]
  · rw [Nat.mod_eq_of_lt (by omega)]

theorem dist_inc {c : Cfg} {a b : Nat} (ha : a < 2 ^ c.PTR_WIDTH) (hb : b < 2 ^ c.PTR_WIDTH) (h : 1 ≤ dist c a b) :
    dist c a ((b + 1) % 2 ^ c.PTR_WIDTH) = dist c a b - 1 := by
  have h2 : (b + 1) % 2 ^ c.PTR_WIDTH = if b + 1 = 2 ^ c.PTR_WIDTH then 0 else b + 1 := by
    split
    · next h => rw [h, Nat.mod_self]
    · rw [Nat.mod_eq_of_lt (by omega)]
  rw [dist_eq ha hb] at h ⊢
  rw [dist_eq ha (Nat.mod_lt _ (by omega)), h2]
  split at h <;> split <;> (try split) <;> omega

theorem dist_add {c : Cfg} {a b d : Nat} (ha : a < 2 ^ c.PTR_WIDTH) (hb : b < 2 ^ c.PTR_WIDTH) (hd : d < 2 ^ c.PTR_WIDTH)
    (h : dist c d a + dist c a b < 2 ^ c.PTR_WIDTH) : dist c d b = dist c d a + dist c a b := by
  rw [dist_eq hd ha, dist_eq ha hb] at h ⊢
  rw [dist_eq hd hb]
  split at h <;> split at h <;> split <;> omega

theorem noOverrun_prefix {c : Cfg} {a b : List (In × Out)} (h : NoOverrun c (a ++ b)) : NoOverrun c a :=
  fun e he => h e (List.mem_append_left _ he)

theorem head_eq {γ : Type} {a : List γ} {b c : γ} {l E : List γ} (h1 : a ++ [b] <+: E) (h2 : a ++ c :: l <+: E) : b = c := by
  obtain ⟨x, rfl⟩ := h1
  obtain ⟨y, hy⟩ := h2
  rw [List.append_assoc, List.append_assoc] at hy
  have := List.append_cancel_left hy
  simp at this
  exact this.1.symm

/-- pointers and the number of items made available when the position moves by `d` items -/
theorem avail_step {c : Cfg} {s : St} {x : In} {o : Out} {tr : List (In × Out)} (hrd : s.rd < 2 ^ c.PTR_WIDTH)
    (hwr : s.wr < 2 ^ c.PTR_WIDTH) (hx : x.rdSet = none) (ho : o.wrPtr = s.wr ∧ o.rdPtr = s.rd) {d : Nat} (hd : d ≤ 1)
    (hdr : (next c s x).rd = (s.rd + d) % 2 ^ c.PTR_WIDTH) (hdl : d ≤ dist c s.wr s.rd) (hno : NoOverrun c (tr ++ [(x, o)])) :
    dist c (next c s x).wr (next c s x).rd + d + produced c tr = dist c s.wr s.rd + produced c (tr ++ [(x, o)]) ∧
    dist c s.wr s.rd ≤ dist c (next c s x).wr (next c s x).rd + d := by
  have h0 : ∀ w, w < 2 ^ c.PTR_WIDTH → d ≤ dist c w s.rd → dist c w ((s.rd + d) % 2 ^ c.PTR_WIDTH) + d = dist c w s.rd := by
    intro w hw hdw
    rcases Nat.lt_or_ge d 1 with h | h
    · have : d = 0 := by omega
      subst this
      rw [Nat.add_zero, Nat.add_zero, Nat.mod_eq_of_lt hrd]
    · have : d = 1 := by omega
      subst this
      rw [dist_inc hw hrd hdw]; omega
  rw [hdr]
  have hp : produced c (tr ++ [(x, o)]) = produced c tr + match x.wrSet with
    | some v => dist c (v % 2 ^ c.PTR_WIDTH) s.wr
    | none => 0 := by
      simp [produced, ho.1]
      rfl
  rw [hp]
  have hmw : ∀ v, v % 2 ^ c.PTR_WIDTH < 2 ^ c.PTR_WIDTH := fun v => Nat.mod_lt _ (by omega)
  cases hset : x.wrSet with
  | none =>
    have : (next c s x).wr = s.wr := by simp [next, hset]
    rw [this]
    have := h0 s.wr hwr hdl
    simp; omega
  | some v =>
    have e1 : (next c s x).wr = v % 2 ^ c.PTR_WIDTH := by simp [next, hset]
    have e2 := hno (x, o) (by simp) v hset
    rw [ho.1, ho.2] at e2
    have e3 := dist_add hwr hrd (hmw v) e2
    have e4 := h0 (v % 2 ^ c.PTR_WIDTH) (hmw v) (by omega)
    rw [e1]
    simp only
    omega

theorem inv_holds {c : Cfg} (hc : c.Ok) (hw : c.inBlockWidth ≤ c.PTR_WIDTH) {mem : Nat → Nat} {s0 : St} (h0 : IsInit c s0)
    (E : List Word) (is : List In) (hrun : Running is)
    (hE : (requests ((machine c).trace s0 is)).flatMap (answer c mem) <+: E)
    (henv : taken ((machine c).trace s0 is) <+: E) :
    ∃ m j l n, Inv c mem s0 ((machine c).trace s0 is) ((machine c).final s0 is) m j l n := by
  have hI1 : 1 ≤ c.ITEMS_IN_BLOCK := by
    rcases Nat.eq_zero_or_pos c.ITEMS_IN_BLOCK with h | h
    · have h1 := hc.fit1
      have h2 := hc.burst
      rw [Cfg.inBlockWidth, h] at h1
      have : log2ceil (0 + 1) = 1 := rfl
      rw [this] at h1; omega
    · exact h
  induction is using List.reverseRecOn with
  | nil =>
    refine ⟨0, 0, false, 0, ?_⟩
    constructor
    · simp [node, Nat.mod_eq_of_lt h0.base]
    · exact h0.rd
    · exact h0.wr
    · omega
    · simp [delivered, h0.f]
    · simp [taken, requests, seg]
    · simp
    · simp [h0.pend]
    · simp [h0.rem]
    · simp [itemsRequested, requests]
    · intro _; simp [produced]
  | append_singleton is x ih =>
    rw [Machine.trace_snoc] at hE henv ⊢
    rw [Machine.final_append]
    have eo : (machine c).outAfter s0 is x = out c ((machine c).final s0 is) x := rfl
    have en : (machine c).final ((machine c).final s0 is) [x] = next c ((machine c).final s0 is) x := rfl
    rw [eo] at hE henv ⊢
    rw [en]
    generalize (machine c).final s0 is = s at *
    generalize (machine c).trace s0 is = tr at *
    have eR : requests (tr ++ [(x, out c s x)]) = requests tr ++ given ((out c s x).reqVld && x.reqRd) (out c s x).req := by
      simp [requests]
    have eT : taken (tr ++ [(x, out c s x)]) = taken tr ++ given (x.rVld && (x.fRd && s.pend)) x.r := by simp [taken, out]
    have eD : delivered (tr ++ [(x, out c s x)]) = delivered tr ++ given (x.fv && !s.f.isEmpty && x.rd) (s.f.headD 0) := by
      simp [delivered, out]
    have eI : itemsRequested c (tr ++ [(x, out c s x)]) = itemsRequested c tr +
        ((given ((out c s x).reqVld && x.reqRd) (out c s x).req).map fun q => if q.id = c.ID_LAST then q.len else q.len + 1).sum := by
      rw [itemsRequested, eR, List.map_append, List.sum_append]; rfl
    rw [eR, List.flatMap_append] at hE
    rw [eT] at henv
    obtain ⟨m, j, l, n, h⟩ := ih (fun y hy => hrun y (List.mem_append_left _ hy)) ((List.prefix_append _ _).trans hE)
      ((List.prefix_append _ _).trans henv)
    obtain ⟨hb, hr⟩ := hrun x (by simp)
    have hfifo : given (x.fv && !s.f.isEmpty && x.rd) (s.f.headD 0) ++ (if x.fv && !s.f.isEmpty && x.rd then s.f.tail else s.f) = s.f := by
      cases hf : s.f with
      | nil => simp
      | cons a f => cases h : x.fv && x.rd <;> cases h1 : x.fv <;> simp_all
    have hwr' : (next c s x).wr < 2 ^ c.PTR_WIDTH := by
      have := h.wr
      unfold next
      cases x.wrSet <;> simp only
      · exact this
      · exact Nat.mod_lt _ (by omega)
    cases hp : s.pend
    · -- idle
      obtain ⟨hn, hl⟩ := h.idle hp
      subst hn hl
      have hans := h.ans
      simp only [seg, List.range_zero, List.map_nil, List.append_nil] at hans
      have hrem := h.rem
      simp only [Bool.false_eq_true, if_false] at hrem
      have e0 : given (x.rVld && (x.fRd && s.pend)) x.r = [] := by simp [hp]
      have ep : pushVld c s x = false := by simp [pushVld, hp]
      have hf' : (next c s x).f = if x.fv && !s.f.isEmpty && x.rd then s.f.tail else s.f := by simp [next, ep]
      have hrd' : (next c s x).rd = (s.rd + 0) % 2 ^ c.PTR_WIDTH := by
        simp [next, hr, hp, Nat.mod_eq_of_lt h.rd]
      have hbase' : (next c s x).base = s.base := by simp [next, hb, hp]
      have hav := fun hno => avail_step (tr := tr) (o := out c s x) h.rd h.wr hr ⟨rfl, rfl⟩ (Nat.zero_le 1) hrd' (Nat.zero_le _) hno
      have hitems : delivered (tr ++ [(x, out c s x)]) ++ (next c s x).f = (List.range (m * c.ITEMS_IN_BLOCK + j)).map (item c mem s0.base) := by
        rw [eD, hf', List.append_assoc, hfifo, h.items]
      by_cases hreq : (bufferHasSpace c x && hasSpace s && x.reqRd) = true
      · have hreq' := hreq
        simp only [Bool.and_eq_true] at hreq'
        obtain ⟨l, n, hq⟩ := req_ok hc hw h.rd h.wr (by omega) hreq'.1.2
        have hpos := hq.pos
        have hle := hq.le
        have er : given ((out c s x).reqVld && x.reqRd) (out c s x).req =
            [⟨if l then c.ID_LAST else c.ID, s.base * 2 ^ c.ALIGN_BITS, n - 1⟩] := by
          simp [out, hp, hreq', hq.sel]
        have hpn : (next c s x).pend = true := by simp [next, hp, hreq']
        have hdo : doReq c s x = true := by simp [doReq, hp, hreq']
        have hremn : (next c s x).rem = if l then c.ITEMS_IN_BLOCK else s.rem - n := by
          simp [next, hdo, hq.sel]
        refine ⟨m, j, l, n, ?_, ?_, hwr', h.jle, hitems, ?_, ?_, fun _ => hpos, ?_, ?_, ?_⟩
        · rw [hbase', h.base]
        · rw [hrd']; exact Nat.mod_lt _ (by have := h.rd; omega)
        · rw [eT, e0, eR, er, List.flatMap_append, ← hans, List.append_nil]
          simp only [List.flatMap_cons, List.flatMap_nil, List.append_nil]
          rw [answer_seg c mem _ _ _ _ h.base, show n - 1 + 1 = n by omega]
        · rw [hpn]; simp
        · rw [hremn]
          cases l <;> simp at hle ⊢ <;> omega
        · have hreqI := h.req
          have hid := hc.ids
          rw [eI, er, hreqI]
          cases l <;> simp at hle ⊢
          · rw [if_neg hid]; omega
        · intro hno
          obtain ⟨a1, a2⟩ := h.avail (noOverrun_prefix hno)
          obtain ⟨b1, b2⟩ := hav hno
          have : sizeByPtrs c s = dist c s.wr s.rd := rfl
          refine ⟨?_, by omega⟩
          cases l <;> simp at hle ⊢ <;> omega
      · have er : given ((out c s x).reqVld && x.reqRd) (out c s x).req = [] := by
          have : ((out c s x).reqVld && x.reqRd) = false := by
            rw [← Bool.not_eq_true]
            intro h; apply hreq
            simpa [out, hp] using h
          rw [this]; rfl
        have hpn : (next c s x).pend = false := by
          rw [← Bool.not_eq_true]
          intro h; apply hreq
          simp [next, hp] at h ⊢
          exact ⟨⟨h.1.2, h.2⟩, h.1.1⟩
        have hdo : doReq c s x = false := by
          rw [← Bool.not_eq_true]
          intro h; apply hreq
          simpa [doReq, hp] using h
        refine ⟨m, j, false, 0, ?_, ?_, hwr', h.jle, hitems, ?_, fun _ => ⟨rfl, rfl⟩, ?_, ?_, by rw [eI, er]; exact h.req, ?_⟩
        · rw [hbase', h.base]
        · rw [hrd']; exact Nat.mod_lt _ (by have := h.rd; omega)
        · rw [eT, e0, eR, er, List.append_nil, List.append_nil]
          simpa [seg] using hans
        · rw [hpn]; simp
        · simp [next, hdo]; omega
        · intro hno
          obtain ⟨a1, a2⟩ := h.avail (noOverrun_prefix hno)
          obtain ⟨b1, b2⟩ := hav hno
          exact ⟨by simp, by omega⟩
    · -- words of an answer
      have hn := h.busy hp
      obtain ⟨n, rfl⟩ : ∃ k, n = k + 1 := ⟨n - 1, by omega⟩
      have er : given ((out c s x).reqVld && x.reqRd) (out c s x).req = [] := by simp [out, hp]
      have hdo : doReq c s x = false := by simp [doReq, hp]
      have hremn : (next c s x).rem = s.rem := by simp [next, hdo]
      have hans := h.ans
      rw [seg_cons] at hans
      cases ht : x.rVld && x.fRd
      · -- stall
        have e0 : given (x.rVld && (x.fRd && s.pend)) x.r = [] := by
          rw [← Bool.and_assoc, ht]; rfl
        have ep : (pushVld c s x && x.fRd) = false := by
          rw [← Bool.not_eq_true]
          intro h
          simp [pushVld] at h
          simp [h] at ht
        have hack : dataAck c x = false := by
          rw [← Bool.not_eq_true]
          intro h
          simp [dataAck] at h
          simp [h] at ht
        have hf' : (next c s x).f = if x.fv && !s.f.isEmpty && x.rd then s.f.tail else s.f := by simp [next, ep]
        have hrd' : (next c s x).rd = (s.rd + 0) % 2 ^ c.PTR_WIDTH := by
          have : (x.rVld && s.pend && x.fRd && isMyData c x) = false := by
            rw [← Bool.not_eq_true]
            intro h
            simp at h
            simp [h] at ht
          simp [next, hr, this, Nat.mod_eq_of_lt h.rd]
        refine ⟨m, j, l, n + 1, ?_, ?_, hwr', h.jle, ?_, ?_, ?_, fun _ => hn, ?_, by rw [eI, er]; exact h.req, ?_⟩
        · simp only [next, hb, hack]
          simpa using h.base
        · rw [hrd']; exact Nat.mod_lt _ (by have := h.rd; omega)
        · rw [eD, hf', List.append_assoc, hfifo, h.items]
        · rw [eT, e0, eR, er, List.append_nil, List.append_nil]; exact h.ans
        · simp [next, hp, hack]
        · rw [hremn]; exact h.rem
        · intro hno
          obtain ⟨a1, a2⟩ := h.avail (noOverrun_prefix hno)
          obtain ⟨b1, b2⟩ := avail_step (tr := tr) (o := out c s x) h.rd h.wr hr ⟨rfl, rfl⟩ (Nat.zero_le 1) hrd' (Nat.zero_le _) hno
          exact ⟨by omega, by omega⟩
      · rw [Bool.and_eq_true] at ht
        have e0 : given (x.rVld && (x.fRd && s.pend)) x.r = [x.r] := by simp [ht, hp]
        rw [e0] at henv
        have hx : x.r = ⟨if l then c.ID_LAST else c.ID, mem ((node c mem s0.base m + j) % 2 ^ c.INDEX_WIDTH), n == 0⟩ := by
          refine head_eq henv (l := seg c mem (if l then c.ID_LAST else c.ID) (node c mem s0.base m + j + 1) n) ?_
          rw [hans]
          exact (List.prefix_append _ _).trans hE
        have hack : dataAck c x = true := by
          simp only [dataAck, ht, hx]
          cases l <;> simp
        have hpn : (next c s x).pend = !(n == 0) := by
          simp only [next, hp, hack, hx]; simp
        have hrem := h.rem
        by_cases hlast : l = true ∧ n = 0
        · -- address of the next node
          obtain ⟨rfl, rfl⟩ := hlast
          simp only [if_true] at hx hrem hans
          have hj : j = c.ITEMS_IN_BLOCK := by omega
          subst hj
          have hid := hc.ids
          have hid' : (c.ID_LAST == c.ID) = false := by simpa using fun h => hid h.symm
          have ep : (pushVld c s x && x.fRd) = false := by simp [pushVld, hx, hid']
          have hf' : (next c s x).f = if x.fv && !s.f.isEmpty && x.rd then s.f.tail else s.f := by simp [next, ep]
          have hrd' : (next c s x).rd = (s.rd + 0) % 2 ^ c.PTR_WIDTH := by
            have : isMyData c x = false := by simp [isMyData, hx, hid']
            simp [next, hr, this, Nat.mod_eq_of_lt h.rd]
          refine ⟨m + 1, 0, false, 0, ?_, ?_, hwr', by omega, ?_, ?_, fun _ => ⟨rfl, rfl⟩, ?_, ?_, by
            rw [eI, er]
            have := h.req
            rw [Nat.succ_mul]
            simp at this ⊢; omega, ?_⟩
          · simp only [next, hb, hack, hp, hx, node]
            simp
          · rw [hrd']; exact Nat.mod_lt _ (by have := h.rd; omega)
          · rw [eD, hf', List.append_assoc, hfifo, h.items, Nat.add_zero, Nat.succ_mul]
          · rw [eT, e0, eR, er, List.append_nil, ← hans, hx]
            simp [seg]
          · rw [hpn]; simp
          · simp; omega
          · intro hno
            obtain ⟨a1, a2⟩ := h.avail (noOverrun_prefix hno)
            obtain ⟨b1, b2⟩ := avail_step (tr := tr) (o := out c s x) h.rd h.wr hr ⟨rfl, rfl⟩ (Nat.zero_le 1) hrd' (Nat.zero_le _) hno
            refine ⟨by simp, ?_⟩
            rw [Nat.add_zero, Nat.succ_mul]; omega
        · -- item
          have hjl : j < c.ITEMS_IN_BLOCK := by
            cases l <;> simp at hrem hlast <;> omega
          have hmy : isMyData c x = true := by
            simp only [isMyData, hx]
            cases l <;> simp at hlast ⊢
            right; exact hlast
          have ep : (pushVld c s x && x.fRd) = true := by
            simp only [pushVld, hx, ht, hp]
            cases l <;> simp at hlast ⊢
            right; exact hlast
          have hsel : (x.r.last && x.r.id == c.ID_LAST) = false := by
            rw [hx]
            have hid := hc.ids
            cases l <;> simp at hlast ⊢
            · intro _; exact hid
            · exact hlast
          have hf' : (next c s x).f = (if x.fv && !s.f.isEmpty && x.rd then s.f.tail else s.f) ++ [x.r.data] := by
            simp [next, ep]
          have hrd' : (next c s x).rd = (s.rd + 1) % 2 ^ c.PTR_WIDTH := by simp [next, hr, hmy, ht, hp]
          have hlI : if l then 1 ≤ n else True := by cases l <;> simp at hlast ⊢; omega
          refine ⟨m, j + 1, l && !(n == 0), n, ?_, ?_, hwr', by omega, ?_, ?_, ?_, ?_, ?_, by
            rw [eI, er]
            have := h.req
            cases l <;> simp at this hlI ⊢ <;> (try split) <;> omega, ?_⟩
          · simp only [next, hb, hack, hp, hsel]
            simp [h.base, Nat.add_assoc]
          · rw [hrd']; exact Nat.mod_lt _ (by have := h.rd; omega)
          · rw [eD, hf']
            rw [List.append_assoc, ← List.append_assoc (given _ _), hfifo, ← List.append_assoc, h.items, ← Nat.add_assoc, List.range_succ,
              List.map_append, hx]
            simp [item_at c mem s0.base m j hjl]
          · rw [eT, e0, eR, er, List.append_nil, ← hans, hx, List.append_assoc, ← Nat.add_assoc]
            congr 2
            rcases Nat.eq_zero_or_pos n with h1 | h1
            · subst h1; simp [seg]
            · have : (n == 0) = false := by simp; omega
              simp [this]
          · rw [hpn]
            intro h1
            simp at h1
            exact ⟨h1, by simp [h1]⟩
          · rw [hpn]; simp; omega
          · rw [hremn]
            cases l <;> simp at hrem hlI ⊢
            · omega
            · split <;> omega
          · intro hno
            obtain ⟨a1, a2⟩ := h.avail (noOverrun_prefix hno)
            have hd1 : 1 ≤ dist c s.wr s.rd := by
              cases l <;> simp at hlI a1 <;> omega
            obtain ⟨b1, b2⟩ := avail_step (tr := tr) (o := out c s x) h.rd h.wr hr ⟨rfl, rfl⟩ (Nat.le_refl 1) hrd' hd1 hno
            refine ⟨?_, by omega⟩
            cases l <;> simp at hlI a1 ⊢
            · omega
            · split <;> omega

theorem inv_of {c : Cfg} (hc : c.Ok) (hw : c.inBlockWidth ≤ c.PTR_WIDTH) {mem : Nat → Nat} {s0 : St} (h0 : IsInit c s0)
    {is : List In} (hrun : Running is) (henv : Answers c mem ((machine c).trace s0 is)) :
    ∃ m j l n, Inv c mem s0 ((machine c).trace s0 is) ((machine c).final s0 is) m j l n :=
  inv_holds hc hw h0 _ is hrun List.prefix_rfl henv

/-- The full claim C141 for given parameters: the items given out are the items of the linked list, from its first one, in order. -/
def ReadsList (c : Cfg) : Prop :=
  ∀ (mem : Nat → Nat) (s0 : St) (is : List In), IsInit c s0 → Running is → Answers c mem ((machine c).trace s0 is) →
    delivered ((machine c).trace s0 is) = (List.range (delivered ((machine c).trace s0 is)).length).map (item c mem s0.base)

/-- **C141, partial**: holds if `PTR_WIDTH` is not less than the width of `inBlockRemain`. -/
theorem reader_items_partial {c : Cfg} (hc : c.Ok) (hw : c.inBlockWidth ≤ c.PTR_WIDTH) : ReadsList c := by
  intro mem s0 is h0 hrun henv
  obtain ⟨m, j, l, n, h⟩ := inv_of hc hw h0 hrun henv
  have h1 := h.items
  have h2 := congrArg List.length h1
  rw [List.length_append, List.length_map, List.length_range] at h2
  have h3 := congrArg (List.take (delivered ((machine c).trace s0 is)).length) h1
  rw [List.take_left, ← List.map_take, List.take_range, Nat.min_eq_left (by omega)] at h3
  exact h3

/-- The full claim C142 for given parameters: items which the driver has not added yet are neither requested nor given out. -/
def NeverAhead (c : Cfg) : Prop :=
  ∀ (mem : Nat → Nat) (s0 : St) (is : List In), IsInit c s0 → Running is → Answers c mem ((machine c).trace s0 is) →
    NoOverrun c ((machine c).trace s0 is) →
    itemsRequested c ((machine c).trace s0 is) ≤ dist c s0.wr s0.rd + produced c ((machine c).trace s0 is) ∧
    (delivered ((machine c).trace s0 is)).length ≤ itemsRequested c ((machine c).trace s0 is)

/-- **C142, partial**: holds if `PTR_WIDTH` is not less than the width of `inBlockRemain`. -/
theorem reader_bound_partial {c : Cfg} (hc : c.Ok) (hw : c.inBlockWidth ≤ c.PTR_WIDTH) : NeverAhead c := by
  intro mem s0 is h0 hrun henv hno
  obtain ⟨m, j, l, n, h⟩ := inv_of hc hw h0 hrun henv
  obtain ⟨h1, h2⟩ := h.avail hno
  have h3 := h.req
  have h4 := congrArg List.length h.items
  rw [List.length_append, List.length_map, List.length_range] at h4
  exact ⟨by omega, by omega⟩

/-- pointers of 2 bits, 7 items in a node -/
abbrev narrow : Cfg := ⟨7, 3, 2, 16, 3, 3, 4⟩

theorem narrow_ok : narrow.Ok := ⟨by decide, by decide, by decide, by decide⟩

/-- **C142 does not hold for narrow pointers**: `fitTo` cuts `inBlockRemain` = 4 to 0, then four words are requested
while one item is available. -/
theorem reader_bound_fails : ¬ NeverAhead narrow := by
  intro h
  let x : In := ⟨none, none, none, true, false, ⟨0, 0, false⟩, false, true, false, 0⟩
  have := (h (fun _ => 0) ⟨false, 0, 7, 0, 3, []⟩
    [x, { x with rVld := true, r := ⟨3, 0, false⟩ }, { x with rVld := true, r := ⟨3, 0, false⟩ },
     { x with rVld := true, r := ⟨3, 0, true⟩ }, { x with wrSet := some 0 }, x]
    ⟨rfl, by decide, rfl, by decide, by decide, rfl⟩ (by unfold Running; decide) (by unfold Answers; decide)
    (by
      intro e he v hv
      simp [x, Machine.trace, machine, out, next] at he
      rcases he with rfl | rfl | rfl | rfl | rfl | rfl <;> simp at hv
      subst hv
      decide)).1
  revert this
  decide

/-- **C141 does not hold for narrow pointers**: the address of the next node is given out as an item. -/
theorem reader_items_fails : ¬ ReadsList narrow := by
  intro h
  let x : In := ⟨none, none, none, true, false, ⟨0, 0, false⟩, true, true, true, 0⟩
  have := h (fun a => a) ⟨false, 0, 7, 0, 3, []⟩
    [x, { x with rVld := true, r := ⟨3, 0, false⟩ }, { x with rVld := true, r := ⟨3, 1, false⟩ },
     { x with rVld := true, r := ⟨3, 2, true⟩ }, { x with wrSet := some 0 }, x,
     { x with rVld := true, r := ⟨3, 3, false⟩ }, { x with rVld := true, r := ⟨3, 4, false⟩ }, { x with rVld := true, r := ⟨3, 5, false⟩ },
     { x with rVld := true, r := ⟨3, 6, true⟩ }, x, { x with rVld := true, r := ⟨3, 7, false⟩ }, x]
    ⟨rfl, by decide, rfl, by decide, by decide, rfl⟩ (by unfold Running; decide) (by unfold Answers; decide)
  revert this
  decide

section
/-- 3 items in a node, the first node is at word 0, the second one at word 5 -/
abbrev exCfg : Cfg := ⟨3, 2, 4, 16, 3, 3, 4⟩
abbrev exMem : Nat → Nat := fun a => if a = 3 then 40 else a + 100
abbrev exIn : List In :=
  let x : In := ⟨none, none, none, true, false, ⟨0, 0, false⟩, true, true, true, 0⟩
  [{ x with wrSet := some 4 }, x, { x with rVld := true, r := ⟨3, 100, false⟩ }, { x with rVld := true, r := ⟨3, 101, true⟩ }, x,
   { x with rVld := true, r := ⟨4, 102, false⟩ }, { x with rVld := true, r := ⟨4, 40, true⟩ }, x,
   { x with rVld := true, r := ⟨3, 105, true⟩ }, x]
abbrev exInit : St := ⟨false, 0, 3, 0, 0, []⟩

/-- non-vacuity of C141-C143: four items of two nodes -/
example : exCfg.Ok ∧ exCfg.inBlockWidth ≤ exCfg.PTR_WIDTH ∧ IsInit exCfg exInit ∧ Running exIn ∧
    Answers exCfg exMem ((machine exCfg).trace exInit exIn) ∧ NoOverrun exCfg ((machine exCfg).trace exInit exIn) ∧
    delivered ((machine exCfg).trace exInit exIn) = [100, 101, 102, 105] ∧ produced exCfg ((machine exCfg).trace exInit exIn) = 4 := by
  refine ⟨⟨by decide, by decide, by decide, by decide⟩, by decide, ⟨rfl, by decide, rfl, by decide, by decide, rfl⟩,
    by unfold Running; decide, by unfold Answers; decide, ?_, by decide, by decide⟩
  intro e he v hv
  simp [Machine.trace, machine, out, next] at he
  rcases he with rfl | rfl | rfl | rfl | rfl | rfl | rfl | rfl | rfl | rfl <;> simp at hv
  subst hv
  decide
end

/-- **C143** The reader never gets stuck: while words of an answer are missing it takes every word for which the output fifo has a
space; otherwise it asks for items as soon as some are available and the buffer has a space for the burst. -/
theorem reader_progress {c : Cfg} (hc : c.Ok) (hw : c.inBlockWidth ≤ c.PTR_WIDTH) {mem : Nat → Nat} {s0 : St} (h0 : IsInit c s0)
    {is : List In} (hrun : Running is) (henv : Answers c mem ((machine c).trace s0 is)) (x : In) :
    (taken ((machine c).trace s0 is) ≠ (requests ((machine c).trace s0 is)).flatMap (answer c mem) →
      ((machine c).outAfter s0 is x).rRd = x.fRd) ∧
    (taken ((machine c).trace s0 is) = (requests ((machine c).trace s0 is)).flatMap (answer c mem) → x.size ≤ c.BURST_LEN →
      ((machine c).outAfter s0 is x).wrPtr ≠ ((machine c).outAfter s0 is x).rdPtr → ((machine c).outAfter s0 is x).reqVld = true) := by
  obtain ⟨m, j, l, n, h⟩ := inv_of hc hw h0 hrun henv
  have e : ∀ y, (machine c).outAfter s0 is y = out c ((machine c).final s0 is) y := fun _ => rfl
  rw [e]
  have hans := h.ans
  cases hp : ((machine c).final s0 is).pend
  · obtain ⟨rfl, rfl⟩ := h.idle hp
    simp [seg] at hans
    refine ⟨fun hne => absurd hans hne, fun _ hs hne => ?_⟩
    simp [out] at hne
    simp [out, hp, bufferHasSpace, hasSpace, hne]
    omega
  · refine ⟨fun _ => by simp [out, hp], fun heq => ?_⟩
    have := h.busy hp
    rw [heq] at hans
    have := congrArg List.length hans
    simp [seg] at this
    omega

end Verif.LinkedListReader
