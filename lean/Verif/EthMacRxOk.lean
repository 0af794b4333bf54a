import Verif.EthMacRxProps
import Verif.FooterSplitTop
import Verif.AxisFifoDropProps
/-!
# C324 - C329: what holds for the receiver of `EthernetMac`
-/
namespace Verif.EthMacRx

/-- A frame which is to be delivered, as a list of bytes. -/
structure Acc (c : Cfg) (f : List Nat) : Prop where
  mine : f.take 6 = macBytes c
  good : c.good f = true

theorem mac_len (c : Cfg) : (macBytes c).length = 6 := by simp [macBytes]

theorem Acc.len {c : Cfg} {f : List Nat} (h : Acc c f) : 6 ≤ f.length := by
  have := congrArg List.length h.mine
  rw [mac_len, List.length_take] at this
  omega

theorem Acc.byte {c : Cfg} {f : List Nat} (h : Acc c f) (i d : Nat) (hi : i < 6) (hd : f[i]? = some d) :
    d = c.mac / 256 ^ i % 256 := by
  have h1 : (f.take 6)[i]? = some d := by rw [List.getElem?_take, if_pos hi]; exact hd
  rw [h.mine, macBytes, List.getElem?_map, List.getElem?_range hi] at h1
  simpa using h1.symm

/-! ## Frames as words -/

theorem mark_cons (d : Nat) (t : List Nat) : mark (d :: t) = (d, t.isEmpty) :: mark t := by
  cases t <;> rfl

theorem mark_ne {f : List Nat} (h : f ≠ []) : ∃ g d, mark f = g ++ [(d, true)] ∧ ∀ e ∈ g, e.2 = false := by
  induction f with
  | nil => exact absurd rfl h
  | cons d t ih =>
    cases t with
    | nil => exact ⟨[], d, rfl, by simp⟩
    | cons d' t =>
      obtain ⟨g, x, h1, h2⟩ := ih (by simp)
      exact ⟨(d, false) :: g, x, by rw [mark_cons, h1]; rfl, by simpa using h2⟩

theorem mark_len (f : List Nat) : (mark f).length = f.length := by
  induction f with
  | nil => rfl
  | cons d t ih => rw [mark_cons]; simp [ih]

abbrev FW := FooterSplit.Word Nat

def toWord (e : Nat × Bool) : FW := ⟨[e.1], e.2⟩
def words (f : List Nat) : List FW := (mark f).map toWord
def unW (w : FW) : Nat × Bool := (w.bytes.headD 0, w.last)
def wp (w : W) : Nat × Bool := (w.d, w.last)
def unO (o : List Nat × Bool) : Nat × Bool := (o.1.headD 0, o.2)

theorem bytesOf_words (f : List Nat) : (FooterSplit.bytesOf (words f)).length = f.length := by
  have : ∀ l : List (Nat × Bool), (FooterSplit.bytesOf (l.map toWord)).length = l.length := by
    intro l
    induction l with
    | nil => rfl
    | cons e l ih => simp only [FooterSplit.bytesOf, List.map_cons, List.flatMap_cons, List.length_append] at ih ⊢; rw [ih]; simp [toWord]; omega
  rw [words, this, mark_len]

theorem words_frame (f : List Nat) (h : 6 ≤ f.length) : FooterSplit.Frame cut (words f) := by
  obtain ⟨g, d, h1, h2⟩ := mark_ne (f := f) (by intro e; simp [e] at h)
  refine ⟨⟨g.map toWord, toWord (d, true), by simp [words, h1], rfl, by simp [toWord], by simp [toWord, cut], ?_⟩, ?_⟩
  · intro x hx
    obtain ⟨e, he, rfl⟩ := List.mem_map.1 hx
    exact ⟨h2 e he, rfl⟩
  · rw [bytesOf_words]; show 4 ≤ _; omega

/-- The prefix of a frame which is sent by the cutter. -/
theorem emit_words (f : List Nat) : ∀ p, p + f.length ≠ 4 →
    (((FooterSplit.ann p (words f)).flatMap (FooterSplit.emit0 cut)).map unO) = mark (f.take (f.length - 4)) := by
  induction f with
  | nil => intro p _; rfl
  | cons d t ih =>
    intro p hp
    have hr : (FooterSplit.bytesOf (words (d :: t))).length = t.length + 1 := by rw [bytesOf_words]; rfl
    have hw : words (d :: t) = ⟨[d], t.isEmpty⟩ :: words t := by simp [words, mark_cons, toWord]
    have hi := ih (p + 1) (by simp at hp ⊢; omega)
    rw [hw] at hr ⊢
    rw [FooterSplit.ann, List.flatMap_cons, List.map_append, hr]
    rw [show p + (FooterSplit.Word.bytes ⟨[d], t.isEmpty⟩).length = p + 1 from rfl, hi]
    rcases Nat.lt_or_ge 4 (t.length + 1) with h | h
    · have e1 : FooterSplit.emit0 cut ⟨⟨[d], t.isEmpty⟩, p, t.length + 1⟩ = [([d], decide (t.length + 1 ≤ 5))] := by
        have : (t.length + 1 - 4) = (t.length - 4) + 1 := by omega
        simp only [FooterSplit.emit0, cut, h, if_true, this]
        simp
      rw [e1, show (d :: t).length - 4 = (t.length - 4) + 1 from by simp; omega, List.take_succ_cons, mark_cons]
      simp only [List.map_cons, List.map_nil, unO, List.cons_append, List.nil_append, List.headD_cons]
      congr 2
      rw [Bool.eq_iff_iff]
      simp only [decide_eq_true_eq, List.isEmpty_iff, List.take_eq_nil_iff]
      constructor
      · intro q; left; omega
      · rintro (q | q)
        · omega
        · subst q; simp at h
    · have e1 : FooterSplit.emit0 cut ⟨⟨[d], t.isEmpty⟩, p, t.length + 1⟩ = [] := by
        have h1 : ¬ 4 < t.length + 1 := by omega
        have h2 : ¬ p + (t.length + 1) = 4 := by simpa using hp
        simp [FooterSplit.emit0, cut, h1, h2]
      rw [e1, show (d :: t).length - 4 = 0 from by simp; omega, show t.length - 4 = 0 from by omega]
      rfl

/-! ## Flags -/

/-- State of the checks after bytes `g` of the current frame, `todo` are words which were not processed. -/
structure J (c : Cfg) (s : St) (todo : List (Nat × Bool)) : Prop where
  ex : ∃ (g h : List Nat) (fs : List (List Nat)), todo = mark h ++ fs.flatMap mark ∧ (∀ f ∈ fs, Acc c f) ∧ (h = [] → g = []) ∧ (h ≠ [] → Acc c (g ++ h)) ∧
    s.crc = g ∧ s.widx = min 6 g.length ∧ s.eq = (if g.length < 6 then ⟨g.length, true⟩ else Axi4sEq.init)

theorem J.init {c : Cfg} {s : St} (hs : IsInit c s) (fs : List (List Nat)) (hf : ∀ f ∈ fs, Acc c f) : J c s (fs.flatMap mark) :=
  ⟨[], [], fs, rfl, hf, fun _ => rfl, by simp, hs.crc, by simp [hs.widx], by simp [hs.eq, Axi4sEq.init]⟩

theorem eq_cnt (c : Cfg) : c.eq.cnt = 6 := by simp [Cfg.eq, Axi4sEq.Cfg.cnt]
theorem eq_mod (c : Cfg) : c.eq.idxMod = 8 := by
  rw [Axi4sEq.Cfg.idxMod, eq_cnt]; decide

theorem wordEq_mac (c : Cfg) (i : Nat) (hi : i < 6) : Axi4sEq.wordEq c.eq i (c.mac / 256 ^ i % 256) = true := by
  have hp : c.eq.partW i = 8 := by simp only [Axi4sEq.Cfg.partW, Cfg.eq]; omega
  rw [Axi4sEq.wordEq, hp]
  have : (2 : Nat) ^ (i * c.eq.DW) = 256 ^ i := by
    show 2 ^ (i * 8) = 256 ^ i
    rw [Nat.mul_comm, Nat.pow_mul]
  rw [this]
  show (c.mac / 256 ^ i % 256 % 256 == c.mac / 256 ^ i % 256) = true
  rw [Nat.mod_mod]; simp

/-- A cycle without a byte. -/
theorem quiet (c : Cfg) (s : St) (hv : s.din.vld = false) : errors c s = false := by
  simp [errors, fcsBad, outOfMem, phyErr, notMyMac, eqIn, Axi4sEq.out, Cfg.eq, hv]

theorem J.hold {c : Cfg} {s : St} {todo : List (Nat × Bool)} (h : J c s todo) (x : In) (hv : s.din.vld = false) : J c (next c s x) todo := by
  obtain ⟨g, hh, fs, h1, h2, h3, h4, h5, h6, h7⟩ := h
  refine ⟨g, hh, fs, h1, h2, h3, h4, ?_, ?_, ?_⟩
  · simp [next, hv, h5]
  · simp [next, hv, h6]
  · simp [next, hv, ← h7, eqIn, Axi4sEq.next]

/-- A cycle with a byte. -/
theorem J.byte {c : Cfg} {s : St} {todo : List (Nat × Bool)} (h : J c s ((s.din.data, s.din.last) :: todo)) (x : In) (hv : s.din.vld = true)
    (he : s.din.err = false) (ho : outOfMem c s = false) : errors c s = false ∧ J c (next c s x) todo := by
  have hrd : cutRd c s = true := by simpa [outOfMem, hv] using ho
  -- the current frame
  obtain ⟨g, d, t, fs, h1, h2, h4, h5, h6, h7⟩ : ∃ (g : List Nat) (d : Nat) (t : List Nat) (fs : List (List Nat)), (s.din.data, s.din.last) :: todo = mark (d :: t) ++ fs.flatMap mark ∧
      (∀ f ∈ fs, Acc c f) ∧ Acc c (g ++ d :: t) ∧ s.crc = g ∧ s.widx = min 6 g.length ∧
      s.eq = (if g.length < 6 then ⟨g.length, true⟩ else Axi4sEq.init) := by
    obtain ⟨g, hh, fs, h1, h2, h3, h4, h5, h6, h7⟩ := h
    cases hh with
    | cons d t => exact ⟨g, d, t, fs, h1, h2, h4 (by simp), h5, h6, h7⟩
    | nil =>
      have hg := h3 rfl
      cases fs with
      | nil => simp [mark] at h1
      | cons f fs =>
        have hl := (h2 f (by simp)).len
        cases f with
        | nil => simp at hl
        | cons d t =>
          refine ⟨g, d, t, fs, by simpa [mark] using h1, fun f hf => h2 f (by simp [hf]), ?_, h5, h6, h7⟩
          rw [hg]; exact h2 _ (by simp)
  rw [mark_cons, List.cons_append] at h1
  obtain ⟨hw, ht⟩ := List.cons.inj h1
  have hd : s.din.data = d := congrArg Prod.fst hw
  have hl : s.din.last = t.isEmpty := congrArg Prod.snd hw
  have hbyte : ∀ (_ : g.length < 6), d = c.mac / 256 ^ g.length % 256 := fun q => h4.byte _ d q (by simp)
  -- the residue
  have hres : s.din.last = true → residue c s = true := by
    intro q
    rw [hl, List.isEmpty_iff] at q
    have := h4.good
    rw [q] at this
    rw [residue, h5, hd]; exact this
  have hbad : fcsBad c s = false := by
    simp only [fcsBad, hv, Bool.true_and]
    cases hq : s.din.last with
    | true => simp [hres hq]
    | false => rfl
  -- the address
  have hw6 : (s.widx != 6) = decide (g.length < 6) := by
    rw [h6]
    by_cases q : g.length < 6
    · rw [Nat.min_eq_right (by omega)]; simp [q]; omega
    · rw [Nat.min_eq_left (by omega)]; simp [q]
  have hlast6 : s.widx = 5 → Axi4sEq.wordEq c.eq 5 s.din.data = true := by
    intro q
    rw [h6] at q
    have : g.length = 5 := by omega
    rw [hd, hbyte (by omega), this]
    exact wordEq_mac c 5 (by omega)
  have hmac : notMyMac c s = false := by
    have hb : ¬ c.eq.VW ≤ c.eq.DW := by simp [Cfg.eq]
    have : Axi4sEq.out c.eq s.eq (eqIn c s) =
        ⟨true, decide (g.length < 6) && (s.widx == 5), s.eq.eq && Axi4sEq.wordEq c.eq 5 s.din.data⟩ := by
      rw [Axi4sEq.out, if_neg hb, eq_cnt]
      simp [eqIn, hv, hrd, hw6]
    rw [notMyMac, this]
    simp only
    cases hq : (s.widx == 5) with
    | false => simp
    | true =>
      have h5' : s.widx = 5 := by simpa using hq
      have : g.length < 6 := by rw [h6] at h5'; omega
      rw [hlast6 h5', h7, if_pos this]; simp
  refine ⟨by simp [errors, hbad, ho, phyErr, he, hmac], ?_⟩
  have hnext7 : (next c s x).eq = (if g.length < 6 then (if g.length = 5 then Axi4sEq.init else ⟨g.length + 1, true⟩) else Axi4sEq.init) := by
    show Axi4sEq.next c.eq s.eq (eqIn c s) = _
    have hb : ¬ c.eq.VW ≤ c.eq.DW := by simp [Cfg.eq]
    rw [Axi4sEq.next, if_neg hb]
    by_cases q : g.length < 6
    · have hwi : s.widx = g.length := by rw [h6]; omega
      rw [if_pos q]
      by_cases q5 : g.length = 5
      · simp [eqIn, hv, hrd, hwi, q5, Axi4sEq.init]
      · have hlt : g.length < c.eq.cnt - 1 := by rw [eq_cnt]; omega
        have hwe : Axi4sEq.wordEq c.eq g.length d = true := by rw [hbyte q]; exact wordEq_mac c _ q
        have q6 : g.length ≠ 6 := by omega
        have hlt' : g.length < 5 := by omega
        rw [h7, if_pos q, if_neg q5, eq_mod]
        simp only [eqIn, hv, hrd, hwi, hd, hwe, hlt, if_true, Bool.and_true, Bool.true_and]
        simp [q5, q6]; omega
    · have : (eqIn c s).vld = false := by simp [eqIn, hw6, q]
      simp [this, h7, q]
  cases hq : t with
  | nil =>
    have hlt : s.din.last = true := by rw [hl, hq]; rfl
    have hg5 : 5 ≤ g.length := by have := h4.len; rw [hq] at this; simp at this; omega
    refine ⟨[], [], fs, ?_, h2, fun _ => rfl, by simp, ?_, ?_, ?_⟩
    · rw [hq] at ht; simpa [mark] using ht
    · simp [next, hv, hlt]
    · simp [next, hv, hlt, hrd]
    · rw [hnext7]
      by_cases q : g.length < 6
      · have : g.length = 5 := by omega
        simp [this, Axi4sEq.init]
      · simp [q, Axi4sEq.init]
  | cons d' t' =>
    have hlf : s.din.last = false := by rw [hl, hq]; rfl
    refine ⟨g ++ [d], t, fs, ht, h2, fun q => by simp [hq] at q, fun _ => by simpa using h4, ?_, ?_, ?_⟩
    · simp [next, hv, hlf, h5, hd]
    · have : (next c s x).widx = if s.widx != 6 then s.widx + 1 else s.widx := by simp [next, hv, hlf, hrd]
      rw [this, hw6, h6]
      by_cases q : g.length < 6
      · simp [q]; omega
      · simp [q]; omega
    · rw [hnext7]
      simp only [List.length_append, List.length_cons, List.length_nil]
      by_cases q : g.length < 6
      · by_cases q5 : g.length = 5
        · simp [q5]
        · rw [if_pos q, if_neg q5, if_pos (by omega)]
      · rw [if_neg q, if_neg (by omega)]

/-! ## The composition -/

def pend (p : Phy) : List (Nat × Bool) := given p.vld (p.data, p.last)

abbrev cutTrace (s0 : St) (ci : List (FooterSplit.In Nat)) := (FooterSplit.machine cut).trace s0.cut ci
abbrev cutAcc (s0 : St) (ci : List (FooterSplit.In Nat)) : List (Nat × Bool) := (FooterSplit.accepted (cutTrace s0 ci)).map unW
abbrev cutSent (s0 : St) (ci : List (FooterSplit.In Nat)) : List (Nat × Bool) := (FooterSplit.sent0 (cutTrace s0 ci)).map unO

/-- The state `S` after inputs `is` from `s0`, with inputs of the cutter, observations of the fifo and delivered words. -/
structure Sim (c : Cfg) (s0 : St) (fs : List (List Nat)) (is : List In) (S : St) (ci : List (FooterSplit.In Nat))
    (o : AxisFifoDrop.Obs Nat) (dl : List W) : Prop where
  cut : (FooterSplit.machine cut).final s0.cut ci = S.cut
  flags : ∃ todo, cutAcc s0 ci ++ todo = fs.flatMap mark ∧ J c S todo
  recv : cutAcc s0 ci ++ pend S.din = received is
  accW : FooterSplit.accepted (cutTrace s0 ci) = (cutAcc s0 ci).map toWord
  noErr : S.din.vld = true → S.din.err = false
  errF : S.errF = false
  fifo : ∃ s' k t, AxisFifoDrop.InvD c.depth (S.fifo, o) s' k t
  obs : (o.exp ++ o.st).map wp = cutSent s0 ci
  buf : HsFifo.Inv 4 S.buf
  deliv : o.taken = dl ++ HsFifo.queue 4 S.buf

theorem Sim.start (c : Cfg) (hD : 2 ≤ c.depth) (s0 : St) (hs : IsInit c s0) (fs : List (List Nat)) (hf : ∀ f ∈ fs, Acc c f) :
    Sim c s0 fs [] s0 [] AxisFifoDrop.Obs.init [] := by
  obtain ⟨m, d, e1⟩ := hs.fifo
  obtain ⟨m', d', e2⟩ := hs.buf
  refine ⟨rfl, ⟨_, rfl, J.init hs fs hf⟩, by simp [pend, hs.din, received, FooterSplit.accepted], rfl, by simp [hs.din], hs.errF, ?_, rfl, ?_, ?_⟩
  · have := AxisFifoDrop.init_invD hD m d
    rw [e1]
    exact ⟨_, _, _, this⟩
  · rw [e2]; exact HsFifo.init_inv [] (by decide) m' d'
  · rw [e2, HsFifo.init_queue [] (by decide) m' d']; rfl

theorem Sim.cutInv {c : Cfg} {s0 : St} {fs : List (List Nat)} {is : List In} {S : St} {ci : List (FooterSplit.In Nat)}
    {o : AxisFifoDrop.Obs Nat} {dl : List W} (h : Sim c s0 fs is S ci o dl) (hs : IsInit c s0) (hf : ∀ f ∈ fs, Acc c f) :
    ∃ D g, FooterSplit.Inv EthMacRx.cut ((fs.map words).flatMap (FooterSplit.ann 0)) (cutTrace s0 ci) S.cut D g := by
  have hG := FooterSplit.frames_stream EthMacRx.cut ⟨by decide, by decide⟩ (fs.map words)
    (by intro f hf'; obtain ⟨f, h1, rfl⟩ := List.mem_map.1 hf'; exact words_frame f (hf f h1).len)
  obtain ⟨todo, h1, _⟩ := h.flags
  have ha : FooterSplit.accepted (cutTrace s0 ci) <+: (fs.map words).flatten := by
    have : (fs.map words).flatten = (fs.flatMap mark).map toWord := by
      simp only [List.flatMap, List.map_flatten, List.map_map]; rfl
    rw [this, ← h1, h.accW, List.map_append]
    exact List.prefix_append _ _
  rw [← FooterSplit.frames_map] at ha
  have := FooterSplit.inv_run EthMacRx.cut ⟨by decide, by decide⟩ _ hG s0.cut hs.cut ci ha
  rw [h.cut] at this
  exact this

theorem sel_one (p : Nat → Bool) (l : List Nat) (hl : l.length ≤ 1) (hs : FooterSplit.sel p l ≠ []) : FooterSplit.sel p l = l := by
  match l, hl with
  | [], _ => rfl
  | [a], _ =>
    simp only [FooterSplit.sel, List.zipIdx_cons, List.zipIdx_nil, List.filter_cons, List.filter_nil] at hs ⊢
    cases h : p 0 with
    | true => simp
    | false => simp [h] at hs

/-- The cutter sends no empty words. -/
theorem emit_ne (f : List Nat) : ∀ p, p + f.length ≠ 4 →
    ∀ e ∈ (FooterSplit.ann p (words f)).flatMap (FooterSplit.emit0 cut), e.1 ≠ [] := by
  induction f with
  | nil => intro p _ e he; simp [words, mark, FooterSplit.ann] at he
  | cons d t ih =>
    intro p hp e he
    have hr : (FooterSplit.bytesOf (words (d :: t))).length = t.length + 1 := by rw [bytesOf_words]; rfl
    have hw : words (d :: t) = ⟨[d], t.isEmpty⟩ :: words t := by simp [words, mark_cons, toWord]
    rw [hw] at hr he
    rw [FooterSplit.ann, List.flatMap_cons, hr, List.mem_append] at he
    rcases he with he | he
    · have h2 : ¬ p + (t.length + 1) = 4 := by simpa using hp
      simp only [FooterSplit.emit0, cut, h2, decide_false, Bool.and_false] at he
      split at he
      · simp at he; rw [he]; simp; omega
      · simp at he
    · exact ih (p + 1) (by simp at hp ⊢; omega) e he

theorem received_snoc (is : List In) (x : In) : received (is ++ [x]) = received is ++ pend x.phy := by
  simp only [received, List.filterMap_append, pend]
  congr 1
  cases h : x.phy.vld <;> simp [h, given]

theorem Sim.step {c : Cfg} {s0 : St} {fs : List (List Nat)} {is : List In} {S : St} {ci : List (FooterSplit.In Nat)}
    {o : AxisFifoDrop.Obs Nat} {dl : List W} (h : Sim c s0 fs is S ci o dl) (hD : 2 ≤ c.depth) (hs : IsInit c s0) (hf : ∀ f ∈ fs, Acc c f)
    (ho : outOfMem c S = false) (hr : received is <+: fs.flatMap mark) (x : In) (hx : x.phy.vld = true → x.phy.err = false) :
    Sim c s0 fs (is ++ [x]) (next c S x) (ci ++ [cutIn c S]) (o.step (fifoIn c S) (AxisFifoDrop.out c.depth S.fifo))
      (dl ++ given ((EthMacRx.out S).vld && x.rd) (EthMacRx.out S).w) := by
  -- the flags
  obtain ⟨todo, ht, hJ⟩ := h.flags
  have hA : errors c S = false ∧ ∃ todo', todo = pend S.din ++ todo' ∧ J c (next c S x) todo' := by
    cases hv : S.din.vld with
    | false => exact ⟨quiet c S hv, todo, by simp [pend, hv], hJ.hold x hv⟩
    | true =>
      have hp : pend S.din = [(S.din.data, S.din.last)] := by simp [pend, hv]
      have : pend S.din <+: todo := by
        rw [← h.recv, ← ht] at hr
        exact (List.prefix_append_right_inj _).1 hr
      obtain ⟨t', ht'⟩ := this
      rw [hp] at ht'
      rw [← ht'] at hJ
      have := hJ.byte x hv (h.noErr hv) ho
      exact ⟨this.1, t', by rw [hp]; exact ht'.symm, this.2⟩
  obtain ⟨hE, todo', hT, hJ'⟩ := hA
  have hdisc : (fifoIn c S).discard = false := by simp [fifoIn, hE, h.errF]
  -- the cutter
  have hfin : (FooterSplit.machine EthMacRx.cut).final s0.cut (ci ++ [cutIn c S]) = (next c S x).cut := by
    rw [Machine.final_append, h.cut]; rfl
  have htr : cutTrace s0 (ci ++ [cutIn c S]) = cutTrace s0 ci ++ [(cutIn c S, FooterSplit.out EthMacRx.cut S.cut (cutIn c S))] := by
    show (FooterSplit.machine EthMacRx.cut).trace _ _ = _
    rw [Machine.trace_snoc, Machine.outAfter, h.cut]; rfl
  have hacc : FooterSplit.accepted (cutTrace s0 (ci ++ [cutIn c S])) =
      FooterSplit.accepted (cutTrace s0 ci) ++ (pend S.din).map toWord := by
    rw [htr]
    simp only [FooterSplit.accepted, List.flatMap_append, List.flatMap_cons, List.flatMap_nil, List.append_nil]
    congr 1
    show given (S.din.vld && cutRd c S) (⟨[S.din.data], S.din.last⟩ : FW) = _
    cases hv : S.din.vld with
    | false => simp [pend, hv]
    | true =>
      have : cutRd c S = true := by simpa [outOfMem, hv] using ho
      simp [pend, hv, this, toWord]
  have hun : ∀ l : List (Nat × Bool), (l.map toWord).map unW = l := by
    intro l; rw [List.map_map]; exact List.map_id'' (fun _ => rfl) l
  have hacc' : cutAcc s0 (ci ++ [cutIn c S]) = cutAcc s0 ci ++ pend S.din := by
    show (FooterSplit.accepted (cutTrace s0 (ci ++ [cutIn c S]))).map unW = _
    rw [hacc, List.map_append, hun]
  have hsent : FooterSplit.sent0 (cutTrace s0 (ci ++ [cutIn c S])) = FooterSplit.sent0 (cutTrace s0 ci) ++
      (if (AxisFifoDrop.out c.depth S.fifo).rd then (FooterSplit.out EthMacRx.cut S.cut (cutIn c S)).out0.toList else []) := by
    rw [htr]; simp [FooterSplit.sent0, cutIn]
  -- all but the observations of the fifo
  have hbuf := HsFifo.step S.buf (bufIn c S x.rd) h.buf
  have hdone : cutAcc s0 (ci ++ [cutIn c S]) ++ todo' = fs.flatMap mark := by
    rw [hacc', List.append_assoc, ← hT, ht]
  have hrecv : cutAcc s0 (ci ++ [cutIn c S]) ++ pend (next c S x).din = received (is ++ [x]) := by
    rw [hacc', h.recv, received_snoc]; rfl
  have haccW : FooterSplit.accepted (cutTrace s0 (ci ++ [cutIn c S])) = (cutAcc s0 (ci ++ [cutIn c S])).map toWord := by
    rw [hacc, hacc', h.accW, List.map_append]
  -- words are not empty
  have hG := FooterSplit.frames_stream EthMacRx.cut ⟨by decide, by decide⟩ (fs.map words)
    (by intro f hf'; obtain ⟨f, h1, rfl⟩ := List.mem_map.1 hf'; exact words_frame f (hf f h1).len)
  obtain ⟨D, g, hI⟩ := h.cutInv hs hf
  have hne : ∀ e ∈ FooterSplit.sent0 (cutTrace s0 (ci ++ [cutIn c S])), e.1 ≠ [] := by
    have ha : FooterSplit.accepted (cutTrace s0 (ci ++ [cutIn c S])) <+: (fs.map words).flatten := by
      have : (fs.map words).flatten = (fs.flatMap mark).map toWord := by
        simp only [List.flatMap, List.map_flatten, List.map_map]; rfl
      rw [this, ← hdone, haccW, List.map_append]
      exact List.prefix_append _ _
    rw [← FooterSplit.frames_map] at ha
    obtain ⟨D', g', hI'⟩ := FooterSplit.inv_run EthMacRx.cut ⟨by decide, by decide⟩ _ hG s0.cut hs.cut _ ha
    have hD' : D' <+: (fs.map words).flatMap (FooterSplit.ann 0) :=
      (List.prefix_append D' _).trans (hI'.cons ▸ List.take_prefix _ _)
    intro e he
    rw [hI'.s0] at he
    have he' := (FooterSplit.prefix_flatMap (FooterSplit.emit0 EthMacRx.cut) hD').subset he
    rw [List.flatMap_assoc, List.mem_flatMap] at he'
    obtain ⟨wf, h1, h2⟩ := he'
    obtain ⟨f, h3, rfl⟩ := List.mem_map.1 h1
    exact emit_ne f 0 (by have := (hf f h3).len; omega) e h2
  have hobs : given ((fifoIn c S).vld && (AxisFifoDrop.out c.depth S.fifo).rd) (wp (fifoIn c S).w) =
      (if (AxisFifoDrop.out c.depth S.fifo).rd then (FooterSplit.out EthMacRx.cut S.cut (cutIn c S)).out0.toList else []).map unO := by
    cases hrd : (AxisFifoDrop.out c.depth S.fifo).rd with
    | false => simp
    | true =>
      cases hv : FooterSplit.valid0 EthMacRx.cut S.cut (cutIn c S) with
      | false => simp [fifoIn, FooterSplit.out, hv]
      | true =>
        have hb : FooterSplit.bytes0 EthMacRx.cut S.cut ≠ [] := by
          refine hne (FooterSplit.bytes0 EthMacRx.cut S.cut, FooterSplit.last0 EthMacRx.cut S.cut (cutIn c S)) ?_
          rw [hsent, hrd]
          simp [FooterSplit.out, hv]
        have hval : (FooterSplit.outReg EthMacRx.cut S.cut).valid = true := by
          simp only [FooterSplit.valid0, Bool.and_eq_true] at hv
          exact hv.1.1.1
        have hl := (hI.mem_good hG (EthMacRx.cut.LA + 1) (by omega) (by omega) hval).le
        have hb' : FooterSplit.bytes0 EthMacRx.cut S.cut = (FooterSplit.outReg EthMacRx.cut S.cut).w.bytes :=
          sel_one _ _ hl hb
        simp [fifoIn, FooterSplit.out, hv, wp, unO, hb']
  refine ⟨hfin, ⟨todo', hdone, hJ'⟩, hrecv, haccW, hx, ?_, ?_, ?_, hbuf.1, ?_⟩
  · show (if lastWaits S then false else S.din.vld && errors c S) = false
    rw [hE]; simp
  · obtain ⟨s', k, t, hi⟩ := h.fifo
    have := AxisFifoDrop.step_invD hD hi (i := fifoIn c S) (by intro q; rw [hdisc] at q; exact absurd q.1 (by simp))
    exact ⟨_, _, _, this⟩
  · show _ = (FooterSplit.sent0 (cutTrace s0 (ci ++ [cutIn c S]))).map unO
    rw [hsent, List.map_append (f := unO), ← hobs]
    have : (FooterSplit.sent0 (cutTrace s0 ci)).map unO = cutSent s0 ci := rfl
    rw [this, ← h.obs]
    simp only [AxisFifoDrop.Obs.step, hdisc, if_false, Bool.false_eq_true]
    cases hv : ((fifoIn c S).vld && (AxisFifoDrop.out c.depth S.fifo).rd) with
    | false => simp
    | true => cases hl : (fifoIn c S).w.last <;> simp
  · have h2 := hbuf.2
    have e1 : (if (bufIn c S x.rd).vld && (HsFifo.out 4 S.buf (bufIn c S x.rd)).rd then some (bufIn c S x.rd).data else none).toList =
        given ((AxisFifoDrop.out c.depth S.fifo).vld && (fifoIn c S).rd) (AxisFifoDrop.out c.depth S.fifo).w := by
      show (if (AxisFifoDrop.out c.depth S.fifo).vld && !Fifo.writeWait S.buf.fifo then
        some (AxisFifoDrop.out c.depth S.fifo).w else none).toList = given ((AxisFifoDrop.out c.depth S.fifo).vld && !Fifo.writeWait S.buf.fifo) _
      cases ((AxisFifoDrop.out c.depth S.fifo).vld && !Fifo.writeWait S.buf.fifo) <;> rfl
    have e2 : (if (HsFifo.out 4 S.buf (bufIn c S x.rd)).vld && (bufIn c S x.rd).rd then
        some (HsFifo.out 4 S.buf (bufIn c S x.rd)).data else none).toList =
        given ((EthMacRx.out S).vld && x.rd) (EthMacRx.out S).w := by
      show (if S.buf.outVld && (x.rd && noWait S) then some S.buf.fifo.dout else none).toList =
        given (S.buf.outVld && noWait S && x.rd) S.buf.fifo.dout
      cases S.buf.outVld <;> cases x.rd <;> cases noWait S <;> rfl
    rw [e1, e2] at h2
    show o.taken ++ given _ _ = _
    rw [h.deliv, List.append_assoc, List.append_assoc]
    congr 1

/-! ## Theorems -/

theorem NoOverflow.snoc {c : Cfg} {x : In} : ∀ {is : List In} {s : St}, NoOverflow c s (is ++ [x]) →
    NoOverflow c s is ∧ outOfMem c ((machine c).final s is) = false
  | [], _, h => ⟨trivial, h.1⟩
  | _ :: _, _, h => ⟨⟨h.1, (NoOverflow.snoc h.2).1⟩, (NoOverflow.snoc h.2).2⟩

theorem rx_sim (c : Cfg) (hD : 2 ≤ c.depth) (s : St) (hs : IsInit c s) (fs : List (List Nat)) (hf : ∀ f ∈ fs, Acc c f) (is : List In)
    (hn : NoOverflow c s is) (he : ∀ x ∈ is, x.phy.vld = true → x.phy.err = false) (hr : received is <+: fs.flatMap mark) :
    ∃ ci o dl, Sim c s fs is ((machine c).final s is) ci o dl ∧ delivered ((machine c).trace s is) = dl.map wp := by
  induction is using List.reverseRecOn with
  | nil => exact ⟨_, _, _, Sim.start c hD s hs fs hf, rfl⟩
  | append_singleton is x ih =>
    rw [received_snoc] at hr
    have hr' := (List.prefix_append _ _).trans hr
    obtain ⟨ci, o, dl, h, hd⟩ := ih hn.snoc.1 (fun y hy => he y (by simp [hy])) hr'
    have hst := h.step hD hs hf hn.snoc.2 hr' x (he x (by simp))
    refine ⟨_, _, _, by rw [Machine.final_append]; exact hst, ?_⟩
    · rw [Machine.trace_snoc, delivered, List.filterMap_append, ← delivered, hd, List.map_append]
      congr 1
      show List.filterMap _ [(x, EthMacRx.out ((machine c).final s is))] = _
      generalize EthMacRx.out ((machine c).final s is) = y
      cases h1 : y.vld <;> cases h2 : x.rd <;> simp [h1, h2, wp]

/-- C324 - C329: if all received frames are for this station, without errors and with the proper FCS, and the fifo does not overflow,
then the delivered words are these frames without the FCS, in the same order and with nothing between (some of them may be missing
at the end), for all timings of the input and of the consumer. Missing: other frames, and that all frames are delivered;
both is violated. -/
theorem rx_partial (c : Cfg) (hD : 2 ≤ c.depth) (s : St) (hs : IsInit c s) (fs : List (List Nat)) (hf : ∀ f ∈ fs, Acc c f) (is : List In)
    (hn : NoOverflow c s is) (he : ∀ x ∈ is, x.phy.vld = true → x.phy.err = false) (hr : received is <+: fs.flatMap mark) :
    delivered ((machine c).trace s is) <+: fs.flatMap fun f => mark (f.take (f.length - 4)) := by
  obtain ⟨ci, o, dl, h, hd⟩ := rx_sim c hD s hs fs hf is hn he hr
  obtain ⟨s', k, t, hi⟩ := h.fifo
  have h1 : dl.map wp <+: o.taken.map wp := by rw [h.deliv, List.map_append]; exact List.prefix_append _ _
  have h2 : o.taken.map wp <+: (o.exp ++ o.st).map wp := by
    have := hi.x
    simp only at this
    rw [this, List.append_assoc, List.append_assoc, List.map_append]
    exact List.prefix_append _ _
  obtain ⟨D, g, hI⟩ := h.cutInv hs hf
  have hD' : D <+: (fs.map words).flatMap (FooterSplit.ann 0) := (List.prefix_append D _).trans (hI.cons ▸ List.take_prefix _ _)
  have h3 : cutSent s ci <+: fs.flatMap fun f => mark (f.take (f.length - 4)) := by
    have : fs.flatMap (fun f => mark (f.take (f.length - 4))) =
        (((fs.map words).flatMap (FooterSplit.ann 0)).flatMap (FooterSplit.emit0 cut)).map unO := by
      rw [List.flatMap_assoc, List.flatMap_map, List.map_flatMap]
      simp only [List.flatMap]
      congr 1
      apply List.map_congr_left
      intro f hf'
      exact (emit_words f 0 (by have := (hf f hf').len; omega)).symm
    rw [this]
    show (FooterSplit.sent0 (cutTrace s ci)).map unO <+: _
    rw [hI.s0]
    exact (FooterSplit.prefix_flatMap _ hD').map _
  rw [hd]
  exact (h1.trans h2).trans (h.obs ▸ h3)

/-! ## In terms of frames -/

theorem frames_prefix {a b : List (Nat × Bool)} (h : a <+: b) : ∀ cur, frames cur a <+: frames cur b := by
  obtain ⟨t, rfl⟩ := h
  induction a with
  | nil => intro cur; exact List.nil_prefix
  | cons e a ih =>
    intro cur
    simp only [frames, List.cons_append]
    split
    · exact List.cons_prefix_cons.2 ⟨rfl, ih []⟩
    · exact ih _

theorem frames_mark (f : List Nat) (hf : f ≠ []) (l : List (Nat × Bool)) : ∀ cur, frames cur (mark f ++ l) = (cur ++ f) :: frames [] l := by
  induction f with
  | nil => exact absurd rfl hf
  | cons d t ih =>
    intro cur
    rw [mark_cons]
    cases t with
    | nil => simp [frames, mark]
    | cons d' t => simp only [List.cons_append, frames, List.isEmpty_cons]; rw [if_neg (by simp), ih (by simp)]; simp

theorem frames_flatMap (gs : List (List Nat)) (hg : ∀ g ∈ gs, g ≠ []) : frames [] (gs.flatMap mark) = gs := by
  induction gs with
  | nil => rfl
  | cons g gs ih =>
    rw [List.flatMap_cons, frames_mark g (hg g (by simp)), ih fun g h => hg g (by simp [h])]; rfl

def openTail (cur : List (Nat × Bool)) : List In → List (Nat × Bool)
  | [] => cur
  | x :: t =>
    if x.phy.vld then
      if x.phy.last then openTail [] t else openTail (cur ++ [(x.phy.data, x.phy.err)]) t
    else openTail cur t

theorem mark_snoc (l : List Nat) (d : Nat) : mark (l ++ [d]) = l.map (·, false) ++ [(d, true)] := by
  induction l with
  | nil => rfl
  | cons a l ih => rw [List.cons_append, mark_cons, ih]; simp

theorem received_eq (is : List In) : ∀ cur, (bytes cur).map (·, false) ++ received is =
    (rxFrames cur is).flatMap (fun f => mark (bytes f)) ++ (bytes (openTail cur is)).map (·, false) := by
  induction is with
  | nil => intro cur; simp [received, rxFrames, openTail]
  | cons x t ih =>
    intro cur
    have hr : received (x :: t) = pend x.phy ++ received t := by
      cases h : x.phy.vld <;> simp [received, pend, h]
    rw [hr]
    cases hv : x.phy.vld with
    | false => simpa [pend, hv, rxFrames, openTail] using ih cur
    | true =>
      cases hl : x.phy.last with
      | true =>
        have := ih []
        simp only [bytes, List.map_nil, List.nil_append] at this
        simp only [pend, hv, hl, given_true, rxFrames, openTail, if_true, List.flatMap_cons, List.append_assoc]
        rw [show received t = _ from this]
        simp [bytes, mark_snoc]
      | false =>
        have := ih (cur ++ [(x.phy.data, x.phy.err)])
        simp only [pend, hv, hl, given_true, rxFrames, openTail, if_true, Bool.false_eq_true, if_false]
        rw [← this]
        simp [bytes]

theorem rx_noErr (is : List In) : ∀ cur, (∀ f ∈ rxFrames cur is, NoErr f) → openTail cur is = [] → 
    (∀ e ∈ cur, e.2 = false) ∧ ∀ x ∈ is, x.phy.vld = true → x.phy.err = false := by
  induction is with
  | nil => intro cur _ h; simp only [openTail] at h; simp [h]
  | cons x t ih =>
    intro cur hf ho
    cases hv : x.phy.vld with
    | false =>
      simp only [rxFrames, openTail, hv, Bool.false_eq_true, if_false] at hf ho
      obtain ⟨h1, h2⟩ := ih cur hf ho
      refine ⟨h1, ?_⟩
      intro y hy
      rcases List.mem_cons.1 hy with rfl | hy
      · rw [hv]; simp
      · exact h2 y hy
    | true =>
      cases hl : x.phy.last with
      | true =>
        simp only [rxFrames, openTail, hv, hl, if_true] at hf ho
        obtain ⟨_, h2⟩ := ih [] (fun f h => hf f (by simp [h])) ho
        have h0 : NoErr (cur ++ [(x.phy.data, x.phy.err)]) := hf _ (by simp)
        refine ⟨fun e he => h0 e (by simp [he]), ?_⟩
        intro y hy
        rcases List.mem_cons.1 hy with rfl | hy
        · intro _; exact h0 (y.phy.data, y.phy.err) (by simp)
        · exact h2 y hy
      | false =>
        simp only [rxFrames, openTail, hv, hl, if_true, Bool.false_eq_true, if_false] at hf ho
        obtain ⟨h1, h2⟩ := ih _ hf ho
        refine ⟨fun e he => h1 e (by simp [he]), ?_⟩
        intro y hy
        rcases List.mem_cons.1 hy with rfl | hy
        · intro _; exact h1 (y.phy.data, y.phy.err) (by simp)
        · exact h2 y hy

/-- C324 - C329 in terms of frames, for inputs in which the last frame is complete. -/
theorem rx_frames_partial (c : Cfg) (hD : 2 ≤ c.depth) (s : St) (hs : IsInit c s) (is : List In) (hn : NoOverflow c s is)
    (hf : ∀ f ∈ rxFrames [] is, Acceptable c f) (hl : (received is).getLast?.all (·.2) = true) :
    frames [] (delivered ((machine c).trace s is)) <+: (rxFrames [] is).map payload ∧ Sound c s is := by
  have hr := received_eq is []
  have ho : openTail [] is = [] := by
    rcases List.eq_nil_or_concat (openTail [] is) with h | ⟨l, e, h⟩
    · exact h
    · rw [h] at hr
      simp only [bytes, List.map_nil, List.nil_append] at hr
      rw [hr] at hl
      simp at hl
  rw [ho] at hr
  have hp := rx_partial c hD s hs ((rxFrames [] is).map bytes)
    (by intro f h; obtain ⟨f, h1, rfl⟩ := List.mem_map.1 h; exact ⟨(hf f h1).mine, (hf f h1).intact⟩) is hn
    (rx_noErr is [] (fun f h => (hf f h).noErr) ho).2
    (by rw [List.flatMap_map]; simp only [bytes, List.map_nil, List.nil_append, List.append_nil] at hr; rw [hr]; exact List.prefix_rfl)
  have e : ((rxFrames [] is).map bytes).flatMap (fun f => mark (f.take (f.length - 4))) = ((rxFrames [] is).map payload).flatMap mark := by
    rw [List.flatMap_map, List.flatMap_map]
    simp [payload, bytes]
  rw [e] at hp
  have hq := frames_prefix hp []
  rw [frames_flatMap _ (by
    intro g hg
    obtain ⟨f, h1, rfl⟩ := List.mem_map.1 hg
    have h6 : 6 ≤ (bytes f).length := Acc.len (c := c) ⟨(hf f h1).mine, (hf f h1).intact⟩
    intro h0
    have := congrArg List.length h0
    simp [payload, bytes] at this h6
    omega)] at hq
  refine ⟨hq, fun g hg => ?_⟩
  obtain ⟨f, h1, rfl⟩ := List.mem_map.1 (hq.subset hg)
  exact ⟨f, h1, hf f h1, rfl⟩

/-! ## Non-vacuity -/

set_option maxRecDepth 100000 in
/-- `two` is such input, its first frame is delivered. -/
example : frames [] (delivered ((machine (exC 2048)).trace (s0 2048) (two ++ idle 70))) = [my ++ seq 74] ∧
    Sound (exC 2048) (s0 2048) (two ++ idle 70) := by
  have hr := of_run two_run
  refine ⟨by rw [hr.1]; decide +kernel, (rx_frames_partial (exC 2048) (by decide) (s0 2048) (s0_init _) _ (hr.2.1 rfl)
    (by decide +kernel) (by decide +kernel)).2⟩

end Verif.EthMacRx
