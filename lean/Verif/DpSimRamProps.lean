import Verif.DpSimRam
/-! Properties of the datapump simulation memory (C398, C399) -/
namespace Verif.DpSimRam

/-- nothing but writes is left after a check -/
def Inv (s : St) : Prop := s.arq = [] ∧ s.awq = [] ∧ s.rPend = []

theorem readLoop_ok (c : Cfg) (mem : Nat → Option Nat) (r : Req) (n : Nat) :
    ∀ (i : Nat) (ws : List RWord), readLoop c mem r i n = .ok ws →
      (∀ k, k < n → ∃ d, mem (r.addr / c.cell + (i + k)) = some d) ∧
      ws = (List.range n).map (fun k => ⟨r.id, (mem (r.addr / c.cell + (i + k))).getD 0,
        if i + k + 1 = r.size then r.mask else maskN c.cell, decide (i + k + 1 = r.size)⟩) := by
  induction n with
  | zero =>
    intro i ws h
    simp only [readLoop, Except.ok.injEq] at h
    exact ⟨fun k hk => absurd hk (by omega), h.symm⟩
  | succ n ih =>
    intro i ws h
    rw [readLoop] at h
    split at h
    · cases h
    · rename_i d hd
      split at h
      · cases h
      · rename_i ws' hws
        cases h
        obtain ⟨h1, h2⟩ := ih _ _ hws
        constructor
        · intro k hk
          cases k with
          | zero => exact ⟨d, hd⟩
          | succ k =>
            obtain ⟨d', h'⟩ := h1 k (by omega)
            exact ⟨d', by rw [← h']; congr 1; omega⟩
        · rw [List.range_succ_eq_map, List.map_cons, List.map_map, h2]
          congr 1
          · simp only [Nat.add_zero, hd, Option.getD_some]
          · apply List.map_congr_left
            intro k _
            have e : i + 1 + k = i + (k + 1) := by omega
            simp only [Function.comp, Nat.succ_eq_add_one, e]

theorem readLoop_err (c : Cfg) (mem : Nat → Option Nat) (r : Req) (n : Nat) :
    ∀ (i : Nat), (∀ k, k < n → ∃ d, mem (r.addr / c.cell + (i + k)) = some d) →
      ∃ ws, readLoop c mem r i n = .ok ws := by
  induction n with
  | zero => intro i _; exact ⟨[], rfl⟩
  | succ n ih =>
    intro i h
    obtain ⟨d, hd⟩ := h 0 (by omega)
    obtain ⟨ws, hws⟩ := ih (i + 1) (by
      intro k hk
      obtain ⟨d', h'⟩ := h (k + 1) (by omega)
      exact ⟨d', by rw [← h']; congr 1; omega⟩)
    rw [Nat.add_zero] at hd
    rw [readLoop, hd, hws]
    exact ⟨_, rfl⟩

/-- memory after the words `ws` are stored from the index `b` -/
def store (mem : Nat → Option Nat) (b : Nat) (ws : List WWord) : Nat → Option Nat :=
  fun j => if b ≤ j then (match ws[j - b]? with | some w => w.data | none => mem j) else mem j

/-- the words of one write transaction: whole words, `last` only in the last one -/
def Framed (c : Cfg) (ws : List WWord) : Prop :=
  ∀ (k : Nat) (w : WWord), ws[k]? = some w → w.strb = 2 ^ c.cell - 1 ∧ w.last = decide (k + 1 = ws.length)

theorem writeLoop_ok (c : Cfg) (r : Req) (n : Nat) :
    ∀ (i : Nat) (mem : Nat → Option Nat) (wq : List WWord) (mem' : Nat → Option Nat) (wq' : List WWord),
      n ≤ wq.length → i + n = r.size → writeLoop c r i n mem wq = .ok (mem', wq') →
      wq' = wq.drop n ∧ mem' = store mem (r.addr / c.cell + i) (wq.take n) ∧
      (∀ (k : Nat) (w : WWord), (wq.take n)[k]? = some w →
        w.strb = maskN c.cell ∧ w.last = decide (k + 1 = n)) ∧
      (0 < n → r.mask = maskN c.cell) := by
  induction n with
  | zero =>
    intro i mem wq mem' wq' _ _ h
    rw [writeLoop] at h
    cases h
    refine ⟨by simp, ?_, ?_, fun h => absurd h (by omega)⟩
    · funext j; simp [store]
    · intro k w h; simp at h
  | succ n ih =>
    intro i mem wq mem' wq' hl hs h
    cases wq with
    | nil => simp at hl
    | cons w wq =>
      rw [writeLoop] at h
      by_cases hlast : w.last = decide (i + 1 = r.size)
      · rw [if_pos hlast] at h
        by_cases hmask : (if i + 1 = r.size then r.mask else maskN c.cell) = maskN c.cell
        · rw [if_pos hmask] at h
          by_cases hstrb : w.strb = maskN c.cell
          · rw [if_pos hstrb] at h
            simp only [List.length_cons] at hl
            obtain ⟨h1, h2, h3, h4⟩ := ih (i + 1) _ _ _ _ (by omega) (by omega) h
            refine ⟨by rw [h1, List.drop_succ_cons], ?_, ?_, ?_⟩
            · rw [h2]
              funext j
              simp only [store, List.take_succ_cons]
              by_cases hj : r.addr / c.cell + i ≤ j
              · by_cases hj' : j = r.addr / c.cell + i
                · subst hj'
                  rw [if_neg (by omega), if_pos (Nat.le_refl _), Nat.sub_self]
                  simp
                · obtain ⟨m, hm⟩ : ∃ m, j = r.addr / c.cell + i + (m + 1) := ⟨j - (r.addr / c.cell + i) - 1, by omega⟩
                  rw [if_pos (by omega), if_pos hj, upd_ne _ _ _ _ hj', hm,
                    show r.addr / c.cell + i + (m + 1) - (r.addr / c.cell + i) = m + 1 by omega,
                    show r.addr / c.cell + i + (m + 1) - (r.addr / c.cell + (i + 1)) = m by omega]
                  simp only [List.getElem?_cons_succ]
              · rw [if_neg (by omega), if_neg hj, upd_ne _ _ _ _ (by omega)]
            · intro k v hk
              rw [List.take_succ_cons] at hk
              cases k with
              | zero =>
                simp only [List.getElem?_cons_zero, Option.some.injEq] at hk
                subst hk
                refine ⟨hstrb, ?_⟩
                rw [hlast]
                apply Bool.eq_iff_iff.2
                simp only [decide_eq_true_eq]
                omega
              | succ k =>
                rw [List.getElem?_cons_succ] at hk
                obtain ⟨ha, hb⟩ := h3 k v hk
                refine ⟨ha, ?_⟩
                rw [hb]
                apply Bool.eq_iff_iff.2
                simp only [decide_eq_true_eq]
                omega
            · intro _
              by_cases hn : 0 < n
              · exact h4 hn
              · rw [if_pos (by omega)] at hmask
                exact hmask
          · rw [if_neg hstrb] at h; cases h
        · rw [if_neg hmask] at h; cases h
      · rw [if_neg hlast] at h; cases h

/-- number of words of a transaction -/
def words (c : Cfg) (r : RawReq) : Nat := if c.multi then r.len + 1 else 1

theorem size_parse (c : Cfg) (r : RawReq) : (parseReq c r).size = words c r := rfl

theorem words_pos (c : Cfg) (r : RawReq) : 0 < words c r := by
  unfold words; split <;> omega

/-- the read part of a check -/
theorem doRead_spec (c : Cfg) (s : St) (e : Ev) (hs : Inv s) :
    doRead c (onReadReq c (arrive s e)) =
      match e.rd with
      | none => .ok (arrive s e)
      | some r =>
        if r.addr / c.cell * c.cell = r.addr then
          match readLoop c s.mem (parseReq c r) 0 (words c r) with
          | .error x => .error x
          | .ok ws => .ok { arrive s { e with rd := none } with rq := s.rq ++ ws }
        else .error .unaligned := by
  obtain ⟨h1, h2, h3⟩ := hs
  cases hr : e.rd with
  | none =>
    simp only [onReadReq, arrive, h1, hr, Option.toList, List.append_nil, List.getLast?_nil, doRead, h3]
  | some r =>
    simp only [onReadReq, arrive, h1, hr, Option.toList, List.nil_append, List.getLast?_singleton,
      List.dropLast, h3, doRead, size_parse, List.append_nil]
    rfl

theorem doWrite_spec (c : Cfg) (s1 s' : St) (wr : Option RawReq) (h1 : s1.arq = []) (h2 : s1.awq = wr.toList)
    (h3 : s1.rPend = []) (h : doWrite c (onWriteReq c s1) = .ok s') :
    Inv s' ∧ s'.rq = s1.rq ∧
    ((s'.wPend = s1.wPend ++ (wr.map (parseReq c)).toList ∧ s'.wq = s1.wq ∧ s'.mem = s1.mem ∧ s'.ack = s1.ack ∧
       (∀ r, s'.wPend.head? = some r → s1.wq.length < r.size)) ∨
     ∃ r, s1.wPend ++ (wr.map (parseReq c)).toList = r :: s'.wPend ∧ r.size ≤ s1.wq.length ∧
       r.addr / c.cell * c.cell = r.addr ∧
       writeLoop c r 0 r.size s1.mem s1.wq = .ok (s'.mem, s'.wq) ∧ s'.ack = s1.ack ++ [r.id]) := by
  have key : onWriteReq c s1 = { s1 with awq := [], wPend := s1.wPend ++ (wr.map (parseReq c)).toList } := by
    cases wr with
    | none =>
      simp only [Option.toList] at h2
      cases s1
      simp only at h2
      subst h2
      simp [onWriteReq]
    | some r =>
      simp only [Option.toList] at h2
      simp only [onWriteReq, h2, List.getLast?_singleton, List.dropLast, Option.map, Option.toList]
  rw [key, doWrite] at h
  dsimp only at h
  split at h
  · rename_i hp
    cases h
    refine ⟨⟨h1, rfl, h3⟩, rfl, Or.inl ⟨rfl, rfl, rfl, rfl, ?_⟩⟩
    intro r hr
    simp only [hp, List.head?_nil] at hr
    cases hr
  · rename_i r rest hp
    split at h
    · rename_i hlen
      split at h
      · rename_i hal
        split at h
        · cases h
        · rename_i m q hw
          cases h
          exact ⟨⟨h1, rfl, h3⟩, rfl, Or.inr ⟨r, hp, hlen, hal, hw, rfl⟩⟩
      · cases h
    · rename_i hlen
      cases h
      refine ⟨⟨h1, rfl, h3⟩, rfl, Or.inl ⟨rfl, rfl, rfl, rfl, ?_⟩⟩
      intro r' hr
      simp only [hp, List.head?_cons, Option.some.injEq] at hr
      subst hr
      omega

/-- one step split to the read part and the write part -/
theorem step_spec (c : Cfg) (s s' : St) (e : Ev) (hs : Inv s) (h : step c s e = .ok s') :
    ∃ s1, doRead c (onReadReq c (arrive s e)) = .ok s1 ∧ s1.arq = [] ∧ s1.awq = e.wr.toList ∧ s1.rPend = [] ∧
      s1.wPend = s.wPend ∧ s1.wq = s.wq ++ e.ws ∧ s1.mem = s.mem ∧ s1.ack = s.ack ∧
      doWrite c (onWriteReq c s1) = .ok s' := by
  unfold step check at h
  split at h
  · cases h
  · rename_i s1 hr
    refine ⟨s1, hr, ?_⟩
    obtain ⟨a1, a2, a3⟩ := hs
    rw [doRead_spec c s e ⟨a1, a2, a3⟩] at hr
    cases hrd : e.rd with
    | none =>
      simp only [hrd] at hr
      cases hr
      refine ⟨?_, ?_, ?_, rfl, rfl, rfl, rfl, h⟩ <;> simp [arrive, a1, a2, a3, hrd]
    | some r =>
      simp only [hrd] at hr
      split at hr
      · split at hr
        · cases hr
        · cases hr
          refine ⟨?_, ?_, ?_, rfl, rfl, rfl, rfl, h⟩ <;> simp [arrive, a1, a2, a3]
      · cases hr

theorem step_inv (c : Cfg) (s s' : St) (e : Ev) (hs : Inv s) (h : step c s e = .ok s') : Inv s' := by
  obtain ⟨s1, _, h1, h2, h3, _, _, _, _, hw⟩ := step_spec c s s' e hs h
  exact (doWrite_spec c s1 s' e.wr h1 h2 h3 hw).1

theorem run_inv (c : Cfg) : ∀ (es : List Ev) (s s' : St), Inv s → run c s es = .ok s' → Inv s'
  | [], s, s', hs, h => by cases h; exact hs
  | e :: es, s, s', hs, h => by
    rw [run] at h
    split at h
    · cases h
    · rename_i s1 h1
      exact run_inv c es s1 s' (step_inv c s s1 e hs h1) h

theorem init_inv (mem : Nat → Option Nat) : Inv (init mem) := ⟨rfl, rfl, rfl⟩

/-- C398: in every reachable state, a read request is answered by the check which follows its arrival and in the
order of requests: the response has one word per requested word, read from consecutive cells, with the id of the
request, `last` in the last word only and a byte mask which is limited only in the last word; nothing is added without
a request.  A request which is not aligned or reads a cell without a value ends with an exception, other read requests
are answered. -/
theorem read_answer (c : Cfg) (mem0 : Nat → Option Nat) (es : List Ev) (s : St) (hrun : run c (init mem0) es = .ok s)
    (e : Ev) :
    (e.rd = none → ∀ s', step c s e = .ok s' → s'.rq = s.rq) ∧
    (∀ r, e.rd = some r →
      (∀ s', step c s e = .ok s' →
        r.addr / c.cell * c.cell = r.addr ∧
        ∃ d : Nat → Nat, (∀ k, k < words c r → s.mem (r.addr / c.cell + k) = some (d k)) ∧
          s'.rq = s.rq ++ (List.range (words c r)).map (fun k =>
            ⟨r.id, d k, if k + 1 = words c r ∧ r.rem ≠ 0 then 2 ^ r.rem - 1 else 2 ^ c.cell - 1,
              decide (k + 1 = words c r)⟩)) ∧
      (r.addr / c.cell * c.cell = r.addr → (∀ k, k < words c r → ∃ d, s.mem (r.addr / c.cell + k) = some d) →
        e.wr = none → s.wPend = [] → ∃ s', step c s e = .ok s')) := by
  have hs : Inv s := run_inv c es _ _ (init_inv mem0) hrun
  constructor
  · intro hr s' h
    obtain ⟨s1, hd, h1, h2, h3, _, _, _, _, hw⟩ := step_spec c s s' e hs h
    rw [doRead_spec c s e hs] at hd
    simp only [hr] at hd
    cases hd
    exact (doWrite_spec c _ s' e.wr h1 h2 h3 hw).2.1
  · intro r hr
    constructor
    · intro s' h
      obtain ⟨s1, hd, h1, h2, h3, _, _, _, _, hw⟩ := step_spec c s s' e hs h
      have hq := (doWrite_spec c _ s' e.wr h1 h2 h3 hw).2.1
      rw [doRead_spec c s e hs] at hd
      simp only [hr] at hd
      split at hd
      · rename_i hal
        refine ⟨hal, ?_⟩
        split at hd
        · cases hd
        · rename_i ws hws
          obtain ⟨g1, g2⟩ := readLoop_ok c s.mem _ _ _ _ hws
          cases hd
          dsimp only at hq
          refine ⟨fun k => (s.mem (r.addr / c.cell + k)).getD 0, ?_, ?_⟩
          · intro k hk
            obtain ⟨d, hd⟩ := g1 k hk
            simp only [parseReq, Nat.zero_add] at hd
            simp only [hd, Option.getD_some]
          · rw [hq, g2]
            congr 1
            apply List.map_congr_left
            intro k _
            simp only [size_parse, Nat.zero_add, RWord.mk.injEq, and_true]
            refine ⟨rfl, rfl, ?_⟩
            simp only [parseReq, maskN]
            by_cases hk : k + 1 = words c r
            · by_cases hz : r.rem = 0
              · simp [hk, hz]
              · simp [hk, hz]
            · simp [hk]
      · cases hd
    · intro hal hm hwr hp
      obtain ⟨ws, hws⟩ := readLoop_err c s.mem (parseReq c r) (words c r) 0 (by
        intro k hk
        obtain ⟨d, hd⟩ := hm k hk
        exact ⟨d, by rw [Nat.zero_add]; exact hd⟩)
      unfold step check
      rw [doRead_spec c s e hs]
      simp only [hr, if_pos hal, hws]
      simp only [arrive, hwr, hs.2.1, Option.toList, List.append_nil, onWriteReq, List.getLast?_nil, doWrite, hp]
      exact ⟨_, rfl⟩

/-- effect of writes in order, `ws` is the stream of write words -/
def applyAll (c : Cfg) (mem : Nat → Option Nat) : List RawReq → List WWord → (Nat → Option Nat)
  | [], _ => mem
  | r :: rs, ws => applyAll c (store mem (r.addr / c.cell) (ws.take (words c r))) rs (ws.drop (words c r))

/-- number of words of all the transactions -/
def total (c : Cfg) : List RawReq → Nat
  | [] => 0
  | r :: rs => words c r + total c rs

/-- done writes were aligned, without a partial last word and correctly framed -/
def AllOk (c : Cfg) : List RawReq → List WWord → Prop
  | [], _ => True
  | r :: rs, ws => r.addr / c.cell * c.cell = r.addr ∧ (r.rem ≠ 0 → r.rem = c.cell) ∧ Framed c (ws.take (words c r)) ∧
      AllOk c rs (ws.drop (words c r))

theorem total_append (c : Cfg) (a b : List RawReq) : total c (a ++ b) = total c a + total c b := by
  induction a with
  | nil => simp [total]
  | cons r a ih => simp only [List.cons_append, total, ih]; omega

theorem applyAll_snoc (c : Cfg) (r : RawReq) :
    ∀ (a : List RawReq) (mem : Nat → Option Nat) (ws : List WWord),
      applyAll c mem (a ++ [r]) ws =
        store (applyAll c mem a ws) (r.addr / c.cell) ((ws.drop (total c a)).take (words c r)) := by
  intro a
  induction a with
  | nil => intro mem ws; simp [applyAll, total]
  | cons x a ih =>
    intro mem ws
    simp only [List.cons_append, applyAll, ih, List.drop_drop, total]

theorem applyAll_append (c : Cfg) :
    ∀ (a : List RawReq) (mem : Nat → Option Nat) (ws ws' : List WWord), total c a ≤ ws.length →
      applyAll c mem a (ws ++ ws') = applyAll c mem a ws := by
  intro a
  induction a with
  | nil => intros; rfl
  | cons x a ih =>
    intro mem ws ws' h
    simp only [total] at h
    simp only [applyAll]
    rw [List.take_append_of_le_length (by omega), List.drop_append_of_le_length (by omega), ih _ _ _ (by
      rw [List.length_drop]; omega)]

theorem allOk_snoc (c : Cfg) (r : RawReq) :
    ∀ (a : List RawReq) (ws : List WWord), AllOk c a ws →
      (r.addr / c.cell * c.cell = r.addr ∧ (r.rem ≠ 0 → r.rem = c.cell) ∧
        Framed c ((ws.drop (total c a)).take (words c r))) → AllOk c (a ++ [r]) ws := by
  intro a
  induction a with
  | nil => intro ws _ h; exact ⟨h.1, h.2.1, by simpa [total] using h.2.2, trivial⟩
  | cons x a ih =>
    intro ws h hr
    refine ⟨h.1, h.2.1, h.2.2.1, ih _ h.2.2.2 ⟨hr.1, hr.2.1, ?_⟩⟩
    rw [List.drop_drop]
    exact hr.2.2

theorem allOk_append (c : Cfg) :
    ∀ (a : List RawReq) (ws ws' : List WWord), total c a ≤ ws.length → AllOk c a ws → AllOk c a (ws ++ ws') := by
  intro a
  induction a with
  | nil => intros; trivial
  | cons x a ih =>
    intro ws ws' h hok
    simp only [total] at h
    refine ⟨hok.1, hok.2.1, ?_, ?_⟩
    · rw [List.take_append_of_le_length (by omega)]; exact hok.2.2.1
    · rw [List.drop_append_of_le_length (by omega)]
      exact ih _ _ (by rw [List.length_drop]; omega) hok.2.2.2

theorem maskN_inj {a b : Nat} (h : maskN a = maskN b) : a = b := by
  unfold maskN at h
  have ha := Nat.two_pow_pos a
  have hb := Nat.two_pow_pos b
  exact (Nat.pow_right_inj (by omega : 1 < 2)).1 (by omega)

/-- state after the write requests `reqs` and words `ws` were received and `done` requests are processed -/
def WInv (c : Cfg) (mem0 : Nat → Option Nat) (reqs : List RawReq) (ws : List WWord) (s : St) : Prop :=
  ∃ done pend, reqs = done ++ pend ∧ s.ack = done.map RawReq.id ∧ s.wPend = pend.map (parseReq c) ∧
    total c done ≤ ws.length ∧ s.wq = ws.drop (total c done) ∧ s.mem = applyAll c mem0 done ws ∧ AllOk c done ws

theorem winv_step (c : Cfg) (mem0 : Nat → Option Nat) (reqs : List RawReq) (ws : List WWord) (s s' : St) (e : Ev)
    (hs : Inv s) (hw : WInv c mem0 reqs ws s) (h : step c s e = .ok s') :
    WInv c mem0 (reqs ++ e.wr.toList) (ws ++ e.ws) s' := by
  obtain ⟨dn, pend, g1, g2, g3, g4, g5, g6, g7⟩ := hw
  obtain ⟨s1, _, h1, h2, h3, h4, h5, h6, h7, hd⟩ := step_spec c s s' e hs h
  obtain ⟨_, _, hcase⟩ := doWrite_spec c s1 s' e.wr h1 h2 h3 hd
  have hpend : s1.wPend ++ (e.wr.map (parseReq c)).toList = (pend ++ e.wr.toList).map (parseReq c) := by
    rw [h4, g3, List.map_append]
    cases e.wr <;> rfl
  have hq : s1.wq = (ws ++ e.ws).drop (total c dn) := by
    rw [h5, g5, List.drop_append_of_le_length g4]
  have hl : total c dn ≤ (ws ++ e.ws).length := by rw [List.length_append]; omega
  have hm : s1.mem = applyAll c mem0 dn (ws ++ e.ws) := by rw [h6, g6, applyAll_append c _ _ _ _ g4]
  have hk := allOk_append c dn ws e.ws g4 g7
  rcases hcase with ⟨p1, p2, p3, p4, _⟩ | ⟨r, p1, p2, p3, p4, p5⟩
  · exact ⟨dn, pend ++ e.wr.toList, by rw [g1, List.append_assoc], by rw [p4, h7, g2], by rw [p1, hpend], hl,
      by rw [p2, hq], by rw [p3, hm], hk⟩
  · rw [hpend] at p1
    cases hp : pend ++ e.wr.toList with
    | nil => rw [hp] at p1; simp at p1
    | cons x pend' =>
      rw [hp, List.map_cons, List.cons.injEq] at p1
      obtain ⟨hx, hrest⟩ := p1
      subst hx
      rw [size_parse] at p2 p4
      obtain ⟨w1, w2, w3, w4⟩ := writeLoop_ok c _ _ _ _ _ _ _ p2 (by rw [size_parse]; omega) p4
      have hlen : total c dn + words c x ≤ (ws ++ e.ws).length := by
        rw [hq, List.length_drop] at p2
        omega
      refine ⟨dn ++ [x], pend', by rw [g1, List.append_assoc, hp]; simp, by rw [p5, h7, g2, List.map_append]; rfl,
        hrest.symm, ?_, ?_, ?_, ?_⟩
      · rw [total_append]; simpa [total] using hlen
      · rw [w1, hq, List.drop_drop, total_append]; simp [total]
      · rw [w2, hm, hq, applyAll_snoc]; rfl
      · apply allOk_snoc c x dn _ hk
        refine ⟨p3, ?_, ?_⟩
        · intro hz
          have := w4 (words_pos c x)
          simp only [parseReq, if_neg hz] at this
          exact maskN_inj this
        · rw [← hq]
          intro k w hkw
          obtain ⟨a, b⟩ := w3 k w hkw
          refine ⟨a, ?_⟩
          rw [b, List.length_take, Nat.min_eq_left p2]

theorem winv_run (c : Cfg) (mem0 : Nat → Option Nat) :
    ∀ (es : List Ev) (reqs : List RawReq) (ws : List WWord) (s s' : St), Inv s → WInv c mem0 reqs ws s →
      run c s es = .ok s' → WInv c mem0 (reqs ++ es.filterMap (·.wr)) (ws ++ es.flatMap (·.ws)) s'
  | [], reqs, ws, s, s', _, hw, h => by cases h; simpa using hw
  | e :: es, reqs, ws, s, s', hs, hw, h => by
    rw [run] at h
    split at h
    · cases h
    · rename_i s1 h1
      have := winv_run c mem0 es _ _ s1 s' (step_inv c s s1 e hs h1) (winv_step c mem0 reqs ws s s1 e hs hw h1) h
      cases hr : e.wr with
      | none => simpa [List.filterMap_cons, hr, List.append_assoc] using this
      | some r => simpa [List.filterMap_cons, hr, List.append_assoc] using this

/-- C399: after any run without an exception the write transactions which were acknowledged are a prefix of the received
write requests, acknowledged in order with their ids; each of them consumed its own words of the word stream, they were
aligned, made of whole words and framed by `last`; and the memory contains the initial contents overwritten by these
transactions in order. -/
theorem writes (c : Cfg) (mem0 : Nat → Option Nat) (es : List Ev) (s : St) (hrun : run c (init mem0) es = .ok s) :
    ∃ k, k ≤ (es.filterMap (·.wr)).length ∧
      s.ack = ((es.filterMap (·.wr)).take k).map RawReq.id ∧
      total c ((es.filterMap (·.wr)).take k) ≤ (es.flatMap (·.ws)).length ∧
      s.wq = (es.flatMap (·.ws)).drop (total c ((es.filterMap (·.wr)).take k)) ∧
      s.mem = applyAll c mem0 ((es.filterMap (·.wr)).take k) (es.flatMap (·.ws)) ∧
      AllOk c ((es.filterMap (·.wr)).take k) (es.flatMap (·.ws)) := by
  have h0 : WInv c mem0 [] [] (init mem0) := ⟨[], [], rfl, rfl, rfl, Nat.le_refl _, rfl, rfl, trivial⟩
  have := winv_run c mem0 es [] [] _ s (init_inv mem0) h0 hrun
  simp only [List.nil_append] at this
  obtain ⟨dn, pend, g1, g2, g3, g4, g5, g6, g7⟩ := this
  have ht : (es.filterMap (·.wr)).take dn.length = dn := by rw [g1]; simp
  refine ⟨dn.length, by rw [g1]; simp, ?_⟩
  rw [ht]
  exact ⟨g2, g4, g5, g6, g7⟩

/-- nothing arrives -/
def idle : Ev := ⟨none, none, []⟩

theorem drain (c : Cfg) (mem0 : Nat → Option Nat) (reqs : List RawReq) (ws : List WWord) (hall : total c reqs ≤ ws.length) :
    ∀ (n : Nat) (s s' : St), Inv s → WInv c mem0 reqs ws s → s.wPend.length ≤ n →
      run c s (List.replicate n idle) = .ok s' → s'.wPend = [] := by
  intro n
  induction n with
  | zero =>
    intro s s' _ _ hn h
    cases h
    exact List.eq_nil_of_length_eq_zero (by omega)
  | succ n ih =>
    intro s s' hs hw hn h
    rw [List.replicate_succ, run] at h
    split at h
    · cases h
    · rename_i s1 h1
      have hw1 := winv_step c mem0 reqs ws s s1 idle hs hw h1
      simp only [idle, Option.toList, List.append_nil] at hw1
      refine ih s1 s' (step_inv c s s1 idle hs h1) hw1 ?_ h
      obtain ⟨x, _, a1, a2, a3, a4, a5, a6, a7, hd⟩ := step_spec c s s1 idle hs h1
      obtain ⟨_, _, hcase⟩ := doWrite_spec c x s1 none a1 a2 a3 hd
      simp only [idle, Option.map, Option.toList, List.append_nil] at hcase a5
      rcases hcase with ⟨p1, _, _, _, p5⟩ | ⟨r, p1, _⟩
      · obtain ⟨dn, pend, g1, _, g3, g4, g5, _⟩ := hw
        cases pend with
        | nil =>
          rw [p1, a4, g3]; simp
        | cons q pend =>
          exfalso
          have := p5 (parseReq c q) (by rw [p1, a4, g3]; rfl)
          rw [size_parse, a5, g5, List.length_drop] at this
          rw [g1, total_append] at hall
          simp only [total] at hall
          omega
      · rw [a4] at p1
        rw [p1, List.length_cons] at hn
        omega

/-- C399: every write request whose words (and the words of the previous ones) were received is acknowledged after
one check per waiting request -/
theorem writes_done (c : Cfg) (mem0 : Nat → Option Nat) (es : List Ev) (n : Nat) (s : St)
    (hrun : run c (init mem0) (es ++ List.replicate n idle) = .ok s)
    (hws : total c (es.filterMap (·.wr)) ≤ (es.flatMap (·.ws)).length)
    (hn : (es.filterMap (·.wr)).length ≤ n) :
    s.ack = (es.filterMap (·.wr)).map RawReq.id := by
  have happ : ∀ (a b : List Ev) (s0 : St), run c s0 (a ++ b) =
      match run c s0 a with | .error x => .error x | .ok s1 => run c s1 b := by
    intro a
    induction a with
    | nil => intros; rfl
    | cons e a ih =>
      intro b s0
      simp only [List.cons_append, run]
      cases step c s0 e with
      | error x => rfl
      | ok s1 => exact ih b s1
  have hrun' := hrun
  rw [happ] at hrun
  split at hrun
  · cases hrun
  · rename_i s1 h1
    have h0 : WInv c mem0 [] [] (init mem0) := ⟨[], [], rfl, rfl, rfl, Nat.le_refl _, rfl, rfl, trivial⟩
    have hw := winv_run c mem0 es [] [] _ s1 (init_inv mem0) h0 h1
    simp only [List.nil_append] at hw
    have hle : s1.wPend.length ≤ n := by
      obtain ⟨dn, pend, g1, _, g3, _⟩ := hw
      rw [g1, List.length_append] at hn
      rw [g3, List.length_map]; omega
    have hnil := drain c mem0 _ _ hws n s1 s (run_inv c es _ _ (init_inv mem0) h1) hw hle hrun
    have hw2 := winv_run c mem0 _ [] [] _ s (init_inv mem0) h0 hrun'
    have e1 : (List.replicate n idle).filterMap (·.wr) = [] := by
      induction n with
      | zero => rfl
      | succ n ih => simp [List.filterMap_replicate_of_none, idle]
    simp only [List.nil_append, List.filterMap_append, e1, List.append_nil] at hw2
    obtain ⟨dn, pend, g1, g2, g3, _⟩ := hw2
    rw [hnil] at g3
    have : pend = [] := List.map_eq_nil_iff.1 g3.symm
    rw [g2, g1, this, List.append_nil]

/-- two writes and a read of both of them; the second write is processed one check later -/
def demo : List Ev :=
  [⟨none, some ⟨1, 8, 1, 0⟩, [⟨some 5, 15, false⟩]⟩, ⟨none, some ⟨2, 0, 0, 0⟩, [⟨some 6, 15, true⟩, ⟨some 7, 15, true⟩]⟩,
   idle, ⟨some ⟨3, 8, 1, 2⟩, none, []⟩]

example : (match run ⟨4, true⟩ (init fun _ => none) demo with
    | .ok s => decide (s.ack = [1, 2] ∧ s.wq = [] ∧ s.mem 0 = some 7 ∧ s.mem 2 = some 5 ∧ s.mem 3 = some 6 ∧
        s.rq = [⟨3, 5, 15, false⟩, ⟨3, 6, 3, true⟩])
    | .error _ => false) = true := by decide +kernel

/-- a read of a cell which was not written is an exception -/
example : (match run ⟨4, true⟩ (init fun _ => none) [⟨some ⟨0, 4, 0, 0⟩, none, []⟩] with
    | .ok _ => none | .error x => some x) = some .uninit := by decide +kernel

end Verif.DpSimRam
