import Verif.AxisEnResize
/-!
# C48, C49: properties of `Axi4S_en` and `Axi4S_resizer`
-/
namespace Verif.Axis

universe u v
variable {α : Type u} {β : Type v}

/-! ## C48 -/

/-- Words transferred at the input: data and last flag. -/
def enTaken (tr : List (EnIn α × EnOut α)) : List (α × Bool) :=
  tr.flatMap fun e => given (e.1.vld && e.2.rd) (e.1.data, e.1.last)

def enGiven (tr : List (EnIn α × EnOut α)) : List (α × Bool) :=
  tr.flatMap fun e => given (e.2.vld && e.1.rd) (e.2.data, e.2.last)

/-- The last transferred word was not the end of a frame. -/
def inFrame (tr : List (EnIn α × EnOut α)) : Bool :=
  match (enTaken tr).getLast? with
  | none => false
  | some w => !w.2

/-- Full statement of C48: inside of a frame words pass whatever `en` is, between frames only with `en`. -/
def C48 (α : Type u) : Prop := ∀ (is : List (EnIn α)) (i : EnIn α),
  (enMachine.outAfter false is i).vld
    = (i.vld && (i.en || inFrame ((enMachine (α := α)).trace false is)))

theorem en_never_pending (is : List (EnIn α)) : (enMachine (α := α)).final false is = false := by
  refine enMachine.inv_final (fun s => s = false) (fun _ => True) ?_ is false rfl (by simp)
  intro s i hs _
  subst hs
  rfl

/-- **C48** violated: `en` low stops the stream in the middle of a frame, `framePending` is never set. -/
theorem axis_en_violated : ¬ C48 Nat := by
  intro h
  have := h [⟨true, true, 5, false, true⟩] ⟨false, true, 6, true, true⟩
  revert this
  decide

/-- **C48** what holds: a word passes exactly when `en` is set (so a frame starts only with `en`), words are not
changed, lost or duplicated. -/
theorem axis_en_partial (is : List (EnIn α)) (i : EnIn α) :
    (enMachine.outAfter false is i).vld = (i.vld && i.en) ∧
    (enMachine.outAfter false is i).rd = (i.rd && i.en) ∧
    enTaken ((enMachine (α := α)).trace false is) = enGiven ((enMachine (α := α)).trace false is) := by
  refine ⟨?_, ?_, ?_⟩
  · show (i.vld && (i.en || (enMachine (α := α)).final false is)) = _
    rw [en_never_pending, Bool.or_false]
  · show (i.rd && (i.en || (enMachine (α := α)).final false is)) = _
    rw [en_never_pending, Bool.or_false]
  · unfold enTaken enGiven
    generalize false = s
    induction is generalizing s with
    | nil => rfl
    | cons j js ih =>
      simp only [Machine.trace_cons, List.flatMap_cons]
      rw [ih]
      congr 1
      simp only [enMachine, enOut]
      cases j.vld <;> cases j.rd <;> cases j.en <;> cases s <;> rfl

example : enGiven ((enMachine (α := Nat)).trace false
    [⟨true, true, 5, false, true⟩, ⟨false, true, 6, true, true⟩, ⟨true, true, 6, true, true⟩])
    = [(5, false), (6, true)] := by decide

/-! ## C49 upscale -/

/-- Valid bytes of a run at the input; `bytes` gives the valid bytes of one word. -/
def upIn (bytes : α → List β) (tr : List (UpIn α × UpOut α)) : List (Option β) :=
  tr.flatMap fun e => if e.1.vld && e.2.rd then (bytes e.1.item).map some ++ eof e.1.last else []

/-- Valid bytes of a run at the output (word of `n` items). -/
def upOutBytes (n : Nat) (bytes : α → List β) (tr : List (UpIn α × UpOut α)) : List (Option β) :=
  tr.flatMap fun e => if e.2.vld && e.1.rd
    then ((List.range n).flatMap fun k => (bytes (e.2.items k)).map some) ++ eof e.2.last else []

/-- Words accepted. -/
def upTaken (tr : List (UpIn α × UpOut α)) : List (α × Bool) :=
  tr.flatMap fun e => given (e.1.vld && e.2.rd) (e.1.item, e.1.last)

structure UInv (n : Nat) (z : α) (s : Up α) : Prop where
  cnt : s.cnt < n
  rest : ∀ k, s.cnt < k → s.r k = z

theorem up_inv (n : Nat) (z : α) (s : Up α) (i : UpIn α) (h : UInv n z s) : UInv n z (upNext n z s i) := by
  have hc := h.cnt
  have hw := cnt_no_wrap n s.cnt hc
  unfold upNext
  rw [hw]
  cases hv : i.vld <;> cases hr : i.rd <;> cases hl : upLast n s i <;>
    simp only [Bool.false_and, Bool.and_false, Bool.true_and, Bool.and_true, Bool.false_eq_true, if_false, if_true]
  all_goals first
    | exact h
    | (refine ⟨?_, ?_⟩
       · first
         | exact hc
         | (show 0 < n; omega)
         | (unfold upLast at hl; simp at hl; show s.cnt + 1 < n; omega)
       · intro k hk
         first
         | rfl
         | (simp only at hk ⊢
            rw [if_neg (by simp; omega)]
            exact h.rest k (by omega)))

theorem flat_split (n c : Nat) (h : c < n) {γ : Type v} (f : Nat → List γ) :
    (List.range n).flatMap f
      = (List.range c).flatMap f ++ f c ++ (List.range' (c + 1) (n - (c + 1))).flatMap f := by
  rw [List.range_eq_range', show n = c + (n - c) by omega, ← List.range'_append_1, List.flatMap_append,
    show c + (n - c) - (c + 1) = n - (c + 1) by omega, Nat.zero_add, range_split n c h, List.range_eq_range',
    List.append_assoc]

theorem flatMap_congr_range {γ : Type v} (c : Nat) {f g : Nat → List γ} (h : ∀ k, k < c → f k = g k) :
    (List.range c).flatMap f = (List.range c).flatMap g := by
  induction c with
  | zero => rfl
  | succ c ih =>
    rw [List.range_succ, List.flatMap_append, List.flatMap_append, ih fun k hk => h k (by omega)]
    simp [h c (by omega)]

theorem upscale_conserve (n : Nat) (z : α) (bytes : α → List β) (hz : bytes z = []) (is : List (UpIn α)) (s : Up α)
    (hs : UInv n z s) :
    UInv n z ((upMachine n z).final s is) ∧
    ((List.range s.cnt).flatMap fun k => (bytes (s.r k)).map some) ++ upIn bytes ((upMachine n z).trace s is)
      = upOutBytes n bytes ((upMachine n z).trace s is)
        ++ ((List.range ((upMachine n z).final s is).cnt).flatMap
          fun k => (bytes (((upMachine n z).final s is).r k)).map some) := by
  refine (upMachine n z).conserveL (UInv n z) (fun _ => True)
    (fun s => (List.range s.cnt).flatMap fun k => (bytes (s.r k)).map some)
    (fun e => if e.1.vld && e.2.rd then (bytes e.1.item).map some ++ eof e.1.last else [])
    (fun e => if e.2.vld && e.1.rd
      then ((List.range n).flatMap fun k => (bytes (e.2.items k)).map some) ++ eof e.2.last else [])
    ?_ is s hs (by simp)
  intro s i h _
  refine ⟨up_inv n z s i h, ?_⟩
  have hw := cnt_no_wrap n s.cnt h.cnt
  show _ = _ ++ (List.range (upNext n z s i).cnt).flatMap fun k => (bytes ((upNext n z s i).r k)).map some
  have hro : ((upMachine n z).out s i).rd = i.rd := rfl
  have hvo : ((upMachine n z).out s i).vld = (i.vld && upLast n s i) := rfl
  have hlo : ((upMachine n z).out s i).last = i.last := rfl
  have hio : ((upMachine n z).out s i).items = fun k => if s.cnt == k then i.item else s.r k := rfl
  simp only [hro, hvo, hlo, hio]
  have low : ∀ k, k < s.cnt → (s.cnt == k) = false := fun k hk => by simp; omega
  cases hv : i.vld with
  | false =>
    simp only [Bool.false_and, Bool.false_eq_true, if_false, List.append_nil, List.nil_append]
    unfold upNext
    simp [hv]
  | true =>
    cases hr : i.rd with
    | false =>
      simp only [Bool.and_false, Bool.false_eq_true, if_false, List.append_nil, List.nil_append]
      unfold upNext
      simp only [hv, hr, Bool.and_false, Bool.false_and, Bool.false_eq_true, if_false, Bool.true_and]
      apply flatMap_congr_range
      intro k hk
      rw [low k hk]
      rfl
    | true =>
      cases hl : upLast n s i with
      | true =>
        have e : upNext n z s i = ⟨0, fun _ => z⟩ := by
          unfold upNext; simp [hv, hr, hl]
        rw [e]
        simp only [Bool.and_true, if_true, List.range_zero, List.flatMap_nil, List.append_nil]
        rw [flat_split n s.cnt h.cnt, flatMap_nil_of (l := List.range' (s.cnt + 1) (n - (s.cnt + 1)))]
        · rw [List.append_nil, ← List.append_assoc]
          congr 1
          congr 1
          · apply flatMap_congr_range
            intro k hk
            rw [low k hk]
            rfl
          · simp
        · intro k hk
          have hk : s.cnt < k := by
            rw [List.mem_range'] at hk
            obtain ⟨m, -, rfl⟩ := hk
            omega
          have : (s.cnt == k) = false := by simp; omega
          rw [this]
          simp only [Bool.false_eq_true, if_false]
          rw [h.rest k hk, hz]
          rfl
      | false =>
        have hil : i.last = false := by
          unfold upLast at hl
          simp at hl
          exact hl.2
        have e : upNext n z s i = ⟨s.cnt + 1, fun k => if s.cnt == k then i.item else s.r k⟩ := by
          unfold upNext; simp [hv, hr, hl, hw]
        rw [e, hil]
        simp only [Bool.and_true, Bool.and_false, if_true, Bool.false_eq_true, if_false, List.nil_append, eof,
          List.append_nil]
        rw [List.range_succ, List.flatMap_append]
        congr 1
        · apply flatMap_congr_range
          intro k hk
          rw [low k hk]
          rfl
        · simp

/-- **C49** Upscaling preserves the stream of valid bytes and the frame boundaries: bytes accepted = bytes delivered ++
bytes waiting for the rest of a word. -/
theorem upscale_bytes (n : Nat) (hn : 0 < n) (z : α) (bytes : α → List β) (hz : bytes z = []) (is : List (UpIn α)) :
    ∃ pend : List β,
      upIn bytes ((upMachine n z).trace (upInit z) is)
        = upOutBytes n bytes ((upMachine n z).trace (upInit z) is) ++ pend.map some := by
  obtain ⟨-, h⟩ := upscale_conserve n z bytes hz is (upInit z) ⟨hn, fun _ _ => rfl⟩
  refine ⟨(List.range ((upMachine n z).final (upInit z) is).cnt).flatMap
    fun k => bytes (((upMachine n z).final (upInit z) is).r k), ?_⟩
  rw [List.map_flatMap, ← h]
  simp [upInit]

theorem up_hist (n : Nat) (hn : 0 < n) (z : α) : ∀ (is : List (UpIn α)),
    ∃ pre ws, upTaken ((upMachine n z).trace (upInit z) is) = pre ++ ws ∧
      ws.length = ((upMachine n z).final (upInit z) is).cnt ∧ UInv n z ((upMachine n z).final (upInit z) is) ∧
      (∀ w ∈ ws, w.2 = false) ∧
      ∀ k w, ws[k]? = some w → ((upMachine n z).final (upInit z) is).r k = w.1 := by
  intro is
  generalize hn' : is.length = m
  induction m generalizing is with
  | zero =>
    have : is = [] := List.length_eq_zero_iff.1 hn'
    subst this
    exact ⟨[], [], rfl, rfl, ⟨hn, fun _ _ => rfl⟩, by simp, by simp⟩
  | succ m ih =>
    have hne : is ≠ [] := by intro h; subst h; simp at hn'
    have hsp := List.dropLast_concat_getLast hne
    have hlen : is.dropLast.length = m := by simp; omega
    obtain ⟨pre, ws, h1, h2, h3, h4, h5⟩ := ih is.dropLast hlen
    generalize is.dropLast = js at hsp h1 h2 h3 h4 h5
    generalize is.getLast hne = i at hsp
    rw [← hsp, Machine.trace_append, Machine.final_append]
    generalize (upMachine n z).final (upInit z) js = s at h2 h3 h5
    have e0 : upTaken ((upMachine n z).trace (upInit z) js ++ (upMachine n z).trace s [i])
        = pre ++ ws ++ given (i.vld && i.rd) (i.item, i.last) := by
      unfold upTaken at h1 ⊢
      rw [List.flatMap_append, h1]
      simp [upMachine, upOut]
    rw [e0]
    show ∃ pre' ws', _ ∧ _ = (upNext n z s i).cnt ∧ UInv n z (upNext n z s i) ∧ _ ∧ ∀ k w, _ → (upNext n z s i).r k = _
    have hInv := up_inv n z s i h3
    have hw := cnt_no_wrap n s.cnt h3.cnt
    have low : ∀ k w, ws[k]? = some w → (s.cnt == k) = false := by
      intro k w hk
      have := (List.getElem?_eq_some_iff.1 hk).1
      simp; omega
    cases hv : i.vld with
    | false =>
      have e : upNext n z s i = s := by unfold upNext; simp [hv]
      rw [e]
      exact ⟨pre, ws, by simp, h2, h3, h4, h5⟩
    | true =>
      cases hr : i.rd with
      | false =>
        refine ⟨pre, ws, by simp, by unfold upNext; simp [hr, h2], hInv, h4, ?_⟩
        intro k w hk
        unfold upNext
        simp only [hr, Bool.and_false, Bool.false_and, Bool.false_eq_true, if_false, low k w hk]
        exact h5 k w hk
      | true =>
        cases hl : upLast n s i with
        | true =>
          refine ⟨pre ++ ws ++ [(i.item, i.last)], [], by simp, ?_, hInv, by simp, by simp⟩
          unfold upNext; simp [hv, hr, hl]
        | false =>
          have hil : i.last = false := by
            unfold upLast at hl
            simp at hl
            exact hl.2
          refine ⟨pre, ws ++ [(i.item, i.last)], by simp, ?_, hInv, ?_, ?_⟩
          · unfold upNext; simp [hv, hr, hl, hw, h2]
          · intro w hw'
            rcases List.mem_append.1 hw' with hw' | hw'
            · exact h4 w hw'
            · have : w = (i.item, i.last) := by simpa using hw'
              rw [this, hil]
          · intro k w hk
            unfold upNext
            simp only [hv, hr, hl, Bool.and_false, Bool.false_eq_true, if_false, Bool.true_and]
            rcases Nat.lt_or_ge k ws.length with hlt | hge
            · rw [List.getElem?_append_left hlt] at hk
              rw [low k w hk]
              exact h5 k w hk
            · rw [List.getElem?_append_right hge] at hk
              have hk0 : k - ws.length = 0 := by
                have := (List.getElem?_eq_some_iff.1 hk).1
                simp at this; omega
              rw [hk0] at hk
              have : k = s.cnt := by omega
              subst this
              simp at hk
              simp [← hk]

/-- **C49** Packing: a word is offered at the output only when it is full or the frame ends. Its items are the last
accepted words of this frame followed by the current one, the unused items are zero. -/
theorem upscale_word (n : Nat) (hn : 0 < n) (z : α) (is : List (UpIn α)) (i : UpIn α)
    (hv : ((upMachine n z).outAfter (upInit z) is i).vld = true) :
    ∃ pre ws, upTaken ((upMachine n z).trace (upInit z) is) = pre ++ ws ∧ ws.length < n ∧
      (∀ w ∈ ws, w.2 = false) ∧
      (i.last = false → ws.length = n - 1) ∧
      ((upMachine n z).outAfter (upInit z) is i).last = i.last ∧
      (∀ k w, ws[k]? = some w → ((upMachine n z).outAfter (upInit z) is i).items k = w.1) ∧
      ((upMachine n z).outAfter (upInit z) is i).items ws.length = i.item ∧
      ∀ k, ws.length < k → ((upMachine n z).outAfter (upInit z) is i).items k = z := by
  obtain ⟨pre, ws, h1, h2, h3, h4, h5⟩ := up_hist n hn z is
  refine ⟨pre, ws, h1, by have := h3.cnt; omega, h4, ?_, rfl, ?_, ?_, ?_⟩
  · intro hl
    have : (i.vld && upLast n ((upMachine n z).final (upInit z) is) i) = true := hv
    unfold upLast at this
    simp [hl] at this
    omega
  · intro k w hk
    have hk' := (List.getElem?_eq_some_iff.1 hk).1
    show (if _ == k then _ else _) = _
    rw [if_neg (by simp; omega)]
    exact h5 k w hk
  · show (if _ == _ then _ else _) = _
    rw [if_pos (by simp [h2])]
  · intro k hk
    show (if _ == k then _ else _) = _
    rw [if_neg (by simp; omega)]
    exact h3.rest k (by omega)

/-! ## C49 downscale -/

def dnInBytes (n : Nat) (bytes : α → List β) (tr : List (DnIn α × DnOut α)) : List (Option β) :=
  tr.flatMap fun e => if e.1.vld && e.2.rd
    then ((List.range n).flatMap fun k => (bytes (e.1.word.1 k)).map some) ++ eof e.1.word.2 else []

/-- an undefined output item would count as no bytes; `downscale_defined` shows that it does not occur -/
def dnOutBytes (bytes : α → List β) (tr : List (DnIn α × DnOut α)) : List (Option β) :=
  tr.flatMap fun e => if e.2.vld && e.1.rd
    then (e.2.item.elim [] fun a => (bytes a).map some) ++ eof e.2.last else []

structure DnInv (n : Nat) (isZ : α → Bool) (s : Dn α) : Prop where
  cnt : s.cnt < n
  idle : s.reg.occ = false → s.cnt = 0
  mid : 0 < s.cnt → ∃ j, s.cnt ≤ j ∧ j < n ∧ isZ (s.reg.reg.1 j) = false

/-- bytes of the current word which were not sent yet -/
def dnPending (n : Nat) (bytes : α → List β) (s : Dn α) : List (Option β) :=
  if s.reg.occ then ((List.range' s.cnt (n - s.cnt)).flatMap fun k => (bytes (s.reg.reg.1 k)).map some)
    ++ eof s.reg.reg.2 else []

theorem dnLast_iff (n : Nat) (isZ : α → Bool) (s : Dn α) (h : s.cnt < n) :
    dnLast n isZ s = true ↔ ∀ j, s.cnt < j → j < n → isZ (s.reg.reg.1 j) = true := by
  unfold dnLast
  rw [Bool.or_eq_true, List.any_eq_true]
  constructor
  · rintro (h1 | ⟨i, -, hi⟩) j hj hjn
    · have : s.cnt = n - 1 := by simpa using h1
      omega
    · rw [Bool.and_eq_true, List.all_eq_true] at hi
      have : s.cnt = i := by simpa using hi.1
      subst this
      have := hi.2 j (by simpa using hjn)
      rw [Bool.or_eq_true] at this
      rcases this with this | this
      · have : j < s.cnt + 1 := by simpa using this
        omega
      · exact this
  · intro hz
    by_cases he : s.cnt = n - 1
    · left; simpa using he
    · right
      refine ⟨s.cnt, by simp; omega, ?_⟩
      rw [Bool.and_eq_true, List.all_eq_true]
      refine ⟨by simp, fun j hj => ?_⟩
      have hj : j < n := by simpa using hj
      rcases Nat.lt_or_ge j (s.cnt + 1) with hl | hg
      · simp [hl]
      · simp [hz j (by omega) hj]

theorem dn_step (n : Nat) (hn : 0 < n) (isZ : α → Bool) (bytes : α → List β) (hz : ∀ a, isZ a = true → bytes a = [])
    (s : Dn α) (i : DnIn α) (h : DnInv n isZ s) :
    DnInv n isZ (dnNext n isZ s i) ∧
    dnPending n bytes s ++ (if i.vld && (dnOut n isZ s i).rd
        then ((List.range n).flatMap fun k => (bytes (i.word.1 k)).map some) ++ eof i.word.2 else [])
      = (if (dnOut n isZ s i).vld && i.rd
          then ((dnOut n isZ s i).item.elim [] fun a => (bytes a).map some) ++ eof (dnOut n isZ s i).last else [])
        ++ dnPending n bytes (dnNext n isZ s i) := by
  obtain ⟨⟨occ, w, last⟩, c⟩ := s
  have hc : c < n := h.cnt
  have hw := cnt_no_wrap n c hc
  have hfull : ∀ w : Wide α, ((List.range n).flatMap fun k => (bytes (w.1 k)).map some)
      = (List.range' 0 (n - 0)).flatMap fun k => (bytes (w.1 k)).map some := by
    intro w; rw [List.range_eq_range', Nat.sub_zero]
  cases occ with
  | false =>
    have hc0 : c = 0 := h.idle rfl
    subst hc0
    cases hv : i.vld with
    | false =>
      refine ⟨⟨?_, ?_, ?_⟩, ?_⟩
      · simpa [dnNext] using hn
      · intro _; simp [dnNext]
      · intro hx; simp [dnNext] at hx
      · simp [dnPending, dnOut, dnNext, HsReg.stageNext, hv]
    | true =>
      refine ⟨⟨?_, ?_, ?_⟩, ?_⟩
      · simpa [dnNext] using hn
      · intro _; simp [dnNext]
      · intro hx; simp [dnNext] at hx
      · rw [hfull]
        simp [dnPending, dnOut, dnNext, HsReg.stageNext, HsReg.stageWe, HsReg.stageRd, hv]
  | true =>
    have hitem : (dnOut n isZ (⟨⟨true, w, last⟩, c⟩ : Dn α) i).item = some (w c) := by
      simp [dnOut, hc]
    cases hr : i.rd with
    | false =>
      have e : dnNext n isZ (⟨⟨true, w, last⟩, c⟩ : Dn α) i = ⟨⟨true, w, last⟩, c⟩ := by
        simp [dnNext, HsReg.stageNext, HsReg.stageWe, dnRegRd, hr]
      rw [e]
      refine ⟨h, ?_⟩
      simp [dnOut, HsReg.stageRd, dnRegRd, hr]
    | true =>
      cases hl : dnLast n isZ (⟨⟨true, w, last⟩, c⟩ : Dn α) with
      | false =>
        have e : dnNext n isZ (⟨⟨true, w, last⟩, c⟩ : Dn α) i = ⟨⟨true, w, last⟩, c + 1⟩ := by
          simp [dnNext, HsReg.stageNext, HsReg.stageWe, dnRegRd, hl, hr, hw]
        have hex : ∃ j, c < j ∧ j < n ∧ isZ (w j) = false := by
          apply Classical.byContradiction
          intro hx
          have := (dnLast_iff n isZ (⟨⟨true, w, last⟩, c⟩ : Dn α) hc).2 (by
            intro j hj hjn
            cases hz' : isZ (w j) with
            | true => rfl
            | false => exact absurd ⟨j, hj, hjn, hz'⟩ hx)
          rw [hl] at this
          cases this
        obtain ⟨j, hj1, hj2, hj3⟩ := hex
        rw [e]
        refine ⟨⟨by show c + 1 < n; omega, fun hx => (by cases hx), fun _ => ⟨j, hj1, hj2, hj3⟩⟩, ?_⟩
        rw [hitem]
        have hrd : (dnOut n isZ (⟨⟨true, w, last⟩, c⟩ : Dn α) i).rd = false := by
          simp [dnOut, HsReg.stageRd, dnRegRd, hl]
        have hlo : (dnOut n isZ (⟨⟨true, w, last⟩, c⟩ : Dn α) i).last = false := by
          simp [dnOut, hl]
        have hvo : (dnOut n isZ (⟨⟨true, w, last⟩, c⟩ : Dn α) i).vld = true := rfl
        rw [hrd, hlo, hvo]
        simp only [Bool.and_false, Bool.false_eq_true, if_false, List.append_nil, Bool.and_true, if_true,
          Option.elim_some, eof, dnPending]
        rw [range_split n c hc, List.append_assoc]
      | true =>
        have hzs : ∀ j, c < j → j < n → isZ (w j) = true := (dnLast_iff n isZ (⟨⟨true, w, last⟩, c⟩ : Dn α) hc).1 hl
        have hrd : (dnOut n isZ (⟨⟨true, w, last⟩, c⟩ : Dn α) i).rd = true := by
          simp [dnOut, HsReg.stageRd, dnRegRd, hl, hr]
        have hlo : (dnOut n isZ (⟨⟨true, w, last⟩, c⟩ : Dn α) i).last = last := by
          simp [dnOut, hl]
        have hvo : (dnOut n isZ (⟨⟨true, w, last⟩, c⟩ : Dn α) i).vld = true := rfl
        have hp : dnPending n bytes (⟨⟨true, w, last⟩, c⟩ : Dn α) = (bytes (w c)).map some ++ eof last := by
          simp only [dnPending, if_true]
          rw [range_split n c hc, flatMap_nil_of (l := List.range' (c + 1) (n - (c + 1))), List.append_nil]
          intro k hk
          rw [List.mem_range'] at hk
          obtain ⟨m, hm, rfl⟩ := hk
          rw [hz _ (hzs _ (by omega) (by omega))]
          rfl
        rw [hitem, hrd, hlo, hvo, hp]
        cases hv : i.vld with
        | false =>
          have e : dnNext n isZ (⟨⟨true, w, last⟩, c⟩ : Dn α) i = ⟨⟨false, w, last⟩, 0⟩ := by
            simp [dnNext, HsReg.stageNext, HsReg.stageWe, dnRegRd, hl, hr, hv]
          rw [e]
          exact ⟨⟨hn, fun _ => rfl, fun hx => by cases hx⟩, by simp [dnPending]⟩
        | true =>
          have e : dnNext n isZ (⟨⟨true, w, last⟩, c⟩ : Dn α) i = ⟨⟨true, i.word⟩, 0⟩ := by
            simp [dnNext, HsReg.stageNext, HsReg.stageWe, dnRegRd, hl, hr, hv]
          rw [e]
          refine ⟨⟨hn, fun _ => rfl, fun hx => by cases hx⟩, ?_⟩
          rw [hfull]
          simp [dnPending]

/-- **C49** Downscaling preserves the stream of valid bytes and the frame boundaries; what is not delivered yet is the
rest of at most one word. `isZ` tests zero strobes, so such items have no valid bytes. -/
theorem downscale_bytes (n : Nat) (hn : 0 < n) (isZ : α → Bool) (bytes : α → List β)
    (hz : ∀ a, isZ a = true → bytes a = []) (junk : Wide α) (is : List (DnIn α)) :
    dnInBytes n bytes ((dnMachine n isZ).trace (dnInit junk) is)
      = dnOutBytes bytes ((dnMachine n isZ).trace (dnInit junk) is)
        ++ dnPending n bytes ((dnMachine n isZ).final (dnInit junk) is) := by
  have := ((dnMachine n isZ).conserveL (DnInv n isZ) (fun _ => True) (dnPending n bytes)
    (fun e => if e.1.vld && e.2.rd
      then ((List.range n).flatMap fun k => (bytes (e.1.word.1 k)).map some) ++ eof e.1.word.2 else [])
    (fun e => if e.2.vld && e.1.rd
      then (e.2.item.elim [] fun a => (bytes a).map some) ++ eof e.2.last else [])
    (fun s i h _ => dn_step n hn isZ bytes hz s i h) is (dnInit junk)
    ⟨hn, fun _ => rfl, fun hx => by cases hx⟩ (by simp)).2
  exact this

theorem dn_inv (n : Nat) (hn : 0 < n) (isZ : α → Bool) (junk : Wide α) (is : List (DnIn α)) :
    DnInv n isZ ((dnMachine n isZ).final (dnInit junk) is) := by
  refine (dnMachine n isZ).inv_final (DnInv n isZ) (fun _ => True) ?_ is (dnInit junk)
    ⟨hn, fun _ => rfl, fun hx => by cases hx⟩ (by simp)
  intro s i h _
  exact (dn_step (β := Unit) n hn isZ (fun _ => []) (fun _ _ => rfl) s i h).1

/-- **C49** The output item is always defined, and nothing is pending when the output is not valid. -/
theorem downscale_defined (n : Nat) (hn : 0 < n) (isZ : α → Bool) (junk : Wide α) (is : List (DnIn α)) (i : DnIn α)
    (bytes : α → List β) :
    (((dnMachine n isZ).outAfter (dnInit junk) is i).item).isSome = true ∧
    (((dnMachine n isZ).outAfter (dnInit junk) is i).vld = false →
      dnPending n bytes ((dnMachine n isZ).final (dnInit junk) is) = []) := by
  have h := dn_inv n hn isZ junk is
  constructor
  · show Option.isSome (if _ < n then some _ else none) = true
    rw [if_pos h.cnt]; rfl
  · intro hv
    have : ((dnMachine n isZ).final (dnInit junk) is).reg.occ = false := hv
    simp [dnPending, this]

/-- **C49** No empty words are appended: an output word without valid bytes which ends a frame is the only one made
from its input word. -/
theorem downscale_no_empty_tail (n : Nat) (hn : 0 < n) (isZ : α → Bool) (junk : Wide α) (is : List (DnIn α)) (i : DnIn α)
    (a : α) (hl : ((dnMachine n isZ).outAfter (dnInit junk) is i).last = true)
    (ha : ((dnMachine n isZ).outAfter (dnInit junk) is i).item = some a) (hza : isZ a = true) :
    ∀ j, j < n → isZ (((dnMachine n isZ).final (dnInit junk) is).reg.reg.1 j) = true := by
  have h := dn_inv n hn isZ junk is
  unfold Machine.outAfter at hl ha
  generalize (dnMachine n isZ).final (dnInit junk) is = s at h hl ha
  have hl' : (s.reg.reg.2 && dnLast n isZ s) = true := hl
  rw [Bool.and_eq_true] at hl'
  have hz := (dnLast_iff n isZ s h.cnt).1 hl'.2
  have ha' : (if s.cnt < n then some (s.reg.reg.1 s.cnt) else none) = some a := ha
  rw [if_pos h.cnt] at ha'
  have ha'' : s.reg.reg.1 s.cnt = a := by simpa using ha'
  have hc0 : s.cnt = 0 := by
    rcases Nat.eq_zero_or_pos s.cnt with h0 | h0
    · exact h0
    · obtain ⟨j, h1, h2, h3⟩ := h.mid h0
      rcases Nat.eq_or_lt_of_le h1 with he | hlt
      · rw [← he, ha'', hza] at h3; cases h3
      · rw [hz j hlt h2] at h3; cases h3
  intro j hj
  rcases Nat.eq_zero_or_pos j with h0 | h0
  · rw [h0, ← hc0, ha'', hza]
  · exact hz j (by omega) hj

/-! ## Non-vacuity -/

/-- words of two bytes with strobes; 3 words of a frame packed by two -/
def exUp : List (UpIn (List Nat)) :=
  [⟨true, [1, 2], false, true⟩, ⟨true, [3, 4], false, false⟩, ⟨true, [3, 4], false, true⟩, ⟨true, [5], true, true⟩]

example : upOutBytes 2 id ((upMachine 2 []).trace (upInit []) exUp)
    = [some 1, some 2, some 3, some 4, some 5, none] := by decide
example : ((upMachine 2 []).outAfter (upInit []) (exUp.take 3) ⟨true, [5], true, true⟩).vld = true := by decide

def exDn : List (DnIn (List Nat)) :=
  [⟨true, (fun k => [[1, 2], [3, 4]].getD k [], false), true⟩, ⟨true, (fun k => [[5], []].getD k [], true), true⟩,
   ⟨true, (fun k => [[5], []].getD k [], true), true⟩, ⟨false, (fun _ => [], true), true⟩]

example : dnOutBytes id ((dnMachine 2 List.isEmpty).trace (dnInit (fun _ => [], false)) exDn)
    = [some 1, some 2, some 3, some 4, some 5, none] := by decide
example : (∀ a : List Nat, a.isEmpty = true → id a = []) ∧ id ([] : List Nat) = [] :=
  ⟨fun a h => by simpa using h, rfl⟩

-- an empty last word
def exDn0 : List (DnIn (List Nat)) := [⟨true, (fun _ => [], true), true⟩]
example : ((dnMachine 2 List.isEmpty).outAfter (dnInit (fun _ => [], false)) exDn0 ⟨false, (fun _ => [], true), true⟩).last
    = true ∧ ((dnMachine 2 List.isEmpty).outAfter (dnInit (fun _ => [], false)) exDn0
      ⟨false, (fun _ => [], true), true⟩).item = some [] := by decide

end Verif.Axis
