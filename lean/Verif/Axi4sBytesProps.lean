import Verif.Axi4sBytes

/-! # Properties of the conversion between bytes and words of AXI stream -/

namespace Verif.Axi4sBytes

universe u

variable {B : Type u}

deriving instance DecidableEq for Except

/-! ## Send and receive -/

theorem kept_self (d : List (Option B)) : keptBytes d (d.map Option.isSome) = some (d.filterMap id) := by
  induction d with
  | nil => rfl
  | cons x d ih => cases x <;> simp [keptBytes, ih]

theorem chunk_length {w n : Nat} {bs : List (Option B)} (hl : bs.length ≤ w) (hn : bs.length ≤ n) (h0 : bs ≠ []) :
    chunk w n bs = [bs ++ List.replicate (w - bs.length) none] := by
  cases n with
  | zero => exact absurd (List.length_eq_zero_iff.mp (Nat.le_zero.mp hn)) h0
  | succ n => simp [chunk, hl]

theorem chunk_more {w n : Nat} {bs : List (Option B)} (hl : w < bs.length) (hn : bs.length ≤ n) (hw : 0 < w) :
    ∃ m, (bs.drop w).length ≤ m ∧ chunk w n bs = bs.take w :: chunk w m (bs.drop w) ∧ bs.drop w ≠ [] := by
  cases n with
  | zero => omega
  | succ n =>
    refine ⟨n, by simp; omega, by simp [chunk, Nat.not_le.mpr hl], ?_⟩
    intro h
    have := congrArg List.length h
    simp at this
    omega

theorem pack_ne {ds : List (List (Option B))} (h : ds ≠ []) (d : List (Option B)) :
    pack (d :: ds) = ⟨0, d, d.map Option.isSome, false⟩ :: pack ds := by
  cases ds with
  | nil => exact absurd rfl h
  | cons e ds => rfl

theorem chunk_ne {w n : Nat} {bs : List (Option B)} (h : bs ≠ []) (hn : bs.length ≤ n) : chunk w n bs ≠ [] := by
  cases n with
  | zero => exact absurd (List.length_eq_zero_iff.mp (Nat.le_zero.mp hn)) h
  | succ n => unfold chunk; split <;> simp

theorem map_isSome_some (ds : List B) : (ds.map some).map Option.isSome = List.replicate ds.length true := by
  induction ds with
  | nil => rfl
  | cons d ds ih => simp [List.replicate_succ] at ih ⊢; exact ih

theorem filterMap_some (ds : List B) : (ds.map some).filterMap id = ds := by
  induction ds with
  | nil => rfl
  | cons d ds ih => simp

/-- Words after the first one. -/
theorem recv_mid {w : Nat} (hw : 0 < w) (o : Nat) (rest : List (Word B)) (k : Nat) : ∀ (ds pre : List B) (n : Nat), ds.length ≤ k →
    ds ≠ [] → ds.length ≤ n →
    recv w true ⟨some o, pre, false, 0⟩ (pack (chunk w n (ds.map some)) ++ rest) = .ok (o, 0, pre ++ ds, rest) := by
  induction k with
  | zero => intro ds _ _ h h0; exact absurd (List.length_eq_zero_iff.mp (Nat.le_zero.mp h)) h0
  | succ k ih =>
    intro ds pre n hk h0 hn
    obtain ⟨d, ds', rfl⟩ := List.exists_cons_of_ne_nil h0
    generalize hds : d :: ds' = ds at *
    have hm : ds.map some ≠ [] := by simpa using h0
    by_cases hl : ds.length ≤ w
    · rw [chunk_length (by simpa using hl) (by simpa using hn) hm]
      simp only [pack, List.cons_append, List.nil_append, recv, if_true]
      have e1 : ((ds.map some ++ List.replicate (w - (ds.map some).length) none).map Option.isSome).any id = true := by
        rw [← hds]; simp
      rw [e1, kept_self]
      have e2 : (ds.map some ++ List.replicate (w - (ds.map some).length) none).filterMap id = ds := by simp
      rw [e2]
      simp
    · obtain ⟨m, h1, h2, h3⟩ := chunk_more (by simpa using Nat.not_le.mp hl) (by simpa using hn) hw (bs := ds.map some) (n := n)
      rw [h2, pack_ne (chunk_ne h3 h1), ← List.map_take, ← List.map_drop]
      simp only [List.cons_append, recv, if_true]
      have e1 : (((ds.take w).map some).map Option.isSome) = List.replicate w true := by
        rw [map_isSome_some, List.length_take, Nat.min_eq_left (by omega)]
      have e1' : (List.replicate w true).any id = true := by simp; omega
      have e2 := kept_self ((ds.take w).map some)
      rw [e1] at e2
      rw [e1, e1', e2]
      have e3 : ((ds.take w).map some).filterMap id = ds.take w := filterMap_some _
      rw [e3]
      simp only [Bool.not_true, Bool.false_and, Bool.false_eq_true, if_false, Bool.not_false, Bool.true_and, beq_self_eq_true,
        Option.getD_some]
      rw [ih (ds.drop w) (pre ++ ds.take w) m (by simp; omega) (by intro h; rw [← List.map_drop, h] at h3; exact h3 rfl) (by simpa using h1)]
      simp

/-- C261: a frame which is sent with `offset` of the first byte smaller than the number of bytes in the word is received with the same
bytes and offset, and the words of the frames after it are left. -/
theorem roundtrip {w : Nat} (data : List B) (offset : Nat) (rest : List (Word B)) (ho : offset < w) (hd : data ≠ []) :
    receive w true (send w data offset ++ rest) = .ok (offset, 0, data, rest) := by
  have hw : 0 < w := by omega
  obtain ⟨d, ds', rfl⟩ := List.exists_cons_of_ne_nil hd
  generalize hds : d :: ds' = ds at *
  have he : ds.isEmpty = false := by rw [← hds]; rfl
  simp only [send, he, Bool.false_eq_true, if_false, receive]
  generalize hbs : List.replicate offset none ++ ds.map some = bs
  have hlen : bs.length = offset + ds.length := by rw [← hbs]; simp
  have hb0 : bs ≠ [] := by rw [← hbs, ← hds]; simp
  have hfi : ∀ l : List Bool, (List.replicate offset false ++ true :: l).findIdx id = offset := by
    intro l
    rw [List.findIdx_append]
    have : (List.replicate offset false).findIdx id = offset := by
      rw [List.findIdx_eq_length_of_false]
      · simp
      · intro x hx; simp at hx; simp [hx.2]
    simp [this, List.findIdx_cons]
  by_cases hl : bs.length ≤ w
  · rw [chunk_length hl (Nat.le_refl _) hb0]
    simp only [pack, List.cons_append, List.nil_append, recv, if_true]
    generalize hk : bs ++ List.replicate (w - bs.length) none = x
    have ek : x.map Option.isSome = List.replicate offset false ++ true :: ((ds'.map some ++ List.replicate (w - bs.length) none).map Option.isSome) := by
      rw [← hk, ← hbs, ← hds]; simp
    have e1 : (x.map Option.isSome).any id = true := by rw [ek]; simp
    have e2 : x.filterMap id = ds := by rw [← hk, ← hbs]; simp
    rw [e1, kept_self, e2, ek, hfi]
    simp
  · obtain ⟨m, h1, h2, h3⟩ := chunk_more (Nat.not_le.mp hl) (Nat.le_refl _) hw (bs := bs)
    have hdr : bs.drop w = (ds.drop (w - offset)).map some := by
      rw [← hbs, List.drop_append]; simp; omega
    have htk : bs.take w = List.replicate offset none ++ (ds.take (w - offset)).map some := by
      rw [← hbs, List.take_append]; simp; omega
    rw [h2, pack_ne (chunk_ne h3 h1)]
    simp only [List.cons_append, recv, if_true]
    have hpos : 0 < w - offset := by omega
    obtain ⟨v, hv⟩ := Nat.exists_eq_succ_of_ne_zero (Nat.ne_of_gt hpos)
    have ek : (bs.take w).map Option.isSome = List.replicate offset false ++ true :: (((ds'.take v).map some).map Option.isSome) := by
      rw [htk, ← hds, hv]; simp
    have e1 : ((bs.take w).map Option.isSome).any id = true := by rw [ek]; simp
    have e2 : (bs.take w).filterMap id = ds.take (w - offset) := by rw [htk, List.filterMap_append, filterMap_some]; simp
    rw [e1, kept_self, e2, ek, hfi]
    simp only [Bool.not_true, Bool.false_and, Bool.false_eq_true, if_false, Bool.not_false, beq_self_eq_true]
    rw [hdr] at h1 h3 ⊢
    rw [recv_mid hw _ _ _ _ _ _ (Nat.le_refl _) (by intro h; simp [h] at h3) (by simpa using h1)]
    simp

example : receive 4 true (send 4 [1, 2, 3, 4, 5, 6] 3 ++ send 4 [7] 0) = .ok (3, 0, [1, 2, 3, 4, 5, 6], send 4 [7] 0) := by decide
example : (send 4 [1, 2, 3, 4, 5, 6] 3).map (·.keep) =
    [[false, false, false, true], [true, true, true, true], [true, false, false, false]] := by decide

/-- All sent frames are received, in order. -/
def receiveAll (w : Nat) : Nat → List (Word B) → Except Err (List (Nat × List B))
  | 0, _ => .ok []
  | n + 1, ws =>
    match receive w true ws with
    | .ok (o, _, d, rest) =>
      match receiveAll w n rest with
      | .ok r => .ok ((o, d) :: r)
      | .error e => .error e
    | .error e => .error e

/-- C261 for a sequence of frames in the queue of the agent. -/
theorem roundtrip_all {w : Nat} (fs : List (Nat × List B)) (h : ∀ f, f ∈ fs → f.1 < w ∧ f.2 ≠ []) :
    receiveAll w fs.length (fs.flatMap fun f => send w f.2 f.1) = .ok fs := by
  induction fs with
  | nil => rfl
  | cons f fs ih =>
    have hf := h f (by simp)
    simp only [List.length_cons, receiveAll, List.flatMap_cons]
    rw [roundtrip _ _ _ hf.1 hf.2]
    simp only
    rw [ih fun g hg => h g (by simp [hg])]

example : ∀ f, f ∈ [(3, [1, 2, 3]), (0, [4, 5])] → f.1 < 4 ∧ f.2 ≠ [] := by decide

/-- C262: the full claim, whatever is sent is received. -/
def RoundTrip (B : Type) : Prop :=
  ∀ (w : Nat) (data : List B) (offset : Nat), 0 < w → receive w true (send w data offset) = .ok (offset, 0, data, [])

/-- C262: an offset of the whole word or more is rejected by the receiver. -/
theorem offset_rejected {w : Nat} (data : List B) (offset : Nat) (rest : List (Word B)) (hw : 0 < w) (ho : w ≤ offset) (hd : data ≠ []) :
    receive w true (send w data offset ++ rest) = .error .emptyFirst := by
  have he : data.isEmpty = false := by cases data <;> simp_all
  simp only [send, he, Bool.false_eq_true, if_false, receive]
  generalize hbs : List.replicate offset none ++ data.map some = bs
  have hlen : bs.length = offset + data.length := by rw [← hbs]; simp
  have hpos : 0 < data.length := List.length_pos_iff.mpr hd
  obtain ⟨m, h1, h2, h3⟩ := chunk_more (by omega) (Nat.le_refl _) hw (bs := bs)
  rw [h2, pack_ne (chunk_ne h3 h1)]
  have htk : bs.take w = List.replicate w none := by
    rw [← hbs, List.take_append]
    simp [Nat.sub_eq_zero_of_le ho, Nat.min_eq_left ho]
  rw [htk]
  simp [recv]

/-- C262: the offset of an empty frame is lost. -/
theorem empty_frame {w : Nat} (offset : Nat) (rest : List (Word B)) :
    receive w true (send w [] offset ++ rest) = .ok (0, 0, [], rest) := by
  have hk : ∀ n m, keptBytes (List.replicate n (none : Option B)) (List.replicate m false) = some [] := by
    intro n
    induction n with
    | zero => intro m; rfl
    | succ n ih =>
      intro m
      cases m with
      | zero => rfl
      | succ m => simp [List.replicate_succ, keptBytes, ih]
  simp [send, receive, recv, hk]

theorem roundTrip_fails : ¬ RoundTrip Nat := by
  intro h
  exact absurd (h 2 [1] 2 (by decide)) (by decide)

/-! ## What the receiver accepts -/

/-- Bits of `keep` and bytes of the data have the width of the word. -/
def WellFormed (w : Nat) (ws : List (Word B)) : Prop := ∀ x, x ∈ ws → x.data.length = w ∧ x.keep.length = w

theorem kept_ne {ds : List (Option B)} {ks : List Bool} (hl : ks.length ≤ ds.length) (hk : true ∈ ks) : keptBytes ds ks ≠ some [] := by
  induction ks generalizing ds with
  | nil => cases hk
  | cons k ks ih =>
    cases ds with
    | nil => simp at hl
    | cons d ds =>
      simp only [List.length_cons, Nat.add_le_add_iff_right] at hl
      cases k with
      | true =>
        cases d with
        | none => simp [keptBytes]
        | some b => cases h : keptBytes ds ks <;> simp [keptBytes, h]
      | false =>
        have := ih hl (by simpa using hk)
        simpa [keptBytes] using this

theorem recv_accepted {w : Nat} {u : Bool} {ws : List (Word B)} (hwf : WellFormed w ws) {a : Acc B} {o i : Nat} {d : List B}
    {rest : List (Word B)}
    (h : recv w u a ws = .ok (o, i, d, rest)) (hf : a.first = false → a.data ≠ [] ∧ a.offset.isSome) :
    ∃ (body : List (Word B)) (x : Word B), ws = body ++ x :: rest ∧ x.last = true ∧ (∀ y, y ∈ body → y.last = false) ∧
    (∀ y, y ∈ body ++ [x] → y.id = i) ∧ (a.first = false → i = a.id) ∧
    (∀ y, y ∈ (if a.first then body.drop 1 else body) → u = true → y.keep = List.replicate w true) ∧
    ((body ≠ [] ∨ a.first = false) → ∀ y, y ∈ body ++ [x] → u = true → true ∈ y.keep) ∧
    (∃ bss : List (List B), (body ++ [x]).map (fun y => keptBytes y.data (if u then y.keep else List.replicate w true)) = bss.map some ∧
      d = a.data ++ bss.flatten) ∧
    (a.first = false → a.offset = some o) ∧
    (a.first = true → a.offset = none → ∀ y, (body ++ [x]).head? = some y → u = true → true ∈ y.keep → o = y.keep.findIdx (fun b => b)) := by
  induction ws generalizing a with
  | nil => simp [recv] at h
  | cons x xs ih =>
    have hwx := hwf x (by simp)
    simp only [recv] at h
    generalize hkp : (if u = true then x.keep else List.replicate w true) = keep at h
    split at h
    · cases h
    next he1 =>
    split at h
    · cases h
    next he2 =>
    split at h
    · cases h
    next bs hbs =>
    split at h
    · cases h
    next hnf =>
    split at h
    · cases h
    next hid =>
    have hany : a.first = false ∨ x.last = false → keep.any id = true := by
      intro hor
      cases hany : keep.any id with
      | true => rfl
      | false =>
        exfalso
        rcases hor with hor | hor
        · have := (hf hor).1
          simp [hany, this] at he1
        · simp [hany, hor] at he2
    have hmem : keep.any id = true → true ∈ keep := by
      intro hany
      obtain ⟨b, hb, hb'⟩ := List.any_eq_true.mp hany
      have : b = true := hb'
      rw [← this]; exact hb
    have hnz : a.first = false ∨ x.last = false → u = true → true ∈ x.keep := by
      intro hor hu
      rw [hu, if_pos rfl] at hkp
      rw [hkp]
      exact hmem (hany hor)
    have hidx : a.first = false → x.id = a.id := by
      intro e; simpa [e] using hid
    have hoff : a.first = false → ∀ o', (if (!keep.any id) = true then 0 else a.offset.getD (keep.findIdx id)) = o' →
        a.offset = some o' := by
      intro e o' h1
      obtain ⟨hda, hof⟩ := hf e
      obtain ⟨o2, ho2⟩ := Option.isSome_iff_exists.mp hof
      rw [ho2, hany (.inl e)] at h1
      simpa [ho2] using h1
    have hoff' : a.offset = none → u = true → true ∈ x.keep → ∀ o',
        (if (!keep.any id) = true then 0 else a.offset.getD (keep.findIdx id)) = o' →
        o' = x.keep.findIdx (fun b => b) := by
      intro e0 hu hm o' h1
      rw [hu, if_pos rfl] at hkp
      rw [hkp] at hm ⊢
      have hemp : keep.any id = true := List.any_eq_true.mpr ⟨true, hm, rfl⟩
      rw [e0, hemp] at h1
      exact h1.symm
    split at h
    · next hl =>
      simp only [Except.ok.injEq, Prod.mk.injEq] at h
      obtain ⟨h1, h2, h3, h4⟩ := h
      refine ⟨[], x, by rw [h4]; rfl, hl, by simp, by simp [h2], fun e => by rw [← h2]; exact hidx e, by simp, ?_,
        ⟨[bs], by simp [hkp, hbs], by rw [← h3]; simp⟩, fun e => hoff e _ h1, ?_⟩
      · intro hb y hy hu
        have hy : y = x := by simpa using hy
        rw [hy]
        exact hnz (.inl (by simpa using hb)) hu
      · intro e e0 y hy hu hm
        have hy : x = y := by simpa using hy
        subst hy
        exact hoff' e0 hu hm _ h1
    · next hl =>
      simp only [Bool.not_eq_true] at hl
      have hbs0 : a.data ++ bs ≠ [] := by
        intro hnil
        have hb : bs = [] := (List.append_eq_nil_iff.mp hnil).2
        rw [hb] at hbs
        refine kept_ne ?_ (hmem (hany (.inr hl))) hbs
        rw [hwx.1, ← hkp]
        split
        · rw [hwx.2]; exact Nat.le_refl _
        · simp
      obtain ⟨body, z, g1, g2, g3, g4, g4', g5, g6, ⟨bss, g7, g7'⟩, g8, g9⟩ :=
        ih (fun y hy => hwf y (by simp [hy])) h (fun _ => ⟨hbs0, rfl⟩)
      have hio : i = x.id := g4' rfl
      have g8 := g8 rfl
      simp only [Option.some.injEq] at g8
      refine ⟨x :: body, z, by rw [g1]; rfl, g2, ?_, ?_, ?_, ?_, ?_, ⟨bs :: bss, ?_, ?_⟩, fun e => hoff e _ g8, ?_⟩
      · intro y hy
        rcases List.mem_cons.mp hy with e | e
        · rw [e]; exact hl
        · exact g3 y e
      · intro y hy
        rcases List.mem_cons.mp hy with e | e
        · rw [e, hio]
        · exact g4 y e
      · intro e; rw [hio]; exact hidx e
      · intro y hy hu
        cases hfi : a.first with
        | true =>
          rw [hfi] at hy
          exact g5 y (by simpa using hy) hu
        | false =>
          rw [hfi] at hy
          simp only [Bool.false_eq_true, if_false] at hy
          rcases List.mem_cons.mp hy with e | e
          · rw [e]
            rw [hu, if_pos rfl] at hkp
            rw [hkp]
            simpa [hfi, hl] using hnf
          · exact g5 y (by simpa using e) hu
      · intro _ y hy hu
        rcases List.mem_cons.mp hy with e | e
        · rw [e]; exact hnz (.inr hl) hu
        · exact g6 (.inr rfl) y e hu
      · rw [List.cons_append, List.map_cons, g7, List.map_cons, hkp, hbs]
      · rw [g7']; simp
      · intro e e0 y hy hu hm
        have hy : x = y := by simpa using hy
        subst hy
        exact hoff' e0 hu hm _ g8

theorem kept_zip {ds : List (Option B)} {ks : List Bool} {bs : List B} (h : keptBytes ds ks = some bs) :
    ((ds.zip ks).filter (·.2)).map (·.1) = bs.map some := by
  induction ds generalizing ks bs with
  | nil => simp [keptBytes] at h; simp [h]
  | cons d ds ih =>
    cases ks with
    | nil => simp [keptBytes] at h; simp [h]
    | cons k ks =>
      cases k with
      | false => simp [keptBytes] at h; simpa using ih h
      | true =>
        cases d with
        | none => simp [keptBytes] at h
        | some b =>
          cases hk : keptBytes ds ks with
          | none => simp [keptBytes, hk] at h
          | some bs' =>
            simp [keptBytes, hk] at h
            rw [← h]
            simpa using ih hk

theorem kept_zip_all {ws : List (Word B)} {bss : List (List B)} (h : ws.map (fun y => keptBytes y.data y.keep) = bss.map some) :
    bss.flatten.map some = ws.flatMap fun y => ((y.data.zip y.keep).filter (·.2)).map (·.1) := by
  induction ws generalizing bss with
  | nil => cases bss <;> simp_all
  | cons w ws ih =>
    cases bss with
    | nil => simp at h
    | cons bs bss =>
      simp only [List.map_cons, List.cons.injEq] at h
      rw [List.flatMap_cons, kept_zip h.1, ← ih h.2]
      simp

/-- C263: description of each accepted frame: it ends with the first word with last, the id is the same in all words, the received bytes are
the marked bytes of all words in order, all words between the first one and the last one are full, no word is empty if there is more of
them, offset is the position of the first marked byte. -/
theorem accepted_partial {w : Nat} (ws : List (Word B)) (hwf : WellFormed w ws) (o i : Nat) (d : List B) (rest : List (Word B))
    (h : receive w true ws = .ok (o, i, d, rest)) :
    ∃ (body : List (Word B)) (x : Word B), ws = body ++ x :: rest ∧ x.last = true ∧ (∀ y, y ∈ body → y.last = false) ∧
    (∀ y, y ∈ body ++ [x] → y.id = i) ∧
    (∀ y, y ∈ body.drop 1 → y.keep = List.replicate w true) ∧
    (body ≠ [] → ∀ y, y ∈ body ++ [x] → true ∈ y.keep) ∧
    d.map some = ((body ++ [x]).flatMap fun y => ((y.data.zip y.keep).filter (·.2)).map (·.1)) ∧
    (∀ y, (body ++ [x]).head? = some y → true ∈ y.keep → o = y.keep.findIdx (fun b => b)) := by
  obtain ⟨body, x, g1, g2, g3, g4, _, g5, g6, ⟨bss, g7, g7'⟩, _, g9⟩ := recv_accepted hwf h (by simp)
  exact ⟨body, x, g1, g2, g3, g4, fun y hy => g5 y (by simpa using hy) rfl, fun hb y hy => g6 (.inl hb) y hy rfl,
    by rw [g7']; exact kept_zip_all (by simpa using g7), fun y hy hm => g9 rfl rfl y hy rfl hm⟩

/-- The full claim: bytes of an accepted frame are contiguous, i.e. it is a frame which may be made by send. -/
def Contiguous (B : Type) : Prop :=
  ∀ (w : Nat) (ws : List (Word B)) (o i : Nat) (d : List B), 0 < w → WellFormed w ws → receive w true ws = .ok (o, i, d, []) →
    ws.map (·.keep) = (send w d o).map (·.keep)

/-- C263: a hole in the first word, between the words, or in the last word is not noticed. -/
theorem contiguous_fails : ¬ Contiguous Nat := by
  intro h
  have := h 4 [⟨0, [some 1, some 9, some 9, some 9], [true, false, false, false], false⟩,
    ⟨0, [some 9, some 2, some 9, some 3], [false, true, false, true], true⟩] 0 0 [1, 2, 3] (by decide) (by unfold WellFormed; decide)
    (by decide)
  exact absurd this (by decide)

example : WellFormed 4 (send 4 [1, 2, 3, 4, 5, 6] 3) ∧
    receive 4 true (send 4 [1, 2, 3, 4, 5, 6] 3) = .ok (3, 0, [1, 2, 3, 4, 5, 6], []) := by unfold WellFormed; decide

/-! ## Interface without keep -/

theorem kept_full {ds : List (Option B)} {bs : List B} (h : keptBytes ds (List.replicate ds.length true) = some bs) : ds = bs.map some := by
  induction ds generalizing bs with
  | nil => simp [keptBytes] at h; rw [h]; rfl
  | cons d ds ih =>
    cases d with
    | none => simp [List.replicate_succ, keptBytes] at h
    | some b =>
      cases hk : keptBytes ds (List.replicate ds.length true) with
      | none => simp [List.replicate_succ, keptBytes, hk] at h
      | some bs' =>
        simp [List.replicate_succ, keptBytes, hk] at h
        rw [← h, ih hk]; rfl

theorem recv_nokeep {w : Nat} (hw : 0 < w) (rest : List (Word B)) (k : Nat) : ∀ (ds : List B) (a : Acc B) (n : Nat), ds.length ≤ k →
    ds ≠ [] → ds.length ≤ n → ds.length % w = 0 → a.offset.getD 0 = 0 → a.id = 0 →
    recv w false a (pack (chunk w n (ds.map some)) ++ rest) = .ok (0, 0, a.data ++ ds, rest) := by
  induction k with
  | zero => intro ds _ _ h h0; exact absurd (List.length_eq_zero_iff.mp (Nat.le_zero.mp h)) h0
  | succ k ih =>
    intro ds a n hk h0 hn hm ho hi
    have hpos : 0 < ds.length := List.length_pos_iff.mpr h0
    have hm0 : ds.map some ≠ [] := by simpa using h0
    have hany : (List.replicate w true).any id = true := by simp; omega
    have hfi : (List.replicate w true).findIdx id = 0 := by
      cases w with
      | zero => omega
      | succ w => simp [List.replicate_succ, List.findIdx_cons]
    have hof : a.offset.getD ((List.replicate w true).findIdx id) = 0 := by
      cases h : a.offset with
      | none => exact hfi
      | some o => rw [h] at ho; exact ho
    have hkp : ∀ es : List B, es.length = w → keptBytes (es.map some) (List.replicate w true) = some es := by
      intro es he
      have := kept_self (es.map some)
      rw [map_isSome_some, he, filterMap_some] at this
      exact this
    by_cases hl : ds.length ≤ w
    · have hlw : ds.length = w := by
        rcases Nat.lt_or_eq_of_le hl with e | e
        · rw [Nat.mod_eq_of_lt e] at hm; omega
        · exact e
      rw [chunk_length (by simpa using hl) (by simpa using hn) hm0]
      have e0 : ds.map some ++ List.replicate (w - (ds.map some).length) none = ds.map some := by simp [hlw]
      rw [e0]
      simp only [pack, List.cons_append, List.nil_append, recv, Bool.false_eq_true, if_false, hany, hkp ds hlw, Bool.not_true, Bool.false_and,
        hof, Bool.and_false]
      cases a.first <;> simp [hi]
    · obtain ⟨m, h1, h2, h3⟩ := chunk_more (by simpa using Nat.not_le.mp hl) (by simpa using hn) hw (bs := ds.map some) (n := n)
      rw [h2, pack_ne (chunk_ne h3 h1), ← List.map_take, ← List.map_drop]
      have e2 := hkp (ds.take w) (by simp; omega)
      simp only [List.cons_append, recv, Bool.false_eq_true, if_false, hany, e2, Bool.not_true, Bool.false_and, hof, beq_self_eq_true,
        Bool.and_false]
      have hne : ds.drop w ≠ [] := by intro h; rw [← List.map_drop, h] at h3; exact h3 rfl
      have hmod : (ds.drop w).length % w = 0 := by
        rw [List.length_drop, ← Nat.mod_eq_sub_mod (by omega)]; exact hm
      have := ih (ds.drop w) ⟨some 0, a.data ++ ds.take w, false, 0⟩ m (by simp; omega) hne (by simpa using h1) hmod rfl rfl
      rw [this]
      cases a.first <;> simp [hi]

/-- C264: without the `keep` signal the frame is received correctly if its bytes make full words and there is no offset. -/
theorem nokeep_roundtrip {w : Nat} (data : List B) (rest : List (Word B)) (hw : 0 < w) (hd : data ≠ []) (hm : data.length % w = 0) :
    receive w false (send w data 0 ++ rest) = .ok (0, 0, data, rest) := by
  have he : data.isEmpty = false := by cases data <;> simp_all
  simp only [send, he, Bool.false_eq_true, if_false, receive, List.replicate_zero, List.nil_append]
  have := recv_nokeep hw rest data.length data ⟨none, [], true, 0⟩ (data.map some).length (Nat.le_refl _) hd (by simp) hm rfl rfl
  simpa using this

example : ([1, 2, 3, 4] : List Nat) ≠ [] ∧ [1, 2, 3, 4].length % 2 = 0 ∧
    receive 2 false (send 2 [1, 2, 3, 4] 0) = .ok (0, 0, [1, 2, 3, 4], []) := by decide

theorem mem_chunk_none {w : Nat} (hw : 0 < w) (k : Nat) : ∀ (bs : List (Option B)) (n : Nat), bs.length ≤ k → bs ≠ [] → bs.length ≤ n →
    (none ∈ bs ∨ bs.length % w ≠ 0) → ∃ c, c ∈ chunk w n bs ∧ none ∈ c := by
  induction k with
  | zero => intro bs _ h h0; exact absurd (List.length_eq_zero_iff.mp (Nat.le_zero.mp h)) h0
  | succ k ih =>
    intro bs n hk h0 hn h
    by_cases hl : bs.length ≤ w
    · rw [chunk_length hl hn h0]
      refine ⟨_, List.mem_singleton.mpr rfl, ?_⟩
      rcases h with h | h
      · simp [h]
      · have : bs.length ≠ w := by intro e; rw [e, Nat.mod_self] at h; exact h rfl
        simp; right; omega
    · obtain ⟨m, h1, h2, h3⟩ := chunk_more (Nat.not_le.mp hl) hn hw (bs := bs)
      rw [h2]
      by_cases hc : none ∈ bs.take w
      · exact ⟨_, by simp, hc⟩
      · have h' : none ∈ bs.drop w ∨ (bs.drop w).length % w ≠ 0 := by
          rcases h with h | h
          · rw [← List.take_append_drop w bs] at h
            rcases List.mem_append.mp h with e | e
            · exact absurd e hc
            · exact .inl e
          · right; rw [List.length_drop, ← Nat.mod_eq_sub_mod (by omega)]; exact h
        obtain ⟨c, hc1, hc2⟩ := ih (bs.drop w) m (by simp; omega) h3 h1 h'
        exact ⟨c, by simp [hc1], hc2⟩

theorem mem_pack {ds : List (List (Option B))} {c : List (Option B)} (h : c ∈ ds) : ∃ x, x ∈ pack ds ∧ x.data = c := by
  induction ds with
  | nil => cases h
  | cons d ds ih =>
    cases ds with
    | nil => have : c = d := by simpa using h
             exact ⟨_, List.mem_cons_self, this.symm⟩
    | cons e ds =>
      rcases List.mem_cons.mp h with e' | e'
      · exact ⟨_, List.mem_cons_self, e'.symm⟩
      · obtain ⟨x, hx, hx'⟩ := ih e'
        exact ⟨x, by simp only [pack]; exact List.mem_cons_of_mem _ hx, hx'⟩

theorem chunk_width {w : Nat} (n : Nat) : ∀ (bs c : List (Option B)), c ∈ chunk w n bs → c.length = w := by
  induction n with
  | zero => intro bs c h; cases h
  | succ n ih =>
    intro bs c h
    unfold chunk at h
    split at h
    · have : c = _ := List.mem_singleton.mp h
      rw [this]; simp; omega
    · rcases List.mem_cons.mp h with e | e
      · rw [e]; simp; omega
      · exact ih _ _ e

theorem pack_data {ds : List (List (Option B))} {x : Word B} (h : x ∈ pack ds) : x.data ∈ ds ∧ x.keep = x.data.map Option.isSome := by
  induction ds with
  | nil => cases h
  | cons d ds ih =>
    cases ds with
    | nil => have : x = _ := List.mem_singleton.mp h
             rw [this]; exact ⟨by simp, rfl⟩
    | cons e ds =>
      rcases List.mem_cons.mp h with e' | e'
      · rw [e']; exact ⟨by simp, rfl⟩
      · have := ih e'; exact ⟨List.mem_cons_of_mem _ this.1, this.2⟩

theorem pack_last {ds : List (List (Option B))} {body rest : List (Word B)} {x : Word B} (h : pack ds = body ++ x :: rest)
    (hx : x.last = true) : rest = [] := by
  induction ds generalizing body with
  | nil => have := congrArg List.length h; simp [pack] at this
  | cons d ds ih =>
    cases ds with
    | nil =>
      cases body with
      | nil => simp [pack] at h; exact h.2
      | cons b body => have := congrArg List.length h; simp [pack] at this
    | cons e ds =>
      cases body with
      | nil =>
        simp only [pack, List.nil_append, List.cons.injEq] at h
        rw [← h.1] at hx; cases hx
      | cons b body =>
        simp only [pack, List.cons_append, List.cons.injEq] at h
        exact ih h.2

/-- C264: without the `keep` signal a frame which does not make full words, or which has an offset, is not received. -/
theorem nokeep_rejected {w : Nat} (data : List B) (offset : Nat) (hw : 0 < w) (hd : data ≠ [])
    (hm : 0 < offset ∨ data.length % w ≠ 0) (r) : receive w false (send w data offset) ≠ .ok r := by
  intro h
  obtain ⟨o, i, d, rest⟩ := r
  have he : data.isEmpty = false := by cases data <;> simp_all
  simp only [send, he, Bool.false_eq_true, if_false] at h
  generalize hbs : List.replicate offset none ++ data.map some = bs at h
  have hpos : 0 < data.length := List.length_pos_iff.mpr hd
  have hb0 : bs ≠ [] := by rw [← hbs]; simp [hd]
  have hnone : none ∈ bs ∨ bs.length % w ≠ 0 := by
    by_cases ho : 0 < offset
    · left; rw [← hbs]; simp; omega
    · right
      have : offset = 0 := by omega
      rw [← hbs, this]; simp
      rcases hm with e | e
      · omega
      · exact e
  obtain ⟨c, hc1, hc2⟩ := mem_chunk_none hw bs.length bs bs.length (Nat.le_refl _) hb0 (Nat.le_refl _) hnone
  obtain ⟨x, hx1, hx2⟩ := mem_pack hc1
  have hwf : WellFormed w (pack (chunk w bs.length bs)) := by
    intro y hy
    obtain ⟨h1, h2⟩ := pack_data hy
    have := chunk_width _ _ _ h1
    exact ⟨this, by rw [h2, List.length_map]; exact this⟩
  obtain ⟨body, z, g1, g2, g3, _, _, _, _, ⟨bss, g7, _⟩, _, _⟩ := recv_accepted hwf h (by simp)
  have hrest := pack_last g1 g2
  rw [g1, hrest] at hx1
  have hmem : keptBytes x.data (List.replicate w true) ∈ bss.map some := by
    rw [← g7]
    exact List.mem_map.mpr ⟨x, hx1, by simp⟩
  obtain ⟨bs', _, hb'⟩ := List.mem_map.mp hmem
  have hxl : x.data.length = w := by rw [hx2]; exact chunk_width _ _ _ hc1
  rw [← hxl] at hb'
  have := kept_full hb'.symm
  rw [hx2] at this
  rw [this] at hc2
  simp at hc2

example : receive 2 false (send 2 [1, 2, 3] 0) = .error .undefined := by decide

end Verif.Axi4sBytes
