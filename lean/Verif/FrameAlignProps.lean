import Verif.FrameAlign

/-! # Properties of frame alignment (C316 - C318) -/

namespace Verif.FrameAlign

/-! ## C316: offsets of the next frame -/

/-- the length is allowed by the type of the stream -/
def LenOk (lenMin : Nat) (lenMax : Option Nat) (i : Nat) : Prop := lenMin ≤ i ∧ ∀ m, lenMax = some m → i ≤ m

theorem any_lt (lenMax : Option Nat) (i : Nat) : lenMax.any (· < i) = true ↔ ∃ m, lenMax = some m ∧ m < i := by
  cases lenMax <;> simp

/-- once an offset repeats there are no new ones -/
theorem period {ew dw lo j i : Nat} (hj : lo ≤ j) (hji : j < i) (he : (j * ew) % dw = (i * ew) % dw) :
    ∀ k, i ≤ k → ∃ k', lo ≤ k' ∧ k' < i ∧ (k' * ew) % dw = (k * ew) % dw := by
  intro k
  induction k using Nat.strongRecOn with
  | _ k ih =>
    intro hk
    have hs : ((k - (i - j)) * ew) % dw = (k * ew) % dw := by
      have e1 : (k - (i - j)) * ew = j * ew + (k - i) * ew := by rw [← Nat.add_mul]; congr 1; omega
      have e2 : k * ew = i * ew + (k - i) * ew := by rw [← Nat.add_mul]; congr 1; omega
      rw [e1, e2, Nat.add_mod, he, ← Nat.add_mod]
    by_cases h : k - (i - j) < i
    · exact ⟨k - (i - j), by omega, h, hs⟩
    · obtain ⟨k', h1, h2, h3⟩ := ih (k - (i - j)) (by omega) (by omega)
      exact ⟨k', h1, h2, h3.trans hs⟩

theorem offLoop_spec {ew dw lo : Nat} (hd : 0 < dw) (lenMax : Option Nat) (o : Nat) : ∀ (fuel i : Nat) (acc : List Nat), lo ≤ i →
    (∀ o, o ∈ acc ↔ ∃ k, lo ≤ k ∧ k < i ∧ o = (k * ew) % dw) → (∀ k, lo ≤ k → k < i → ∀ m, lenMax = some m → k ≤ m) →
    lo + dw < i + fuel →
    (o ∈ offLoop ew dw lenMax fuel i acc ↔ ∃ k, LenOk lo lenMax k ∧ o = (k * ew) % dw) := by
  intro fuel
  induction fuel with
  | zero =>
    intro i acc hi hacc hm hf
    -- all offsets were found
    show o ∈ acc ↔ _
    rw [hacc]
    refine ⟨fun ⟨k, h1, h2, h3⟩ => ⟨k, ⟨h1, hm k h1 h2⟩, h3⟩, fun ⟨k, ⟨h1, h2⟩, h3⟩ => ?_⟩
    have hper : (lo * ew) % dw = ((lo + dw) * ew) % dw := by
      rw [Nat.add_mul, Nat.add_mul_mod_self_left]
    by_cases hk : k < lo + dw
    · exact ⟨k, h1, by omega, h3⟩
    · obtain ⟨k', g1, g2, g3⟩ := period (Nat.le_refl lo) (by omega) hper k (by omega)
      exact ⟨k', g1, by omega, h3.trans g3.symm⟩
  | succ fuel ih =>
    intro i acc hi hacc hm hf
    unfold offLoop
    split
    · next hlt =>
      obtain ⟨m, e1, e2⟩ := (any_lt lenMax i).1 hlt
      rw [hacc]
      exact ⟨fun ⟨k, h1, h2, h3⟩ => ⟨k, ⟨h1, hm k h1 h2⟩, h3⟩, fun ⟨k, ⟨h1, h2⟩, h3⟩ => ⟨k, h1, by have := h2 m e1; omega, h3⟩⟩
    · next hlt =>
      have hle : ∀ m, lenMax = some m → i ≤ m := by
        intro m e
        rcases Nat.lt_or_ge m i with g | g
        · exact absurd ((any_lt lenMax i).2 ⟨m, e, g⟩) hlt
        · exact g
      split
      · next hin =>
        obtain ⟨j, g1, g2, g3⟩ := (hacc _).1 hin
        rw [hacc]
        refine ⟨fun ⟨k, h1, h2, h3⟩ => ⟨k, ⟨h1, hm k h1 h2⟩, h3⟩, fun ⟨k, ⟨h1, h2⟩, h3⟩ => ?_⟩
        by_cases hk : k < i
        · exact ⟨k, h1, hk, h3⟩
        · obtain ⟨k', f1, f2, f3⟩ := period g1 g2 g3.symm k (by omega)
          exact ⟨k', f1, f2, h3.trans f3.symm⟩
      · refine ih (i + 1) _ (by omega) ?_ ?_ (by omega)
        · intro o
          rw [List.mem_append, hacc, List.mem_singleton]
          constructor
          · rintro (⟨k, h1, h2, h3⟩ | h)
            · exact ⟨k, h1, by omega, h3⟩
            · exact ⟨i, hi, by omega, h⟩
          · rintro ⟨k, h1, h2, h3⟩
            by_cases hk : k = i
            · subst hk; exact .inr h3
            · exact .inl ⟨k, h1, by omega, h3⟩
        · intro k h1 h2
          by_cases hk : k = i
          · subst hk; exact hle
          · exact hm k h1 (by omega)

/-- **C316** `next_frame_offsets` returns exactly the offsets at which frames of the allowed lengths end; it always stops after at
most `data_width + 1` passes. -/
theorem next_offsets (ew dw lenMin : Nat) (lenMax : Option Nat) (hd : 0 < dw) (fuel : Nat) (hf : dw < fuel) (o : Nat) :
    o ∈ nextFrameOffsets ew dw lenMin lenMax fuel ↔ ∃ k, LenOk lenMin lenMax k ∧ o = (k * ew) % dw := by
  refine offLoop_spec hd lenMax o fuel lenMin [] (Nat.le_refl _) ?_ ?_ (by omega)
  · intro o; simp; intro k h1 h2; omega
  · intro k h1 h2; omega

example : nextFrameOffsets 24 32 1 none 33 = [24, 16, 8, 0] := by decide

/-! ## C317: frames of bytes -/

theorem flatten_addLast (fr : List Word) (w : Word) (h : fr ≠ []) :
    (fr.dropLast ++ [fr.getLastD [] ++ w]).flatten = fr.flatten ++ w := by
  have e : fr.dropLast ++ [fr.getLastD []] = fr := by
    cases fr with
    | nil => exact absurd rfl h
    | cons a l =>
      rw [List.getLastD_cons, ← List.getLast_eq_getLastD (by simp : a :: l ≠ [])]
      exact List.dropLast_concat_getLast _
  conv => rhs; rw [← e]
  simp

theorem div_step {wb : Nat} (hw : 0 < wb) (x : Nat) : (x + 1) / wb = x / wb ∨ (x + 1) / wb = x / wb + 1 := by
  have h1 := Nat.div_add_mod x wb
  have h2 := Nat.mod_lt x hw
  have h3 := Nat.div_add_mod (x + 1) wb
  have h4 := Nat.mod_lt (x + 1) hw
  generalize x / wb = q at *
  generalize (x + 1) / wb = p at *
  rcases Nat.lt_trichotomy p q with g | g | g
  · have := Nat.mul_le_mul_left wb g
    rw [Nat.mul_succ] at this
    omega
  · exact .inl g
  · rcases Nat.lt_or_ge p (q + 2) with f | f
    · exact .inr (by omega)
    · have := Nat.mul_le_mul_left wb f
      rw [Nat.mul_add] at this
      omega

theorem create_loop {wb offIn : Nat} (hw : 0 < wb) (hi : offIn < wb) (stream byteCnt offOut : Nat) (i : Nat) :
    ∃ fr, ((List.range (i + 1)).map (srcOf wb stream byteCnt offIn)).foldl addByte
        (some (if offOut ≠ 0 then ([List.replicate offOut none], 1) else ([], 0))) = some (fr, (i + offIn) / wb + 1) ∧ fr ≠ [] ∧
      fr.flatten = List.replicate offOut none ++ ((List.range (i + 1)).map (srcOf wb stream byteCnt offIn)).map some := by
  induction i with
  | zero =>
    have h0 : (0 + offIn) / wb = 0 := by rw [Nat.zero_add]; exact Nat.div_eq_of_lt hi
    by_cases ho : offOut = 0
    · subst ho
      refine ⟨[[some (srcOf wb stream byteCnt offIn 0)]], ?_, by simp, by simp [List.range_succ]⟩
      have hb : (srcOf wb stream byteCnt offIn 0).word = 0 := h0
      simp [List.range_succ, addByte, hb, hi]
    · refine ⟨[List.replicate offOut none ++ [some (srcOf wb stream byteCnt offIn 0)]], ?_, by simp, by simp [List.range_succ]⟩
      have hb : (srcOf wb stream byteCnt offIn 0).word = 0 := h0
      simp [List.range_succ, addByte, hb, hi, ho]
  | succ i ih =>
    obtain ⟨fr, h1, h2, h3⟩ := ih
    rw [List.range_succ, List.map_append, List.foldl_append, h1]
    have hb : (srcOf wb stream byteCnt offIn (i + 1)).word = (i + 1 + offIn) / wb := rfl
    have e : i + 1 + offIn = (i + offIn) + 1 := by omega
    simp only [List.map_cons, List.map_nil, List.foldl_cons, List.foldl_nil, addByte]
    rw [hb, e]
    rcases div_step hw (i + offIn) with g | g
    · rw [g, if_pos rfl]
      refine ⟨_, rfl, by simp, ?_⟩
      rw [flatten_addLast _ _ h2, h3]
      simp
    · rw [g, if_neg (by omega), if_pos rfl]
      refine ⟨_, rfl, by simp, ?_⟩
      rw [List.flatten_append, h3]
      simp

/-- bytes of the words without the padding -/
def srcs (ws : List Word) : List Src := ws.flatten.filterMap id

/-- **C317** `create_frame` does not fail and contains the bytes of the frame in order; the byte `i` comes from the byte
`offset_in + i` of the input words, `last` is set for those of the last input word. -/
theorem create_frame {wb offIn : Nat} (hi : offIn < wb) (stream byteCnt offOut : Nat) :
    ∃ fr, createFrame wb stream byteCnt offOut offIn = some fr ∧
      srcs fr = (List.range byteCnt).map fun i =>
        ⟨stream, (offIn + i) / wb, (offIn + i) % wb, decide ((offIn + i) / wb = (offIn + byteCnt - 1) / wb)⟩ := by
  have hw : 0 < wb := by omega
  cases byteCnt with
  | zero => exact ⟨[], rfl, rfl⟩
  | succ n =>
    obtain ⟨fr, h1, h2, h3⟩ := create_loop hw hi stream (n + 1) offOut n
    refine ⟨_, by unfold createFrame; rw [if_neg (by omega)]; simp only [h1]; rfl, ?_⟩
    unfold srcs
    rw [flatten_addLast _ _ h2, h3]
    simp only [List.filterMap_append, List.filterMap_replicate, id, List.filterMap_map, Function.comp_def]
    simp only [List.nil_append, List.append_nil, List.filterMap_eq_map']
    refine List.map_congr_left fun i _ => ?_
    simp only [srcOf, Nat.add_comm i offIn]
    congr 1

/-- words are full but the last one which has a byte -/
structure Packed (wb : Nat) (ws : List Word) : Prop where
  full : ∀ w ∈ ws.dropLast, w.length = wb
  last : ws ≠ [] → 0 < (ws.getLastD []).length ∧ (ws.getLastD []).length ≤ wb

theorem dropLast_getLastD (ws : List Word) (h : ws ≠ []) : ws.dropLast ++ [ws.getLastD []] = ws := by
  cases ws with
  | nil => exact absurd rfl h
  | cons a l =>
    rw [List.getLastD_cons, ← List.getLast_eq_getLastD (by simp : a :: l ≠ [])]
    exact List.dropLast_concat_getLast _

theorem getLastD_snoc (ws : List Word) (w : Word) : (ws ++ [w]).getLastD [] = w := by
  simp [List.getLastD_eq_getLast?]

theorem pack_step {wb : Nat} (hw : 0 < wb) {ws : List Word} (h : Packed wb ws) (d : Option Src) :
    Packed wb (packStep wb ws d) ∧ (packStep wb ws d).flatten = ws.flatten ++ [d] ∧ packStep wb ws d ≠ [] := by
  unfold packStep
  split
  · next hc =>
    refine ⟨⟨?_, ?_⟩, by simp, by simp⟩
    · intro w hm
      rw [List.dropLast_concat] at hm
      rcases hc with hc | hc
      · subst hc; simp at hm
      · by_cases hne : ws = []
        · subst hne; simp at hm
        · rw [← dropLast_getLastD ws hne] at hm
          rcases List.mem_append.1 hm with g | g
          · exact h.full w g
          · rw [List.mem_singleton.1 g]; exact hc
    · intro _
      rw [getLastD_snoc]
      exact ⟨Nat.one_pos, hw⟩
  · next hc =>
    have hne : ws ≠ [] := fun g => hc (.inl g)
    have hl : (ws.getLastD []).length ≠ wb := fun g => hc (.inr g)
    refine ⟨⟨?_, ?_⟩, flatten_addLast ws [d] hne, by simp⟩
    · rw [List.dropLast_concat]; exact h.full
    · intro _
      rw [getLastD_snoc, List.length_append]
      have := h.last hne
      rw [List.length_singleton]
      omega

theorem pack_fold {wb : Nat} (hw : 0 < wb) : ∀ (ds : List (Option Src)) (ws : List Word), Packed wb ws →
    Packed wb (ds.foldl (packStep wb) ws) ∧ (ds.foldl (packStep wb) ws).flatten = ws.flatten ++ ds := by
  intro ds
  induction ds with
  | nil => exact fun ws h => ⟨h, by simp⟩
  | cons d ds ih =>
    intro ws h
    obtain ⟨h1, h2, _⟩ := pack_step hw h d
    obtain ⟨h3, h4⟩ := ih _ h1
    exact ⟨h3, by rw [List.foldl_cons, h4, h2]; simp⟩

theorem kept_tail (off : Nat) : ∀ (l : List (Option Src)) (k : Nat), off ≤ k →
    (((List.range' k l.length).zip l).filter fun p => !(decide (off ≤ p.1) && p.2 == none)).map Prod.snd =
      (l.filterMap id).map some := by
  intro l
  induction l with
  | nil => intro k _; rfl
  | cons a l ih =>
    intro k hk
    have := ih (k + 1) (by omega)
    cases a with
    | none => simpa [List.range'_succ, hk] using this
    | some x => simpa [List.range'_succ, hk] using this

theorem kept_eq (off : Nat) (l : List (Option Src)) :
    (((List.range (List.replicate off none ++ l).length).zip (List.replicate off none ++ l)).filter
      fun p => !(decide (off ≤ p.1) && p.2 == none)).map Prod.snd = List.replicate off none ++ (l.filterMap id).map some := by
  rw [List.length_append, List.length_replicate, List.range_eq_range', ← List.range'_append_1, Nat.zero_add,
    List.zip_append (by simp), List.filter_append, List.map_append, kept_tail off l off (Nat.le_refl _)]
  congr 1
  have : ∀ (n k : Nat), k + n ≤ off → (((List.range' k n).zip (List.replicate n (none : Option Src))).filter
      fun p => !(decide (off ≤ p.1) && p.2 == none)).map Prod.snd = List.replicate n none := by
    intro n
    induction n with
    | zero => intro k _; rfl
    | succ n ih =>
      intro k hk
      have := ih (k + 1) (by omega)
      have hlt : decide (off ≤ k) = false := by simp; omega
      rw [List.range'_succ, List.replicate_succ, List.zip_cons_cons, List.filter_cons]
      simp only [hlt, Bool.false_and, Bool.not_false, if_true, List.map_cons]
      rw [this]
  exact this off 0 (by omega)

/-- **C317** `join_streams`: the output words are full words with `offset` empty bytes, then bytes of all frames in order without gaps,
then the padding of the last word. -/
theorem join_streams {wb : Nat} (hw : 0 < wb) (offset : Nat) (frames : List (List Word)) :
    (∀ w ∈ joinStreams wb offset frames, w.length = wb) ∧
    ∃ pad, pad < wb ∧ (joinStreams wb offset frames).flatten =
      List.replicate offset none ++ (frames.flatMap srcs).map some ++ List.replicate pad none := by
  have hflat : frames.flatten.flatten.filterMap id = frames.flatMap srcs := by
    induction frames with
    | nil => rfl
    | cons f fs ih =>
      rw [List.flatten_cons, List.flatten_append, List.filterMap_append, ih, List.flatMap_cons]
      rfl
  unfold joinStreams
  simp only
  rw [kept_eq, hflat]
  obtain ⟨h1, h2⟩ := pack_fold hw (List.replicate offset none ++ (frames.flatMap srcs).map some) [] ⟨by simp, by simp⟩
  rw [List.flatten_nil, List.nil_append] at h2
  generalize hr : (List.replicate offset none ++ (frames.flatMap srcs).map some).foldl (packStep wb) [] = res at h1 h2
  split
  · next hc =>
    have hl := h1.last hc.1
    refine ⟨?_, wb - (res.getLastD []).length, by omega, ?_⟩
    · intro w hm
      rcases List.mem_append.1 hm with g | g
      · exact h1.full w g
      · rw [List.mem_singleton.1 g, List.length_append, List.length_replicate]; omega
    · rw [flatten_addLast _ _ hc.1, h2]
  · next hc =>
    refine ⟨?_, 0, hw, by rw [h2]; simp⟩
    by_cases hne : res = []
    · subst hne; simp
    · have hl : (res.getLastD []).length = wb := by
        apply Classical.byContradiction
        exact fun g => hc ⟨hne, g⟩
      intro w hm
      rw [← dropLast_getLastD res hne] at hm
      rcases List.mem_append.1 hm with g | g
      · exact h1.full w g
      · rw [List.mem_singleton.1 g]; exact hl

example : (createFrame 2 0 3 1 0).map (fun f => joinStreams 2 1 [f]) =
    some [[none, some ⟨0, 0, 0, false⟩], [some ⟨0, 0, 1, false⟩, some ⟨0, 1, 0, true⟩]] := by decide

/-! ## C318: representative sizes of frames -/

/-- the frame with `b` bytes from the offset `o` has a word with the bytes from `st` to `en` and the given last -/
def HasWord (wb o b st en : Nat) (l : Bool) : Prop :=
  0 < b ∧ ∃ j, wb * j < o + b ∧ st = (if j = 0 then o else 0) ∧ en = min wb (o + b - wb * j) ∧ l = decide (o + b ≤ wb * (j + 1))

theorem hasWord_iff {wb o b : Nat} (ho : o < wb) (hb : 0 < b) (st en : Nat) (l : Bool) :
    HasWord wb o b st en l ↔
      (o + b ≤ wb ∧ st = o ∧ en = o + b ∧ l = true) ∨
      (wb < o + b ∧ ((st = o ∧ en = wb ∧ l = false) ∨ (st = 0 ∧ en = (o + b - 1) % wb + 1 ∧ l = true) ∨
        (2 * wb < o + b ∧ st = 0 ∧ en = wb ∧ l = false))) := by
  have hw : 0 < wb := by omega
  generalize ht : o + b = t
  have hdm := Nat.div_add_mod (t - 1) wb
  have hml := Nat.mod_lt (t - 1) hw
  unfold HasWord
  rw [ht]
  constructor
  · rintro ⟨_, j, h1, h2, h3, h4⟩
    cases j with
    | zero =>
      simp only [Nat.mul_zero, Nat.sub_zero, if_true, Nat.zero_add, Nat.mul_one] at h1 h2 h3 h4
      by_cases hle : t ≤ wb
      · exact .inl ⟨hle, h2, by omega, by simpa [hle] using h4⟩
      · exact .inr ⟨by omega, .inl ⟨h2, by omega, by simpa [hle] using h4⟩⟩
    | succ j =>
      have e1 : wb * (j + 1) = wb * j + wb := Nat.mul_succ _ _
      have e2 : wb * (j + 1 + 1) = wb * j + wb + wb := by rw [Nat.mul_succ, Nat.mul_succ]
      simp only [Nat.succ_ne_zero, if_false] at h2
      by_cases hle : t ≤ wb * (j + 1 + 1)
      · refine .inr ⟨by omega, .inr (.inl ⟨h2, ?_, by simpa [hle] using h4⟩)⟩
        have hq : (t - 1) % wb = t - 1 - wb * (j + 1) := by
          have : t - 1 = (t - 1 - wb * (j + 1)) + wb * (j + 1) := by omega
          rw [this, Nat.add_mul_mod_self_left, Nat.mod_eq_of_lt (by omega)]
          omega
        omega
      · exact .inr ⟨by omega, .inr (.inr ⟨by omega, h2, by omega, by simpa [hle] using h4⟩)⟩
  · rintro (⟨h1, h2, h3, h4⟩ | ⟨h1, h⟩)
    · exact ⟨hb, 0, by omega, by simpa using h2, by simp; omega, by simp [h4, h1]⟩
    · rcases h with ⟨h2, h3, h4⟩ | ⟨h2, h3, h4⟩ | ⟨h5, h2, h3, h4⟩
      · exact ⟨hb, 0, by omega, by simpa using h2, by simp; omega, by simp [h4]; omega⟩
      · have hq : 0 < (t - 1) / wb := Nat.div_pos (by omega) hw
        have e : wb * ((t - 1) / wb + 1) = wb * ((t - 1) / wb) + wb := Nat.mul_succ _ _
        refine ⟨hb, (t - 1) / wb, by omega, by rw [if_neg (by omega)]; exact h2, by omega, ?_⟩
        rw [h4]; symm; simp; omega
      · refine ⟨hb, 1, by omega, by simpa using h2, by omega, ?_⟩
        rw [h4]; symm; simp; omega

/-- C318: words of representatives of frames are exactly words of frames of the allowed lengths (aligned stream) -/
def C318 : Prop := ∀ (wb o chunk cntMin : Nat) (cntMax : Option Nat), o < wb → 0 < chunk → (∀ m, cntMax = some m → cntMin ≤ m) →
  ∀ st en l, (∃ s ∈ importantByteCnts wb o o chunk cntMin cntMax, HasWord wb o s st en l) ↔
    ∃ n, LenOk cntMin cntMax n ∧ HasWord wb o (n * chunk) st en l

/-- **C318** (violated) 4 or 5 bytes in words of 2 bytes: only frames with 0 or 1 bytes are processed -/
theorem sizes_fails : ¬ C318 := by
  intro h
  obtain ⟨s, h1, h2⟩ := (h 2 0 1 4 (some 5) (by decide) (by decide) (by simp) 0 2 false).2
    ⟨4, ⟨by decide, by simp⟩, by decide, 0, by decide, by decide, by decide, by decide⟩
  have : importantByteCnts 2 0 0 1 4 (some 5) = [0, 1] := by decide
  rw [this] at h1
  simp only [List.mem_cons, List.not_mem_nil, or_false] at h1
  rcases h1 with rfl | rfl
  · exact absurd h2.1 (by decide)
  · have := (hasWord_iff (by decide) h2.1 0 2 false).1 h2
    omega

/-- **C318** (violated) 10 bytes from the offset 2 in words of 4 bytes: the representative has no word in the middle -/
theorem sizes_middle_fails : HasWord 4 2 (5 * 2) 0 4 false ∧
    ∀ s ∈ importantByteCnts 4 2 2 2 5 (some 5), ¬ HasWord 4 2 s 0 4 false := by
  refine ⟨⟨by decide, 1, by decide, by decide, by decide, by decide⟩, ?_⟩
  have : importantByteCnts 4 2 2 2 5 (some 5) = [6] := by decide
  rw [this]
  intro s hs h
  rw [List.mem_singleton.1 hs] at h
  have := (hasWord_iff (by decide) h.1 0 4 false).1 h
  simp at this

/-- size of the representative -/
theorem info_size {wb o chunk cnt : Nat} (ho : o < wb) (a : Bool) :
    (frameInfo wb o o chunk cnt a).2 =
      if o + cnt * chunk < 2 * wb then cnt * chunk
      else if o ≠ 0 ∨ a = false then 2 * wb - o + (o + cnt * chunk) % wb else wb + (o + cnt * chunk) % wb := by
  unfold frameInfo
  simp only [Nat.max_self]
  rw [Nat.mul_comm chunk cnt]
  generalize cnt * chunk = b
  have hm : (o + b) % wb < wb := Nat.mod_lt _ (by omega)
  have hne : ((o + b) % wb == wb) = false := by simp; omega
  rw [hne, Bool.and_false, Bool.not_false, Bool.and_true]
  by_cases h2 : o + b < 2 * wb
  · rw [if_pos h2, show decide (2 * wb ≤ o + b) = false by simp; omega, Bool.false_and]
    by_cases h1 : o + b ≤ wb
    · simp [h1]; omega
    · have : (o + b) % wb = o + b - wb := by rw [Nat.mod_eq_sub_mod (by omega), Nat.mod_eq_of_lt (by omega)]
      simp only [h1, decide_false, Bool.not_false, if_true, Bool.false_eq_true, if_false, this]
      omega
  · rw [if_neg h2, show decide (2 * wb ≤ o + b) = true by simp; omega, Bool.true_and,
      show decide (o + b ≤ wb) = false by simp; omega]
    simp only [Bool.not_false, if_true]
    cases a with
    | false => simp only [Bool.not_false, Bool.or_true, if_true, or_true]; omega
    | true =>
      by_cases h0 : o = 0
      · subst h0; simp; omega
      · simp only [bne_iff_ne, ne_eq, h0, not_false_eq_true, Bool.not_true, Bool.or_false, if_true, true_or]; omega

theorem info_body {wb chunk cnt : Nat} (hw : 0 < wb) (a : Bool) (h : (frameInfo wb 0 0 chunk cnt a).1 = true) :
    a = true ∨ wb < (frameInfo wb 0 0 chunk cnt a).2 := by
  cases a with
  | true => exact .inl rfl
  | false =>
    by_cases hx : wb < (frameInfo wb 0 0 chunk cnt false).2
    · exact .inr hx
    · have h' : (if (min (wb - max 0 0) (cnt * chunk) == wb && decide (wb < (frameInfo wb 0 0 chunk cnt false).2)) then true
        else decide (2 * wb ≤ max 0 0 + chunk * cnt)) = true := h
      rw [decide_eq_false hx, Bool.and_false, if_neg Bool.false_ne_true, Nat.mul_comm chunk cnt] at h'
      simp at h'
      refine .inr ?_
      rw [info_size hw, if_neg (by omega), if_pos (.inr rfl)]
      omega

theorem loop_mem {wb o chunk : Nat} (ho : o < wb) : ∀ (n cnt : Nat) (a : Bool) (pre : List Nat),
    (a = true → o = 0 → ∃ s ∈ pre, wb < s) →
    (∀ c, cnt ≤ c → c < cnt + n → ∃ a', (frameInfo wb o o chunk c a').2 ∈ sizeLoop wb o o chunk n cnt a ∧
      (a' = true → o = 0 → ∃ s ∈ pre ++ sizeLoop wb o o chunk n cnt a, wb < s)) ∧
    ∀ s ∈ sizeLoop wb o o chunk n cnt a, ∃ c a', cnt ≤ c ∧ c < cnt + n ∧ s = (frameInfo wb o o chunk c a').2 := by
  intro n
  induction n with
  | zero => intro cnt a pre _; exact ⟨fun c h1 h2 => by omega, fun s hs => by cases hs⟩
  | succ n ih =>
    intro cnt a pre hp
    obtain ⟨h1, h2⟩ := ih (cnt + 1) (a || (frameInfo wb o o chunk cnt a).1) (pre ++ [(frameInfo wb o o chunk cnt a).2]) (by
      intro ha h0
      rcases (by simpa using ha : a = true ∨ (frameInfo wb o o chunk cnt a).1 = true) with g | g
      · obtain ⟨s, e1, e2⟩ := hp g h0
        exact ⟨s, List.mem_append_left _ e1, e2⟩
      · subst h0
        rcases info_body ho a g with f | f
        · obtain ⟨s, e1, e2⟩ := hp f rfl
          exact ⟨s, List.mem_append_left _ e1, e2⟩
        · exact ⟨_, List.mem_append_right _ (List.mem_singleton.2 rfl), f⟩)
    have e : sizeLoop wb o o chunk (n + 1) cnt a = (frameInfo wb o o chunk cnt a).2 ::
      sizeLoop wb o o chunk n (cnt + 1) (a || (frameInfo wb o o chunk cnt a).1) := rfl
    rw [e]
    refine ⟨fun c g1 g2 => ?_, fun s hs => ?_⟩
    · by_cases hc : c = cnt
      · subst hc
        refine ⟨a, List.mem_cons_self .., fun ha h0 => ?_⟩
        obtain ⟨s, e1, e2⟩ := hp ha h0
        exact ⟨s, List.mem_append_left _ e1, e2⟩
      · obtain ⟨a', f1, f2⟩ := h1 c (by omega) (by omega)
        refine ⟨a', List.mem_cons_of_mem _ f1, fun ha h0 => ?_⟩
        obtain ⟨s, e1, e2⟩ := f2 ha h0
        exact ⟨s, by simpa using e1, e2⟩
    · rcases List.mem_cons.1 hs with g | g
      · exact ⟨cnt, a, Nat.le_refl _, by omega, g⟩
      · obtain ⟨c, a', f1, f2, f3⟩ := h2 s g
        exact ⟨c, a', by omega, by omega, f3⟩

/-- words of the representative are words of the frame -/
theorem info_sound {wb o chunk cnt : Nat} (ho : o < wb) (a : Bool) {st en : Nat} {l : Bool}
    (h : HasWord wb o (frameInfo wb o o chunk cnt a).2 st en l) : HasWord wb o (cnt * chunk) st en l := by
  have hs := h.1
  rw [info_size ho] at h hs
  by_cases h2 : o + cnt * chunk < 2 * wb
  · rwa [if_pos h2] at h
  · rw [if_neg h2] at h hs
    generalize hb : cnt * chunk = b at *
    have hm : (o + b) % wb < wb := Nat.mod_lt _ (by omega)
    have hdm := Nat.div_add_mod (o + b) wb
    have key : ∀ k t', t' = k * wb + (o + b) % wb → 0 < t' → (t' - 1) % wb = (o + b - 1) % wb := by
      intro k t' e hp
      by_cases hr : (o + b) % wb = 0
      · have hq : 0 < (o + b) / wb := Nat.div_pos (by omega) (by omega)
        have hk : 0 < k := by
          rcases Nat.eq_zero_or_pos k with g | g
          · subst g; rw [hr] at e; omega
          · exact g
        have e1 : t' - 1 = (wb - 1) + wb * (k - 1) := by
          have : wb * k = wb * (k - 1) + wb := by rw [← Nat.mul_succ]; congr 1; omega
          rw [Nat.mul_comm] at e; omega
        have e2 : o + b - 1 = (wb - 1) + wb * ((o + b) / wb - 1) := by
          have : wb * ((o + b) / wb) = wb * ((o + b) / wb - 1) + wb := by rw [← Nat.mul_succ]; congr 1; omega
          omega
        rw [e1, e2, Nat.add_mul_mod_self_left, Nat.add_mul_mod_self_left]
      · have e1 : t' - 1 = ((o + b) % wb - 1) + wb * k := by rw [Nat.mul_comm] at e; omega
        have e2 : o + b - 1 = ((o + b) % wb - 1) + wb * ((o + b) / wb) := by omega
        rw [e1, e2, Nat.add_mul_mod_self_left, Nat.add_mul_mod_self_left]
    rw [hasWord_iff ho (by omega)] at h ⊢
    split at h
    · next hc =>
      have e := key 2 (o + (2 * wb - o + (o + b) % wb)) (by omega) (by omega)
      rw [e] at h
      rcases h with h | ⟨_, h | h | h⟩
      · omega
      · exact .inr ⟨by omega, .inl h⟩
      · exact .inr ⟨by omega, .inr (.inl h)⟩
      · refine .inr ⟨by omega, .inr (.inr ⟨?_, h.2⟩)⟩
        apply Classical.byContradiction
        intro g
        have : o + b = wb * 2 := by omega
        rw [this, Nat.mul_mod_right] at h
        omega
    · next hc =>
      have h0 : o = 0 := by
        apply Classical.byContradiction
        exact fun g => hc (.inl g)
      subst h0
      have e := key 1 (0 + (wb + (0 + b) % wb)) (by omega) (by omega)
      rw [e] at h
      rcases h with ⟨g1, g2, g3, g4⟩ | ⟨_, h | h | h⟩
      · have hr : (0 + b) % wb = 0 := by omega
        have e' := key 1 wb (by omega) (by omega)
        rw [Nat.mod_eq_of_lt (by omega)] at e'
        exact .inr ⟨by omega, .inr (.inl ⟨g2, by omega, g4⟩)⟩
      · exact .inr ⟨by omega, .inl h⟩
      · exact .inr ⟨by omega, .inr (.inl h)⟩
      · omega

/-- the last word of the representative -/
theorem mod_pred {wb t t' k : Nat} (hw : 0 < wb) (ht : 0 < t) (e : t' = k * wb + t % wb) (hp : 0 < t') : (t' - 1) % wb = (t - 1) % wb := by
  have hm : t % wb < wb := Nat.mod_lt _ hw
  have hdm := Nat.div_add_mod t wb
  by_cases hr : t % wb = 0
  · have hq : 0 < t / wb := by
      rcases Nat.eq_zero_or_pos (t / wb) with g | g
      · rw [g] at hdm; omega
      · exact g
    have hk : 0 < k := by
      rcases Nat.eq_zero_or_pos k with g | g
      · subst g; rw [hr] at e; omega
      · exact g
    have e1 : t' - 1 = (wb - 1) + wb * (k - 1) := by
      have : wb * k = wb * (k - 1) + wb := by rw [← Nat.mul_succ]; congr 1; omega
      rw [Nat.mul_comm] at e; omega
    have e2 : t - 1 = (wb - 1) + wb * (t / wb - 1) := by
      have : wb * (t / wb) = wb * (t / wb - 1) + wb := by rw [← Nat.mul_succ]; congr 1; omega
      omega
    rw [e1, e2, Nat.add_mul_mod_self_left, Nat.add_mul_mod_self_left]
  · have e1 : t' - 1 = (t % wb - 1) + wb * k := by rw [Nat.mul_comm] at e; omega
    have e2 : t - 1 = (t % wb - 1) + wb * (t / wb) := by omega
    rw [e1, e2, Nat.add_mul_mod_self_left, Nat.add_mul_mod_self_left]

/-- words of the frame are words of the representative, but the middle word of a frame without a tail -/
theorem info_cover {wb o chunk cnt : Nat} (ho : o < wb) (a : Bool) {st en : Nat} {l : Bool}
    (h : HasWord wb o (cnt * chunk) st en l) :
    HasWord wb o (frameInfo wb o o chunk cnt a).2 st en l ∨
      (st = 0 ∧ en = wb ∧ l = false ∧ 2 * wb ≤ o + cnt * chunk ∧ (o + cnt * chunk) % wb = 0 ∧ (o ≠ 0 ∨ a = true)) := by
  have hs := h.1
  rw [info_size ho]
  by_cases h2 : o + cnt * chunk < 2 * wb
  · rw [if_pos h2]; exact .inl h
  · rw [if_neg h2]
    generalize hb : cnt * chunk = b at *
    have hw : 0 < wb := by omega
    have hm : (o + b) % wb < wb := Nat.mod_lt _ hw
    rw [hasWord_iff ho hs] at h
    by_cases hc : o ≠ 0 ∨ a = false
    · rw [if_pos hc, hasWord_iff ho (by omega)]
      have e := mod_pred (t := o + b) (t' := o + (2 * wb - o + (o + b) % wb)) (k := 2) hw (by omega) (by omega) (by omega)
      rw [e]
      rcases h with h | ⟨_, h | h | ⟨h5, h6, h7, h8⟩⟩
      · omega
      · exact .inl (.inr ⟨by omega, .inl h⟩)
      · exact .inl (.inr ⟨by omega, .inr (.inl h)⟩)
      · by_cases hr : (o + b) % wb = 0
        · by_cases h0 : o = 0
          · subst h0
            exact .inl (.inr ⟨by omega, .inl ⟨h6, h7, h8⟩⟩)
          · exact .inr ⟨h6, h7, h8, by omega, hr, .inl h0⟩
        · exact .inl (.inr ⟨by omega, .inr (.inr ⟨by omega, h6, h7, h8⟩)⟩)
    · have h0 : o = 0 := by
        apply Classical.byContradiction
        exact fun g => hc (.inl g)
      have ha : a = true := by
        cases a with
        | true => rfl
        | false => exact absurd (.inr rfl) hc
      subst h0
      rw [if_neg hc, hasWord_iff ho (by omega)]
      have e := mod_pred (t := 0 + b) (t' := 0 + (wb + (0 + b) % wb)) (k := 1) hw (by omega) (by omega) (by omega)
      have mid : st = 0 ∧ en = wb ∧ l = false → _ := fun g => show
        ((0 + (wb + (0 + b) % wb) ≤ wb ∧ st = 0 ∧ en = 0 + (wb + (0 + b) % wb) ∧ l = true) ∨
        (wb < 0 + (wb + (0 + b) % wb) ∧ ((st = 0 ∧ en = wb ∧ l = false) ∨
          (st = 0 ∧ en = (0 + (wb + (0 + b) % wb) - 1) % wb + 1 ∧ l = true) ∨
          (2 * wb < 0 + (wb + (0 + b) % wb) ∧ st = 0 ∧ en = wb ∧ l = false)))) ∨
        (st = 0 ∧ en = wb ∧ l = false ∧ 2 * wb ≤ 0 + b ∧ (0 + b) % wb = 0 ∧ (0 ≠ 0 ∨ a = true)) from by
          by_cases hr : (0 + b) % wb = 0
          · exact .inr ⟨g.1, g.2.1, g.2.2, by omega, hr, .inr ha⟩
          · exact .inl (.inr ⟨by omega, .inl g⟩)
      rcases h with h | ⟨_, h | h | h⟩
      · omega
      · exact mid h
      · by_cases hr : (0 + b) % wb = 0
        · refine .inl (.inl ⟨by omega, h.1, ?_, h.2.2⟩)
          have e' := mod_pred (t := 0 + b) (t' := wb) (k := 1) hw (by omega) (by omega) (by omega)
          rw [Nat.mod_eq_of_lt (by omega : wb - 1 < wb)] at e'
          omega
        · exact .inl (.inr ⟨by omega, .inr (.inl (by rw [e]; exact h))⟩)
      · exact mid h.2

/-- words of frames with the number of elements in the range of the loop are covered; for an offset the loop must be long -/
theorem loop_cover {wb o chunk : Nat} (ho : o < wb) (hch : 0 < chunk) (n lo : Nat) (hn : o = 0 ∨ 2 * wb ≤ n) (c : Nat) (h1 : lo ≤ c)
    (h2 : c < lo + (n + 1)) {st en : Nat} {l : Bool} (h : HasWord wb o (c * chunk) st en l) :
    ∃ s ∈ sizeLoop wb o o chunk (n + 1) lo false, HasWord wb o s st en l := by
  obtain ⟨hl, -⟩ := loop_mem (chunk := chunk) ho (n + 1) lo false [] (by intro g; cases g)
  obtain ⟨a, g1, g2⟩ := hl c h1 h2
  rcases info_cover ho a h with f | ⟨f1, f2, f3, f4, f5, f6⟩
  · exact ⟨_, g1, f⟩
  · subst f1 f2 f3
    by_cases h0 : o = 0
    · subst h0
      obtain ⟨s, e1, e2⟩ := g2 (f6.resolve_left (fun g => g rfl)) rfl
      rw [List.nil_append] at e1
      refine ⟨s, e1, ?_⟩
      rw [hasWord_iff ho (by omega)]
      exact .inr ⟨by omega, .inl ⟨rfl, rfl, rfl⟩⟩
    · -- some other frame has a tail
      rcases hn with hn | hn
      · exact absurd hn h0
      have hcm : chunk % en ≠ 0 := by
        intro g
        have : (o + c * chunk) % en = o := by
          rw [Nat.add_mod, Nat.mul_mod, g]; simp [Nat.mod_eq_of_lt ho]
        omega
      have tail : ∀ c', lo ≤ c' → c' < lo + (n + 1) → 2 * en ≤ o + c' * chunk → (o + c' * chunk) % en ≠ 0 →
          ∃ s ∈ sizeLoop en o o chunk (n + 1) lo false, HasWord en o s 0 en false := by
        intro c' e1 e2 e3 e4
        obtain ⟨a', k1, -⟩ := hl c' e1 e2
        refine ⟨_, k1, ?_⟩
        rw [info_size ho, if_neg (by omega), if_pos (.inl h0), hasWord_iff ho (by omega)]
        exact .inr ⟨by omega, .inr (.inr ⟨by omega, rfl, rfl, rfl⟩)⟩
      by_cases hc : c < lo + n
      · refine tail (c + 1) (by omega) (by omega) (by have e : (c + 1) * chunk = c * chunk + chunk := Nat.succ_mul _ _; omega) ?_
        rw [Nat.succ_mul, ← Nat.add_assoc, Nat.add_mod, f5]
        simpa using hcm
      · have hc' : c = (c - 1) + 1 := by omega
        refine tail (c - 1) (by omega) (by omega) ?_ ?_
        · have : (c - 1) * 1 ≤ (c - 1) * chunk := Nat.mul_le_mul_left _ hch
          omega
        · intro g
          apply hcm
          rw [hc', Nat.succ_mul, ← Nat.add_assoc, Nat.add_mod, g] at f5
          simpa using f5

/-- words of longer frames are words of shorter frames -/
theorem longer {wb o chunk lo c : Nat} (ho : o < wb) (hch : 0 < chunk) (hc : lo + 2 * wb < c) {st en : Nat} {l : Bool}
    (h : HasWord wb o (c * chunk) st en l) :
    ∃ c', lo ≤ c' ∧ c' ≤ lo + 2 * wb ∧ HasWord wb o (c' * chunk) st en l := by
  have hs := h.1
  have hw : 0 < wb := by omega
  rw [hasWord_iff ho hs] at h
  have hcc : c * 1 ≤ c * chunk := Nat.mul_le_mul_left _ hch
  -- the number of elements with the same tail
  generalize hx : lo + wb + 1 + (c - (lo + wb + 1)) % wb = c'
  have hml : (c - (lo + wb + 1)) % wb < wb := Nat.mod_lt _ hw
  have hdm := Nat.div_add_mod (c - (lo + wb + 1)) wb
  have hcc' : c' * 1 ≤ c' * chunk := Nat.mul_le_mul_left _ hch
  have hmod : (o + c * chunk - 1) % wb = (o + c' * chunk - 1) % wb := by
    have e : c = c' + wb * ((c - (lo + wb + 1)) / wb) := by omega
    have e2 : o + c * chunk - 1 = (o + c' * chunk - 1) + wb * (((c - (lo + wb + 1)) / wb) * chunk) := by
      have : c * chunk = c' * chunk + wb * (((c - (lo + wb + 1)) / wb) * chunk) := by
        conv => lhs; rw [e, Nat.add_mul, Nat.mul_assoc]
      omega
    rw [e2, Nat.add_mul_mod_self_left]
  have two : ∀ {st en l}, ((st = o ∧ en = wb ∧ l = false) ∨ (st = 0 ∧ en = (o + c * chunk - 1) % wb + 1 ∧ l = true)) →
      ∃ c', lo ≤ c' ∧ c' ≤ lo + 2 * wb ∧ HasWord wb o (c' * chunk) st en l := by
    intro st en l g
    refine ⟨c', by omega, by omega, ?_⟩
    rw [hasWord_iff ho (by omega), ← hmod]
    exact .inr ⟨by omega, g.elim .inl (fun g => .inr (.inl g))⟩
  rcases h with h | ⟨_, h | h | ⟨_, h⟩⟩
  · omega
  · exact two (.inl h)
  · exact two (.inr h)
  · by_cases h0 : o = 0
    · subst h0; exact two (.inl h)
    · have hl : (lo + 2 * wb) * 1 ≤ (lo + 2 * wb) * chunk := Nat.mul_le_mul_left _ hch
      refine ⟨lo + 2 * wb, by omega, Nat.le_refl _, ?_⟩
      rw [hasWord_iff ho (by omega)]
      exact .inr ⟨by omega, .inr (.inr ⟨by omega, h⟩)⟩

/-- **C318** (partial) words of frames of all allowed lengths are words of representatives: if the range of lengths has at least
`2 * word_bytes + 1` items, or if there is no offset and the length is fixed or its minimum is lower than `2 * word_bytes` -/
theorem sizes_cover_partial {wb o chunk cntMin : Nat} {cntMax : Option Nat} (ho : o < wb) (hch : 0 < chunk)
    (hr : (∀ m, cntMax = some m → cntMin + 2 * wb ≤ m) ∨ (o = 0 ∧ (cntMax = some cntMin ∨ cntMin < 2 * wb))) {st en : Nat} {l : Bool}
    {n : Nat} (hn : LenOk cntMin cntMax n) (h : HasWord wb o (n * chunk) st en l) :
    ∃ s ∈ importantByteCnts wb o o chunk cntMin cntMax, HasWord wb o s st en l := by
  have hw : 0 < wb := by omega
  unfold importantByteCnts
  by_cases he : cntMax = some cntMin
  · rw [if_pos he]
    have : n = cntMin := Nat.le_antisymm (hn.2 _ he) hn.1
    subst this
    rcases info_cover ho false h with f | ⟨-, -, -, -, -, f⟩
    · exact ⟨_, List.mem_singleton.2 rfl, f⟩
    · rcases f with f | f
      · rcases hr with hr | hr
        · have := hr _ he; omega
        · exact absurd hr.1 f
      · cases f
  · rw [if_neg he]
    simp only
    have hlo : cntMin % (2 * wb) ≤ cntMin := Nat.mod_le _ _
    have long : ∀ k, 2 * wb ≤ k → ∃ s ∈ sizeLoop wb o o chunk (k + 1) (cntMin % (2 * wb)) false, HasWord wb o s st en l := by
      intro k hk2
      by_cases hle : n ≤ cntMin % (2 * wb) + 2 * wb
      · exact loop_cover ho hch k _ (.inr hk2) n (Nat.le_trans hlo hn.1) (by omega) h
      · obtain ⟨c', e1, e2, e3⟩ := longer (lo := cntMin % (2 * wb)) ho hch (Nat.lt_of_not_le hle) h
        exact loop_cover ho hch k _ (.inr hk2) c' e1 (by omega) e3
    cases cntMax with
    | none => exact long _ (Nat.le_refl _)
    | some m =>
      show ∃ s ∈ sizeLoop wb o o chunk (min (2 * wb) (m - cntMin) + 1) (cntMin % (2 * wb)) false, _
      generalize hk : min (2 * wb) (m - cntMin) = k
      have hnm := hn.2 m rfl
      rcases hr with hr | ⟨h0, hr⟩
      · have := hr m rfl
        exact long _ (by omega)
      · have hlt : cntMin < 2 * wb := hr.resolve_left he
        rw [Nat.mod_eq_of_lt hlt] at long ⊢
        by_cases hle : n ≤ cntMin + k
        · exact loop_cover ho hch k _ (.inl h0) n hn.1 (by omega) h
        · exact long _ (by omega)

/-- **C318** (partial) nothing else: words of representatives are those of frames, if the minimum of the length is lower than `2 * word_bytes` or the length
is fixed -/
theorem sizes_sound_partial {wb o chunk cntMin : Nat} {cntMax : Option Nat} (ho : o < wb) (hmm : ∀ m, cntMax = some m → cntMin ≤ m)
    (hr : cntMax = some cntMin ∨ cntMin < 2 * wb) {st en : Nat} {l : Bool}
    (h : ∃ s ∈ importantByteCnts wb o o chunk cntMin cntMax, HasWord wb o s st en l) :
    ∃ n, LenOk cntMin cntMax n ∧ HasWord wb o (n * chunk) st en l := by
  obtain ⟨s, hs, h⟩ := h
  unfold importantByteCnts at hs
  by_cases he : cntMax = some cntMin
  · rw [if_pos he, List.mem_singleton] at hs
    subst hs
    exact ⟨cntMin, ⟨Nat.le_refl _, fun m e => by rw [he] at e; cases e; exact Nat.le_refl _⟩, info_sound ho _ h⟩
  · rw [if_neg he] at hs
    simp only at hs
    rw [Nat.mod_eq_of_lt (hr.resolve_left he)] at hs
    obtain ⟨c, a, e1, e2, e3⟩ := (loop_mem ho _ _ false [] (by intro g; cases g)).2 s hs
    subst e3
    refine ⟨c, ⟨e1, fun m e => ?_⟩, info_sound ho _ h⟩
    subst e
    have := hmm m rfl
    simp only at e2
    omega

/-- non-vacuity -/
example : importantByteCnts 4 0 0 3 1 (some 20) = [3, 6, 5, 4, 7, 6, 5, 4, 7] ∧ HasWord 4 0 (15 * 3) 0 1 true :=
  ⟨by decide, by decide, 11, by decide, by decide, by decide, by decide⟩

end Verif.FrameAlign
