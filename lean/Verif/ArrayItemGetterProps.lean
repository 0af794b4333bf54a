import Verif.ArrayItemGetter
/-!
# Property C140 of `ArrayItemGetter`
-/
namespace Verif.ArrayItemGetter

theorem eq_prefix {β : Type} {a b : List β} (h : a = b) : a <+: b := h ▸ List.prefix_rfl

theorem zip_map_self {β γ δ : Type} (f : β → γ) (g : γ × β → δ) (l : List β) :
    ((l.map f).zip l).map g = l.map fun e => g (f e, e) := by
  induction l with
  | nil => rfl
  | cons a l ih => simp [ih]

theorem requested_eq (c : Cfg) (is : List In) :
    requested ((machine c).trace [] is) = (asked ((machine c).trace [] is)).map fun e => addrOf c e.1 e.2 := by
  induction is using List.reverseRecOn with
  | nil => rfl
  | append_singleton is x ih =>
    rw [Machine.trace_snoc]
    have eo : (machine c).outAfter [] is x = out c ((machine c).final [] is) x := rfl
    rw [eo]
    simp only [requested, asked, List.flatMap_append, List.flatMap_cons, List.flatMap_nil, List.append_nil, List.map_append] at ih ⊢
    rw [ih]
    congr 1
    unfold out
    split
    · cases h : x.vld && x.reqRd <;> simp
    · have : (x.vld && x.fRd && x.reqRd) = (x.vld && (x.reqRd && x.fRd)) := by
        cases x.vld <;> cases x.fRd <;> cases x.reqRd <;> rfl
      simp only [this]
      cases h : x.vld && (x.reqRd && x.fRd) <;> simp

theorem items_one {c : Cfg} (h1 : c.perWord = 1) (is : List In) :
    items ((machine c).trace [] is) = words ((machine c).trace [] is) := by
  induction is using List.reverseRecOn with
  | nil => rfl
  | append_singleton is x ih =>
    rw [Machine.trace_snoc]
    have eo : (machine c).outAfter [] is x = out c ((machine c).final [] is) x := rfl
    rw [eo]
    simp only [items, words, List.flatMap_append, List.flatMap_cons, List.flatMap_nil, List.append_nil] at ih ⊢
    rw [ih]
    simp [out, h1]

theorem items_many {c : Cfg} (h1 : c.perWord ≠ 1) (is : List In) :
    ∃ P R, asked ((machine c).trace [] is) = P ++ R ∧ P.length = (words ((machine c).trace [] is)).length ∧
      (machine c).final [] is = R.map (fun e => e.2 % 2 ^ c.subBits) ∧
      items ((machine c).trace [] is) = ((words ((machine c).trace [] is)).zip P).map fun e => slice c e.1 (e.2.2 % 2 ^ c.subBits) := by
  induction is using List.reverseRecOn with
  | nil => exact ⟨[], [], rfl, rfl, rfl, rfl⟩
  | append_singleton is x ih =>
    rw [Machine.trace_snoc, Machine.final_append]
    have eo : (machine c).outAfter [] is x = out c ((machine c).final [] is) x := rfl
    have en : (machine c).final ((machine c).final [] is) [x] = next c ((machine c).final [] is) x := rfl
    rw [eo, en]
    simp only [items, words, asked, List.flatMap_append, List.flatMap_cons, List.flatMap_nil, List.append_nil] at ih ⊢
    generalize (machine c).final [] is = f at *
    generalize (machine c).trace [] is = tr at *
    obtain ⟨P, R, e1, e2, e3, e4⟩ := ih
    have ea : given (x.vld && (out c f x).rd) (x.base, x.index) = given (x.vld && x.reqRd && x.fRd) (x.base, x.index) := by
      have : (x.vld && (x.reqRd && x.fRd)) = (x.vld && x.reqRd && x.fRd) := by cases x.vld <;> rfl
      simp [out, h1, this]
    have ew : given (x.rVld && (out c f x).rRd) x.rData = given (fVld f x && (x.rVld && x.itemRd)) x.rData := by
      have : (x.rVld && (fVld f x && x.itemRd)) = (fVld f x && (x.rVld && x.itemRd)) := by
        cases x.rVld <;> cases fVld f x <;> rfl
      simp [out, h1, this]
    have ei : given ((out c f x).itemVld && x.itemRd) (out c f x).item =
        given (fVld f x && (x.rVld && x.itemRd)) (slice c x.rData (fData f x)) := by
      have : (x.rVld && fVld f x && x.itemRd) = (fVld f x && (x.rVld && x.itemRd)) := by
        cases x.rVld <;> cases fVld f x <;> rfl
      simp [out, h1, this]
    have enx : next c f x = (if fVld f x && (x.rVld && x.itemRd) then f.tail else f) ++
      given (x.vld && x.reqRd && x.fRd) (x.index % 2 ^ c.subBits) := by simp [next, h1]
    have eg : ∀ b : Bool, given b (x.index % 2 ^ c.subBits) = (given b (x.base, x.index)).map fun e => e.2 % 2 ^ c.subBits := by
      intro b; cases b <;> rfl
    rw [ea, ew, ei, enx, eg, e1, e4]
    cases ht : fVld f x && (x.rVld && x.itemRd)
    · refine ⟨P, R ++ given (x.vld && x.reqRd && x.fRd) (x.base, x.index), by simp, by simpa using e2, by simp [e3], by simp⟩
    · have hv : fVld f x = true := by
        rw [Bool.and_eq_true] at ht; exact ht.1
      obtain ⟨r, R', rfl⟩ : ∃ r R', R = r :: R' := by
        cases R with
        | nil => rw [e3] at hv; simp [fVld] at hv
        | cons r R => exact ⟨r, R, rfl⟩
      refine ⟨P ++ [r], R' ++ given (x.vld && x.reqRd && x.fRd) (x.base, x.index), by simp, by simpa using e2, by simp [e3], ?_⟩
      have hd : fData f x = r.2 % 2 ^ c.subBits := by
        rw [fData, if_pos hv, e3]; rfl
      rw [hd, given_true, List.zip_append e2.symm, List.map_append]
      rfl

/-- The full claim: the requests read exactly the words which contain the wanted items, the items given out are the items of the
array in the order of the indexes. -/
def ReturnsItems (c : Cfg) : Prop :=
  ∀ (mem : Nat → Nat) (is : List In), (∀ a, mem a < 256) → Answers c mem ((machine c).trace [] is) → Inside c ((machine c).trace [] is) →
    requested ((machine c).trace [] is) = (asked ((machine c).trace [] is)).map
      (fun e => e.1 + e.2 * (c.ITEM_WIDTH / 8) / (c.DATA_WIDTH / 8) * (c.DATA_WIDTH / 8)) ∧
    items ((machine c).trace [] is) <+: (asked ((machine c).trace [] is)).map
      (fun e => readLE mem (e.1 + e.2 * (c.ITEM_WIDTH / 8)) (c.ITEM_WIDTH / 8)) ∧
    (items ((machine c).trace [] is)).length = (words ((machine c).trace [] is)).length

/-- 64 bytes in words of 8 bytes -/
abbrev byteCfg : Cfg := ⟨64, 8, 64, 32⟩

theorem byteCfg_ok : byteCfg.Ok := ⟨by decide, by decide, by decide, ⟨3, by decide⟩, by decide⟩

/-- **C140 does not hold for bytes**: `log2ceil(1)` is 1, the address step of the words is doubled. -/
theorem getter_bytes_wrong : ¬ ReturnsItems byteCfg := by
  intro h
  have := (h (fun _ => 0) [⟨0, true, 8, true, false, 0, false, true, false, 0⟩] (by intro a; decide)
    ⟨_, rfl⟩ (by unfold Inside; decide)).1
  revert this
  decide

theorem alignBits_eq {c : Cfg} {k : Nat} (hk : 1 ≤ k) (hw : c.ITEM_WIDTH = 8 * 2 ^ k) : c.alignBits = k := by
  rw [Cfg.alignBits, hw, Nat.mul_div_cancel_left _ (by omega), log2ceil_pow hk]

theorem addrOf_eq {c : Cfg} (hc : c.Ok) {k : Nat} (hk : 1 ≤ k) (hw : c.ITEM_WIDTH = 8 * 2 ^ k) {b i : Nat} (hi : i < c.ITEMS)
    (hb : b + c.ITEMS * (c.ITEM_WIDTH / 8) ≤ 2 ^ c.ADDR_WIDTH) :
    addrOf c b i = b + i * (c.ITEM_WIDTH / 8) / (c.DATA_WIDTH / 8) * (c.DATA_WIDTH / 8) := by
  have hI : c.ITEM_WIDTH / 8 = 2 ^ k := by rw [hw, Nat.mul_div_cancel_left _ (by omega)]
  obtain ⟨p, hp⟩ := hc.per
  have hD : c.DATA_WIDTH / 8 = 2 ^ p * 2 ^ k := by
    rw [hc.word, hp, hw, ← Nat.mul_assoc, Nat.mul_comm (2 ^ p) 8, Nat.mul_assoc, Nat.mul_div_cancel_left _ (by omega)]
  rw [hI] at hb
  have h2k : 0 < 2 ^ k := Nat.pow_pos (by omega)
  have hlt : b + i * 2 ^ k < 2 ^ c.ADDR_WIDTH := by
    have : i * 2 ^ k + 2 ^ k ≤ c.ITEMS * 2 ^ k := by
      rw [← Nat.succ_mul]; exact Nat.mul_le_mul_right _ hi
    omega
  have e : i * (c.ITEM_WIDTH / 8) / (c.DATA_WIDTH / 8) * (c.DATA_WIDTH / 8) = i / 2 ^ p * 2 ^ (k + p) := by
    rw [hI, hD, Nat.mul_div_mul_right _ _ h2k, Nat.pow_add, Nat.mul_comm (2 ^ p) (2 ^ k)]
  rw [e]
  have hle : i / 2 ^ p * 2 ^ (k + p) ≤ i * 2 ^ k := by
    rw [Nat.pow_add, Nat.mul_comm (2 ^ k), ← Nat.mul_assoc]
    exact Nat.mul_le_mul_right _ (Nat.div_mul_le_self _ _)
  unfold addrOf
  split
  · next h1 =>
    have hp0 : p = 0 := by
      rw [hp] at h1
      rcases Nat.eq_zero_or_pos p with h | h
      · exact h
      · have := Nat.pow_le_pow_right (n := 2) (by omega) h
        omega
    subst hp0
    rw [alignBits_eq hk hw, Nat.mod_eq_of_lt (a := i * 2 ^ k) (by omega), Nat.mod_eq_of_lt (by omega)]
    simp
  · next h1 =>
    have hp1 : 1 ≤ p := by
      rcases Nat.eq_zero_or_pos p with h | h
      · rw [h] at hp; exact absurd hp h1
      · exact h
    have hs : c.subBits = p := by rw [Cfg.subBits, hp, log2ceil_pow hp1]
    rw [alignBits_eq hk hw, hs, Nat.mod_eq_of_lt (a := i / 2 ^ p * 2 ^ (k + p)) (by omega), Nat.mod_eq_of_lt (by omega)]

/-- **C140, partial**: it holds for items of 2, 4, 8, … bytes. -/
theorem getter_items_partial {c : Cfg} (hc : c.Ok) {k : Nat} (hk : 1 ≤ k) (hw : c.ITEM_WIDTH = 8 * 2 ^ k) : ReturnsItems c := by
  intro mem is hm hans hin
  have hreq : requested ((machine c).trace [] is) = (asked ((machine c).trace [] is)).map
      (fun e => e.1 + e.2 * (c.ITEM_WIDTH / 8) / (c.DATA_WIDTH / 8) * (c.DATA_WIDTH / 8)) := by
    rw [requested_eq]
    apply List.map_congr_left
    intro e he
    obtain ⟨h1, _, h3⟩ := hin e he
    exact addrOf_eq hc hk hw h1 h3
  refine ⟨hreq, ?_⟩
  rw [Answers, hreq, List.map_map] at hans
  have hI : c.ITEM_WIDTH / 8 = 2 ^ k := by rw [hw, Nat.mul_div_cancel_left _ (by omega)]
  obtain ⟨p, hp⟩ := hc.per
  have hD : c.DATA_WIDTH / 8 = 2 ^ p * 2 ^ k := by
    rw [hc.word, hp, hw, ← Nat.mul_assoc, Nat.mul_comm (2 ^ p) 8, Nat.mul_assoc, Nat.mul_div_cancel_left _ (by omega)]
  have h2k : 0 < 2 ^ k := Nat.pow_pos (by omega)
  by_cases h1 : c.perWord = 1
  · rw [items_one h1]
    refine ⟨?_, rfl⟩
    have hp0 : 2 ^ p = 1 := by rw [← hp, h1]
    rw [hD, hp0, hI, Nat.one_mul] at hans
    rw [hI]
    refine hans.trans (eq_prefix ?_)
    apply List.map_congr_left
    intro e _
    show readLE mem (e.1 + e.2 * 2 ^ k / 2 ^ k * 2 ^ k) (2 ^ k) = _
    rw [Nat.mul_div_cancel _ h2k]
  · have hp1 : 1 ≤ p := by
      rcases Nat.eq_zero_or_pos p with h | h
      · rw [h] at hp; exact absurd hp h1
      · exact h
    have hs : c.subBits = p := by rw [Cfg.subBits, hp, log2ceil_pow hp1]
    obtain ⟨P, R, e1, e2, e3, e4⟩ := items_many h1 is
    refine ⟨?_, by rw [e4]; simp [e2]⟩
    rw [e4, e1, List.map_append]
    rw [e1, List.map_append] at hans
    have hw' : words ((machine c).trace [] is) = P.map (fun e => readLE mem (e.1 + e.2 * (c.ITEM_WIDTH / 8) / (c.DATA_WIDTH / 8) *
        (c.DATA_WIDTH / 8)) (c.DATA_WIDTH / 8)) := by
      obtain ⟨t, ht⟩ := hans
      exact (List.append_inj ht (by simp [e2])).1
    refine List.IsPrefix.trans (eq_prefix ?_) (List.prefix_append _ _)
    rw [hw', zip_map_self]
    apply List.map_congr_left
    intro e _
    show slice c (readLE mem _ _) (e.2 % 2 ^ c.subBits) = _
    rw [hI, hD, hs, slice, hw, Nat.mul_assoc, Nat.pow_mul 2 8 (2 ^ k * _), Nat.pow_mul 2 8 (2 ^ k), show 2 ^ 8 = 256 from rfl,
      slice_word hm _ _ _ _ (Nat.mod_lt _ (Nat.pow_pos (by omega)))]
    congr 1
    rw [Nat.mul_div_mul_right _ _ h2k, Nat.add_assoc]
    congr 1
    rw [← Nat.mul_assoc, Nat.mul_comm (2 ^ k) (e.2 % _), ← Nat.add_mul, Nat.mul_comm (e.2 / _), Nat.div_add_mod]

/-- four items of 2 bytes in a word, 16 items -/
abbrev exCfg : Cfg := ⟨16, 16, 64, 32⟩
/-- items 6 and 1 of the array at address 256 -/
abbrev exIn : List In :=
  [⟨256, true, 6, true, false, 0, false, true, true, 9⟩, ⟨256, true, 1, true, true, 0x0807060504030201, true, true, true, 9⟩,
   ⟨256, false, 1, true, true, 0x1817161514131211, true, true, true, 9⟩]
abbrev exMem : Nat → Nat := fun a => if 264 ≤ a ∧ a < 272 then a - 263 else if 256 ≤ a ∧ a < 264 then a - 239 else 0

/-- non-vacuity of C140 -/
example : exCfg.Ok ∧ (∀ a, exMem a < 256) ∧ Answers exCfg exMem ((machine exCfg).trace [] exIn) ∧
    Inside exCfg ((machine exCfg).trace [] exIn) ∧ items ((machine exCfg).trace [] exIn) = [0x0605, 0x1413] := by
  refine ⟨⟨by decide, by decide, by decide, ⟨2, by decide⟩, by decide⟩, fun a => ?_, by unfold Answers; decide, by unfold Inside; decide,
    by decide⟩
  unfold exMem
  split
  · omega
  · split <;> omega

end Verif.ArrayItemGetter
