import Verif.AxiResize
import Mathlib.Data.List.Induction

/-!
# Properties of `AxiResize` (C191, C192)
-/

namespace Verif.AxiResize

open Verif

variable {β W W' : Type}

structure Inv (c : Cfg) (f : Nat → W → W') (tr : List (In W × Out W')) (s : St) : Prop where
  a : ∃ done, addrs tr = done ++ s.buf ∧ outAddrs tr = done.map (aligned c) ∧
    ∃ used, done.map (lane c) = used ++ s.fifo ∧ used.length = (words tr).length ∧
      outWords tr = List.zipWith f used (words tr)

theorem zip_snoc {A B C : Type} (f : A → B → C) (l : List A) (r : List B) (h : l.length = r.length) (a : A) (b : B) :
    List.zipWith f (l ++ [a]) (r ++ [b]) = List.zipWith f l r ++ [f a b] := by
  rw [List.zipWith_append h]; rfl

theorem inv_step (c : Cfg) (f : Nat → W → W') (tr : List (In W × Out W')) (s : St) (x : In W) (h : Inv c f tr s) :
    Inv c f (tr ++ [(x, out c f s x)]) (next c s x) := by
  obtain ⟨done, h1, h2, used, h3, h4, h5⟩ := h.a
  have e1 : addrs (tr ++ [(x, out c f s x)]) = addrs tr ++ given (x.aV && x.bufRd) x.a := by simp [addrs, out]
  have e2 : outAddrs (tr ++ [(x, out c f s x)]) = outAddrs tr ++ (if x.aR then (outA c s x).toList else []) := by
    simp [outAddrs, out]
  have e3 : words (tr ++ [(x, out c f s x)]) = words tr ++ given (x.wV && (laneV s x && x.wR)) x.w := by
    simp [words, out]
  have e4 : outWords (tr ++ [(x, out c f s x)]) = outWords tr ++ (if x.wR then (out c f s x).w.toList else []) := by
    simp [outWords]
  -- the address
  have hA : ∃ d, (if (outA c s x).isSome && x.aR then s.buf.drop 1 else s.buf) = s.buf.drop d.length ∧ s.buf = d ++ s.buf.drop d.length ∧
      (if x.aR then (outA c s x).toList else []) = d.map (aligned c) ∧
      (if (outA c s x).isSome && x.aR then (s.buf.take 1).map (lane c) else []) = d.map (lane c) := by
    unfold outA
    cases s.buf with
    | nil => exact ⟨[], by simp⟩
    | cons a l =>
      cases x.bufVld <;> cases x.fRd <;> cases x.aR
      · exact ⟨[], by simp⟩
      · exact ⟨[], by simp⟩
      · exact ⟨[], by simp⟩
      · exact ⟨[], by simp⟩
      · exact ⟨[], by simp⟩
      · exact ⟨[], by simp⟩
      · exact ⟨[], by simp⟩
      · exact ⟨[a], by simp⟩
  obtain ⟨d, hd1, hd2, hd3, hd4⟩ := hA
  -- the data
  have hW : ∃ u, (if x.wV && laneV s x && x.wR then s.fifo.drop 1 else s.fifo) = s.fifo.drop u.length ∧
      s.fifo = u ++ s.fifo.drop u.length ∧ u.length = (given (x.wV && (laneV s x && x.wR)) x.w).length ∧
      (if x.wR then (out c f s x).w.toList else []) = List.zipWith f u (given (x.wV && (laneV s x && x.wR)) x.w) := by
    unfold laneV out
    cases s.fifo with
    | nil => exact ⟨[], by simp⟩
    | cons i l =>
      cases x.wV <;> cases x.fVld <;> cases x.wR
      · exact ⟨[], by simp⟩
      · exact ⟨[], by simp⟩
      · exact ⟨[], by simp⟩
      · exact ⟨[], by simp⟩
      · exact ⟨[], by simp⟩
      · exact ⟨[], by simp⟩
      · exact ⟨[], by simp⟩
      · exact ⟨[i], by simp⟩
  obtain ⟨u, hu1, hu2, hu3, hu4⟩ := hW
  refine ⟨done ++ d, ?_, ?_, used ++ u, ?_, ?_, ?_⟩
  · rw [e1, h1]
    simp only [next, hd1]
    conv => lhs; rw [hd2]
    simp only [List.append_assoc]
  · rw [e2, h2, hd3, List.map_append]
  · simp only [next, hu1, hd4]
    rw [List.map_append, h3]
    conv => lhs; rw [hu2]
    simp only [List.append_assoc]
  · rw [e3, List.length_append, List.length_append, h4, hu3]
  · rw [e4, e3, List.zipWith_append h4, h5, hu4]

theorem inv_all (c : Cfg) (f : Nat → W → W') (is : List (In W)) :
    Inv c f ((machine c f).trace init is) ((machine c f).final init is) := by
  induction is using List.reverseRecOn with
  | nil => exact ⟨[], rfl, rfl, [], rfl, rfl, rfl⟩
  | append_singleton is x ih =>
    rw [Machine.trace_snoc, Machine.final_append]
    exact inv_step c f _ _ x ih

/-! ## Bytes -/

/-- what the write of a word does: the byte with address `k` -/
def effect (base : Nat) (w : List (Option β)) (k : Nat) : Option β :=
  if base ≤ k then (w[k - base]?).join else none

/-- address of the word of the input bus -/
def Cfg.base (c : Cfg) (a : Nat) : Nat := a / c.bi * c.bi

structure Cfg.Ok (c : Cfg) : Prop where
  pow : ∃ p q, c.bi = 2 ^ p ∧ c.bo = 2 ^ q ∧ 1 ≤ p ∧ p < q

theorem log2ceil_pred {k : Nat} (h : 1 ≤ k) : log2ceil (2 ^ k - 1) = k := by
  rcases Nat.lt_or_ge k 2 with h2 | h2
  · have : k = 1 := by omega
    subst this; rfl
  · have h3 : 2 ^ k = 2 * 2 ^ (k - 1) := by
      conv => lhs; rw [show k = k - 1 + 1 by omega, Nat.pow_succ, Nat.mul_comm]
    have h4 : 2 ^ (k - 1) = 2 * 2 ^ (k - 2) := by
      conv => lhs; rw [show k - 1 = k - 2 + 1 by omega, Nat.pow_succ, Nat.mul_comm]
    have h5 : 0 < 2 ^ (k - 2) := Nat.two_pow_pos _
    unfold log2ceil
    rw [if_neg (by omega)]
    have : Nat.log2 (2 ^ k - 1 - 1) = k - 1 := by
      rw [Nat.log2_eq_iff (by omega)]
      constructor
      · omega
      · rw [show k - 1 + 1 = k by omega]; omega
    omega

/-- position of the word -/
theorem split (c : Cfg) (hc : c.Ok) (a : Nat) (ha : a < 2 ^ c.aw) :
    c.base a = aligned c a + lane c a * c.bi ∧ (lane c a + 1) * c.bi ≤ c.bo := by
  obtain ⟨p, q, hp, hq, hp1, hpq⟩ := hc.pow
  have h1 : c.alIn = p := by rw [Cfg.alIn, hp, log2ceil_pred hp1]
  have h2 : c.alOut = q := by rw [Cfg.alOut, hq, log2ceil_pred (by omega)]
  have h3 : 2 ^ q = 2 ^ p * 2 ^ (q - p) := by rw [← Nat.pow_add]; congr 1; omega
  unfold Cfg.base aligned lane
  rw [h1, h2, hp, hq]
  have hle : a / 2 ^ q * 2 ^ q ≤ a := Nat.div_mul_le_self _ _
  rw [Nat.mod_eq_of_lt (a := a / 2 ^ q * 2 ^ q) (by omega)]
  constructor
  · have : a / 2 ^ q = a / 2 ^ p / 2 ^ (q - p) := by rw [Nat.div_div_eq_div_mul, ← h3]
    rw [this, h3]
    conv => lhs; rw [← Nat.div_add_mod (a / 2 ^ p) (2 ^ (q - p)), Nat.add_mul]
    congr 1
    rw [Nat.mul_comm (2 ^ (q - p)), Nat.mul_assoc, Nat.mul_comm (2 ^ (q - p)) (2 ^ p)]
  · rw [h3, Nat.mul_comm (2 ^ p)]
    exact Nat.mul_le_mul_right _ (Nat.mod_lt _ (Nat.two_pow_pos _))

theorem place_effect (c : Cfg) (hc : c.Ok) (a : Nat) (ha : a < 2 ^ c.aw) (w : List (Option β)) :
    effect (aligned c a) (place c (lane c a) w) = effect (c.base a) w := by
  obtain ⟨h1, h2⟩ := split c hc a ha
  funext k
  unfold effect place
  rw [h1]
  generalize aligned c a = b
  generalize lane c a = i at *
  by_cases hb : b ≤ k
  · rw [if_pos hb]
    by_cases hb2 : b + i * c.bi ≤ k
    · rw [if_pos hb2, List.append_assoc, List.getElem?_append_right (by simp; omega), List.length_replicate,
        show k - b - i * c.bi = k - (b + i * c.bi) by omega]
      rcases Nat.lt_or_ge (k - (b + i * c.bi)) w.length with h | h
      · rw [List.getElem?_append_left h]
      · rw [List.getElem?_append_right h, List.getElem?_eq_none h]
        rw [List.getElem?_replicate]
        split <;> rfl
    · rw [if_neg hb2, List.append_assoc, List.getElem?_append_left (by simp; omega), List.getElem?_replicate]
      split <;> rfl
  · rw [if_neg hb, if_neg (by omega)]

theorem slice_mem (c : Cfg) (hc : c.Ok) (a : Nat) (ha : a < 2 ^ c.aw) (mem : Nat → β) :
    slice c (lane c a) ((List.range c.bo).map fun j => mem (aligned c a + j)) =
      (List.range c.bi).map fun j => mem (c.base a + j) := by
  obtain ⟨h1, h2⟩ := split c hc a ha
  unfold slice
  rw [h1]
  generalize aligned c a = b
  generalize lane c a = i at *
  rw [Nat.add_mul, Nat.one_mul] at h2
  apply List.ext_getElem
  · simp; omega
  · intro j h3 h4
    simp at h3 h4 ⊢
    congr 1
    omega

/-! ## C191 writes -/

/-- Each write is forwarded as one write of the wide bus with the same effect on the memory, in order. The address of the
write was sent if its data were sent. -/
def WritesOk (c : Cfg) : Prop :=
  ∀ is : List (In (List (Option Nat))),
    let tr := (machine c (place c)).trace init is
    (∀ a ∈ addrs tr, a < 2 ^ c.aw) →
    (outWords tr).length = (words tr).length ∧ (words tr).length ≤ (outAddrs tr).length ∧
    (outAddrs tr).length ≤ (addrs tr).length ∧
    ∀ (k : Nat) w, (words tr)[k]? = some w → ∃ a a' w', (addrs tr)[k]? = some a ∧ (outAddrs tr)[k]? = some a' ∧
      (outWords tr)[k]? = some w' ∧ effect a' w' = effect (c.base a) w

theorem writes_partial (c : Cfg) (hc : c.Ok) (is : List (In (List (Option β)))) :
    let tr := (machine c (place c)).trace init is
    (∀ a ∈ addrs tr, a < 2 ^ c.aw) →
    (outWords tr).length = (words tr).length ∧ (words tr).length ≤ (outAddrs tr).length ∧
    (outAddrs tr).length ≤ (addrs tr).length ∧
    ∀ (k : Nat) w, (words tr)[k]? = some w → ∃ a a' w', (addrs tr)[k]? = some a ∧ (outAddrs tr)[k]? = some a' ∧
      (outWords tr)[k]? = some w' ∧ effect a' w' = effect (c.base a) w := by
  intro tr hb
  obtain ⟨done, h1, h2, used, h3, h4, h5⟩ := (inv_all c (place c) is).a
  have hl := congrArg List.length h3
  rw [List.length_map, List.length_append] at hl
  refine ⟨?_, ?_, ?_, ?_⟩
  · rw [h5, List.length_zipWith, h4, Nat.min_self]
  · rw [h2, List.length_map]; show (words ((machine c (place c)).trace init is)).length ≤ _; omega
  · rw [h2, h1, List.length_map, List.length_append]; omega
  · intro k w hk
    have hkl : k < (words tr).length := (List.getElem?_eq_some_iff.1 hk).1
    have hkl2 : k < used.length := by rw [h4]; exact hkl
    have hkd : k < done.length := by omega
    have hda : (addrs tr)[k]? = some done[k] := by
      rw [h1, List.getElem?_append_left hkd, List.getElem?_eq_getElem hkd]
    have hu : used[k]? = some (lane c done[k]) := by
      have : (done.map (lane c))[k]? = some (lane c done[k]) := by
        rw [List.getElem?_map, List.getElem?_eq_getElem hkd]; rfl
      rwa [h3, List.getElem?_append_left hkl2] at this
    refine ⟨done[k], aligned c done[k], place c (lane c done[k]) w, hda, ?_, ?_, ?_⟩
    · rw [h2, List.getElem?_map, List.getElem?_eq_getElem hkd]; rfl
    · rw [h5, List.getElem?_zipWith, hu, hk]
    · exact place_effect c hc _ (hb _ (List.mem_of_getElem? hda)) w

def demo : List (In (List (Option Nat))) :=
  [⟨true, 6, true, false, [], false, true, true, true, true⟩,
   ⟨false, 0, true, false, [], true, true, true, true, true⟩,
   ⟨false, 0, true, true, [some 1, some 2], true, true, true, true, true⟩]
example : Cfg.Ok ⟨2, 8, 16⟩ ∧ outWords ((machine ⟨2, 8, 16⟩ (place ⟨2, 8, 16⟩)).trace init demo) =
    [[none, none, none, none, none, none, some 1, some 2]] ∧
    addrs ((machine ⟨2, 8, 16⟩ (place (β := Nat) ⟨2, 8, 16⟩)).trace init demo) = [6] ∧
    outAddrs ((machine ⟨2, 8, 16⟩ (place (β := Nat) ⟨2, 8, 16⟩)).trace init demo) = [0] :=
  ⟨⟨1, 3, by decide⟩, by decide, by decide, by decide⟩

/-- The input bus of one byte: the write to the address 2 is performed to the address 1. -/
theorem writes_fails : ¬ WritesOk ⟨1, 4, 16⟩ := by
  intro h
  have h1 := (h [⟨true, 2, true, false, [], false, true, true, true, true⟩,
    ⟨false, 0, true, false, [], true, true, true, true, true⟩,
    ⟨false, 0, true, true, [some 1], true, true, true, true, true⟩] (by decide)).2.2.2 0 [some 1] (by decide)
  obtain ⟨a, a', w', ha, ha', hw', he⟩ := h1
  have e1 : a = 2 := by
    have : some a = some 2 := by rw [← ha]; decide
    simpa using this
  have e2 : a' = 0 := by
    have : some a' = some 0 := by rw [← ha']; decide
    simpa using this
  have e3 : w' = [none, some 1, none, none] := by
    have : some w' = some [none, some 1, none, none] := by rw [← hw']; decide
    simpa using this
  subst e1 e2 e3
  have := congrFun he 2
  revert this
  decide

/-! ## C192 reads -/

/-- Each word which is returned are the bytes of the memory from the address of the request, if the wide bus returns the
words from the requested addresses, in order. -/
def ReadsOk (c : Cfg) : Prop :=
  ∀ (is : List (In (List Nat))) (mem : Nat → Nat),
    let tr := (machine c (slice c)).trace init is
    (∀ a ∈ addrs tr, a < 2 ^ c.aw) →
    words tr <+: (outAddrs tr).map (fun a => (List.range c.bo).map fun j => mem (a + j)) →
    outWords tr <+: (addrs tr).map (fun a => (List.range c.bi).map fun j => mem (c.base a + j)) ∧
    (outWords tr).length = (words tr).length

theorem reads_partial (c : Cfg) (hc : c.Ok) (is : List (In (List β))) (mem : Nat → β) :
    let tr := (machine c (slice c)).trace init is
    (∀ a ∈ addrs tr, a < 2 ^ c.aw) →
    words tr <+: (outAddrs tr).map (fun a => (List.range c.bo).map fun j => mem (a + j)) →
    outWords tr <+: (addrs tr).map (fun a => (List.range c.bi).map fun j => mem (c.base a + j)) ∧
    (outWords tr).length = (words tr).length := by
  intro tr hb hm
  obtain ⟨done, h1, h2, used, h3, h4, h5⟩ := (inv_all c (slice c) is).a
  have hl := congrArg List.length h3
  rw [List.length_map, List.length_append] at hl
  have hlen : (outWords tr).length = (words tr).length := by
    rw [h5, List.length_zipWith, h4, Nat.min_self]
  refine ⟨?_, hlen⟩
  rw [List.prefix_iff_getElem?]
  intro k hk
  have hkl : k < (words tr).length := by rw [← hlen]; exact hk
  have hkl2 : k < used.length := by rw [h4]; exact hkl
  have hkd : k < done.length := by omega
  have hda : (addrs tr)[k]? = some done[k] := by
    rw [h1, List.getElem?_append_left hkd, List.getElem?_eq_getElem hkd]
  have hu : used[k]? = some (lane c done[k]) := by
    have : (done.map (lane c))[k]? = some (lane c done[k]) := by
      rw [List.getElem?_map, List.getElem?_eq_getElem hkd]; rfl
    rwa [h3, List.getElem?_append_left hkl2] at this
  have hw := List.prefix_iff_getElem?.1 hm k hkl
  rw [List.getElem?_map, h2, List.getElem?_map, List.getElem?_eq_getElem hkd] at hw
  simp only [Option.map_some, Option.some.injEq] at hw
  have ho : (outWords tr)[k]? = some (slice c (lane c done[k]) (words tr)[k]) := by
    rw [h5, List.getElem?_zipWith, hu, List.getElem?_eq_getElem hkl]
  rw [List.getElem?_eq_getElem hk] at ho
  simp only [Option.some.injEq] at ho
  rw [List.getElem?_map, hda, ho, ← hw, slice_mem c hc _ (hb _ (List.mem_of_getElem? hda))]
  rfl

def demoR : List (In (List Nat)) :=
  [⟨true, 6, true, false, [], false, true, true, true, true⟩,
   ⟨false, 0, true, false, [], true, true, true, true, true⟩,
   ⟨false, 0, true, true, [0, 1, 2, 3, 4, 5, 6, 7], true, true, true, true, true⟩]
example : outWords ((machine ⟨2, 8, 16⟩ (slice ⟨2, 8, 16⟩)).trace init demoR) = [[6, 7]] ∧
    words ((machine ⟨2, 8, 16⟩ (slice ⟨2, 8, 16⟩)).trace init demoR) <+:
      (outAddrs ((machine ⟨2, 8, 16⟩ (slice (β := Nat) ⟨2, 8, 16⟩)).trace init demoR)).map
        (fun a => (List.range 8).map fun j => a + j) := by decide

theorem reads_fails : ¬ ReadsOk ⟨1, 4, 16⟩ := by
  intro h
  have := (h [⟨true, 2, true, false, [], false, true, true, true, true⟩,
    ⟨false, 0, true, false, [], true, true, true, true, true⟩,
    ⟨false, 0, true, true, [0, 1, 2, 3], true, true, true, true, true⟩] (fun j => j) (by decide) (by decide)).1
  revert this
  decide

/-- If data of the next transfer are available and the fifo provides its item then the data are offered. -/
theorem data_offered (c : Cfg) (f : Nat → W → W') (is : List (In W)) (x : In W)
    (h : (words ((machine c f).trace init is)).length < (outAddrs ((machine c f).trace init is)).length)
    (hx : x.wV = true ∧ x.fVld = true) : ((machine c f).outAfter init is x).w ≠ none := by
  obtain ⟨done, h1, h2, used, h3, h4, h5⟩ := (inv_all c f is).a
  have hl := congrArg List.length h3
  rw [List.length_map, List.length_append] at hl
  rw [h2, List.length_map] at h
  have ho : (machine c f).outAfter init is x = out c f ((machine c f).final init is) x := rfl
  rw [ho]
  cases hf : ((machine c f).final init is).fifo with
  | nil => rw [hf] at hl; simp at hl; omega
  | cons i l => simp [out, hf, hx]

example : (words ((machine ⟨2, 8, 16⟩ (slice (β := Nat) ⟨2, 8, 16⟩)).trace init (demoR.take 2))).length <
    (outAddrs ((machine ⟨2, 8, 16⟩ (slice (β := Nat) ⟨2, 8, 16⟩)).trace init (demoR.take 2))).length := by decide

end Verif.AxiResize
