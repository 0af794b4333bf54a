import Verif.UsbSieRx
import Mathlib.Data.List.Induction

/-!
# Properties of `Usb2SieDeviceRx` (C197 - C201)
-/

namespace Verif.UsbSieRx

open Verif

/-! ## Packets -/

/-- data and error flag -/
abbrev Byte := Nat × Bool

/-- completed packets and the bytes of the current one -/
def uStep (p : List (List Byte) × List Byte) (x : Utmi) : List (List Byte) × List Byte :=
  if x.active then (p.1, p.2 ++ given x.valid (x.data, x.error))
  else (if p.2 = [] then p.1 else p.1 ++ [p.2], [])

/-- the packets (non-empty sequences of valid bytes while `active`) on UTMI -/
def packets (is : List Utmi) : List (List Byte) := (is.foldl uStep ([], [])).1

def bStep (p : List (List Byte) × List Byte) (b : Option Beat) : List (List Byte) × List Byte :=
  match b with
  | none => p
  | some b => if b.last then (p.1 ++ [p.2 ++ [(b.data, b.error)]], []) else (p.1, p.2 ++ [(b.data, b.error)])

/-- the packets in a sequence of beats -/
def beatPackets (bs : List (Option Beat)) : List (List Byte) := (bs.foldl bStep ([], [])).1

def beats (f₀ : FSt) (is : List Utmi) : List (Option Beat) := (front.trace f₀ is).map Prod.snd

/-- no byte is missing between the first and the last byte of a packet -/
def Steady (is : List Utmi) : Prop :=
  ∀ pre x y post, is = pre ++ x :: y :: post → x.active = true → x.valid = true → y.active = true → y.valid = true

def idle : Utmi := ⟨false, false, 0, false⟩

/-! ## C197 -/

structure FInv (s : FSt) (is : List Utmi) (bs : List (Option Beat)) : Prop where
  done : (bs ++ [beat s]).foldl bStep ([], []) =
    ((is.foldl uStep ([], [])).1, ((bs ++ [beat s]).foldl bStep ([], [])).2)
  cur : (is.foldl uStep ([], [])).2 = ((bs ++ [beat s]).foldl bStep ([], [])).2 ++
    given (s.t0.active && s.t0.valid) (s.t0.data, s.t0.error)
  empty : (s.t0.active && s.t0.valid) = false → (is.foldl uStep ([], [])).2 = []
  vld : s.t0.valid = true → s.t0.active = true ∧ ∃ pre x, is = pre ++ [x] ∧ x.active = true ∧ x.valid = true

theorem steady_init {is : List Utmi} {x : Utmi} (h : Steady (is ++ [x])) : Steady is := by
  intro pre a b post he
  exact h pre a b (post ++ [x]) (by rw [he]; simp)

theorem beats_snoc (f₀ : FSt) (is : List Utmi) (x : Utmi) :
    beats f₀ (is ++ [x]) = beats f₀ is ++ [beat (front.final f₀ is)] := by
  simp only [beats, Machine.trace_snoc, List.map_append]
  rfl

theorem finv_all (f₀ : FSt) (h0 : FInit f₀) (is : List Utmi) (hs : Steady is) :
    FInv (front.final f₀ is) is (beats f₀ is) := by
  induction is using List.reverseRecOn with
  | nil =>
    have hb : beat f₀ = none := by simp [beat, h0.v1]
    refine ⟨?_, ?_, ?_, ?_⟩
    · simp [beats, hb, bStep]
    · simp [beats, hb, bStep, h0.a0]
    · simp
    · simp [h0.v0]
  | append_singleton is x ih =>
    have hi := ih (steady_init hs)
    rw [beats_snoc, Machine.final_append]
    show FInv (fnext (front.final f₀ is) x) _ _
    generalize front.final f₀ is = s at *
    obtain ⟨h1, h2, h3, h4⟩ := hi
    generalize beats f₀ is ++ [beat s] = bs at *
    have e1 : (is ++ [x]).foldl uStep ([], []) = uStep (is.foldl uStep ([], [])) x := by simp
    have e2 : (bs ++ [beat (fnext s x)]).foldl bStep ([], []) = bStep (bs.foldl bStep ([], [])) (beat (fnext s x)) := by
      simp
    generalize hU : is.foldl uStep ([], []) = U at *
    generalize hB : bs.foldl bStep ([], []) = B at *
    obtain ⟨d, cu⟩ := U
    obtain ⟨d', cb⟩ := B
    simp only [Prod.mk.injEq, and_true] at h1 h2
    subst h1
    simp only at h2 h3
    obtain ⟨⟨a0, v0, d0, er0⟩, t1⟩ := s
    simp only at h2 h3 h4
    cases hv : v0 with
    | true =>
      subst hv
      obtain ⟨ha, pre, y, hy, hya, hyv⟩ := h4 rfl
      subst ha
      simp only [Bool.and_self, given_true] at h2
      cases hxa : x.active with
      | true =>
        have hxv : x.valid = true := hs pre y x [] (by rw [hy]; simp) hya hyv hxa
        have hb : beat (fnext ⟨⟨true, true, d0, er0⟩, t1⟩ x) = some ⟨d0, er0, false⟩ := by simp [beat, fnext, hxa, hxv]
        rw [hb] at e2
        refine ⟨?_, ?_, ?_, ?_⟩
        · rw [hb, e1, e2]; simp [uStep, bStep, hxa]
        · rw [hb, e1, e2]; simp [uStep, bStep, hxa, hxv, fnext, h2]
        · simp [fnext, hxa, hxv]
        · intro _; exact ⟨by simp [fnext, hxa, hxv], is, x, rfl, hxa, hxv⟩
      | false =>
        have hb : beat (fnext ⟨⟨true, true, d0, er0⟩, t1⟩ x) = some ⟨d0, er0, true⟩ := by simp [beat, fnext, hxa]
        rw [hb] at e2
        refine ⟨?_, ?_, ?_, ?_⟩
        · rw [hb, e1, e2]; simp [uStep, bStep, hxa, h2]
        · rw [hb, e1, e2]; simp [uStep, bStep, hxa, fnext]
        · rw [e1]; simp [uStep, hxa]
        · simp [fnext, hxa]
    | false =>
      subst hv
      have hcu := h3 (by simp)
      simp only [Bool.and_false, given_false, List.append_nil] at h2
      subst hcu
      have hb : beat (fnext ⟨⟨a0, false, d0, er0⟩, t1⟩ x) = none := by simp [beat, fnext]
      rw [hb] at e2
      have hcb : cb = [] := h2.symm
      subst hcb
      cases hxa : x.active with
      | true =>
        cases hxv : x.valid with
        | true =>
          refine ⟨?_, ?_, ?_, ?_⟩
          · rw [hb, e1, e2]; simp [uStep, bStep, hxa]
          · rw [hb, e1, e2]; simp [uStep, bStep, hxa, hxv, fnext]
          · simp [fnext, hxa, hxv]
          · intro _; exact ⟨by simp [fnext, hxa, hxv], is, x, rfl, hxa, hxv⟩
        | false =>
          refine ⟨?_, ?_, ?_, ?_⟩
          · rw [hb, e1, e2]; simp [uStep, bStep, hxa]
          · rw [hb, e1, e2]; simp [uStep, bStep, hxa, hxv, fnext]
          · rw [e1]; simp [uStep, hxa, hxv]
          · simp [fnext, hxa, hxv]
      | false =>
        refine ⟨?_, ?_, ?_, ?_⟩
        · rw [hb, e1, e2]; simp [uStep, bStep, hxa]
        · rw [hb, e1, e2]; simp [uStep, bStep, hxa, fnext]
        · rw [e1]; simp [uStep, hxa]
        · simp [fnext, hxa]

theorem steady_idle {is : List Utmi} (h : Steady is) : Steady (is ++ [idle]) := by
  intro pre x y post he hx hv hy
  rcases List.eq_nil_or_concat post with hp | ⟨post', z, hp⟩
  · subst hp
    have : (pre ++ [x]) ++ [y] = is ++ [idle] := by rw [he]; simp
    have h2 := (List.append_inj' this rfl).2
    simp at h2
    rw [h2] at hy
    simp [idle] at hy
  · subst hp
    have : (pre ++ x :: y :: post') ++ [z] = is ++ [idle] := by rw [he]; simp
    exact h pre x y post' (List.append_inj' this rfl).1.symm hx hv hy

/-- Every packet is delivered with all bytes, `last` marks the last byte. -/
def FrontOk : Prop :=
  ∀ f₀ is, FInit f₀ → beatPackets (beats f₀ (is ++ [idle, idle])) = packets (is ++ [idle])

theorem front_partial (f₀ : FSt) (h0 : FInit f₀) (is : List Utmi) (hs : Steady is) :
    beatPackets (beats f₀ (is ++ [idle, idle])) = packets (is ++ [idle]) := by
  have h := finv_all f₀ h0 (is ++ [idle]) (steady_idle hs)
  rw [show is ++ [idle, idle] = (is ++ [idle]) ++ [idle] by simp, beats_snoc]
  unfold beatPackets packets
  rw [h.done]

example : Steady [⟨true, false, 0, false⟩, ⟨true, true, 7, false⟩, ⟨true, true, 9, true⟩, ⟨false, false, 0, false⟩] ∧
    packets ([⟨true, false, 0, false⟩, ⟨true, true, 7, false⟩, ⟨true, true, 9, true⟩, ⟨false, false, 0, false⟩] ++ [idle]) =
      [[(7, false), (9, true)]] := by
  refine ⟨?_, by decide⟩
  intro pre x y post he hx hv hy
  match pre with
  | [] => simp at he; rw [← he.1] at hv; cases hv
  | [_] => simp at he; rw [← he.2.2.1]
  | [_, _] => simp at he; rw [← he.2.2.2.1] at hy; cases hy
  | _ :: _ :: _ :: p => have := congrArg List.length he; simp at this; omega

/-- A byte is repeated while PHY has no new byte. -/
theorem front_fails : ¬ FrontOk := by
  intro h
  have := h ⟨⟨false, false, 0, false⟩, ⟨false, false, 0, false⟩⟩
    [⟨true, true, 1, false⟩, ⟨true, false, 0, false⟩, ⟨true, true, 2, false⟩] ⟨rfl, rfl, rfl, rfl⟩
  revert this
  decide

/-- The last beat is followed by a gap, all others by a beat, for all inputs. -/
def Shape (bs : List (Option Beat)) : Prop :=
  ∀ pre b c post, bs = pre ++ some b :: c :: post → (b.last = true ↔ c = none)

structure SInv (s : FSt) : Prop where
  v0 : s.t0.active = false → s.t0.valid = false
  v1 : s.t1.active = false → s.t1.valid = false

theorem sinv_step (s : FSt) (x : Utmi) (h : SInv s) : SInv (fnext s x) := by
  refine ⟨?_, h.v0⟩
  simp only [fnext]
  cases x.active <;> cases x.valid <;> simp

theorem shape_step (s : FSt) (x : Utmi) (h : SInv s) (b : Beat) (hb : beat s = some b) :
    b.last = true ↔ beat (fnext s x) = none := by
  obtain ⟨⟨a0, v0, d0, e0⟩, ⟨a1, v1, d1, e1⟩⟩ := s
  have h1 := h.v0
  have h2 := h.v1
  simp only [beat] at hb
  split at hb
  · rename_i hc
    simp only [Option.some.injEq] at hb
    subst hb
    simp only at h1 h2 hc
    simp only [beat, fnext]
    cases a0 <;> cases v0 <;> cases a1 <;> cases v1 <;> simp at h1 h2 hc ⊢
    all_goals (cases x.active <;> cases x.valid <;> simp)
  · cases hb

theorem beats_shape (f₀ : FSt) (h0 : FInit f₀) (is : List Utmi) : Shape (beats f₀ is) := by
  have hi : ∀ js, SInv (front.final f₀ js) := by
    intro js
    induction js using List.reverseRecOn with
    | nil => exact ⟨fun _ => h0.v0, fun _ => h0.v1⟩
    | append_singleton js x ih => rw [Machine.final_append]; exact sinv_step _ x ih
  induction is using List.reverseRecOn with
  | nil => intro pre b c post h; simp [beats] at h
  | append_singleton is x ih =>
    intro pre b c post he
    rcases List.eq_nil_or_concat post with hp | ⟨post', z, hp⟩
    · subst hp
      rw [beats_snoc] at he
      have h2 : beats f₀ is ++ [beat (front.final f₀ is)] = (pre ++ [some b]) ++ [c] := by rw [he]; simp
      obtain ⟨h3, h4⟩ := List.append_inj' h2 rfl
      rcases List.eq_nil_or_concat is with hn | ⟨is', y, hn⟩
      · subst hn
        simp [beats] at h3
      · rw [List.concat_eq_append] at hn
        subst hn
        rw [beats_snoc] at h3
        have h5 := (List.append_inj' h3 rfl).2
        simp only [List.cons.injEq, and_true] at h4 h5
        rw [← h4, Machine.final_append]
        exact shape_step _ y (hi is') b h5
    · subst hp
      rw [beats_snoc] at he
      have h2 : beats f₀ is ++ [beat (front.final f₀ is)] = (pre ++ some b :: c :: post') ++ [z] := by rw [he]; simp
      exact ih pre b c post' (List.append_inj' h2 rfl).1

end Verif.UsbSieRx
