import Verif.FrameJoinProps

/-!
# Progress of `Axi4S_FrameJoin`: C321, and configurations accepted by `check` (C320)
-/

namespace Verif.FrameJoin

open FrameJoinFsm FrameJoinReg

variable {β : Type}

/-! ## C320: configurations -/

/-- the full property: every configuration which can be generated -/
def C320 : Prop := ∀ (wb : Nat) (ts : List Stream) (off : Nat) (c : Cfg), config wb ts off = some c →
  ∀ (d0 : Nat → Nat → Nat → Nat) (is : List (In Nat)), (∀ i ∈ is, Env c i) →
    Joined c.N (run c (sys0 d0) is).ins (run c (sys0 d0) is).outs

/-- types of frames: the default of the component (`_join.py:53-57`), those of `frame_join/test.py` and of
`frame_utils/join/test.py`, frames with two offsets, Ethernet header with IP header and a payload -/
def samples : List (Nat × List Stream × Nat) :=
  [(2, [⟨1, 1, none, [0]⟩, ⟨2, 1, some 1, [0]⟩], 0),
   (1, [⟨1, 1, none, [0]⟩], 0), (2, [⟨2, 1, none, [0]⟩], 0), (2, [⟨2, 0, none, [0]⟩], 0), (2, [⟨2, 1, some 1, [0]⟩], 0),
   (1, [⟨1, 1, some 1, [0]⟩, ⟨1, 1, some 1, [0]⟩], 0), (2, [⟨2, 1, none, [0]⟩, ⟨2, 1, none, [0]⟩], 0),
   (2, [⟨2, 0, some 1, [0]⟩, ⟨2, 0, some 1, [0]⟩], 0), (2, [⟨2, 0, none, [0]⟩, ⟨2, 0, none, [0]⟩, ⟨2, 0, none, [0]⟩], 0),
   (2, [⟨1, 1, none, [0]⟩], 0), (2, [⟨1, 1, none, [0, 1]⟩], 0), (2, [⟨1, 1, none, [0]⟩], 1),
   (2, [⟨1, 1, none, [0]⟩, ⟨1, 1, none, [0]⟩], 0), (2, [⟨1, 0, none, [0]⟩, ⟨1, 0, none, [0]⟩], 0),
   (3, [⟨1, 1, none, [0]⟩, ⟨1, 1, none, [0]⟩], 0), (2, [⟨3, 1, some 1, [0]⟩], 1), (2, [⟨3, 1, some 1, [0, 1]⟩], 0),
   (4, [⟨1, 1, none, [0, 1, 2, 3]⟩], 0), (4, [⟨14, 1, some 1, [0]⟩, ⟨20, 1, some 1, [0]⟩, ⟨1, 0, none, [0]⟩], 0)]

set_option maxRecDepth 100000 in
theorem samples_ok : samples.all (fun x => ((config x.1 x.2.1 x.2.2).map check) == some true) = true := by decide +kernel

/-- **C320** (partial): all listed configurations -/
theorem joined_samples_partial {wb : Nat} {ts : List Stream} {off : Nat} {c : Cfg} (hm : (wb, ts, off) ∈ samples)
    (hc : config wb ts off = some c) (d0 : Nat → Nat → Nat → β) (is : List (In β)) (he : ∀ i ∈ is, Env c i) :
    Joined c.N (run c (sys0 d0) is).ins (run c (sys0 d0) is).outs := by
  have := List.all_eq_true.1 samples_ok _ hm
  rw [show config (wb, ts, off).1 (wb, ts, off).2.1 (wb, ts, off).2.2 = some c from hc] at this
  exact joined_partial (by simpa using this) d0 is he

/-! ## C321 -/

/-- words accepted on input `k` -/
def accepted (c : Cfg) : St β → List (In β) → Nat → List (Port β)
  | _, [], _ => []
  | s, i :: is, k => (if (i.port k).valid && inReady c s i k then [i.port k] else []) ++ accepted c (next c s i) is k

/-- words of a frame of the stream -/
def IsFrame (wb : Nat) (t : Stream) (ws : List (Port β)) : Prop :=
  ∃ n o, t.lenMin ≤ n ∧ (∀ m, t.lenMax = some m → n ≤ m) ∧ o ∈ t.starts ∧ ws ≠ [] ∧
    (ws.length - 1) * wb < max 1 (o + n * t.chunk) ∧ o + n * t.chunk ≤ ws.length * wb ∧
    ∀ w (h : w < ws.length), ws[w].last = decide (w + 1 = ws.length) ∧
      ∀ b, b < wb → ws[w].keep b = decide (o ≤ w * wb + b ∧ w * wb + b < o + n * t.chunk)

/-- words are the beginning of a sequence of frames -/
def Admissible (wb : Nat) (t : Stream) (ws : List (Port β)) : Prop :=
  ∃ fs : List (List (Port β)), (∀ f ∈ fs, IsFrame wb t f) ∧ ws <+: fs.flatten

/-- frames allowed on inputs can be always continued so that a further frame leaves -/
def C321 : Prop := ∀ (wb : Nat) (ts : List Stream) (off : Nat) (c : Cfg), config wb ts off = some c →
  ∀ (d0 : Nat → Nat → Nat → Nat) (is : List (In Nat)),
    (∀ k, k < c.N → Admissible wb (ts.getD k ⟨0, 0, none, []⟩) (accepted c (init d0) is k)) →
    ∃ js, (∀ k, k < c.N → Admissible wb (ts.getD k ⟨0, 0, none, []⟩) (accepted c (init d0) (is ++ js) k)) ∧
      (frames (run c (sys0 d0) is).outs).length < (frames (run c (sys0 d0) (is ++ js)).outs).length

/-! ### only the control bits matter -/

variable {γ : Type}

structure Agree (c : Cfg) (s : St β) (s' : St γ) : Prop where
  st : s.st = s'.st
  keep : ∀ k, k < c.N → ∀ r, r < c.n k → ∀ b, b < c.wb → (s.regs k r).keep b = (s'.regs k r).keep b
  relict : ∀ k, k < c.N → ∀ r, r < c.n k → (s.regs k r).relict = (s'.regs k r).relict
  last : ∀ k, k < c.N → ∀ r, r < c.n k → (s.regs k r).last = (s'.regs k r).last

structure AgreeIn (c : Cfg) (i : In β) (i' : In γ) : Prop where
  ready : i.ready = i'.ready
  valid : ∀ k, k < c.N → (i.port k).valid = (i'.port k).valid
  keep : ∀ k, k < c.N → (i.port k).valid = true → ∀ b, b < c.wb → (i.port k).keep b = (i'.port k).keep b
  last : ∀ k, k < c.N → (i.port k).valid = true → (i.port k).last = (i'.port k).last

theorem agree_vals {c : Cfg} {s : St β} {s' : St γ} (h : Agree c s s') : vals c s = vals c s' := by
  unfold vals
  refine List.map_congr_left fun k hk => List.map_congr_left fun r hr => ?_
  have hk := List.mem_range.1 hk
  have hr := List.mem_range.1 hr
  unfold regVal
  rw [h.relict k hk r hr, h.last k hk r hr]
  congr 1
  exact List.map_congr_left fun b hb => h.keep k hk r hr b (List.mem_range.1 hb)

theorem agree_comb {c : Cfg} {s : St β} {s' : St γ} (h : Agree c s s') : comb c s = comb c s' := by
  unfold comb; rw [agree_vals h, h.st]

theorem zero_congr {W : Nat} {k k' : Nat → Bool} (h : ∀ b, b < W → k b = k' b) : zero W k = zero W k' := by
  have : ∀ {k k' : Nat → Bool}, (∀ b, b < W → k b = k' b) → zero W k = true → zero W k' = true := by
    intro k k' h hz
    rw [zero_iff] at hz ⊢
    intro b hb; rw [← h b hb]; exact hz b hb
  cases h1 : zero W k with
  | true => rw [this h h1]
  | false =>
    cases h2 : zero W k' with
    | false => rfl
    | true => rw [this (fun b hb => (h b hb).symm) h2] at h1; cases h1

theorem agree_next {c : Cfg} (hW : 0 < c.wb) {s : St β} {s' : St γ} (h : Agree c s s') {i : In β} {i' : In γ} (hi : AgreeIn c i i') :
    Agree c (next c s i) (next c s' i') := by
  have hc := agree_comb h
  have hm : ∀ k r b, (regIn (comb c s) i k).masks r b = (regIn (comb c s') i' k).masks r b := by intro k r b; rw [hc]; rfl
  have hrd : ∀ k, (regIn (comb c s) i k).ready = (regIn (comb c s') i' k).ready := by
    intro k; rw [hc]; show (i.ready && _) = (i'.ready && _); rw [hi.ready]
  have he : ∀ k, k < c.N → ∀ r, r < c.n k → empty c.wb (s.regs k r) = empty c.wb (s'.regs k r) := by
    intro k hk r hr
    unfold empty
    rw [zero_congr (h.keep k hk r hr), h.relict k hk r hr, h.last k hk r hr]
  have hrest : ∀ k, k < c.N → ∀ r, r < c.n k → ∀ b, b < c.wb →
      rest (s.regs k) (regIn (comb c s) i k) r b = rest (s'.regs k) (regIn (comb c s') i' k) r b := by
    intro k hk r hr b hb
    unfold rest
    rw [h.keep k hk r hr b hb, hm]
  have hcon : ∀ k, k < c.N → ∀ r, r < c.n k →
      consumed c.wb (s.regs k) (regIn (comb c s) i k) r = consumed c.wb (s'.regs k) (regIn (comb c s') i' k) r := by
    intro k hk r hr
    unfold consumed
    rw [zero_congr (hrest k hk r hr), hrd]
  have hload : ∀ k, k < c.N → ∀ r, r < c.n k →
      load c.wb (s.regs k) (regIn (comb c s) i k) r = load c.wb (s'.regs k) (regIn (comb c s') i' k) r := by
    intro k hk r hr
    unfold load
    by_cases h0 : r = 0
    · subst h0; rw [if_pos rfl, if_pos rfl, hrd, hcon k hk 0 hr, he k hk 0 hr]
    · rw [if_neg h0, if_neg h0, hrd, hcon k hk (r - 1) (by omega), he k hk r hr, he k hk (r - 1) (by omega)]
  have key : ∀ k, k < c.N → ∀ r, r < c.n k →
      (∀ b, b < c.wb → ((next c s i).regs k r).keep b = ((next c s' i').regs k r).keep b) ∧
      ((next c s i).regs k r).relict = ((next c s' i').regs k r).relict ∧
      ((next c s i).regs k r).last = ((next c s' i').regs k r).last := by
    intro k hk r hr
    show (∀ b, b < c.wb → (FrameJoinReg.next (c.n k) c.wb (s.regs k) (regIn (comb c s) i k) r).keep b =
        (FrameJoinReg.next (c.n k) c.wb (s'.regs k) (regIn (comb c s') i' k) r).keep b) ∧
      (FrameJoinReg.next (c.n k) c.wb (s.regs k) (regIn (comb c s) i k) r).relict =
        (FrameJoinReg.next (c.n k) c.wb (s'.regs k) (regIn (comb c s') i' k) r).relict ∧
      (FrameJoinReg.next (c.n k) c.wb (s.regs k) (regIn (comb c s) i k) r).last =
        (FrameJoinReg.next (c.n k) c.wb (s'.regs k) (regIn (comb c s') i' k) r).last
    unfold FrameJoinReg.next
    rw [hload k hk r hr, hrd]
    split
    · unfold prev
      by_cases hl : r = c.n k - 1
      · rw [if_pos hl, if_pos hl]
        have hv : (regIn (comb c s) i k).valid = (regIn (comb c s') i' k).valid := hi.valid k hk
        simp only
        rw [← hv]
        cases hvv : (regIn (comb c s) i k).valid with
        | false => simp
        | true =>
          refine ⟨fun b hb => ?_, ?_, ?_⟩
          · simp only [Bool.and_true]; exact hi.keep k hk hvv b hb
          · simp only [Bool.true_and]; exact zero_congr (hi.keep k hk hvv)
          · simp only [Bool.and_true]; exact hi.last k hk hvv
      · rw [if_neg hl, if_neg hl]
        have hr1 : r + 1 < c.n k := by omega
        simp only
        rw [he k hk r hr, h.last k hk _ hr1, h.relict k hk _ hr1, hcon k hk _ hr1, h.keep k hk _ hr1 0 hW, hm]
        exact ⟨fun b hb => by rw [h.keep k hk _ hr1 b hb, hm], rfl, rfl⟩
    · split
      · rename_i h0
        have h0 : r = 0 := by simp at h0; exact h0.1
        subst h0
        exact ⟨hrest k hk 0 hr, rfl, h.last k hk 0 hr⟩
      · exact ⟨h.keep k hk r hr, h.relict k hk r hr, h.last k hk r hr⟩
  refine ⟨?_, fun k hk r hr => (key k hk r hr).1, fun k hk r hr => (key k hk r hr).2.1, fun k hk r hr => (key k hk r hr).2.2⟩
  show nextState _ _ _ _ = nextState _ _ _ _
  rw [agree_vals h, h.st, hi.ready]

/-! ### the default configuration -/

def dfltT : List Stream := [⟨1, 1, none, [0]⟩, ⟨2, 1, some 1, [0]⟩]

def dflt : Cfg := (config 2 dfltT 0).getD ⟨0, [], []⟩

/-- contents of the registers of input 0: nothing, two bytes, last two bytes, last byte -/
inductive K0 | e | f | fl | hl
/-- contents of the registers of input 1: nothing, the frame, the second byte -/
inductive K1 | e | f | g

def K0.reg : K0 → Reg Unit
  | .e => ⟨fun _ => (), fun _ => false, false, false⟩
  | .f => ⟨fun _ => (), fun b => decide (b < 2), false, false⟩
  | .fl => ⟨fun _ => (), fun b => decide (b < 2), false, true⟩
  | .hl => ⟨fun _ => (), fun b => decide (b < 1), false, true⟩

def K1.reg : K1 → Reg Unit
  | .e => ⟨fun _ => (), fun _ => false, false, false⟩
  | .f => ⟨fun _ => (), fun b => decide (b < 2), false, true⟩
  | .g => ⟨fun _ => (), fun b => decide (b = 1), true, true⟩

def abs (st : Nat) (a : K0) (b : K1) : St Unit := ⟨st, fun k _ => if k = 0 then a.reg else b.reg⟩

/-- words offered by the environment -/
inductive W0 | none | f | fl | hl
inductive W1 | none | f

def absIn (a : W0) (b : W1) (rdy : Bool) : In Unit where
  port := fun k => if k = 0 then
      (match a with
       | .none => ⟨false, fun _ => (), fun _ => false, false⟩
       | .f => ⟨true, fun _ => (), fun b => decide (b < 2), false⟩
       | .fl => ⟨true, fun _ => (), fun b => decide (b < 2), true⟩
       | .hl => ⟨true, fun _ => (), fun b => decide (b < 1), true⟩)
    else (match b with
       | .none => ⟨false, fun _ => (), fun _ => false, false⟩
       | .f => ⟨true, fun _ => (), fun b => decide (b < 2), true⟩)
  ready := rdy
  junk := ()

/-- bits of registers -/
def bits (s : St Unit) : Nat × List (Bool × Bool × Bool × Bool) :=
  (s.st, [0, 1].map fun k => let r := s.regs k 0; (r.keep 0, r.keep 1, r.relict, r.last))

def allK : List (Nat × K0 × K1) :=
  [0, 1].flatMap fun st => [K0.e, .f, .fl, .hl].flatMap fun a => [K1.e, .f, .g].map fun b => (st, a, b)

def allW : List (W0 × W1 × Bool) :=
  [W0.none, .f, .fl, .hl].flatMap fun a => [W1.none, .f].flatMap fun b => [true, false].map fun r => (a, b, r)

/-- the second byte of frame 1 stays only for its completion -/
def okK (x : Nat × K0 × K1) : Bool := match x with
  | (0, _, .g) => false
  | _ => true

def offers (x : W0 × W1 × Bool) : Bool := match x with
  | (.none, _, _) => false
  | (_, .none, _) => false
  | (_, _, r) => r

def finite : Bool := (allK.filter okK).all fun x => allW.all fun w =>
  let s := abs x.1 x.2.1 x.2.2
  let i := absIn w.1 w.2.1 w.2.2
  ((allK.filter okK).any fun z => bits (next dflt s i) == bits (abs z.1 z.2.1 z.2.2)) &&
    (!offers w || (comb dflt s).valid || (comb dflt (next dflt s i)).valid) &&
    (!(comb dflt s).valid || ((comb dflt s).keep.getD []).getD 0 false)

set_option maxRecDepth 100000 in
theorem finite_ok : finite = true := by decide +kernel

theorem dflt_wb : dflt.wb = 2 := by decide +kernel
theorem dflt_look : dflt.look = [0, 0] := by decide +kernel
theorem dflt_N : dflt.N = 2 := by unfold Cfg.N; rw [dflt_look]; rfl
theorem dflt_n {k : Nat} (hk : k < dflt.N) : dflt.n k = 1 := by
  rw [dflt_N] at hk
  unfold Cfg.n Cfg.ns
  rw [dflt_look]
  match k, hk with
  | 0, _ => rfl
  | 1, _ => rfl
theorem dflt_config : config 2 dfltT 0 = some dflt := by
  have : (config 2 dfltT 0).isSome = true := by decide +kernel
  unfold dflt
  cases h : config 2 dfltT 0 with
  | none => rw [h] at this; cases this
  | some c => rfl

/-- words of the environment: frame 0 has at least one byte in words filled from the beginning, frame 1 has 2 bytes -/
structure Offer (i : In β) : Prop where
  p0 : (i.port 0).valid = true → (i.port 0).keep 0 = true ∧ ((i.port 0).keep 1 = true ∨ (i.port 0).last = true)
  p1 : (i.port 1).valid = true → (i.port 1).keep 0 = true ∧ (i.port 1).keep 1 = true ∧ (i.port 1).last = true

theorem agreeIn_of {i : In β} {i' : In Unit} (hr : i.ready = i'.ready) (hv : ∀ k, k < 2 → (i.port k).valid = (i'.port k).valid)
    (h : ∀ k, k < 2 → (i.port k).valid = true → (i.port k).keep 0 = (i'.port k).keep 0 ∧ (i.port k).keep 1 = (i'.port k).keep 1 ∧
      (i.port k).last = (i'.port k).last) : AgreeIn dflt i i' where
  ready := hr
  valid := fun k hk => hv k (by rwa [dflt_N] at hk)
  keep := fun k hk hvv b hb => by
    rw [dflt_N] at hk; rw [dflt_wb] at hb
    obtain ⟨h0, h1, -⟩ := h k hk hvv
    match b, hb with
    | 0, _ => exact h0
    | 1, _ => exact h1
  last := fun k hk hvv => by rw [dflt_N] at hk; exact (h k hk hvv).2.2

theorem absIn_of {i : In β} (ho : Offer i) : ∃ w ∈ allW, AgreeIn dflt i (absIn w.1 w.2.1 w.2.2) ∧
    ((i.port 0).valid = true → (i.port 1).valid = true → i.ready = true → offers w = true) := by
  have h1 : ∃ b : W1, ∀ a r, (i.port 1).valid = ((absIn a b r).port 1).valid ∧ ((i.port 1).valid = true →
      (i.port 1).keep 0 = ((absIn a b r).port 1).keep 0 ∧ (i.port 1).keep 1 = ((absIn a b r).port 1).keep 1 ∧
      (i.port 1).last = ((absIn a b r).port 1).last) := by
    cases hv : (i.port 1).valid with
    | false => exact ⟨.none, fun a r => ⟨rfl, fun h => by cases h⟩⟩
    | true =>
      obtain ⟨x, y, z⟩ := ho.p1 hv
      exact ⟨.f, fun a r => ⟨rfl, fun _ => ⟨x, y, z⟩⟩⟩
  have h0 : ∃ a : W0, ∀ b r, (i.port 0).valid = ((absIn a b r).port 0).valid ∧ ((i.port 0).valid = true →
      (i.port 0).keep 0 = ((absIn a b r).port 0).keep 0 ∧ (i.port 0).keep 1 = ((absIn a b r).port 0).keep 1 ∧
      (i.port 0).last = ((absIn a b r).port 0).last) := by
    cases hv : (i.port 0).valid with
    | false => exact ⟨.none, fun a r => ⟨rfl, fun h => by cases h⟩⟩
    | true =>
      obtain ⟨x, y⟩ := ho.p0 hv
      cases hk : (i.port 0).keep 1 with
      | false =>
        rw [hk] at y
        exact ⟨.hl, fun a r => ⟨rfl, fun _ => ⟨x, rfl, y.resolve_left (by simp)⟩⟩⟩
      | true =>
        cases hl : (i.port 0).last with
        | true => exact ⟨.fl, fun a r => ⟨rfl, fun _ => ⟨x, rfl, rfl⟩⟩⟩
        | false => exact ⟨.f, fun a r => ⟨rfl, fun _ => ⟨x, rfl, rfl⟩⟩⟩
  obtain ⟨a, ha⟩ := h0
  obtain ⟨b, hb⟩ := h1
  refine ⟨(a, b, i.ready), ?_, agreeIn_of rfl ?_ ?_, ?_⟩
  · cases a <;> cases b <;> cases i.ready <;> simp [allW]
  · intro k hk
    match k, hk with
    | 0, _ => exact (ha b _).1
    | 1, _ => exact (hb a _).1
  · intro k hk
    match k, hk with
    | 0, _ => exact (ha b _).2
    | 1, _ => exact (hb a _).2
  · intro v0 v1 hr
    have h0 := (ha b i.ready).1
    have h1 := (hb a i.ready).1
    rw [v0] at h0; rw [v1] at h1; rw [hr]
    cases a with
    | none => exact nomatch (show true = false from h0)
    | _ =>
      cases b with
      | none => exact nomatch (show true = false from h1)
      | f => rfl

theorem agree_of_bits {s : St Unit} {x : Nat × K0 × K1} (h : bits s = bits (abs x.1 x.2.1 x.2.2)) :
    Agree dflt s (abs x.1 x.2.1 x.2.2) := by
  simp only [bits, Prod.mk.injEq, List.map_cons, List.map_nil, List.cons.injEq, and_true] at h
  have key : ∀ k, k < dflt.N → ∀ r, r < dflt.n k → r = 0 ∧ (s.regs k 0).keep 0 = ((abs x.1 x.2.1 x.2.2).regs k 0).keep 0 ∧
      (s.regs k 0).keep 1 = ((abs x.1 x.2.1 x.2.2).regs k 0).keep 1 ∧ (s.regs k 0).relict = ((abs x.1 x.2.1 x.2.2).regs k 0).relict ∧
      (s.regs k 0).last = ((abs x.1 x.2.1 x.2.2).regs k 0).last := by
    intro k hk r hr
    rw [dflt_n hk] at hr
    rw [dflt_N] at hk
    refine ⟨by omega, ?_⟩
    match k, hk with
    | 0, _ => exact h.2.1
    | 1, _ => exact h.2.2
  refine ⟨h.1, ?_, ?_, ?_⟩
  · intro k hk r hr b hb
    obtain ⟨rfl, h1, h2, -⟩ := key k hk r hr
    rw [dflt_wb] at hb
    match b, hb with
    | 0, _ => exact h1
    | 1, _ => exact h2
  · intro k hk r hr; obtain ⟨rfl, -, -, h, -⟩ := key k hk r hr; exact h
  · intro k hk r hr; obtain ⟨rfl, -, -, -, h⟩ := key k hk r hr; exact h

theorem Agree.trans {δ : Type} {c : Cfg} {s : St β} {s' : St γ} {s'' : St δ} (h : Agree c s s') (h' : Agree c s' s'') : Agree c s s'' :=
  ⟨h.st.trans h'.st, fun k hk r hr b hb => (h.keep k hk r hr b hb).trans (h'.keep k hk r hr b hb),
    fun k hk r hr => (h.relict k hk r hr).trans (h'.relict k hk r hr), fun k hk r hr => (h.last k hk r hr).trans (h'.last k hk r hr)⟩

def Reach (s : St β) : Prop := ∃ x ∈ allK.filter okK, Agree dflt s (abs x.1 x.2.1 x.2.2)

theorem reach_step {s : St β} {i : In β} (h : Reach s) (ho : Offer i) : Reach (next dflt s i) ∧
    ((i.port 0).valid = true → (i.port 1).valid = true → i.ready = true → (comb dflt s).valid = false →
      (comb dflt (next dflt s i)).valid = true) ∧
    ((comb dflt s).valid = true → ((comb dflt s).keep.getD []).getD 0 false = true) := by
  obtain ⟨x, hx, ha⟩ := h
  obtain ⟨w, hw, hi, hof⟩ := absIn_of ho
  have hf := List.all_eq_true.1 (List.all_eq_true.1 finite_ok x hx) w hw
  simp only [Bool.and_eq_true, List.any_eq_true, beq_iff_eq] at hf
  obtain ⟨⟨⟨z, hz, hb⟩, hv⟩, hk⟩ := hf
  have hn := agree_next (by rw [dflt_wb]; decide) ha hi
  rw [← agree_comb ha, ← agree_comb hn] at hv
  rw [← agree_comb ha] at hk
  refine ⟨⟨z, hz, hn.trans (agree_of_bits hb)⟩, fun v0 v1 hr hnv => ?_, fun hvv => ?_⟩
  · rw [hof v0 v1 hr, hnv] at hv
    simpa using hv
  · rw [hvv] at hk
    simpa using hk

theorem run_reach (d0 : Nat → Nat → Nat → β) (is : List (In β)) (ho : ∀ i ∈ is, Offer i) : Reach (run dflt (sys0 d0) is).s := by
  have key : ∀ (is : List (In β)) (y : Sys β), Reach y.s → (∀ i ∈ is, Offer i) → Reach (run dflt y is).s := by
    intro is
    induction is with
    | nil => intro y h _; exact h
    | cons i is ih =>
      intro y h ho
      exact ih (sys dflt y i) (reach_step h (ho i List.mem_cons_self)).1 fun j hj => ho j (List.mem_cons_of_mem _ hj)
  refine key is _ ⟨(0, .e, .e), ?_, ?_⟩ ho
  · simp [allK, okK]
  · refine ⟨rfl, ?_, ?_, ?_⟩
    · intro k _ r _ b _
      by_cases hk : k = 0 <;> simp [sys0, init, FrameJoinReg.init, abs, K0.reg, K1.reg, hk]
    · intro k _ r _
      by_cases hk : k = 0 <;> simp [sys0, init, FrameJoinReg.init, abs, K0.reg, K1.reg, hk]
    · intro k _ r _
      by_cases hk : k = 0 <;> simp [sys0, init, FrameJoinReg.init, abs, K0.reg, K1.reg, hk]

theorem sent {s : St β} (hv : ((comb dflt s).keep.getD []).getD 0 false = true) (junk : β) : 0 < (outWord dflt s junk).length := by
  unfold outWord
  simp only [List.length_append, List.length_map]
  have : 0 ∈ (List.range dflt.wb).filter fun b => ((comb dflt s).keep.getD []).getD b false := by
    rw [List.mem_filter]
    exact ⟨List.mem_range.2 (by rw [dflt_wb]; decide), hv⟩
  have := List.length_pos_of_mem this
  omega

/-- **C321** (partial) the default configuration never stops: if both inputs offer a word and the output is ready in two cycles, a word
leaves -/
theorem progress_partial (d0 : Nat → Nat → Nat → β) (is : List (In β)) (ho : ∀ i ∈ is, Offer i) (i j : In β) (hi : Offer i) (hj : Offer j)
    (hvi : (i.port 0).valid = true ∧ (i.port 1).valid = true ∧ i.ready = true) (hrj : j.ready = true) :
    (run dflt (sys0 d0) is).outs.length < (run dflt (sys0 d0) (is ++ [i, j])).outs.length := by
  have hr := run_reach d0 is ho
  have e : run dflt (sys0 d0) (is ++ [i, j]) = sys dflt (sys dflt (run dflt (sys0 d0) is) i) j := by
    unfold run; rw [List.foldl_append]; rfl
  rw [e]
  generalize run dflt (sys0 d0) is = y at hr ⊢
  obtain ⟨hr1, hp, hk⟩ := reach_step hr hi
  obtain ⟨-, -, hk1⟩ := reach_step hr1 hj
  show _ < ((y.outs ++ (if (comb dflt y.s).valid && i.ready then _ else _)) ++
    (if (comb dflt (next dflt y.s i)).valid && j.ready then _ else _)).length
  rw [hvi.2.2, hrj]
  cases hv : (comb dflt y.s).valid with
  | true =>
    have := sent (hk hv) i.junk
    simp only [Bool.and_self, if_true, List.length_append]
    omega
  | false =>
    have hv' := hp hvi.1 hvi.2.1 hvi.2.2 hv
    have : 0 < (outWord dflt (sys dflt y i).s j.junk).length := sent (hk1 hv') j.junk
    rw [hv']
    simp only [Bool.and_self, if_true, List.length_append]
    omega

/-! ### two frames of arbitrary lengths -/

def twoT : List Stream := [⟨1, 1, none, [0]⟩, ⟨1, 1, none, [0]⟩]

def two : Cfg := (config 2 twoT 0).getD ⟨0, [], []⟩

theorem two_config : config 2 twoT 0 = some two := by
  have : (config 2 twoT 0).isSome = true := by decide +kernel
  unfold two
  cases h : config 2 twoT 0 with
  | none => rw [h] at this; cases this
  | some c => rfl

theorem two_wb : two.wb = 2 := by decide +kernel
theorem two_look : two.look = [0, 1] := by decide +kernel

/-- the second byte of a word of frame 1 and a full word after it -/
structure Stuck (s : St β) : Prop where
  st : s.st = 1
  a0 : (s.regs 1 0).keep 0 = false
  a1 : (s.regs 1 0).keep 1 = true
  al : (s.regs 1 0).last = false
  b0 : (s.regs 1 1).keep 0 = true
  b1 : (s.regs 1 1).keep 1 = true

/-- no transition for these registers of input 1 -/
def noTrans : Bool := (two.tt.getD 1 []).all fun t => t.input.length == 2 && [true, false].all fun r0 => [true, false].all fun r1 => [true, false].all fun l1 =>
  !(((t.input.getD 1 []).zip [⟨[false, true], r0, false⟩, ⟨[true, true], r1, l1⟩]).all fun p => p.1.ok p.2)

theorem noTrans_ok : noTrans = true := by decide +kernel

theorem two_vals (s : St β) : vals two s =
    [[regVal 2 (s.regs 0 0)], [regVal 2 (s.regs 1 0), regVal 2 (s.regs 1 1)]] := by
  unfold vals Cfg.n Cfg.ns Cfg.N
  rw [two_look, two_wb]
  rfl

theorem stuck_cond {s : St β} (h : Stuck s) : ∀ t ∈ two.tt.getD s.st [], t.cond (vals two s) = false := by
  intro t ht
  rw [h.st] at ht
  have hn := List.all_eq_true.1 noTrans_ok t ht
  rw [Bool.and_eq_true, beq_iff_eq] at hn
  cases hc : t.cond (vals two s) with
  | false => rfl
  | true =>
    have hl : 1 < t.input.length := by omega
    have h1 := all_zip hc 1 hl (by rw [two_vals]; simp)
    have hb : ∀ x : Bool, x ∈ [true, false] := by intro x; cases x <;> simp
    have h2 := List.all_eq_true.1 (List.all_eq_true.1 (List.all_eq_true.1 hn.2 (s.regs 1 0).relict (hb _)) (s.regs 1 1).relict (hb _))
      (s.regs 1 1).last (hb _)
    have e : (vals two s)[1]'(by rw [two_vals]; simp) = [⟨[false, true], (s.regs 1 0).relict, false⟩, ⟨[true, true], (s.regs 1 1).relict, (s.regs 1 1).last⟩] := by
      simp only [two_vals, List.getElem_cons_succ, List.getElem_cons_zero]
      simp [regVal, List.range_succ, h.a0, h.a1, h.al, h.b0, h.b1]
    rw [e] at h1
    rw [List.getD_eq_getElem?_getD, List.getElem?_eq_getElem hl, Option.getD_some, h1] at h2
    cases h2

theorem stuck_step {s : St β} (h : Stuck s) (i : In β) : Stuck (next two s i) ∧ (comb two s).valid = false := by
  obtain ⟨h1, h2, h3⟩ := outputs_idle two.wb two.ns _ _ (stuck_cond h) i.ready s.st
  have hrd : (regIn (comb two s) i 1).ready = false := by
    show (i.ready && (comb two s).rd.getD 1 false) = false
    have : (comb two s).rd.getD 1 false = false := by
      rw [List.getD_eq_getElem?_getD]
      cases hx : (comb two s).rd[1]? with
      | none => rfl
      | some x => exact h2 x (List.mem_of_getElem? hx)
    rw [this, Bool.and_false]
  have z : ∀ k : Nat → Bool, k 1 = true → zero 2 k = false := by intro k hk; simp [zero, List.range_succ, hk]
  have e0 : empty 2 (s.regs 1 0) = false := by unfold empty; rw [z _ h.a1]; rfl
  have e1 : empty 2 (s.regs 1 1) = false := by unfold empty; rw [z _ h.b1]; rfl
  have hn : ∀ r, r < 2 → (next two s i).regs 1 r = s.regs 1 r := by
    intro r hr
    show FrameJoinReg.next (two.n 1) two.wb (s.regs 1) (regIn (comb two s) i 1) r = _
    unfold FrameJoinReg.next load
    rw [two_wb, hrd]
    match r, hr with
    | 0, _ => simp [e0]
    | 1, _ => simp [e0, e1]
  refine ⟨⟨?_, ?_, ?_, ?_, ?_, ?_⟩, h1⟩
  · show nextState _ _ _ _ = 1
    rw [h3]; exact h.st
  · rw [hn 0 (by omega)]; exact h.a0
  · rw [hn 0 (by omega)]; exact h.a1
  · rw [hn 0 (by omega)]; exact h.al
  · rw [hn 1 (by omega)]; exact h.b0
  · rw [hn 1 (by omega)]; exact h.b1

theorem stuck_run : ∀ (js : List (In β)) (y : Sys β), Stuck y.s → (run two y js).outs = y.outs := by
  intro js
  induction js with
  | nil => intro y _; rfl
  | cons i js ih =>
    intro y h
    obtain ⟨h1, h2⟩ := stuck_step h i
    have := ih (sys two y i) h1
    show (run two (sys two y i) js).outs = _
    rw [this]
    show y.outs ++ _ = _
    rw [h2, Bool.false_and]; simp

/-- one byte on input 0, the first two words of a frame on input 1 -/
def wByte : Port Nat := ⟨true, fun _ => 0, fun b => decide (b < 1), true⟩
def wFull : Port Nat := ⟨true, fun _ => 0, fun _ => true, false⟩
def wLast : Port Nat := ⟨true, fun _ => 0, fun _ => true, true⟩
def wIdle : Port Nat := ⟨false, fun _ => 0, fun _ => false, false⟩
def in1 : In Nat := ⟨fun k => if k = 0 then wByte else wFull, true, 0⟩
def in2 : In Nat := ⟨fun k => if k = 0 then wIdle else wFull, true, 0⟩
def in3 : In Nat := ⟨fun _ => wIdle, true, 0⟩
def two0 : St Nat := init fun _ _ _ => 0

theorem stuck_in1 : Stuck (run two (sys0 fun _ _ _ => 0) [in1, in2, in3]).s := by
  refine ⟨?_, ?_, ?_, ?_, ?_, ?_⟩ <;> decide +kernel

theorem ready_in1 : (inReady two two0 in1 0, inReady two two0 in1 1, inReady two (next two two0 in1) in2 1) = (true, true, true) := by
  decide +kernel

/-- **C321** fails: frame 0 of 1 byte and frame 1 with at least 4 bytes in words of 2 bytes -/
theorem progress_fails : ¬ C321 := by
  intro h
  have hr := ready_in1
  simp only [Prod.mk.injEq] at hr
  obtain ⟨r0, r1, r2⟩ := hr
  have hN : two.N = 2 := by unfold Cfg.N; rw [two_look]; rfl
  obtain ⟨js, -, hj⟩ := h 2 twoT 0 two two_config (fun _ _ _ => 0) [in1, in2, in3] (by
    intro k hk
    rw [hN] at hk
    match k, hk with
    | 0, _ =>
      have e : accepted two (init fun _ _ _ => 0) [in1, in2, in3] 0 = [wByte] := by
        show (if true && inReady two two0 in1 0 then [wByte] else []) ++ ((if false && _ then _ else []) ++
          ((if false && _ then _ else []) ++ [])) = _
        rw [r0]; rfl
      rw [e]
      refine ⟨[[wByte]], ?_, List.prefix_refl _⟩
      intro f hf
      rw [List.mem_singleton] at hf
      subst hf
      refine ⟨1, 0, by decide, by decide, by decide, by decide, by decide, by decide, ?_⟩
      intro w hw
      match w, hw with
      | 0, _ => exact ⟨rfl, fun b hb => by match b, hb with | 0, _ => rfl | 1, _ => rfl⟩
    | 1, _ =>
      have e : accepted two (init fun _ _ _ => 0) [in1, in2, in3] 1 = [wFull, wFull] := by
        show (if true && inReady two two0 in1 1 then [wFull] else []) ++ ((if true && inReady two (next two two0 in1) in2 1 then [wFull] else []) ++
          ((if false && _ then _ else []) ++ [])) = _
        rw [r1, r2]; rfl
      rw [e]
      refine ⟨[[wFull, wFull, wLast]], ?_, ⟨[wLast], rfl⟩⟩
      intro f hf
      rw [List.mem_singleton] at hf
      subst hf
      refine ⟨6, 0, by decide, by decide, by decide, by decide, by decide, by decide, ?_⟩
      intro w hw
      match w, hw with
      | 0, _ => exact ⟨rfl, fun b hb => by match b, hb with | 0, _ => rfl | 1, _ => rfl⟩
      | 1, _ => exact ⟨rfl, fun b hb => by match b, hb with | 0, _ => rfl | 1, _ => rfl⟩
      | 2, _ => exact ⟨rfl, fun b hb => by match b, hb with | 0, _ => rfl | 1, _ => rfl⟩)
  have e : run two (sys0 fun _ _ _ => 0) ([in1, in2, in3] ++ js) = run two (run two (sys0 fun _ _ _ => 0) [in1, in2, in3]) js := by
    unfold run; rw [List.foldl_append]
  rw [e, stuck_run js _ stuck_in1] at hj
  omega

/-- one byte of frame 0 and a frame 1 leave in two words of the default configuration -/
def ex : List (In Nat) := [⟨fun k => if k = 0 then wByte else wLast, true, 0⟩, in3, in3]

example : Offer (ex.headD in3) := ⟨fun _ => ⟨rfl, Or.inr rfl⟩, fun _ => ⟨rfl, rfl, rfl⟩⟩

example : frames (run dflt (sys0 fun _ _ _ => 0) ex).outs = [[0, 0, 0]] := by decide +kernel

example : ∀ i ∈ ex, Env dflt i := by
  intro i hi k _ hv a b d h1 h2 h3 ha hd
  simp only [ex, List.mem_cons, List.not_mem_nil, or_false] at hi
  rcases hi with rfl | rfl | rfl
  · by_cases hk : k = 0
    · subst hk
      simp [wByte] at ha hd ⊢
      omega
    · simp [hk, wLast]
  · cases hv
  · cases hv

end Verif.FrameJoin
