import Verif.ReorderBuffer
/-!
# Properties C134 and C135 of `ReorderBuffer`
-/
namespace Verif.ReorderBuffer

universe u
variable {α : Type u}

/-- **C134** full statement: word number `n` on the output is word number `n` of the sequence, whatever the source and the
consumer do. -/
def InOrder (N : Nat) : Prop :=
  ∀ (s0 : St Nat) (is : List (In Nat)), IsInit s0 → (∀ i ∈ is, i.id < N) →
    (delivered ((machine N).trace s0 is)).map some =
      (List.range (delivered ((machine N).trace s0 is)).length).map (item N (accepted ((machine N).trace s0 is)))

/-- The words 10, 11, … come already in order, the consumer does not take anything in the first 8 cycles. -/
def seqIn (t : Nat) : In Nat := if t < 6 then ⟨true, t % 2, 10 + t, false⟩ else ⟨false, 0, 0, decide (8 ≤ t)⟩

def st0 : St Nat := ⟨⟨false, (0, 0)⟩, fun _ => false, 0, fun _ => 0, 0, false, false, 0, false, 0⟩

theorem st0_init : IsInit st0 := ⟨rfl, fun _ => rfl, rfl, rfl, rfl, rfl⟩

/-- **C134** is violated: the RAM is written although the place is still occupied, a stalled consumer does not get word 2 but
word 4 at its place, although the source has sent the words in order. -/
theorem reorder_overwrites : ¬ InOrder 2 := by
  intro h
  have := h st0 ((List.range 16).map seqIn) st0_init (by decide)
  revert this
  decide

/-- What the consumer gets instead. -/
theorem reorder_overwrites_run : (accepted ((machine 2).trace st0 ((List.range 16).map seqIn))).map Prod.snd = [10, 11, 12, 13, 14] ∧
    delivered ((machine 2).trace st0 ((List.range 16).map seqIn)) = [10, 11, 14, 13, 14] := by decide

/-- **C134** (part) for every source which does not send a word before the word `N` numbers before was delivered. Missing:
sources which rely on `dataIn.rd`. -/
theorem reorder_partial {N : Nat} (hN : 0 < N) {s0 : St α} (h0 : IsInit s0) (is : List (In α)) (hid : ∀ i ∈ is, i.id < N)
    (hw : Window N ((machine N).trace s0 is)) :
    (delivered ((machine N).trace s0 is)).map some =
      (List.range (delivered ((machine N).trace s0 is)).length).map (item N (accepted ((machine N).trace s0 is))) := by
  obtain ⟨W, I, h, -⟩ := inv_run hN is (inv_init h0) hid (by simpa [WinFrom, Window] using hw)
  simp only [List.nil_append] at h
  have hq := h.q
  have h2 := items_mono (V := given ((machine N).final s0 is).reg.occ ((machine N).final s0 is).reg.reg) hq
  rw [← h.acc] at h2
  have hlen : (delivered ((machine N).trace s0 is)).length ≤ I := by
    have := congrArg List.length hq
    simp at this
    omega
  have h3 := congrArg (List.take (delivered ((machine N).trace s0 is)).length) h2
  rw [List.map_append, List.take_left' (by simp), ← List.map_take, List.take_range, Nat.min_eq_left hlen] at h3
  exact h3

/-- **C135** If the first `n` words of the sequence have come (in whatever order) and the consumer is ready then they are
delivered within `n + 3` cycles. -/
theorem reorder_progress {N : Nat} (hN : 0 < N) {s0 : St α} (h0 : IsInit s0) (is js : List (In α)) (n : Nat)
    (hid : ∀ i ∈ is ++ js, i.id < N) (hw : Window N ((machine N).trace s0 (is ++ js)))
    (hn : ∀ k, k < n → item N (accepted ((machine N).trace s0 is)) k ≠ none) (hr : ∀ i ∈ js, i.rd = true)
    (hl : js.length = n + 3) : n ≤ (delivered ((machine N).trace s0 (is ++ js))).length := by
  have hw0 : WinFrom N [] [] ((machine N).trace s0 (is ++ js)) := by simpa [WinFrom, Window] using hw
  rw [Machine.trace_append] at hw0 ⊢
  obtain ⟨w1, w2⟩ := winFrom_append hw0
  obtain ⟨W, I, h, -⟩ := inv_run hN is (inv_init h0) (fun i hi => hid i (List.mem_append_left _ hi)) w1
  generalize hs : (machine N).final s0 is = s at *
  obtain ⟨j0, js, rfl⟩ : ∃ a l, js = a :: l := by
    cases js with
    | nil => simp at hl
    | cons a l => exact ⟨a, l, rfl⟩
  have h1 := inv_step hN h j0 (hid j0 (by simp)) (fun h1 h2 => by
      have := w2 [] (j0, out s j0) ⟨_, rfl⟩ h1 h2
      simpa [accepted, delivered] using this)
  rw [← h.acc] at h1
  have w3 := (winFrom_append (t1 := [(j0, out s j0)]) (t2 := (machine N).trace (next N s j0) js) w2).2
  have e1 : accepted [(j0, out s j0)] = given (j0.vld && (out s j0).rd) (j0.id, j0.data) := by
    rw [accepted_cons]; simp [accepted]
  have e2 : delivered [(j0, out s j0)] = given ((out s j0).vld && j0.rd) (out s j0).data := by
    rw [delivered_cons]; simp [delivered]
  rw [e1, e2] at w3
  simp only [List.nil_append] at h1 w3
  have hjs : js = js.take n ++ js.drop n := (List.take_append_drop n js).symm
  obtain ⟨a, b, hab⟩ : ∃ a b, js.drop n = [a, b] := by
    have : (js.drop n).length = 2 := by simp at hl ⊢; omega
    match hd : js.drop n, this with
    | [a, b], _ => exact ⟨a, b, rfl⟩
  rw [hab] at hjs
  have hn' : (js.take n).length = n := by simp at hl ⊢; omega
  generalize js.take n = l at *
  subst hjs
  rw [Machine.trace_append] at w3
  obtain ⟨w4, w5⟩ := winFrom_append w3
  obtain ⟨W', I', k1, k2, k3⟩ := inv_run hN l h1 (fun i hi => hid i (by simp [hi])) w4
  have hI' := k3 n (fun i hi => hr i (by simp [hi])) (by simpa using hn)
  have hd := drain (N := N) k1.ov a b (hr a (by simp)) (hr b (by simp))
  have hq := congrArg List.length k1.q
  rw [Machine.trace_cons, delivered_append, delivered_cons]
  show n ≤ (delivered ((machine N).trace s0 is) ++ (_ ++ delivered ((machine N).trace (next N s j0) (l ++ [a, b])))).length
  rw [Machine.trace_append, delivered_append]
  have e3 : ((machine N).out s j0).vld = (out s j0).vld := rfl
  have e4 : ((machine N).out s j0).data = (out s j0).data := rfl
  simp only [List.length_append, List.length_map, List.length_range, e3, e4] at hq ⊢
  omega

/-- Words come in the order 1, 0, 3, 2, 4; the word 4 is sent after the word 0 was delivered. -/
def mixed : List (In Nat) := [⟨true, 1, 11, false⟩, ⟨true, 0, 10, true⟩, ⟨true, 3, 13, true⟩, ⟨true, 2, 12, true⟩, ⟨false, 0, 0, true⟩, ⟨false, 0, 0, true⟩, ⟨true, 0, 14, true⟩] 

instance (l : List (In Nat × Out Nat)) (N : Nat) : Decidable (∀ k, k < l.length → (l[k]?.map fun e => !e.1.vld || !e.2.rd ||
    decide ((withId (accepted (l.take k)) e.1.id).length * N + e.1.id < (delivered (l.take k)).length + N)) = some true) :=
  Nat.decidableBallLT _ _

theorem window_of {N : Nat} {l : List (In Nat × Out Nat)}
    (h : ∀ k, k < l.length → (l[k]?.map fun e => !e.1.vld || !e.2.rd ||
      decide ((withId (accepted (l.take k)) e.1.id).length * N + e.1.id < (delivered (l.take k)).length + N)) = some true) : Window N l := by
  rintro pre e ⟨post, hp⟩ h1 h2
  have := h pre.length (by rw [← hp]; simp)
  rw [← hp] at this
  simpa [h1, h2] using this

def tail8 : List (In Nat) := List.replicate 8 ⟨false, 0, 0, true⟩

example : (∀ i ∈ mixed ++ tail8, i.id < 4) ∧ Window 4 ((machine 4).trace st0 (mixed ++ tail8)) ∧
    (∀ k, k < 5 → item 4 (accepted ((machine 4).trace st0 mixed)) k ≠ none) ∧
    delivered ((machine 4).trace st0 (mixed ++ tail8)) = [10, 11, 12, 13, 14] := by
  refine ⟨by decide, window_of (by decide), by decide, by decide⟩

end Verif.ReorderBuffer
