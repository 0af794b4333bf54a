import Verif.TupAg
/-! # Agents with tuples: properties -/
namespace Verif.TupAg

/-- what the driver sends the monitor receives, and the driver can be idle -/
def Transports (a : Agent) : Prop :=
  (∀ (d : List Val) (e : Env), d.length = a.arity → ∃ e', a.set (some d) e = some e' ∧ a.get e' = some (d.map .val)) ∧
  (∀ e : Env, ∃ e', a.set none e = some e')

theorem writes_other (fs : List String) : ∀ (d : List Val) (e : Env) (g : String), g ∉ fs → writes fs d e g = e g := by
  induction fs with
  | nil => intro d e g _; rw [writes]; intro _ _ _ _ h; cases h
  | cons f fs ih =>
    intro d e g hg
    cases d with
    | nil => rw [writes]; intro _ _ _ _ _ h; cases h
    | cons v d =>
      rw [writes, ih d _ g (fun h => hg (by simp [h]))]
      unfold put
      rw [if_neg (fun h => hg (by simp [h]))]

theorem reads_writes (fs : List String) : ∀ (d : List Val) (e : Env), fs.Nodup → d.length = fs.length →
    fs.map (fun f => Cell.val (writes fs d e f)) = d.map Cell.val := by
  induction fs with
  | nil => intro d e _ h; rw [List.eq_nil_of_length_eq_zero h]; rfl
  | cons f fs ih =>
    intro d e hn h
    cases d with
    | nil => cases h
    | cons v d =>
      rw [List.nodup_cons] at hn
      rw [List.map_cons, List.map_cons]
      have h1 : writes (f :: fs) (v :: d) e = writes fs d (put e f v) := rfl
      rw [h1, writes_other fs d _ f hn.1, ih d _ hn.2 (by simpa using h)]
      simp [put]

theorem plain_ok (fs : List String) (h : fs.Nodup) : Transports (plain fs fs) := by
  constructor
  · intro d e hd
    refine ⟨writes fs d e, if_pos hd, ?_⟩
    show some _ = some _
    rw [reads_writes fs d e h hd]
  · intro e; exact ⟨_, rfl⟩

/-- agents without a defect -/
def good : List Agent :=
  [addrData, addrDataMask, addrDataVld, dataMaskLast, indexKey true, indexKey false, fifoArrayInsert, fifoArrayPop, reorder, axi3R,
   axi3B, axiLiteR, axiLiteW, axi4LiteAddr, avalonSt, avalonR, mdioReq, spiData, i2cCmd, errLast true, errLast false, cuckooInsert true,
   cuckooInsert false, cuckooInsertRes true, lookupKey false]

/-- the other agents -/
def bad : List Agent :=
  [fifoDrop, cuckooInsertRes false, insert true, insert false, lookupKey true] ++
    [true, false].flatMap fun h => [true, false].flatMap fun k => [true, false].map fun d => lookupRes h k d

/-- C420, full statement -/
def TransportSpec : Prop := ∀ a ∈ good ++ bad, Transports a

theorem set_none_bad (a : Agent) (h : ∀ d e, a.set d e = none) : ¬ Transports a := by
  intro hh
  obtain ⟨e', he⟩ := hh.2 fun _ => none
  rw [h] at he; cases he

/-- each of the other agents has a defect -/
theorem all_bad : ∀ a ∈ bad, ¬ Transports a := by
  intro a ha
  have hl : ∀ h k d, ¬ Transports (lookupRes h k d) := fun h k d => set_none_bad _ fun _ _ => rfl
  have hf : ¬ Transports fifoDrop := by
    intro h
    obtain ⟨e', h1, h2⟩ := h.1 [some 1, some 2, some 3] (fun _ => none) rfl
    have : (fifoDrop.set (some [some 1, some 2, some 3]) fun _ => none).bind fifoDrop.get = some [.val (some 2), .val (some 3), .val (some 1)] := by
      decide
    rw [h1, Option.bind_some, h2] at this
    revert this; decide
  have hi : ∀ b, ¬ Transports (insert b) := by
    intro b h
    cases b with
    | false =>
      obtain ⟨e', _, h2⟩ := h.1 [some 1, some 2, some 3] (fun _ => none) rfl
      injection h2 with h2
      injection h2 with h2
      cases h2
    | true =>
      obtain ⟨e', _, h2⟩ := h.1 [some 1, some 2, some 3, some 4] (fun _ => none) rfl
      injection h2 with h2
      injection h2 with h2
      cases h2
  simp only [bad, List.mem_append, List.mem_cons, List.mem_flatMap, List.mem_map, List.not_mem_nil, or_false] at ha
  rcases ha with (rfl | rfl | rfl | rfl | rfl) | ⟨x, _, y, _, z, _, rfl⟩
  · exact hf
  · exact set_none_bad _ fun _ _ => rfl
  · exact hi true
  · exact hi false
  · exact set_none_bad _ fun _ _ => rfl
  · exact hl x y z

theorem transport_violated : ¬ TransportSpec :=
  fun h => all_bad fifoDrop (by simp [bad]) (h fifoDrop (by simp [bad]))

/-- C420 for the agents without a defect; the monitor of `FifoDrop` writers reads the members in another order, the monitor of
`HwIOInsert` has all but the hash -/
theorem transport_partial : (∀ a ∈ good, Transports a) ∧
    (∀ (d c x : Val) (e : Env), ∃ e', fifoDrop.set (some [d, c, x]) e = some e' ∧ fifoDrop.get e' = some [.val c, .val x, .val d]) ∧
    (∀ (h k d v : Val) (e : Env), ∃ e', (insert true).set (some [h, k, d, v]) e = some e' ∧
      (insert true).get e' = some [.func, .val k, .val d, .val v] ∧ e' "hash" = h) ∧
    (∀ (h k v : Val) (e : Env), ∃ e', (insert false).set (some [h, k, v]) e = some e' ∧
      (insert false).get e' = some [.func, .val k, .val v] ∧ e' "hash" = h) := by
  refine ⟨?_, ?_, ?_, ?_⟩
  · intro a ha
    simp only [good, List.mem_cons, List.not_mem_nil, or_false] at ha
    rcases ha with rfl | rfl | rfl | rfl | rfl | rfl | rfl | rfl | rfl | rfl | rfl | rfl | rfl | rfl | rfl | rfl | rfl | rfl | rfl | rfl |
      rfl | rfl | rfl | rfl | rfl <;> exact plain_ok _ (by decide)
  · intro d c x e
    exact ⟨_, rfl, by simp [fifoDrop, plain, plainGet, writes, put]⟩
  · intro h k d v e
    exact ⟨_, rfl, by simp [insert, writes, put]⟩
  · intro h k v e
    exact ⟨_, rfl, by simp [insert, writes, put]⟩

/-- a transfer -/
example : (axi3B.set (some [some 3, some 0]) fun _ => none).bind axi3B.get = some [.val (some 3), .val (some 0)] := by decide

end Verif.TupAg
