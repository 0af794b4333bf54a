import Verif.StreamNode
/-!
# Properties C13, C14, C56 of `StreamNode`
-/
namespace Verif.StreamNode

/-- No `extraConds` are used. -/
def Node.noExtra (n : Node) : Prop :=
  (∀ m ∈ n.masters, m.extra = none) ∧ (∀ s ∈ n.slaves, s.extra = none)

/-- **C13** Without `extraConds`, for every number of masters and slaves and every value of valid,
ready, skip and enable signals: (1) if one interface transfers, all connected interfaces transfer;
(2) they do so exactly when the node is enabled and `ack()` is 1; (3) skipped interfaces never
transfer. (2) needs at least one connected interface to be non-trivial, hence the two parts.) -/
theorem streamNode_atomic (n : Node) (hw : n.WF) (hx : n.noExtra) (en : Bool) :
    (n.someTransfer en → n.allTransfer en) ∧
    (n.someTransfer en → en = true ∧ n.ack = true) ∧
    (en = true → n.ack = true → n.allTransfer en) ∧
    (∀ k m, n.masters[k]? = some m → m.skipped = true → ¬ n.masterTransfers en k m) ∧
    (∀ k s, n.slaves[k]? = some s → s.skipped = true → ¬ n.slaveTransfers en k s) := by
  have hm : n.masters.all Io.ackPart = n.masters.all Io.present := by
    have : ∀ (l : List Io), (∀ m ∈ l, m.extra = none) → l.all Io.ackPart = l.all Io.present := by
      intro l; induction l with
      | nil => intro _; rfl
      | cons a l ih =>
        intro h
        rw [List.all_cons, List.all_cons, ih (fun m hm => h m (by simp [hm])),
          ackPart_eq_present a (h a (by simp))]
    exact this _ hx.1
  have hs : n.slaves.all Io.ackPart = n.slaves.all Io.present := by
    have : ∀ (l : List Io), (∀ m ∈ l, m.extra = none) → l.all Io.ackPart = l.all Io.present := by
      intro l; induction l with
      | nil => intro _; rfl
      | cons a l ih =>
        intro h
        rw [List.all_cons, List.all_cons, ih (fun m hm => h m (by simp [hm])),
          ackPart_eq_present a (h a (by simp))]
    exact this _ hx.2
  have hack : n.ack = true ↔ n.masters.all Io.present = true ∧ n.slaves.all Io.present = true := by
    unfold Node.ack; rw [hm, hs, Bool.and_eq_true]
  have key : n.masters.all Io.present = true → n.slaves.all Io.present = true → en = true →
      n.allTransfer en := by
    intro a b c
    constructor
    · intro k m hk hsk
      have mem := List.mem_of_getElem? hk
      rw [master_iff n en k m hk (hw.1 m mem)]
      refine ⟨hsk, present_sig m (hw.1 m mem) (List.all_eq_true.1 a m mem) hsk, ?_, a, b, c⟩
      simp [Io.extraOk, hx.1 m mem]
    · intro k m hk hsk
      have mem := List.mem_of_getElem? hk
      rw [slave_iff n en k m hk (hw.2 m mem)]
      refine ⟨hsk, present_sig m (hw.2 m mem) (List.all_eq_true.1 b m mem) hsk, ?_, a, b, c⟩
      simp [Io.extraOk, hx.2 m mem]
  have some_all : n.someTransfer en →
      n.masters.all Io.present = true ∧ n.slaves.all Io.present = true ∧ en = true := by
    rintro (⟨k, m, hk, ht⟩ | ⟨k, m, hk, ht⟩)
    · rw [master_iff n en k m hk (hw.1 m (List.mem_of_getElem? hk))] at ht
      exact ht.2.2.2
    · rw [slave_iff n en k m hk (hw.2 m (List.mem_of_getElem? hk))] at ht
      exact ht.2.2.2
  refine ⟨fun h => ?_, fun h => ?_, fun h1 h2 => ?_, ?_, ?_⟩
  · obtain ⟨a, b, c⟩ := some_all h; exact key a b c
  · obtain ⟨a, b, c⟩ := some_all h; exact ⟨c, hack.2 ⟨a, b⟩⟩
  · obtain ⟨a, b⟩ := hack.1 h2; exact key a b h1
  · intro k m hk hsk ht
    rw [master_iff n en k m hk (hw.1 m (List.mem_of_getElem? hk))] at ht
    simp [ht.1] at hsk
  · intro k m hk hsk ht
    rw [slave_iff n en k m hk (hw.2 m (List.mem_of_getElem? hk))] at ht
    simp [ht.1] at hsk

/-- Full statement of **C14** (the documentation, streamNode.py:94-95): a false `extraCond` of a
connected interface blocks all interfaces. -/
def ExtraBlocksAll : Prop :=
  ∀ (n : Node) (en : Bool), n.WF →
    ((∃ m ∈ n.masters, m.skipped = false ∧ m.extra = some false) ∨
     (∃ s ∈ n.slaves, s.skipped = false ∧ s.extra = some false)) → ¬ n.someTransfer en

/-- **C14** is violated: the slave receives a word although the master (whose `extraCond` is 0) is
stalled, i.e. the word will be transferred again later. -/
theorem streamNode_extra_broken : ¬ ExtraBlocksAll := by
  intro h
  refine h ⟨[⟨true, false, some false, none⟩], [⟨true, false, none, none⟩]⟩ true ?_ ?_ ?_
  · simp [Node.WF, Io.WF]
  · exact Or.inl ⟨_, List.mem_singleton.2 rfl, rfl, rfl⟩
  · exact Or.inr ⟨0, _, rfl, by decide⟩

/-- **C14**, what does hold: (1) an interface whose own `extraCond` is 0 does not transfer;
(2) if all connected interfaces have the same `extraCond`, its value 0 blocks everything;
(3) `ack()` is 0 if the `extraCond` of a connected interface (with a real valid/ready signal) is 0,
and `ack() = 1` means that all connected interfaces transfer when enabled.
Missing: blocking of the *other* interfaces in general, which the code does not do. -/
theorem streamNode_extra_partial (n : Node) (hw : n.WF) (en : Bool) :
    (∀ k m, n.masters[k]? = some m → m.extra = some false → ¬ n.masterTransfers en k m) ∧
    (∀ k s, n.slaves[k]? = some s → s.extra = some false → ¬ n.slaveTransfers en k s) ∧
    ((∀ m ∈ n.masters, m.skipped = false → m.extra = some false) →
     (∀ s ∈ n.slaves, s.skipped = false → s.extra = some false) → ¬ n.someTransfer en) ∧
    (((∃ m ∈ n.masters, m.skipped = false ∧ m.const = false ∧ m.extra = some false) ∨
      (∃ s ∈ n.slaves, s.skipped = false ∧ s.const = false ∧ s.extra = some false)) →
      n.ack = false) ∧
    ((∀ m ∈ n.masters, m.const = false) → (∀ s ∈ n.slaves, s.const = false) →
      n.ack = true → n.allTransfer true) := by
  have p1 : ∀ k m, n.masters[k]? = some m → m.extra = some false → ¬ n.masterTransfers en k m := by
    intro k m hk he ht
    rw [master_iff n en k m hk (hw.1 m (List.mem_of_getElem? hk))] at ht
    simp [Io.extraOk, he] at ht
  have p2 : ∀ k s, n.slaves[k]? = some s → s.extra = some false → ¬ n.slaveTransfers en k s := by
    intro k m hk he ht
    rw [slave_iff n en k m hk (hw.2 m (List.mem_of_getElem? hk))] at ht
    simp [Io.extraOk, he] at ht
  have part : ∀ i : Io, i.skipped = false → i.const = false → i.extra = some false →
      i.ackPart = false := by
    intro i h1 h2 h3
    obtain ⟨s, c, ex, sk⟩ := i
    rcases sk with _ | _ | _ <;> simp_all [Io.ackPart, Io.skipped, Io.extraOk]
  have part2 : ∀ i : Io, i.skipped = false → i.const = false → i.ackPart = true →
      i.sig = true ∧ i.extraOk = true := by
    intro i h1 h2 h3
    obtain ⟨s, c, ex, sk⟩ := i
    rcases sk with _ | _ | _ <;> simp_all [Io.ackPart, Io.skipped, Io.extraOk]
  refine ⟨p1, p2, ?_, ?_, ?_⟩
  · rintro h1 h2 (⟨k, m, hk, ht⟩ | ⟨k, m, hk, ht⟩)
    · have mem := List.mem_of_getElem? hk
      have ht' := (master_iff n en k m hk (hw.1 m mem)).1 ht
      exact p1 k m hk (h1 m mem ht'.1) ht
    · have mem := List.mem_of_getElem? hk
      have ht' := (slave_iff n en k m hk (hw.2 m mem)).1 ht
      exact p2 k m hk (h2 m mem ht'.1) ht
  · rintro (⟨m, hm, a, b, c⟩ | ⟨m, hm, a, b, c⟩)
    · have : n.masters.all Io.ackPart = false := by
        rw [List.all_eq_false]; exact ⟨m, hm, by simp [part m a b c]⟩
      simp [Node.ack, this]
    · have : n.slaves.all Io.ackPart = false := by
        rw [List.all_eq_false]; exact ⟨m, hm, by simp [part m a b c]⟩
      simp [Node.ack, this]
  · intro c1 c2 ha
    have ha' := ha
    unfold Node.ack at ha'
    rw [Bool.and_eq_true, List.all_eq_true, List.all_eq_true] at ha'
    have a1 : n.masters.all Io.present = true :=
      List.all_eq_true.2 fun m hm => ackPart_present m (ha'.1 m hm)
    have a2 : n.slaves.all Io.present = true :=
      List.all_eq_true.2 fun m hm => ackPart_present m (ha'.2 m hm)
    constructor
    · intro k m hk hsk
      have mem := List.mem_of_getElem? hk
      rw [master_iff n true k m hk (hw.1 m mem)]
      have := part2 m hsk (c1 m mem) (ha'.1 m mem)
      exact ⟨hsk, this.1, this.2, a1, a2, rfl⟩
    · intro k m hk hsk
      have mem := List.mem_of_getElem? hk
      rw [slave_iff n true k m hk (hw.2 m mem)]
      have := part2 m hsk (c2 m mem) (ha'.2 m mem)
      exact ⟨hsk, this.1, this.2, a1, a2, rfl⟩

/-! ## Exclusive groups -/

/-- `ExclusiveStreamGroups`: list of `(cond, node)` (streamNode.py:47-51). -/
abbrev Group := List (Bool × Node)

/-- `ExclusiveStreamGroups.ack` (:72-77). -/
def Group.ack (g : Group) : Bool := g.any fun c => c.1 && c.2.ack

/-- enable of child number `j` produced by `ExclusiveStreamGroups.sync(enSig)` (:56-70): `cond & enSig`. -/
def childEn (cond en : Bool) : Bool := cond && en

theorem excl_unique (g : Group) (h : g.Pairwise fun a b => ¬ (a.1 = true ∧ b.1 = true)) :
    ∀ d ∈ g, ∀ c ∈ g, d.1 = true → c.1 = true → d = c := by
  induction g with
  | nil => simp
  | cons a g ih =>
    rw [List.pairwise_cons] at h
    intro d hd c hc h1 h2
    rcases List.mem_cons.1 hd with rfl | hd' <;> rcases List.mem_cons.1 hc with rfl | hc'
    · rfl
    · exact absurd ⟨h1, h2⟩ (h.1 c hc')
    · exact absurd ⟨h2, h1⟩ (h.1 d hd')
    · exact ih h.2 d hd' c hc' h1 h2

/-- **C56** A group used as master number `k` of an outer node (the node reads `group.ack()` as its
valid and passes the computed ready as enable to `group.sync`): with at most one condition true
and no extraConds, an unselected child never transfers, and the selected child transfers completely
exactly when the outer node's `ack()` is 1 (not at all otherwise), i.e. together with all other
connected interfaces of the outer node. -/
theorem exclusiveGroup_atomic (n : Node) (hw : n.WF) (hx : n.noExtra) (en : Bool) (k : Nat)
    (m : Io) (hk : n.masters[k]? = some m) (hskip : m.skipped = false)
    (g : Group) (hg : m.sig = g.ack)
    (hexcl : g.Pairwise fun a b => ¬ (a.1 = true ∧ b.1 = true))
    (hgw : ∀ c ∈ g, c.2.WF ∧ c.2.noExtra) :
    ∀ c ∈ g,
      (c.1 = false → ¬ c.2.someTransfer (childEn c.1 (n.rdOf en k m))) ∧
      (c.1 = true → en = true → n.ack = true →
        c.2.allTransfer (childEn c.1 (n.rdOf en k m)) ∧ n.allTransfer en) ∧
      (c.1 = true → c.2.someTransfer (childEn c.1 (n.rdOf en k m)) →
        en = true ∧ n.ack = true) := by
  intro c hcm
  obtain ⟨cw, cx⟩ := hgw c hcm
  have A := streamNode_atomic c.2 cw cx (childEn c.1 (n.rdOf en k m))
  have B := streamNode_atomic n hw hx en
  have mem := List.mem_of_getElem? hk
  refine ⟨?_, ?_, ?_⟩
  · intro h0 ht
    have := (A.2.1 ht).1
    simp [childEn, h0] at this
  · intro h1 hen hack
    have all := B.2.2.1 hen hack
    have mt := all.1 k m hk hskip
    have hack' : Group.ack g = true := by rw [← hg]; exact mt.1
    -- the only child with a true condition is `c`
    have hca : c.2.ack = true := by
      unfold Group.ack at hack'
      rw [List.any_eq_true] at hack'
      obtain ⟨d, hd, hdc⟩ := hack'
      rw [Bool.and_eq_true] at hdc
      have : d = c := excl_unique g hexcl d hd c hcm hdc.1 h1
      rw [← this]; exact hdc.2
    refine ⟨A.2.2.1 ?_ hca, all⟩
    simp [childEn, h1, mt.2]
  · intro h1 ht
    have := (A.2.1 ht)
    have hr : n.rdOf en k m = true := by
      have := this.1
      simpa [childEn, h1] using this
    have hs : m.sig = true := by
      rw [hg]; unfold Group.ack; rw [List.any_eq_true]
      exact ⟨c, hcm, by simp [h1, this.2]⟩
    exact B.2.1 (Or.inl ⟨k, m, hk, hs, hr⟩)

/-! Non-vacuity: two masters (one skipped), two slaves. -/
def exNode : Node :=
  ⟨[⟨true, false, none, none⟩, ⟨false, false, none, some true⟩],
   [⟨true, false, none, some false⟩, ⟨true, true, none, none⟩]⟩
example : exNode.WF ∧ exNode.noExtra ∧ exNode.ack = true := by
  simp [exNode, Node.WF, Io.WF, Node.noExtra, Node.ack, Io.ackPart, Io.extraOk]
example : exNode.masterTransfers true 0 ⟨true, false, none, none⟩ := by decide
/-- an outer node whose master 0 is a group with children selected by `true`/`false` -/
def exGroup : Group := [(false, exNode), (true, exNode)]
example : (⟨[⟨exGroup.ack, false, none, none⟩], [⟨true, false, none, none⟩]⟩ : Node).ack = true := by
  decide
example : exGroup.Pairwise fun a b => ¬ (a.1 = true ∧ b.1 = true) := by simp [exGroup]

end Verif.StreamNode
