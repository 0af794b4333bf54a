import Verif.OneHot
/-!
# Model of `FifoArray` (hwtLib/mem/fifoArray.py)
-/
namespace Verif.FifoArray

open OneHot

universe u
variable {α : Type u}

/-- Registers and memories, mem/fifoArray.py:184-187, :212-213. `ITEMS = n`; the one-hot vectors of
`binToOneHot` (:196-210) have `2^log2ceil(ITEMS-1)` bits, so the design only elaborates if `ITEMS` is a
power of two; then the address type covers exactly the items. -/
structure St (α : Type u) where
  valid : Nat → Bool
  last : Nat → Bool
  insNext : Nat
  values : Nat → α
  nxt : Nat → Nat

/-- Ports driven by the environment (`insert` slave side, `pop` master side). -/
structure In (α : Type u) where
  insVld : Bool
  insAddr : Nat
  insAppend : Bool
  insData : α
  popRd : Bool
  popAddr : Nat

/-- Ports driven by the component. -/
structure Out (α : Type u) where
  insRd : Bool
  insAddrRet : Nat
  popVld : Bool
  popData : α
  popLast : Bool
  popAddrNext : Nat

/-- mem/fifoArray.py:193-194, :221-224 -/
def out (n : Nat) (s : St α) (i : In α) : Out α where
  insRd := !(List.range n).all s.valid
  insAddrRet := s.insNext
  popVld := (List.range n).any s.valid
  popData := s.values i.popAddr
  popLast := s.last i.popAddr && s.valid i.popAddr
  popAddrNext := s.nxt i.popAddr

/-- mem/fifoArray.py:209 `item_valid.next` -/
def validNext (n : Nat) (s : St α) (i : In α) (k : Nat) : Bool :=
  (s.valid k && !binToOneHot i.popAddr ((out n s i).popVld && i.popRd) k) ||
    binToOneHot s.insNext (i.insVld && (out n s i).insRd) k

/-- Clock edge, mem/fifoArray.py:188, :209-220. Note the write of `next_ptrs` is not qualified by
`insert.append`. -/
def next (n : Nat) (s : St α) (i : In α) : St α where
  valid := validNext n s i
  last k := (s.last k &&
      !binToOneHot i.insAddr (i.insVld && (out n s i).insRd && i.insAppend) k) ||
    binToOneHot s.insNext (i.insVld && (out n s i).insRd) k
  insNext := oneHotToBin n fun k => !validNext n s i k
  values := if i.insVld && (out n s i).insRd then upd s.values s.insNext i.insData else s.values
  nxt := if i.insVld && (out n s i).insRd then upd s.nxt i.insAddr s.insNext else s.nxt

def machine (n : Nat) : Machine (St α) (In α) (Out α) := ⟨out n, next n⟩

/-- Reset state (mem/fifoArray.py:184-187); the memories have arbitrary contents. -/
def init (values0 : Nat → α) (nxt0 : Nat → Nat) : St α :=
  ⟨fun _ => false, fun _ => false, 0, values0, nxt0⟩

/-! ## Specification: many independent FIFOs

The user numbers its FIFOs; `Lists` is the contents of each: nodes `(address, data)`, oldest first.
The addresses are those which the component returned in `insert.addr_ret`. -/

abbrev Lists (α : Type u) := Nat → List (Nat × α)

/-- What the user wants to do in a cycle: insert `data` to FIFO `insId`, pop from FIFO `popId`; `junk`
is what is put on `insert.addr` when a new list is started (documented as ignored,
mem/fifoArray.py:26-27). -/
structure Req (α : Type u) where
  insVld : Bool
  insId : Nat
  data : α
  junk : Nat
  popRd : Bool
  popId : Nat

/-- A pop is done only on a non-empty FIFO. -/
def Req.pops (F : Lists α) (q : Req α) : Bool := q.popRd && !(F q.popId).isEmpty

/-- Contents after the pop of this cycle. -/
def Req.afterPop (F : Lists α) (q : Req α) : Lists α :=
  if q.pops F then upd F q.popId (F q.popId).tail else F

/-- How the user drives the ports: pop at the address of the head; append behind the address of the
last node if the FIFO is (and stays in this cycle) non-empty, otherwise start a new list. -/
def Req.drive (F : Lists α) (q : Req α) : In α where
  insVld := q.insVld
  insAppend := !(q.afterPop F q.insId).isEmpty
  insAddr := match (q.afterPop F q.insId).getLast? with | some nd => nd.1 | none => q.junk
  insData := q.data
  popRd := q.pops F
  popAddr := match (F q.popId).head? with | some nd => nd.1 | none => 0

/-- Contents after the cycle in which the insert was accepted (`insRd`) to address `addrRet`. -/
def Req.after (F : Lists α) (q : Req α) (insRd : Bool) (addrRet : Nat) : Lists α :=
  let G := q.afterPop F
  if q.insVld && insRd then upd G q.insId (G q.insId ++ [(addrRet, q.data)]) else G

/-- Component together with its user. -/
def system (n : Nat) : Machine (Lists α × St α) (Req α) (Lists α × Out α) where
  out s q := (s.1, out n s.2 (q.drive s.1))
  next s q :=
    let o := out n s.2 (q.drive s.1)
    (q.after s.1 o.insRd o.insAddrRet, next n s.2 (q.drive s.1))

/-! ## Invariant -/

/-- `p` and `p'` are consecutive nodes of some list. -/
def Consec (l : List (Nat × α)) (a b : Nat) : Prop :=
  ∃ u v x y, l = u ++ (a, x) :: (b, y) :: v

/-- address `a` is the last node of `l` -/
def IsLast (l : List (Nat × α)) (a : Nat) : Prop := ∃ u x, l = u ++ [(a, x)]

structure Inv (n : Nat) (F : Lists α) (s : St α) : Prop where
  lt : ∀ id nd, nd ∈ F id → nd.1 < n
  nodup : ∀ id, ((F id).map Prod.fst).Nodup
  disj : ∀ id id' a, a ∈ (F id).map Prod.fst → a ∈ (F id').map Prod.fst → id = id'
  valid_iff : ∀ a, a < n → (s.valid a = true ↔ ∃ id, a ∈ (F id).map Prod.fst)
  data_eq : ∀ id nd, nd ∈ F id → s.values nd.1 = nd.2
  next_eq : ∀ id a b, Consec (F id) a b → s.nxt a = b
  last_iff : ∀ id a, a ∈ (F id).map Prod.fst → (s.last a = true ↔ IsLast (F id) a)
  free : (∃ a, a < n ∧ s.valid a = false) → s.insNext < n ∧ s.valid s.insNext = false

theorem init_inv (n : Nat) (hn : 0 < n) (v : Nat → α) (x : Nat → Nat) :
    Inv n (fun _ => []) (init v x) := by
  constructor
  · intro id nd h; simp at h
  · intro id; simp
  · intro id id' a h; simp at h
  · intro a _; simp [init]
  · intro id nd h; simp at h
  · rintro id a b ⟨u, v, x, y, h⟩; simp at h
  · intro id a h; simp at h
  · intro _; exact ⟨hn, rfl⟩

/-- Pop step of the invariant, on registers with the popped node invalidated. -/
theorem inv_pop {n : Nat} {F : Lists α} {s : St α} (h : Inv n F s) {id a : Nat} {x : α}
    {t : List (Nat × α)} (hF : F id = (a, x) :: t) :
    Inv n (upd F id t) { s with valid := fun k => s.valid k && !(a == k), insNext := a } := by
  have hsub : ∀ id' nd, nd ∈ upd F id t id' → nd ∈ F id' := by
    intro id' nd hm
    by_cases e : id' = id
    · subst e; rw [upd_same] at hm; rw [hF]; exact List.mem_cons_of_mem _ hm
    · rwa [upd_ne _ _ _ _ e] at hm
  have hsub' : ∀ id' b, b ∈ (upd F id t id').map Prod.fst → b ∈ (F id').map Prod.fst := by
    intro id' b hb
    obtain ⟨nd, h1, h2⟩ := List.mem_map.1 hb
    exact List.mem_map.2 ⟨nd, hsub _ _ h1, h2⟩
  have hnd := h.nodup id
  rw [hF] at hnd
  simp only [List.map_cons, List.nodup_cons] at hnd
  have ha : a ∈ (F id).map Prod.fst := by rw [hF]; simp
  have hne : ∀ id' b, b ∈ (upd F id t id').map Prod.fst → b ≠ a := by
    intro id' b hb e
    subst e
    have e1 := h.disj _ _ _ (hsub' _ _ hb) ha
    subst e1
    rw [upd_same] at hb
    exact hnd.1 hb
  constructor
  · intro id' nd hm; exact h.lt id' nd (hsub _ _ hm)
  · intro id'
    by_cases e : id' = id
    · subst e; rw [upd_same]; exact hnd.2
    · rw [upd_ne _ _ _ _ e]; exact h.nodup id'
  · intro id1 id2 b h1 h2; exact h.disj _ _ _ (hsub' _ _ h1) (hsub' _ _ h2)
  · intro b hb
    simp only [Bool.and_eq_true, Bool.not_eq_true', beq_eq_false_iff_ne, h.valid_iff b hb]
    constructor
    · rintro ⟨⟨id', h1⟩, h2⟩
      refine ⟨id', ?_⟩
      by_cases e : id' = id
      · subst e
        rw [hF] at h1
        simp only [List.map_cons, List.mem_cons] at h1
        rw [upd_same]
        rcases h1 with h1 | h1
        · exact absurd h1.symm h2
        · exact h1
      · rwa [upd_ne _ _ _ _ e]
    · rintro ⟨id', h1⟩
      exact ⟨⟨id', hsub' _ _ h1⟩, fun e => hne _ _ h1 e.symm⟩
  · intro id' nd hm; exact h.data_eq id' nd (hsub _ _ hm)
  · rintro id' c d ⟨u, v, y, z, e'⟩
    by_cases e : id' = id
    · subst e
      rw [upd_same] at e'
      exact h.next_eq id' c d ⟨(a, x) :: u, v, y, z, by rw [hF, e']; rfl⟩
    · rw [upd_ne _ _ _ _ e] at e'
      exact h.next_eq id' c d ⟨u, v, y, z, e'⟩
  · intro id' b hb
    show s.last b = true ↔ _
    rw [h.last_iff id' b (hsub' _ _ hb)]
    by_cases e : id' = id
    · subst e
      rw [upd_same] at hb ⊢
      constructor
      · rintro ⟨u, y, e'⟩
        rw [hF] at e'
        cases u with
        | nil =>
          simp at e'
          rw [e'.2] at hb; simp at hb
        | cons q u => simp at e'; exact ⟨u, y, e'.2⟩
      · rintro ⟨u, y, e'⟩
        exact ⟨(a, x) :: u, y, by rw [hF, e']; rfl⟩
    · rw [upd_ne _ _ _ _ e]
  · intro _
    refine ⟨h.lt id (a, x) (by rw [hF]; exact List.mem_cons_self), ?_⟩
    simp

theorem isLast_iff_getLast {l : List (Nat × α)} {a : Nat} :
    IsLast l a ↔ ∃ x, l.getLast? = some (a, x) := by
  constructor
  · rintro ⟨u, x, rfl⟩; exact ⟨x, by simp⟩
  · rintro ⟨x, h⟩
    obtain ⟨u, hu⟩ := List.getLast?_eq_some_iff.1 h
    exact ⟨u, x, hu⟩

/-- Insert step of the invariant: `p` is the address on `insert.addr`, `b` the free slot. -/
theorem inv_insert {n : Nat} {F : Lists α} {s : St α} (h : Inv n F s) {id b p : Nat} {d : α}
    (hb : b < n) (hfree : s.valid b = false)
    (hp : match (F id).getLast? with
      | some nd => p = nd.1
      | none => ∀ id' c, ¬ Consec (F id') p c) :
    Inv n (upd F id (F id ++ [(b, d)]))
      { valid := fun k => s.valid k || b == k
        last := fun k => (s.last k && !((!(F id).isEmpty) && p == k)) || b == k
        insNext := oneHotToBin n fun k => !(s.valid k || b == k)
        values := upd s.values b d
        nxt := upd s.nxt p b } := by
  have hbn : ∀ id', b ∉ (F id').map Prod.fst := by
    intro id' hm
    have := (h.valid_iff b hb).2 ⟨id', hm⟩
    rw [hfree] at this; cases this
  have hpos : 0 < n := by omega
  have hmem : ∀ id' nd, nd ∈ upd F id (F id ++ [(b, d)]) id' →
      nd ∈ F id' ∨ (id' = id ∧ nd = (b, d)) := by
    intro id' nd hm
    by_cases e : id' = id
    · subst e
      rw [upd_same] at hm
      simp only [List.mem_append, List.mem_singleton] at hm
      rcases hm with hm | hm
      · exact Or.inl hm
      · exact Or.inr ⟨rfl, hm⟩
    · rw [upd_ne _ _ _ _ e] at hm; exact Or.inl hm
  have hmem' : ∀ id' a, a ∈ (upd F id (F id ++ [(b, d)]) id').map Prod.fst →
      a ∈ (F id').map Prod.fst ∨ (id' = id ∧ a = b) := by
    intro id' a ha
    obtain ⟨nd, h1, h2⟩ := List.mem_map.1 ha
    rcases hmem _ _ h1 with h3 | ⟨h3, h4⟩
    · exact Or.inl (List.mem_map.2 ⟨nd, h3, h2⟩)
    · subst h4; exact Or.inr ⟨h3, h2.symm⟩
  constructor
  · intro id' nd hm
    rcases hmem _ _ hm with h1 | ⟨_, h1⟩
    · exact h.lt _ _ h1
    · subst h1; exact hb
  · intro id'
    by_cases e : id' = id
    · subst e
      rw [upd_same]
      simp only [List.map_append, List.map_cons, List.map_nil, List.nodup_append]
      refine ⟨h.nodup id', by simp, ?_⟩
      intro c hc q hq e
      simp at hq
      subst hq; subst e
      exact hbn _ hc
    · rw [upd_ne _ _ _ _ e]; exact h.nodup id'
  · intro id1 id2 a h1 h2
    rcases hmem' _ _ h1 with h3 | ⟨h3, h4⟩ <;> rcases hmem' _ _ h2 with h5 | ⟨h5, h6⟩
    · exact h.disj _ _ _ h3 h5
    · subst h6; exact absurd h3 (hbn _)
    · subst h4; exact absurd h5 (hbn _)
    · rw [h3, h5]
  · intro a ha
    simp only [Bool.or_eq_true, beq_iff_eq, h.valid_iff a ha]
    constructor
    · rintro (⟨id', h1⟩ | h1)
      · refine ⟨id', ?_⟩
        by_cases e : id' = id
        · subst e; rw [upd_same]; simp only [List.map_append, List.mem_append]; exact Or.inl h1
        · rwa [upd_ne _ _ _ _ e]
      · subst h1
        refine ⟨id, ?_⟩
        rw [upd_same]; simp
    · rintro ⟨id', h1⟩
      rcases hmem' _ _ h1 with h2 | ⟨_, h2⟩
      · exact Or.inl ⟨id', h2⟩
      · exact Or.inr h2.symm
  · intro id' nd hm
    rcases hmem _ _ hm with h1 | ⟨_, h1⟩
    · show upd s.values b d nd.1 = nd.2
      rw [upd_ne]
      · exact h.data_eq _ _ h1
      · intro e
        exact hbn id' (e ▸ List.mem_map.2 ⟨nd, h1, rfl⟩)
    · subst h1; simp
  · rintro id' a c ⟨u, v, x, y, e'⟩
    show upd s.nxt p b a = c
    by_cases e : id' = id
    · subst e
      rw [upd_same] at e'
      -- the new node is `c`, or the pair is an old one
      rcases List.eq_nil_or_concat v with hv | ⟨v', z, hv⟩
      · subst hv
        have e2 : F id' ++ [(b, d)] = (u ++ [(a, x)]) ++ [(c, y)] := by rw [e']; simp
        obtain ⟨e3, e4⟩ := List.append_inj' e2 rfl
        rw [e3] at hp
        simp at hp
        simp at e4
        rw [hp, upd_same]; exact e4.1
      · subst hv
        have e2 : F id' ++ [(b, d)] = (u ++ (a, x) :: (c, y) :: v') ++ [z] := by rw [e']; simp
        obtain ⟨e3, e4⟩ := List.append_inj' e2 rfl
        rw [upd_ne]
        · exact h.next_eq id' a c ⟨u, v', x, y, e3⟩
        · intro hap
          -- `a` would be the last node
          subst hap
          have hnd := h.nodup id'
          revert hp
          cases hg : (F id').getLast? with
          | none =>
            intro hp
            exact hp id' c ⟨u, v', x, y, e3⟩
          | some nd =>
            intro hp
            obtain ⟨w, hw⟩ := List.getLast?_eq_some_iff.1 hg
            rw [e3] at hnd
            simp only [List.map_append, List.map_cons, List.nodup_append, List.nodup_cons] at hnd
            have h4 := hnd.2.1.1
            apply h4
            rw [e3] at hg
            have : (((c, y) :: v').getLast?) = some nd := by
              rw [List.getLast?_append] at hg
              rw [List.getLast?_cons_cons] at hg
              cases hh : ((c, y) :: v').getLast? with
              | none => simp at hh
              | some q => rw [hh] at hg; simpa using hg
            have := List.mem_of_getLast? this
            rw [hp]
            exact List.mem_map.2 ⟨nd, this, rfl⟩
    · rw [upd_ne _ _ _ _ e] at e'
      rw [upd_ne]
      · exact h.next_eq id' a c ⟨u, v, x, y, e'⟩
      · intro hap
        subst hap
        revert hp
        cases hg : (F id).getLast? with
        | none => intro hp; exact hp id' c ⟨u, v, x, y, e'⟩
        | some nd =>
          intro hp
          have h1 : a ∈ (F id).map Prod.fst :=
            List.mem_map.2 ⟨nd, List.mem_of_getLast? hg, hp.symm⟩
          have h2 : a ∈ (F id').map Prod.fst := by rw [e']; simp
          exact e (h.disj _ _ _ h2 h1)
  · intro id' a ha
    simp only [Bool.or_eq_true, Bool.and_eq_true, Bool.not_eq_true', beq_iff_eq]
    rcases hmem' _ _ ha with h1 | ⟨h1, h2⟩
    · have hab : b ≠ a := by rintro rfl; exact hbn _ h1
      by_cases e : id' = id
      · subst e
        rw [upd_same]
        -- not the last one any more
        have hno : ¬ IsLast (F id' ++ [(b, d)]) a := by
          rintro ⟨u, x, e'⟩
          obtain ⟨_, e4⟩ := List.append_inj' e' rfl
          simp at e4
          exact hab e4.1
        have hemp : (F id').isEmpty = false := by
          cases hF : F id' with
          | nil => rw [hF] at h1; simp at h1
          | cons _ _ => rfl
        rw [iff_false_right hno, not_or]
        refine ⟨?_, hab⟩
        rw [hemp]
        rintro ⟨h3, h4⟩
        obtain ⟨x, hx⟩ := isLast_iff_getLast.1 ((h.last_iff id' a h1).1 h3)
        rw [hx] at hp
        simp only at hp
        subst hp
        simp at h4
      · rw [upd_ne _ _ _ _ e, ← h.last_iff id' a h1]
        constructor
        · rintro (⟨h3, _⟩ | h3)
          · exact h3
          · exact absurd h3 hab
        · intro h3
          left
          refine ⟨h3, ?_⟩
          cases hemp : (F id).isEmpty
          · simp only [Bool.not_false, Bool.true_and, beq_eq_false_iff_ne]
            intro hpa
            subst hpa
            cases hg : (F id).getLast? with
            | none =>
              rw [List.getLast?_eq_none_iff] at hg
              rw [hg] at hemp; simp at hemp
            | some nd =>
              rw [hg] at hp
              simp only at hp
              have : p ∈ (F id).map Prod.fst :=
                List.mem_map.2 ⟨nd, List.mem_of_getLast? hg, hp.symm⟩
              exact e (h.disj _ _ _ h1 this)
          · simp
    · subst h1; subst h2
      rw [upd_same]
      constructor
      · intro _; exact ⟨F id', d, rfl⟩
      · intro _; exact Or.inr rfl
  · rintro ⟨a, h1, h2⟩
    have hs := oneHotToBin_spec hpos (fun k => !(s.valid k || b == k)) ⟨a, h1, by
      simp only at h2; rw [h2]; rfl⟩
    refine ⟨oneHotToBin_lt hpos _, ?_⟩
    have := hs.1
    simpa using this

theorem inv_reins {n : Nat} (hn : 0 < n) {F : Lists α} {s : St α} (h : Inv n F s) :
    Inv n F { s with insNext := oneHotToBin n fun k => !s.valid k } where
  lt := h.lt
  nodup := h.nodup
  disj := h.disj
  valid_iff := h.valid_iff
  data_eq := h.data_eq
  next_eq := h.next_eq
  last_iff := h.last_iff
  free := by
    rintro ⟨a, h1, h2⟩
    have hs := oneHotToBin_spec hn (fun k => !s.valid k) ⟨a, h1, by
      show (!s.valid a) = true
      have h2 : s.valid a = false := h2
      rw [h2]; rfl⟩
    refine ⟨oneHotToBin_lt hn _, ?_⟩
    have := hs.1
    simpa using this

theorem insRd_iff {n : Nat} {s : St α} {i : In α} :
    (out n s i).insRd = true ↔ ∃ a, a < n ∧ s.valid a = false := by
  simp [out]

theorem popVld_iff {n : Nat} {s : St α} {i : In α} :
    (out n s i).popVld = true ↔ ∃ a, a < n ∧ s.valid a = true := by
  simp [out]

/-- On `append = 0` the address (documented as ignored) must not be a node which has a successor. -/
def Req.JunkOk (F : Lists α) (q : Req α) : Prop :=
  q.insVld = true → q.afterPop F q.insId = [] → ∀ id c, ¬ Consec (q.afterPop F id) q.junk c

theorem b2h (a : Nat) (en : Bool) (k : Nat) : binToOneHot a en k = (en && a == k) := by
  cases en <;> rfl

theorem pops_cases (F : Lists α) (q : Req α) :
    q.pops F = false ∨ ∃ a x t, F q.popId = (a, x) :: t ∧ q.pops F = true := by
  unfold Req.pops
  cases hF : F q.popId with
  | nil => left; simp
  | cons nd t =>
    cases q.popRd
    · left; rfl
    · right; exact ⟨nd.1, nd.2, t, rfl, rfl⟩

theorem step_inv {n : Nat} (hn : 0 < n) {F : Lists α} {s : St α} (h : Inv n F s) (q : Req α)
    (hj : q.JunkOk F) :
    Inv n (q.after F (out n s (q.drive F)).insRd s.insNext) (next n s (q.drive F)) := by
  -- state after the pop only
  have hpop : Inv n (q.afterPop F)
      { s with valid := fun k => s.valid k && !binToOneHot (q.drive F).popAddr
                ((out n s (q.drive F)).popVld && (q.drive F).popRd) k
               insNext := oneHotToBin n fun k => !(s.valid k && !binToOneHot (q.drive F).popAddr
                ((out n s (q.drive F)).popVld && (q.drive F).popRd) k) } := by
    rcases pops_cases F q with hp | ⟨a, x, t, hF, hp⟩
    · have e1 : q.afterPop F = F := by unfold Req.afterPop; rw [hp]; rfl
      have e2 : (q.drive F).popRd = false := hp
      rw [e1, e2]
      simpa [binToOneHot] using inv_reins hn h
    · have e1 : q.afterPop F = upd F q.popId t := by
        unfold Req.afterPop; rw [hp, hF]; rfl
      have e2 : (q.drive F).popRd = true := hp
      have e3 : (q.drive F).popAddr = a := by simp [Req.drive, hF]
      have e4 : (out n s (q.drive F)).popVld = true := by
        have hm : (a, x) ∈ F q.popId := by rw [hF]; exact List.mem_cons_self
        exact popVld_iff.2 ⟨a, h.lt _ _ hm,
          (h.valid_iff a (h.lt _ _ hm)).2 ⟨_, List.mem_map.2 ⟨_, hm, rfl⟩⟩⟩
      rw [e1, e2, e3, e4]
      simpa [binToOneHot] using inv_reins hn (inv_pop h hF)
  cases hi : (q.insVld && (out n s (q.drive F)).insRd) with
  | false =>
    have hi' : ((q.drive F).insVld && (out n s (q.drive F)).insRd) = false := hi
    have e1 : q.after F (out n s (q.drive F)).insRd s.insNext = q.afterPop F := by
      simp only [Req.after, hi]; rfl
    have hvn : validNext n s (q.drive F) = fun k => s.valid k && !binToOneHot (q.drive F).popAddr
        ((out n s (q.drive F)).popVld && (q.drive F).popRd) k := by
      funext k; unfold validNext; rw [hi', b2h _ false, Bool.false_and, Bool.or_false]
    rw [e1]
    unfold next
    rw [hvn, hi']
    simpa only [b2h, Bool.false_and, Bool.or_false, Bool.false_eq_true,
      if_false, Bool.not_false, Bool.and_true] using hpop
  | true =>
    have hi' : ((q.drive F).insVld && (out n s (q.drive F)).insRd) = true := hi
    have hv : q.insVld = true := by revert hi; cases q.insVld <;> simp
    have hr : (out n s (q.drive F)).insRd = true := by
      revert hi; rw [hv]; simp
    have e1 : q.after F (out n s (q.drive F)).insRd s.insNext =
        upd (q.afterPop F) q.insId (q.afterPop F q.insId ++ [(s.insNext, q.data)]) := by
      simp only [Req.after, hi]; rfl
    obtain ⟨hb, hfree⟩ := h.free (insRd_iff.1 hr)
    have hins := inv_insert hpop (id := q.insId) (b := s.insNext) (p := (q.drive F).insAddr)
      (d := q.data) hb (by
        show (s.valid s.insNext && _) = false
        rw [hfree]; rfl) (by
        unfold Req.drive
        cases hg : (q.afterPop F q.insId).getLast? with
        | none =>
          simp only
          exact hj hv (List.getLast?_eq_none_iff.1 hg)
        | some nd => rfl)
    rw [e1]
    have ea : (q.drive F).insAppend = !(q.afterPop F q.insId).isEmpty := rfl
    have ed : (q.drive F).insData = q.data := rfl
    have hvn : validNext n s (q.drive F) = fun k => (s.valid k && !binToOneHot (q.drive F).popAddr
        ((out n s (q.drive F)).popVld && (q.drive F).popRd) k) || s.insNext == k := by
      funext k; unfold validNext; rw [hi', b2h _ true, Bool.true_and]
    unfold next
    rw [hvn, hi']
    simpa only [b2h, ea, ed, Bool.true_and, if_true] using hins

end Verif.FifoArray
