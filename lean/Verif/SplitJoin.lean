import Verif.Common
import Verif.HsReg
/-!
# Models of the handshaked splits and joins
`HsSplitCopy`, `HsSplitPrioritized`, `HsSplitFair`, `HsSplitSelect`, `HsJoinPrioritized`,
`HsJoinFairShare` (hwtLib/handshaked/split*.py, join*.py).

Ports with several interfaces are functions of the index; only indices `< n` (`OUTPUTS`/`INPUTS`)
exist. All data signals of an interface are one value `α`.
-/
namespace Verif.SplitJoin

universe u
variable {α : Type u}

/-- Hardware `Or(*[f(i) for i in range(n)])` -/
def anyN (n : Nat) (f : Nat → Bool) : Bool := (List.range n).any f
/-- Hardware `And(*[f(i) for i in range(n)])` -/
def allN (n : Nat) (f : Nat → Bool) : Bool := (List.range n).all f

theorem anyN_iff (n : Nat) (f : Nat → Bool) : anyN n f = true ↔ ∃ k, k < n ∧ f k = true := by
  simp [anyN, List.any_eq_true]
theorem anyN_false (n : Nat) (f : Nat → Bool) : anyN n f = false ↔ ∀ k, k < n → f k = false := by
  simp [anyN, List.any_eq_false]
theorem allN_iff (n : Nat) (f : Nat → Bool) : allN n f = true ↔ ∀ k, k < n → f k = true := by
  simp [allN, List.all_eq_true]

/-- Specification: exactly one index below `n` satisfies `T`. -/
def ExactlyOne (n : Nat) (T : Nat → Prop) : Prop := ∃ k, k < n ∧ T k ∧ ∀ j, j < n → T j → j = k

theorem exists_least (v : Nat → Bool) : ∀ n, (∃ k, k < n ∧ v k = true) →
    ∃ k, k < n ∧ v k = true ∧ ∀ j, j < k → v j = false := by
  intro n
  induction n with
  | zero => rintro ⟨k, h, _⟩; omega
  | succ n ih =>
    rintro ⟨k, hk, hv⟩
    by_cases h : ∃ k, k < n ∧ v k = true
    · obtain ⟨k, a, b, c⟩ := ih h; exact ⟨k, by omega, b, c⟩
    · refine ⟨k, hk, hv, fun j hj => ?_⟩
      cases hvj : v j
      · rfl
      · exact absurd ⟨j, by omega, hvj⟩ h

/-! ## Splits -/

/-- Inputs of a split: `dataIn.vld`, `dataIn.data`, `dataOut[k].rd`, `selectedOneHot.rd`. -/
structure SplitIn (α : Type u) where
  vld : Bool
  data : α
  rd : Nat → Bool
  selRd : Bool := true

/-- Outputs of a split: `dataIn.rd`, `dataOut[k].vld`, `dataOut[k].data`, `selectedOneHot`. -/
structure SplitOut (α : Type u) where
  rd : Bool
  vld : Nat → Bool
  data : Nat → α
  selVld : Bool := false
  selData : Nat → Bool := fun _ => false

/-- `HsSplitCopy.hwImpl` (splitCopy.py:43-59). -/
def splitCopy (n : Nat) (i : SplitIn α) : SplitOut α where
  rd := allN n i.rd
  vld k := i.vld && allN n (fun j => j == k || i.rd j)
  data _ := i.data

/-- `HsSplitPrioritized.hwImpl` (splitPrioritized.py:27-37); in the reversed list the elements
behind an output are the outputs with lower index. -/
def splitPrioritized (n : Nat) (i : SplitIn α) : SplitOut α where
  rd := anyN n i.rd
  vld k := i.vld && allN k (fun j => !i.rd j)
  data _ := i.data

/-- `HsJoinFairShare.priorityAck` (joinFair.py:41-61). -/
def priorityAck (n : Nat) (p v : Nat → Bool) (index : Nat) : Bool :=
  !(anyN n (fun i => decide (i > index) && (p i && v i)) || anyN index v) || p index

/-- `rol(priority, 1)` of an `n` bit register. -/
def rol1 (n : Nat) (p : Nat → Bool) (k : Nat) : Bool := if k = 0 then p (n - 1) else p (k - 1)

/-- Reset value 1 of the priority register (joinFair.py:74, splitFair.py:55). -/
def prioInit : Nat → Bool := fun k => k == 0

/-- `HsSplitFair` outputs (splitFair.py:46-87); `exp` = `EXPORT_SELECTED`. The state is the
priority register. -/
def splitFairOut (n : Nat) (exp : Bool) (p : Nat → Bool) (i : SplitIn α) : SplitOut α where
  rd := if exp then anyN n i.rd && i.selRd else anyN n i.rd
  vld k := if exp then priorityAck n p i.rd k && i.vld && i.selRd
           else priorityAck n p i.rd k && i.vld
  data _ := i.data
  selVld := anyN n i.rd && i.vld
  selData k := priorityAck n p i.rd k && i.vld

/-- `HsSplitFair`; the priority register rotates every clock (splitFair.py:55-56). -/
def splitFair (n : Nat) (exp : Bool) : Machine (Nat → Bool) (SplitIn α) (SplitOut α) where
  out := splitFairOut n exp
  next p _ := rol1 n p

/-! ## Joins -/

/-- `dataIn[k].vld`, `dataIn[k].data`, `dataOut.rd`. -/
structure JoinIn (α : Type u) where
  vld : Nat → Bool
  data : Nat → α
  rd : Bool

/-- `dataIn[k].rd`, `dataOut.vld`, `dataOut.data` (`none` = undefined), `selectedOneHot`. -/
structure JoinOut (α : Type u) where
  rd : Nat → Bool
  vld : Bool
  data : Option α
  selVld : Bool := false
  selData : Nat → Bool := fun _ => false

/-- `SwitchLogic(dataCases, dataDefault)`: the data of the first index whose condition holds. -/
def firstCase (n : Nat) (c : Nat → Bool) (d : Nat → α) : Option α :=
  ((List.range n).find? c).map d

/-- `HsJoinPrioritized.hwImpl` (joinPrioritized.py:51-71). -/
def joinPrioritized (n : Nat) (i : JoinIn α) : JoinOut α where
  rd k := i.rd && allN k (fun j => !i.vld j)
  vld := anyN n i.vld
  data := firstCase n i.vld i.data

/-- `HsJoinFairShare.isSelectedLogic` (joinFair.py:63-89): selection flags. -/
def isSelected (n : Nat) (p v : Nat → Bool) (k : Nat) : Bool :=
  if n = 1 then true else priorityAck n p v k

/-- `HsJoinFairShare` outputs (joinFair.py:63-125). -/
def joinFairOut (n : Nat) (p : Nat → Bool) (i : JoinIn α) : JoinOut α where
  rd k := isSelected n p i.vld k && i.rd
  vld := anyN n i.vld
  data := firstCase n (fun k => i.vld k && isSelected n p i.vld k) i.data
  selVld := anyN n i.vld && i.rd
  selData k := if n = 1 then true else isSelected n p i.vld k && i.vld k

/-- `HsJoinFairShare` with the rotating priority register (joinFair.py:74-75). -/
def joinFair (n : Nat) : Machine (Nat → Bool) (JoinIn α) (JoinOut α) where
  out := joinFairOut n
  next p _ := rol1 n p

/-! ## Lemmas -/

/-- `p` is the one-hot code of `q`. -/
def OneHot (n : Nat) (p : Nat → Bool) (q : Nat) : Prop := ∀ k, k < n → p k = (k == q)

theorem rol_oneHot {n q : Nat} {p : Nat → Bool} (hq : q < n) (h : OneHot n p q) :
    OneHot n (rol1 n p) ((q + 1) % n) := by
  intro k hk
  unfold rol1
  by_cases e : q + 1 = n
  · have : (q + 1) % n = 0 := by rw [e, Nat.mod_self]
    rw [this]
    split
    · rw [h _ (by omega)]; subst_vars; simp
    · rw [h _ (by omega)]
      have h1 : (k - 1 == q) = false := by simp; omega
      have h2 : (k == 0) = false := by simpa
      rw [h1, h2]
  · rw [Nat.mod_eq_of_lt (by omega)]
    split
    · rw [h _ (by omega)]
      have h1 : (n - 1 == q) = false := by simp; omega
      have h2 : (k == q + 1) = false := by simp; omega
      rw [h1, h2]
    · rw [h _ (by omega)]
      by_cases e2 : k = q + 1
      · subst e2; simp
      · have h1 : (k - 1 == q) = false := by simp; omega
        have h2 : (k == q + 1) = false := by simp; omega
        rw [h1, h2]

theorem init_oneHot (n : Nat) : OneHot n prioInit 0 := fun _ _ => rfl

theorem prio_at {I : Type u} {O : Type u} (m : Machine (Nat → Bool) I O) (n : Nat) (hn : 0 < n)
    (hm : ∀ p i, m.next p i = rol1 n p) (is : List I) :
    OneHot n (m.final prioInit is) (is.length % n) := by
  have : ∀ (is : List I) (p : Nat → Bool) (q : Nat), q < n → OneHot n p q →
      OneHot n (m.final p is) ((q + is.length) % n) := by
    intro is
    induction is with
    | nil => intro p q hq h; rw [List.length_nil, Nat.add_zero, Nat.mod_eq_of_lt hq]; exact h
    | cons i is ih =>
      intro p q hq h
      have := ih (m.next p i) ((q + 1) % n) (Nat.mod_lt _ hn) (by rw [hm]; exact rol_oneHot hq h)
      rw [Machine.final_cons]
      have e : ((q + 1) % n + is.length) % n = (q + (i :: is).length) % n := by
        rw [Nat.mod_add_mod, List.length_cons]; congr 1; omega
      rw [← e]; exact this
  simpa using this is prioInit 0 hn (init_oneHot n)

theorem prio_stateAt {I : Type u} {O : Type u} (m : Machine (Nat → Bool) I O) (n : Nat) (hn : 0 < n)
    (hm : ∀ p i, m.next p i = rol1 n p) (stim : Nat → I) (t : Nat) :
    OneHot n (m.stateAt prioInit stim t) (t % n) := by
  induction t with
  | zero => simpa [Machine.stateAt] using init_oneHot n
  | succ t ih =>
    have := rol_oneHot (Nat.mod_lt _ hn) ih
    rw [Nat.mod_add_mod] at this
    simp only [Machine.stateAt, hm]
    exact this

/-- The index chosen by the fair selection: the prioritised one if valid, else the lowest valid. -/
theorem ack_valid {n q : Nat} {p v : Nat → Bool} (hq : q < n) (hp : OneHot n p q) (hv : v q = true)
    (i : Nat) (hi : i < n) : (priorityAck n p v i = true ∧ v i = true) ↔ i = q := by
  constructor
  · rintro ⟨ha, hvi⟩
    rcases Decidable.em (i = q) with h | h
    · exact h
    · exfalso
      have hpi : p i = false := by rw [hp i hi]; simpa using h
      unfold priorityAck at ha
      rw [hpi, Bool.or_false] at ha
      rcases Nat.lt_or_gt_of_ne h with hlt | hgt
      · have : anyN n (fun j => decide (j > i) && (p j && v j)) = true := by
          rw [anyN_iff]; exact ⟨q, hq, by simp [hlt, hp q hq, hv]⟩
        simp [this] at ha
      · have : anyN i v = true := by rw [anyN_iff]; exact ⟨q, hgt, hv⟩
        simp [this] at ha
  · rintro rfl
    refine ⟨?_, hv⟩
    unfold priorityAck
    rw [hp i hi]; simp

theorem ack_invalid {n q : Nat} {p v : Nat → Bool} (hp : OneHot n p q) (hv : v q = false)
    (i : Nat) (hi : i < n) :
    (priorityAck n p v i = true ∧ v i = true) ↔ v i = true ∧ ∀ j, j < i → v j = false := by
  have h1 : anyN n (fun j => decide (j > i) && (p j && v j)) = false := by
    rw [anyN_false]; intro k hk
    rw [hp k hk]
    by_cases e : k = q
    · subst e; simp [hv]
    · have : (k == q) = false := by simpa using e
      simp [this]
  constructor
  · rintro ⟨ha, hvi⟩
    refine ⟨hvi, ?_⟩
    unfold priorityAck at ha
    have hpi : p i = false := by
      rw [hp i hi]
      have : i ≠ q := by rintro rfl; simp [hv] at hvi
      simpa using this
    rw [h1, hpi] at ha
    have : anyN i v = false := by simpa using ha
    exact (anyN_false i v).1 this
  · rintro ⟨hvi, hl⟩
    refine ⟨?_, hvi⟩
    unfold priorityAck
    have := (anyN_false i v).2 hl
    simp [h1, this]

/-- Exactly one index is acknowledged and valid, if any is valid. -/
theorem ack_unique {n q : Nat} {p v : Nat → Bool} (hq : q < n) (hp : OneHot n p q)
    (hv : ∃ k, k < n ∧ v k = true) :
    ExactlyOne n (fun i => priorityAck n p v i = true ∧ v i = true) := by
  cases h : v q
  · obtain ⟨k, hk, hvk, hl⟩ := exists_least v n hv
    refine ⟨k, hk, (ack_invalid hp h k hk).2 ⟨hvk, hl⟩, fun j hj ht => ?_⟩
    have ht' := (ack_invalid hp h j hj).1 ht
    rcases Nat.lt_trichotomy j k with a | a | a
    · have := hl j a; simp [ht'.1] at this
    · exact a
    · have := ht'.2 k a; simp [hvk] at this
  · exact ⟨q, hq, (ack_valid hq hp h q hq).2 rfl, fun j hj ht => (ack_valid hq hp h j hj).1 ht⟩

theorem find_range {n k : Nat} {c : Nat → Bool} (hk : k < n) (hc : c k = true)
    (hl : ∀ j, j < k → c j = false) : (List.range n).find? c = some k := by
  rw [List.find?_range_eq_some]
  exact ⟨hc, List.mem_range.2 hk, fun j hj => by simp [hl j hj]⟩

/-! ## `HsSplitSelect` (splitSelect.py) -/

/-- `selectOneHot.vld`, the index of the bit set in `selectOneHot.data` (`sel ≥ n`: no bit set; so
the model covers one-hot and zero words), `dataIn`, `dataOut[k].rd`, and the value `x` which an
undefined signal (`rd(None)`, splitSelect.py:79-82) takes. -/
structure SelIn (α : Type u) where
  selVld : Bool
  sel : Nat
  vld : Bool
  data : α
  rd : Nat → Bool
  x : Bool

/-- `selectOneHot.rd`, `dataIn.rd`, `dataOut[k].vld`, `dataOut[k].data`. -/
structure SelOut (α : Type u) where
  selRd : Bool
  rd : Bool
  vld : Nat → Bool
  data : Nat → α

/-- State: the one stage `HandshakedReg` for the selection (splitSelect.py:53-58). -/
abbrev SelSt := HsReg.Stage Nat

/-- `sel.rd` and `rd(In)`: the `SwitchLogic` of splitSelect.py:71-83. -/
def selCases (n : Nat) (s : SelSt) (i : SelIn α) : Bool × Bool :=
  if !s.occ then (false, false)
  else match (List.range n).find? (fun k => k == s.reg) with
    | some k => (i.rd k && i.vld && s.occ, i.rd k)
    | none => (i.x, i.x)

/-- `HsSplitSelect` with `OUTPUTS = n`. -/
def splitSelect (n : Nat) : Machine SelSt (SelIn α) (SelOut α) where
  out s i :=
    { selRd := HsReg.stageRd s (selCases n s i).1
      rd := (selCases n s i).2
      vld := fun k => s.occ && i.vld && (k == s.reg)
      data := fun _ => i.data }
  next s i := HsReg.stageNext s i.selVld i.sel (selCases n s i).1

theorem find_range_eq (n k : Nat) (h : k < n) : (List.range n).find? (fun j => j == k) = some k :=
  find_range h (by simp) (fun j hj => by simp; omega)

theorem filterMap_range_none {β : Type u} (f : Nat → β) (c : Nat → Bool) (n : Nat)
    (h : ∀ j, j < n → c j = false) :
    (List.range n).filterMap (fun j => if c j then some (f j) else none) = [] := by
  rw [List.filterMap_eq_nil_iff]
  intro j hj
  rw [h j (List.mem_range.1 hj)]; rfl

theorem filterMap_range_one {β : Type u} (f : Nat → β) (c : Nat → Bool) (n k : Nat)
    (hk : k < n) (hc : c k = true) (h : ∀ j, j < n → j ≠ k → c j = false) :
    (List.range n).filterMap (fun j => if c j then some (f j) else none) = [f k] := by
  induction n with
  | zero => omega
  | succ n ih =>
    rw [List.range_succ, List.filterMap_append]
    by_cases e : k = n
    · subst e
      rw [filterMap_range_none f c k (fun j hj => h j (by omega) (by omega))]
      simp [hc]
    · rw [ih (by omega) (fun j hj hne => h j (by omega) hne)]
      simp [h n (by omega) (by omega)]

end Verif.SplitJoin
