import Verif.SplitJoinProps
import Verif.OneHotProps
import Mathlib.Data.List.Induction
import Mathlib.Data.List.Basic
/-!
# Model of `RStrictOrderInterconnect` and `WStrictOrderInterconnect` (hwtLib/amba/datapump/interconnect)

`n` drivers share one datapump. The request is the type `α`, a word of data without `last` the type `β`, the acknowledge `γ`.
A `HandshakedFifo` (C05-C07) is a list; it may show its head later (`fv`, `av`), it may refuse a write at any time (`fRd`,
`aRd`), its output data are arbitrary while it is not valid (`fj`, `aj`).
-/
namespace Verif.StrictOrder
open Verif.SplitJoin (anyN isSelected prioInit rol1 OneHot joinFairOut JoinIn JoinOut)

universe u v

structure Beat (β : Type v) where
  data : β
  last : Bool
deriving DecidableEq

/-! ## Requests: `AxiInterconnectBase.reqHandler` (interconnect/base.py:68-80) -/

/-- `drivers[i].req`, `dpReq.rd`, `orderFifoIn.rd` -/
structure QIn (α : Type u) where
  vld : Nat → Bool
  req : Nat → α
  dpRd : Bool
  fRd : Bool

section
variable {α : Type u}

/-- `HsJoinFairShare`, its output is ready if both slaves of the `StreamNode` are (base.py:73-78) -/
def join (n : Nat) (p : Nat → Bool) (x : QIn α) : JoinOut α := joinFairOut n p ⟨x.vld, x.req, x.dpRd && x.fRd⟩

structure QOut (α : Type u) where
  rd : Nat → Bool
  dpVld : Bool
  dpReq : Option α

def qOut (n : Nat) (p : Nat → Bool) (x : QIn α) : QOut α :=
  ⟨(join n p x).rd, (join n p x).vld && x.fRd, (join n p x).data⟩

/-- write to the order fifo (base.py:77-80) -/
def push (n : Nat) (p : Nat → Bool) (x : QIn α) : List Nat :=
  given ((join n p x).vld && x.dpRd && x.fRd) (OneHot.oneHotToBin n (join n p x).selData)

end

/-! ## Read: rStricOrder.py:50-79 -/

structure RIn (α : Type u) (β : Type v) where
  q : QIn α
  fv : Bool
  fj : Nat
  vld : Bool
  beat : Beat β
  rd : Nat → Bool

structure ROut (α : Type u) (β : Type v) where
  q : QOut α
  rd : Bool
  vld : Nat → Bool
  beat : Nat → Beat β

/-- priority register of the join, order fifo -/
structure RSt where
  p : Nat → Bool
  f : List Nat

section
variable {α : Type u} {β : Type v}

def rfVld (s : RSt) (x : RIn α β) : Bool := x.fv && !s.f.isEmpty
def rfData (s : RSt) (x : RIn α β) : Nat := if rfVld s x then s.f.headD 0 else x.fj
/-- rStricOrder.py:61-63 -/
def selectedDriverReady (n : Nat) (s : RSt) (x : RIn α β) : Bool :=
  (List.range n).any fun i => rfData s x == i && x.rd i

def rOut (n : Nat) (s : RSt) (x : RIn α β) : ROut α β where
  q := qOut n s.p x.q
  rd := rfVld s x && selectedDriverReady n s x
  vld i := x.vld && rfVld s x && rfData s x == i
  beat _ := x.beat

/-- `fifoOut.rd` (rStricOrder.py:75) -/
def rPop (n : Nat) (s : RSt) (x : RIn α β) : Bool := x.vld && x.beat.last && selectedDriverReady n s x

def rNext (n : Nat) (s : RSt) (x : RIn α β) : RSt where
  p := rol1 n s.p
  f := (if rfVld s x && rPop n s x then s.f.tail else s.f) ++ push n s.p x.q

def readIc (n : Nat) : Machine RSt (RIn α β) (ROut α β) := ⟨rOut n, rNext n⟩
def rInit : RSt := ⟨prioInit, []⟩

end

/-! ## Write: wStrictOrder.py:49-120 -/

structure WIn (α : Type u) (β γ : Type v) where
  q : QIn α
  fv : Bool
  fj : Nat
  aRd : Bool
  av : Bool
  aj : Nat
  wVld : Nat → Bool
  wBeat : Nat → Beat β
  wRd : Bool
  ackVld : Bool
  ack : γ
  ackRd : Nat → Bool

structure WOut (α : Type u) (β γ : Type v) where
  q : QOut α
  wRd : Nat → Bool
  wVld : Bool
  wBeat : Option (Beat β)
  ackRd : Bool
  ackVld : Nat → Bool
  ack : Nat → γ

structure WSt where
  p : Nat → Bool
  f : List Nat
  a : List Nat

section
variable {α : Type u} {β γ : Type v}

def wfVld (s : WSt) (x : WIn α β γ) : Bool := x.fv && !s.f.isEmpty
def wfData (s : WSt) (x : WIn α β γ) : Nat := if wfVld s x then s.f.headD 0 else x.fj
def waVld (s : WSt) (x : WIn α β γ) : Bool := x.av && !s.a.isEmpty
def waData (s : WSt) (x : WIn α β γ) : Nat := if waVld s x then s.a.headD 0 else x.aj
/-- wStrictOrder.py:56-59 -/
def selVld (n : Nat) (s : WSt) (x : WIn α β γ) : Bool := (List.range n).any fun i => wfData s x == i && x.wVld i
/-- wStrictOrder.py:60-63 -/
def selLast (n : Nat) (s : WSt) (x : WIn α β γ) : Bool := (List.range n).any fun i => wfData s x == i && (x.wBeat i).last
/-- wStrictOrder.py:105-108 -/
def selAckRd (n : Nat) (s : WSt) (x : WIn α β γ) : Bool := (List.range n).any fun i => waData s x == i && x.ackRd i

def wOut (n : Nat) (s : WSt) (x : WIn α β γ) : WOut α β γ where
  q := qOut n s.p x.q
  wRd i := wfData s x == i && x.wRd && wfVld s x && x.aRd
  wVld := selVld n s x && wfVld s x && x.aRd
  wBeat := if wfData s x < n then some (x.wBeat (wfData s x)) else none
  ackRd := waVld s x && selAckRd n s x
  ackVld i := x.ackVld && waVld s x && waData s x == i
  ack _ := x.ack

def wPop (n : Nat) (s : WSt) (x : WIn α β γ) : Bool := selVld n s x && selLast n s x && x.wRd && x.aRd
/-- `fAckIn.vld` (wStrictOrder.py:83) -/
def aPush (n : Nat) (s : WSt) (x : WIn α β γ) : Bool := selVld n s x && selLast n s x && x.wRd && wfVld s x
def aPop (n : Nat) (s : WSt) (x : WIn α β γ) : Bool := x.ackVld && selAckRd n s x

def wNext (n : Nat) (s : WSt) (x : WIn α β γ) : WSt where
  p := rol1 n s.p
  f := (if wfVld s x && wPop n s x then s.f.tail else s.f) ++ push n s.p x.q
  a := (if waVld s x && aPop n s x then s.a.tail else s.a) ++ given (aPush n s x && x.aRd) (wfData s x)

def writeIc (n : Nat) : Machine WSt (WIn α β γ) (WOut α β γ) := ⟨wOut n, wNext n⟩
def wInit : WSt := ⟨prioInit, [], []⟩

end

/-! ## Observations and specification -/

section
variable {α : Type u} {β γ : Type v}

/-- Requests handed over by the drivers in one cycle, with the number of the driver. -/
def handed (n : Nat) (x : QIn α) (o : QOut α) : List (Nat × α) :=
  (List.range n).filterMap fun i => if x.vld i && o.rd i then some (i, x.req i) else none
/-- Request taken by the datapump in one cycle. -/
def sent (x : QIn α) (o : QOut α) : List (Option α) := given (o.dpVld && x.dpRd) o.dpReq

/-- The words of the answers in the order of the requests, `plan k` is the answer to request `k`, `owners` are the drivers
which have sent the requests. -/
def tagged (plan : Nat → List (Beat β)) (owners : List Nat) : List (Nat × Beat β) :=
  owners.zipIdx.flatMap fun e => (plan e.2).map fun b => (e.1, b)

/-- Only the last word has `last`. -/
def IsBurst (l : List (Beat β)) : Prop := ∃ l' b, l = l' ++ [b] ∧ b.last = true ∧ ∀ c ∈ l', c.last = false

/-- Words of driver `i`. -/
def ofDriver (i : Nat) (l : List (Nat × β)) : List β := (l.filter fun e => e.1 == i).map Prod.snd

def rHanded (n : Nat) (tr : List (RIn α β × ROut α β)) : List (Nat × α) := tr.flatMap fun e => handed n e.1.q e.2.q
def rSent (tr : List (RIn α β × ROut α β)) : List (Option α) := tr.flatMap fun e => sent e.1.q e.2.q
/-- Words taken from the datapump. -/
def rTaken (tr : List (RIn α β × ROut α β)) : List (Beat β) := tr.flatMap fun e => given (e.1.vld && e.2.rd) e.1.beat
/-- Words given to the drivers. -/
def rGiven (n : Nat) (tr : List (RIn α β × ROut α β)) : List (Nat × Beat β) :=
  tr.flatMap fun e => (List.range n).filterMap fun i => if e.2.vld i && e.1.rd i then some (i, e.2.beat i) else none

def wHanded (n : Nat) (tr : List (WIn α β γ × WOut α β γ)) : List (Nat × α) := tr.flatMap fun e => handed n e.1.q e.2.q
def wSent (tr : List (WIn α β γ × WOut α β γ)) : List (Option α) := tr.flatMap fun e => sent e.1.q e.2.q
/-- Words taken from driver `i`. -/
def wTaken (tr : List (WIn α β γ × WOut α β γ)) (i : Nat) : List (Beat β) :=
  tr.flatMap fun e => given (e.1.wVld i && e.2.wRd i) (e.1.wBeat i)
/-- Words given to the datapump. -/
def wGiven (tr : List (WIn α β γ × WOut α β γ)) : List (Option (Beat β)) :=
  tr.flatMap fun e => given (e.2.wVld && e.1.wRd) e.2.wBeat
/-- Acknowledges taken from the datapump. -/
def ackTaken (tr : List (WIn α β γ × WOut α β γ)) : List γ := tr.flatMap fun e => given (e.1.ackVld && e.2.ackRd) e.1.ack
/-- Acknowledges given to the drivers. -/
def ackGiven (n : Nat) (tr : List (WIn α β γ × WOut α β γ)) : List (Nat × γ) :=
  tr.flatMap fun e => (List.range n).filterMap fun i => if e.2.ackVld i && e.1.ackRd i then some (i, e.2.ack i) else none

end

/-! ## Proof internals -/

section
variable {α : Type u} {β γ : Type v}

def PrioOk (n : Nat) (p : Nat → Bool) : Prop := ∃ q, q < n ∧ OneHot n p q

theorem prioOk_next {n : Nat} {p : Nat → Bool} (h : PrioOk n p) : PrioOk n (rol1 n p) := by
  obtain ⟨q, hq, ho⟩ := h
  exact ⟨_, Nat.mod_lt _ (by omega), SplitJoin.rol_oneHot hq ho⟩

theorem filterMap_range_single {n k : Nat} {c : Nat → Bool} {f : Nat → α} (hk : k < n) (h : c k = true)
    (hu : ∀ j, j < n → c j = true → j = k) :
    (List.range n).filterMap (fun i => if c i then some (f i) else none) = [f k] := by
  induction n with
  | zero => omega
  | succ n ih =>
    rw [List.range_succ, List.filterMap_append]
    by_cases hn : k = n
    · subst hn
      have : (List.range k).filterMap (fun i => if c i then some (f i) else none) = [] := by
        rw [List.filterMap_eq_nil_iff]
        intro a ha
        have ha := List.mem_range.1 ha
        rw [if_neg]
        intro hc
        have := hu a (by omega) hc
        omega
      simp [this, h]
    · rw [ih (by omega) (fun j hj hc => hu j (by omega) hc)]
      have : c n = false := by
        cases hc : c n
        · rfl
        · exact absurd (hu n (by omega) hc).symm hn
      simp [this]

theorem filterMap_range_none {n : Nat} {c : Nat → Bool} {f : Nat → α} (h : ∀ j, j < n → c j = false) :
    (List.range n).filterMap (fun i => if c i then some (f i) else none) = [] := by
  rw [List.filterMap_eq_nil_iff]
  intro a ha
  simp [h a (List.mem_range.1 ha)]

/-- In each cycle either nothing or one request is transferred, on both sides and to the order fifo. -/
theorem req_step {n : Nat} {p : Nat → Bool} (h2 : 2 ≤ n) (hp : PrioOk n p) (x : QIn α) :
    (handed n x (qOut n p x) = [] ∧ sent x (qOut n p x) = [] ∧ push n p x = []) ∨
    ∃ i, i < n ∧ handed n x (qOut n p x) = [(i, x.req i)] ∧ sent x (qOut n p x) = [some (x.req i)] ∧ push n p x = [i] := by
  obtain ⟨q, hq, ho⟩ := hp
  by_cases hv : ∃ k, k < n ∧ x.vld k = true
  · obtain ⟨k, hk, ⟨hs, hkv⟩, hu⟩ := SplitJoin.isSelected_unique hq ho hv
    have hany : anyN n x.vld = true := List.any_eq_true.2 ⟨k, by simpa using hk, hkv⟩
    cases hr : x.dpRd && x.fRd
    · left
      refine ⟨?_, ?_, ?_⟩
      · apply filterMap_range_none
        intro j _
        simp [qOut, join, joinFairOut, hr]
      · have : (x.fRd && x.dpRd) = false := by rw [Bool.and_comm]; exact hr
        simp [sent, qOut, join, joinFairOut, hany, this]
      · simp [push, join, joinFairOut, hany, hr]
    · right
      have hr' := hr
      rw [Bool.and_eq_true] at hr'
      refine ⟨k, hk, ?_, ?_, ?_⟩
      · apply filterMap_range_single (f := fun i => (i, x.req i)) hk
        · simp [qOut, join, joinFairOut, hr, hs, hkv]
        · intro j hj hc
          simp [qOut, join, joinFairOut, hr] at hc
          exact hu j hj ⟨hc.2, hc.1⟩
      · have hf : (List.range n).find? (fun k => x.vld k && isSelected n p x.vld k) = some k := by
          match hf : (List.range n).find? (fun k => x.vld k && isSelected n p x.vld k) with
          | none =>
            have := List.find?_eq_none.1 hf k (by simpa using hk)
            simp [hkv, hs] at this
          | some j =>
            have h1 := List.find?_some hf
            have h2 := List.mem_range.1 (List.mem_of_find?_eq_some hf)
            simp at h1
            rw [hu j h2 ⟨h1.2, h1.1⟩]
        simp [sent, qOut, join, joinFairOut, hany, hr', SplitJoin.firstCase, hf]
      · have es : (joinFairOut n p ⟨x.vld, x.req, x.dpRd && x.fRd⟩).selData = fun k => isSelected n p x.vld k && x.vld k := by
          funext k; simp [joinFairOut, show n ≠ 1 by omega]
        have : OneHot.oneHotToBin n (joinFairOut n p ⟨x.vld, x.req, x.dpRd && x.fRd⟩).selData = k := by
          rw [es]
          have hl := OneHot.oneHotToBin_lowest n (by omega) (fun k => isSelected n p x.vld k && x.vld k)
          have h3 := (hl.1 ⟨k, hk, by simp [hkv, hs]⟩).1
          rw [Bool.and_eq_true] at h3
          exact hu _ hl.2.1 h3
        simp [push, join, this]
        simp [joinFairOut, hany, hr']
  · left
    have hv' : ∀ k, k < n → x.vld k = false := by
      intro k hk
      cases h : x.vld k
      · rfl
      · exact absurd ⟨k, hk, h⟩ hv
    have hany : anyN n x.vld = false := by
      unfold anyN
      rw [List.any_eq_false]
      intro k hk
      simp [hv' k (List.mem_range.1 hk)]
    refine ⟨?_, ?_, ?_⟩
    · apply filterMap_range_none
      intro j hj
      simp [hv' j hj]
    · simp [sent, qOut, join, joinFairOut, hany]
    · simp [push, join, joinFairOut, hany]

theorem tagged_snoc (plan : Nat → List (Beat β)) (o : List Nat) (i : Nat) :
    tagged plan (o ++ [i]) = tagged plan o ++ (plan o.length).map fun b => (i, b) := by
  simp [tagged, List.zipIdx_append]

theorem tagged_prefix (plan : Nat → List (Beat β)) {a b : List Nat} (h : a <+: b) : tagged plan a <+: tagged plan b := by
  obtain ⟨c, rfl⟩ := h
  rw [tagged, tagged, List.zipIdx_append, List.flatMap_append]
  exact List.prefix_append _ _

/-- Answers not yet finished: driver and the rest of the words. -/
def restOf (O : List (Nat × List (Beat β))) : List (Nat × Beat β) := O.flatMap fun e => e.2.map fun b => (e.1, b)

/-- after a word of the first one -/
def adv : List (Nat × List (Beat β)) → List (Nat × List (Beat β))
  | (_, [_]) :: O => O
  | (i, _ :: l) :: O => (i, l) :: O
  | O => O

theorem isBurst_cons {b : Beat β} {l : List (Beat β)} (h : IsBurst (b :: l)) :
    (l = [] ∧ b.last = true) ∨ (b.last = false ∧ IsBurst l) := by
  obtain ⟨l', c, e, h1, h2⟩ := h
  cases l' with
  | nil => simp at e; left; rw [e.1]; exact ⟨e.2, h1⟩
  | cons d l' =>
    simp at e
    right
    rw [e.1]
    exact ⟨h2 d (by simp), l', c, e.2, h1, fun c hc => h2 c (by simp [hc])⟩

theorem isBurst_ne {l : List (Beat β)} (h : IsBurst l) : l ≠ [] := by
  obtain ⟨l', c, e, _⟩ := h
  rw [e]; simp

/-- One word of the first answer of the list: it is the head of the rest, the fifo entry is dropped with `last`. -/
theorem adv_step {i : Nat} {b : Beat β} {l : List (Beat β)} {O : List (Nat × List (Beat β))}
    (h : ∀ e ∈ (i, b :: l) :: O, IsBurst e.2) :
    restOf ((i, b :: l) :: O) = (i, b) :: restOf (adv ((i, b :: l) :: O)) ∧
    (adv ((i, b :: l) :: O)).map Prod.fst = (if b.last then (((i, b :: l) :: O).map Prod.fst).tail else ((i, b :: l) :: O).map Prod.fst) ∧
    ∀ e ∈ adv ((i, b :: l) :: O), IsBurst e.2 := by
  rcases isBurst_cons (h (i, b :: l) (by simp)) with ⟨rfl, h1⟩ | ⟨h1, h2⟩
  · simp only [adv, h1]
    refine ⟨by simp [restOf], by simp, fun e he => h e (by simp [he])⟩
  · cases l with
    | nil => exact absurd rfl (isBurst_ne h2)
    | cons c l =>
      simp only [adv, h1]
      refine ⟨by simp [restOf], by simp, fun e he => ?_⟩
      rcases List.mem_cons.1 he with rfl | he
      · exact h2
      · exact h e (by simp [he])

theorem head_eq {γ : Type u} {a : List γ} {b c : γ} {l E : List γ} (h1 : a ++ [b] <+: E) (h2 : a ++ c :: l <+: E) : b = c := by
  obtain ⟨x, rfl⟩ := h1
  obtain ⟨y, hy⟩ := h2
  rw [List.append_assoc, List.append_assoc] at hy
  have := List.append_cancel_left hy
  simp at this
  exact this.1.symm

end

end Verif.StrictOrder
