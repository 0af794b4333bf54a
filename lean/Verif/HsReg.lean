import Verif.Common
/-!
# Model of `HandshakedReg` (hwtLib/handshaked/reg.py)

All data signals of the interface are one value of type `α` (the loops over `inData`, reg.py:69-76,
109-115, 139-160, treat every signal in the same way).
-/
namespace Verif.HsReg

universe u
variable {α : Type u}

/-- `dataIn.vld`, `dataIn.data`, `dataOut.rd`. -/
structure In (α : Type u) where
  vld : Bool
  data : α
  rd : Bool

/-- `dataIn.rd`, `dataOut.vld`, `dataOut.data`. -/
structure Out (β : Type u) where
  rd : Bool
  vld : Bool
  data : β

/-- Words transferred on `dataIn`. -/
def accepted {β : Type u} (tr : List (In α × Out β)) : List α :=
  tr.filterMap fun e => if e.1.vld && e.2.rd then some e.1.data else none

/-- Words transferred on `dataOut`. -/
def emitted {β : Type u} (tr : List (In α × Out β)) : List β :=
  tr.filterMap fun e => if e.2.vld && e.1.rd then some e.2.data else none

/-! ## `_impl_latency`: one stage (reg.py:50-90) -/

/-- `isOccupied` (reg.py:64) and the data register (reg.py:70). -/
structure Stage (α : Type u) where
  occ : Bool
  reg : α

/-- `inRd`, reg.py:78-79,84-85. -/
def stageRd (s : Stage α) (outRd : Bool) : Bool := if s.occ then outRd else true

/-- `regs_we`, reg.py:80,86. -/
def stageWe (s : Stage α) (inVld outRd : Bool) : Bool := if s.occ then inVld && outRd else inVld

/-- Clock edge of one stage, reg.py:73-88. -/
def stageNext (s : Stage α) (inVld : Bool) (inData : α) (outRd : Bool) : Stage α where
  occ := if s.occ then (if outRd && !inVld then false else s.occ) else inVld
  reg := if stageWe s inVld outRd then inData else s.reg

/-! ## `DELAY = 0`: chain of `LATENCY` stages (reg.py:217-235); head of the list = stage 0 (input) -/

/-- ready of the chain; the `for` loop of reg.py:220-235 connects `out_rd` of stage i to `in_rd`
of stage i+1. The empty list is the plain wire at the end of the chain. -/
def chainRd : List (Stage α) → Bool → Bool
  | [], r => r
  | s :: ss, r => stageRd s (chainRd ss r)

/-- valid of the chain output -/
def chainVld : List (Stage α) → Bool → Bool
  | [], v => v
  | s :: ss, _ => chainVld ss s.occ

/-- data of the chain output -/
def chainData : List (Stage α) → α → α
  | [], d => d
  | s :: ss, _ => chainData ss s.reg

/-- clock edge of the chain -/
def chainNext : List (Stage α) → Bool → α → Bool → List (Stage α)
  | [], _, _, _ => []
  | s :: ss, v, d, r => stageNext s v d (chainRd ss r) :: chainNext ss s.occ s.reg r

/-- `HandshakedReg` with integer `LATENCY = n ≥ 1` and `DELAY = 0` (n = length of the state list). -/
def chain : Machine (List (Stage α)) (In α) (Out α) where
  out ss i := ⟨chainRd ss i.rd, chainVld ss i.vld, chainData ss i.data⟩
  next ss i := chainNext ss i.vld i.data i.rd

/-- Reset value of stage `k` in the loop of reg.py:220-235. `INIT_DATA[k]` if it exists, otherwise
`no_init`; note that `hasInit` (reg.py:197, 228) stays `True` once it was set. `junk k` is the
power-up content of a data register without reset value. -/
def initStage (l : List α) (junk : Nat → α) (k : Nat) : Stage α where
  occ := !l.isEmpty
  reg := (l[k]?).getD (junk k)

/-- Reset state of `LATENCY = n`; reg.py:218 asserts `len(INIT_DATA) ≤ LATENCY`. -/
def chainInit (n : Nat) (l : List α) (junk : Nat → α) : List (Stage α) :=
  (List.range n).map (initStage l junk)

/-- Words in the chain, oldest (last stage) first. -/
def chainQ : List (Stage α) → List α
  | [] => []
  | s :: ss => chainQ ss ++ given s.occ s.reg

theorem chain_step (ss : List (Stage α)) : ∀ (v : Bool) (d : α) (r : Bool),
    chainQ ss ++ given (v && chainRd ss r) d =
      given (chainVld ss v && r) (chainData ss d) ++ chainQ (chainNext ss v d r) := by
  induction ss with
  | nil => intro v d r; simp [chainQ, chainRd, chainVld, chainData, chainNext]
  | cons s ss ih =>
    intro v d r
    have h := ih s.occ s.reg r
    simp only [chainQ, chainRd, chainVld, chainData, chainNext]
    rw [← List.append_assoc, ← h]
    cases ho : s.occ <;> cases v <;> cases hr : chainRd ss r <;>
      simp [stageRd, stageNext, stageWe, ho]

theorem chain_length (ss : List (Stage α)) : ∀ (v : Bool) (d : α) (r : Bool),
    (chainNext ss v d r).length = ss.length := by
  induction ss with
  | nil => intros; rfl
  | cons s ss ih => intros; simp [chainNext, ih]

theorem chainQ_length (ss : List (Stage α)) : (chainQ ss).length ≤ ss.length := by
  induction ss with
  | nil => simp [chainQ]
  | cons s ss ih => simp only [chainQ, List.length_append, List.length_cons]; cases s.occ <;> simp <;> omega

theorem chain_final_length (is : List (In α)) (ss : List (Stage α)) :
    (chain.final ss is).length = ss.length := by
  induction is generalizing ss with
  | nil => rfl
  | cons i is ih =>
    rw [Machine.final_cons, ih]; exact chain_length ..

theorem chain_conserve (is : List (In α)) (ss : List (Stage α)) :
    chainQ ss ++ accepted (chain.trace ss is)
      = emitted (chain.trace ss is) ++ chainQ (chain.final ss is) := by
  refine (chain.conserve (fun _ => True) (fun _ => True) chainQ
    (fun e => if e.1.vld && e.2.rd then some e.1.data else none)
    (fun e => if e.2.vld && e.1.rd then some e.2.data else none) ?_ is ss trivial (by simp)).2
  intro s i _ _
  refine ⟨trivial, ?_⟩
  have h := chain_step s i.vld i.data i.rd
  rw [toList_ite, toList_ite]
  exact h

theorem chain_stable (ss : List (Stage α)) : ∀ (v : Bool) (d : α) (v' : Bool) (d' : α),
    ss ≠ [] → chainVld ss v = true →
    chainVld (chainNext ss v d false) v' = true ∧
    chainData (chainNext ss v d false) d' = chainData ss d := by
  induction ss with
  | nil => intros; contradiction
  | cons s ss ih =>
    intro v d v' d' _ hv
    cases ss with
    | nil =>
      simp only [chainVld] at hv
      simp [chainNext, chainVld, chainData, stageNext, stageWe, chainRd, hv]
    | cons t ts =>
      exact ih s.occ s.reg (stageNext s v d (chainRd (t :: ts) false)).occ
        (stageNext s v d (chainRd (t :: ts) false)).reg (by simp) hv

theorem chainRd_true (ss : List (Stage α)) : chainRd ss true = true := by
  induction ss with
  | nil => rfl
  | cons s ss ih => simp [chainRd, stageRd, ih]

theorem chain_shift (ss : List (Stage α)) : ∀ (v : Bool) (d : α) (k : Nat) (x : α),
    ss[k]? = some ⟨true, x⟩ → k + 1 < ss.length →
    (chainNext ss v d true)[k + 1]? = some ⟨true, x⟩ := by
  induction ss with
  | nil => intro v d k x h; simp at h
  | cons s ss ih =>
    intro v d k x h hk
    simp only [chainNext, List.getElem?_cons_succ]
    cases k with
    | zero =>
      simp only [List.getElem?_cons_zero, Option.some.injEq] at h
      subst h
      cases ss with
      | nil => simp at hk
      | cons t ts => simp [chainNext, stageNext, stageWe, chainRd_true]
    | succ k =>
      simp only [List.getElem?_cons_succ] at h
      exact ih _ _ k x h (by simpa using hk)

theorem chain_last (ss : List (Stage α)) : ∀ (v : Bool) (d : α) (x : α),
    ss[ss.length - 1]? = some ⟨true, x⟩ → chainVld ss v = true ∧ chainData ss d = x := by
  induction ss with
  | nil => intro v d x h; simp at h
  | cons s ss ih =>
    intro v d x h
    cases ss with
    | nil => simp at h; subst h; simp [chainVld, chainData]
    | cons t ts =>
      refine ih s.occ s.reg x ?_
      simpa using h

theorem chain_shift_many (js : List (In α)) : ∀ (ss : List (Stage α)) (k : Nat) (x : α),
    (∀ j ∈ js, j.rd = true) → ss[k]? = some ⟨true, x⟩ → k + js.length < ss.length →
    (chain.final ss js)[k + js.length]? = some ⟨true, x⟩ := by
  induction js with
  | nil => intro ss k x _ h _; simpa using h
  | cons j js ih =>
    intro ss k x hr h hk
    simp only [List.length_cons] at hk ⊢
    rw [Machine.final_cons]
    have e : chain.next ss j = chainNext ss j.vld j.data true := by
      show chainNext ss j.vld j.data j.rd = _
      rw [hr j (by simp)]
    have h1 := chain_shift ss j.vld j.data k x h (by omega)
    have := ih (chain.next ss j) (k + 1) x (fun y hy => hr y (by simp [hy]))
      (by rw [e]; exact h1) (by rw [e, chain_length]; omega)
    rw [← this]
    congr 1; omega

theorem chainQ_nil (ss : List (Stage α)) (h : chainQ ss = []) : ∀ s ∈ ss, s.occ = false := by
  induction ss with
  | nil => simp
  | cons s ss ih =>
    simp only [chainQ, List.append_eq_nil_iff] at h
    intro t ht
    rcases List.mem_cons.1 ht with rfl | ht
    · cases ho : t.occ
      · rfl
      · simp [ho] at h
    · exact ih h.1 t ht

theorem chain_load (ss : List (Stage α)) (hne : ss ≠ []) (h : chainQ ss = []) (d : α) (r : Bool) :
    (chainNext ss true d r)[0]? = some ⟨true, d⟩ ∧ chainRd ss r = true := by
  cases ss with
  | nil => contradiction
  | cons s ss =>
    have ho := chainQ_nil _ h s (by simp)
    simp [chainNext, stageNext, stageWe, chainRd, stageRd, ho]

theorem chainInit_q_none (n : Nat) (junk : Nat → α) : chainQ (chainInit n [] junk) = [] := by
  unfold chainInit
  induction (List.range n) with
  | nil => rfl
  | cons k ks ih => simp [chainQ, initStage, ih]

theorem chainQ_map_full (f : Nat → Stage α) (h : ∀ k, (f k).occ = true) (ks : List Nat) :
    chainQ (ks.map f) = (ks.map fun k => (f k).reg).reverse := by
  induction ks with
  | nil => rfl
  | cons k ks ih => simp [chainQ, ih, h]

theorem chainInit_q_full (l : List α) (hl : l ≠ []) (junk : Nat → α) :
    chainQ (chainInit l.length l junk) = l.reverse := by
  unfold chainInit
  rw [chainQ_map_full _ (by intro k; cases l <;> simp_all [initStage])]
  congr 1
  apply List.ext_getElem
  · simp
  · intro i h1 h2
    simp only [List.getElem_map, List.getElem_range, initStage]
    simp [List.getElem?_eq_getElem h2]

/-! ## `LATENCY = 2, DELAY = 1` (reg.py:237-255) -/

/-- Stage `latency1_` and the registers `wordLoaded`/`reg_*` of `_implLatencyAndDelay`. -/
structure DSt (α : Type u) where
  a : Stage α
  loaded : Bool
  reg : α

/-- reg.py:99-118: `inRd(~wordLoaded)`, `outVld(wordLoaded)`. -/
def dOut (s : DSt α) (_ : In α) : Out α where
  rd := stageRd s.a (!s.loaded)
  vld := s.loaded
  data := s.reg

/-- reg.py:100-115. -/
def dNext (s : DSt α) (i : In α) : DSt α where
  a := stageNext s.a i.vld i.data (!s.loaded)
  loaded := if s.loaded then !i.rd else s.a.occ
  reg := if !s.loaded then s.a.reg else s.reg

def delayed : Machine (DSt α) (In α) (Out α) := ⟨dOut, dNext⟩

/-- Result of elaborating the INIT_DATA part of reg.py:240-249: a one item tuple leaves `init1`
unbound, more than two items cannot be unpacked. -/
inductive DInit (α : Type u) where
  | none
  | two (i0 i1 : α)

/-- reg.py:240-249 -/
def dElab (l : List α) : Except String (DInit α) :=
  match l with
  | [] => .ok .none
  | [_] => .error "UnboundLocalError: init1"
  | [a, b] => .ok (.two a b)
  | _ => .error "ValueError: too many values to unpack"

/-- Reset state; `j0`, `j1` power-up contents. -/
def dInit (c : DInit α) (j0 j1 : α) : DSt α :=
  match c with
  | .none => ⟨⟨false, j0⟩, false, j1⟩
  | .two a b => ⟨⟨true, a⟩, true, b⟩

def dQ (s : DSt α) : List α :=
  (if s.loaded then [s.reg] else []) ++ (if s.a.occ then [s.a.reg] else [])

theorem d_conserve (is : List (In α)) (s : DSt α) :
    dQ s ++ accepted (delayed.trace s is)
      = emitted (delayed.trace s is) ++ dQ (delayed.final s is) := by
  refine (delayed.conserve (fun _ => True) (fun _ => True) dQ
    (fun e => if e.1.vld && e.2.rd then some e.1.data else none)
    (fun e => if e.2.vld && e.1.rd then some e.2.data else none) ?_ is s trivial (by simp)).2
  intro s i _ _
  refine ⟨trivial, ?_⟩
  obtain ⟨⟨o, x⟩, ld, rg⟩ := s
  obtain ⟨v, d, r⟩ := i
  cases o <;> cases ld <;> cases v <;> cases r <;> rfl

/-! ## `LATENCY = (1, 2)`, ready chain break (reg.py:122-182) -/

/-- `occupied[0]`, `occupied[1]`, `reader_prio` (1 bit), `reg0_*`, `reg1_*`. -/
structure BSt (α : Type u) where
  occ0 : Bool
  occ1 : Bool
  prio : Bool
  r0 : α
  r1 : α

/-- reg.py:134 -/
def consume0 (s : BSt α) : Bool := (!s.prio && s.occ0) || !s.occ1
/-- reg.py:135 -/
def consume1 (s : BSt α) : Bool := (s.prio && s.occ1) || !s.occ0

/-- reg.py:153-159, 179-180; `none` is the undefined value `o(None)`. -/
def bOut (s : BSt α) (_ : In α) : Out (Option α) where
  rd := !s.occ0 || !s.occ1
  vld := s.occ0 || s.occ1
  data := if consume0 s && s.occ0 then some s.r0 else if consume1 s && s.occ1 then some s.r1 else none

/-- reg.py:142-149, 162-177. -/
def bNext (s : BSt α) (i : In α) : BSt α where
  occ0 := (s.occ0 || (i.vld && !s.occ0)) && !(i.rd && s.occ0 && consume0 s)
  occ1 := (s.occ1 || (i.vld && s.occ0 && !s.occ1)) && !(i.rd && s.occ1 && consume1 s)
  prio := if i.vld && (!s.occ0 || !s.occ1) then
            (if s.occ0 then false else if s.occ1 then true else s.prio) else s.prio
  r0 := if i.vld && !s.occ0 then i.data else s.r0
  r1 := if i.vld && !s.occ1 then i.data else s.r1

def breaker : Machine (BSt α) (In α) (Out (Option α)) := ⟨bOut, bNext⟩

/-- Reset state, reg.py:131-132, 140-141, 205-212 (at most one INIT_DATA item). -/
def bInit (init : Option α) (j0 j1 : α) : BSt α := ⟨init.isSome, false, false, init.getD j0, j1⟩

def bQ (s : BSt α) : List (Option α) :=
  match s.occ0, s.occ1 with
  | false, false => []
  | true, false => [some s.r0]
  | false, true => [some s.r1]
  | true, true => if s.prio then [some s.r1, some s.r0] else [some s.r0, some s.r1]

theorem b_conserve (is : List (In α)) (s : BSt α) :
    bQ s ++ (accepted (breaker.trace s is)).map some
      = emitted (breaker.trace s is) ++ bQ (breaker.final s is) := by
  have := (breaker.conserve (fun _ => True) (fun _ => True) bQ
    (fun e => if e.1.vld && e.2.rd then some (some e.1.data) else none)
    (fun e => if e.2.vld && e.1.rd then some e.2.data else none) ?_ is s trivial (by simp)).2
  · rw [emitted, ← this, accepted, List.map_filterMap]
    congr 2
    funext e
    cases (e.1.vld && e.2.rd) <;> rfl
  · intro s i _ _
    refine ⟨trivial, ?_⟩
    obtain ⟨o0, o1, p, r0, r1⟩ := s
    obtain ⟨v, d, r⟩ := i
    cases o0 <;> cases o1 <;> cases p <;> cases v <;> cases r <;> rfl

theorem bQ_length (s : BSt α) : (bQ s).length ≤ 2 := by
  obtain ⟨o0, o1, p, r0, r1⟩ := s
  cases o0 <;> cases o1 <;> cases p <;> simp [bQ]

end Verif.HsReg
