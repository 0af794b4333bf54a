import Verif.LruArray
import Mathlib.Data.List.Induction
import Mathlib.Data.Nat.Find

/-!
# Properties of `AxiCacheLruArray` (C235 - C238)
-/

namespace Verif.LruArray

open Verif

variable {L : Type}

abbrev Tr (L : Type) := List (In L × Out)

/-- requested victims: index and the record of the index at the time of the request -/
def reqs (tr : Tr L) : List (Nat × L) := tr.flatMap fun e => given (e.1.reqVld && e.2.reqRd) (e.1.reqAddr, e.1.lru e.1.reqAddr)
/-- victims given -/
def victims (tr : Tr L) : List Nat := tr.flatMap fun e => given (e.2.dataVld && e.1.dataRd) e.2.data
/-- indexes of given victims -/
def Answers (c : Cfg L) (tr : Tr L) : Prop := ∃ p : List (Nat × L), p.length ≤ 1 ∧ reqs tr = (reqs tr).take (victims tr).length ++ p ∧
  victims tr = ((reqs tr).take (victims tr).length).map fun r => c.victimOf r.2

/-- C235: each request is answered exactly once, at most one waits -/
theorem answered_once (c : Cfg L) (s : St L) (hs : IsInit s) (is : List (In L)) :
    ∃ k ≤ 1, (reqs ((machine c).trace s is)).length = (victims ((machine c).trace s is)).length + k := by
  have h := Machine.conserveL (machine c) (fun _ => True) (fun _ => True) (fun s => given s.vVld ())
    (fun e => given (e.1.reqVld && e.2.reqRd) ()) (fun e => given (e.2.dataVld && e.1.dataRd) ())
    (fun s x _ _ => ⟨trivial, by
      simp only [machine, out, next]
      cases s.vVld <;> cases x.set <;> cases x.dataRd <;> cases x.reqVld <;> rfl⟩) is s trivial (fun _ _ => trivial)
  have h2 := congrArg List.length h.2
  simp only [hs.vVld, List.length_append] at h2
  have e1 : ((((machine c).trace s is).flatMap fun e => given (e.1.reqVld && e.2.reqRd) ()).length) = (reqs ((machine c).trace s is)).length := by
    generalize (machine c).trace s is = tr
    induction tr with
    | nil => rfl
    | cons e tr ih =>
      simp only [reqs, List.flatMap_cons, List.length_append] at ih ⊢
      rw [ih]; cases e.1.reqVld && e.2.reqRd <;> rfl
  have e2 : ((((machine c).trace s is).flatMap fun e => given (e.2.dataVld && e.1.dataRd) ()).length) = (victims ((machine c).trace s is)).length := by
    generalize (machine c).trace s is = tr
    induction tr with
    | nil => rfl
    | cons e tr ih =>
      simp only [victims, List.flatMap_cons, List.length_append] at ih ⊢
      rw [ih]; cases e.2.dataVld && e.1.dataRd <;> rfl
  rw [e1, e2] at h2
  refine ⟨_, ?_, by simpa [given] using h2⟩
  cases ((machine c).final s is).vVld <;> simp

/-- full statement: each victim is the victim of the requested index -/
def RightVictims (c : Cfg L) : Prop := ∀ (s : St L), IsInit s → ∀ is : List (In L), Answers c ((machine c).trace s is)

/-- a request does not wait: it comes only if it is accepted in the same cycle -/
def NoWait (tr : Tr L) : Prop := ∀ e ∈ tr, e.1.reqVld = true → e.2.reqRd = true

/-- C236: victims are right if no request has to wait -/
theorem right_partial (c : Cfg L) (s : St L) (hs : IsInit s) (is : List (In L)) (hn : NoWait ((machine c).trace s is)) :
    Answers c ((machine c).trace s is) := by
  have : ∃ p : List (Nat × L), p.length ≤ 1 ∧ (∃ q, reqs ((machine c).trace s is) = q ++ p ∧
      victims ((machine c).trace s is) = q.map fun r => c.victimOf r.2) ∧
      (((machine c).final s is).vVld = true ↔ p ≠ []) ∧ ∀ r ∈ p, ((machine c).final s is).dout = r.2 := by
    induction is using List.reverseRecOn with
    | nil => exact ⟨[], by simp, ⟨[], rfl, rfl⟩, by simp [hs.vVld], by simp⟩
    | append_singleton is x ih =>
      rw [Machine.trace_snoc] at *
      obtain ⟨p, hp, ⟨q, h1, h2⟩, h3, h4⟩ := ih (fun e he => hn e (by simp [he]))
      have hx := hn (x, (machine c).outAfter s is x) (by simp)
      simp only [Machine.final_append, Machine.final_cons, Machine.final_nil, show (machine c).outAfter s is x = out c ((machine c).final s is) x from rfl] at hx ⊢
      generalize (machine c).final s is = t at *
      generalize (machine c).trace s is = tr at *
      have er : reqs (tr ++ [(x, out c t x)]) = q ++ p ++ given (x.reqVld && (out c t x).reqRd) (x.reqAddr, x.lru x.reqAddr) := by
        rw [← h1]; simp [reqs]
      have ev : victims (tr ++ [(x, out c t x)]) = (q.map fun r => c.victimOf r.2) ++ given ((out c t x).dataVld && x.dataRd) (out c t x).data := by
        rw [← h2]; simp [victims]
      rw [er, ev]
      -- waiting or not
      have hp' : p = [] ∧ t.vVld = false ∨ ∃ r, p = [r] ∧ t.vVld = true ∧ t.dout = r.2 := by
        cases p with
        | nil => left; exact ⟨rfl, by simpa using h3⟩
        | cons r p =>
          have : p = [] := by simpa using hp
          subst this
          exact .inr ⟨r, rfl, h3.2 (by simp), h4 r (by simp)⟩
      rcases hp' with ⟨rfl, hv⟩ | ⟨r, rfl, hv, hd⟩
      · refine ⟨given (x.reqVld && (out c t x).reqRd) (x.reqAddr, x.lru x.reqAddr), ?_, ⟨q, by simp, by simp [out, hv, given]⟩, ?_, ?_⟩
        · cases x.reqVld && (out c t x).reqRd <;> simp [given]
        · simp only [machine, next, out, hv]
          cases hs : x.set <;> cases hr : x.reqVld <;> simp [given]
        · intro r hr
          cases hq : x.reqVld with
          | false => simp [hq, given] at hr
          | true =>
            simp only [machine, next, hq, if_true]
            simp only [hq, hx hq] at hr
            simp [given] at hr
            rw [hr]
      · cases hset : x.set with
        | true =>
          have hq : x.reqVld = false := by
            rw [Bool.eq_false_iff]; intro h; have := hx h; simp [out, hset] at this
          refine ⟨[r], by simp, ⟨q, by simp [hq, given], by simp [out, hset, given]⟩, ?_, ?_⟩
          · simp [machine, next, hset, hv]
          · simp [machine, next, hq, hd]
        | false =>
          cases hrd : x.dataRd with
          | false =>
            have hq : x.reqVld = false := by
              rw [Bool.eq_false_iff]; intro h; have := hx h; simp [out, hset, hv, hrd] at this
            refine ⟨[r], by simp, ⟨q, by simp [hq, given], by simp [given]⟩, ?_, ?_⟩
            · simp [machine, next, hset, hv, hrd]
            · simp [machine, next, hq, hd]
          | true =>
            refine ⟨given x.reqVld (x.reqAddr, x.lru x.reqAddr), ?_, ⟨q ++ [r], ?_, ?_⟩, ?_, ?_⟩
            · cases x.reqVld <;> simp [given]
            · simp [out, hset, hrd]
            · simp [out, hset, hv, given, victim, hd]
            · simp only [machine, next, hv, hset, hrd]
              cases x.reqVld <;> simp [given]
            · intro r' hr'
              cases hq : x.reqVld with
              | false => simp [hq, given] at hr'
              | true =>
                simp only [hq, given, List.mem_singleton] at hr'
                simp [machine, next, hq, hr']
  obtain ⟨p, hp, ⟨q, h1, h2⟩, -, -⟩ := this
  have hlen : (victims ((machine c).trace s is)).length = q.length := by rw [h2]; simp
  refine ⟨p, hp, ?_, ?_⟩
  · rw [hlen, h1]; simp
  · rw [hlen, h1]; simp [h2]

/-- nothing on other ports -/
def vIn (reqVld : Bool) (a : Nat) (rd : Bool) : In Nat := ⟨false, 0, reqVld, a, rd, fun _ => false, fun _ => 0, fun _ => 0, fun i => i⟩

def c0 : Cfg Nat := ⟨2, fun l => l % 4⟩
def s0 : St Nat := ⟨false, 0, 0, fun _ => false, fun _ => 0⟩
theorem s0_init : IsInit s0 := ⟨rfl, fun _ => rfl⟩

/-- C236: a request which waits overwrites the output of the read port, the waiting victim is then selected by the record of another index -/
theorem right_fails : ¬RightVictims c0 := by
  intro h
  obtain ⟨p, hp, h1, h2⟩ := h s0 s0_init [vIn true 1 false, vIn true 2 false, vIn true 2 true]
  have e1 : reqs ((machine c0).trace s0 [vIn true 1 false, vIn true 2 false, vIn true 2 true]) = [(1, 1), (2, 2)] := by decide
  have e2 : victims ((machine c0).trace s0 [vIn true 1 false, vIn true 2 false, vIn true 2 true]) = [2] := by decide
  rw [e1, e2] at h2
  simp [c0] at h2

example : NoWait ((machine c0).trace s0 [vIn true 1 false, vIn false 2 false, vIn true 2 true, vIn false 0 true]) ∧
    victims ((machine c0).trace s0 [vIn true 1 false, vIn false 2 false, vIn true 2 true, vIn false 0 true]) = [1, 2] := by
  unfold NoWait; decide

/-! ## Writes -/

/-- all writes of ports in a cycle -/
def writes (c : Cfg L) (o : Out) : List Write := (o.vw :: (List.range c.ports).map o.iw).filter (·.en)

/-- C237: in each state two ports never write the same index in the same cycle, the memory has not to resolve collisions -/
theorem no_collision (c : Cfg L) (s : St L) (x : In L) : (writes c (out c s x)).Pairwise fun a b => a.addr ≠ b.addr := by
  unfold writes
  rw [List.pairwise_filter]
  rw [List.pairwise_cons]
  refine ⟨?_, ?_⟩
  · intro w hw hv hi he
    rw [List.mem_map] at hw
    obtain ⟨i, -, rfl⟩ := hw
    simp only [out, vw, iw, Bool.and_eq_true, Bool.not_eq_true'] at hv hi he
    have := hi.1.2
    simp [hv.2, he] at this
  · rw [List.pairwise_map]
    refine List.Pairwise.imp ?_ List.pairwise_lt_range
    intro i j hij hi hj he
    simp only [out, iw, Bool.and_eq_true, Bool.not_eq_true'] at hi hj he
    have h1 := hj.1.2
    simp only [Bool.or_eq_false_iff, List.any_eq_false, List.mem_range] at h1
    have := h1.2 i hij
    simp [hit, hi.1.1, he] at this

/-- marked ways of the index in a cycle -/
def marked (c : Cfg L) (o : Out) (index way : Nat) : Prop := ∃ w ∈ writes c o, w.addr = index ∧ w.mask way = true

/-- what shall be marked in the cycle after `x`: ways of accepted increments and the victim -/
def ShallMark (c : Cfg L) (x : In L) (o' : Out) (vIndex : Option Nat) (index way : Nat) : Prop :=
  (∃ i < c.ports, x.incVld i = true ∧ x.set = false ∧ x.incIndex i = index ∧ x.incWay i = way) ∨ (vIndex = some index ∧ way = o'.data)

/-- full statement: the updates are the accepted increments of the previous cycle and the pending victim; without `set`, which discards
updates -/
def UpdatesExact (c : Cfg L) : Prop :=
  ∀ (s : St L) (x y : In L), y.set = false → ∀ index way,
    marked c ((machine c).outAfter s [x] y) index way ↔
      ShallMark c x ((machine c).outAfter s [x] y) (if (next s x).vVld then some (next s x).vIndex else none) index way

/-- the ports hold the way one cycle after the increment -/
def WayHeld (c : Cfg L) (x y : In L) : Prop := ∀ i < c.ports, x.incVld i = true → y.incWay i = x.incWay i

theorem marked_iff (c : Cfg L) (s : St L) (y : In L) (hy : y.set = false) (index way : Nat) :
    marked c (out c s y) index way ↔
      (∃ i < c.ports, s.iVld i = true ∧ s.iIndex i = index ∧ y.incWay i = way) ∨ (s.vVld = true ∧ s.vIndex = index ∧ way = victim c s) := by
  unfold marked writes
  simp only [List.mem_filter, List.mem_cons, List.mem_map, List.mem_range]
  constructor
  · rintro ⟨w, ⟨rfl | ⟨i, hi, rfl⟩, hen⟩, ha, hm⟩
    · simp only [out, vw, Bool.and_eq_true, Bool.or_eq_true, beq_iff_eq, List.any_eq_true, List.mem_range, hit] at hen ha hm
      rcases hm with hm | ⟨j, hj, ⟨h1, h2⟩, h3⟩
      · exact .inr ⟨hen.2, ha, hm⟩
      · exact .inl ⟨j, hj, h1, by rw [h2, ha], h3⟩
    · simp only [out, iw, Bool.and_eq_true, Bool.or_eq_true, beq_iff_eq, List.any_eq_true, List.mem_range, hit] at hen ha hm
      rcases hm with hm | ⟨j, hj, ⟨-, h1, h2⟩, h3⟩
      · exact .inl ⟨i, hi, hen.1.1, ha, hm⟩
      · exact .inl ⟨j, hj, h1, by rw [h2, ha], h3⟩
  · rintro (⟨i, hi, h1, h2, h3⟩ | ⟨h1, h2, h3⟩)
    · by_cases hv : s.vVld = true ∧ s.vIndex = index
      · refine ⟨(out c s y).vw, ⟨.inl rfl, by simp [out, vw, hy, hv.1]⟩, hv.2, ?_⟩
        simp only [out, vw, Bool.or_eq_true, List.any_eq_true, List.mem_range]
        exact .inr ⟨i, hi, by simp [hit, h1, h2, hv.2, h3]⟩
      · -- the first port with the index writes
        have hex : ∃ j, s.iVld j = true ∧ s.iIndex j = index := ⟨i, h1, h2⟩
        classical
        obtain ⟨hj1, hj2⟩ := Nat.find_spec hex
        have hmin := fun k => Nat.find_min (H := hex) (m := k)
        have hle : Nat.find hex ≤ i := Nat.find_min' hex ⟨h1, h2⟩
        generalize Nat.find hex = j at *
        refine ⟨(out c s y).iw j, ⟨.inr ⟨j, by omega, rfl⟩, ?_⟩, hj2, ?_⟩
        · simp only [out, iw, hj1, hy, Bool.true_and, Bool.not_false, Bool.and_true, Bool.not_eq_true', Bool.or_eq_false_iff,
            Bool.and_eq_false_iff, List.any_eq_false, List.mem_range, hit]
          refine ⟨?_, ?_⟩
          · by_cases h4 : s.vVld = true
            · right
              rw [beq_eq_false_iff_ne, hj2]
              exact fun h5 => hv ⟨h4, h5⟩
            · left; simpa using h4
          · intro k hk h5
            simp only [Bool.and_eq_true, beq_iff_eq] at h5
            exact hmin k hk ⟨h5.1, by rw [h5.2, hj2]⟩
        · simp only [out, iw, Bool.or_eq_true, beq_iff_eq, List.any_eq_true, List.mem_range]
          rcases Nat.eq_or_lt_of_le hle with h4 | h4
          · left; rw [h4]; exact h3
          · right; exact ⟨i, hi, by simp [hit, h1, h2, hj2, h3, h4]⟩
    · exact ⟨(out c s y).vw, ⟨.inl rfl, by simp [out, vw, hy, h1]⟩, h2, by simp [out, vw, h3]⟩

/-- C238: updates are exact if ports hold the way for one more cycle -/
theorem updates_partial (c : Cfg L) (s : St L) (x y : In L) (hy : y.set = false) (hh : WayHeld c x y) (index way : Nat) :
    marked c ((machine c).outAfter s [x] y) index way ↔
      ShallMark c x ((machine c).outAfter s [x] y) (if (next s x).vVld then some (next s x).vIndex else none) index way := by
  have ho : (machine c).outAfter s [x] y = out c (next s x) y := rfl
  rw [ho, marked_iff c (next s x) y hy]
  unfold ShallMark
  refine or_congr ?_ ?_
  · constructor
    · rintro ⟨i, hi, h1, h2, h3⟩
      simp only [next, Bool.and_eq_true, Bool.not_eq_true'] at h1 h2
      exact ⟨i, hi, h1.1, h1.2, h2, by rw [← hh i hi h1.1]; exact h3⟩
    · rintro ⟨i, hi, h1, h2, h3, h4⟩
      exact ⟨i, hi, by simp [next, h1, h2], h3, by rw [hh i hi h1]; exact h4⟩
  · cases (next s x).vVld <;> simp [out]

def iIn (v : Bool) (idx way : Nat) : In Nat := ⟨false, 0, false, 0, false, fun i => v && i == 0, fun _ => idx, fun _ => way, fun i => i⟩

/-- C238: the way of the current cycle is used instead of the way of the increment -/
theorem updates_fails : ¬UpdatesExact c0 := by
  intro h
  have h1 := (h s0 (iIn true 5 1) (iIn false 0 3) rfl 5 3).1 (by
    rw [show (machine c0).outAfter s0 [iIn true 5 1] (iIn false 0 3) = out c0 (next s0 (iIn true 5 1)) (iIn false 0 3) from rfl]
    rw [marked_iff _ _ _ rfl]
    exact .inl ⟨0, by decide, by decide, by decide, by decide⟩)
  rcases h1 with ⟨i, -, -, -, -, h5⟩ | ⟨h5, -⟩
  · simp [iIn] at h5
  · simp [next, iIn, s0] at h5

example : WayHeld c0 (iIn true 5 1) (iIn false 0 1) ∧ marked c0 ((machine c0).outAfter s0 [iIn true 5 1] (iIn false 0 1)) 5 1 := by
  refine ⟨fun i _ _ => rfl, ?_⟩
  rw [show (machine c0).outAfter s0 [iIn true 5 1] (iIn false 0 1) = out c0 (next s0 (iIn true 5 1)) (iIn false 0 1) from rfl]
  rw [marked_iff _ _ _ rfl]
  exact .inl ⟨0, by decide, by decide, by decide, by decide⟩

end Verif.LruArray
