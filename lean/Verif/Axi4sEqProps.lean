import Verif.Axi4sEq
import Mathlib.Data.List.Forall2
/-!
# C322, C323: answers of `Axi4S_eq`
-/
namespace Verif.Axi4sEq

/-- One answer for each frame, equal to 1 iff the frame carries the value. -/
def Exact (c : Cfg) (is : List In) : Prop :=
  answers ((machine c).trace init is) = (frames [] (accepted ((machine c).trace init is))).map fun f => decide (Carries c f)

/-! ## Numbers -/

theorem wordEq_succ (c : Cfg) (h : c.DW < c.VW) (i d : Nat) :
    wordEq c (i + 1) d = wordEq ⟨c.DW, c.VW - c.DW, c.V / 2 ^ c.DW⟩ i d := by
  have e1 : c.partW (i + 1) = Cfg.partW ⟨c.DW, c.VW - c.DW, c.V / 2 ^ c.DW⟩ i := by
    simp only [Cfg.partW, Nat.succ_mul]; omega
  have e2 : c.V / 2 ^ ((i + 1) * c.DW) = c.V / 2 ^ c.DW / 2 ^ (i * c.DW) := by
    rw [Nat.div_div_eq_div_mul, ← Nat.pow_add, Nat.succ_mul, Nat.add_comm]
  simp only [wordEq, e1, e2]

theorem cnt_one (c : Cfg) (_ : 1 ≤ c.DW) (hv : 1 ≤ c.VW) (h : c.VW ≤ c.DW) : c.cnt = 1 := by
  unfold Cfg.cnt
  exact Nat.div_eq_of_lt_le (by omega) (by omega)

theorem cnt_succ (c : Cfg) (hd : 1 ≤ c.DW) (h : c.DW < c.VW) :
    c.cnt = Cfg.cnt ⟨c.DW, c.VW - c.DW, c.V / 2 ^ c.DW⟩ + 1 := by
  unfold Cfg.cnt
  have : c.VW + c.DW - 1 = (c.VW - c.DW + c.DW - 1) + c.DW := by omega
  rw [this, Nat.add_div_right _ (by omega)]

/-- A frame of the proper length carries the value iff all words are equal to parts of the value. -/
theorem number_iff (f : List Nat) : ∀ (c : Cfg), Ok c → f.length = c.cnt →
    (number c.DW f % 2 ^ c.VW = c.V ↔ ∀ i d, f[i]? = some d → wordEq c i d = true) := by
  induction f with
  | nil =>
    intro c h hl
    rcases Nat.lt_or_ge c.DW c.VW with hw | hw
    · have := cnt_succ c h.dw hw; simp at hl; omega
    · have := cnt_one c h.dw h.vw hw; simp at hl; omega
  | cons d f ih =>
    intro c h hl
    rcases Nat.lt_or_ge c.DW c.VW with hw | hw
    · have hc := cnt_succ c h.dw hw
      have hM : 2 ^ c.VW = 2 ^ c.DW * 2 ^ (c.VW - c.DW) := by rw [← Nat.pow_add]; congr 1; omega
      have hB : 0 < 2 ^ c.DW := Nat.pow_pos (by omega)
      have hok : Ok ⟨c.DW, c.VW - c.DW, c.V / 2 ^ c.DW⟩ := by
        refine ⟨h.dw, Nat.le_sub_of_add_le (by omega), ?_⟩
        exact Nat.div_lt_of_lt_mul (by rw [← hM]; exact h.v)
      have hi := ih _ hok (by simp at hl; omega)
      have e0 : wordEq c 0 d = true ↔ d % 2 ^ c.DW = c.V % 2 ^ c.DW := by
        have : c.partW 0 = c.DW := by simp only [Cfg.partW]; omega
        simp [wordEq, this]
      have e1 : number c.DW (d :: f) % 2 ^ c.VW = d % 2 ^ c.DW + 2 ^ c.DW * (number c.DW f % 2 ^ (c.VW - c.DW)) := by
        have hlt : d % 2 ^ c.DW < 2 ^ c.DW := Nat.mod_lt _ hB
        show (d % 2 ^ c.DW + 2 ^ c.DW * number c.DW f) % 2 ^ c.VW = _
        rw [hM, Nat.mod_mul, Nat.add_mul_mod_self_left, Nat.mod_mod, Nat.add_mul_div_left _ _ hB,
          Nat.div_eq_of_lt hlt, Nat.zero_add]
      have e2 : number c.DW (d :: f) % 2 ^ c.VW = c.V ↔
          d % 2 ^ c.DW = c.V % 2 ^ c.DW ∧ number c.DW f % 2 ^ (c.VW - c.DW) = c.V / 2 ^ c.DW := by
        rw [e1]
        have hlt : d % 2 ^ c.DW < 2 ^ c.DW := Nat.mod_lt _ hB
        constructor
        · intro q
          rw [← q, Nat.add_mul_mod_self_left, Nat.mod_mod, Nat.add_mul_div_left _ _ hB, Nat.div_eq_of_lt hlt, Nat.zero_add]
          exact ⟨rfl, rfl⟩
        · intro ⟨q1, q2⟩
          rw [q1, q2, Nat.mod_add_div]
      rw [e2, hi, ← e0]
      constructor
      · intro ⟨q1, q2⟩ i x hx
        cases i with
        | zero => simp at hx; subst hx; exact q1
        | succ i => rw [wordEq_succ c hw]; exact q2 i x (by simpa using hx)
      · intro q
        refine ⟨q 0 d (by simp), fun i x hx => ?_⟩
        rw [← wordEq_succ c hw]; exact q (i + 1) x (by simpa using hx)
    · have hc := cnt_one c h.dw h.vw hw
      have hf : f = [] := by
        cases f with
        | nil => rfl
        | cons _ _ => simp at hl; omega
      subst hf
      have e0 : wordEq c 0 d = true ↔ d % 2 ^ c.VW = c.V := by
        have : c.partW 0 = c.VW := by simp only [Cfg.partW]; omega
        simp [wordEq, this, Nat.mod_eq_of_lt h.v]
      have e1 : number c.DW [d] % 2 ^ c.VW = d % 2 ^ c.VW := by
        simp only [number, Nat.mul_zero, Nat.add_zero]
        exact Nat.mod_mod_of_dvd _ (Nat.pow_dvd_pow 2 hw)
      rw [e1, ← e0]
      constructor
      · intro q i x hx
        cases i with
        | zero => simp at hx; subst hx; exact q
        | succ i => simp at hx
      · intro q; exact q 0 d (by simp)

/-! ## The comparison over several words -/

/-- Words before the last one are equal to their parts. -/
def pref (c : Cfg) (f : List Nat) : Prop := ∀ i d, i < c.cnt - 1 → f[i]? = some d → wordEq c i d = true

theorem pref_snoc (c : Cfg) (f : List Nat) (d : Nat) :
    pref c (f ++ [d]) ↔ pref c f ∧ (f.length < c.cnt - 1 → wordEq c f.length d = true) := by
  constructor
  · intro h
    refine ⟨fun i x hi hx => h i x hi ?_, fun hi => h _ d hi (by simp)⟩
    rw [List.getElem?_append_left]; exact hx
    exact (List.getElem?_eq_some_iff.1 hx).1
  · intro ⟨h1, h2⟩ i x hi hx
    rcases Nat.lt_or_ge i f.length with q | q
    · rw [List.getElem?_append_left q] at hx; exact h1 i x hi hx
    · rw [List.getElem?_append_right q] at hx
      cases e : i - f.length with
      | zero =>
        rw [e] at hx; simp at hx; subst hx
        have : i = f.length := by omega
        subst this; exact h2 hi
      | succ k => rw [e] at hx; simp at hx

/-- `n ≤ 2 ** log2ceil(n)` -/
theorem le_pow (n : Nat) : n ≤ 2 ^ log2ceil n := by
  have := le_two_pow_log2ceil n
  exact this

/-- The registers while the words `cur` of a frame are known, if it is not too long. -/
structure Inv (c : Cfg) (s : St) (cur : List Nat) : Prop where
  idx : cur.length < c.cnt → s.idx = cur.length % c.idxMod
  eq : cur.length < c.cnt → (s.eq = true ↔ pref c cur)

theorem inv_init (c : Cfg) : Inv c init [] := ⟨fun _ => by simp [init], fun _ => by simp [init, pref]⟩

theorem inv_next (c : Cfg) (s : St) (cur : List Nat) (h : Inv c s cur) (d : Nat) :
    Inv c ⟨(s.idx + 1) % c.idxMod, if s.idx < c.cnt - 1 then s.eq && wordEq c s.idx d else s.eq⟩ (cur ++ [d]) := by
  have hm : c.cnt - 1 ≤ c.idxMod := le_pow _
  refine ⟨fun hl => ?_, fun hl => ?_⟩
  · simp at hl
    simp only [List.length_append, List.length_cons, List.length_nil]
    rw [h.idx (by omega), Nat.mod_add_mod]
  · simp at hl
    have hi : s.idx = cur.length := by rw [h.idx (by omega)]; exact Nat.mod_eq_of_lt (by omega)
    have hlt : s.idx < c.cnt - 1 := by omega
    have e : (if s.idx < c.cnt - 1 then s.eq && wordEq c s.idx d else s.eq) = (s.eq && wordEq c cur.length d) := by
      rw [if_pos hlt, hi]
    rw [pref_snoc, e, Bool.and_eq_true, h.eq (by omega)]
    constructor
    · intro ⟨a, b⟩; exact ⟨a, fun _ => b⟩
    · intro ⟨a, b⟩; exact ⟨a, b (by omega)⟩

/-- What an answer says if the frame has the proper length. -/
def Fits (c : Cfg) (f : List Nat) (a : Bool) : Prop := f.length = c.cnt → (a = true ↔ Carries c f)

theorem fits_last (c : Cfg) (hok : Ok c) (s : St) (cur : List Nat) (h : Inv c s cur) (d : Nat) :
    Fits c (cur ++ [d]) (s.eq && wordEq c (c.cnt - 1) d) := by
  intro hl
  have hn := number_iff (cur ++ [d]) c hok hl
  have hl' : cur.length = c.cnt - 1 := by simp at hl; omega
  have hc : cur.length < c.cnt := by simp at hl; omega
  simp only [Carries, hl, true_and, hn, Bool.and_eq_true, h.eq hc]
  constructor
  · intro ⟨a, b⟩ i x hx
    rcases Nat.lt_or_ge i (c.cnt - 1) with q | q
    · rw [List.getElem?_append_left (by omega)] at hx; exact a i x q hx
    · rw [List.getElem?_append_right (by omega)] at hx
      cases e : i - cur.length with
      | zero =>
        rw [e] at hx; simp at hx; subst hx
        have : i = c.cnt - 1 := by omega
        rw [this]; exact b
      | succ k => rw [e] at hx; simp at hx
  · intro a
    refine ⟨fun i x hi hx => a i x ?_, a _ d ?_⟩
    · rw [List.getElem?_append_left (by omega)]; exact hx
    · rw [List.getElem?_append_right (by omega), hl']; simp

/-- The consumer of answers is ready in each cycle with an input word. -/
def Ready (is : List In) : Prop := ∀ x ∈ is, x.vld = true → x.rd = true

theorem run_fits (c : Cfg) (hok : Ok c) (hw : c.DW < c.VW) : ∀ (is : List In) (s : St) (cur : List Nat), Inv c s cur → Ready is →
    List.Forall₂ (Fits c) (frames cur (accepted ((machine c).trace s is))) (answers ((machine c).trace s is)) := by
  have hnw : ¬ c.VW ≤ c.DW := by omega
  intro is
  induction is with
  | nil => intro s cur _ _; exact List.Forall₂.nil
  | cons x is ih =>
    intro s cur h hr
    have hr' : Ready is := fun y hy => hr y (by simp [hy])
    have ho : (machine c).out s x = ⟨x.rd || !(x.vld && x.last), x.vld && x.last, s.eq && wordEq c (c.cnt - 1) x.data⟩ := by
      simp [machine, out, hnw]
    cases hv : x.vld with
    | false =>
      have hn : (machine c).next s x = s := by simp [machine, next, hnw, hv]
      have := ih s cur h hr'
      simpa [accepted, answers, ho, hv, hn] using this
    | true =>
      have hrd := hr x (by simp) hv
      cases hl : x.last with
      | true =>
        have hn : (machine c).next s x = ⟨0, true⟩ := by simp [machine, next, hnw, hv, hrd, hl]
        have := ih ⟨0, true⟩ [] (inv_init c) hr'
        have hf := fits_last c hok s cur h x.data
        simpa [accepted, answers, ho, hv, hn, hl, hrd, frames] using List.Forall₂.cons hf this
      | false =>
        have hn : (machine c).next s x =
            ⟨(s.idx + 1) % c.idxMod, if s.idx < c.cnt - 1 then s.eq && wordEq c s.idx x.data else s.eq⟩ := by
          simp [machine, next, hnw, hv, hrd, hl]
        have := ih _ _ (inv_next c s cur h x.data) hr'
        simpa [accepted, answers, ho, hv, hn, hl, hrd, frames] using this

/-- One answer per complete frame. -/
theorem answer_count (c : Cfg) (hw : c.DW < c.VW) (is : List In) :
    (answers ((machine c).trace init is)).length = (frames [] (accepted ((machine c).trace init is))).length := by
  have hnw : ¬ c.VW ≤ c.DW := by omega
  have key : ∀ (is : List In) (s : St) (cur : List Nat), (answers ((machine c).trace s is)).length =
      (frames cur (accepted ((machine c).trace s is))).length := by
    intro is
    induction is with
    | nil => intro s cur; rfl
    | cons x is ih =>
      intro s cur
      have ho : (machine c).out s x = ⟨x.rd || !(x.vld && x.last), x.vld && x.last, s.eq && wordEq c (c.cnt - 1) x.data⟩ := by
        simp [machine, out, hnw]
      have a := ih ((machine c).next s x)
      generalize hy : (machine c).next s x = y at a
      simp only [answers, accepted, Machine.trace_cons, ho, hy, List.filterMap_cons]
      simp only [answers, accepted] at a
      have a0 := a cur
      have a1 := a (cur ++ [x.data])
      have a2 := a []
      cases hv : x.vld <;> cases hl : x.last <;> cases hr : x.rd <;> simp [frames] <;> simp at a0 a1 a2 <;>
        first | exact a0 | exact a1 | exact a2
  exact key is init []

/-- **C322** (a frame of another length may be reported as equal, see `eq_short_fails`) -/
theorem eq_partial (c : Cfg) (hok : Ok c) (hw : c.DW < c.VW) (is : List In) (hr : Ready is) :
    List.Forall₂ (Fits c) (frames [] (accepted ((machine c).trace init is))) (answers ((machine c).trace init is)) :=
  run_fits c hok hw is init [] (inv_init c) hr

/-- **C322** if all frames have the proper length. -/
theorem eq_exact_partial (c : Cfg) (hok : Ok c) (hw : c.DW < c.VW) (is : List In) (hr : Ready is)
    (hl : ∀ f ∈ frames [] (accepted ((machine c).trace init is)), f.length = c.cnt) : Exact c is := by
  have h := eq_partial c hok hw is hr
  unfold Exact
  revert h hl
  generalize frames [] (accepted ((machine c).trace init is)) = fs
  generalize answers ((machine c).trace init is) = as
  intro hl h
  induction h with
  | nil => rfl
  | cons ha _ ih =>
    rename_i f a fs as _
    have hf := ha (hl f (by simp))
    have : a = decide (Carries c f) := by
      by_cases q : Carries c f
      · simp [q, hf.2 q]
      · have : a ≠ true := fun e => q (hf.1 e)
        simpa [q] using this
    rw [List.map_cons, ← this, ih fun f hf => hl f (by simp [hf])]

/-- **C322** as it should hold: any frames, the consumer of answers always ready. -/
def C322 : Prop := ∀ c, Ok c → c.DW < c.VW → ∀ is, Ready is → Exact c is

/-- A MAC address received by bytes (least significant first). -/
def mac : Cfg := ⟨8, 48, 0xAB8967452301⟩

def wd (d : Nat) (l : Bool) : In := ⟨true, d, l, true⟩

/-- A frame with the single byte `AB` is reported as the address `01:23:45:67:89:AB`. -/
theorem eq_short_fails : ¬ C322 := by
  intro h
  have := h mac ⟨by decide, by decide, by decide⟩ (by decide) [wd 0xAB true] (by unfold Ready; decide)
  revert this
  unfold Exact
  decide

/-- **C323** as it should hold: the time when the consumer takes answers does not matter. -/
def C323 : Prop := ∀ c, Ok c → c.DW < c.VW → ∀ is,
  (∀ f ∈ frames [] (accepted ((machine c).trace init is)), f.length = c.cnt) → Exact c is

/-- The constant `12 34` (in the order of transfer). -/
def two : Cfg := ⟨8, 16, 0x3412⟩

/-- The frame `EE 34`; its first byte is taken while the consumer of answers is not ready and is not compared. -/
def stalled : List In := [⟨true, 0xEE, false, false⟩, ⟨true, 0x34, true, true⟩]

theorem eq_stall_fails : ¬ C323 := by
  intro h
  have := h two ⟨by decide, by decide, by decide⟩ (by decide) stalled (by decide)
  revert this
  unfold Exact
  decide

/-! ## The value in one word -/

/-- One answer for each word, whatever `last` is. -/
theorem eq_single (c : Cfg) (hw : c.VW ≤ c.DW) (s : St) (is : List In) :
    answers ((machine c).trace s is) = (accepted ((machine c).trace s is)).map fun w => w.1 % 2 ^ c.VW == c.V := by
  induction is generalizing s with
  | nil => rfl
  | cons x is ih =>
    have ho : (machine c).out s x = ⟨x.rd, x.vld, x.data % 2 ^ c.VW == c.V⟩ := by simp [machine, out, hw]
    have := ih ((machine c).next s x)
    simp only [answers, accepted, Machine.trace_cons, ho, List.filterMap_cons] at this ⊢
    cases hv : x.vld <;> cases hr : x.rd <;> simpa using this

/-! Non-vacuity: the right address, a wrong one, with a gap. -/

def exIs : List In :=
  [wd 1 false, wd 0x23 false, ⟨false, 0, true, false⟩, wd 0x45 false, wd 0x67 false, wd 0x89 false, wd 0xAB true,
   wd 1 false, wd 0x23 false, wd 0x45 false, wd 0x66 false, wd 0x89 false, wd 0xAB true]

example : Ready exIs ∧ answers ((machine mac).trace init exIs) = [true, false] ∧
    (frames [] (accepted ((machine mac).trace init exIs))).map List.length = [6, 6] := by
  unfold Ready; decide

end Verif.Axi4sEq
