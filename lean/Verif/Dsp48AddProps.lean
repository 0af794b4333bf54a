import Verif.Dsp48Add
import Verif.Dsp48Props

namespace Verif.Dsp48Add
open Verif.Dsp48

variable (g : Cfg)

/-! ### handshake pipeline -/

/-- stages which are still to be passed -/
def fin (f : Nat → D → D) : Nat → Nat → D → D
  | _, 0, d => d
  | s, k + 1, d => fin f (s + 1) k (f s d)

def item {β : Type} (f : Nat → D → D) (O : D → β) (s k : Nat) (x : Bool × D) : Option β :=
  if x.1 then some (O (fin f s k x.2)) else none

def opt {β : Type} (f : Nat → D → D) (O : D → β) : Nat → List (Bool × D) → List (Option β)
  | _, [] => []
  | s, x :: rest => opt f O (s + 1) rest ++ [item f O (s + 1) rest.length x]

def up {β : Type} (f : Nat → D → D) (O : D → β) (s : Nat) (l : List (Bool × D)) : List β := (opt f O s l).filterMap id

theorem up_cons {β : Type} (f : Nat → D → D) (O : D → β) (s : Nat) (x : Bool × D) (rest : List (Bool × D)) :
    up f O s (x :: rest) = up f O (s + 1) rest ++ (item f O (s + 1) rest.length x).toList := by
  simp only [up, opt, List.filterMap_append, List.filterMap_cons, List.filterMap_nil]
  cases item f O (s + 1) rest.length x <;> simp

theorem stepPipe_length (f : Nat → D → D) (rdy fo : Bool) (l : List (Bool × D)) : ∀ s prev,
    (stepPipe f rdy fo s prev l).length = l.length := by
  induction l with
  | nil => intro s prev; rfl
  | cons x rest ih => intro s prev; simp [stepPipe, ih]

theorem inReady_eq (rdy : Bool) (l : List (Bool × D)) : inReady rdy l = rdOf l rdy := by
  cases l with
  | nil => rfl
  | cons x rest => simp only [inReady, rdOf, List.any_cons]; cases x.1 <;> simp

/-- no item is lost, duplicated or reordered in one clock cycle -/
theorem step_up {β : Type} (f : Nat → D → D) (O : D → β) (rdy : Bool) (l : List (Bool × D)) : ∀ s (prev : Bool × D),
    (if ((prev :: l).getLast (by simp)).1 && rdy then [O ((prev :: l).getLast (by simp)).2] else [])
        ++ up f O s (stepPipe f rdy false s prev l)
      = up f O s l ++ (if prev.1 && rdOf l rdy then [O (fin f s l.length prev.2)] else []) := by
  induction l with
  | nil => intro s prev; simp [up, opt, stepPipe, rdOf, fin]
  | cons x rest ih =>
    intro s prev
    have h := ih (s + 1) x
    rw [stepPipe, up_cons, up_cons, stepPipe_length, ← List.append_assoc, List.getLast_cons (by simp)]
    rw [h, List.append_assoc]
    have e : rdOf (x :: rest) rdy = (!x.1 || rdOf rest rdy) := by
      simp only [rdOf, List.any_cons, Bool.or_assoc]
    rw [e]
    obtain ⟨xv, xd⟩ := x
    obtain ⟨pv, pd⟩ := prev
    cases xv <;> cases pv <;> cases rdOf rest rdy <;> simp [item, fin]

/-- with ready output every stage moves -/
theorem step_opt {β : Type} (f : Nat → D → D) (O : D → β) (l : List (Bool × D)) : ∀ s (prev : Bool × D),
    (if ((prev :: l).getLast (by simp)).1 then some (O ((prev :: l).getLast (by simp)).2) else none)
        :: opt f O s (stepPipe f true false s prev l)
      = opt f O s l ++ [if prev.1 then some (O (fin f s l.length prev.2)) else none] := by
  induction l with
  | nil => intro s prev; rfl
  | cons x rest ih =>
    intro s prev
    have h := ih (s + 1) x
    rw [stepPipe, opt, opt, stepPipe_length, ← List.cons_append, List.getLast_cons (by simp), h, List.append_assoc]
    have e : rdOf rest true = true := by simp [rdOf]
    rw [e]
    obtain ⟨xv, xd⟩ := x
    obtain ⟨pv, pd⟩ := prev
    cases xv <;> cases pv <;> simp [item, fin]

theorem stepPipe_invalid (f : Nat → D → D) (rdy fo : Bool) (l : List (Bool × D)) : ∀ s (prev : Bool × D), prev.1 = false →
    (∀ x ∈ l, x.1 = false) → ∀ x ∈ stepPipe f rdy fo s prev l, x.1 = false := by
  induction l with
  | nil => intro s prev _ _ x hx; simp [stepPipe] at hx
  | cons y rest ih =>
    intro s prev hp hl x hx
    have hy := hl y (by simp)
    simp only [stepPipe, List.mem_cons] at hx
    rcases hx with rfl | hx
    · simp [hp, hy]
    · exact ih (s + 1) y hy (fun z hz => hl z (by simp [hz])) x hx

theorem opt_invalid {β : Type} (f : Nat → D → D) (O : D → β) (l : List (Bool × D)) : ∀ s, (∀ x ∈ l, x.1 = false) →
    opt f O s l = List.replicate l.length none := by
  induction l with
  | nil => intro s _; rfl
  | cons y rest ih =>
    intro s hl
    rw [opt, ih (s + 1) (fun z hz => hl z (by simp [hz]))]
    simp [item, hl y (by simp), List.replicate_succ']

theorem opt_length {β : Type} (f : Nat → D → D) (O : D → β) (l : List (Bool × D)) : ∀ s, (opt f O s l).length = l.length := by
  induction l with
  | nil => intro s; rfl
  | cons y rest ih => intro s; simp [opt, ih]

theorem ces_invalid (rdy : Bool) (l : List (Bool × D)) : ∀ pv, (∀ x ∈ l, x.1 = false) → ∀ k, (ces rdy pv l).getD k true = true := by
  induction l with
  | nil => intro pv _ k; rfl
  | cons y rest ih =>
    intro pv hl k
    have hy := hl y (by simp)
    cases k with
    | zero => simp [ces, hy]
    | succ k =>
      have := ih y.1 (fun z hz => hl z (by simp [hz])) k
      simpa [ces] using this

/-! ### arithmetic -/

theorem dspAlu_add (v : V) (cin : Bool) : dspAlu opAdd v cin = alu 0 (v.a ++ v.b) 0 v.c cin := by
  have h1 : opAdd.extractLsb' 0 2 = 3 := by decide
  have h2 : opAdd.extractLsb' 2 2 = 0 := by decide
  have h3 : opAdd.extractLsb' 4 3 = 3 := by decide
  simp only [dspAlu, h1, h2, h3]
  rfl

/-- operands of DSP `i` are the parts `i` of the operands -/
def Raw (a b i : Nat) (v : V) : Prop :=
  v.c.toNat = a / 2 ^ (48 * i) % 2 ^ 48 ∧ (v.a ++ v.b).toNat = b / 2 ^ (48 * i) % 2 ^ 48

/-- carry into the part `i` -/
def carry (a b i : Nat) : Nat := (a % 2 ^ (48 * i) + b % 2 ^ (48 * i)) / 2 ^ (48 * i)

theorem limb_eq (a i : Nat) (ha : a < 2 ^ g.W) (hi : 48 * i < g.W) :
    a / 2 ^ (48 * i) % 2 ^ g.width i = a / 2 ^ (48 * i) % 2 ^ 48 := by
  by_cases h : 48 ≤ g.W - 48 * i
  · rw [Cfg.width, Nat.min_eq_left h]
  · rw [Cfg.width, Nat.min_eq_right (by omega)]
    have h1 : a / 2 ^ (48 * i) < 2 ^ (g.W - 48 * i) := by
      rw [Nat.div_lt_iff_lt_mul (Nat.two_pow_pos _), ← Nat.pow_add]
      rwa [show g.W - 48 * i + 48 * i = g.W by omega]
    have h2 : 2 ^ (g.W - 48 * i) ≤ 2 ^ 48 := Nat.pow_le_pow_right (by omega) (by omega)
    rw [Nat.mod_eq_of_lt h1, Nat.mod_eq_of_lt (by omega)]

theorem append_toNat (a : BitVec 30) (b : BitVec 18) : (a ++ b).toNat = a.toNat * 2 ^ 18 + b.toNat := by
  rw [BitVec.toNat_append, ← Nat.shiftLeft_add_eq_or_of_lt b.isLt, Nat.shiftLeft_eq]

theorem raw_in (a b i : Nat) (ha : a < 2 ^ g.W) (hb : b < 2 ^ g.W) (hi : 48 * i < g.W) : Raw a b i (dspIn g a b i) := by
  have la := limb_eq g a i ha hi
  have lb := limb_eq g b i hb hi
  have hw : g.width i ≤ 48 := Nat.min_le_left _ _
  constructor
  · simp only [dspIn, slice, BitVec.toNat_ofNat]
    rw [Nat.mul_comm i 48, Nat.add_sub_cancel_left, la]
    omega
  · rw [append_toNat]
    simp only [dspIn, slice]
    rw [Nat.mul_comm i 48, Nat.add_sub_cancel_left, Nat.add_sub_cancel_left]
    by_cases h : g.width i ≤ 18
    · rw [if_pos h, if_pos h, lb.symm]
      have h1 : b / 2 ^ (48 * i) % 2 ^ g.width i < 2 ^ g.width i := Nat.mod_lt _ (Nat.two_pow_pos _)
      have h2 : 2 ^ g.width i ≤ 2 ^ 18 := Nat.pow_le_pow_right (by omega) h
      rw [BitVec.toNat_ofNat, Nat.mod_eq_of_lt (show _ < 2 ^ 18 by omega)]
      simp
    · rw [if_neg h, if_neg h, ← lb, BitVec.toNat_ofNat, BitVec.toNat_ofNat]
      have e : 48 * i + g.width i - (18 + 48 * i) = g.width i - 18 := by omega
      rw [e]
      have e2 : b / 2 ^ (18 + 48 * i) = b / 2 ^ (48 * i) / 2 ^ 18 := by
        rw [Nat.div_div_eq_div_mul, ← Nat.pow_add, Nat.add_comm]
      rw [e2]
      generalize b / 2 ^ (48 * i) = x
      obtain ⟨k, hk⟩ : ∃ k, g.width i = 18 + k := ⟨g.width i - 18, by omega⟩
      rw [hk, Nat.add_sub_cancel_left, Nat.pow_add, Nat.mod_mul]
      have h3 : x / 2 ^ 18 % 2 ^ k < 2 ^ k := Nat.mod_lt _ (Nat.two_pow_pos _)
      have h4 : 2 ^ k ≤ 2 ^ 30 := Nat.pow_le_pow_right (by omega) (by omega)
      rw [Nat.mod_eq_of_lt (show x / 2 ^ 18 % 2 ^ k < 2 ^ 30 by omega), Nat.mod_mod, Nat.mul_comm, Nat.add_comm]

theorem carry_succ (a b i : Nat) :
    carry a b (i + 1) = (a / 2 ^ (48 * i) % 2 ^ 48 + b / 2 ^ (48 * i) % 2 ^ 48 + carry a b i) / 2 ^ 48 := by
  simp only [carry]
  rw [show 48 * (i + 1) = 48 * i + 48 by omega, Nat.pow_add, Nat.mod_mul, Nat.mod_mul, ← Nat.div_div_eq_div_mul]
  congr 1
  have hM : 0 < 2 ^ (48 * i) := Nat.two_pow_pos _
  generalize 2 ^ (48 * i) = M at *
  rw [show a % M + M * (a / M % 2 ^ 48) + (b % M + M * (b / M % 2 ^ 48))
      = a % M + b % M + M * (a / M % 2 ^ 48 + b / M % 2 ^ 48) by rw [Nat.mul_add]; omega, Nat.add_mul_div_left _ _ hM]
  omega

theorem limb_sum (a b i : Nat) :
    (a + b) / 2 ^ (48 * i) % 2 ^ 48
      = (a / 2 ^ (48 * i) % 2 ^ 48 + b / 2 ^ (48 * i) % 2 ^ 48 + carry a b i) % 2 ^ 48 := by
  simp only [carry]
  have hM : 0 < 2 ^ (48 * i) := Nat.two_pow_pos _
  generalize 2 ^ (48 * i) = M at *
  have h1 := Nat.div_add_mod a M
  have h2 := Nat.div_add_mod b M
  have : (a + b) / M = a / M + b / M + (a % M + b % M) / M := by
    rw [show a + b = a % M + b % M + M * (a / M + b / M) by rw [Nat.mul_add]; omega, Nat.add_mul_div_left _ _ hM]
    omega
  rw [this]
  omega

theorem alu_limb (a b i : Nat) (v : V) (cin : Bool) (hv : Raw a b i v) (hc : cin.toNat = carry a b i) :
    (dspAlu opAdd v cin).1.toNat = (a + b) / 2 ^ (48 * i) % 2 ^ 48 ∧
      (dspAlu opAdd v cin).2.toNat = carry a b (i + 1) := by
  rw [dspAlu_add]
  have h := alu_carry (v.a ++ v.b) v.c cin
  have hl := (alu 0 (v.a ++ v.b) 0 v.c cin).1.isLt
  rw [carry_succ, limb_sum, ← hc, ← hv.1, ← hv.2]
  have e : (v.a ++ v.b).toNat + v.c.toNat = v.c.toNat + (v.a ++ v.b).toNat := Nat.add_comm _ _
  rw [e] at h
  rw [← h]
  constructor <;> omega

/-- data after `m` stages of the pipeline with REG_OUT -/
def Good (a b m : Nat) (d : D) : Prop := ∀ i, i < g.N →
  (m ≤ i + g.regIn.toNat → Raw a b i (d i)) ∧
  (i + g.regIn.toNat < m → (d i).p.toNat = (a + b) / 2 ^ (48 * i) % 2 ^ 48) ∧
  (i + g.regIn.toNat + 1 = m → (d i).co.toNat = carry a b (i + 1))

theorem good_step (a b m : Nat) (d : D) (h : Good g a b m d) : Good g a b (m + 1) (stageOut g (fun _ => opAdd) m d) := by
  intro i hi
  obtain ⟨h1, h2, h3⟩ := h i hi
  rcases Nat.lt_trichotomy m (i + g.regIn.toNat) with hm | hm | hm
  · have e : stageOut g (fun _ => opAdd) m d i = d i := by simp only [stageOut, if_pos hm]
    rw [e]
    exact ⟨fun _ => h1 (by omega), fun _ => by omega, fun _ => by omega⟩
  · have hc : (if i = 0 then false else (d (i - 1)).co).toNat = carry a b i := by
      by_cases h0 : i = 0
      · subst h0; simp [carry, Nat.mod_one]
      · rw [if_neg h0]
        have := (h (i - 1) (by omega)).2.2 (by omega)
        rwa [show i - 1 + 1 = i by omega] at this
    have ha := alu_limb a b i (d i) _ (h1 (by omega)) hc
    have e : stageOut g (fun _ => opAdd) m d i
        = { d i with p := (dspAlu opAdd (d i) (if i = 0 then false else (d (i - 1)).co)).1,
                     co := (dspAlu opAdd (d i) (if i = 0 then false else (d (i - 1)).co)).2 } := by
      simp only [stageOut, if_neg (show ¬ m < i + g.regIn.toNat by omega), if_pos hm]
    rw [e]
    exact ⟨fun _ => by omega, fun _ => ha.1, fun _ => ha.2⟩
  · have e : stageOut g (fun _ => opAdd) m d i = d i := by
      simp only [stageOut, if_neg (show ¬ m < i + g.regIn.toNat by omega), if_neg (show ¬ m = i + g.regIn.toNat by omega)]
    rw [e]
    exact ⟨fun _ => by omega, fun _ => h2 (by omega), fun _ => by omega⟩

theorem good_fin (hO : g.regOut = true) (a b k : Nat) : ∀ m d, Good g a b m d →
    Good g a b (m + k) (fin (stageFn g (fun _ => opAdd)) m k d) := by
  induction k with
  | zero => intro m d h; exact h
  | succ k ih =>
    intro m d h
    have := ih (m + 1) (stageFn g (fun _ => opAdd) m d) (by simp only [stageFn, hO, if_true]; exact good_step g a b m d h)
    rwa [show m + 1 + k = m + (k + 1) by omega] at this

theorem fin_id (hO : g.regOut = false) (k : Nat) : ∀ m d, fin (stageFn g (fun _ => opAdd)) m k d = d := by
  induction k with
  | zero => intro m d; rfl
  | succ k ih =>
    intro m d
    rw [fin, ih]
    simp [stageFn, hO]

theorem ripple_limb (a b : Nat) (d : D) (hd : ∀ i, i < g.N → Raw a b i (d i)) (i : Nat) (hi : i < g.N) :
    (ripple (fun _ => opAdd) d i).1.toNat = (a + b) / 2 ^ (48 * i) % 2 ^ 48 ∧
      (ripple (fun _ => opAdd) d i).2.toNat = carry a b (i + 1) := by
  induction i with
  | zero => exact alu_limb a b 0 (d 0) false (hd 0 hi) (by simp [carry, Nat.mod_one])
  | succ i ih => exact alu_limb a b (i + 1) (d (i + 1)) _ (hd _ hi) (ih (by omega)).2

theorem concat_eq (x : Nat) (p : Nat → BitVec 48) (hW : 0 < g.W)
    (hp : ∀ i, i < g.N → (p i).toNat = x / 2 ^ (48 * i) % 2 ^ 48) : concatP g p g.N = x % 2 ^ g.W := by
  have hN : 48 * (g.N - 1) < g.W ∧ g.W ≤ 48 * g.N ∧ 0 < g.N := by unfold Cfg.N; omega
  have h : ∀ k, k < g.N → concatP g p k = x % 2 ^ (48 * k) := by
    intro k
    induction k with
    | zero => intro _; simp [concatP, Nat.mod_one]
    | succ k ih =>
      intro hk
      have hw : g.width k = 48 := by
        have : 48 * (k + 1) ≤ 48 * (g.N - 1) := Nat.mul_le_mul_left _ (by omega)
        unfold Cfg.width; omega
      rw [concatP, ih (by omega), hp k (by omega), hw, show 48 * (k + 1) = 48 * k + 48 by omega, Nat.pow_add, Nat.mod_mul,
        Nat.mul_comm (2 ^ (48 * k))]
      simp only [slice, Nat.pow_zero, Nat.div_one, Nat.sub_zero]
      rw [Nat.mod_mod]
      omega
  obtain ⟨k, hk⟩ : ∃ k, g.N = k + 1 := ⟨g.N - 1, by omega⟩
  rw [hk, concatP, h k (by omega), hp k (by omega)]
  have hw : g.width k ≤ 48 := Nat.min_le_left _ _
  have hW2 : g.W = 48 * k + g.width k := by unfold Cfg.width; rw [hk] at hN; omega
  conv => rhs; rw [hW2, Nat.pow_add, Nat.mod_mul, Nat.mul_comm (2 ^ (48 * k))]
  simp only [slice, Nat.pow_zero, Nat.div_one, Nat.sub_zero]
  rw [Nat.mod_mod_of_dvd _ (Nat.pow_dvd_pow 2 hw)]
  omega

/-- an item which passes the whole pipeline is the sum -/
theorem result (hW : 0 < g.W) (a b : Nat) (ha : a < 2 ^ g.W) (hb : b < 2 ^ g.W) :
    dout g (fun _ => opAdd) (fin (stageFn g (fun _ => opAdd)) 0 g.stages (dspIn g a b)) = (a + b) % 2 ^ g.W := by
  have hraw : ∀ i, i < g.N → Raw a b i (dspIn g a b i) := by
    intro i hi
    exact raw_in g a b i ha hb (by unfold Cfg.N at hi; omega)
  apply concat_eq g _ _ hW
  intro i hi
  by_cases hO : g.regOut = true
  · have hG : Good g a b 0 (dspIn g a b) := by
      intro i hi
      exact ⟨fun _ => hraw i hi, fun h => by omega, fun h => by omega⟩
    have := good_fin g hO a b g.stages 0 _ hG
    simp only [resP, hO, if_true]
    apply (this i hi).2.1
    have : g.stages = g.regIn.toNat + g.N := by
      unfold Cfg.stages Cfg.cascade
      rw [hO]
      by_cases hc : g.W > 48
      · simp only [hc, decide_true, Bool.and_self, if_true, Bool.toNat_true]; omega
      · simp only [hc, decide_false, Bool.and_false, Bool.false_eq_true, if_false, Bool.toNat_true]
        unfold Cfg.N; omega
    omega
  · have hO : g.regOut = false := by simpa using hO
    rw [fin_id g hO]
    simp only [resP, hO, Bool.false_eq_true, if_false]
    exact (ripple_limb g a b _ hraw i hi).1

/-! ## C394, C395 -/

structure Inv (s : St) : Prop where
  len : s.st.length = g.stages
  pre : s.preload = true → ∀ x ∈ s.st, x.1 = false
  ops : s.preload = false → s.ops = fun _ => opAdd

theorem inv_next (s : St) (i : In) (h : Inv g s) : Inv g ((dspAdd g).next s i) := by
  refine ⟨?_, ?_, ?_⟩
  · simp only [dspAdd, stepPipe_length]; exact h.len
  · intro hp; simp [dspAdd] at hp
  · intro _
    funext k
    cases hp : s.preload with
    | false => simp only [dspAdd, h.ops hp]; simp
    | true =>
      have hc := ces_invalid i.rd s.st (i.vld && !true) (h.pre hp)
      have : ce0 g true (ces i.rd (i.vld && !true) s.st) k = true := by
        simp only [ce0, hc]
        cases g.cascade <;> simp
      simp only [dspAdd, hp]
      rw [if_pos this]

/-- observable stream: sums of accepted items -/
def sums (e : In × Out) : Option Nat := (accepted e).map (fun x => (x.1 + x.2) % 2 ^ g.W)

def q (s : St) : List Nat := up (stageFn g (fun _ => opAdd)) (dout g (fun _ => opAdd)) 0 s.st

theorem q_invalid (s : St) (h : ∀ x ∈ s.st, x.1 = false) : q g s = [] := by
  simp [q, up, opt_invalid _ _ _ _ h]

theorem step_q (hW : 0 < g.W) (s : St) (i : In) (h : Inv g s) (hi : i.a < 2 ^ g.W ∧ i.b < 2 ^ g.W) :
    q g s ++ (sums g (i, (dspAdd g).out s i)).toList
      = (delivered (i, (dspAdd g).out s i)).toList ++ q g ((dspAdd g).next s i) := by
  cases hp : s.preload with
  | true =>
    have h1 := h.pre hp
    have h2 : ∀ x ∈ ((dspAdd g).next s i).st, x.1 = false := by
      simp only [dspAdd, hp]
      exact stepPipe_invalid _ _ _ _ _ _ (by simp) h1
    rw [q_invalid g s h1, q_invalid g _ h2]
    simp [sums, accepted, delivered, dspAdd, hp]
  | false =>
    have ho := h.ops hp
    have hs := step_up (stageFn g (fun _ => opAdd)) (dout g (fun _ => opAdd)) i.rd s.st 0 (i.vld, dspIn g i.a i.b)
    have e1 : (delivered (i, (dspAdd g).out s i)).toList
        = if ((((i.vld, dspIn g i.a i.b) : Bool × D) :: s.st).getLast (by simp)).1 && i.rd then
            [dout g (fun _ => opAdd) ((((i.vld, dspIn g i.a i.b) : Bool × D) :: s.st).getLast (by simp)).2] else [] := by
      simp only [delivered, dspAdd, hp, ho, Bool.not_false, Bool.and_true]
      split <;> rfl
    have e2 : q g ((dspAdd g).next s i)
        = up (stageFn g (fun _ => opAdd)) (dout g (fun _ => opAdd)) 0
            (stepPipe (stageFn g (fun _ => opAdd)) i.rd false 0 (i.vld, dspIn g i.a i.b) s.st) := by
      simp only [q, dspAdd, hp, ho, Bool.not_false, Bool.and_true, Bool.false_and]
    have e3 : (sums g (i, (dspAdd g).out s i)).toList = if i.vld && rdOf s.st i.rd then
        [dout g (fun _ => opAdd) (fin (stageFn g (fun _ => opAdd)) 0 s.st.length (dspIn g i.a i.b))] else [] := by
      rw [h.len, result g hW _ _ hi.1 hi.2]
      simp only [sums, accepted, dspAdd, hp, inReady_eq, Bool.not_false, Bool.and_true]
      split <;> rfl
    rw [e1, e2, e3, q, hs]

theorem reset_inv (s : St) (h : s.reset g) : Inv g s :=
  ⟨h.2.2.1, fun _ => h.2.2.2, fun hp => by rw [h.1] at hp; simp at hp⟩

theorem stages_bound {β : Type} (f : Nat → D → D) (O : D → β) (s : Nat) (l : List (Bool × D)) : (up f O s l).length ≤ l.length := by
  have := List.length_filterMap_le id (opt f O s l)
  rw [opt_length] at this
  exact this

/-- The adder delivers sums of all accepted items in order, nothing else, and at most `stages` items are inside. -/
theorem add_stream (hW : 0 < g.W) (s : St) (hs : s.reset g) (is : List In) (hi : ∀ i ∈ is, i.a < 2 ^ g.W ∧ i.b < 2 ^ g.W) :
    ∃ inside : List Nat, inside.length ≤ g.stages ∧
      (((dspAdd g).trace s is).filterMap accepted).map (fun x => (x.1 + x.2) % 2 ^ g.W)
        = ((dspAdd g).trace s is).filterMap delivered ++ inside := by
  have hm : ∀ e ∈ (dspAdd g).trace s is, e.1.a < 2 ^ g.W ∧ e.1.b < 2 ^ g.W := by
    have : ∀ (is : List In) (s : St), (∀ i ∈ is, i.a < 2 ^ g.W ∧ i.b < 2 ^ g.W) →
        ∀ e ∈ (dspAdd g).trace s is, e.1.a < 2 ^ g.W ∧ e.1.b < 2 ^ g.W := by
      intro is
      induction is with
      | nil => intro s _ e he; simp at he
      | cons i is ih =>
        intro s hi e he
        simp only [Machine.trace_cons, List.mem_cons] at he
        rcases he with rfl | he
        · exact hi i (by simp)
        · exact ih _ (fun j hj => hi j (by simp [hj])) e he
    exact this is s hi
  have h := (dspAdd g).conserve (Inv g) (fun e => e.1.a < 2 ^ g.W ∧ e.1.b < 2 ^ g.W) (q g) (sums g) delivered
    (fun s i h ho => ⟨inv_next g s i h, step_q g hW s i h ho⟩) is s (reset_inv g s hs) hm
  refine ⟨q g ((dspAdd g).final s is), ?_, ?_⟩
  · rw [← h.1.len]; exact stages_bound _ _ _ _
  · have h2 := h.2
    rw [q_invalid g s hs.2.2.2, List.nil_append] at h2
    rw [← h2, List.map_filterMap]
    rfl

def qo (s : St) : List (Option Nat) := opt (stageFn g (fun _ => opAdd)) (dout g (fun _ => opAdd)) 0 s.st

theorem step_qo (hW : 0 < g.W) (s : St) (i : In) (h : Inv g s) (hi : i.a < 2 ^ g.W ∧ i.b < 2 ^ g.W) (hr : i.rd = true) :
    qo g s ++ [sums g (i, (dspAdd g).out s i)]
      = [delivered (i, (dspAdd g).out s i)] ++ qo g ((dspAdd g).next s i) := by
  cases hp : s.preload with
  | true =>
    have h1 := h.pre hp
    have h2 : ∀ x ∈ ((dspAdd g).next s i).st, x.1 = false := by
      simp only [dspAdd, hp]
      exact stepPipe_invalid _ _ _ _ _ _ (by simp) h1
    have e : ((dspAdd g).next s i).st.length = s.st.length := by simp [dspAdd, stepPipe_length]
    rw [qo, qo, opt_invalid _ _ _ _ h1, opt_invalid _ _ _ _ h2, e]
    simp [sums, accepted, delivered, dspAdd, hp, ← List.replicate_succ, ← List.replicate_succ']
  | false =>
    have ho := h.ops hp
    have hs := step_opt (stageFn g (fun _ => opAdd)) (dout g (fun _ => opAdd)) s.st 0 (i.vld, dspIn g i.a i.b)
    have e1 : delivered (i, (dspAdd g).out s i)
        = if ((((i.vld, dspIn g i.a i.b) : Bool × D) :: s.st).getLast (by simp)).1 then
            some (dout g (fun _ => opAdd) ((((i.vld, dspIn g i.a i.b) : Bool × D) :: s.st).getLast (by simp)).2) else none := by
      simp only [delivered, dspAdd, hp, ho, Bool.not_false, Bool.and_true, hr]
    have e2 : qo g ((dspAdd g).next s i)
        = opt (stageFn g (fun _ => opAdd)) (dout g (fun _ => opAdd)) 0
            (stepPipe (stageFn g (fun _ => opAdd)) true false 0 (i.vld, dspIn g i.a i.b) s.st) := by
      simp only [qo, dspAdd, hp, ho, Bool.not_false, Bool.and_true, Bool.false_and, hr]
    have e3 : sums g (i, (dspAdd g).out s i) = if i.vld then
        some (dout g (fun _ => opAdd) (fin (stageFn g (fun _ => opAdd)) 0 s.st.length (dspIn g i.a i.b))) else none := by
      rw [h.len, result g hW _ _ hi.1 hi.2]
      simp only [sums, accepted, dspAdd, hp, inReady_eq, Bool.not_false, Bool.and_true, hr, rdOf, Bool.or_true]
      split <;> rfl
    rw [e1, e2, e3, qo, ← hs]
    rfl

/-- If the consumer is always ready the sum is delivered exactly `stages` clock cycles after its operands were accepted and the
adder accepts operands in every clock cycle except of the first one after reset. -/
theorem add_latency (hW : 0 < g.W) (s : St) (hs : s.reset g) (is : List In)
    (hi : ∀ i ∈ is, i.a < 2 ^ g.W ∧ i.b < 2 ^ g.W) (hr : ∀ i ∈ is, i.rd = true) :
    ((dspAdd g).trace s is).map delivered
        = (List.replicate g.stages none ++
            ((dspAdd g).trace s is).map (fun e => (accepted e).map (fun x : Nat × Nat => (x.1 + x.2) % 2 ^ g.W))).take is.length ∧
      ((dspAdd g).trace s is).map (fun e => e.2.rd) = (false :: List.replicate (is.length - 1) true).take is.length := by
  have hm : ∀ (is : List In) (s : St), (∀ i ∈ is, i.a < 2 ^ g.W ∧ i.b < 2 ^ g.W) → (∀ i ∈ is, i.rd = true) →
      ∀ e ∈ (dspAdd g).trace s is, (e.1.a < 2 ^ g.W ∧ e.1.b < 2 ^ g.W) ∧ e.1.rd = true := by
    intro is
    induction is with
    | nil => intro s _ _ e he; simp at he
    | cons i is ih =>
      intro s hi hr e he
      simp only [Machine.trace_cons, List.mem_cons] at he
      rcases he with rfl | he
      · exact ⟨hi i (by simp), hr i (by simp)⟩
      · exact ih _ (fun j hj => hi j (by simp [hj])) (fun j hj => hr j (by simp [hj])) e he
  constructor
  · have h := (dspAdd g).conserveL (Inv g) (fun e => (e.1.a < 2 ^ g.W ∧ e.1.b < 2 ^ g.W) ∧ e.1.rd = true) (qo g)
      (fun e => [sums g e]) (fun e => [delivered e])
      (fun s i h ho => ⟨inv_next g s i h, step_qo g hW s i h ho.1 ho.2⟩) is s (reset_inv g s hs) (hm is s hi hr)
    have h2 := h.2
    have e1 : qo g s = List.replicate g.stages none := by
      rw [qo, opt_invalid _ _ _ _ hs.2.2.2, hs.2.2.1]
    have e2 : ∀ (f : In × Out → Option Nat) (l : List (In × Out)), l.flatMap (fun e => [f e]) = l.map f := by
      intro f l; induction l with
      | nil => rfl
      | cons a l ih => simp [List.flatMap_cons, ih]
    rw [e1, e2, e2] at h2
    have h3 := congrArg (List.take is.length) h2
    rw [List.take_append_of_le_length (by simp) (l₁ := List.map delivered _), List.take_of_length_le (by simp) (l := List.map delivered _)] at h3
    exact h3.symm
  · have hgo : ∀ (is : List In) (s : St), s.preload = false → (∀ i ∈ is, i.rd = true) →
        ((dspAdd g).trace s is).map (fun e => e.2.rd) = List.replicate is.length true := by
      intro is
      induction is with
      | nil => intro s _ _; rfl
      | cons i is ih =>
        intro s hp hr
        have h1 : ((dspAdd g).out s i).rd = true := by
          simp [dspAdd, inReady_eq, rdOf, hp, hr i (by simp)]
        simp only [Machine.trace_cons, List.map_cons, h1, List.length_cons, List.replicate_succ]
        rw [ih _ (by rfl) (fun j hj => hr j (by simp [hj]))]
    cases is with
    | nil => rfl
    | cons i is =>
      have h1 : ((dspAdd g).out s i).rd = false := by simp [dspAdd, hs.1]
      simp only [Machine.trace_cons, List.map_cons, h1]
      rw [hgo is _ (by rfl) (fun j hj => hr j (by simp [hj]))]
      simp

/-- 96 bit adder with registers on both sides: carry from the lower DSP, stalled consumer -/
example :
    let g : Cfg := ⟨96, true, true⟩
    let v : V := ⟨7, 7, 7, 7, true⟩
    let s : St := ⟨true, fun _ => 0, List.replicate 3 (false, fun _ => v)⟩
    s.reset g ∧ g.stages = 3 ∧
      ((dspAdd g).trace s [⟨true, 9, 9, true⟩, ⟨true, 2 ^ 48 - 1, 1, false⟩, ⟨true, 2 ^ 96 - 1, 2 ^ 95, false⟩, ⟨false, 0, 0, false⟩,
        ⟨false, 0, 0, false⟩, ⟨false, 0, 0, true⟩, ⟨false, 0, 0, true⟩]).filterMap delivered = [2 ^ 48, 2 ^ 95 - 1] := by
  refine ⟨⟨rfl, fun _ => rfl, rfl, ?_⟩, rfl, by decide +kernel⟩
  intro x hx
  exact (List.eq_of_mem_replicate hx) ▸ rfl

end Verif.Dsp48Add
