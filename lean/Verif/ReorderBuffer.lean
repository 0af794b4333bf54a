import Verif.HsReg
import Mathlib.Data.List.Induction
/-!
# Model of `ReorderBuffer` (hwtLib/amba/axi_comp/oooOp/reorder_buffer.py)

`N = 2 ** ID_WIDTH`. The RAM has a write only and a read only port (hwtLib/mem/ram.py:112-126), both read the contents before
the clock edge. `RamAsAddrDataRdVld` is write only (`w.rd = 1`, ramAsAddrDataRdVld.py:138-146) and read only (:69-103, :131-136).
The data type `T` is the type `α`, the `_reinterpret_cast` are left out.
-/
namespace Verif.ReorderBuffer

universe u
variable {α : Type u}

/-- Registers: `dataIn_reg` (:113), `item_occ` (:103), `out_cntr` (:133), the RAM and `read_logic` of `storage_r`. -/
structure St (α : Type u) where
  reg : HsReg.Stage (Nat × α)
  occ : Nat → Bool
  cntr : Nat
  mem : Nat → α
  dout : α
  pend : Bool
  vld : Bool
  data : α
  ovVld : Bool
  ovData : α

/-- `dataIn` and `dataOut.rd` -/
structure In (α : Type u) where
  vld : Bool
  id : Nat
  data : α
  rd : Bool

/-- `dataIn.rd` and `dataOut` -/
structure Out (α : Type u) where
  rd : Bool
  vld : Bool
  data : α

/-- `dataIn_reg.rd`: ready of the write port is 1, `extraConds` of the master (:118-123) -/
def regRd (s : St α) : Bool := !s.occ s.reg.reg.1
/-- `storage_w.w.vld`: the extra condition of the master does not belong to it (streamNode.py `ackForSlave`) -/
def wVld (s : St α) : Bool := s.reg.occ
/-- `sn_in.ack()` (:126) -/
def inAck (s : St α) : Bool := s.reg.occ && !s.occ s.reg.reg.1
/-- `rEn` (ramAsAddrDataRdVld.py:79) -/
def rEn (s : St α) (i : In α) : Bool := (!s.ovVld || i.rd) && (!s.vld || i.rd)
/-- `storage_r.r.addr.vld` (:134-139) -/
def aVld (s : St α) : Bool := s.occ s.cntr
/-- `sn_addr.ack()` (:141) -/
def aAck (s : St α) (i : In α) : Bool := rEn s i && s.occ s.cntr

def out (s : St α) (_ : In α) : Out α := ⟨HsReg.stageRd s.reg (regRd s), s.vld, s.data⟩

def next (N : Nat) (s : St α) (i : In α) : St α where
  reg := HsReg.stageNext s.reg i.vld (i.id, i.data) (regRd s)
  occ j := (s.occ j || (inAck s && j == s.reg.reg.1)) && !(aAck s i && j == s.cntr)
  cntr := if aAck s i then (s.cntr + 1) % N else s.cntr
  mem := if wVld s then upd s.mem s.reg.reg.1 s.reg.reg.2 else s.mem
  dout := if rEn s i && aVld s then s.mem s.cntr else s.dout
  pend := aVld s && rEn s i
  vld := if s.pend then (if !s.vld || i.rd then true else s.vld) else (if i.rd then s.ovVld else s.vld)
  data := if s.pend then (if !s.vld || i.rd then s.dout else s.data) else (if i.rd then s.ovData else s.data)
  ovVld := if s.pend then (if !s.vld || i.rd then false else true) else (if i.rd then false else s.ovVld)
  ovData := if s.pend then (if !s.vld || i.rd then s.ovData else s.dout) else s.ovData

def machine (N : Nat) : Machine (St α) (In α) (Out α) := ⟨out, next N⟩

/-- Reset state, the contents of the RAM and of the data registers are arbitrary. -/
structure IsInit (s : St α) : Prop where
  reg : s.reg.occ = false
  occ : ∀ j, s.occ j = false
  cntr : s.cntr = 0
  pend : s.pend = false
  vld : s.vld = false
  ovVld : s.ovVld = false

/-! ## Observations -/

/-- Words taken on `dataIn`. -/
def accepted (tr : List (In α × Out α)) : List (Nat × α) :=
  tr.filterMap fun e => if e.1.vld && e.2.rd then some (e.1.id, e.1.data) else none

/-- Words given on `dataOut`. -/
def delivered (tr : List (In α × Out α)) : List α :=
  tr.filterMap fun e => if e.2.vld && e.1.rd then some e.2.data else none

/-- The words with id `j`. -/
def withId (acc : List (Nat × α)) (j : Nat) : List α := (acc.filter fun e => e.1 == j).map Prod.snd

/-- Word number `n` of the sequence: the ids run round, the word has the id `n % N` and it is the `n / N`-th one with it. -/
def item (N : Nat) (acc : List (Nat × α)) (n : Nat) : Option α := (withId acc (n % N))[n / N]?

/-- The source never runs ahead: it sends a word of the sequence only if the word `N` numbers before (which has the same id)
was delivered. -/
def Window (N : Nat) (tr : List (In α × Out α)) : Prop :=
  ∀ pre e, pre ++ [e] <+: tr → e.1.vld = true → e.2.rd = true →
    (withId (accepted pre) e.1.id).length * N + e.1.id < (delivered pre).length + N

/-! ## Proof internals -/

/-- number of the `n < I` with `n % N = j` -/
def isd (N j I : Nat) : Nat := I / N + if j < I % N then 1 else 0

theorem isd_succ {N j I : Nat} (hN : 0 < N) (hj : j < N) :
    isd N j (I + 1) = isd N j I + if j = I % N then 1 else 0 := by
  have hm := Nat.mod_lt I hN
  have e := Nat.div_add_mod I N
  unfold isd
  by_cases h : I % N + 1 = N
  · have h1 : I + 1 = N * (I / N + 1) := by rw [Nat.mul_add]; omega
    rw [h1, Nat.mul_div_cancel_left _ hN, Nat.mul_mod_right]
    split <;> split <;> split <;> omega
  · have h1 : I + 1 = (I % N + 1) + N * (I / N) := by omega
    have h2 : (I + 1) / N = I / N := by
      rw [h1, Nat.add_mul_div_left _ _ hN, Nat.div_eq_of_lt (by omega), Nat.zero_add]
    have h3 : (I + 1) % N = I % N + 1 := by
      rw [h1, Nat.add_mul_mod_self_left, Nat.mod_eq_of_lt (by omega)]
    rw [h2, h3]
    split <;> split <;> split <;> omega

theorem isd_self {N I : Nat} : isd N (I % N) I = I / N := by simp [isd]

theorem isd_ge {N j k I : Nat} (hN : 0 < N) (h : k * N + j < I + N) : k ≤ isd N j I := by
  unfold isd
  cases k with
  | zero => exact Nat.zero_le _
  | succ k =>
    rw [Nat.add_mul, Nat.one_mul] at h
    have h1 : k ≤ I / N := (Nat.le_div_iff_mul_le hN).2 (by omega)
    rcases Nat.lt_or_ge k (I / N) with h2 | h2
    · omega
    · have e := Nat.div_add_mod I N
      have : I / N = k := by omega
      rw [this, Nat.mul_comm] at e
      rw [if_pos (by omega)]
      omega

def q (s : St α) : List α := given s.vld s.data ++ given s.ovVld s.ovData ++ given s.pend s.dout

structure Inv (N : Nat) (ac : List (Nat × α)) (dl : List α) (s : St α) (W : List (Nat × α)) (I : Nat) : Prop where
  acc : ac = W ++ given s.reg.occ s.reg.reg
  ids : ∀ e ∈ ac, e.1 < N
  cntr : s.cntr = I % N
  occ : ∀ j, j < N → (withId W j).length = isd N j I + if s.occ j then 1 else 0
  mem : ∀ j, j < N → s.occ j = true → (withId W j)[isd N j I]? = some (s.mem j)
  q : (dl ++ q s).map some = (List.range I).map (item N W)
  free : s.reg.occ = true → s.occ s.reg.reg.1 = false
  ov : s.ovVld = true → s.vld = true ∧ s.pend = false

theorem withId_append (a b : List (Nat × α)) (j : Nat) : withId (a ++ b) j = withId a j ++ withId b j := by
  simp [withId]

theorem withId_one (e : Nat × α) (j : Nat) : withId [e] j = given (e.1 == j) e.2 := by
  unfold withId
  cases h : e.1 == j <;> simp [h]

theorem item_mono {N n : Nat} {W V : List (Nat × α)} {d : α} (h : item N W n = some d) : item N (W ++ V) n = some d := by
  unfold item at *
  rw [withId_append, List.getElem?_append_left (List.getElem?_eq_some_iff.1 h).1, h]

theorem items_mono {N I : Nat} {W V : List (Nat × α)} {l : List α} (h : l.map some = (List.range I).map (item N W)) :
    l.map some = (List.range I).map (item N (W ++ V)) := by
  rw [h]
  apply List.map_congr_left
  intro n hn
  have hl : n < l.length := by
    have := congrArg List.length h
    simp at this hn
    omega
  have := congrArg (fun l => l[n]?) h
  simp only [List.getElem?_map, List.getElem?_range (List.mem_range.1 hn)] at this
  rw [List.getElem?_eq_getElem hl] at this
  simp only [Option.map_some, Option.some.injEq] at this
  rw [← this, item_mono this.symm]

theorem inv_init {N : Nat} {s : St α} (h : IsInit s) : Inv N [] [] s [] 0 := by
  obtain ⟨h1, h2, h3, h4, h5, h6⟩ := h
  constructor <;> simp_all [withId, isd, q]

theorem inv_step {N : Nat} (hN : 0 < N) {acc : List (Nat × α)} {dl : List α} {s : St α} {W I} (h : Inv N acc dl s W I) (i : In α)
    (hid : i.id < N)
    (hw : i.vld = true → (out s i).rd = true → (withId acc i.id).length * N + i.id < dl.length + N) :
    Inv N (acc ++ given (i.vld && (out s i).rd) (i.id, i.data)) (dl ++ given ((out s i).vld && i.rd) (out s i).data)
      (next N s i) (W ++ given s.reg.occ s.reg.reg) (if aAck s i then I + 1 else I) := by
  obtain ⟨hacc, hids, hcn, hocc, hmem, hq, hfree, hov⟩ := h
  have hrr : s.reg.occ = true → regRd s = true := by intro h; simp [regRd, hfree h]
  have hrid : s.reg.occ = true → s.reg.reg.1 < N := by
    intro h
    apply hids s.reg.reg
    rw [hacc, h]; simp
  have hia : inAck s = s.reg.occ := by
    unfold inAck
    cases h : s.reg.occ
    · rfl
    · rw [hfree h]; rfl
  have hrd : (out s i).rd = true := by
    simp only [out, HsReg.stageRd]
    split
    · exact hrr (by assumption)
    · rfl
  have hlt := Nat.mod_lt I hN
  have hdl : dl.length ≤ I := by
    have := congrArg List.length hq
    simp at this
    omega
  have hreg : (next N s i).reg.occ = i.vld ∧ (i.vld = true → (next N s i).reg.reg = (i.id, i.data)) := by
    simp only [next, HsReg.stageNext, HsReg.stageWe]
    rcases Bool.eq_false_or_eq_true s.reg.occ with ho | ho
    · have := hrr ho
      cases hv : i.vld <;> simp [ho, this]
    · cases hv : i.vld <;> simp [ho]
  have hacc' : acc ++ given (i.vld && (out s i).rd) (i.id, i.data) =
      (W ++ given s.reg.occ s.reg.reg) ++ given (next N s i).reg.occ (next N s i).reg.reg := by
    rw [← hacc, hrd, Bool.and_true, hreg.1]
    cases hv : i.vld
    · rfl
    · rw [hreg.2 hv]
  have hI : ∀ j, j < N → isd N j (if aAck s i then I + 1 else I) = isd N j I + if aAck s i && j == s.cntr then 1 else 0 := by
    intro j hj
    cases ha : aAck s i
    · simp
    · simp [isd_succ hN hj, hcn]
  have haocc : aAck s i = true → s.occ s.cntr = true := by
    intro ha
    simp only [aAck, Bool.and_eq_true] at ha
    exact ha.2
  have hoc : ∀ j, j < N → (withId (W ++ given s.reg.occ s.reg.reg) j).length =
      isd N j (if aAck s i then I + 1 else I) + if (next N s i).occ j then 1 else 0 := by
    intro j hj
    have h0 := hocc j hj
    rw [hI j hj, withId_append, List.length_append, h0]
    simp only [next, hia]
    by_cases hc : aAck s i = true ∧ j = s.cntr
    · obtain ⟨ha, rfl⟩ := hc
      have hoc := haocc ha
      have : (withId (given s.reg.occ s.reg.reg) s.cntr).length = 0 := by
        cases ho : s.reg.occ
        · rfl
        · have := hfree ho
          rw [given_true, withId_one]
          by_cases he : s.reg.reg.1 = s.cntr
          · rw [he, hoc] at this; cases this
          · have : (s.reg.reg.1 == s.cntr) = false := by simpa using he
            rw [this]; rfl
      simp [this, ha, hoc]
    · have : (aAck s i && j == s.cntr) = false := by
        rw [Bool.and_eq_false_iff]
        by_cases ha : aAck s i = true
        · right; simpa using fun h => hc ⟨ha, h⟩
        · left; simpa using ha
      rw [this]
      cases ho : s.reg.occ
      · simp [withId]
      · rw [given_true, withId_one]
        have hf := hfree ho
        by_cases he : j = s.reg.reg.1
        · subst he; simp [hf]
        · have e1 : (s.reg.reg.1 == j) = false := by simpa using fun h => he h.symm
          have e2 : (j == s.reg.reg.1) = false := by simpa using he
          rw [e1, e2]; simp
  refine ⟨hacc', ?_, ?_, hoc, ?_, ?_, ?_, ?_⟩
  · intro e he
    rw [List.mem_append] at he
    rcases he with he | he
    · exact hids e he
    · rw [hrd, Bool.and_true] at he
      cases hv : i.vld <;> rw [hv] at he <;> simp at he
      rw [he]; exact hid
  · simp only [next]
    split
    · rw [hcn]; simp
    · exact hcn
  · intro j hj hn
    have hno : (aAck s i && j == s.cntr) = false := by
      simp only [next, Bool.and_eq_true, Bool.not_eq_true'] at hn
      exact hn.2
    rw [hI j hj, hno]
    simp only [Bool.false_eq_true, if_false, Nat.add_zero]
    rw [withId_append]
    have h0 := hocc j hj
    cases ho : s.occ j
    · -- just written
      rw [ho] at h0
      simp at h0
      have hw : s.reg.occ = true ∧ j = s.reg.reg.1 := by
        simp only [next, hia, ho, hno] at hn
        simpa using hn
      have : withId (given s.reg.occ s.reg.reg) j = [s.reg.reg.2] := by
        rw [hw.1, given_true, withId_one, hw.2]; simp
      rw [this, ← h0, List.getElem?_append_right (Nat.le_refl _)]
      simp [next, wVld, hw.1, hw.2]
    · have hm := hmem j hj ho
      rw [List.getElem?_append_left (List.getElem?_eq_some_iff.1 hm).1, hm]
      have hmj : (next N s i).mem j = s.mem j := by
        unfold next wVld
        rcases Bool.eq_false_or_eq_true s.reg.occ with hr | hr
        · simp only [hr, if_true]
          rw [upd_ne]
          intro he
          have := hfree hr
          rw [← he, ho] at this; cases this
        · simp [hr]
      rw [hmj]
  · -- output side
    have hqs : (dl ++ given ((out s i).vld && i.rd) (out s i).data) ++ q (next N s i) =
        (dl ++ q s) ++ given (aAck s i) (s.mem s.cntr) := by
      have e : aVld s = s.occ s.cntr := rfl
      rw [List.append_assoc, List.append_assoc]
      congr 1
      simp only [q, next, out, aAck, aVld]
      have := hov
      rcases Bool.eq_false_or_eq_true (s.occ s.cntr) with hc | hc <;> rcases Bool.eq_false_or_eq_true s.vld with hv | hv <;>
        rcases Bool.eq_false_or_eq_true s.pend with hp | hp <;> rcases Bool.eq_false_or_eq_true s.ovVld with ho | ho <;>
        simp [hv, hp, ho] at this <;> rcases Bool.eq_false_or_eq_true i.rd with hr | hr <;> simp [rEn, hc, hv, hp, ho, hr]
    rw [hqs, List.map_append (l₁ := dl ++ q s)]
    cases ha : aAck s i
    · simpa using items_mono hq
    · rw [if_pos rfl, List.range_succ, List.map_append (l₁ := List.range I), ← items_mono hq]
      congr 1
      have hm := hmem s.cntr (by omega) (haocc ha)
      rw [hcn, isd_self] at hm
      have : item N W I = some (s.mem (I % N)) := hm
      simp [item_mono this, hcn]
  · intro hr
    rw [hreg.1] at hr
    rw [hreg.2 hr]
    have h1 := hw hr hrd
    rw [hacc] at h1
    have h2 := hoc i.id hid
    have h3 : (withId (W ++ given s.reg.occ s.reg.reg) i.id).length ≤ isd N i.id (if aAck s i then I + 1 else I) := by
      apply isd_ge hN
      split <;> omega
    cases hn : (next N s i).occ i.id
    · rfl
    · rw [hn] at h2; simp at h2; omega
  · simp only [next]
    have := hov
    rcases Bool.eq_false_or_eq_true s.vld with hv | hv <;>
      rcases Bool.eq_false_or_eq_true s.pend with hp | hp <;> rcases Bool.eq_false_or_eq_true s.ovVld with ho | ho <;>
      simp [hv, hp, ho] at this <;> rcases Bool.eq_false_or_eq_true i.rd with hr | hr <;> simp [rEn, hv, hp, ho, hr]

theorem accepted_cons (e : In α × Out α) (tr : List (In α × Out α)) :
    accepted (e :: tr) = given (e.1.vld && e.2.rd) (e.1.id, e.1.data) ++ accepted tr :=
  filterMap_cons_ite (fun e : In α × Out α => e.1.vld && e.2.rd) (fun e => (e.1.id, e.1.data)) e tr

theorem delivered_cons (e : In α × Out α) (tr : List (In α × Out α)) :
    delivered (e :: tr) = given (e.2.vld && e.1.rd) e.2.data ++ delivered tr :=
  filterMap_cons_ite (fun e : In α × Out α => e.2.vld && e.1.rd) (fun e => e.2.data) e tr

theorem accepted_append (a b : List (In α × Out α)) : accepted (a ++ b) = accepted a ++ accepted b := List.filterMap_append
theorem delivered_append (a b : List (In α × Out α)) : delivered (a ++ b) = delivered a ++ delivered b := List.filterMap_append

def WinFrom (N : Nat) (ac : List (Nat × α)) (dl : List α) (tr : List (In α × Out α)) : Prop :=
  ∀ pre e, pre ++ [e] <+: tr → e.1.vld = true → e.2.rd = true →
    (withId (ac ++ accepted pre) e.1.id).length * N + e.1.id < (dl ++ delivered pre).length + N

theorem winFrom_append {N : Nat} {ac : List (Nat × α)} {dl : List α} {t1 t2 : List (In α × Out α)} (h : WinFrom N ac dl (t1 ++ t2)) :
    WinFrom N ac dl t1 ∧ WinFrom N (ac ++ accepted t1) (dl ++ delivered t1) t2 := by
  refine ⟨fun pre e hp => h pre e (hp.trans (List.prefix_append _ _)), fun pre e hp h1 h2 => ?_⟩
  have := h (t1 ++ pre) e (by rw [List.append_assoc]; exact (List.prefix_append_right_inj t1).2 hp) h1 h2
  rw [accepted_append, delivered_append] at this
  simpa only [List.append_assoc] using this

theorem occ_of_item {N : Nat} (hN : 0 < N) {ac : List (Nat × α)} {dl : List α} {s : St α} {W I} (h : Inv N ac dl s W I)
    (hi : item N W I ≠ none) : s.occ s.cntr = true := by
  have h1 := h.occ (I % N) (Nat.mod_lt I hN)
  rw [isd_self] at h1
  rw [h.cntr]
  cases ho : s.occ (I % N)
  · rw [ho] at h1
    simp at h1
    exact absurd (List.getElem?_eq_none (by omega)) hi
  · rfl

theorem rEn_rd (s : St α) (i : In α) (h : i.rd = true) : rEn s i = true := by simp [rEn, h]

theorem item_grow {N n : Nat} {W V : List (Nat × α)} (hp : W <+: V) (h : item N W n ≠ none) : item N V n ≠ none := by
  obtain ⟨d, hd⟩ := Option.ne_none_iff_exists'.1 h
  obtain ⟨X, rfl⟩ := hp
  rw [item_mono hd]; simp

theorem inv_run {N : Nat} (hN : 0 < N) (is : List (In α)) {ac : List (Nat × α)} {dl : List α} {s : St α} {W I}
    (h : Inv N ac dl s W I) (hid : ∀ i ∈ is, i.id < N) (hw : WinFrom N ac dl ((machine N).trace s is)) :
    ∃ W' I', Inv N (ac ++ accepted ((machine N).trace s is)) (dl ++ delivered ((machine N).trace s is)) ((machine N).final s is) W' I' ∧
      W <+: W' ∧ ∀ n, (∀ i ∈ is, i.rd = true) → (∀ k, k < n → item N W k ≠ none) → min n (I + is.length) ≤ I' := by
  induction is generalizing ac dl s W I with
  | nil =>
    refine ⟨W, I, by simpa [accepted, delivered] using h, List.prefix_refl _, fun n _ _ => ?_⟩
    simp; omega
  | cons i is ih =>
    have hw' := winFrom_append (t1 := [(i, out s i)]) (t2 := (machine N).trace (next N s i) is) hw
    have hs := inv_step hN h i (hid i (by simp)) (fun h1 h2 => by
      have := hw [] (i, out s i) ⟨_, rfl⟩ h1 h2
      simpa [accepted, delivered] using this)
    have e1 : accepted [(i, out s i)] = given (i.vld && (out s i).rd) (i.id, i.data) := by
      rw [accepted_cons]; simp [accepted]
    have e2 : delivered [(i, out s i)] = given ((out s i).vld && i.rd) (out s i).data := by
      rw [delivered_cons]; simp [delivered]
    rw [e1, e2] at hw'
    obtain ⟨W', I', k1, k2, k3⟩ := ih hs (fun i hi => hid i (List.mem_cons_of_mem _ hi)) hw'.2
    refine ⟨W', I', ?_, (List.prefix_append _ _).trans k2, fun n hr hk => ?_⟩
    · rw [Machine.trace_cons, accepted_cons, delivered_cons, ← List.append_assoc, ← List.append_assoc]
      exact k1
    · have hg : ∀ k, k < n → item N (W ++ given s.reg.occ s.reg.reg) k ≠ none :=
        fun k hk' => item_grow (List.prefix_append _ _) (hk k hk')
      have := k3 n (fun i hi => hr i (List.mem_cons_of_mem _ hi)) hg
      rw [List.length_cons]
      by_cases hI : I < n
      · have ha : aAck s i = true := by
          simp [aAck, rEn_rd s i (hr i (by simp)), occ_of_item hN h (hk I hI)]
        rw [ha] at this
        simp at this
        omega
      · split at this <;> omega

/-- Two cycles with `dataOut.rd` deliver what was read from the RAM. -/
theorem drain {N : Nat} {s : St α} (hov : s.ovVld = true → s.vld = true ∧ s.pend = false) (a b : In α) (ha : a.rd = true)
    (hb : b.rd = true) : (q s).length ≤ (delivered ((machine N).trace s [a, b])).length := by
  rw [Machine.trace_cons, Machine.trace_cons, delivered_cons, delivered_cons]
  simp only [machine, out, ha, hb, Bool.and_true, q, next, if_true, Bool.or_true]
  rcases Bool.eq_false_or_eq_true s.vld with hv | hv <;>
    rcases Bool.eq_false_or_eq_true s.pend with hp | hp <;> rcases Bool.eq_false_or_eq_true s.ovVld with ho | ho <;>
    simp [hv, hp, ho] at hov <;> simp [hv, hp, ho, delivered]

end Verif.ReorderBuffer
