import Verif.AxiToAvmm
import Mathlib.Data.List.Induction

/-!
# Properties of `Axi4_to_AvalonMm` (C179 - C182)
-/

namespace Verif.AxiToAvmm

open Verif

variable {α : Type}

/-! ## Specification -/

/-- the words of the bursts on Avalon -/
def words (l : List Addr) : List (Nat × Nat) := l.flatMap fun a => List.replicate (a.len + 1) (a.addr, a.len + 1)
/-- `last` of the words of the bursts -/
def lasts (l : List Addr) : List Bool := l.flatMap fun a => List.replicate a.len false ++ [true]
/-- the ids of the bursts of which all words are among the first `n` words -/
def doneIds : List Addr → Nat → List Nat
  | [], _ => []
  | a :: as, n => if a.len + 1 ≤ n then a.id :: doneIds as (n - (a.len + 1)) else []
/-- the words (id, last) which answer the read requests -/
def beats (id : Nat) (n : Nat) : List (Nat × Bool) := List.replicate n (id, false) ++ [(id, true)]
def answer (l : List Addr) : List (Nat × Bool) := l.flatMap fun a => beats a.id a.len

/-- the Avalon slave provides data only for reads which it accepted in previous clocks -/
def SlaveOk (tr : List (In α × Out α)) : Prop :=
  ∀ i, i < tr.length → (avData (tr.take (i + 1))).length ≤ ((avReads (tr.take i)).map Prod.snd).sum

/-- no read request which waits together with a write -/
def NoBlockedRead (e : In α × Out α) : Prop :=
  ¬(e.1.arV = true ∧ e.2.arRd = false ∧ e.1.awV = true ∧ e.1.wV = true)

/-! ## Observations of one more step -/

theorem ars_snoc (tr : List (In α × Out α)) (e) : ars (tr ++ [e]) = ars tr ++ given (e.1.arV && e.2.arRd) e.1.ar := by
  simp [ars]
theorem aws_snoc (tr : List (In α × Out α)) (e) : aws (tr ++ [e]) = aws tr ++ given (e.1.awV && e.2.awRd) e.1.aw := by
  simp [aws]
theorem ws_snoc (tr : List (In α × Out α)) (e) :
    ws (tr ++ [e]) = ws tr ++ given (e.1.wV && e.2.wRd) (e.1.wData, e.1.wLast) := by simp [ws]
theorem bs_snoc (tr : List (In α × Out α)) (e) :
    bs (tr ++ [e]) = bs tr ++ (if e.1.bR then e.2.b.toList else []) := by simp [bs]
theorem rs_snoc (tr : List (In α × Out α)) (e) :
    rs (tr ++ [e]) = rs tr ++ (if e.1.rR then e.2.r.toList else []) := by simp [rs]
theorem avReads_snoc (tr : List (In α × Out α)) (e) :
    avReads (tr ++ [e]) = avReads tr ++ given (e.2.read && !e.1.wait) (e.2.address, e.2.burst) := by simp [avReads]
theorem avWrites_snoc (tr : List (In α × Out α)) (e) :
    avWrites (tr ++ [e]) = avWrites tr ++ given (e.2.write && !e.1.wait) (e.2.address, e.2.burst, e.1.wData) := by
  simp [avWrites]
theorem avData_snoc (tr : List (In α × Out α)) (e) : avData (tr ++ [e]) = avData tr ++ given e.1.rdv e.1.rdata := by
  simp [avData]

/-! ## The read requests -/

def pendR (t : Tmp) : List (Nat × Nat) := given (t.vld && !t.isW) (t.addr, t.lenO + 1)

theorem arEn_idle (c : Cfg) (s : St α) (x : In α) (h : arEn c s x = true) :
    willBeIdle s x = true ∧ x.arV = true ∧ c.fit x.ar.len < s.cap ∧ x.szRd = true := by
  unfold arEn arEn0 at h
  split at h <;> simp at h
  · exact ⟨h.1.1.1, h.1.1.2, h.1.2, h.2⟩
  · exact ⟨h.1.1.1.1.1, h.1.1.1.1.2, h.1.1.1.2, h.1.1.2⟩

theorem ar_acc (c : Cfg) (s : St α) (x : In α) : (x.arV && (out c s x).arRd) = arEn c s x := by
  rcases Bool.eq_false_or_eq_true (arEn c s x) with h | h
  · have h2 := arEn_idle c s x h
    simp [out, h, h2.1, h2.2.1]
  · simp [out, h]

theorem arEn_false (c : Cfg) (s : St α) (x : In α) (h : willBeIdle s x = false) : arEn c s x = false := by
  rcases Bool.eq_false_or_eq_true (arEn c s x) with h1 | h1
  · have h2 := (arEn_idle c s x h1).1
    rw [h] at h2
    exact absurd h2 (by simp)
  · exact h1

theorem idle_cases (s : St α) (x : In α) (h : willBeIdle s x = true) :
    s.tmp.vld = false ∨ (s.tmp.vld = true ∧ s.tmp.isW = false ∧ x.wait = false) ∨
      (s.tmp.vld = true ∧ s.tmp.isW = true ∧ x.wait = false ∧ s.tmp.len = 0 ∧ x.wV = true ∧ x.bR = true) := by
  unfold willBeIdle at h
  cases h1 : s.tmp.vld <;> cases h2 : s.tmp.isW <;> cases h3 : x.wait <;> simp_all

theorem notIdle_cases (s : St α) (x : In α) (h : willBeIdle s x = false) : s.tmp.vld = true ∧
    ((s.tmp.isW = false ∧ x.wait = true) ∨ (s.tmp.isW = true ∧
      (x.wait = true ∨ x.wV = false ∨ s.tmp.len ≠ 0 ∨ x.bR = false))) := by
  unfold willBeIdle at h
  cases h1 : s.tmp.vld <;> cases h2 : s.tmp.isW <;> cases h3 : x.wait <;> cases h4 : x.wV <;> cases h5 : x.bR <;>
    simp_all

theorem notLast_idle (s : St α) (x : In α) (h : willBeIdle s x = true) : isNotLastW s = false := by
  unfold isNotLastW isW
  rcases idle_cases s x h with h | h | h <;> simp [h]

/-- next request if the register will be free -/
theorem nextTmp_idle (c : Cfg) (s : St α) (x : In α) (h : willBeIdle s x = true) :
    (arEn c s x = true ∧ nextTmp c s x = load x.ar false) ∨
    (arEn c s x = false ∧ x.awV = true ∧ x.wV = true ∧ nextTmp c s x = load x.aw true) ∨
    (arEn c s x = false ∧ (x.awV && x.wV) = false ∧ (nextTmp c s x).vld = false) := by
  have hn := notLast_idle s x h
  have ha : (if tmpAck s x = true then ({ s.tmp with vld := false } : Tmp) else s.tmp).vld = false := by
    split
    · rfl
    · rename_i h1
      rcases idle_cases s x h with h | h | h
      · exact h
      · simp [tmpAck, isW, h] at h1
      · simp [tmpAck, isW, h] at h1
  rcases Bool.eq_false_or_eq_true (arEn c s x) with h1 | h1
  · refine Or.inl ⟨h1, ?_⟩
    cases hp : c.rdPrio
    · have h2 := h1
      simp only [arEn, hp, Bool.false_eq_true, if_false, Bool.and_eq_true, Bool.not_eq_true'] at h2
      have h3 : (willBeIdle s x && x.awV && x.wV) = false := by
        have := h2.2
        cases h4 : x.awV <;> cases h5 : x.wV <;> simp_all
      simp [nextTmp, hp, hn, h3, h1]
    · simp [nextTmp, hp, h1]
  · rcases Bool.eq_false_or_eq_true (x.awV && x.wV) with h2 | h2
    · have h3 : x.awV = true ∧ x.wV = true := by simpa using h2
      refine Or.inr (Or.inl ⟨h1, h3.1, h3.2, ?_⟩)
      cases hp : c.rdPrio <;> simp [nextTmp, hp, hn, h3, h, h1]
    · refine Or.inr (Or.inr ⟨h1, h2, ?_⟩)
      have h3 : (willBeIdle s x && x.awV && x.wV) = false := by rw [Bool.and_assoc, h2, Bool.and_false]
      cases hp : c.rdPrio <;> simpa [nextTmp, hp, hn, h1, h3] using ha

/-- otherwise the register is kept except for the number of the remaining words of the write -/
theorem nextTmp_busy (c : Cfg) (s : St α) (x : In α) (h : willBeIdle s x = false) :
    nextTmp c s x = if !x.wait && isNotLastW s && x.wV then { s.tmp with len := s.tmp.len - 1 } else s.tmp := by
  have h1 := arEn_false c s x h
  rcases Bool.eq_false_or_eq_true (!x.wait && isNotLastW s && x.wV) with hw | hw
  · cases hp : c.rdPrio <;> simp only [nextTmp, hp, hw, h1] <;> simp
  · have ha : tmpAck s x = false := by
      have h2 := notIdle_cases s x h
      unfold tmpAck isW
      unfold isNotLastW isW at hw
      revert hw
      obtain ⟨hv, h2 | ⟨h2, h3⟩⟩ := h2
      · simp [h2]
      · rw [hv, h2]
        cases h4 : x.wait <;> cases h5 : x.wV <;> cases h6 : x.bR <;> by_cases hl : s.tmp.len = 0 <;> simp_all
    cases hp : c.rdPrio <;> simp only [nextTmp, hp, hw, h1, h, ha] <;> simp

theorem pendR_next (c : Cfg) (s : St α) (x : In α) :
    given ((out c s x).read && !x.wait) ((out c s x).address, (out c s x).burst) ++ pendR (nextTmp c s x)
      = pendR s.tmp ++ (given (arEn c s x) x.ar).map (fun a => (a.addr, a.len + 1)) := by
  have ho : (out c s x).read = (s.tmp.vld && !s.tmp.isW) := rfl
  have ho2 : (out c s x).address = s.tmp.addr := rfl
  have ho3 : (out c s x).burst = s.tmp.lenO + 1 := rfl
  rw [ho, ho2, ho3]
  rcases Bool.eq_false_or_eq_true (willBeIdle s x) with h | h
  · have e1 : given (s.tmp.vld && !s.tmp.isW && !x.wait) (s.tmp.addr, s.tmp.lenO + 1) = pendR s.tmp := by
      unfold pendR
      rcases idle_cases s x h with h | h | h <;> simp [h]
    rw [e1]
    congr 1
    rcases nextTmp_idle c s x h with ⟨h1, h2⟩ | ⟨h1, -, -, h2⟩ | ⟨h1, -, h2⟩
    · rw [h1, h2]; rfl
    · rw [h1, h2]; rfl
    · unfold pendR; rw [h1, h2]; rfl
  · have h1 := arEn_false c s x h
    have h2 := nextTmp_busy c s x h
    have e1 : given (s.tmp.vld && !s.tmp.isW && !x.wait) (s.tmp.addr, s.tmp.lenO + 1) = [] := by
      obtain ⟨hv, h2 | ⟨h2, h3⟩⟩ := notIdle_cases s x h <;> simp [h2]
    rw [e1, h1, h2]
    split <;> simp [pendR]

/-- The Avalon reads are the accepted read requests, in order, each once. -/
theorem reads_inv (c : Cfg) (s₀ : St α) (hi : IsInit c s₀) (is : List (In α)) :
    avReads ((machine c).trace s₀ is) ++ pendR ((machine c).final s₀ is).tmp
      = (ars ((machine c).trace s₀ is)).map (fun a => (a.addr, a.len + 1)) := by
  induction is using List.reverseRecOn with
  | nil => simp [avReads, ars, pendR, Machine.trace, Machine.final, hi.tmp]
  | append_singleton is x ih =>
    rw [Machine.trace_snoc, Machine.final_append, avReads_snoc, ars_snoc, List.map_append, ← ih]
    have h1 : (machine c).outAfter s₀ is x = out c ((machine c).final s₀ is) x := rfl
    have h2 : ((machine c).final ((machine c).final s₀ is) [x]).tmp = nextTmp c ((machine c).final s₀ is) x := rfl
    simp only [h1, h2, ar_acc]
    rw [List.append_assoc, List.append_assoc, pendR_next]

/-! ## The writes -/

def busyW (t : Tmp) : Bool := t.vld && t.isW
def cur (t : Tmp) : Addr := ⟨t.addr, t.id, t.lenO⟩
def doneW (t : Tmp) : Nat := if busyW t then t.lenO - t.len else 0

/-- `pre` are the bursts which are complete -/
structure WInv (pre : List Addr) (tr : List (In α × Out α)) (t : Tmp) : Prop where
  aws : aws tr = pre ++ given (busyW t) (cur t)
  len : busyW t = true → t.len ≤ t.lenO
  num : (ws tr).length = (words pre).length + doneW t
  wr : (avWrites tr).map (fun w => (w.1, w.2.1)) = words pre ++ List.replicate (doneW t) (t.addr, t.lenO + 1)
  data : (avWrites tr).map (fun w => w.2.2) = (ws tr).map Prod.fst

theorem awEn_idle (c : Cfg) (s : St α) (x : In α) (h : willBeIdle s x = true) :
    awEn c s x = ((!c.rdPrio || !x.arV) && x.wV) := by
  unfold awEn readyForAddr
  rcases idle_cases s x h with h | h | h <;> simp [h]

theorem aw_acc (c : Cfg) (s : St α) (x : In α)
    (hb : c.rdPrio = true → NoBlockedRead (x, out c s x)) :
    (x.awV && (out c s x).awRd) = (willBeIdle s x && !arEn c s x && x.awV && x.wV) := by
  have ho : (out c s x).awRd = (willBeIdle s x && awEn c s x) := rfl
  rw [ho]
  rcases Bool.eq_false_or_eq_true (willBeIdle s x) with h | h
  · rw [awEn_idle c s x h, h]
    cases hp : c.rdPrio
    · have : arEn c s x = true → (x.awV && x.wV) = false := by
        intro h1
        simp only [arEn, hp, Bool.false_eq_true, if_false, Bool.and_eq_true, Bool.not_eq_true'] at h1
        exact h1.2
      cases h1 : arEn c s x <;> cases h2 : x.awV <;> cases h3 : x.wV <;> simp_all
    · have hb := hb hp
      have h2 : (out c s x).arRd = arEn c s x := by simp [out, h]
      unfold NoBlockedRead at hb
      simp only [h2] at hb
      have h3 : arEn c s x = true → x.arV = true := fun h => (arEn_idle c s x h).2.1
      cases h1 : arEn c s x <;> cases h2 : x.awV <;> cases h3 : x.wV <;> cases h4 : x.arV <;> simp_all
  · simp [h]

theorem write_acc (c : Cfg) (s : St α) (x : In α) : ((out c s x).write && !x.wait) = (x.wV && (out c s x).wRd) := by
  simp only [out, wReady, isW]
  cases s.tmp.vld <;> cases s.tmp.isW <;> cases x.wV <;> cases x.wait <;> simp

theorem words_append (a b : List Addr) : words (a ++ b) = words a ++ words b := by simp [words]

/-- the burst which is completed in this clock -/
def comp (c : Cfg) (s : St α) (x : In α) : List Addr :=
  given (x.wV && (out c s x).wRd && s.tmp.len == 0) (cur s.tmp)

theorem winv_step (c : Cfg) (s : St α) (x : In α) (tr : List (In α × Out α)) (pre : List Addr)
    (hb : c.rdPrio = true → NoBlockedRead (x, out c s x)) (h : WInv pre tr s.tmp) :
    WInv (pre ++ comp c s x) (tr ++ [(x, out c s x)]) (nextTmp c s x) := by
  have hacc := aw_acc c s x hb
  have hwa := write_acc c s x
  obtain ⟨h1, h2, h3, h4, h5⟩ := h
  have ho2 : (out c s x).address = s.tmp.addr := rfl
  have ho3 : (out c s x).burst = s.tmp.lenO + 1 := rfl
  have hd : (avWrites (tr ++ [(x, out c s x)])).map (fun w => w.2.2) = (ws (tr ++ [(x, out c s x)])).map Prod.fst := by
    rw [avWrites_snoc, ws_snoc, List.map_append, List.map_append, h5, hwa]
    cases (x.wV && (out c s x).wRd) <;> rfl
  have hwr : (out c s x).wRd = wReady s x := rfl
  rcases Bool.eq_false_or_eq_true (willBeIdle s x) with hi | hi
  · -- the words after this clock
    have key : ∃ post, pre ++ comp c s x = post ∧ aws tr = post ∧
        (ws (tr ++ [(x, out c s x)])).length = (words post).length ∧
        (avWrites (tr ++ [(x, out c s x)])).map (fun w => (w.1, w.2.1)) = words post := by
      refine ⟨_, rfl, ?_⟩
      rw [avWrites_snoc, ws_snoc, hwa, ho2, ho3, List.map_append, h1, h4, List.length_append, h3]
      simp only [comp, hwr]
      have hlen : busyW s.tmp = true → s.tmp.len = 0 := by
        intro hbz
        rcases idle_cases s x hi with h | h | h
        · simp [busyW, h] at hbz
        · simp [busyW, h] at hbz
        · exact h.2.2.2.1
      rcases Bool.eq_false_or_eq_true (busyW s.tmp) with hbz | hbz
      · have hl := hlen hbz
        have hw : (x.wV && wReady s x) = true := by
          rcases idle_cases s x hi with h | h | h
          · simp [busyW, h] at hbz
          · simp [busyW, h] at hbz
          · simp [wReady, h]
        have hl0 : (s.tmp.len == 0) = true := by simp [hl]
        simp only [hw, given_true, hbz, doneW, if_true, hl, Nat.sub_zero, words_append]
        refine ⟨rfl, ?_, ?_⟩
        · simp [words, cur]; omega
        · rw [List.append_assoc]
          congr 1
          simp [words, cur, List.replicate_succ']
      · have hw : (x.wV && wReady s x) = false := by
          have : wReady s x = false := by
            unfold wReady; unfold busyW at hbz; simp [hbz]
          simp [this]
        simp [hw, hbz, doneW]
    obtain ⟨post, hp, hk1, hk2, hk3⟩ := key
    rw [hp]
    rcases nextTmp_idle c s x hi with ⟨ha, ht⟩ | ⟨ha, hv, hw, ht⟩ | ⟨ha, hv, ht⟩
    · have e : busyW (nextTmp c s x) = false := by rw [ht]; rfl
      refine ⟨?_, ?_, ?_, ?_, hd⟩
      · rw [aws_snoc, hacc, hk1, e, ha]; simp
      · rw [e]; simp
      · rw [hk2, doneW, e]; simp
      · rw [hk3, doneW, e]; simp
    · have e : busyW (nextTmp c s x) = true := by rw [ht]; rfl
      have e2 : cur (nextTmp c s x) = x.aw := by rw [ht]; rfl
      have e3 : doneW (nextTmp c s x) = 0 := by rw [ht]; simp [doneW, load]
      refine ⟨?_, ?_, ?_, ?_, hd⟩
      · rw [aws_snoc, hacc, hk1, e, e2, ha, hi, hv, hw]; rfl
      · rw [ht]; intro _; exact Nat.le_refl _
      · rw [hk2, e3]; rfl
      · rw [hk3, e3]; simp
    · have e : busyW (nextTmp c s x) = false := by simp [busyW, ht]
      refine ⟨?_, ?_, ?_, ?_, hd⟩
      · rw [aws_snoc, hacc, hk1, e, ha, hi, Bool.and_assoc, hv]; simp
      · rw [e]; simp
      · rw [hk2, doneW, e]; simp
      · rw [hk3, doneW, e]; simp
  · have ht := nextTmp_busy c s x hi
    have hbz : busyW (nextTmp c s x) = busyW s.tmp := by rw [ht]; split <;> rfl
    have hcur : cur (nextTmp c s x) = cur s.tmp := by rw [ht]; split <;> rfl
    have hst : (nextTmp c s x).addr = s.tmp.addr ∧ (nextTmp c s x).lenO = s.tmp.lenO := by
      rw [ht]; split <;> exact ⟨rfl, rfl⟩
    have hdn : doneW (nextTmp c s x) = if busyW s.tmp then
        s.tmp.lenO - (if !x.wait && isNotLastW s && x.wV then s.tmp.len - 1 else s.tmp.len) else 0 := by
      unfold doneW
      rw [hbz, hst.2, ht]
      congr 2
      split <;> rfl
    have hcomp : comp c s x = [] := by
      unfold comp
      rw [hwr]
      unfold wReady
      obtain ⟨hv, h | ⟨h, h'⟩⟩ := notIdle_cases s x hi
      · simp [h]
      · by_cases hl : s.tmp.len = 0
        · rcases h' with h' | h' | h' | h'
          · simp [h']
          · simp [h']
          · exact absurd hl h'
          · simp [h', hl]
        · have : (s.tmp.len == 0) = false := by simp [hl]
          simp [this]
    have hacc' : (x.wV && wReady s x) = (!x.wait && isNotLastW s && x.wV) := by
      unfold wReady isNotLastW isW
      obtain ⟨hv, h | ⟨h, h'⟩⟩ := notIdle_cases s x hi
      · simp [h]
      · rw [hv, h]
        rcases h' with h' | h' | h' | h'
        · simp [h']
        · simp [h']
        · have : (s.tmp.len != 0) = true := by simp [h']
          rw [this]
          cases x.wait <;> cases x.wV <;> rfl
        · rw [h']
          cases x.wait <;> cases x.wV <;> simp
    rw [hcomp, List.append_nil]
    refine ⟨?_, ?_, ?_, ?_, hd⟩
    · rw [aws_snoc, hacc, h1, hi, hbz, hcur]; simp
    · intro hz
      rw [hbz] at hz
      have := h2 hz
      rw [ht]; split
      · show s.tmp.len - 1 ≤ s.tmp.lenO
        omega
      · exact this
    · rw [ws_snoc, List.length_append, h3, hdn]
      simp only [hwr, hacc', doneW]
      rcases Bool.eq_false_or_eq_true (!x.wait && isNotLastW s && x.wV) with hw | hw
      · have hnl : isNotLastW s = true := by simp at hw; exact hw.1.2
        have hz : busyW s.tmp = true ∧ s.tmp.len ≠ 0 := by simpa [isNotLastW, isW, busyW] using hnl
        have := h2 hz.1
        have := hz.2
        simp only [hw, if_true, given_true, hz.1, List.length_singleton]
        omega
      · simp only [hw, Bool.false_eq_true, if_false, given_false, List.length_nil, Nat.add_zero]
    · rw [avWrites_snoc, List.map_append, h4, hwa, hst.1, hst.2, ho2, ho3, hdn, List.append_assoc]
      congr 1
      simp only [hwr, hacc', doneW]
      rcases Bool.eq_false_or_eq_true (!x.wait && isNotLastW s && x.wV) with hw | hw
      · have hnl : isNotLastW s = true := by simp at hw; exact hw.1.2
        have hz : busyW s.tmp = true ∧ s.tmp.len ≠ 0 := by simpa [isNotLastW, isW, busyW] using hnl
        have h6 := h2 hz.1
        have h7 := hz.2
        simp only [hw, if_true, given_true, hz.1, List.map_cons, List.map_nil]
        rw [show s.tmp.lenO - (s.tmp.len - 1) = s.tmp.lenO - s.tmp.len + 1 by omega, List.replicate_succ']
      · simp only [hw, Bool.false_eq_true, if_false, given_false, List.map_nil, List.append_nil]

theorem winv_all (c : Cfg) (s₀ : St α) (hi : IsInit c s₀) (is : List (In α))
    (hb : c.rdPrio = true → ∀ e ∈ (machine c).trace s₀ is, NoBlockedRead e) :
    ∃ pre, WInv pre ((machine c).trace s₀ is) ((machine c).final s₀ is).tmp := by
  induction is using List.reverseRecOn with
  | nil => exact ⟨[], by constructor <;>
      simp [aws, ws, avWrites, Machine.trace, Machine.final, busyW, hi.tmp, words, doneW]⟩
  | append_singleton is x ih =>
    rw [Machine.trace_snoc] at hb ⊢
    rw [Machine.final_append]
    obtain ⟨pre, h⟩ := ih fun hp e he => hb hp e (List.mem_append_left _ he)
    exact ⟨_, winv_step c _ x _ pre (fun hp => hb hp _ (List.mem_append_right _ (by simp; rfl))) h⟩

/-! ## The responses of the writes -/

theorem lasts_length (l : List Addr) : (lasts l).length = (words l).length := by
  induction l with
  | nil => rfl
  | cons a l ih =>
    simp only [lasts, words, List.flatMap_cons, List.length_append, List.length_replicate, List.length_singleton]
      at ih ⊢
    omega

theorem lasts_append (a b : List Addr) : lasts (a ++ b) = lasts a ++ lasts b := by simp [lasts]

theorem lasts_get (pre post : List Addr) (a : Addr) (d : Nat) (hd : d ≤ a.len) :
    (lasts (pre ++ [a] ++ post))[(lasts pre).length + d]? = some (d == a.len) := by
  rw [lasts_append, lasts_append, List.append_assoc, List.getElem?_append_right (by omega), Nat.add_sub_cancel_left]
  have e : lasts [a] = List.replicate a.len false ++ [true] := by simp [lasts]
  rw [e, List.append_assoc]
  rcases Nat.lt_or_ge d a.len with h | h
  · rw [List.getElem?_append_left (by simpa using h)]
    have : ¬ d = a.len := by omega
    simp [h, this]
  · have : d = a.len := by omega
    subst this
    rw [List.getElem?_append_right (by simp)]
    simp

theorem prefix_get {β : Type} (l r : List β) (a : β) (h : l ++ [a] <+: r) : r[l.length]? = some a := by
  obtain ⟨t, rfl⟩ := h
  simp

theorem doneIds_append (pre rest : List Addr) (k : Nat) :
    doneIds (pre ++ rest) ((words pre).length + k) = pre.map Addr.id ++ doneIds rest k := by
  induction pre with
  | nil => simp [words]
  | cons a l ih =>
    have e : (words (a :: l)).length = a.len + 1 + (words l).length := by
      simp [words]
    rw [List.cons_append, doneIds, e, if_pos (by omega),
      show a.len + 1 + (words l).length + k - (a.len + 1) = (words l).length + k by omega, ih]
    rfl

theorem binv_all (c : Cfg) (s₀ : St α) (hi : IsInit c s₀) (is : List (In α))
    (hb : c.rdPrio = true → ∀ e ∈ (machine c).trace s₀ is, NoBlockedRead e)
    (hl : (ws ((machine c).trace s₀ is)).map Prod.snd <+: lasts (aws ((machine c).trace s₀ is))) :
    ∃ pre, WInv pre ((machine c).trace s₀ is) ((machine c).final s₀ is).tmp ∧
      bs ((machine c).trace s₀ is) = pre.map Addr.id := by
  induction is using List.reverseRecOn with
  | nil => exact ⟨[], by constructor <;>
      simp [aws, ws, avWrites, Machine.trace, Machine.final, busyW, hi.tmp, words, doneW], rfl⟩
  | append_singleton is x ih =>
    rw [Machine.trace_snoc] at hb hl ⊢
    rw [Machine.final_append]
    have hbp : c.rdPrio = true → ∀ e ∈ (machine c).trace s₀ is, NoBlockedRead e :=
      fun hp e he => hb hp e (List.mem_append_left _ he)
    obtain ⟨pre', hw'⟩ := winv_all c s₀ hi is hbp
    have hlen : ((ws ((machine c).trace s₀ is)).map Prod.snd).length
        ≤ (lasts (aws ((machine c).trace s₀ is))).length := by
      rw [List.length_map, lasts_length, hw'.num, hw'.aws, words_append, List.length_append]
      apply Nat.add_le_add_left
      unfold doneW
      split
      · rename_i h
        rw [h]
        simp [words, cur]
        omega
      · omega
    have hlp : (ws ((machine c).trace s₀ is)).map Prod.snd <+: lasts (aws ((machine c).trace s₀ is)) := by
      refine List.prefix_of_prefix_length_le (List.IsPrefix.trans ?_ hl) ?_ hlen
      · rw [ws_snoc, List.map_append]; exact List.prefix_append _ _
      · rw [aws_snoc, lasts_append]; exact List.prefix_append _ _
    obtain ⟨pre, h, hbs⟩ := ih hbp hlp
    refine ⟨_, winv_step c _ x _ pre (fun hp => hb hp _ (List.mem_append_right _ (by simp; rfl))) h, ?_⟩
    have h1 : (machine c).outAfter s₀ is x = out c ((machine c).final s₀ is) x := rfl
    rw [h1] at hl ⊢
    generalize (machine c).final s₀ is = s at *
    generalize (machine c).trace s₀ is = tr at *
    rw [bs_snoc, hbs, List.map_append]
    congr 1
    have hwr : (out c s x).wRd = wReady s x := rfl
    rcases Bool.eq_false_or_eq_true (x.wV && wReady s x) with hacc | hacc
    · have hacc2 := hacc
      rw [Bool.and_eq_true] at hacc2
      obtain ⟨hv, hr⟩ := hacc2
      have hr2 := hr
      simp only [wReady, Bool.and_eq_true, Bool.or_eq_true, Bool.not_eq_true'] at hr2
      obtain ⟨⟨⟨hv1, hv2⟩, hv3⟩, hv4⟩ := hr2
      have hbz : busyW s.tmp = true := by simp [busyW, hv1, hv2]
      have hfl : x.wLast = (s.tmp.len == 0) := by
        have e1 : (ws (tr ++ [(x, out c s x)])).map Prod.snd = (ws tr).map Prod.snd ++ [x.wLast] := by
          rw [ws_snoc, List.map_append]
          simp only [hwr, hacc]
          rfl
        rw [e1] at hl
        have := prefix_get _ _ _ hl
        have hd : doneW s.tmp = s.tmp.lenO - s.tmp.len := by simp [doneW, hbz]
        rw [aws_snoc, h.aws, hbz, List.length_map, h.num, given_true, ← lasts_length, hd,
          lasts_get pre _ (cur s.tmp) _ (by simp [cur])] at this
        simp only [Option.some.injEq] at this
        rw [← this]
        have := h.len hbz
        by_cases h0 : s.tmp.len = 0
        · simp [cur, h0]
        · have : ¬ s.tmp.lenO - s.tmp.len = s.tmp.lenO := by omega
          simp [cur, h0, this]
      have hb : (out c s x).b = if s.tmp.len == 0 then some s.tmp.id else none := by
        simp only [out, hv1, hv2, hv3, hr, hv, hfl]
        simp
      rw [hb]
      simp only [comp, hwr, hacc]
      by_cases h0 : s.tmp.len = 0
      · have hbr : x.bR = true := by simpa [h0] using hv4
        simp [h0, hbr, cur]
      · have : (s.tmp.len == 0) = false := by simp [h0]
        simp [this]
    · have hb : (out c s x).b = none := by
        have hc : (s.tmp.vld && s.tmp.isW && !x.wait && wReady s x && x.wV && x.wLast) = false := by
          cases h1 : x.wV <;> cases h2 : wReady s x <;> simp_all
        simp only [out, hc]
        rfl
      rw [hb]
      simp only [comp, hwr, hacc]
      cases x.bR <;> rfl

end Verif.AxiToAvmm
