import Verif.Fifo
import Verif.FifoProps
/-!
# Model of `HandshakedFifo` (hwtLib/handshaked/fifo.py)
-/
namespace Verif.HsFifo

universe u
variable {α : Type u}

/-- Inner `Fifo` (of depth `DEPTH-1`, handshaked/fifo.py:61-72) and the `out_vld` register (:113). -/
structure St (α : Type u) where
  fifo : Fifo.St α
  outVld : Bool

/-- `dataIn.vld`, `dataIn.data`, `dataOut.rd`. -/
structure In (α : Type u) where
  vld : Bool
  data : α
  rd : Bool

/-- `dataIn.rd`, `dataOut.vld`, `dataOut.data`, `size`, `space`. -/
structure Out (α : Type u) where
  rd : Bool
  vld : Bool
  data : α
  size : Nat
  space : Nat

/-- Inputs of the inner fifo. handshaked/fifo.py:95-105 (`wr_en = ~fIn.wait`,
`fIn.en(vld(din) & wr_en)`) and :120 (`fOut.en((rd(dout) | ~out_vld) & ~fOut.wait)`). -/
def fifoIn (s : St α) (i : In α) : Fifo.In α where
  wen := i.vld && !Fifo.writeWait s.fifo
  data := i.data
  ren := (i.rd || !s.outVld) && !Fifo.readWait s.fifo

/-- handshaked/fifo.py:46 `SIZE_W = log2ceil(self.DEPTH + 1 + 1)` -/
def sizeMod (D : Nat) : Nat := 2 ^ log2ceil (D + 1 + 1)

/-- handshaked/fifo.py:102 (`rd(din)(wr_en)`), :114, :116-119, :74-93 (size and space). -/
def out (D : Nat) (s : St α) (_ : In α) : Out α where
  rd := !Fifo.writeWait s.fifo
  vld := s.outVld
  data := s.fifo.dout
  size := if s.outVld then (s.fifo.size + 1) % sizeMod D else s.fifo.size
  space := if s.outVld then s.fifo.space else (s.fifo.space + 1) % sizeMod D

/-- Clock edge; handshaked/fifo.py:121-123 for `out_vld`. -/
def next (D : Nat) (s : St α) (i : In α) : St α where
  fifo := Fifo.next (D - 1) s.fifo (fifoIn s i)
  outVld := if i.rd || !s.outVld then !Fifo.readWait s.fifo else s.outVld

/-- `HandshakedFifo` with `DEPTH = D`. -/
def machine (D : Nat) : Machine (St α) (In α) (Out α) where
  out := out D
  next := next D

/-- Reset state, handshaked/fifo.py:64-69 (INIT_DATA of the inner fifo), :113. `mem0`, `d0` are
power-up contents; with a full `INIT_DATA` the output register is reset to its first item
(mem/fifo.py:160-161). -/
def init (D : Nat) (l : List α) (mem0 : Nat → α) (d0 : α) : St α where
  fifo := if l.length = D then Fifo.init (D - 1) l.tail mem0 (l.headD d0)
          else Fifo.init (D - 1) l mem0 d0
  outVld := l.length == D

/-! ## Observables -/

/-- Words transferred on `dataIn` (vld and rd). -/
def accepted (tr : List (In α × Out α)) : List α :=
  tr.filterMap fun e => if e.1.vld && e.2.rd then some e.1.data else none

/-- Words transferred on `dataOut` (vld and rd). -/
def emitted (tr : List (In α × Out α)) : List α :=
  tr.filterMap fun e => if e.2.vld && e.1.rd then some e.2.data else none

/-! ## Proof internals -/

def queue (D : Nat) (s : St α) : List α :=
  (if s.outVld then [s.fifo.dout] else []) ++ Fifo.queue (D - 1) s.fifo

def Inv (D : Nat) (s : St α) : Prop := Fifo.Inv (D - 1) s.fifo

theorem proto (s : St α) (i : In α) : Fifo.Proto (fifoIn s i, Fifo.out s.fifo) := by
  constructor <;> simp [fifoIn, Fifo.out]

theorem step {D : Nat} (s : St α) (i : In α) (h : Inv D s) :
    Inv D (next D s i) ∧
    queue D s ++ (if i.vld && (out D s i).rd then some i.data else none).toList =
      (if (out D s i).vld && i.rd then some (out D s i).data else none).toList
        ++ queue D (next D s i) := by
  refine ⟨Fifo.step_inv h (proto s i), ?_⟩
  have hq := Fifo.step_queue h (proto s i)
  have e1 := Fifo.fifoRead_eq (proto s i)
  have hd : (fifoIn s i).ren = false → (next D s i).fifo.dout = s.fifo.dout := by
    intro hr
    show (if Fifo.fifoRead s.fifo (fifoIn s i) then _ else _) = _
    rw [e1, hr]; rfl
  have hw : (if i.vld && (out D s i).rd then some i.data else none).toList
      = (if (fifoIn s i).wen then [(fifoIn s i).data] else []) := by
    have a : (out D s i).rd = !Fifo.writeWait s.fifo := rfl
    have b : (fifoIn s i).wen = (i.vld && !Fifo.writeWait s.fifo) := rfl
    have c : (fifoIn s i).data = i.data := rfl
    rw [a, b, c]
    split <;> rfl
  unfold queue
  rw [hw, List.append_assoc, hq]
  have hn : (next D s i).fifo = Fifo.next (D - 1) s.fifo (fifoIn s i) := rfl
  rw [← hn]
  have hv : (next D s i).outVld = if i.rd || !s.outVld then !Fifo.readWait s.fifo else s.outVld := rfl
  have hr : (fifoIn s i).ren = ((i.rd || !s.outVld) && !Fifo.readWait s.fifo) := rfl
  have o1 : (out D s i).vld = s.outVld := rfl
  have o2 : (out D s i).data = s.fifo.dout := rfl
  rw [o1, o2]
  rcases Bool.eq_false_or_eq_true s.outVld with ho | ho <;>
  rcases Bool.eq_false_or_eq_true i.rd with hi | hi <;>
  rcases Bool.eq_false_or_eq_true (Fifo.readWait s.fifo) with hrw | hrw <;>
    simp [ho, hi, hrw] at hv hr <;> simp [ho, hi, hv, hr]
  all_goals exact (hd hr).symm

theorem queue_le {D : Nat} (hD : 2 ≤ D) (s : St α) (h : Inv D s) : (queue D s).length ≤ D := by
  have := Fifo.Inv.len_le h
  have : (Fifo.queue (D - 1) s.fifo).length = Fifo.len (D - 1) s.fifo := by simp [Fifo.queue]
  unfold queue
  split <;> simp <;> omega

theorem run_conserve {D : Nat} (is : List (In α)) (s : St α) (h : Inv D s) :
    Inv D ((machine D).final s is) ∧
    queue D s ++ accepted ((machine D).trace s is)
      = emitted ((machine D).trace s is) ++ queue D ((machine D).final s is) := by
  exact (machine D).conserve (Inv D) (fun _ => True) (queue D)
    (fun e => if e.1.vld && e.2.rd then some e.1.data else none)
    (fun e => if e.2.vld && e.1.rd then some e.2.data else none)
    (fun s i h _ => step s i h) is s h (by simp)

theorem init_inv {D : Nat} (l : List α) (hl : l.length + 1 < D) (mem0 : Nat → α) (d0 : α) :
    Inv D (init D l mem0 d0) := by
  have : l.length ≠ D := by omega
  simp only [Inv, init, this, if_false]
  exact Fifo.init_inv (by omega) l (by omega) mem0 d0

theorem init_queue {D : Nat} (l : List α) (hl : l.length + 1 < D) (mem0 : Nat → α) (d0 : α) :
    queue D (init D l mem0 d0) = l := by
  have : l.length ≠ D := by omega
  simp only [queue, init, this, if_false]
  rw [Fifo.init_queue (by omega) l (by omega) mem0 d0]
  have : (l.length == D) = false := by simpa using this
  simp [this]

/-- The consumer being ready for `n + 1` cycles drains `n` words. -/
theorem drain {D : Nat} : ∀ (js : List (In α)) (s : St α) (n : Nat), Inv D s →
    (∀ j ∈ js, j.rd = true) → n ≤ (queue D s).length →
    n + (if s.outVld then 0 else 1) ≤ js.length →
    n ≤ (emitted ((machine D).trace s js)).length := by
  intro js
  induction js with
  | nil => intro s n _ _ _ h; simp at h; omega
  | cons j js ih =>
    intro s n h hr hn hl
    by_cases n0 : n = 0
    · omega
    have hj : j.rd = true := hr j (by simp)
    have hjs : ∀ j ∈ js, j.rd = true := fun x hx => hr x (by simp [hx])
    obtain ⟨hi', hq⟩ := step s j h
    have hlen := congrArg List.length hq
    simp only [List.length_append] at hlen
    have hv : (next D s j).outVld = !Fifo.readWait s.fifo := by simp [next, hj]
    have hrw := Fifo.readWait_iff h
    have hql : (Fifo.queue (D - 1) s.fifo).length = Fifo.len (D - 1) s.fifo := by simp [Fifo.queue]
    have hem : (emitted ((machine D).trace s (j :: js))).length
        = (if s.outVld then 1 else 0) + (emitted ((machine D).trace (next D s j) js)).length := by
      simp only [emitted, Machine.trace_cons, List.filterMap_cons]
      show List.length (match (if (s.outVld && j.rd) then some s.fifo.dout else none) with
        | none => _ | some b => b :: _) = _
      rw [hj]
      cases s.outVld
      · simp; rfl
      · simp; rw [Nat.add_comm]; rfl
    rw [hem]
    have hout : (out D s j).vld = s.outVld := rfl
    simp only [List.length_cons] at hl
    cases ho : s.outVld
    · rw [ho] at hl
      simp only [queue, ho] at hn
      simp at hn hl
      have hv' : (next D s j).outVld = true := by
        rw [hv]
        cases hh : Fifo.readWait s.fifo
        · rfl
        · rw [hh] at hrw; simp at hrw; omega
      have := ih (next D s j) n hi' hjs (by
        have h1 : (queue D s).length = (Fifo.queue (D - 1) s.fifo).length := by
          simp [queue, ho]
        rw [hout, ho] at hlen
        simp at hlen
        omega) (by rw [hv']; simp; omega)
      simpa using this
    · rw [ho] at hl
      simp at hl
      simp only [if_true]
      have hlen' : n - 1 ≤ (queue D (next D s j)).length := by
        rw [hout, ho, hj] at hlen
        simp at hlen
        omega
      by_cases n1 : n = 1
      · omega
      have hv' : (next D s j).outVld = true := by
        rw [hv]
        cases hh : Fifo.readWait s.fifo
        · rfl
        · rw [hh] at hrw
          simp only [queue, ho] at hn
          simp at hrw hn; omega
      have := ih (next D s j) (n - 1) hi' hjs hlen' (by rw [hv']; simp; omega)
      omega

end Verif.HsFifo
