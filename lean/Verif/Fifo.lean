import Verif.Ring
/-!
# Model of `Fifo` (hwtLib/mem/fifo.py)
-/
namespace Verif.Fifo

universe u
variable {α : Type u}

/-- Registers and memory of `Fifo` with one reader.
mem/fifo.py:76 `write_ptr`, :90 `read_ptr0`, :102 `looped0`, :144 `memory`,
:155 `dout.data` (driven inside a clock edge, hence a register), :169 `size_reg`, :182 `space_reg`.
Simplification: the memory is a total function on indices; only indices `< DEPTH` are ever used
(part of the invariant below). Both optional counters are always present. -/
structure St (α : Type u) where
  wr : Nat
  rd : Nat
  looped : Bool
  mem : Nat → α
  dout : α
  size : Nat
  space : Nat

/-- Ports driven by the environment: `dataIn.en`, `dataIn.data`, `dataOut.en` (mem/fifo.py:55-56). -/
structure In (α : Type u) where
  wen : Bool
  data : α
  ren : Bool

/-- Ports driven by the component: `dataIn.wait`, `dataOut.wait`, `dataOut.data`, `size`, `space`. -/
structure Out (α : Type u) where
  wwait : Bool
  rwait : Bool
  data : α
  size : Nat
  space : Nat

/-- mem/fifo.py:111 `read_wait(write_ptr._eq(read_ptr) & ~looped)` -/
def readWait (s : St α) : Bool := s.wr == s.rd && !s.looped

/-- mem/fifo.py:120 `write_wait(write_ptr._eq(read_ptr) & looped)` -/
def writeWait (s : St α) : Bool := s.wr == s.rd && s.looped

/-- mem/fifo.py:112 `fifo_read(read_en & (looped | (write_ptr != read_ptr)))` -/
def fifoRead (s : St α) (i : In α) : Bool := i.ren && (s.looped || s.wr != s.rd)

/-- mem/fifo.py:121 `fifo_write(write_en & (~looped | (write_ptr != read_ptr)))` -/
def fifoWrite (s : St α) (i : In α) : Bool := i.wen && (!s.looped || s.wr != s.rd)

/-- Increment of a pointer of type `HBits(log2ceil(DEPTH))` with explicit wrap at `MAX_DEPTH`,
mem/fifo.py:79-85 and :94-100. -/
def incPtr (D p : Nat) : Nat := if p = D - 1 then 0 else (p + 1) % 2 ^ log2ceil D

/-- mem/fifo.py:104-108, looped logic (prioritised If/Elif, note it looks at `en`, not at
`fifo_write`/`fifo_read`). -/
def nextLooped (D : Nat) (s : St α) (i : In α) : Bool :=
  if i.wen && s.wr == D - 1 then true
  else if i.ren && s.rd == D - 1 then false
  else s.looped

/-- Width of the counters, mem/fifo.py:44,46 `log2ceil(DEPTH + 1)`. -/
def cntMod (D : Nat) : Nat := 2 ^ log2ceil (D + 1)

/-- mem/fifo.py:168-179 size counter. -/
def nextSize (D : Nat) (s : St α) (i : In α) : Nat :=
  if fifoRead s i then
    if !fifoWrite s i then (s.size + (cntMod D - 1)) % cntMod D else s.size
  else if fifoWrite s i then (s.size + 1) % cntMod D else s.size

/-- mem/fifo.py:181-192 space counter. -/
def nextSpace (D : Nat) (s : St α) (i : In α) : Nat :=
  if fifoRead s i then
    if !fifoWrite s i then (s.space + 1) % cntMod D else s.space
  else if fifoWrite s i then (s.space + (cntMod D - 1)) % cntMod D else s.space

/-- Clock edge of `Fifo.hwImpl`, mem/fifo.py:76-121,144-192. The memory is read before it is
written (both in processes sensitive to the same edge). -/
def next (D : Nat) (s : St α) (i : In α) : St α where
  wr := if fifoWrite s i then incPtr D s.wr else s.wr
  rd := if fifoRead s i then incPtr D s.rd else s.rd
  looped := nextLooped D s i
  mem := if fifoWrite s i then upd s.mem s.wr i.data else s.mem
  dout := if fifoRead s i then s.mem s.rd else s.dout
  size := nextSize D s i
  space := nextSpace D s i

/-- Outputs; all of them are functions of the registers only. -/
def out (s : St α) : Out α where
  wwait := writeWait s
  rwait := readWait s
  data := s.dout
  size := s.size
  space := s.space

/-- The `Fifo` component of depth `D`. -/
def machine (D : Nat) : Machine (St α) (In α) (Out α) where
  out s _ := out s
  next := next D

/-- Reset state, mem/fifo.py:76 `min(len(INIT_DATA), MAX_DEPTH)`, :90, :102, :137-144, :169, :182.
`mem0`/`d0` are the arbitrary power-up contents of the memory/output register. -/
def init (D : Nat) (initData : List α) (mem0 : Nat → α) (d0 : α) : St α where
  wr := min initData.length (D - 1)
  rd := 0
  looped := !(initData.length ≤ D - 1 : Bool)
  mem := fun i => (initData[i]?).getD (mem0 i)
  dout := d0
  size := initData.length
  space := D - initData.length

/-! ## Observables -/

/-- Protocol of `HwIOFifoWriter`/`HwIOFifoReader`: `en` is not asserted while `wait` is. -/
def Proto (e : In α × Out α) : Prop :=
  (e.1.wen = true → e.2.wwait = false) ∧ (e.1.ren = true → e.2.rwait = false)

instance (e : In α × Out α) : Decidable (Proto e) := by unfold Proto; infer_instance

/-- Words handed to the fifo: one for each cycle with `dataIn.en`. -/
def written (tr : List (In α × Out α)) : List α :=
  tr.filterMap fun e => if e.1.wen then some e.1.data else none

/-- Number of cycles with `dataOut.en`. -/
def reads (tr : List (In α × Out α)) : Nat := tr.countP fun e => e.1.ren

/-- Words obtained from the fifo: for each cycle with `dataOut.en` the value of `dataOut.data` in
the following cycle (a trailing read has no following cycle in the trace). -/
def delivered : List (In α × Out α) → List α
  | [] => []
  | [_] => []
  | e :: e' :: t => if e.1.ren then e'.2.data :: delivered (e' :: t) else delivered (e' :: t)

/-! ## Invariant and abstraction (proof internals) -/

open Ring

/-- Number of words stored, from pointers. -/
def len (D : Nat) (s : St α) : Nat := if s.looped then D + s.wr - s.rd else s.wr - s.rd

/-- Stored words, oldest first. -/
def queue (D : Nat) (s : St α) : List α := window s.mem D s.rd (len D s)

structure Inv (D : Nat) (s : St α) : Prop where
  pos : 0 < D
  wr_lt : s.wr < D
  rd_lt : s.rd < D
  loop_le : s.looped = true → s.wr ≤ s.rd
  noloop_le : s.looped = false → s.rd ≤ s.wr
  size_eq : s.size = len D s
  space_eq : s.space = D - len D s

theorem Inv.len_le {D : Nat} {s : St α} (h : Inv D s) : len D s ≤ D := by
  have := h.wr_lt; have := h.rd_lt
  unfold len; split
  · have := h.loop_le ‹_›; omega
  · omega

theorem Inv.wr_eq {D : Nat} {s : St α} (h : Inv D s) : s.wr = idx D s.rd (len D s) := by
  have := h.wr_lt; have := h.rd_lt
  unfold len idx
  cases hl : s.looped
  · have := h.noloop_le hl; simp; split <;> omega
  · have := h.loop_le hl; simp; split <;> omega

theorem incPtr_eq {D p : Nat} (hp : p < D) : incPtr D p = inc D p := by
  unfold incPtr inc
  by_cases h : p + 1 = D
  · have : p = D - 1 := by omega
    rw [if_pos this, if_pos h]
  · have h' : p ≠ D - 1 := by omega
    have := le_two_pow_log2ceil D
    rw [if_neg h', if_neg h]
    exact Nat.mod_eq_of_lt (by omega)

theorem readWait_iff {D : Nat} {s : St α} (h : Inv D s) : readWait s = true ↔ len D s = 0 := by
  have := h.wr_lt; have := h.rd_lt; have := h.pos
  unfold readWait len
  cases hl : s.looped
  · have := h.noloop_le hl
    simp; omega
  · simp; omega

theorem writeWait_iff {D : Nat} {s : St α} (h : Inv D s) : writeWait s = true ↔ len D s = D := by
  have := h.wr_lt; have := h.rd_lt; have := h.pos
  unfold writeWait len
  cases hl : s.looped
  · have := h.noloop_le hl
    simp; omega
  · have := h.loop_le hl
    simp; omega

theorem fifoRead_eq {s : St α} {i : In α} (hp : Proto (i, out s)) : fifoRead s i = i.ren := by
  unfold fifoRead
  cases hr : i.ren
  · simp
  · have := hp.2 hr
    simp only [out, readWait] at this
    revert this
    cases s.looped <;> simp

theorem fifoWrite_eq {s : St α} {i : In α} (hp : Proto (i, out s)) : fifoWrite s i = i.wen := by
  unfold fifoWrite
  cases hr : i.wen
  · simp
  · have := hp.1 hr
    simp only [out, writeWait] at this
    revert this
    cases s.looped <;> simp

theorem lt_cntMod (D : Nat) : D < cntMod D := by
  have := le_two_pow_log2ceil (D + 1)
  unfold cntMod; omega

theorem len_pos_of_ren {D : Nat} {s : St α} {i : In α} (h : Inv D s) (hp : Proto (i, out s))
    (hr : i.ren = true) : 0 < len D s := by
  have h1 := hp.2 hr
  have h2 := readWait_iff h
  simp only [out] at h1
  rw [h1] at h2
  simp at h2; omega

theorem len_lt_of_wen {D : Nat} {s : St α} {i : In α} (h : Inv D s) (hp : Proto (i, out s))
    (hr : i.wen = true) : len D s < D := by
  have h1 := hp.1 hr
  have h2 := writeWait_iff h
  have h3 := h.len_le
  simp only [out] at h1
  rw [h1] at h2
  simp at h2; omega

theorem step_ptr {D : Nat} {s : St α} {i : In α} (h : Inv D s) (hp : Proto (i, out s)) :
    (next D s i).wr < D ∧ (next D s i).rd < D ∧
    ((next D s i).looped = true → (next D s i).wr ≤ (next D s i).rd) ∧
    ((next D s i).looped = false → (next D s i).rd ≤ (next D s i).wr) ∧
    len D (next D s i) + i.ren.toNat = len D s + i.wen.toNat := by
  have hw := h.wr_lt
  have hr := h.rd_lt
  have hpos := h.pos
  have e1 := fifoRead_eq hp
  have e2 := fifoWrite_eq hp
  have hlp := h.loop_le
  have hnl := h.noloop_le
  have f1 := fun q => len_pos_of_ren h hp q
  have f2 := fun q => len_lt_of_wen h hp q
  unfold len at f1 f2
  unfold len next nextLooped
  simp only [e1, e2, incPtr_eq hw, incPtr_eq hr]
  generalize s.wr = W at *
  generalize s.rd = R at *
  generalize s.looped = L at *
  unfold inc
  have k1 : W = D - 1 ↔ W + 1 = D := by omega
  have k2 : R = D - 1 ↔ R + 1 = D := by omega
  by_cases c1 : W + 1 = D <;> by_cases c2 : R + 1 = D <;>
  cases hwen : i.wen <;> cases hren : i.ren <;> cases hL : L <;>
    simp [hwen, hren, hL, c1, c2, k1, k2] at hlp hnl f1 f2 ⊢ <;> omega

theorem step_inv {D : Nat} {s : St α} {i : In α} (h : Inv D s) (hp : Proto (i, out s)) :
    Inv D (next D s i) := by
  obtain ⟨a, b, c, d, e⟩ := step_ptr h hp
  have e1 := fifoRead_eq hp
  have e2 := fifoWrite_eq hp
  have f1 := fun q => len_pos_of_ren h hp q
  have f2 := fun q => len_lt_of_wen h hp q
  have hle := h.len_le
  have hm := lt_cntMod D
  refine ⟨h.pos, a, b, c, d, ?_, ?_⟩
  · show nextSize D s i = _
    unfold nextSize
    rw [e1, e2, h.size_eq]
    revert e f1 f2
    generalize len D (next D s i) = L'
    generalize len D s = L at *
    cases i.wen <;> cases i.ren <;> simp <;> intro e
    · exact e.symm
    · intro hL
      rw [show L + (cntMod D - 1) = (L - 1) + cntMod D by omega, Nat.add_mod_right,
        Nat.mod_eq_of_lt (by omega)]; omega
    · intro hL
      rw [Nat.mod_eq_of_lt (by omega)]; omega
    · omega
  · show nextSpace D s i = _
    unfold nextSpace
    rw [e1, e2, h.space_eq]
    revert e f1 f2
    generalize len D (next D s i) = L'
    generalize len D s = L at *
    cases i.wen <;> cases i.ren <;> simp <;> intro e
    · rw [e]
    · intro hL
      rw [Nat.mod_eq_of_lt (by omega)]; omega
    · intro hL
      rw [show D - L + (cntMod D - 1) = (D - L - 1) + cntMod D by omega, Nat.add_mod_right,
        Nat.mod_eq_of_lt (by omega)]; omega
    · omega

/-- One step of the queue: a read pops the head into the output register, a write appends. -/
theorem step_queue {D : Nat} {s : St α} {i : In α} (h : Inv D s) (hp : Proto (i, out s)) :
    queue D s ++ (if i.wen then [i.data] else []) =
      (if i.ren then [(next D s i).dout] else []) ++ queue D (next D s i) := by
  obtain ⟨a, b, c, d, e⟩ := step_ptr h hp
  have e1 := fifoRead_eq hp
  have e2 := fifoWrite_eq hp
  have hr := h.rd_lt
  have hle := h.len_le
  have hwe := h.wr_eq
  unfold queue
  -- write first, then read
  have key : window (next D s i).mem D s.rd (len D s + i.wen.toNat)
      = window s.mem D s.rd (len D s) ++ (if i.wen then [i.data] else []) := by
    show window (if fifoWrite s i then upd s.mem s.wr i.data else s.mem) D s.rd _ = _
    rw [e2]
    cases hw : i.wen
    · simp
    · simp only [if_true, Bool.toNat_true]
      rw [hwe]
      exact window_push _ hr (len_lt_of_wen h hp hw)
  rw [← key, ← e]
  cases hren : i.ren
  · have : (next D s i).rd = s.rd := by simp [next, e1, hren]
    simp [this]
  · have h1 : (next D s i).rd = inc D s.rd := by simp [next, e1, hren, incPtr_eq hr]
    have hpos := len_pos_of_ren h hp hren
    have h2 : (next D s i).dout = s.mem s.rd := by simp [next, e1, hren]
    have hle' : len D (next D s i) + 1 ≤ D := by
      rw [hren] at e
      cases hw : i.wen
      · rw [hw] at e; simp at e; omega
      · have := len_lt_of_wen h hp hw
        rw [hw] at e; simp at e; omega
    simp only [Bool.toNat_true, if_true, List.singleton_append]
    rw [window_pop hr hle', h1, h2]
    congr 1
    show (if fifoWrite s i then upd s.mem s.wr i.data else s.mem) s.rd = _
    rw [e2]
    cases hw : i.wen
    · simp
    · simp only [if_true]
      apply upd_ne
      rw [hwe]
      intro hh
      have := idx_inj hr (show 0 < D by omega) (len_lt_of_wen h hp hw)
        (by rw [idx_zero hr]; exact hh)
      omega

theorem init_inv {D : Nat} (hD : 0 < D) (l : List α) (hl : l.length < D) (mem0 : Nat → α) (d0 : α) :
    Inv D (init D l mem0 d0) := by
  have h1 : min l.length (D - 1) = l.length := by omega
  have h2 : l.length ≤ D - 1 := by omega
  have h3 : ((init D l mem0 d0).looped) = false := by simp [init, h2]
  refine ⟨hD, ?_, hD, ?_, ?_, ?_, ?_⟩
  · show min _ _ < D; omega
  · rw [h3]; simp
  · intro _; show 0 ≤ _; omega
  · simp only [len, h3]; simp only [init, h1]; simp
  · simp only [len, h3]; simp only [init, h1]; simp

theorem init_queue {D : Nat} (hD : 0 < D) (l : List α) (hl : l.length < D) (mem0 : Nat → α) (d0 : α) :
    queue D (init D l mem0 d0) = l := by
  have h1 : min l.length (D - 1) = l.length := by omega
  have h2 : l.length ≤ D - 1 := by omega
  have h3 : ((init D l mem0 d0).looped) = false := by simp [init, h2]
  unfold queue len
  rw [h3]
  simp only [init, h1, window]
  apply List.ext_getElem
  · simp
  · intro n q1 q2
    simp at q1
    have : idx D 0 n = n := by unfold idx; simp; omega
    simp [this, q2]

/-- Relation between trace observables and the queue, from any state. -/
theorem trace_queue {D : Nat} : ∀ (is : List (In α)) (s : St α), Inv D s →
    (∀ e ∈ (machine D).trace s is, Proto e) →
    Inv D ((machine D).final s is) ∧
    ∃ del, queue D s ++ written ((machine D).trace s is)
        = del ++ queue D ((machine D).final s is) ∧
      del.length = reads ((machine D).trace s is) ∧
      delivered ((machine D).trace s is) <+: del ∧
      (∀ e, (delivered ((machine D).trace s is ++ [(e, out ((machine D).final s is))])) = del) := by
  intro is
  induction is with
  | nil => intro s h _; exact ⟨h, [], by simp [written, reads, delivered]⟩
  | cons i is ih =>
    intro s h hok
    simp only [Machine.trace_cons, List.mem_cons, forall_eq_or_imp] at hok
    obtain ⟨hf, del, h1, h2, h3, h4⟩ := ih _ (step_inv h hok.1) hok.2
    have hq := step_queue h hok.1
    refine ⟨hf, (if i.ren then [(next D s i).dout] else []) ++ del, ?_, ?_, ?_, ?_⟩
    · have : written ((machine D).trace s (i :: is))
          = (if i.wen then [i.data] else []) ++ written ((machine D).trace (next D s i) is) := by
        simp only [written, Machine.trace_cons, List.filterMap_cons, machine]
        cases i.wen <;> rfl
      rw [this, ← List.append_assoc, hq, List.append_assoc]
      have h1' : queue D (next D s i) ++ written ((machine D).trace (next D s i) is)
        = del ++ queue D ((machine D).final (next D s i) is) := h1
      rw [h1', List.append_assoc]; rfl
    · simp only [List.length_append, h2]
      simp only [reads, Machine.trace_cons, List.countP_cons]
      cases i.ren <;> simp [machine]; omega
    · cases is with
      | nil => simp [delivered]
      | cons j js =>
        simp only [Machine.trace_cons, delivered]
        simp only [Machine.trace_cons] at h3
        cases i.ren
        · simp only [Bool.false_eq_true, if_false, List.nil_append]; exact h3
        · simp only [if_true, List.singleton_append]
          exact (List.prefix_cons_inj _).2 h3
    · intro e
      have h4 := h4 e
      cases is with
      | nil =>
        simp only [Machine.trace_nil, Machine.trace_cons, Machine.final_nil, Machine.final_cons,
          List.nil_append, List.cons_append, delivered] at h4 ⊢
        subst h4
        cases i.ren <;> rfl
      | cons j js =>
        simp only [Machine.trace_cons, List.cons_append, delivered, Machine.final_cons] at h4 ⊢
        cases i.ren
        · simp only [Bool.false_eq_true, if_false, List.nil_append]; exact h4
        · simp only [if_true, List.singleton_append]
          rw [← h4]; rfl

end Verif.Fifo
