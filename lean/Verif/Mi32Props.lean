import Verif.Mi32
/-!
# Properties C88 - C92 of the MI32 bridges and endpoint
-/
namespace Verif.Mi32

universe u v w

private theorem splice {β : Type u} {a x b n y z f : List β} (h1 : a ++ x = b ++ n) (h2 : n ++ y = z ++ f) :
    a ++ (x ++ y) = (b ++ z) ++ f := by
  rw [← List.append_assoc, h1, List.append_assoc, h2, List.append_assoc]

namespace ToAxi
variable {A : Type u} {δ : Type v} {ρ : Type w}

/-- **C88** Every write accepted on MI32 is exactly one accepted AXI write address and its data follow in order (at most
one word is waiting), for all stall patterns. -/
theorem toAxi_writes (s0 : St δ) (h0 : s0.pending = false) (is : List (In A δ ρ)) :
    let tr := machine.trace s0 is
    aws tr = (miWrites tr).map (·.1) ∧ ws tr <+: (miWrites tr).map (·.2) ∧
    (miWrites tr).length ≤ (ws tr).length + 1 := by
  have key : ∀ (is : List (In A δ ρ)) (s : St δ),
      aws (machine.trace s is) = (miWrites (machine.trace s is)).map (·.1) ∧
      given (s.pending) (s.data) ++ (miWrites (machine.trace s is)).map (·.2) =
        ws (machine.trace s is) ++
          given ((machine.final s is).pending) ((machine.final s is).data) := by
    intro is
    induction is with
    | nil => intro s; exact ⟨rfl, List.append_nil _⟩
    | cons i is ih =>
      intro s
      obtain ⟨h1, h2⟩ := ih (next s i)
      have e : (machine (A := A) (ρ := ρ)).trace s (i :: is) = (i, out s i) :: machine.trace (next s i) is := rfl
      have ef : (machine (A := A) (ρ := ρ)).final s (i :: is) = machine.final (next s i) is := rfl
      rw [e, ef]
      simp only [aws, miWrites, ws, filterMap_cons_ite] at h1 h2 ⊢
      refine ⟨?_, ?_⟩
      · rw [List.map_append, h1]
        congr 1
        show given (((wEn i && clean s i) && i.awReady)) (i.addr) =
          List.map _ (given ((i.wr && (i.arReady && i.awReady && clean s i))) (i.addr, i.dwr))
        unfold wEn
        cases i.wr <;> cases i.arReady <;> cases i.awReady <;> cases clean s i <;> rfl
      · rw [List.append_assoc, ← h2, List.map_append, ← List.append_assoc, ← List.append_assoc]
        congr 1
        show given (s.pending) (s.data) ++
            List.map _ (given ((i.wr && (i.arReady && i.awReady && clean s i))) (i.addr, i.dwr)) =
          given ((s.pending && i.wReady)) (s.data) ++
            given ((next s i).pending) ((next s i).data)
        unfold next clean wEn
        cases hp : s.pending <;> cases i.wReady <;> cases i.wr <;> cases i.arReady <;> cases i.awReady <;> simp [hp]
  obtain ⟨h1, h2⟩ := key is s0
  rw [h0] at h2
  simp only [given_false, List.nil_append] at h2
  refine ⟨h1, ⟨_, h2.symm⟩, ?_⟩
  have := congrArg List.length h2
  rw [List.length_map, List.length_append] at this
  rw [this]
  cases (machine.final s0 is).pending <;> simp

/-- Full statement of **C89**: every read accepted on MI32 is exactly one accepted AXI read address. -/
def ReadsOnce : Prop := ∀ (s0 : St Nat), s0.pending = false → ∀ is : List (In Nat Nat Nat),
  Holds (machine.trace s0 is) = true → ars (machine.trace s0 is) = miReads (machine.trace s0 is)

/-- A write is followed by a read of address 7 while the write data wait for one cycle. -/
def dupIs : List (In Nat Nat Nat) :=
  [⟨false, true, 4, 100, true, true, false, false, 0⟩, ⟨true, false, 7, 0, true, true, false, false, 0⟩,
   ⟨true, false, 7, 0, true, true, true, false, 0⟩]

/-- **C89** is false: a read which waits for write data is sent twice. -/
theorem toAxi_read_duplicated : ¬ ReadsOnce := by
  intro h
  exact absurd (h ⟨false, 0⟩ rfl dupIs (by decide)) (by decide)

example : miReads (machine.trace ⟨false, 0⟩ dupIs) = [7] ∧ ars (machine.trace ⟨false, 0⟩ dupIs) = [7, 7] := by decide

/-- **C89**, what holds: reads are exact if there are no waiting write data when a read is requested. Missing: reads
requested while write data wait. -/
theorem toAxi_reads_partial (s0 : St δ) (is : List (In A δ ρ))
    (h : ∀ e ∈ machine.trace s0 is, e.1.rd = true → e.2.wValid = true → e.1.wReady = true) :
    ars (machine.trace s0 is) = miReads (machine.trace s0 is) := by
  induction is generalizing s0 with
  | nil => rfl
  | cons i is ih =>
    have e : (machine (A := A) (ρ := ρ)).trace s0 (i :: is) = (i, out s0 i) :: machine.trace (next s0 i) is := rfl
    rw [e] at h ⊢
    simp only [List.mem_cons, forall_eq_or_imp] at h
    have ih := ih (next s0 i) h.2
    simp only [ars, miReads, filterMap_cons_ite] at ih ⊢
    rw [ih]
    congr 1
    show given (((i.rd && i.awReady) && i.arReady)) (i.addr) =
      given ((i.rd && (i.arReady && i.awReady && clean s0 i))) (i.addr)
    have h1 : i.rd = true → s0.pending = true → i.wReady = true := h.1
    unfold clean
    revert h1
    cases i.rd <;> cases s0.pending <;> cases i.wReady <;> cases i.arReady <;> cases i.awReady <;> simp

example : (∀ e ∈ (machine.trace ⟨false, 0⟩ [⟨false, true, 4, 100, true, true, false, false, 0⟩,
      ⟨true, false, 7, 0, true, true, true, false, 0⟩] : List (In Nat Nat Nat × Out Nat Nat Nat)),
      e.1.rd = true → e.2.wValid = true → e.1.wReady = true) ∧
    miWrites (machine.trace ⟨false, 0⟩ dupIs) = [(4, 100)] ∧ ws (machine.trace ⟨false, 0⟩ dupIs) = [100] := by decide

/-- **C89** Never is a read lost: each accepted MI32 read is an accepted AXI read of the same cycle. -/
theorem toAxi_reads_not_lost (s0 : St δ) (is : List (In A δ ρ)) :
    ∀ e ∈ machine.trace s0 is, e.1.rd = true → e.2.ardy = true →
      e.2.arValid = true ∧ e.1.arReady = true ∧ e.2.arAddr = e.1.addr := by
  induction is generalizing s0 with
  | nil => simp
  | cons i is ih =>
    simp only [Machine.trace_cons, List.mem_cons, forall_eq_or_imp]
    refine ⟨?_, ih _⟩
    show i.rd = true → (i.arReady && i.awReady && clean s0 i) = true → (i.rd && i.awReady) = true ∧ i.arReady = true ∧ i.addr = i.addr
    cases i.rd <;> cases i.arReady <;> cases i.awReady <;> simp

end ToAxi

namespace FromAxi
variable {A : Type u} {δ : Type v} {ρ : Type w}

/-- Full statement of **C90**: requests are issued on MI32 in the order and number in which they were accepted. -/
def InOrder : Prop := ∀ (rp : Bool) (s0 : St Nat Nat), IsInit s0 → ∀ is : List (In Nat Nat Nat),
  Holds ((machine rp).trace s0 is) = true →
    issued ((machine rp).trace s0 is) <+: accepted ((machine rp).trace s0 is)

def s00 : St Nat Nat := ⟨0, false, false, 0, false, false, false⟩

/-- Two reads, the MI32 slave is busy for one cycle. -/
def busyIs : List (In Nat Nat Nat) :=
  [⟨true, 1, false, 0, false, 0, true, true, false, false, 0⟩, ⟨true, 2, false, 0, false, 0, true, true, false, false, 0⟩,
   ⟨true, 2, false, 0, false, 0, true, true, true, false, 0⟩, ⟨false, 0, false, 0, false, 0, true, true, true, false, 0⟩]

/-- **C90** is false: the first read is lost, the second one issued twice. -/
theorem fromAxi_read_replaced : ¬ InOrder := by
  intro h
  exact absurd (h true s00 ⟨rfl, rfl, rfl, rfl, rfl⟩ busyIs (by decide)) (by decide)

example : accepted ((machine true).trace s00 busyIs) = [(false, 1), (false, 2)] ∧
    issued ((machine true).trace s00 busyIs) = [(false, 2), (false, 2)] := by decide

/-- Two reads, the second one is requested in the cycle in which the answer of the first one is taken. -/
def backIs : List (In Nat Nat Nat) :=
  [⟨true, 1, false, 0, false, 0, true, true, true, false, 0⟩, ⟨false, 0, false, 0, false, 0, true, true, true, false, 0⟩,
   ⟨false, 0, false, 0, false, 0, true, true, true, true, 101⟩, ⟨true, 2, false, 0, false, 0, true, true, true, false, 0⟩] ++
  List.replicate 6 ⟨false, 0, false, 0, false, 0, true, true, true, false, 0⟩

/-- **C90** The second read is accepted but not issued in the following cycles although nothing stalls. -/
theorem fromAxi_read_lost :
    accepted ((machine true).trace s00 backIs) = [(false, 1), (false, 2)] ∧
    issued ((machine true).trace s00 backIs) = [(false, 1)] ∧
    ((machine true).final s00 backIs).addrVld = false := by decide

/-- Full statement of **C91**: a response is given only for writes which were issued with their data. -/
def ResponseAfterWrite : Prop := ∀ (rp : Bool) (s0 : St Nat Nat), IsInit s0 → ∀ is : List (In Nat Nat Nat),
  Holds ((machine rp).trace s0 is) = true →
    bGiven ((machine rp).trace s0 is) ≤ (wIssued ((machine rp).trace s0 is)).length

/-- Write address before write data. -/
def lateIs : List (In Nat Nat Nat) :=
  [⟨false, 0, true, 5, false, 0, true, true, true, false, 0⟩, ⟨false, 0, false, 0, false, 0, true, true, true, false, 0⟩,
   ⟨false, 0, false, 0, true, 99, true, true, true, false, 0⟩, ⟨false, 0, false, 0, true, 99, true, true, true, false, 0⟩]

/-- **C91** is false: if the data come after the address the write is confirmed and never done. -/
theorem fromAxi_write_lost : ¬ ResponseAfterWrite := by
  intro h
  exact absurd (h true s00 ⟨rfl, rfl, rfl, rfl, rfl⟩ lateIs (by decide)) (by decide)

example : accepted ((machine true).trace s00 lateIs) = [(true, 5)] ∧ wIssued ((machine true).trace s00 lateIs) = [] ∧
    bGiven ((machine true).trace s00 lateIs) = 1 := by decide

/-- Full statement of **C92**: no read data are lost. -/
def DataKept : Prop := ∀ (rp : Bool) (s0 : St Nat Nat), IsInit s0 → ∀ is : List (In Nat Nat Nat),
  Holds ((machine rp).trace s0 is) = true →
    rGiven ((machine rp).trace s0 is) <+: answers ((machine rp).trace s0 is)

/-- Two reads, the master does not take read data for a while. -/
def stallIs : List (In Nat Nat Nat) :=
  [⟨true, 1, false, 0, false, 0, false, true, true, false, 0⟩, ⟨true, 2, false, 0, false, 0, false, true, true, false, 0⟩,
   ⟨false, 0, false, 0, false, 0, false, true, true, true, 101⟩, ⟨false, 0, false, 0, false, 0, false, true, true, true, 102⟩,
   ⟨false, 0, false, 0, false, 0, true, true, true, false, 0⟩, ⟨false, 0, false, 0, false, 0, true, true, true, false, 0⟩]

/-- **C92** is false: the second answer replaces the first one. -/
theorem fromAxi_answer_lost : ¬ DataKept := by
  intro h
  exact absurd (h true s00 ⟨rfl, rfl, rfl, rfl, rfl⟩ stallIs (by decide)) (by decide)

example : issued ((machine true).trace s00 stallIs) = [(false, 1), (false, 2)] ∧
    rGiven ((machine true).trace s00 stallIs) = [102] := by decide

/-- The environment for which the bridge works: the MI32 slave is always ready, the AXI master takes answers at once,
gives write data with the address at the latest, and does not request while it gets an answer. -/
def Gentle (e : In A δ ρ × Out A δ ρ) : Prop :=
  e.1.ardy = true ∧ e.1.rReady = true ∧ e.1.bReady = true ∧ (e.2.wReady = true → e.1.wValid = true) ∧
  ((e.2.rValid = true ∨ e.2.bValid = true) → e.1.arValid = false ∧ e.1.awValid = false)

/-- **C90**, **C91**, **C92**, what holds in a gentle environment: requests are issued in order (at most one waits),
write data are forwarded, one response is given for each write, answers are given in order (at most one waits). -/
theorem fromAxi_gentle_partial (rp : Bool) (s0 : St A ρ) (h0 : IsInit s0) (is : List (In A δ ρ))
    (h : ∀ e ∈ (machine rp).trace s0 is, Gentle e) :
    let tr := (machine rp).trace s0 is
    issued tr <+: accepted tr ∧ (accepted tr).length ≤ (issued tr).length + 1 ∧
    wIssued tr = wTaken tr ∧ bGiven tr = (wIssued tr).length ∧
    rGiven tr <+: answers tr ∧ (answers tr).length ≤ (rGiven tr).length + 1 := by
  have key : ∀ (is : List (In A δ ρ)) (s : St A ρ), s.rPend = false → s.wPend = false →
      (∀ e ∈ (machine rp).trace s is, Gentle e) →
      given (s.addrVld) ((s.addrW, s.addr)) ++ accepted ((machine rp).trace s is) =
        issued ((machine rp).trace s is) ++ given (((machine rp).final s is).addrVld) ((((machine rp).final s is).addrW, ((machine rp).final s is).addr)) ∧
      wIssued ((machine rp).trace s is) = wTaken ((machine rp).trace s is) ∧
      bGiven ((machine rp).trace s is) = (wIssued ((machine rp).trace s is)).length ∧
      given (s.rVld) (s.rData) ++ answers ((machine rp).trace s is) =
        rGiven ((machine rp).trace s is) ++ given (((machine rp).final s is).rVld) (((machine rp).final s is).rData) := by
    intro is
    induction is with
    | nil => intro s _ _ _; exact ⟨List.append_nil _, rfl, rfl, List.append_nil _⟩
    | cons i is ih =>
      intro s hr hw h
      have e : (machine rp).trace s (i :: is) = (i, out rp s i) :: (machine rp).trace (next rp s i) is := rfl
      have ef : (machine rp).final s (i :: is) = (machine rp).final (next rp s i) is := rfl
      rw [e] at h ⊢
      rw [ef]
      simp only [List.mem_cons, forall_eq_or_imp] at h
      obtain ⟨⟨g1, g2, g3, g4, g5⟩, h⟩ := h
      have g1 : i.ardy = true := g1
      have g2 : i.rReady = true := g2
      have g3 : i.bReady = true := g3
      have hidle : idle s i = true := by unfold idle; rw [hr, hw]; rfl
      have g4 : (s.addrVld && s.addrW) = true → i.wValid = true := by
        intro q; apply g4
        show (s.addrVld && s.addrW && i.ardy) = true
        rw [q, g1]; rfl
      have g5 : (s.rVld = true ∨ (s.addrVld && s.addrW) = true) → i.arValid = false ∧ i.awValid = false := by
        intro q; apply g5
        rcases q with q | q
        · left; exact q
        · right
          show (s.addrVld && s.addrW && i.ardy && (s.addrVld && s.addrW && i.ardy)) = true
          rw [q, g1]; rfl
      have hr' : (next rp s i).rPend = false := by
        show (if rAck s i then (if rp then i.arValid else !i.awValid && i.arValid) else s.rPend) = false
        unfold rAck
        rw [g2]
        cases hv : s.rVld
        · simpa using hr
        · obtain ⟨a, b⟩ := g5 (Or.inl hv)
          rw [a, b]; cases rp <;> rfl
      have hw' : (next rp s i).wPend = false := by
        show (if wAck s i then (if rp then !i.arValid && i.awValid else i.awValid) else s.wPend) = false
        cases hv : wAck s i
        · exact hw
        · have : (s.addrVld && s.addrW) = true := by
            revert hv; unfold wAck
            cases s.addrVld <;> cases s.addrW <;> simp
          obtain ⟨a, b⟩ := g5 (Or.inr this)
          rw [a, b]; cases rp <;> rfl
      obtain ⟨a, b, c, d⟩ := ih (next rp s i) hr' hw' h
      refine ⟨?_, ?_, ?_, ?_⟩
      · simp only [accepted, issued, List.flatMap_cons] at a ⊢
        refine splice ?_ a
        show _ ++ (given ((i.arValid && (out rp s i).arReady)) ((false, i.arAddr)) ++
            given ((i.awValid && (out rp s i).awReady)) ((true, i.awAddr))) =
          (given (((out rp s i).rd && i.ardy)) ((false, s.addr)) ++
            given (((out rp s i).wr && i.ardy)) ((true, s.addr))) ++
          given ((nextAddr rp s i).2.1) (((nextAddr rp s i).2.2, (nextAddr rp s i).1))
        unfold out nextAddr rdyAddr
        simp only [hidle, g1]
        revert g4
        cases rp <;> cases s.addrVld <;> cases s.addrW <;> cases i.arValid <;> cases i.awValid <;>
          cases i.wValid <;> simp
      · simp only [wIssued, wTaken, filterMap_cons_ite] at b ⊢
        rw [b]
        congr 1
        show given (((idle s i && s.addrVld && s.addrW && i.wValid) && i.ardy)) (i.wData) =
          given ((i.wValid && (s.addrVld && s.addrW && i.ardy))) (i.wData)
        rw [hidle, g1]
        cases s.addrVld <;> cases s.addrW <;> cases i.wValid <;> rfl
      · simp only [bGiven, wIssued, filterMap_cons_ite, List.countP_cons, List.length_append] at c ⊢
        rw [c, Nat.add_comm]
        congr 1
        show (if ((s.addrVld && s.addrW && i.ardy && (s.addrVld && s.addrW && i.ardy)) && i.bReady) = true then 1 else 0) =
          (given ((idle s i && s.addrVld && s.addrW && i.wValid) && i.ardy) i.wData).length
        rw [hidle, g1, g3]
        revert g4
        cases s.addrVld <;> cases s.addrW <;> cases i.wValid <;> simp
      · simp only [answers, rGiven, filterMap_cons_ite] at d ⊢
        rw [List.append_assoc, ← d, ← List.append_assoc, ← List.append_assoc]
        congr 1
        show given (s.rVld) (s.rData) ++ given (i.drdy) (i.drd) =
          given ((s.rVld && i.rReady)) (s.rData) ++
            given (if i.drdy then true else if i.rReady then false else s.rVld) (if i.drdy then i.drd else s.rData)
        rw [g2]
        cases s.rVld <;> cases i.drdy <;> rfl
  obtain ⟨a, b, c, d⟩ := key is s0 h0.2.2.2.1 h0.2.2.2.2 h
  rw [h0.1] at a
  rw [h0.2.2.1] at d
  simp only [given_false, List.nil_append] at a d
  refine ⟨⟨_, a.symm⟩, ?_, b, c, ⟨_, d.symm⟩, ?_⟩
  · rw [a, List.length_append]; cases ((machine rp).final s0 is).addrVld <;> simp
  · rw [d, List.length_append]; cases ((machine rp).final s0 is).rVld <;> simp

/-- A write and a read in a gentle environment. -/
def gentleIs : List (In Nat Nat Nat) :=
  [⟨false, 0, true, 5, true, 99, true, true, true, false, 0⟩, ⟨false, 0, false, 0, true, 99, true, true, true, false, 0⟩,
   ⟨true, 6, false, 0, false, 0, true, true, true, false, 0⟩, ⟨false, 0, false, 0, false, 0, true, true, true, false, 0⟩,
   ⟨false, 0, false, 0, false, 0, true, true, true, true, 106⟩, ⟨false, 0, false, 0, false, 0, true, true, true, false, 0⟩]

instance (e : In Nat Nat Nat × Out Nat Nat Nat) : Decidable (Gentle e) := by unfold Gentle; infer_instance

example : IsInit s00 ∧ (∀ e ∈ (machine true).trace s00 gentleIs, Gentle e) ∧
    issued ((machine true).trace s00 gentleIs) = [(true, 5), (false, 6)] ∧
    rGiven ((machine true).trace s00 gentleIs) = [106] := by
  refine ⟨⟨rfl, rfl, rfl, rfl, rfl⟩, by decide, by decide, by decide⟩

end FromAxi

namespace Endpoint
variable {A : Type u} {ρ : Type w}

/-- Full statement of **C93**: each read is answered in the next cycle. -/
def Answered : Prop := ∀ (inRange : Nat → Bool) (s0 : St Nat) (is : List (In Nat Nat)) (i j : In Nat Nat),
  i.rd = true → ((machine inRange).outAfter s0 (is ++ [i]) j).drdy = true

/-- **C93** A read is answered in the next cycle exactly if its address is in the range of the endpoint; a mapped word is
answered with the value it had in the cycle of the request. Missing: answers to other addresses, the master waits
for ever. -/
theorem mi32Endpoint_answer_partial (inRange : A → Bool) (s0 : St ρ) (is : List (In A ρ)) (i j : In A ρ) :
    (((machine inRange).outAfter s0 (is ++ [i]) j).drdy = true ↔ i.rd = true ∧ inRange i.addr = true) ∧
    ∀ v, i.rd = true → i.word i.addr = some v → ((machine inRange).outAfter s0 (is ++ [i]) j).drd = v := by
  have e : (machine inRange).final s0 (is ++ [i]) = (machine inRange).next ((machine inRange).final s0 is) i := by
    rw [Machine.final_append]; rfl
  unfold Machine.outAfter
  rw [e]
  refine ⟨?_, ?_⟩
  · show (i.rd && inRange i.addr) = true ↔ _
    simp
  · intro v hr hv
    show (if i.rd = true then (i.word i.addr).getD _ else _) = v
    rw [hr, hv]; rfl

theorem mi32Endpoint_not_answered : ¬ Answered := by
  intro h
  exact absurd (h (fun a => a < 8) ⟨false, 0⟩ [] ⟨true, 8, fun _ => none⟩ ⟨false, 0, fun _ => none⟩ rfl) (by decide)

example : ((machine (fun a => a < 8)).outAfter (⟨false, 0⟩ : St Nat) ([] ++ [⟨true, 4, fun _ => some 9⟩])
    ⟨false, 0, fun _ => none⟩).drd = 9 := by decide

end Endpoint
end Verif.Mi32
