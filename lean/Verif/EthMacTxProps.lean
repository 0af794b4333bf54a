import Verif.EthMacTx
/-! # Checksum of transmitted frames: properties -/
namespace Verif.EthMacTx
variable {C W F : Type}

/-- a word of `eth.tx` is taken -/
def taken (e : In W × Out F) : Bool := e.1.valid && e.2.txReady
/-- the deparser takes a checksum -/
def given (e : In W × Out F) : Bool := e.2.fcsVld && e.1.fcsRd

/-- complete frames taken from `eth.tx`, `open'` are the words of the frame which began before -/
def frames : List W → List (In W × Out F) → List (List W)
  | _, [] => []
  | o, e :: r =>
    if taken e then if e.1.last then (o ++ [e.1.word]) :: frames [] r else frames (o ++ [e.1.word]) r
    else frames o r

/-- checksums taken by the deparser -/
def sums (t : List (In W × Out F)) : List F := t.filterMap fun e => if given e then some e.2.fcs else none

/-- the deparser takes no data of the next frame before the checksum of the frame; `owed`: a checksum is to be taken -/
def Patient : Bool → List (In W × Out F) → Prop
  | _, [] => True
  | owed, e :: r => (owed = true → e.1.dataRd = false) ∧ Patient ((owed || (taken e && e.1.last)) && !given e) r

/-- checksum of a frame -/
def sum (upd : C → W → C) (init : C) (fin : C → F) (ws : List W) : F := fin (ws.foldl upd init)

def pend (s : St C F) : List F := if s.vld then [s.tmp] else []

theorem sums_cons (e : In W × Out F) (t : List (In W × Out F)) :
    sums (e :: t) = (if given e then [e.2.fcs] else []) ++ sums t := by
  unfold sums
  rw [List.filterMap_cons]
  cases given e <;> rfl

theorem run_gen (upd : C → W → C) (init : C) (fin : C → F) :
    ∀ (is : List (In W)) (s : St C F) (o : List W), s.crc = o.foldl upd init →
      Patient s.vld ((mac upd init fin).trace s is) →
      sums ((mac upd init fin).trace s is) ++ pend ((mac upd init fin).final s is) =
        pend s ++ (frames o ((mac upd init fin).trace s is)).map (sum upd init fin) := by
  intro is
  induction is with
  | nil => intro s o _ _; simp [sums, frames]
  | cons i is ih =>
    intro s o hc hp
    rw [Machine.trace_cons, Machine.final_cons]
    rw [Machine.trace_cons, Patient] at hp
    obtain ⟨hp1, hp2⟩ := hp
    obtain ⟨v, l, w, d, f⟩ := i
    obtain ⟨c, tmp, vd⟩ := s
    simp only at hc
    subst hc
    rw [sums_cons, frames]
    have e1 : ∀ s i, (mac upd init fin).out s i = out upd fin s i := fun _ _ => rfl
    have e2 : ∀ s i, (mac upd init fin).next s i = next upd init fin s i := fun _ _ => rfl
    rw [e1] at hp1 hp2
    rw [e2] at hp2
    rw [e1, e2]
    cases v <;> cases d <;> cases l <;> cases f <;> cases vd <;>
      simp [taken, given, out, next, crcVld, crcNext] at hp1 hp2 ⊢ <;>
      first
        | (have := ih ⟨List.foldl upd init o, tmp, true⟩ o rfl hp2
           simpa [pend] using this)
        | (have := ih ⟨List.foldl upd init o, tmp, false⟩ o rfl hp2
           simpa [pend] using this)
        | (have := ih ⟨upd (List.foldl upd init o) w, tmp, false⟩ (o ++ [w]) (by simp) hp2
           simpa [pend] using this)
        | (have := ih ⟨init, fin (upd (List.foldl upd init o) w), false⟩ [] rfl hp2
           simpa [pend, sum] using this)
        | (have := ih ⟨init, fin (upd (List.foldl upd init o) w), true⟩ [] rfl hp2
           simpa [pend, sum] using this)

/-- C421: the deparser gets the checksum of every frame, in order, at most one of them is waiting; for any CRC, any stalls and any
contents of the register after power up -/
theorem fcs_stream (upd : C → W → C) (init : C) (fin : C → F) (tmp0 : F) (is : List (In W))
    (hp : Patient false ((mac upd init fin).trace ⟨init, tmp0, false⟩ is)) :
    ∃ rest, sums ((mac upd init fin).trace ⟨init, tmp0, false⟩ is) ++ rest =
      (frames [] ((mac upd init fin).trace ⟨init, tmp0, false⟩ is)).map (sum upd init fin) ∧ rest.length ≤ 1 := by
  refine ⟨pend ((mac upd init fin).final ⟨init, tmp0, false⟩ is), ?_, ?_⟩
  · have := run_gen upd init fin is ⟨init, tmp0, false⟩ [] rfl hp
    simpa [pend] using this
  · unfold pend; split <;> simp

/-- C421: a checksum is offered in the same clock as the end of the frame and until it is taken, so nothing waits for nothing -/
theorem fcs_offered (upd : C → W → C) (init : C) (fin : C → F) (tmp0 : F) (is : List (In W)) (i : In W)
    (hp : Patient false ((mac upd init fin).trace ⟨init, tmp0, false⟩ is))
    (h : (sums ((mac upd init fin).trace ⟨init, tmp0, false⟩ is)).length <
        (frames [] ((mac upd init fin).trace ⟨init, tmp0, false⟩ is)).length ∨ (i.valid && i.dataRd && i.last) = true) :
    ((mac upd init fin).outAfter ⟨init, tmp0, false⟩ is i).fcsVld = true := by
  have hr := run_gen upd init fin is ⟨init, tmp0, false⟩ [] rfl hp
  show (((mac upd init fin).final ⟨init, tmp0, false⟩ is).vld || (crcVld i && i.last)) = true
  rcases h with h | h
  · have hl := congrArg List.length hr
    rw [List.length_append, List.length_append, List.length_map] at hl
    cases hv : ((mac upd init fin).final ⟨init, tmp0, false⟩ is).vld
    · simp [pend, hv] at hl; omega
    · rfl
  · unfold crcVld; rw [h, Bool.or_true]

/-- a stalled word and a checksum which waits -/
example : Patient false ((mac (fun c (w : Nat) => c + w) 0 id).trace ⟨0, 9, false⟩
    [⟨true, false, 3, true, false⟩, ⟨true, true, 4, false, false⟩, ⟨true, true, 4, true, false⟩, ⟨true, false, 5, false, true⟩]) ∧
    sums ((mac (fun c (w : Nat) => c + w) 0 id).trace ⟨0, 9, false⟩
    [⟨true, false, 3, true, false⟩, ⟨true, true, 4, false, false⟩, ⟨true, true, 4, true, false⟩, ⟨true, false, 5, false, true⟩]) = [7] := by
  refine ⟨?_, by decide⟩
  simp [Patient, mac, out, next, crcVld, crcNext, taken, given]

end Verif.EthMacTx
