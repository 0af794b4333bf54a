import Verif.EthMacRxEval
/-!
# C324 - C328: frames delivered by the receiver of `EthernetMac`: definitions and violations
-/
namespace Verif.EthMacRx

/-! ## Frames on the ports -/

/-- Complete frames received on `phy_rx`: bytes with the error flag (`cur` are bytes of the frame which was started). -/
def rxFrames (cur : List (Nat × Bool)) : List In → List (List (Nat × Bool))
  | [] => []
  | x :: t =>
    if x.phy.vld then
      if x.phy.last then (cur ++ [(x.phy.data, x.phy.err)]) :: rxFrames [] t
      else rxFrames (cur ++ [(x.phy.data, x.phy.err)]) t
    else rxFrames cur t

/-- Complete frames in a sequence of words. -/
def frames (cur : List Nat) : List (Nat × Bool) → List (List Nat)
  | [] => []
  | (d, l) :: t => if l then (cur ++ [d]) :: frames [] t else frames (cur ++ [d]) t

def bytes (f : List (Nat × Bool)) : List Nat := f.map (·.1)

/-- Bytes of the address in the order of transfer. -/
def macBytes (c : Cfg) : List Nat := (List.range 6).map fun i => c.mac / 256 ^ i % 256

/-- The frame has the address of the receiver. -/
def Mine (c : Cfg) (f : List (Nat × Bool)) : Prop := (bytes f).take 6 = macBytes c
def NoErr (f : List (Nat × Bool)) : Prop := ∀ e ∈ f, e.2 = false
def Intact (c : Cfg) (f : List (Nat × Bool)) : Prop := c.good (bytes f) = true

/-- The frame without the FCS. -/
def payload (f : List (Nat × Bool)) : List Nat := (bytes f).take (f.length - 4)

/-- Frames which are to be delivered. -/
structure Acceptable (c : Cfg) (f : List (Nat × Bool)) : Prop where
  mine : Mine c f
  noErr : NoErr f
  intact : Intact c f

/-- Each delivered frame is one of received frames which are to be delivered, without the FCS. -/
def Sound (c : Cfg) (s : St) (is : List In) : Prop :=
  ∀ g ∈ frames [] (delivered ((machine c).trace s is)), ∃ f ∈ rxFrames [] is, Acceptable c f ∧ g = payload f

/-- The signal `err_rx_out_of_mem` is never set (mac.py:202). -/
def NoOverflow (c : Cfg) : St → List In → Prop
  | _, [] => True
  | s, x :: t => outOfMem c s = false ∧ NoOverflow c (next c s x) t

/-- There is a gap of 20 bytes between frames (the gap of 12 bytes and the preamble with the delimiter, 8 bytes); `k` cycles are missing. -/
def spaced : Nat → List In → Bool
  | _, [] => true
  | k, x :: t => if x.phy.vld then k == 0 && spaced (if x.phy.last then 20 else 0) t else spaced (k - 1) t

/-- Frames as on a network: 64 - 1518 bytes, with gaps. -/
structure Legal (is : List In) : Prop where
  gaps : spaced 0 is = true
  len : ∀ f ∈ rxFrames [] is, 64 ≤ f.length ∧ f.length ≤ 1518 ∧ ∀ e ∈ f, e.1 < 256

/-- **C324** as it should hold: frames for other stations are not delivered. -/
def C324 : Prop := ∀ c s is, 64 ≤ c.depth → IsInit c s → Legal is → NoOverflow c s is →
  (∀ f ∈ rxFrames [] is, NoErr f ∧ Intact c f) → Sound c s is

/-- **C325** as it should hold: frames with an error from the PHY are not delivered. -/
def C325 : Prop := ∀ c s is, 64 ≤ c.depth → IsInit c s → Legal is → NoOverflow c s is →
  (∀ f ∈ rxFrames [] is, Mine c f ∧ Intact c f) → Sound c s is

/-- Input without a transfer, the consumer is ready. -/
def idle (n : Nat) : List In := List.replicate n ⟨⟨false, 0, false, false⟩, true⟩
/-- A transfer of bytes without gaps. -/
def raw (f : List Nat) : List In := (f.zipIdx).map fun e => ⟨⟨true, e.1, false, e.2 + 1 == f.length⟩, true⟩

/-- **C326** as it should hold: a frame with a wrong FCS has the same effect as if nothing was received
(`p` is a sequence of complete frames, the consumer is always ready). -/
def C326 : Prop := ∀ c s p b q, 64 ≤ c.depth → IsInit c s → Legal (p ++ raw b ++ q) → (∀ x ∈ p ++ q, x.rd = true) → (received p).getLast?.all (·.2) = true →
  c.good b = false → (∀ f ∈ rxFrames [] (p ++ q), Acceptable c f) →
  NoOverflow c s (p ++ raw b ++ q) → NoOverflow c s (p ++ idle b.length ++ q) →
  frames [] (delivered ((machine c).trace s (p ++ raw b ++ q))) = frames [] (delivered ((machine c).trace s (p ++ idle b.length ++ q)))

/-- **C327** as it should hold: a frame which does not fit in the fifo is dropped as a whole. -/
def C327 : Prop := ∀ c s is, 64 ≤ c.depth → IsInit c s → Legal is → (∀ f ∈ rxFrames [] is, Acceptable c f) → Sound c s is

/-- All received frames are delivered if there is enough of time after them. -/
def AllDelivered (c : Cfg) (s : St) (is : List In) : Prop :=
  ∃ n, ∀ m, n ≤ m → frames [] (delivered ((machine c).trace s (is ++ idle m))) = (rxFrames [] is).map payload

/-- **C328** as it should hold: acceptable frames which fit in the fifo are all delivered if the consumer is always ready. -/
def C328 : Prop := ∀ c s is, 64 ≤ c.depth → IsInit c s → Legal is → NoOverflow c s is → (∀ x ∈ is, x.rd = true) →
  (∀ f ∈ rxFrames [] is, Acceptable c f) → AllDelivered c s is

/-- **C329** as it should hold: a frame is not lost if the consumer is not ready for some time. -/
def C329 : Prop := ∀ c s is, 64 ≤ c.depth → IsInit c s → Legal is → NoOverflow c s is → (rxFrames [] is).length = 1 →
  (∀ f ∈ rxFrames [] is, Acceptable c f) → AllDelivered c s is

/-! ## Witnesses -/

/-- CRC-32 of Ethernet, bit by bit. -/
def crcBit (c : Nat) : Nat := if c % 2 = 1 then (c / 2) ^^^ 0xEDB88320 else c / 2
def crcByte (c b : Nat) : Nat := crcBit (crcBit (crcBit (crcBit (crcBit (crcBit (crcBit (crcBit (c ^^^ b))))))))
def crc32 (l : List Nat) : Nat := (l.foldl crcByte 0xFFFFFFFF) ^^^ 0xFFFFFFFF
def fcs (l : List Nat) : List Nat := let c := crc32 l; [c % 256, c / 256 % 256, c / 65536 % 256, c / 16777216]

/-- The check value of CRC-32. -/
example : crc32 [0x31, 0x32, 0x33, 0x34, 0x35, 0x36, 0x37, 0x38, 0x39] = 0xCBF43926 := by decide +kernel

/-- The receiver with the default address `01:23:45:67:89:AB` (mac.py:63). -/
def exC (D : Nat) : Cfg := ⟨D, 0xAB8967452301, fun l => crc32 l == 0x2144df1c⟩
def w0 : W := ⟨0, false⟩
def s0 (D : Nat) : St :=
  ⟨⟨false, 0, false, false⟩, 0, Axi4sEq.init, [], ⟨fun _ => ⟨⟨[0], false⟩, false, fun _ => false⟩, false⟩,
   AxisFifoDrop.init D (fun _ => w0) w0, HsFifo.init 4 [] (fun _ => w0) w0, false, false⟩

theorem s0_init (D : Nat) : IsInit (exC D) (s0 D) :=
  ⟨rfl, rfl, rfl, rfl, ⟨fun _ => rfl, fun _ _ => rfl, rfl⟩, ⟨_, _, rfl⟩, ⟨_, _, rfl⟩, rfl, rfl⟩

/-- The bytes with the FCS. -/
def frm (l : List Nat) : List In := raw (l ++ fcs l)
def my : List Nat := [0x01, 0x23, 0x45, 0x67, 0x89, 0xAB]
/-- The address of another station. -/
def other : List Nat := [0x01, 0x23, 0x45, 0x67, 0x89, 0xAC]

instance (c : Cfg) (f : List (Nat × Bool)) : Decidable (Mine c f) := inferInstanceAs (Decidable (_ = _))
instance (f : List (Nat × Bool)) : Decidable (NoErr f) := inferInstanceAs (Decidable (∀ e ∈ f, e.2 = false))
instance (c : Cfg) (f : List (Nat × Bool)) : Decidable (Intact c f) := inferInstanceAs (Decidable (_ = _))
instance (c : Cfg) (f : List (Nat × Bool)) : Decidable (Acceptable c f) :=
  decidable_of_iff (Mine c f ∧ NoErr f ∧ Intact c f) ⟨fun h => ⟨h.1, h.2.1, h.2.2⟩, fun h => ⟨h.1, h.2, h.3⟩⟩
instance (is : List In) : Decidable (Legal is) :=
  decidable_of_iff (spaced 0 is = true ∧ ∀ f ∈ rxFrames [] is, 64 ≤ f.length ∧ f.length ≤ 1518 ∧ ∀ e ∈ f, e.1 < 256)
    ⟨fun h => ⟨h.1, h.2⟩, fun h => ⟨h.1, h.2⟩⟩

theorem noOvf_iff (c : Cfg) : ∀ (is : List In) (s : St), noOvf c s is = true ↔ NoOverflow c s is
  | [], _ => by simp [noOvf, NoOverflow]
  | x :: t, s => by simp [noOvf, NoOverflow, noOvf_iff c t]

/-- What follows from an evaluation. -/
theorem of_run {c : Cfg} {s : St} {is : List In} {r : Res} (h : runF c is s [] true = r) :
    delivered ((machine c).trace s is) = r.words ∧ (r.noOvf = true → NoOverflow c s is) ∧
      lastWaits ((machine c).final s is) = r.lastW ∧ ((machine c).final s is).goodF = r.goodF ∧ ((machine c).final s is).errF = r.errF := by
  rw [runF_eq] at h
  subst h
  refine ⟨by simp, fun h => (noOvf_iff c is s).mp (by simpa using h), rfl, rfl, rfl⟩

/-- Words of a frame. -/
def mark : List Nat → List (Nat × Bool)
  | [] => []
  | [d] => [(d, true)]
  | d :: t => (d, false) :: mark t

def seq (n : Nat) : List Nat := List.range n

/-- A frame for another station. -/
def foreign : List In := frm (other ++ seq 54) ++ idle 65

set_option maxRecDepth 100000 in
/-- It is delivered without its first two bytes. -/
theorem foreign_run : runF (exC 2048) foreign (s0 2048) [] true =
    ⟨mark ([0x45, 0x67, 0x89, 0xAC] ++ seq 54), true, false, false, false⟩ := by decide +kernel

set_option maxRecDepth 100000 in
theorem foreign_fails : ¬ C324 := by
  intro h
  have hr := of_run foreign_run
  have := h (exC 2048) (s0 2048) foreign (by decide) (s0_init _) (by decide +kernel) (hr.2.1 rfl) (by decide +kernel)
  rw [Sound, hr.1] at this
  revert this
  decide +kernel

/-- A frame with an error of the PHY in the 20th byte. -/
def broken : List In := ((frm (my ++ seq 54)).zipIdx.map fun e =>
  if e.2 == 19 then { e.1 with phy := { e.1.phy with err := true } } else e.1) ++ idle 65

set_option maxRecDepth 100000 in
/-- It is delivered without its first 16 bytes. -/
theorem broken_run : runF (exC 2048) broken (s0 2048) [] true = ⟨mark ((seq 54).drop 10), true, false, false, false⟩ := by decide +kernel

set_option maxRecDepth 100000 in
theorem phyErr_fails : ¬ C325 := by
  intro h
  have hr := of_run broken_run
  have := h (exC 2048) (s0 2048) broken (by decide) (s0_init _) (by decide +kernel) (hr.2.1 rfl) (by decide +kernel)
  rw [Sound, hr.1] at this
  revert this
  decide +kernel

/-- A frame of 80 bytes in a fifo for 64. -/
def big : List In := frm (my ++ seq 70) ++ idle 90

set_option maxRecDepth 100000 in
/-- The end of the frame is delivered, without a byte in the middle of it. -/
theorem big_run : runF (exC 64) big (s0 64) [] true =
    ⟨mark [58, 59, 60, 61, 63, 64, 65, 66, 67, 68, 69], false, false, false, false⟩ := by decide +kernel

set_option maxRecDepth 100000 in
theorem overflow_fails : ¬ C327 := by
  intro h
  have := h (exC 64) (s0 64) big (by decide) (s0_init _) (by decide +kernel) (by decide +kernel)
  rw [Sound, (of_run big_run).1] at this
  revert this
  decide +kernel

/-! ## Dead receiver -/

/-- The last word of a frame waits and both registers with results are cleared. -/
def Dead (s : St) : Prop := lastWaits s = true ∧ s.goodF = false ∧ s.errF = false

theorem dead_next (c : Cfg) (s : St) (x : In) (h : Dead s) : Dead (next c s x) ∧ (out s).vld = false := by
  obtain ⟨h1, h2, h3⟩ := h
  have hv : s.buf.outVld = true := by simp only [lastWaits, Bool.and_eq_true] at h1; exact h1.1
  have hl : s.buf.fifo.dout.last = true := by simp only [lastWaits, Bool.and_eq_true] at h1; exact h1.2
  have hw : noWait s = false := by simp [noWait, hv, hl, h2, h3]
  refine ⟨⟨?_, by simp [next, h1], by simp [next, h1]⟩, by simp [out, hw]⟩
  simp [lastWaits, next, bufIn, hw, HsFifo.next, HsFifo.fifoIn, Fifo.next, Fifo.fifoRead, hv, hl]

/-- Nothing is delivered any more, whatever is received. -/
theorem dead_forever (c : Cfg) : ∀ (is : List In) (s : St), Dead s → delivered ((machine c).trace s is) = []
  | [], _, _ => rfl
  | x :: t, s, h => by
    have ih := dead_forever c t (next c s x) (dead_next c s x h).1
    have hv := (dead_next c s x h).2
    show delivered ((x, out s) :: (machine c).trace (next c s x) t) = []
    simp only [delivered, List.filterMap_cons, hv] at ih ⊢
    simpa using ih

theorem delivered_append (c : Cfg) (s : St) (a b : List In) : delivered ((machine c).trace s (a ++ b)) =
    delivered ((machine c).trace s a) ++ delivered ((machine c).trace ((machine c).final s a) b) := by
  rw [Machine.trace_append, delivered, List.filterMap_append]; rfl

/-- If the receiver is dead after `is`, other frames are not delivered. -/
theorem dead_append (c : Cfg) (s : St) (is js : List In) (h : Dead ((machine c).final s is)) :
    delivered ((machine c).trace s (is ++ js)) = delivered ((machine c).trace s is) := by
  rw [delivered_append, dead_forever c js _ h, List.append_nil]

theorem not_all (c : Cfg) (s : St) (is : List In) (k : Nat) (h : Dead ((machine c).final s (is ++ idle k)))
    (hn : frames [] (delivered ((machine c).trace s (is ++ idle k))) ≠ (rxFrames [] is).map payload) : ¬ AllDelivered c s is := by
  rintro ⟨n, hn'⟩
  have := hn' (k + n) (by omega)
  rw [idle, ← List.replicate_append_replicate, ← List.append_assoc, ← idle, dead_append c s _ _ h] at this
  exact hn this

/-- A frame of 84 bytes and a frame of 64 bytes. -/
def two : List In := frm (my ++ seq 74) ++ idle 20 ++ frm (my ++ seq 54)

set_option maxRecDepth 100000 in
theorem two_run : runF (exC 2048) (two ++ idle 70) (s0 2048) [] true =
    ⟨mark (my ++ seq 74) ++ (my ++ seq 53).map (·, false), true, true, false, false⟩ := by decide +kernel

theorem noOverflow_append (c : Cfg) (b : List In) : ∀ (a : List In) (s : St), NoOverflow c s (a ++ b) → NoOverflow c s a
  | [], _, _ => trivial
  | _ :: t, _, h => ⟨h.1, noOverflow_append c b t _ h.2⟩

set_option maxRecDepth 100000 in
/-- The last byte of the second frame is not delivered and the receiver is dead. -/
theorem two_fails : ¬ C328 := by
  intro h
  have hr := of_run two_run
  refine not_all (exC 2048) (s0 2048) two 70 ⟨hr.2.2.1, hr.2.2.2.1, hr.2.2.2.2⟩ ?_
    (h (exC 2048) (s0 2048) two (by decide) (s0_init _) (by decide +kernel) (noOverflow_append _ (idle 70) _ _ (hr.2.1 rfl))
      (by decide +kernel) (by decide +kernel))
  rw [hr.1]
  decide +kernel

/-- A frame with the consumer not ready in one cycle, for the last byte. -/
def stall : List In := frm (my ++ seq 54) ++ idle 64 ++ [⟨⟨false, 0, false, false⟩, false⟩]

set_option maxRecDepth 100000 in
theorem stall_run : runF (exC 2048) (stall ++ idle 0) (s0 2048) [] true =
    ⟨(my ++ seq 53).map (·, false), true, true, false, false⟩ := by decide +kernel

set_option maxRecDepth 100000 in
theorem stall_fails : ¬ C329 := by
  intro h
  have hr := of_run stall_run
  refine not_all (exC 2048) (s0 2048) stall 0 ⟨hr.2.2.1, hr.2.2.2.1, hr.2.2.2.2⟩ ?_
    (h (exC 2048) (s0 2048) stall (by decide) (s0_init _) (by decide +kernel) (noOverflow_append _ (idle 0) _ _ (hr.2.1 rfl))
      (by decide +kernel) (by decide +kernel))
  rw [hr.1]
  decide +kernel

/-- A frame, a frame with a wrong FCS and a frame. -/
def wrongP : List In := frm (my ++ seq 74) ++ idle 20
def wrongB : List Nat := my ++ seq 58
def wrongQ : List In := idle 20 ++ frm (my ++ seq 54) ++ idle 70

set_option maxRecDepth 100000 in
/-- The third frame is lost, and the receiver is dead. -/
theorem wrong_run : runF (exC 2048) (wrongP ++ raw wrongB ++ wrongQ) (s0 2048) [] true =
    ⟨mark (my ++ seq 74), true, true, false, false⟩ := by decide +kernel

set_option maxRecDepth 100000 in
theorem without_run : runF (exC 2048) (wrongP ++ idle 64 ++ wrongQ) (s0 2048) [] true =
    ⟨mark (my ++ seq 74) ++ mark (my ++ seq 54), true, false, false, false⟩ := by decide +kernel

set_option maxRecDepth 100000 in
theorem wrong_fails : ¬ C326 := by
  intro h
  have h1 := of_run wrong_run
  have h2 := of_run without_run
  have := h (exC 2048) (s0 2048) wrongP wrongB wrongQ (by decide) (s0_init _) (by decide +kernel) (by decide +kernel) (by decide +kernel)
    (by decide +kernel) (by decide +kernel) (h1.2.1 rfl) (h2.2.1 rfl)
  rw [show wrongB.length = 64 from rfl, h1.1, h2.1] at this
  revert this
  decide +kernel

end Verif.EthMacRx
