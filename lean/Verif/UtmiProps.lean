import Verif.Utmi
import Mathlib.Data.List.Induction

/-!
# Properties C239-C245: the ULPI adapter and the transmit side of the device SIE
-/

namespace Verif.Ulpi

/-! ## C240: the data wires are driven by the LINK exactly while it owns the bus -/

/-- After any history, the LINK drives the wires whenever it is the owner of the bus. -/
def DrivesFull : Prop := ∀ (is : List In) (i : In),
  own (run init is) i = true → drive (run init is) i = true

/-- Nobody else drives the bus: the driver is off while the PHY owns the bus and in turnaround. -/
theorem never_contends (is : List In) (i : In) (h : drive (run init is) i = true) :
    i.dir = false ∧ (run init is).dirq = false := by
  revert h
  simp only [drive, accept, own, turn]
  cases i.dir <;> cases (run init is).dirq <;> simp

def iEx : In := ⟨false, true, 0, false, 0, 65, false, 6⟩

example : drive (run init [iEx]) iEx = true := by decide

/-- A change of the function control register: its write is never driven on the bus. -/
theorem drives_fails : ¬ DrivesFull := by
  intro h
  have := h [iEx, { iEx with fc := 1 }, { iEx with fc := 1 }] { iEx with fc := 1 }
  revert this
  decide

/-- In fact no byte of a register write is ever driven by the LINK. -/
theorem register_writes_never_driven (is : List In) (i : In)
    (h : (run init is).st = .cmd ∨ (run init is).st = .reg) : drive (run init is) i = false := by
  rcases h with h | h <;> simp [drive, accept, h]

example : (run init [iEx, { iEx with fc := 1 }, { iEx with fc := 1 }]).st = .cmd := by decide

/-- What holds: each byte of a packet which the PHY takes (`nxt`) is driven, and the idle pattern is
driven while no register update is pending. -/
theorem drives_partial (is : List In) (i : In) (ho : own (run init is) i = true)
    (h : ((run init is).st = .data ∧ i.nxt = true) ∨
      ((run init is).st = .idle ∧ (run init is).modeUpd = false ∧ (run init is).otgUpd = false)) :
    drive (run init is) i = true := by
  have ht : turn (run init is) i = false := by
    revert ho; simp only [own]; cases turn (run init is) i <;> simp
  rcases h with ⟨h, hn⟩ | ⟨h, hm, hg⟩
  · simp [drive, accept, h, hn, ho]
  · simp [drive, accept, h, hm, hg, ho, ht]

example : (run init [iEx, { iEx with vld := true, d := 0xC3 }]).st = .data ∧
    own (run init [iEx, { iEx with vld := true, d := 0xC3 }]) iEx = true := by decide

/-! ## The other ends: what the PHY sees on ULPI and what the user sends on UTMI -/

/-- The PHY: the bytes accepted since the last end of transfer, the finished transmit packets and its
two control registers.  A zero byte outside of a transfer is the idle pattern; `stp` ends a transfer;
taking the bus by the PHY abandons the transfer; a register write takes effect with its data byte. -/
structure Phy where
  prev : Bool
  cur : List Nat
  tx : List (List Nat)
  fc : Nat
  otg : Nat
  deriving DecidableEq, Repr

def isTx (p : List Nat) : Bool := match p with | [] => false | b :: _ => b / 64 == 1

def Phy.step (p : Phy) (dir nxt : Bool) (d : Nat) (stp : Bool) : Phy :=
  let p' := { p with prev := dir }
  if stp then { p' with cur := [], tx := if isTx p.cur then p.tx ++ [p.cur] else p.tx }
  else if dir then { p' with cur := [] }
  else if p.prev != dir then p'
  else if nxt && (p.cur != [] || d != 0) then
    { p' with
      cur := p.cur ++ [d]
      fc := if p.cur = [regw regFc] then d else p.fc
      otg := if p.cur = [regw regOtg] then d else p.otg }
  else p'

/-- The user of UTMI: a packet is a run of words with `vld`; `vld` is looked at with `rd`. -/
structure Usr where
  cur : List Nat
  pkts : List (List Nat)
  deriving DecidableEq, Repr

def Usr.step (u : Usr) (vld rd : Bool) (d : Nat) : Usr :=
  if rd then
    if vld then { u with cur := u.cur ++ [d] }
    else if u.cur = [] then u else ⟨[], u.pkts ++ [u.cur]⟩
  else u

/-- The packet in the form used on ULPI: the first byte is the transmit command with the pid. -/
def enc : List Nat → List Nat
  | [] => []
  | b :: bs => (64 + b % 16) :: bs

structure Sys where
  l : Link
  p : Phy
  u : Usr
  deriving DecidableEq, Repr

def Sys.step (s : Sys) (i : In) : Sys :=
  ⟨next s.l i, s.p.step i.dir i.nxt s.l.dq s.l.stp, s.u.step i.vld (accept s.l i) i.d⟩

def Sys.init : Sys := ⟨Ulpi.init, ⟨true, [], [], 65, 6⟩, ⟨[], []⟩⟩

def Sys.run (s : Sys) (is : List In) : Sys := is.foldl Sys.step s

/-- `P` holds in each cycle of the execution. -/
def Along (P : Sys → In → Prop) : Sys → List In → Prop
  | _, [] => True
  | s, i :: is => P s i ∧ Along P (s.step i) is

instance decAlong (P : Sys → In → Prop) [∀ s i, Decidable (P s i)] :
    ∀ (is : List In) (s : Sys), Decidable (Along P s is)
  | [], _ => .isTrue trivial
  | i :: is, s => @instDecidableAnd _ _ _ (decAlong P is (s.step i))

theorem run_inv (Inv : Sys → Prop) (P : Sys → In → Prop)
    (step : ∀ s i, Inv s → P s i → Inv (s.step i)) :
    ∀ (is : List In) (s : Sys), Inv s → Along P s is → Inv (s.run is) := by
  intro is
  induction is with
  | nil => intro s h _; exact h
  | cons i is ih => intro s h ⟨hp, hr⟩; exact ih _ (step s i h hp) hr

/-! ## C241: packets reach the PHY complete, in order and nothing else is transmitted -/

/-- Whatever the PHY does with `dir`, the packets it gets are among the packets sent by the user, in
their order. -/
def TxFull : Prop := ∀ is : List In,
  ((Sys.init.run is).p.tx).Sublist ((Sys.init.run is).u.pkts.map enc)

def pk (v : Bool) (d : Nat) : In := { iEx with vld := v, d := d }

/-- The PHY takes the bus in the middle of a packet: the rest of the packet is later sent as a packet of
its own (here the data byte 0x55 in the role of a command). -/
theorem tx_fails : ¬ TxFull := by
  intro h
  have := h [iEx, pk true 0xC3, pk true 0x11, { pk true 0x55 with nxt := true },
    { pk true 0x22 with dir := true, nxt := false }, { pk true 0x22 with dir := false, nxt := false },
    pk true 0x22, pk false 0, iEx]
  revert this
  decide

/-- The PHY does not take the bus after it accepted the first byte of a transmit packet. -/
def NoBreak (s : Sys) (i : In) : Prop := i.dir = true → s.l.stp = true ∨ isTx s.p.cur = false

instance : ∀ s i, Decidable (NoBreak s i) := fun s i => by unfold NoBreak; infer_instance

structure TxInv (s : Sys) : Prop where
  prev : s.p.prev = s.l.dirq
  stpIdle : s.l.stp = true → s.l.st = .idle
  dqIdle : s.l.st = .idle → s.l.dq = 0
  idle : s.l.st = .idle → s.u.cur = []
  cmdu : s.l.st = .cmd → s.u.cur = [] ∧ s.p.cur = [] ∧ s.l.dq / 64 = 2
  regu : s.l.st = .reg → s.u.cur = [] ∧ ((s.l.dirq = true ∧ s.p.cur = []) ∨
    (s.l.dirq = false ∧ ∃ c, s.p.cur = [c] ∧ c / 64 = 2))
  data : s.l.st = .data → s.p.cur ++ [s.l.dq] = enc s.u.cur ∧ s.u.cur ≠ []
  cur0 : s.l.st = .idle → s.l.stp = false → s.p.cur = []
  pkts : s.u.pkts.map enc = s.p.tx ++ (if s.l.stp && isTx s.p.cur then [s.p.cur] else [])

theorem enc_snoc {u : List Nat} (h : u ≠ []) (d : Nat) : enc (u ++ [d]) = enc u ++ [d] := by
  cases u with
  | nil => exact absurd rfl h
  | cons b bs => rfl

theorem enc_tx {u : List Nat} (h : u ≠ []) : isTx (enc u) = true ∧ enc u ≠ [] := by
  cases u with
  | nil => exact absurd rfl h
  | cons b bs =>
    refine ⟨?_, by simp [enc]⟩
    simp only [enc, isTx, beq_iff_eq]; omega

@[simp] theorem beq_st (a b : St) : (a == b) = decide (a = b) := rfl

theorem nextOutput_keep (s : Link) (i : In) (n : Link) :
    (nextOutput s i n).dirq = n.dirq ∧ (nextOutput s i n).stp = n.stp ∧
      (nextOutput s i n).modeUpd = n.modeUpd ∧ (nextOutput s i n).otgUpd = n.otgUpd ∧
      (nextOutput s i n).fc = n.fc ∧ (nextOutput s i n).otg = n.otg ∧
      (nextOutput s i n).fcReset = n.fcReset ∧ (nextOutput s i n).rxvalid = n.rxvalid ∧
      (nextOutput s i n).rxactive = n.rxactive ∧ (nextOutput s i n).irq = n.irq := by
  unfold nextOutput
  cases s.st <;> cases s.modeUpd <;> cases s.otgUpd <;> cases i.nxt <;> cases i.vld <;> simp

theorem abort_keep (s n : Link) :
    (abort s n).dirq = n.dirq ∧ (abort s n).stp = n.stp ∧
      (abort s n).modeUpd = n.modeUpd ∧ (abort s n).otgUpd = n.otgUpd ∧
      (abort s n).fc = n.fc ∧ (abort s n).otg = n.otg ∧
      (abort s n).fcReset = n.fcReset ∧ (abort s n).rxvalid = n.rxvalid ∧
      (abort s n).rxactive = n.rxactive ∧ (abort s n).irq = n.irq ∧
      (abort s n).wdata = n.wdata ∧ (abort s n).modeWr = n.modeWr ∧ (abort s n).otgWr = n.otgWr := by
  unfold abort
  by_cases h : s.st = .reg <;> simp [h]

/-- The registers which are written at each clock edge. -/
theorem next_common (s : Link) (i : In) :
    (next s i).dirq = i.dir ∧
      (next s i).stp = (own s i && i.nxt && (s.st == .reg || (s.st == .data && !i.vld))) ∧
      (next s i).modeUpd = (nextCommon s i).modeUpd ∧ (next s i).otgUpd = (nextCommon s i).otgUpd ∧
      (next s i).fc = i.fc ∧ (next s i).otg = i.otg ∧
      (next s i).fcReset = (nextCommon s i).fcReset ∧
      (next s i).rxvalid = (!turn s i && i.dir && i.nxt) := by
  have ho := nextOutput_keep s i (nextCommon s i)
  unfold next
  rcases Bool.eq_false_or_eq_true (turn s i) with ht | ht <;> cases hd : i.dir <;> cases hn : i.nxt <;>
    simp only [ht, if_true, if_false, Bool.false_eq_true, abort_keep, ho] <;>
    simp [nextCommon, ht, hd, hn]

theorem next_dirq (s : Link) (i : In) : (next s i).dirq = i.dir := (next_common s i).1

theorem next_stp (s : Link) (i : In) :
    (next s i).stp = (own s i && i.nxt && (s.st == .reg || (s.st == .data && !i.vld))) :=
  (next_common s i).2.1

/-- The state and the data of the next cycle while the LINK does not own the bus. -/
theorem next_away (s : Link) (i : In) (h : own s i = false) :
    ((next s i).st = s.st ∧ (next s i).dq = s.dq ∧ (s.st = .reg → i.dir = true)) ∨
      (s.st = .reg ∧ (next s i).st = .idle ∧ (next s i).dq = 0) := by
  revert h
  unfold next abort nextCommon own
  rcases Bool.eq_false_or_eq_true (turn s i) with ht | ht <;> cases hd : i.dir <;> cases hn : i.nxt <;>
    by_cases hr : s.st = .reg <;> simp [ht, hr]

theorem next_own (s : Link) (i : In) (h : own s i = true) :
    next s i = nextOutput s i (nextCommon s i) := by
  revert h
  unfold next own
  cases turn s i <;> cases i.dir <;> simp

theorem tx_step (s : Sys) (i : In) (h : TxInv s) (hb : NoBreak s i) : TxInv (s.step i) := by
  obtain ⟨l, p, u⟩ := s
  obtain ⟨hprev, hsi, hdi, hid, hcmd, hreg, hdata, hc0, hp⟩ := h
  simp only [NoBreak] at hprev hsi hdi hid hcmd hreg hdata hc0 hp hb
  rcases Bool.eq_false_or_eq_true (own l i) with ho | ho
  · -- the LINK owns the bus
    have hdir : i.dir = false := by
      revert ho; simp only [own]; cases i.dir <;> simp
    have hdq : l.dirq = false := by
      revert ho; simp only [own, turn, hdir]; cases l.dirq <;> simp
    have hturn : turn l i = false := by simp [turn, hdir, hdq]
    have hacc : accept l i = ((l.st == .idle && !(l.modeUpd || l.otgUpd)) || (l.st == .data && i.nxt)) := by
      simp [accept, ho, hturn]
    have hphy : Phy.step p i.dir i.nxt l.dq l.stp =
        if l.stp then { p with prev := false, cur := [], tx := if isTx p.cur then p.tx ++ [p.cur] else p.tx }
        else if i.nxt && (p.cur != [] || l.dq != 0) then
          { p with
            prev := false
            cur := p.cur ++ [l.dq]
            fc := if p.cur = [regw regFc] then l.dq else p.fc
            otg := if p.cur = [regw regOtg] then l.dq else p.otg }
        else { p with prev := false } := by
      simp [Phy.step, hdir, hprev, hdq]
    have hst := next_stp l i
    have hdn := next_dirq l i
    simp only [ho, Bool.true_and] at hst
    simp only [hdir] at hdn
    cases hs : l.st
    · -- idle
      have hdq0 := hdi hs
      have hu := hid hs
      have hph : (Phy.step p i.dir i.nxt l.dq l.stp).cur = [] ∧
          (Phy.step p i.dir i.nxt l.dq l.stp).prev = false ∧
          (Phy.step p i.dir i.nxt l.dq l.stp).tx =
            p.tx ++ (if l.stp && isTx p.cur then [p.cur] else []) := by
        rw [hphy]
        cases hp1 : l.stp
        · simp [hc0 hs hp1, hdq0]
        · cases isTx p.cur <;> simp
      obtain ⟨hpc, hpp, hpt⟩ := hph
      rw [← hp] at hpt
      simp only [hs] at hst
      simp only [hs] at hacc
      have hfin : TxInv ⟨next l i, Phy.step p i.dir i.nxt l.dq l.stp, Usr.step u i.vld (accept l i) i.d⟩ := by
        have hn := next_own l i ho
        have hst' : (next l i).stp = false := by simpa using hst
        rcases Bool.eq_false_or_eq_true l.modeUpd with hm | hm
        · have h1 : (next l i).st = .cmd ∧ (next l i).dq = regw regFc := by
            rw [hn]; simp [nextOutput, hs, hm]
          have hus : Usr.step u i.vld (accept l i) i.d = u := by simp [hacc, hm, Usr.step]
          constructor <;> simp [h1, hus, hpc, hpp, hpt, hdn, hst', hu, regw, regFc]
        · rcases Bool.eq_false_or_eq_true l.otgUpd with hg | hg
          · have h1 : (next l i).st = .cmd ∧ (next l i).dq = regw regOtg := by
              rw [hn]; simp [nextOutput, hs, hm, hg]
            have hus : Usr.step u i.vld (accept l i) i.d = u := by simp [hacc, hm, hg, Usr.step]
            constructor <;> simp [h1, hus, hpc, hpp, hpt, hdn, hst', hu, regw, regOtg]
          · rcases Bool.eq_false_or_eq_true i.vld with hv | hv
            · have h1 : (next l i).st = .data ∧ (next l i).dq = usbPid i.d := by
                rw [hn]; simp [nextOutput, hs, hm, hg, hv]
              have hus : Usr.step u i.vld (accept l i) i.d = ⟨[i.d], u.pkts⟩ := by
                simp [hacc, hm, hg, hv, Usr.step, hu]
              constructor <;> simp [h1, hus, hpc, hpp, hpt, hdn, hst', enc, usbPid]
            · have h1 : (next l i).st = .idle ∧ (next l i).dq = 0 := by
                rw [hn]; simp [nextOutput, hs, hm, hg, hv, nextCommon, hdq0]
              have hus : Usr.step u i.vld (accept l i) i.d = u := by
                simp [hacc, hm, hg, hv, Usr.step, hu]
              constructor <;> simp [h1, hus, hpc, hpp, hpt, hdn, hst', hu]
      exact hfin
    · -- cmd
      obtain ⟨hu, hpc, hd2⟩ := hcmd hs
      have hs0 : l.stp = false := by
        rcases Bool.eq_false_or_eq_true l.stp with h | h
        · have := hsi h; rw [hs] at this; cases this
        · exact h
      simp only [hs] at hst
      have hst' : (next l i).stp = false := by simpa using hst
      have hd0 : l.dq ≠ 0 := by intro h0; rw [h0] at hd2; simp at hd2
      have hus : Usr.step u i.vld (accept l i) i.d = u := by simp [hacc, hs, Usr.step]
      have hn := next_own l i ho
      have hp' : u.pkts.map enc = p.tx := by simpa [hs0] using hp
      rcases Bool.eq_false_or_eq_true i.nxt with hx | hx
      · have h1 : (next l i).st = .reg := by rw [hn]; simp [nextOutput, hs, hx]
        have hpp : (Phy.step p i.dir i.nxt l.dq l.stp).cur = [l.dq] ∧
            (Phy.step p i.dir i.nxt l.dq l.stp).prev = false ∧
            (Phy.step p i.dir i.nxt l.dq l.stp).tx = p.tx := by
          rw [hphy]; simp [hs0, hx, hpc, hd0]
        obtain ⟨q1, q2, q3⟩ := hpp
        constructor <;> simp [Sys.step, h1, hus, q1, q2, q3, hst', hdn, hu, hp', hd2]
      · have h1 : (next l i).st = .cmd ∧ (next l i).dq = l.dq := by
          rw [hn]; simp [nextOutput, hs, hx, nextCommon]
        have hpp : (Phy.step p i.dir i.nxt l.dq l.stp).cur = [] ∧
            (Phy.step p i.dir i.nxt l.dq l.stp).prev = false ∧
            (Phy.step p i.dir i.nxt l.dq l.stp).tx = p.tx := by
          rw [hphy]; simp [hs0, hx, hpc]
        obtain ⟨q1, q2, q3⟩ := hpp
        constructor <;> simp [Sys.step, h1, hus, q1, q2, q3, hst', hdn, hu, hp', hd2]
    · -- data
      obtain ⟨hcur, hne⟩ := hdata hs
      have hs0 : l.stp = false := by
        rcases Bool.eq_false_or_eq_true l.stp with h | h
        · have := hsi h; rw [hs] at this; cases this
        · exact h
      simp only [hs] at hst
      have hp' : u.pkts.map enc = p.tx := by simpa [hs0] using hp
      have hn := next_own l i ho
      obtain ⟨he1, he2⟩ := enc_tx hne
      have hcd : (p.cur != [] || l.dq != 0) = true := by
        rcases hpe : p.cur with _ | ⟨c, cs⟩
        · rw [hpe] at hcur
          have hd : l.dq / 64 = 1 := by
            rw [← hcur] at he1; simpa [isTx] using he1
          have : l.dq ≠ 0 := by intro h0; rw [h0] at hd; simp at hd
          simp [this]
        · simp
      rcases Bool.eq_false_or_eq_true i.nxt with hx | hx
      · have hpp : (Phy.step p i.dir i.nxt l.dq l.stp).cur = enc u.cur ∧
            (Phy.step p i.dir i.nxt l.dq l.stp).prev = false ∧
            (Phy.step p i.dir i.nxt l.dq l.stp).tx = p.tx := by
          rw [hphy]; simp [hs0, hx, hcd, hcur]
        obtain ⟨q1, q2, q3⟩ := hpp
        rcases Bool.eq_false_or_eq_true i.vld with hv | hv
        · have h1 : (next l i).st = .data ∧ (next l i).dq = i.d := by
            rw [hn]; simp [nextOutput, hs, hx, hv]
          have hst' : (next l i).stp = false := by simpa [hv] using hst
          have hus : Usr.step u i.vld (accept l i) i.d = ⟨u.cur ++ [i.d], u.pkts⟩ := by
            simp [hacc, hs, hx, hv, Usr.step]
          constructor <;> simp [Sys.step, h1, hus, q1, q2, q3, hst', hdn, hp', enc_snoc hne]
        · have h1 : (next l i).st = .idle ∧ (next l i).dq = 0 := by
            rw [hn]; simp [nextOutput, hs, hx, hv]
          have hst' : (next l i).stp = true := by simpa [hv, hx] using hst
          have hus : Usr.step u i.vld (accept l i) i.d = ⟨[], u.pkts ++ [u.cur]⟩ := by
            simp [hacc, hs, hx, hv, Usr.step, hne]
          constructor <;> simp [Sys.step, h1, hus, q1, q2, q3, hst', hdn, hp', he1]
      · have hpp : (Phy.step p i.dir i.nxt l.dq l.stp).cur = p.cur ∧
            (Phy.step p i.dir i.nxt l.dq l.stp).prev = false ∧
            (Phy.step p i.dir i.nxt l.dq l.stp).tx = p.tx := by
          rw [hphy]; simp [hs0, hx]
        obtain ⟨q1, q2, q3⟩ := hpp
        have h1 : (next l i).st = .data ∧ (next l i).dq = l.dq := by
          rw [hn]; simp [nextOutput, hs, hx, nextCommon]
        have hst' : (next l i).stp = false := by simpa [hx] using hst
        have hus : Usr.step u i.vld (accept l i) i.d = u := by simp [hacc, hs, hx, Usr.step]
        constructor <;> simp [Sys.step, h1, hus, q1, q2, q3, hst', hdn, hp', hcur, hne]
    · -- reg
      obtain ⟨hu, hr⟩ := hreg hs
      have hs0 : l.stp = false := by
        rcases Bool.eq_false_or_eq_true l.stp with h | h
        · have := hsi h; rw [hs] at this; cases this
        · exact h
      obtain ⟨c, hc, hc2⟩ : ∃ c, p.cur = [c] ∧ c / 64 = 2 := by
        rcases hr with ⟨h, _⟩ | h
        · rw [hdq] at h; cases h
        · exact h.2
      simp only [hs] at hst
      have hp' : u.pkts.map enc = p.tx := by simpa [hs0] using hp
      have hn := next_own l i ho
      have hus : Usr.step u i.vld (accept l i) i.d = u := by simp [hacc, hs, Usr.step]
      rcases Bool.eq_false_or_eq_true i.nxt with hx | hx
      · have hpp : (Phy.step p i.dir i.nxt l.dq l.stp).cur = [c, l.dq] ∧
            (Phy.step p i.dir i.nxt l.dq l.stp).prev = false ∧
            (Phy.step p i.dir i.nxt l.dq l.stp).tx = p.tx := by
          rw [hphy]; simp [hs0, hx, hc]
        obtain ⟨q1, q2, q3⟩ := hpp
        have h1 : (next l i).st = .idle ∧ (next l i).dq = 0 := by
          rw [hn]; simp [nextOutput, hs, hx]
        have hst' : (next l i).stp = true := by simpa [hx] using hst
        constructor <;> simp [Sys.step, h1, hus, q1, q2, q3, hst', hdn, hp', hu, isTx, hc2]
      · have hpp : (Phy.step p i.dir i.nxt l.dq l.stp).cur = [c] ∧
            (Phy.step p i.dir i.nxt l.dq l.stp).prev = false ∧
            (Phy.step p i.dir i.nxt l.dq l.stp).tx = p.tx := by
          rw [hphy]; simp [hs0, hx, hc]
        obtain ⟨q1, q2, q3⟩ := hpp
        have h1 : (next l i).st = .reg := by
          rw [hn]; simp [nextOutput, hs, hx, nextCommon]
        have hst' : (next l i).stp = false := by simpa [hx] using hst
        constructor <;> simp [Sys.step, h1, hus, q1, q2, q3, hst', hdn, hp', hu, hc2]
  · -- the LINK does not own the bus
    have hacc : accept l i = false := by simp [accept, ho]
    have hst : (next l i).stp = false := by simp [next_stp, ho]
    have hdn := next_dirq l i
    have hus : Usr.step u i.vld (accept l i) i.d = u := by simp [hacc, Usr.step]
    have hto : i.dir = true ∨ (i.dir = false ∧ l.dirq = true) := by
      revert ho; simp only [own, turn]; cases i.dir <;> cases l.dirq <;> simp
    have hphy : Phy.step p i.dir i.nxt l.dq l.stp =
        if l.stp then { p with prev := i.dir, cur := [], tx := if isTx p.cur then p.tx ++ [p.cur] else p.tx }
        else if i.dir then { p with prev := i.dir, cur := [] } else { p with prev := i.dir } := by
      rcases hto with hd | ⟨hd, hq⟩
      · simp [Phy.step, hd]
      · simp [Phy.step, hd, hprev, hq]
    have hpt : (Phy.step p i.dir i.nxt l.dq l.stp).tx = u.pkts.map enc := by
      rw [hphy, hp]
      cases l.stp
      · cases i.dir <;> simp
      · cases isTx p.cur <;> simp
    have hpp : (Phy.step p i.dir i.nxt l.dq l.stp).prev = i.dir := by
      rw [hphy]; cases l.stp <;> cases hd : i.dir <;> simp
    have hpc : (Phy.step p i.dir i.nxt l.dq l.stp).cur = if l.stp || i.dir then [] else p.cur := by
      rw [hphy]; cases l.stp <;> cases i.dir <;> simp
    have hstp : l.st ≠ .idle → l.stp = false := by
      intro h
      rcases Bool.eq_false_or_eq_true l.stp with h1 | h1
      · exact absurd (hsi h1) h
      · exact h1
    show TxInv ⟨next l i, Phy.step p i.dir i.nxt l.dq l.stp, Usr.step u i.vld (accept l i) i.d⟩
    rw [hus]
    clear hus hphy
    generalize Phy.step p i.dir i.nxt l.dq l.stp = P at *
    rcases next_away l i ho with ⟨h1, h2, h3⟩ | ⟨h1, h2, h3⟩
    · cases hs : l.st
      · have hx : (if l.stp || i.dir then [] else p.cur) = [] := by
          cases hp1 : l.stp
          · simp [hc0 hs hp1]
          · simp
        rw [hx] at hpc
        constructor <;> simp [hpt, hpp, hpc, hst, hdn, h1, h2, hs, hid hs, hdi hs]
      · obtain ⟨hu, hq, hd2⟩ := hcmd hs
        have hx : (if l.stp || i.dir then [] else p.cur) = [] := by simp [hq]
        rw [hx] at hpc
        constructor <;> simp [hpt, hpp, hpc, hst, hdn, h1, h2, hs, hu, hd2]
      · obtain ⟨hcur, hne⟩ := hdata hs
        have hs0 := hstp (by simp [hs])
        have hx : (if l.stp || i.dir then [] else p.cur) = p.cur := by
          rcases Bool.eq_false_or_eq_true i.dir with hd | hd
          · rcases hb hd with h | h
            · rw [hs0] at h; cases h
            · rcases hpe : p.cur with _ | ⟨c, cs⟩
              · simp
              · exfalso
                have he := (enc_tx hne).1
                rw [← hcur, hpe] at he
                rw [hpe] at h
                simp only [List.cons_append, isTx] at he h
                rw [h] at he; cases he
          · simp [hs0, hd]
        rw [hx] at hpc
        constructor <;> simp [hpt, hpp, hpc, hst, hdn, h1, h2, hs, hcur, hne]
      · obtain ⟨hu, hr⟩ := hreg hs
        have hd := h3 hs
        have hx : (if l.stp || i.dir then [] else p.cur) = [] := by simp [hd]
        rw [hx] at hpc
        constructor <;> simp [hpt, hpp, hpc, hst, hdn, h1, hs, hu, hd]
    · obtain ⟨hu, hr⟩ := hreg h1
      have hs0 := hstp (by simp [h1])
      have hx : (if l.stp || i.dir then [] else p.cur) = [] := by
        rcases hto with hd | ⟨hd, hq⟩
        · simp [hd]
        · rcases hr with ⟨_, h⟩ | ⟨h, _⟩
          · simp [h]
          · rw [hq] at h; cases h
      rw [hx] at hpc
      constructor <;> simp [hpt, hpp, hpc, hst, hdn, h2, h3, hu]

theorem tx_init : TxInv Sys.init := by
  constructor <;> simp [Sys.init, init]

/-- As long as the PHY does not break into a packet it already started to take, the transmit packets
which reached the PHY are exactly the packets sent by the user (the last of them may still wait for its
`stp`), whatever register updates and receptions happen in between. -/
theorem tx_partial (is : List In) (h : Along NoBreak Sys.init is) :
    ∃ pend : List (List Nat), pend.length ≤ 1 ∧
      (Sys.init.run is).u.pkts.map enc = (Sys.init.run is).p.tx ++ pend ∧
      ((Sys.init.run is).l.stp = false → pend = []) := by
  have hi := run_inv TxInv NoBreak tx_step is Sys.init tx_init h
  refine ⟨_, ?_, hi.pkts, ?_⟩
  · split <;> simp
  · intro h0; simp [h0]

def txEx : List In := [iEx, pk true 0xC3, pk true 0x11, pk true 0x55, pk false 0, iEx,
  { iEx with dir := true, nxt := true }, { iEx with dir := true, nxt := true, di := 7 }, iEx,
  pk true 0xD2, { pk false 0 with nxt := false, fc := 1 }, { pk false 0 with fc := 1 }, { iEx with fc := 1 },
  { iEx with fc := 1 }, { iEx with fc := 1 }, { iEx with fc := 1 }, { iEx with fc := 1 }]

example : Along NoBreak Sys.init txEx ∧
    (Sys.init.run txEx).p.tx = [[0x43, 0x11, 0x55], [0x42]] ∧ (Sys.init.run txEx).p.fc = 1 := by decide

/-! ## C242: the control registers of the PHY follow the UTMI control inputs -/

/-- The environment: no reset of the PHY, packets are not broken and `nxt` is low when the PHY hands
over the bus. -/
def Calm (s : Sys) (i : In) : Prop :=
  NoBreak s i ∧ i.fcReset = false ∧ (s.l.dirq = true → i.dir = false → i.nxt = false)

instance : ∀ s i, Decidable (Calm s i) := fun s i => by unfold Calm; infer_instance

/-- Whenever the adapter is ready to take a new packet, the registers of the PHY have the values which
were on the UTMI control inputs in the last cycle. -/
def SyncFull : Prop := ∀ (is : List In) (x i : In), Along Calm Sys.init (is ++ [x]) →
  accept (Sys.init.run (is ++ [x])).l i = true → (Sys.init.run (is ++ [x])).u.cur = [] →
  (Sys.init.run (is ++ [x])).p.fc = x.fc % 128 ∧ (Sys.init.run (is ++ [x])).p.otg = x.otg

/-- The value is changed again while its write is under way: the second change is never written. -/
theorem sync_fails : ¬ SyncFull := by
  intro h
  have := h [{ iEx with nxt := false }, { iEx with fc := 1 }, { iEx with fc := 1 }, { iEx with fc := 2 }, { iEx with fc := 2 },
    { iEx with fc := 2 }] { iEx with fc := 2 } { iEx with fc := 2 }
  revert this
  decide

/-- A control input changes only while no write of its register is pending. -/
def Steady (s : Sys) (i : In) : Prop := Calm s i ∧
  (s.l.modeUpd = true → i.fc = s.l.fc) ∧ (s.l.otgUpd = true → i.otg = s.l.otg)

instance : ∀ s i, Decidable (Steady s i) := fun s i => by unfold Steady; infer_instance

/-- The command of the write under way. -/
def wcmd : Bool → Nat
  | true => regw regFc
  | false => regw regOtg

structure RegInv (s : Sys) : Prop extends TxInv s where
  rst : s.l.fcReset = false
  wr : s.l.st = .cmd ∨ s.l.st = .reg →
    (s.l.modeWr = true ∧ s.l.otgWr = false ∧ s.l.modeUpd = true ∧ s.l.wdata = fcByte s.l.fc false) ∨
    (s.l.modeWr = false ∧ s.l.otgWr = true ∧ s.l.otgUpd = true ∧ s.l.wdata = s.l.otg)
  cmdq : s.l.st = .cmd → s.l.dq = wcmd s.l.modeWr
  regq : s.l.st = .reg → s.l.dq = s.l.wdata
  regc : s.l.st = .reg → s.l.dirq = false → s.p.cur = [wcmd s.l.modeWr]
  fc : s.l.modeUpd = false → s.p.fc = fcByte s.l.fc false
  og : s.l.otgUpd = false → s.p.otg = s.l.otg

/-- The registers of a pending write while the LINK does not own the bus. -/
theorem next_away_wr (s : Link) (i : In) (h : own s i = false) :
    (next s i).wdata = s.wdata ∧ (next s i).modeWr = s.modeWr ∧ (next s i).otgWr = s.otgWr := by
  revert h
  unfold next own
  rcases Bool.eq_false_or_eq_true (turn s i) with ht | ht <;> cases hd : i.dir <;> cases hn : i.nxt <;>
    simp only [ht, if_true, if_false, Bool.false_eq_true, abort_keep] <;> simp [nextCommon]

theorem next_modeUpd (s : Link) (i : In) (h1 : s.fcReset = false) (h2 : i.fcReset = false)
    (h : modeComplete s i = false) : (next s i).modeUpd = (s.modeUpd || s.fc != i.fc) := by
  rw [(next_common s i).2.2.1]
  simp only [nextCommon, h, h1, h2]
  by_cases he : s.fc = i.fc <;> cases s.modeUpd <;> simp [he]

theorem next_otgUpd (s : Link) (i : In) (h : otgComplete s i = false) :
    (next s i).otgUpd = (s.otgUpd || s.otg != i.otg) := by
  rw [(next_common s i).2.2.2.1]
  simp only [nextCommon, h]
  by_cases he : s.otg = i.otg <;> cases s.otgUpd <;> simp [he]

theorem next_fcReset (s : Link) (i : In) (h2 : i.fcReset = false) : (next s i).fcReset = false := by
  rw [(next_common s i).2.2.2.2.2.2.1]
  simp only [nextCommon, h2]
  simp

theorem reg_step (s : Sys) (i : In) (h : RegInv s) (hb : Steady s i) : RegInv (s.step i) := by
  have htx := tx_step s i h.toTxInv hb.1.1
  obtain ⟨l, p, u⟩ := s
  obtain ⟨h0, hrst, hwr, hcq, hrq, hrc, hfc, hog⟩ := h
  obtain ⟨⟨hnb, hir, hnx⟩, hsf, hso⟩ := hb
  simp only at hrst hwr hcq hrq hrc hfc hog hnx hsf hso
  have hprev := h0.prev
  simp only at hprev
  have nfc : (next l i).fc = i.fc := (next_common l i).2.2.2.2.1
  have nog : (next l i).otg = i.otg := (next_common l i).2.2.2.2.2.1
  have nrs := next_fcReset l i hir
  have ndq := next_dirq l i
  have hstp : l.st ≠ .idle → l.stp = false := by
    intro h
    rcases Bool.eq_false_or_eq_true l.stp with h1 | h1
    · exact absurd (h0.stpIdle h1) h
    · exact h1
  -- nothing is completed and the registers of the PHY are kept
  have keep : modeComplete l i = false → otgComplete l i = false →
      (Phy.step p i.dir i.nxt l.dq l.stp).fc = p.fc → (Phy.step p i.dir i.nxt l.dq l.stp).otg = p.otg →
      ((next l i).modeUpd = false → (Phy.step p i.dir i.nxt l.dq l.stp).fc = fcByte (next l i).fc false) ∧
      ((next l i).otgUpd = false → (Phy.step p i.dir i.nxt l.dq l.stp).otg = (next l i).otg) := by
    intro c1 c2 c3 c4
    rw [next_modeUpd l i hrst hir c1, next_otgUpd l i c2, c3, c4, nfc, nog]
    constructor
    · intro hm
      simp only [Bool.or_eq_false_iff, bne_eq_false_iff_eq] at hm
      rw [hfc hm.1, hm.2]
    · intro hm
      simp only [Bool.or_eq_false_iff, bne_eq_false_iff_eq] at hm
      rw [hog hm.1, hm.2]
  rcases Bool.eq_false_or_eq_true (own l i) with ho | ho
  · have hdir : i.dir = false := by
      revert ho; simp only [own]; cases i.dir <;> simp
    have hdq : l.dirq = false := by
      revert ho; simp only [own, turn, hdir]; cases l.dirq <;> simp
    have hphy : l.stp = false → Phy.step p i.dir i.nxt l.dq l.stp =
        if i.nxt && (p.cur != [] || l.dq != 0) then
          { p with
            prev := false
            cur := p.cur ++ [l.dq]
            fc := if p.cur = [regw regFc] then l.dq else p.fc
            otg := if p.cur = [regw regOtg] then l.dq else p.otg }
        else { p with prev := false } := by
      intro hs0
      simp [Phy.step, hdir, hprev, hdq, hs0]
    have hn := next_own l i ho
    have notreg : l.st ≠ .reg → modeComplete l i = false ∧ otgComplete l i = false := by
      intro h; simp [modeComplete, otgComplete, h]
    cases hs : l.st
    · -- idle
      obtain ⟨c1, c2⟩ := notreg (by simp [hs])
      have c3 : (Phy.step p i.dir i.nxt l.dq l.stp).fc = p.fc ∧
          (Phy.step p i.dir i.nxt l.dq l.stp).otg = p.otg := by
        rcases Bool.eq_false_or_eq_true l.stp with h1 | h1
        · simp [Phy.step, h1]
        · have e1 : p.cur = [] := h0.cur0 hs h1
          have e2 : l.dq = 0 := h0.dqIdle hs
          rw [hphy h1]; simp [e1, e2]
      obtain ⟨k1, k2⟩ := keep c1 c2 c3.1 c3.2
      have m1 := next_modeUpd l i hrst hir c1
      have m2 := next_otgUpd l i c2
      refine ⟨htx, nrs, ?_, ?_, ?_, ?_, k1, k2⟩
      · intro _
        simp only [Sys.step]
        rw [m1, m2, nfc, nog, hn]
        rcases Bool.eq_false_or_eq_true l.modeUpd with hm | hm
        · left; simp [nextOutput, hs, hm, hsf hm, hrst]
        · rcases Bool.eq_false_or_eq_true l.otgUpd with hg | hg
          · right; simp [nextOutput, hs, hm, hg, hso hg]
          · exfalso
            rename_i hc
            simp only [Sys.step] at hc
            rw [hn] at hc
            cases hv : i.vld <;> simp [nextOutput, hs, hm, hg, hv, nextCommon] at hc
      all_goals
        simp only [Sys.step]
        rw [hn]
        cases hm : l.modeUpd <;> cases hg : l.otgUpd <;> cases hv : i.vld <;>
          simp [nextOutput, hs, hm, hg, hv, nextCommon, wcmd]
    · -- cmd
      obtain ⟨c1, c2⟩ := notreg (by simp [hs])
      have hs0 := hstp (by simp [hs])
      obtain ⟨_, hpc, _⟩ := h0.cmdu hs
      simp only at hpc
      have c3 : (Phy.step p i.dir i.nxt l.dq l.stp).fc = p.fc ∧
          (Phy.step p i.dir i.nxt l.dq l.stp).otg = p.otg := by
        rw [hphy hs0]; split <;> simp [hpc]
      obtain ⟨k1, k2⟩ := keep c1 c2 c3.1 c3.2
      have m1 := next_modeUpd l i hrst hir c1
      have m2 := next_otgUpd l i c2
      have hw := hwr (Or.inl hs)
      have hcq' := hcq hs
      have hkeep : (next l i).modeWr = l.modeWr ∧ (next l i).otgWr = l.otgWr ∧ (next l i).wdata = l.wdata := by
        rw [hn]; cases hx : i.nxt <;> simp [nextOutput, hs, hx, nextCommon]
      refine ⟨htx, nrs, ?_, ?_, ?_, ?_, k1, k2⟩
      · intro _
        simp only [Sys.step]
        rw [m1, m2, nfc, nog, hkeep.1, hkeep.2.1, hkeep.2.2]
        rcases hw with ⟨w1, w2, w3, w4⟩ | ⟨w1, w2, w3, w4⟩
        · left; simp [w1, w2, w3, w4, hsf w3]
        · right; simp [w1, w2, w3, w4, hso w3]
      · simp only [Sys.step]
        rw [hkeep.1, hn]
        cases hx : i.nxt <;> simp [nextOutput, hs, hx, nextCommon, hcq']
      · simp only [Sys.step]
        rw [hkeep.2.2, hn]
        cases hx : i.nxt <;> simp [nextOutput, hs, hx, nextCommon]
      · simp only [Sys.step]
        rw [hkeep.1, hphy hs0]
        intro hr _
        have hx : i.nxt = true := by
          rw [hn] at hr
          revert hr; cases hx : i.nxt <;> simp [nextOutput, hs, hx, nextCommon]
        have hd0 : l.dq ≠ 0 := by
          rw [hcq']; cases l.modeWr <;> simp [wcmd, regw]
        have hd1 : (i.nxt && (p.cur != [] || l.dq != 0)) = true := by simp [hx, hd0]
        rw [if_pos hd1]
        simp [hpc, hcq']
    · -- data
      obtain ⟨c1, c2⟩ := notreg (by simp [hs])
      have hs0 := hstp (by simp [hs])
      obtain ⟨hcur, hne⟩ := h0.data hs
      simp only at hcur hne
      have hnr : ∀ a, p.cur ≠ [regw a] := by
        intro a ha
        have he := (enc_tx hne).1
        rw [← hcur, ha] at he
        simp only [List.cons_append, isTx, regw, beq_iff_eq] at he
        omega
      have c3 : (Phy.step p i.dir i.nxt l.dq l.stp).fc = p.fc ∧
          (Phy.step p i.dir i.nxt l.dq l.stp).otg = p.otg := by
        rw [hphy hs0]; split <;> simp [hnr]
      obtain ⟨k1, k2⟩ := keep c1 c2 c3.1 c3.2
      have hst : (next l i).st ≠ .cmd ∧ (next l i).st ≠ .reg := by
        rw [hn]; cases hx : i.nxt <;> cases hv : i.vld <;> simp [nextOutput, hs, hx, hv, nextCommon]
      refine ⟨htx, nrs, ?_, ?_, ?_, ?_, k1, k2⟩
      · rintro (h | h)
        · exact absurd h hst.1
        · exact absurd h hst.2
      · intro h; exact absurd h hst.1
      · intro h; exact absurd h hst.2
      · intro h; exact absurd h hst.2
    · -- reg
      have hs0 := hstp (by simp [hs])
      have hw := hwr (Or.inr hs)
      have hpc := hrc hs hdq
      have hq := hrq hs
      rcases Bool.eq_false_or_eq_true i.nxt with hx | hx
      · have hst : (next l i).st = .idle := by rw [hn]; simp [nextOutput, hs, hx]
        have hfo : ((next l i).modeUpd = false →
            (Phy.step p i.dir i.nxt l.dq l.stp).fc = fcByte (next l i).fc false) ∧
            ((next l i).otgUpd = false → (Phy.step p i.dir i.nxt l.dq l.stp).otg = (next l i).otg) := by
          rw [nfc, nog, hphy hs0]
          rcases hw with ⟨w1, w2, w3, w4⟩ | ⟨w1, w2, w3, w4⟩
          · rw [next_otgUpd l i (by simp [otgComplete, w2])]
            simp only [w1, wcmd] at hpc
            constructor
            · intro _
              simp [hx, hpc, hq, w4, hsf w3]
            · intro hm
              simp only [Bool.or_eq_false_iff, bne_eq_false_iff_eq] at hm
              simp [hx, hpc, hog hm.1, hm.2, regw, regFc, regOtg]
          · rw [next_modeUpd l i hrst hir (by simp [modeComplete, w1])]
            simp only [w1, wcmd] at hpc
            constructor
            · intro hm
              simp only [Bool.or_eq_false_iff, bne_eq_false_iff_eq] at hm
              simp [hx, hpc, hfc hm.1, hm.2, regw, regFc, regOtg]
            · intro _
              simp [hx, hpc, hq, w4, hso w3]
        refine ⟨htx, nrs, ?_, ?_, ?_, ?_, hfo.1, hfo.2⟩ <;> simp [Sys.step, hst]
      · have c1 : modeComplete l i = false ∧ otgComplete l i = false := by
          simp [modeComplete, otgComplete, hx]
        have c3 : (Phy.step p i.dir i.nxt l.dq l.stp).fc = p.fc ∧
            (Phy.step p i.dir i.nxt l.dq l.stp).otg = p.otg ∧
            (Phy.step p i.dir i.nxt l.dq l.stp).cur = p.cur := by
          rw [hphy hs0]; simp [hx]
        obtain ⟨k1, k2⟩ := keep c1.1 c1.2 c3.1 c3.2.1
        have hkeep : (next l i).modeWr = l.modeWr ∧ (next l i).otgWr = l.otgWr ∧
            (next l i).wdata = l.wdata ∧ (next l i).st = .reg ∧ (next l i).dq = l.dq := by
          rw [hn]; simp [nextOutput, hs, hx, nextCommon]
        obtain ⟨e1, e2, e3, e4, e5⟩ := hkeep
        have m1 := next_modeUpd l i hrst hir c1.1
        have m2 := next_otgUpd l i c1.2
        refine ⟨htx, nrs, ?_, ?_, ?_, ?_, k1, k2⟩
        · intro _
          simp only [Sys.step]
          rw [m1, m2, nfc, nog, e1, e2, e3]
          rcases hw with ⟨w1, w2, w3, w4⟩ | ⟨w1, w2, w3, w4⟩
          · left; simp [w1, w2, w3, w4, hsf w3]
          · right; simp [w1, w2, w3, w4, hso w3]
        · simp [Sys.step, e4]
        · intro _; simp only [Sys.step]; rw [e5, e3, hq]
        · intro _ _; simp only [Sys.step]; rw [c3.2.2, e1, hpc]
  · -- the LINK does not own the bus
    have hto : i.dir = true ∨ (i.dir = false ∧ l.dirq = true) := by
      revert ho; simp only [own, turn]; cases i.dir <;> cases l.dirq <;> simp
    have c1 : modeComplete l i = false ∧ otgComplete l i = false := by
      rcases hto with hd | ⟨hd, hq⟩
      · simp [modeComplete, otgComplete, hd]
      · simp [modeComplete, otgComplete, hnx hq hd]
    have c3 : (Phy.step p i.dir i.nxt l.dq l.stp).fc = p.fc ∧
        (Phy.step p i.dir i.nxt l.dq l.stp).otg = p.otg := by
      rcases hto with hd | ⟨hd, hq⟩
      · simp only [Phy.step, hd]; split <;> simp
      · simp only [Phy.step, hd, hprev, hq]; split <;> simp
    obtain ⟨k1, k2⟩ := keep c1.1 c1.2 c3.1 c3.2
    obtain ⟨e1, e2, e3⟩ := next_away_wr l i ho
    have m1 := next_modeUpd l i hrst hir c1.1
    have m2 := next_otgUpd l i c1.2
    rcases next_away l i ho with ⟨h1, h2, h3⟩ | ⟨h1, h2, h3⟩
    · refine ⟨htx, nrs, ?_, ?_, ?_, ?_, k1, k2⟩
      · simp only [Sys.step]
        rw [h1, m1, m2, nfc, nog, e1, e2, e3]
        intro hc
        rcases hwr hc with ⟨w1, w2, w3, w4⟩ | ⟨w1, w2, w3, w4⟩
        · left; simp [w1, w2, w3, w4, hsf w3]
        · right; simp [w1, w2, w3, w4, hso w3]
      · simp only [Sys.step]
        rw [h1, h2, e2]
        exact hcq
      · simp only [Sys.step]
        rw [h1, h2, e1]
        exact hrq
      · simp only [Sys.step]
        rw [h1, ndq]
        intro hr hd
        rw [h3 hr] at hd; cases hd
    · refine ⟨htx, nrs, ?_, ?_, ?_, ?_, k1, k2⟩ <;> simp [Sys.step, h2]

theorem reg_init : RegInv Sys.init :=
  ⟨tx_init, rfl, by simp [Sys.init, init], by simp [Sys.init, init], by simp [Sys.init, init],
    by simp [Sys.init, init], by simp [Sys.init, init, fcByte], by simp [Sys.init, init]⟩

/-- If the control inputs hold still while their write is pending, the PHY follows them, also when the
writes are interrupted by the PHY. -/
theorem sync_partial (is : List In) (x i : In) (h : Along Steady Sys.init (is ++ [x]))
    (ha : accept (Sys.init.run (is ++ [x])).l i = true) (hu : (Sys.init.run (is ++ [x])).u.cur = []) :
    (Sys.init.run (is ++ [x])).p.fc = x.fc % 128 ∧ (Sys.init.run (is ++ [x])).p.otg = x.otg := by
  have hi := run_inv RegInv Steady reg_step (is ++ [x]) Sys.init reg_init h
  have hx : (Sys.init.run (is ++ [x])).l = next (Sys.init.run is).l x := by
    simp [Sys.run, List.foldl_append, Sys.step]
  have hidle : (Sys.init.run (is ++ [x])).l.modeUpd = false ∧ (Sys.init.run (is ++ [x])).l.otgUpd = false := by
    have hnd : (Sys.init.run (is ++ [x])).l.st ≠ .data := fun hd => (hi.data hd).2 hu
    revert ha
    simp only [accept, beq_st, hnd, decide_false, Bool.false_and, Bool.or_false]
    cases (Sys.init.run (is ++ [x])).l.modeUpd <;> cases (Sys.init.run (is ++ [x])).l.otgUpd <;> simp
  refine ⟨?_, ?_⟩
  · rw [hi.fc hidle.1, hx, (next_common _ x).2.2.2.2.1]; simp [fcByte]
  · rw [hi.og hidle.2, hx, (next_common _ x).2.2.2.2.2.1]

def regEx : List In := [{ iEx with nxt := false }, { iEx with fc := 1, otg := 7 }, { iEx with fc := 1, otg := 7 },
  { iEx with fc := 1, otg := 7 }, { iEx with fc := 1, otg := 7, dir := true },
  { iEx with fc := 1, otg := 7, nxt := false }, { iEx with fc := 1, otg := 7 },
  { iEx with fc := 1, otg := 7 }, { iEx with fc := 1, otg := 7 }, { iEx with fc := 1, otg := 7 },
  { iEx with fc := 1, otg := 7 }, { iEx with fc := 1, otg := 7 }]

example : Along Steady Sys.init regEx ∧
    accept (Sys.init.run regEx).l { iEx with fc := 1, otg := 7 } = true ∧ (Sys.init.run regEx).u.cur = [] ∧
    (Sys.init.run regEx).p.otg = 7 := by decide

/-! ## C243: received bytes -/

theorem run_snoc (s : Link) (is : List In) (i : In) : run s (is ++ [i]) = next (run s is) i := by
  simp [run, List.foldl_append]

theorem next_rxdata (s : Link) (i : In) (h : (next s i).rxvalid = true) : (next s i).rxdata = i.di := by
  rw [(next_common s i).2.2.2.2.2.2.2] at h
  unfold next
  revert h
  cases turn s i <;> cases i.dir <;> cases i.nxt <;> simp

theorem next_rxactive (s : Link) (i : In) (h : (next s i).rxvalid = true) : (next s i).rxactive = true := by
  rw [(next_common s i).2.2.2.2.2.2.2] at h
  unfold next
  revert h
  cases turn s i <;> cases i.dir <;> cases i.nxt <;> simp

/-- `utmi.rx` shows a byte exactly in the cycle after the PHY, already owning the bus, sent it with
`nxt`; it is that byte and `active` is set with it. -/
theorem rx_exact (is : List In) (y x : In) :
    ((run init (is ++ [y, x])).rxvalid = true ↔ (y.dir = true ∧ x.dir = true ∧ x.nxt = true)) ∧
      ((run init (is ++ [y, x])).rxvalid = true →
        (run init (is ++ [y, x])).rxdata = x.di ∧ (run init (is ++ [y, x])).rxactive = true) := by
  have e : run init (is ++ [y, x]) = next (next (run init is) y) x := by
    rw [show is ++ [y, x] = (is ++ [y]) ++ [x] by simp, run_snoc, run_snoc]
  rw [e]
  refine ⟨?_, fun h => ⟨next_rxdata _ _ h, next_rxactive _ _ h⟩⟩
  rw [(next_common _ x).2.2.2.2.2.2.2, turn, next_dirq]
  cases y.dir <;> cases x.dir <;> cases x.nxt <;> simp

example : (run init [{ iEx with dir := true }, { iEx with dir := true, di := 0x5A }]).rxvalid = true ∧
    (run init [{ iEx with dir := true }, { iEx with dir := true, di := 0x5A }]).rxdata = 0x5A := by decide

/-- `active` never outlives the ownership of the bus by the PHY: the reception is over at the latest one
cycle after the PHY released the bus. -/
theorem active_owned (is : List In) (x : In) (h : (run init (is ++ [x])).rxactive = true)
    : x.dir = true := by
  have key : ∀ is : List In, (run init is).rxactive = true → (run init is).dirq = true := by
    intro is
    induction is using List.reverseRecOn with
    | nil => decide
    | append_singleton is x ih =>
      rw [run_snoc, next_dirq]
      generalize run init is = s at ih
      have hk := nextOutput_keep s x (nextCommon s x)
      unfold next
      cases hd : x.dir
      · rcases Bool.eq_false_or_eq_true (turn s x) with ht | ht
        · simp [ht, abort_keep]
        · have hq : s.dirq = false := by
            revert ht; simp only [turn, hd]; cases s.dirq <;> simp
          have hf : s.rxactive = false := by
            rcases Bool.eq_false_or_eq_true s.rxactive with h | h
            · rw [ih h] at hq; cases hq
            · exact h
          simp only [ht, Bool.false_eq_true, if_false, hk]
          simp [nextCommon, hf]
      · simp
  have := key _ h
  rwa [run_snoc, next_dirq] at this

example : (run init [{ iEx with dir := true }, { iEx with dir := true }]).rxactive = true := by decide

/-! ## C244: status reported by RX CMD bytes -/

/-- A byte of the PHY without `nxt` (RX CMD) says that the host is disconnected iff its event field
(bits 5:4) is 0b10; "interrupts are cleared once new RX CMD is received and it does not contain the event
flag" (line 144). -/
def DisconnectFull : Prop := ∀ (is : List In) (y x : In), y.dir = true → x.dir = true → x.nxt = false →
  ((run init (is ++ [y, x])).irq.hostDisconnect = true ↔ x.di / 16 % 4 = 2)

theorem disconnect_fails : ¬ DisconnectFull := by
  intro h
  have := h [{ iEx with dir := true }, { iEx with dir := true, nxt := false, di := 0x20 }]
    { iEx with dir := true, nxt := false } { iEx with dir := true, nxt := false }
  revert this
  decide

/-- Once it is set the flag never goes away (until reset). -/
theorem disconnect_sticky (is js : List In) (h : (run init is).irq.hostDisconnect = true) :
    (run init (is ++ js)).irq.hostDisconnect = true := by
  induction js using List.reverseRecOn with
  | nil => simpa using h
  | append_singleton js x ih =>
    rw [← List.append_assoc, run_snoc]
    generalize run init (is ++ js) = s at ih
    have hk := nextOutput_keep s x (nextCommon s x)
    have hc : (nextCommon s x).irq = s.irq := rfl
    unfold next
    rcases Bool.eq_false_or_eq_true (turn s x) with ht | ht <;> cases hd : x.dir <;> cases hn : x.nxt <;>
      simp only [ht, if_true, if_false, Bool.false_eq_true, abort_keep, hk, hc, ih]
    unfold irqCmd
    by_cases h2 : x.di / 16 % 4 = 2
    · simp [h2]
    · simp only [h2, if_false]
      split <;> exact ih

example : (run init [{ iEx with dir := true }, { iEx with dir := true, nxt := false, di := 0x20 }]).irq.hostDisconnect
    = true := by decide

/-- What holds for every RX CMD: the line state, `IdGnd`, the VBUS comparators, and the receive events
`00`, `01` and `11`; a disconnect event sets its flag. -/
theorem rxcmd_partial (is : List In) (y x : In) (hy : y.dir = true) (hx : x.dir = true)
    (hn : x.nxt = false) :
    let s := run init (is ++ [y, x])
    s.linestate = x.di % 4 ∧ (s.irq.idGnd = true ↔ x.di / 64 % 2 = 1) ∧
      (s.irq.vbusValid = true ↔ x.di / 4 % 4 = 3) ∧
      (x.di / 4 % 4 ≠ 3 → (s.irq.sessValid = true ↔ x.di / 4 % 4 = 2)) ∧
      (x.di / 4 % 4 < 2 → (s.irq.sessEnd = true ↔ x.di / 4 % 4 = 0)) ∧
      (x.di / 16 % 4 ≠ 2 → (s.rxactive = true ↔ x.di / 16 % 2 = 1) ∧
        (s.rxerror = true ↔ x.di / 16 % 4 = 3)) ∧
      (x.di / 16 % 4 = 2 → s.irq.hostDisconnect = true) := by
  have e : run init (is ++ [y, x]) = next (next (run init is) y) x := by
    rw [show is ++ [y, x] = (is ++ [y]) ++ [x] by simp, run_snoc, run_snoc]
  intro s
  have hs : s = next (next (run init is) y) x := e
  rw [hs]
  generalize hs1 : next (run init is) y = t
  have hq : t.dirq = true := by rw [← hs1, next_dirq, hy]
  have ht : turn t x = false := by simp [turn, hq, hx]
  unfold next
  simp only [ht, hx, hn, Bool.false_eq_true, if_false, if_true]
  have h4 : x.di / 4 % 4 < 4 := Nat.mod_lt _ (by decide)
  have h16 : x.di / 16 % 4 < 4 := Nat.mod_lt _ (by decide)
  have h2 : x.di / 16 % 2 = x.di / 16 % 4 % 2 := by omega
  rw [h2]
  unfold irqCmd activeCmd errorCmd
  generalize x.di / 4 % 4 = a at h4
  generalize x.di / 16 % 4 = b at h16
  interval_cases a <;> interval_cases b <;> simp

example : (run init [{ iEx with dir := true }, { iEx with dir := true, nxt := false, di := 0x5D }]).linestate = 1 ∧
    (run init [{ iEx with dir := true }, { iEx with dir := true, nxt := false, di := 0x5D }]).irq.vbusValid = true := by
  decide

end Verif.Ulpi

namespace Verif.SieTx

/-! ## C239: the end of an AXI-stream packet becomes a gap on UTMI -/

/-- The packets on a side of the converter: bytes of the current one and the finished ones. -/
structure Frames where
  cur : List Nat
  pkts : List (List Nat)
  deriving DecidableEq, Repr

/-- AXI-stream: the packet ends with the word with `last`. -/
def axi (f : Frames) (e : CIn × COut) : Frames :=
  if e.1.valid && e.2.ready then
    if e.1.last then ⟨[], f.pkts ++ [f.cur ++ [e.1.d]]⟩ else { f with cur := f.cur ++ [e.1.d] }
  else f

/-- UTMI: the packet ends with a cycle with `rd` and without `vld`. -/
def utmi (f : Frames) (e : CIn × COut) : Frames :=
  if e.1.rd then
    if e.2.vld then { f with cur := f.cur ++ [e.2.d] }
    else if f.cur = [] then f else ⟨[], f.pkts ++ [f.cur]⟩
  else f

def axiOf (t : List (CIn × COut)) : Frames := t.foldl axi ⟨[], []⟩
def utmiOf (t : List (CIn × COut)) : Frames := t.foldl utmi ⟨[], []⟩

/-- "The valid must not go low in the middle of the packet" (line 26). -/
def NoGap (t : List (CIn × COut)) : Prop :=
  ∀ (a : List (CIn × COut)) (e : CIn × COut), (a ++ [e]) <+: t → (axiOf a).cur ≠ [] → e.1.valid = true

theorem conv_inv (is : List CIn) (h : NoGap (conv.trace false is)) :
    (axiOf (conv.trace false is)).pkts = (utmiOf (conv.trace false is)).pkts ++
        (if conv.final false is then [(utmiOf (conv.trace false is)).cur] else []) ∧
      (conv.final false is = true → (axiOf (conv.trace false is)).cur = [] ∧
        (utmiOf (conv.trace false is)).cur ≠ []) ∧
      (conv.final false is = false →
        (axiOf (conv.trace false is)).cur = (utmiOf (conv.trace false is)).cur) := by
  induction is using List.reverseRecOn with
  | nil => simp [axiOf, utmiOf]
  | append_singleton is x ih =>
    rw [Machine.trace_snoc] at h ⊢
    have ih := ih (fun a e hp hc => h a e (hp.trans (List.prefix_append _ _)) hc)
    have hx := h (conv.trace false is) (x, conv.outAfter false is x) (List.prefix_refl _)
    rw [show axiOf (conv.trace false is ++ [(x, conv.outAfter false is x)]) =
      axi (axiOf (conv.trace false is)) (x, conv.outAfter false is x) by simp [axiOf, List.foldl_append],
      show utmiOf (conv.trace false is ++ [(x, conv.outAfter false is x)]) =
      utmi (utmiOf (conv.trace false is)) (x, conv.outAfter false is x) by simp [utmiOf, List.foldl_append]]
    simp only [Machine.final_append, Machine.final_cons, Machine.final_nil,
      show conv.outAfter false is x = cOut (conv.final false is) x from rfl,
      show ∀ b, conv.next b x = cNext b x from fun _ => rfl] at hx ⊢
    generalize conv.final false is = ld at *
    generalize axiOf (conv.trace false is) = A at *
    generalize utmiOf (conv.trace false is) = U at *
    obtain ⟨i1, i2, i3⟩ := ih
    obtain ⟨ac, ap⟩ := A
    obtain ⟨uc, up⟩ := U
    simp only at i1 i2 i3 hx
    unfold axi utmi cOut cNext
    cases ld
    · simp only [forall_const] at i3
      subst i3
      by_cases hc : ac = []
      · cases x.rd <;> cases x.valid <;> cases x.last <;> simp_all
      · have hv := hx hc
        cases x.rd <;> cases x.last <;> simp_all
    · simp only [forall_const] at i2
      obtain ⟨j1, j2⟩ := i2
      cases x.rd <;> cases x.valid <;> cases x.last <;> simp_all

/-- The packets closed on UTMI are the packets of the AXI-stream, in order and with the same bytes, for
each behaviour of `tx.rd`; at most the last packet still waits for its gap. -/
theorem packets (is : List CIn) (h : NoGap (conv.trace false is)) :
    ∃ pend : List (List Nat), pend.length ≤ 1 ∧
      (axiOf (conv.trace false is)).pkts = (utmiOf (conv.trace false is)).pkts ++ pend := by
  refine ⟨_, ?_, (conv_inv is h).1⟩
  split <;> simp

/-- After a cycle with `tx.rd` following the end of a packet the packet is closed. -/
theorem packets_closed (is : List CIn) (x y : CIn) (h : NoGap (conv.trace false (is ++ [x, y])))
    (hl : x.last = true) (hx : x.rd = true) (hv : x.valid = true) (h0 : conv.final false is = false)
    (hy : y.rd = true) :
    (axiOf (conv.trace false (is ++ [x, y]))).pkts = (utmiOf (conv.trace false (is ++ [x, y]))).pkts := by
  have hf : conv.final false (is ++ [x, y]) = false := by
    rw [Machine.final_append, h0]
    simp [conv, cNext, hl, hx, hv, hy]
  have := (conv_inv _ h).1
  rw [hf] at this
  simpa using this

def cEx : List CIn := [⟨true, false, 1, true⟩, ⟨true, true, 2, false⟩, ⟨true, true, 2, true⟩,
  ⟨true, true, 3, false⟩, ⟨true, true, 3, true⟩, ⟨true, true, 3, true⟩, ⟨false, false, 0, true⟩]

example : (utmiOf (conv.trace false cEx)).pkts = [[1, 2], [3]] ∧
    (axiOf (conv.trace false cEx)).pkts = [[1, 2], [3]] := by decide

example : NoGap (conv.trace false [⟨true, false, 1, true⟩, ⟨true, true, 2, true⟩]) := by
  intro a e hp hc
  rw [List.prefix_iff_eq_take] at hp
  have hl : a.length < 2 := by
    have := congrArg List.length hp
    simp at this; omega
  interval_cases ha : a.length <;> simp [conv, cOut, cNext, ha] at hp
  · have : a = [] := by simpa using ha
    subst this; simp [axiOf] at hc
  · rcases a with _ | ⟨b, bs⟩
    · simp at ha
    · simp only [List.length_cons, Nat.add_eq_right, List.length_eq_zero_iff] at ha
      subst ha
      simp at hp
      rw [hp.2]

/-! ## C245: the chirp ends when the user deasserts it -/

/-- "during chirp the continuous sequence of 0 is send over the channel until chirp signal is deasserted"
(line 54): if the user stops to request a chirp (from some cycle no command with `chirp` is offered), then
the converter does not send zeros for ever; here: there is a number of cycles after which the command
with `chirp` is gone. -/
def ChirpFull : Prop := ∀ (is : List In) (f : Nat → In),
  (∀ t, ∀ c, (f t).cmd = some c → c.chirp = false) → (∀ t, (f t).rd = true ∧ (f t).hsRd = true ∧
    (f t).payRd = true ∧ (f t).crcVld = false) →
  ∃ t, chirping (machine.stateAt (machine.final init is) f t) = false

/-- Once a command with `chirp` is in the buffer it stays there for ever, whatever the inputs are: the
zeros never end and no further command is accepted. -/
theorem chirp_forever (s : State) (h : chirping s = true) (f : Nat → In) (t : Nat) :
    chirping (machine.stateAt s f t) = true ∧ (machine.outAt s f t).cmdRd = false ∧
      ((machine.stateAt s f t).ld = false → (machine.outAt s f t).vld = true ∧ (machine.outAt s f t).d = 0) := by
  have key : ∀ t, chirping (machine.stateAt s f t) = true := by
    intro t
    induction t with
    | zero => exact h
    | succ t ih =>
      show chirping (next (machine.stateAt s f t) (f t)) = true
      generalize machine.stateAt s f t = q at ih
      obtain ⟨b, ld⟩ := q
      rcases b with _ | c
      · simp [chirping] at ih
      · simp only [chirping] at ih
        simp [next, consume, ih, chirping]
  refine ⟨key t, ?_⟩
  have ht := key t
  simp only [Machine.outAt, show ∀ q i, machine.out q i = out q i from fun _ _ => rfl]
  generalize machine.stateAt s f t = q at ht
  obtain ⟨b, ld⟩ := q
  rcases b with _ | c
  · simp [chirping] at ht
  · simp only [chirping] at ht
    refine ⟨by simp [out, consume, ht], ?_⟩
    intro hl
    simp only at hl
    simp [out, cOut, cin, chirping, ht, hl]

def chirpIn (c : Option Cmd) : In := ⟨c, true, false, true, true, false, false, 0⟩

theorem chirp_fails : ¬ ChirpFull := by
  intro h
  obtain ⟨t, ht⟩ := h [chirpIn (some ⟨true, true, false⟩)] (fun _ => chirpIn none) (by simp [chirpIn])
    (by simp [chirpIn])
  have hc : chirping (machine.final init [chirpIn (some ⟨true, true, false⟩)]) = true := by decide
  rw [(chirp_forever _ hc _ t).1] at ht
  cases ht

/-- What holds: while the command with `chirp` is at the output of the buffer the data on UTMI are zeros,
and every command without `chirp` is consumed as soon as its deparser takes it. -/
theorem chirp_partial (is : List In) (i : In) :
    (chirping (machine.final init is) = true → (machine.outAfter init is i).d = 0) ∧
      (∀ c, (machine.final init is).buf = some c → c.chirp = false → i.crcVld = false →
        (c.isHs = true ∧ i.hsRd = true ∨ c.isData = true ∧ i.payRd = true) →
        (machine.outAfter init is i).cmdRd = true) := by
  rw [show machine.outAfter init is i = out (machine.final init is) i from rfl]
  generalize machine.final init is = s
  constructor
  · intro h; simp [out, cOut, cin, h]
  · intro c hc h1 h2 h3
    rcases h3 with ⟨a, b⟩ | ⟨a, b⟩ <;> simp [out, consume, hc, h1, h2, a, b]

example : (machine.final init [chirpIn (some ⟨false, true, false⟩)]).buf = some ⟨false, true, false⟩ := by decide

end Verif.SieTx
