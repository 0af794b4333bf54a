import Verif.UsbEpFsm

/-!
# Properties of the endpoint state machine of `Usb2DeviceCore` (C283 - C289)
-/

namespace Verif.UsbEpFsm

/-! ## Observer of the ports -/

def isToken : Pid → Bool
  | .tokIn | .tokOut | .tokSetup | .ping => true
  | _ => false

def isDataPid : Option Pid → Bool
  | some .data0 | some .data1 => true
  | _ => false

/-- What USB expects, computed from ports only. -/
structure Obs where
  /-- endpoint of the last header -/
  endp : Nat
  /-- pid of the last token and its error flag -/
  tok : Option Pid
  tokErr : Bool
  /-- toggle which is expected in the next packet of OUT endpoint -/
  outT : Nat → Bool
  /-- toggle which is expected in the next packet of IN endpoint -/
  inT : Nat → Bool
  /-- a header of data with unexpected toggle, or data with error came after the last token -/
  bad : Bool
  /-- all words of the packet were offered on `ep.rx` after the last token -/
  done : Bool

/-- header of data with unexpected toggle -/
def wrongPid (o : Obs) (x : In) : Bool := x.hVld && x.hPid != dataPid (o.outT x.hEndp)

def obsNext (s : St) (o : Obs) (x : In) : Obs :=
  let y := out s x
  let good := y.rxVld && x.dLast && !x.dErr && !wrongPid o x
  let sent := x.txVld && y.txRdy && x.txLast && isDataPid y.cmdPid
  let t := x.hVld && isToken x.hPid
  let su := x.hVld && x.hPid == .tokSetup
  { endp := if x.hVld then x.hEndp else o.endp
    tok := if t then some x.hPid else o.tok
    tokErr := if t then x.hErr else o.tokErr
    outT := fun i => if x.rst then false else if x.hEndp == i && su then false
      else if x.hEndp == i && good then !o.outT i else o.outT i
    inT := fun i => if x.rst then false else if x.hEndp == i && su then true
      else if x.hEndp == i && sent then !o.inT i else o.inT i
    bad := if t then false else o.bad || wrongPid o x || x.dErr
    done := if t then false else o.done || (good && !o.bad) }

abbrev Sys := St × Obs
def sys (c : Cfg) (y : Sys) (x : In) : Sys := (next c y.1 x, obsNext y.1 y.2 x)
def run (c : Cfg) (y : Sys) (xs : List In) : Sys := xs.foldl (sys c) y
def start (p0 : Option Pid) (e0 : Nat) : Sys :=
  (init p0 e0, ⟨e0, none, false, fun _ => false, fun _ => false, false, false⟩)

def Along (P : Sys → In → Prop) (c : Cfg) (y : Sys) : List In → Prop
  | [] => True
  | x :: xs => P y x ∧ Along P c (sys c y x) xs

/-- The host, SIE and endpoint buffers: `rx_header.endp` is the one of the last token between tokens; no header comes
while the device transmits its answer; SETUP comes only when the device does not wait for data of another packet;
an endpoint which does not exist is not ready and has no data (C275). -/
structure Env (c : Cfg) (y : Sys) (x : In) : Prop where
  held : x.hVld = false ∨ isDataPid (some x.hPid) = true → x.hEndp = y.2.endp
  duplex : x.hVld = true → y.1.st ≠ .txData ∧ y.1.st ≠ .txHs
  setup : x.hVld = true → x.hPid = .tokSetup → y.1.st = .idle
  hasOut : x.rxReady = true → c.hasOut (out y.1 x).endp = true
  hasIn : x.txVld = true → c.hasIn (out y.1 x).endp = true

theorem beq_fs (a b : Fs) : (a == b) = decide (a = b) := rfl
theorem beq_pid (a b : Pid) : (a == b) = decide (a = b) := rfl
theorem bne_pid (a b : Pid) : (a != b) = !decide (a = b) := rfl

theorem isData_dataPid (b : Bool) : isDataPid (some (dataPid b)) = true := by cases b <;> rfl

structure Inv (c : Cfg) (y : Sys) : Prop where
  outT : ∀ i, c.hasOut i = true → y.1.outBit i = y.2.outT i
  inT : ∀ i, c.hasIn i = true → y.1.inBit i = y.2.inT i
  endp : y.1.endp = y.2.endp
  txd : y.1.st = .txData → c.hasIn y.2.endp = true ∧ y.1.txPid = some (dataPid (y.1.inBit y.2.endp))
  hs : y.1.st = .txHs → isDataPid y.1.txPid = false
  rx : y.1.st = .rxData → c.hasOut y.2.endp = true ∧ (y.2.tok = some .tokOut ∨ y.2.tok = some .tokSetup) ∧
    y.2.bad = false
  ign : y.1.st = .rxIgnore → y.1.txPid ≠ some .ack ∧ isDataPid y.1.txPid = false
  ack : y.1.st = .txHs → y.1.txPid = some .ack →
    y.2.tok = some .ping ∨ ((y.2.tok = some .tokOut ∨ y.2.tok = some .tokSetup) ∧ y.2.done = true)

theorem init_inv (c p0 e0) : Inv c (start p0 e0) := by
  constructor <;> simp [start, init]

/-- In RX_DATA the comparison of pid with the toggle bit is the one with the expected toggle. -/
theorem wrong_eq {c : Cfg} {y : Sys} {x : In} (hi : Inv c y) (he : Env c y x) (hs : y.1.st = .rxData) :
    outPidErr c y.1 x = wrongPid y.2 x := by
  have hr := (hi.rx hs).1
  unfold outPidErr wrongPid
  cases hv : x.hVld
  · simp
  · by_cases hd : isDataPid (some x.hPid) = true
    · have h1 := he.held (.inr hd)
      have h2 := hi.outT _ hr
      simp only [outB, h1, hr, if_true, h2, Bool.true_and, dataPid, bne_pid]
      cases y.2.outT y.2.endp <;> simp
    · have h0 : x.hPid ≠ .data0 := by intro h; rw [h] at hd; exact hd rfl
      have h1 : x.hPid ≠ .data1 := by intro h; rw [h] at hd; exact hd rfl
      simp only [bne_pid, dataPid]
      cases outB c y.1 x <;> cases y.2.outT x.hEndp <;> simp [h0, h1]

theorem rxEnd_eq {c : Cfg} {y : Sys} {x : In} (hi : Inv c y) (he : Env c y x) :
    ((out y.1 x).rxVld && x.dLast && !x.dErr && !wrongPid y.2 x) = rxEnd c y.1 x := by
  by_cases hs : y.1.st = .rxData
  · simp only [rxEnd, out, wrong_eq hi he hs, hs, beq_self_eq_true]
    cases x.dVld <;> cases x.dLast <;> cases x.dErr <;> cases wrongPid y.2 x <;> rfl
  · have : (y.1.st == Fs.rxData) = false := by simpa using hs
    simp [rxEnd, out, this]

theorem txEnd_eq {c : Cfg} {y : Sys} {x : In} (hi : Inv c y) :
    (x.txVld && (out y.1 x).txRdy && x.txLast && isDataPid (out y.1 x).cmdPid) = txEnd y.1 x := by
  unfold txEnd out
  cases h : y.1.st <;> simp [beq_fs]
  · have := (hi.txd h).2
    rw [this, isData_dataPid]
    simp
  · have := hi.hs h
    intro _ _ _ _
    split <;> first | rfl | exact this

/-! How the states are entered. -/

theorem to_txData {c : Cfg} {s : St} {x : In} (h : nextSt c s x = .txData) :
    (s.st = .idle ∧ x.hVld = true ∧ x.hPid = .tokIn ∧ epTxStall x = false ∧ x.txVld = true) ∨
    (s.st = .txData ∧ txEnd s x = false) := by
  revert h
  unfold nextSt
  cases hs : s.st <;> simp only <;> repeat' split
  all_goals simp_all

theorem to_rxData {c : Cfg} {s : St} {x : In} (h : nextSt c s x = .rxData) :
    (s.st = .idle ∧ x.hVld = true ∧ (x.hPid = .tokOut ∨ x.hPid = .tokSetup) ∧ x.rxReady = true) ∨
    (s.st = .rxData ∧ outPidErr c s x = false ∧ x.dErr = false ∧ (x.dVld && x.dLast) = false) := by
  revert h
  unfold nextSt
  cases hs : s.st <;> simp only <;> repeat' split
  all_goals simp_all

theorem to_rxIgnore {c : Cfg} {s : St} {x : In} (h : nextSt c s x = .rxIgnore) :
    (s.st = .idle ∧ (nextPid c s x = some .stall ∨ nextPid c s x = some .nack)) ∨
    (s.st = .rxIgnore ∧ nextPid c s x = s.txPid) := by
  revert h
  unfold nextSt nextPid
  cases hs : s.st <;> simp only <;> repeat' split
  all_goals simp_all

theorem to_txHs {c : Cfg} {s : St} {x : In} (h : nextSt c s x = .txHs) :
    (s.st = .idle ∧ (nextPid c s x = some .stall ∨ nextPid c s x = some .nack ∨
      (nextPid c s x = some .ack ∧ x.hVld = true ∧ x.hPid = .ping))) ∨
    (rxEnd c s x = true ∧ nextPid c s x = some .ack) ∨
    ((s.st = .rxIgnore ∨ s.st = .txHs) ∧ nextPid c s x = s.txPid) := by
  revert h
  unfold nextSt nextPid rxEnd
  cases hs : s.st <;> simp only <;> repeat' split
  all_goals simp_all

theorem step_inv {c : Cfg} {y : Sys} {x : In} (hi : Inv c y) (he : Env c y x) : Inv c (sys c y x) := by
  have hrx := rxEnd_eq hi he
  have htx := txEnd_eq (x := x) hi
  have hend : (if x.hVld = true then x.hEndp else y.1.endp) = (sys c y x).2.endp := by
    simp only [sys, obsNext, hi.endp]
  have hsu : ∀ i, (x.hEndp == i && (x.hVld && x.hPid == Pid.tokSetup)) = (x.hEndp == i && setup y.1 x) := by
    intro i
    unfold setup
    cases hv : x.hVld
    · simp
    · by_cases hp : x.hPid = .tokSetup
      · have := he.setup hv hp
        simp [this, hp]
      · have : (x.hPid == Pid.tokSetup) = false := by simpa using hp
        simp [this]
  have hE : (out y.1 x).endp = (sys c y x).2.endp := hend
  refine ⟨?_, ?_, hend, ?_, ?_, ?_, ?_, ?_⟩
  · intro i h
    simp only [sys, next, obsNext, hrx, hsu]
    split
    · rfl
    · split
      · rfl
      · split
        · rename_i h3
          simp only [Bool.and_eq_true, beq_iff_eq] at h3
          simp only [outB, h3.1, h, if_true, hi.outT i h]
        · exact hi.outT i h
  · intro i h
    simp only [sys, next, obsNext, htx, hsu]
    split
    · rfl
    · split
      · rfl
      · split
        · rename_i h3
          simp only [Bool.and_eq_true, beq_iff_eq] at h3
          simp only [inB, h3.1, h, if_true, hi.inT i h]
        · exact hi.inT i h
  · -- TX_DATA
    intro h
    have hr : x.rst = false := by
      cases hr : x.rst
      · rfl
      · simp [sys, next, hr] at h
    simp only [sys, next, hr] at h
    rcases to_txData h with ⟨h1, h2, h3, h4, h5⟩ | ⟨h1, h2⟩
    · have h6 := he.hasIn h5
      rw [hE] at h6
      refine ⟨h6, ?_⟩
      have h7 : (sys c y x).2.endp = x.hEndp := by simp [sys, obsNext, h2]
      rw [h7] at h6
      have h8 : (next c y.1 x).inBit x.hEndp = y.1.inBit x.hEndp := by
        have a : setup y.1 x = false := by simp [setup, h3]
        have b : txEnd y.1 x = false := by simp [txEnd, h1]
        simp [next, hr, a, b]
      rw [h7]
      show nextPid c y.1 x = some (dataPid ((next c y.1 x).inBit x.hEndp))
      rw [h8]
      simp [nextPid, h1, h2, h3, h4, h5, inB, h6]
    · have hv : x.hVld = false := by
        cases hv : x.hVld
        · rfl
        · exact absurd h1 (he.duplex hv).1
      have h7 : (sys c y x).2.endp = y.2.endp := by simp [sys, obsNext, hv]
      rw [h7]
      refine ⟨(hi.txd h1).1, ?_⟩
      have h8 : (next c y.1 x).inBit y.2.endp = y.1.inBit y.2.endp := by
        have a : setup y.1 x = false := by simp [setup, h1]
        simp [next, hr, a, h2]
      show nextPid c y.1 x = some (dataPid ((next c y.1 x).inBit y.2.endp))
      rw [h8, ← (hi.txd h1).2]
      simp [nextPid, h1]
  · -- TX_HANDSHAKE
    intro h
    have hr : x.rst = false := by
      cases hr : x.rst
      · rfl
      · simp [sys, next, hr] at h
    simp only [sys, next, hr] at h
    show isDataPid (nextPid c y.1 x) = false
    rcases to_txHs h with ⟨h1, h2 | h2 | ⟨h2, _⟩⟩ | ⟨_, h2⟩ | ⟨h1 | h1, h2⟩
    · rw [h2]; rfl
    · rw [h2]; rfl
    · rw [h2]; rfl
    · rw [h2]; rfl
    · rw [h2]; exact (hi.ign h1).2
    · rw [h2]; exact hi.hs h1
  · -- RX_DATA
    intro h
    have hr : x.rst = false := by
      cases hr : x.rst
      · rfl
      · simp [sys, next, hr] at h
    simp only [sys, next, hr] at h
    rcases to_rxData h with ⟨h1, h2, h3, h4⟩ | ⟨h1, h2, h3, h4⟩
    · have h6 := he.hasOut h4
      rw [hE] at h6
      refine ⟨h6, ?_⟩
      rcases h3 with h3 | h3 <;> simp [sys, obsNext, h2, h3, isToken]
    · have hw : wrongPid y.2 x = false := by rw [← wrong_eq hi he h1]; exact h2
      obtain ⟨i1, i2, i3⟩ := hi.rx h1
      have ht : (x.hVld && isToken x.hPid) = false := by
        cases hv : x.hVld
        · rfl
        · rw [wrongPid, hv, bne_pid] at hw
          have : x.hPid = dataPid (y.2.outT x.hEndp) := by simpa using hw
          rw [this]
          cases y.2.outT x.hEndp <;> rfl
      have h7 : (sys c y x).2.endp = y.2.endp := by
        simp only [sys, obsNext]
        split
        · rename_i hv
          apply he.held
          right
          rw [wrongPid, hv, bne_pid] at hw
          have : x.hPid = dataPid (y.2.outT x.hEndp) := by simpa using hw
          rw [this, isData_dataPid]
        · rfl
      rw [h7]
      refine ⟨i1, ?_⟩
      simp only [sys, obsNext, ht]
      exact ⟨i2, by simp [i3, hw, h3]⟩
  · -- RX_DATA_IGNORE
    intro h
    have hr : x.rst = false := by
      cases hr : x.rst
      · rfl
      · simp [sys, next, hr] at h
    simp only [sys, next, hr] at h
    show nextPid c y.1 x ≠ some .ack ∧ isDataPid (nextPid c y.1 x) = false
    rcases to_rxIgnore h with ⟨h1, h2 | h2⟩ | ⟨h1, h2⟩
    · rw [h2]; exact ⟨by decide, rfl⟩
    · rw [h2]; exact ⟨by decide, rfl⟩
    · rw [h2]; exact hi.ign h1
  · -- ACK
    intro h ha
    have hr : x.rst = false := by
      cases hr : x.rst
      · rfl
      · simp [sys, next, hr] at h
    simp only [sys, next, hr] at h ha
    rcases to_txHs h with ⟨h1, h2 | h2 | ⟨_, h2, h3⟩⟩ | ⟨h1, h2⟩ | ⟨h1 | h1, h2⟩
    · rw [h2] at ha; exact absurd ha (by decide)
    · rw [h2] at ha; exact absurd ha (by decide)
    · left; simp [sys, obsNext, h2, h3, isToken]
    · right
      have hst : y.1.st = .rxData := by
        simp only [rxEnd, Bool.and_eq_true, beq_iff_eq] at h1
        exact h1.1.1.1.1
      obtain ⟨i1, i2, i3⟩ := hi.rx hst
      have hw : wrongPid y.2 x = false := by
        rw [← wrong_eq hi he hst]
        simp only [rxEnd, Bool.and_eq_true] at h1
        simpa using h1.1.1.1.2
      have ht : (x.hVld && isToken x.hPid) = false := by
        cases hv : x.hVld
        · rfl
        · rw [wrongPid, hv, bne_pid] at hw
          have : x.hPid = dataPid (y.2.outT x.hEndp) := by simpa using hw
          rw [this]
          cases y.2.outT x.hEndp <;> rfl
      simp only [sys, obsNext, ht, hrx, h1, i3]
      exact ⟨i2, by simp⟩
    · rw [h2] at ha; exact absurd ha (hi.ign h1).1
    · have hv : x.hVld = false := by
        cases hv : x.hVld
        · rfl
        · exact absurd h1 (he.duplex hv).2
      rw [h2] at ha
      have := hi.ack h1 ha
      simp only [sys, obsNext, hv, Bool.false_and]
      rcases this with h | ⟨h, h'⟩
      · exact .inl h
      · exact .inr ⟨h, by simp [h']⟩

theorem run_inv {c : Cfg} : ∀ (xs : List In) (y : Sys), Inv c y → Along (Env c) c y xs → Inv c (run c y xs)
  | [], _, hi, _ => hi
  | x :: xs, y, hi, ⟨h, ha⟩ => run_inv xs (sys c y x) (step_inv hi h) ha

/-! ## Inputs for examples -/

def quiet : In where
  rst := false
  urst := false
  chirp := false
  hVld := false
  hErr := false
  hPid := .other
  hEndp := 1
  dVld := false
  dLast := false
  dErr := false
  rxReady := false
  rxStall := false
  txVld := false
  txLast := false
  txStall := false
  cmdRdy := true
  x := false

def hdr (p : Pid) : In := { quiet with hVld := true, hPid := p }
def cAll : Cfg := ⟨fun _ => true, fun _ => true⟩

theorem env_all {y : Sys} {x : In} (h1 : y.2.endp = 1) (h2 : x.hEndp = 1)
    (h3 : x.hVld = true → y.1.st = .idle ∨ y.1.st = .rxData) (h4 : x.hPid = .tokSetup → y.1.st = .idle) :
    Env cAll y x :=
  ⟨fun _ => by rw [h1, h2], fun h => by rcases h3 h with h | h <;> rw [h] <;> decide, fun _ h => h4 h,
    fun _ => rfl, fun _ => rfl⟩

/-! ## C283: DATA0/DATA1 of IN packets -/

/-- Each data word is sent with pid of the toggle which is expected for its endpoint: DATA0 first after reset,
DATA1 first after SETUP, then the pids alternate. -/
theorem in_toggle_partial (c : Cfg) (p0 : Option Pid) (e0 : Nat) (xs : List In) (x : In)
    (ha : Along (Env c) c (start p0 e0) xs) (he : Env c (run c (start p0 e0) xs) x)
    (hv : (out (run c (start p0 e0) xs).1 x).cmdVld = true)
    (hd : isDataPid (out (run c (start p0 e0) xs).1 x).cmdPid = true) :
    (out (run c (start p0 e0) xs).1 x).cmdPid =
      some (dataPid ((run c (start p0 e0) xs).2.inT (out (run c (start p0 e0) xs).1 x).endp)) := by
  have hi := run_inv xs _ (init_inv c p0 e0) ha
  revert he hv hd hi
  generalize run c (start p0 e0) xs = y
  intro he hv hd hi
  cases hs : y.1.st <;> simp only [out, hs] at hv hd ⊢ <;> try (exact absurd hv (by decide))
  · have hv : x.hVld = false := by
      cases hv : x.hVld
      · rfl
      · exact absurd hs (he.duplex hv).1
    obtain ⟨h1, h2⟩ := hi.txd hs
    rw [h2, hv, hi.inT _ h1, hi.endp]
    simp
  · exfalso
    split at hd
    · exact absurd hd (by decide)
    · rw [hi.hs hs] at hd
      exact absurd hd (by decide)
  · exact absurd hd (by decide)

def inTok : In := { hdr .tokIn with txVld := true, txLast := true }
def inWord : In := { quiet with txVld := true, txLast := true }

/-- two IN transactions, the second packet is DATA1 -/
example : Along (Env cAll) cAll (start none 1) [inTok, inWord, quiet, hdr .ack, inTok] ∧
    Env cAll (run cAll (start none 1) [inTok, inWord, quiet, hdr .ack, inTok]) inWord ∧
    (out (run cAll (start none 1) [inTok, inWord, quiet, hdr .ack, inTok]).1 inWord).cmdVld = true ∧
    (out (run cAll (start none 1) [inTok, inWord, quiet, hdr .ack, inTok]).1 inWord).cmdPid = some .data1 := by
  refine ⟨⟨env_all rfl rfl ?_ ?_, env_all rfl rfl ?_ ?_, env_all rfl rfl ?_ ?_, env_all rfl rfl ?_ ?_,
    env_all rfl rfl ?_ ?_, trivial⟩, env_all rfl rfl ?_ ?_, ?_, ?_⟩ <;> decide

/-- The endpoint and pid of the packet whose last word is sent. -/
def sentPkt (y : Sys) (x : In) : Option (Nat × Pid) :=
  if x.txVld && (out y.1 x).txRdy && x.txLast && isDataPid (out y.1 x).cmdPid then
    (out y.1 x).cmdPid.map fun p => ((out y.1 x).endp, p)
  else none

/-- Full claim: a packet which was not acknowledged by the host is sent again with the same pid. -/
def RetrySamePid : Prop :=
  ∀ (c : Cfg) (p0 : Option Pid) (e0 : Nat) (xs mid : List In) (x1 x2 : In) (e : Nat) (p q : Pid),
    Along (Env c) c (start p0 e0) (xs ++ x1 :: mid ++ [x2]) →
    sentPkt (run c (start p0 e0) xs) x1 = some (e, p) →
    (∀ m ∈ mid, m.rst = false ∧ (m.hVld = true → m.hPid = .tokIn)) →
    sentPkt (run c (start p0 e0) (xs ++ x1 :: mid)) x2 = some (e, q) → p = q

/-- The toggle changes when the last word is passed to SIE, the handshake of the host is not used. -/
theorem in_retry_fails : ¬ RetrySamePid := by
  intro h
  have := h cAll none 1 [inTok] [quiet, inTok] inWord inWord 1 .data0 .data1
    (by
      refine ⟨env_all rfl rfl ?_ ?_, env_all rfl rfl ?_ ?_, env_all rfl rfl ?_ ?_, env_all rfl rfl ?_ ?_,
        env_all rfl rfl ?_ ?_, trivial⟩ <;> decide)
    (by decide) (by decide) (by decide)
  exact absurd this (by decide)

/-! ## C284: ACK -/

/-- ACK is sent only for PING or for a packet after OUT/SETUP token which was offered to the endpoint with all words,
with the expected toggle and without any error. -/
theorem ack_good (c : Cfg) (p0 : Option Pid) (e0 : Nat) (xs : List In) (x : In)
    (ha : Along (Env c) c (start p0 e0) xs)
    (hd : (out (run c (start p0 e0) xs).1 x).cmdVld = true)
    (hp : (out (run c (start p0 e0) xs).1 x).cmdPid = some .ack) :
    (run c (start p0 e0) xs).2.tok = some .ping ∨
    (((run c (start p0 e0) xs).2.tok = some .tokOut ∨ (run c (start p0 e0) xs).2.tok = some .tokSetup) ∧
      (run c (start p0 e0) xs).2.done = true) := by
  have hi := run_inv xs _ (init_inv c p0 e0) ha
  revert hd hp hi
  generalize run c (start p0 e0) xs = y
  intro hd hp hi
  cases hs : y.1.st <;> simp only [out, hs] at hd hp <;> try (exact absurd hd (by decide))
  · rw [(hi.txd hs).2] at hp
    exact absurd hp (by cases y.1.inBit y.2.endp <;> decide)
  · split at hp
    · exact absurd hp (by decide)
    · exact hi.ack hs hp
  · exact absurd hp (by decide)

def outTok : In := { hdr .tokOut with rxReady := true }
def outWord : In := { quiet with dVld := true }
def outLast : In := { quiet with dVld := true, dLast := true }

example : Along (Env cAll) cAll (start none 1) [outTok, quiet, hdr .data0, outWord, outLast] ∧
    (out (run cAll (start none 1) [outTok, quiet, hdr .data0, outWord, outLast]).1 quiet).cmdVld = true ∧
    (out (run cAll (start none 1) [outTok, quiet, hdr .data0, outWord, outLast]).1 quiet).cmdPid = some .ack := by
  refine ⟨⟨env_all rfl rfl ?_ ?_, env_all rfl rfl ?_ ?_, env_all rfl rfl ?_ ?_, env_all rfl rfl ?_ ?_,
    env_all rfl rfl ?_ ?_, trivial⟩, ?_, ?_⟩ <;> decide

def runS (c : Cfg) (s : St) (xs : List In) : St := xs.foldl (next c) s

theorem runS_append (c : Cfg) (s : St) (xs ys : List In) : runS c s (xs ++ ys) = runS c (runS c s xs) ys := by
  simp [runS]

theorem run_fst (c : Cfg) : ∀ (xs : List In) (y : Sys), (run c y xs).1 = runS c y.1 xs
  | [], _ => rfl
  | x :: xs, y => run_fst c xs (sys c y x)

/-- waiting for data -/
theorem rxData_wait (c : Cfg) : ∀ (xs : List In) (s : St), s.st = .rxData →
    (∀ x ∈ xs, x.rst = false ∧ x.hVld = false ∧ x.dErr = false ∧ x.dVld = false) →
    (runS c s xs).st = .rxData ∧ (∀ i, (runS c s xs).outBit i = s.outBit i)
  | [], s, h, _ => ⟨h, fun _ => rfl⟩
  | x :: xs, s, h, hx => by
    obtain ⟨h1, h2, h3, h4⟩ := hx x (List.mem_cons_self ..)
    have a : (next c s x).st = .rxData := by simp [next, h1, nextSt, h, outPidErr, h2, h3, h4]
    have b : ∀ i, (next c s x).outBit i = s.outBit i := by
      intro i; simp [next, h1, setup, h, rxEnd, h4]
    obtain ⟨r1, r2⟩ := rxData_wait c xs (next c s x) a fun x hm => hx x (List.mem_cons_of_mem _ hm)
    exact ⟨r1, fun i => (r2 i).trans (b i)⟩

/-- In RX_DATA_IGNORE_NO_RESP (and RX_DATA_IGNORE) the device is deaf and silent until the end of some data. -/
theorem deaf (c : Cfg) : ∀ (xs : List In) (s : St), s.st = .rxIgnoreNoResp ∨ s.st = .rxIgnore →
    (∀ x ∈ xs, x.rst = false ∧ (x.dVld && x.dLast) = false) →
    (runS c s xs).st = s.st ∧ (∀ i, (runS c s xs).outBit i = s.outBit i) ∧ (∀ i, (runS c s xs).inBit i = s.inBit i) ∧
    ∀ x, (out (runS c s xs) x).cmdVld = false ∧ (out (runS c s xs) x).rxVld = false
  | [], s, h, _ => by
    refine ⟨rfl, fun _ => rfl, fun _ => rfl, fun x => ?_⟩
    rcases h with h | h <;> simp [runS, out, h] <;> intro _ <;> decide
  | x :: xs, s, h, hx => by
    obtain ⟨h1, h2⟩ := hx x (List.mem_cons_self ..)
    have a : (next c s x).st = s.st := by
      rcases h with h | h <;> simp [next, h1, nextSt, h, h2]
    have b : ∀ i, (next c s x).outBit i = s.outBit i := by
      intro i; rcases h with h | h <;> simp [next, h1, setup, h, rxEnd, beq_fs]
    have d : ∀ i, (next c s x).inBit i = s.inBit i := by
      intro i; rcases h with h | h <;> simp [next, h1, setup, h, txEnd, beq_fs]
    obtain ⟨r1, r2, r3, r4⟩ := deaf c xs (next c s x) (by rw [a]; exact h) fun x hm => hx x (List.mem_cons_of_mem _ hm)
    exact ⟨r1.trans a, fun i => (r2 i).trans (b i), fun i => (r3 i).trans (d i), r4⟩

/-- A transaction with data packet of OUT endpoint: token, gap, header of data, words. -/
structure OutTr where
  tok : In
  gap : List In
  hd : In
  ws : List In
  last : In

def OutTr.ins (t : OutTr) : List In := t.tok :: t.gap ++ t.hd :: t.ws ++ [t.last]

/-- Token OUT to endpoint `e`, data packet with the toggle `b`, no error; the buffer is ready. -/
structure OutTr.Ok (t : OutTr) (e : Nat) (b : Bool) : Prop where
  tok : t.tok.rst = false ∧ t.tok.hVld = true ∧ t.tok.hPid = .tokOut ∧ t.tok.hEndp = e ∧ t.tok.rxReady = true ∧
    t.tok.rxStall = false
  gap : ∀ x ∈ t.gap, x.rst = false ∧ x.hVld = false ∧ x.dErr = false ∧ x.dVld = false
  hd : t.hd.rst = false ∧ t.hd.hVld = true ∧ t.hd.hPid = dataPid b ∧ t.hd.hEndp = e ∧ t.hd.dVld = false
  ws : ∀ x ∈ t.ws, x.rst = false ∧ (x.dVld && x.dLast) = false
  last : t.last.rst = false ∧ t.last.dVld = true ∧ t.last.dLast = true

/-- Full claim: a packet which is sent by the host again (because ACK was lost) is acknowledged again. -/
def RetransmitAcked : Prop :=
  ∀ (c : Cfg) (s : St) (e : Nat) (t : OutTr), s.st = .idle → c.hasOut e = true → t.Ok e (!s.outBit e) →
    ∀ x, (out (runS c s t.ins) x).cmdVld = true ∧ (out (runS c s t.ins) x).cmdPid = some .ack

/-- The packet with old toggle gets no answer, nothing changes, and it is so for any number of attempts. -/
theorem retransmit_ignored (c : Cfg) (s : St) (e : Nat) (t : OutTr) (hs : s.st = .idle) (hc : c.hasOut e = true)
    (ht : t.Ok e (!s.outBit e)) :
    (runS c s t.ins).st = .idle ∧ (∀ i, (runS c s t.ins).outBit i = s.outBit i) ∧
    ∀ x, (out (runS c s t.ins) x).cmdVld = false := by
  obtain ⟨t1, t2, t3, t4, t5, t6⟩ := ht.tok
  have a1 : (next c s t.tok).st = .rxData := by simp [next, t1, nextSt, hs, t2, t3, t5, t6]
  have a2 : ∀ i, (next c s t.tok).outBit i = s.outBit i := by
    intro i; simp [next, t1, setup, hs, t3, rxEnd]
  obtain ⟨b1, b2⟩ := rxData_wait c t.gap _ a1 ht.gap
  obtain ⟨d1, d2, d3, d4, d5⟩ := ht.hd
  generalize hS : runS c (next c s t.tok) t.gap = s2 at b1 b2
  have hb : s2.outBit e = s.outBit e := (b2 e).trans (a2 e)
  have e1 : (next c s2 t.hd).st = .rxIgnoreNoResp := by
    have : outPidErr c s2 t.hd = true := by
      simp only [outPidErr, outB, d2, d3, d4, hc, if_true, hb, dataPid]
      cases s.outBit e <;> rfl
    simp [next, d1, nextSt, b1, this]
  have e2 : ∀ i, (next c s2 t.hd).outBit i = s2.outBit i := by
    intro i; simp [next, d1, setup, b1, rxEnd, d5, beq_fs]
  obtain ⟨f1, f2, _, _⟩ := deaf c t.ws _ (.inl e1) ht.ws
  obtain ⟨l1, l2, l3⟩ := ht.last
  have hrun : runS c s t.ins = next c (runS c (next c s2 t.hd) t.ws) t.last := by
    simp only [OutTr.ins, List.cons_append, runS, List.foldl_cons, List.foldl_append, List.foldl_nil] at hS ⊢
    rw [hS]
  rw [hrun]
  rw [e1] at f1
  generalize runS c (next c s2 t.hd) t.ws = s3 at f1 f2
  have g1 : (next c s3 t.last).st = .idle := by simp [next, l1, nextSt, f1, l2, l3]
  refine ⟨g1, fun i => ?_, fun x => ?_⟩
  · rw [← a2 i, ← b2 i, ← e2 i, ← f2 i]
    simp [next, l1, setup, f1, rxEnd, beq_fs]
  · simp [out, g1]

def reTr : OutTr := ⟨outTok, [], hdr .data1, [outWord], outLast⟩

theorem reTr_ok : reTr.Ok 1 true :=
  ⟨by decide, by intro x h; exact absurd h (by simp [reTr]), by decide, by
    intro x h
    simp only [reTr, List.mem_singleton] at h
    subst h
    decide, by decide⟩

theorem retransmit_fails : ¬ RetransmitAcked := by
  intro h
  have := (h cAll (init none 1) 1 reTr rfl rfl reTr_ok quiet).1
  exact absurd this (by decide)

example : (init none 1).st = .idle ∧ cAll.hasOut 1 = true ∧ reTr.Ok 1 (!(init none 1).outBit 1) := ⟨rfl, rfl, reTr_ok⟩

/-! ## C285: tokens for other devices -/

/-- Full claim: nothing is sent after a token with error (it is for another device, or its CRC is wrong). -/
def ErrTokenSilent : Prop :=
  ∀ (c : Cfg) (s : St) (x : In) (ys : List In) (z : In), s.st = .idle → x.hVld = true → x.hErr = true →
    isToken x.hPid = true → (∀ y ∈ x :: ys, y.rst = false ∧ y.chirp = false) → (∀ y ∈ ys ++ [z], y.hVld = false) →
    (out (runS c s (x :: ys)) z).cmdVld = false

theorem err_token_fails : ¬ ErrTokenSilent := by
  intro h
  have := h cAll (init none 1) { hdr .tokIn with hErr := true } [] quiet rfl rfl rfl rfl (by decide) (by decide)
  exact absurd this (by decide)

/-- The buffers have no data and no space for an endpoint which is not selected (C275). -/
def Sel (y : Sys) (x : In) : Prop := (out y.1 x).endpVld = false → x.txVld = false ∧ x.rxReady = false

theorem err_inv {c : Cfg} {y : Sys} {x : In} (he : Env c y x) (hs : Sel y x)
    (h : y.2.tokErr = true → y.1.st ≠ .rxData ∧ y.1.st ≠ .txData) :
    (sys c y x).2.tokErr = true → (sys c y x).1.st ≠ .rxData ∧ (sys c y x).1.st ≠ .txData := by
  intro ht
  cases hr : x.rst
  · simp only [sys, next, hr]
    refine ⟨fun hn => ?_, fun hn => ?_⟩
    · rcases to_rxData hn with ⟨h1, h2, h3, h4⟩ | ⟨h1, h2, _⟩
      · have : x.hErr = true := by rcases h3 with h3 | h3 <;> simpa [sys, obsNext, h2, h3, isToken] using ht
        have := (hs (by simp [out, h2, this])).2
        rw [h4] at this
        exact absurd this (by decide)
      · cases htk : (x.hVld && isToken x.hPid)
        · simp only [sys, obsNext, htk] at ht
          exact (h ht).1 h1
        · simp only [Bool.and_eq_true] at htk
          have : outPidErr c y.1 x = true := by
            simp only [outPidErr, htk.1, bne_pid]
            have a : x.hPid ≠ .data0 := by intro h; rw [h] at htk; exact absurd htk.2 (by decide)
            have b : x.hPid ≠ .data1 := by intro h; rw [h] at htk; exact absurd htk.2 (by decide)
            cases outB c y.1 x <;> simp [a, b]
          rw [h2] at this
          exact absurd this (by decide)
    · rcases to_txData hn with ⟨h1, h2, h3, h4, h5⟩ | ⟨h1, h2⟩
      · have : x.hErr = true := by simpa [sys, obsNext, h2, h3, isToken] using ht
        have := (hs (by simp [out, h2, this])).1
        rw [h5] at this
        exact absurd this (by decide)
      · have hv : x.hVld = false := by
          cases hv : x.hVld
          · rfl
          · exact absurd h1 (he.duplex hv).1
        simp only [sys, obsNext, hv, Bool.false_and] at ht
        exact (h ht).2 h1
  · simp [sys, next, hr]

theorem err_run {c : Cfg} : ∀ (xs : List In) (y : Sys),
    (y.2.tokErr = true → y.1.st ≠ .rxData ∧ y.1.st ≠ .txData) →
    Along (fun y x => Env c y x ∧ Sel y x) c y xs →
    (run c y xs).2.tokErr = true → (run c y xs).1.st ≠ .rxData ∧ (run c y xs).1.st ≠ .txData
  | [], _, h, _ => h
  | x :: xs, y, h, ⟨ha, hb⟩ => err_run xs (sys c y x) (err_inv ha.1 ha.2 h) hb

theorem along_mono {P Q : Sys → In → Prop} {c : Cfg} (hpq : ∀ y x, P y x → Q y x) : ∀ (xs : List In) (y : Sys),
    Along P c y xs → Along Q c y xs
  | [], _, _ => trivial
  | x :: xs, y, ⟨h, ht⟩ => ⟨hpq _ _ h, along_mono hpq xs (sys c y x) ht⟩

/-- Data are not moved to or from an endpoint after a token with error, until the next token. (The device sends
a handshake.) -/
theorem err_no_data_partial (c : Cfg) (p0 : Option Pid) (e0 : Nat) (xs : List In) (x : In)
    (ha : Along (fun y x => Env c y x ∧ Sel y x) c (start p0 e0) xs)
    (ht : (run c (start p0 e0) xs).2.tokErr = true) :
    (out (run c (start p0 e0) xs).1 x).rxVld = false ∧
    ((out (run c (start p0 e0) xs).1 x).cmdVld = true →
      isDataPid (out (run c (start p0 e0) xs).1 x).cmdPid = false) := by
  have hi := run_inv xs _ (init_inv c p0 e0) (along_mono (fun _ _ h => h.1) xs _ ha)
  obtain ⟨h1, h2⟩ := err_run xs _ (by simp [start]) ha ht
  revert hi h1 h2
  generalize run c (start p0 e0) xs = y
  intro hi h1 h2
  have e1 : (y.1.st == Fs.rxData) = false := by simpa using h1
  refine ⟨by simp [out, e1], ?_⟩
  cases hs : y.1.st <;> simp only [out, hs] <;> try (intro h; exact absurd h (by decide))
  · exact absurd hs h2
  · intro _
    split
    · rfl
    · exact hi.hs hs
  · intro _; rfl

example : Along (fun y x => Env cAll y x ∧ Sel y x) cAll (start none 1) [{ hdr .tokOut with hErr := true }] ∧
    (run cAll (start none 1) [{ hdr .tokOut with hErr := true }]).2.tokErr = true :=
  ⟨⟨⟨env_all rfl rfl (by decide) (by decide), fun _ => by decide⟩, trivial⟩, by decide⟩

/-! ## C286: PING -/

/-- Full claim: PING is acknowledged iff there is a space for data. -/
def PingRule : Prop :=
  ∀ (c : Cfg) (s : St) (x z : In), s.st = .idle → x.rst = false → x.hVld = true → x.hErr = false → x.hPid = .ping →
    x.rxStall = false → epTxStall z = false →
    ((out (next c s x) z).cmdPid = some .ack ↔ x.rxReady = true)

/-- It depends on data for the host. -/
theorem ping_fails : ¬ PingRule := by
  intro h
  have := h cAll (init none 1) { hdr .ping with rxReady := true } quiet rfl rfl rfl rfl rfl rfl rfl
  exact absurd (this.2 rfl) (by decide)

/-- ACK is sent also if there is no space. -/
theorem ping_ack_full (c : Cfg) (s : St) (x z : In) (hs : s.st = .idle) (hr : x.rst = false) (hv : x.hVld = true)
    (hp : x.hPid = .ping) (h1 : x.rxStall = false) (h2 : x.txVld = true) (hz : epTxStall z = false) :
    (out (next c s x) z).cmdVld = true ∧ (out (next c s x) z).cmdPid = some .ack := by
  have a : (next c s x).st = .txHs := by simp [next, hr, nextSt, hs, hv, hp]
  have b : (next c s x).txPid = some .ack := by simp [next, nextPid, hs, hv, hp, h1, h2]
  simp [out, a, b, hz]

example : let x := { hdr .ping with txVld := true }
    (init none 1).st = .idle ∧ x.rst = false ∧ x.hVld = true ∧ x.hPid = .ping ∧ x.rxStall = false ∧ x.txVld = true ∧
    x.rxReady = false ∧ epTxStall quiet = false := by decide

/-- PING is always answered, by STALL if the OUT endpoint is stalled; the data of IN side are not touched
unless they carry STALL. -/
theorem ping_answer_partial (c : Cfg) (s : St) (x z : In) (hs : s.st = .idle) (hr : x.rst = false)
    (hv : x.hVld = true) (hp : x.hPid = .ping) :
    (out (next c s x) z).cmdVld = true ∧ (x.rxStall = true → (out (next c s x) z).cmdPid = some .stall) ∧
    (epTxStall z = false → (out (next c s x) z).txRdy = false) := by
  have a : (next c s x).st = .txHs := by simp [next, hr, nextSt, hs, hv, hp]
  refine ⟨by simp [out, a], fun h => ?_, fun h => ?_⟩
  · have b : (next c s x).txPid = some .stall := by simp [next, nextPid, hs, hv, hp, h]
    simp [out, a, b]
  · simp [out, a, h, beq_fs]

/-! ## C287: answer of received data -/

/-- Full claim: data which were delivered to the endpoint without error are acknowledged. -/
def OutAcked : Prop :=
  ∀ (c : Cfg) (s : St) (x : In) (ws : List In) (z : In), x.rst = false → rxEnd c s x = true →
    (∀ w ∈ ws, w.rst = false ∧ w.cmdRdy = false) →
    (out (runS c s (x :: ws)) z).cmdVld = true ∧ (out (runS c s (x :: ws)) z).cmdPid = some .ack

def rxSt : St := { init none 1 with st := .rxData }

/-- STALL of IN direction replaces ACK of delivered data. -/
theorem out_acked_fails : ¬ OutAcked := by
  intro h
  have := h cAll rxSt outLast [] { quiet with txVld := true, txStall := true } rfl (by decide) (by decide)
  exact absurd this.2 (by decide)

theorem hs_wait (c : Cfg) : ∀ (ws : List In) (s : St), s.st = .txHs → (∀ w ∈ ws, w.rst = false ∧ w.cmdRdy = false) →
    (runS c s ws).st = .txHs ∧ (runS c s ws).txPid = s.txPid
  | [], _, h, _ => ⟨h, rfl⟩
  | w :: ws, s, h, hw => by
    obtain ⟨h1, h2⟩ := hw w (List.mem_cons_self ..)
    have a : (next c s w).st = .txHs := by simp [next, h1, nextSt, h, h2]
    have b : (next c s w).txPid = s.txPid := by simp [next, nextPid, h]
    obtain ⟨r1, r2⟩ := hs_wait c ws (next c s w) a fun w hm => hw w (List.mem_cons_of_mem _ hm)
    exact ⟨r1, r2.trans b⟩

/-- ACK is offered until it is taken by SIE if IN direction of the endpoint does not stall. -/
theorem out_acked_partial (c : Cfg) (s : St) (x : In) (ws : List In) (z : In) (hr : x.rst = false)
    (hx : rxEnd c s x = true) (hw : ∀ w ∈ ws, w.rst = false ∧ w.cmdRdy = false) (hz : epTxStall z = false) :
    (out (runS c s (x :: ws)) z).cmdVld = true ∧ (out (runS c s (x :: ws)) z).cmdPid = some .ack ∧
    (out (runS c s (x :: ws)) z).cmdLast = true := by
  simp only [rxEnd, Bool.and_eq_true, beq_iff_eq, Bool.not_eq_true'] at hx
  obtain ⟨⟨⟨⟨h1, h2⟩, h3⟩, h4⟩, h5⟩ := hx
  have a : (next c s x).st = .txHs := by simp [next, hr, nextSt, h1, h2, h3, h4, h5]
  have b : (next c s x).txPid = some .ack := by simp [next, nextPid, h1, h2, h3, h4, h5]
  obtain ⟨r1, r2⟩ := hs_wait c ws _ a hw
  show (out (runS c (next c s x) ws) z).cmdVld = true ∧ (out (runS c (next c s x) ws) z).cmdPid = some .ack ∧
    (out (runS c (next c s x) ws) z).cmdLast = true
  simp [out, r1, r2, b, hz]

example : outLast.rst = false ∧ rxEnd cAll rxSt outLast = true ∧
    (∀ w ∈ [{ quiet with cmdRdy := false }], w.rst = false ∧ w.cmdRdy = false) ∧ epTxStall quiet = false := by decide

/-! ## C288: each IN token is answered -/

/-- Full claim: an IN token which comes when the device does not transmit is answered in the next cycle. -/
def InAnswered : Prop :=
  ∀ (c : Cfg) (p0 : Option Pid) (e0 : Nat) (xs : List In) (x z : In),
    Along (Env c) c (start p0 e0) (xs ++ [x]) → x.rst = false → x.hVld = true → x.hErr = false → x.hPid = .tokIn →
    (x.txVld = true → z.txVld = true) →
    (out (run c (start p0 e0) (xs ++ [x])).1 z).cmdVld = true

/-- If the data packet after OUT token is lost, the next token is not answered, and also no other token until the
end of some data packet. -/
theorem lost_data_deaf (c : Cfg) (s : St) (t x : In) (ys : List In) (z : In) (hs : s.st = .idle)
    (ht : t.rst = false ∧ t.hVld = true ∧ t.hPid = .tokOut ∧ t.rxReady = true ∧ t.rxStall = false)
    (hx : x.rst = false ∧ x.hVld = true ∧ isToken x.hPid = true)
    (hy : ∀ y ∈ ys, y.rst = false ∧ (y.dVld && y.dLast) = false) :
    (out (runS c s (t :: x :: ys)) z).cmdVld = false ∧ (out (runS c s (t :: x :: ys)) z).rxVld = false := by
  obtain ⟨t1, t2, t3, t5, t6⟩ := ht
  obtain ⟨x1, x2, x3⟩ := hx
  have a1 : (next c s t).st = .rxData := by simp [next, t1, nextSt, hs, t2, t3, t5, t6]
  have a2 : (next c (next c s t) x).st = .rxIgnoreNoResp := by
    have : outPidErr c (next c s t) x = true := by
      simp only [outPidErr, x2, bne_pid]
      have a : x.hPid ≠ .data0 := by intro h; rw [h] at x3; exact absurd x3 (by decide)
      have b : x.hPid ≠ .data1 := by intro h; rw [h] at x3; exact absurd x3 (by decide)
      cases outB c (next c s t) x <;> simp [a, b]
    generalize next c s t = s2 at a1 this
    simp [next, x1, nextSt, a1, this]
  exact (deaf c ys _ (.inl a2) hy).2.2.2 z

example : (init none 1).st = .idle ∧
    (outTok.rst = false ∧ outTok.hVld = true ∧ outTok.hPid = .tokOut ∧ outTok.rxReady = true ∧ outTok.rxStall = false) ∧
    (inTok.rst = false ∧ inTok.hVld = true ∧ isToken inTok.hPid = true) ∧
    (∀ y ∈ [quiet, inTok, hdr .tokSetup], y.rst = false ∧ (y.dVld && y.dLast) = false) := by decide

theorem in_answered_fails : ¬ InAnswered := by
  intro h
  have := h cAll none 1 [outTok] inTok inWord
    ⟨env_all rfl rfl (by decide) (by decide), env_all rfl rfl (by decide) (by decide), trivial⟩ rfl rfl rfl rfl
    (fun _ => rfl)
  exact absurd this (by decide)

/-- In RX_IDLE an IN token is answered in the next cycle: by STALL, by data if there are some, or by NACK. -/
theorem in_answered_partial (c : Cfg) (s : St) (x z : In) (hs : s.st = .idle) (hr : x.rst = false)
    (hv : x.hVld = true) (hp : x.hPid = .tokIn) (hz : x.txVld = true → z.txVld = true) :
    (out (next c s x) z).cmdVld = true ∧
    (x.txVld = true → x.txStall = true → (out (next c s x) z).cmdPid = some .stall) ∧
    (x.txVld = true → x.txStall = false → isDataPid (out (next c s x) z).cmdPid = true) ∧
    (x.txVld = false → epTxStall z = false → (out (next c s x) z).cmdPid = some .nack) := by
  cases h1 : x.txVld
  · have a : (next c s x).st = .txHs := by simp [next, hr, nextSt, hs, hv, hp, h1]
    have b : (next c s x).txPid = some .nack := by simp [next, nextPid, hs, hv, hp, h1, epTxStall]
    exact ⟨by simp [out, a], by simp, by simp, fun _ h => by simp [out, a, b, h]⟩
  · cases h2 : x.txStall
    · have a : (next c s x).st = .txData := by simp [next, hr, nextSt, hs, hv, hp, h1, h2, epTxStall]
      have b : (next c s x).txPid = some (dataPid (inB c s x)) := by
        simp [next, nextPid, hs, hv, hp, h1, h2, epTxStall]
      exact ⟨by simp [out, a, hz h1], by simp, fun _ _ => by simp [out, a, b, isData_dataPid], by simp⟩
    · have a : (next c s x).st = .txHs := by simp [next, hr, nextSt, hs, hv, hp, h1, h2, epTxStall]
      have b : (next c s x).txPid = some .stall := by simp [next, nextPid, hs, hv, hp, h1, h2, epTxStall]
      exact ⟨by simp [out, a], fun _ _ => by simp [out, a, b], by simp, by simp⟩

example : (init none 1).st = .idle ∧ inTok.rst = false ∧ inTok.hVld = true ∧ inTok.hPid = .tokIn ∧
    (inTok.txVld = true → inWord.txVld = true) := by decide

/-! ## C289: words of IN packets -/

/-- A word is taken from the endpoint exactly when it is sent with data pid, or as STALL if it is a word with
`tx_stall`. -/
theorem tx_words (c : Cfg) (p0 : Option Pid) (e0 : Nat) (xs : List In) (x : In)
    (ha : Along (Env c) c (start p0 e0) xs) :
    ((x.txVld && (out (run c (start p0 e0) xs).1 x).txRdy) = true ↔
      ((out (run c (start p0 e0) xs).1 x).cmdVld && x.cmdRdy) = true ∧
      (isDataPid (out (run c (start p0 e0) xs).1 x).cmdPid = true ∨
        ((out (run c (start p0 e0) xs).1 x).cmdPid = some .stall ∧ x.txVld = true ∧ x.txStall = true))) := by
  have hi := run_inv xs _ (init_inv c p0 e0) ha
  revert hi
  generalize run c (start p0 e0) xs = y
  intro hi
  cases hs : y.1.st <;> simp [out, hs, beq_fs]
  · have := (hi.txd hs).2
    rw [this, isData_dataPid]
    simp
  · have h1 := hi.hs hs
    by_cases h : epTxStall x = true
    · have h' := h
      simp only [epTxStall, Bool.and_eq_true] at h'
      simp [h, h'.1, h'.2]
    · have h2 : ¬ (x.txVld = true ∧ x.txStall = true) := by
        intro h3; apply h; simp [epTxStall, h3.1, h3.2]
      simp [h, h1]
      intro _ _ a
      cases b : x.txStall
      · rfl
      · exact absurd ⟨a, b⟩ h2
  · intro _; decide

example : Along (Env cAll) cAll (start none 1) [inTok] ∧
    (inWord.txVld && (out (run cAll (start none 1) [inTok]).1 inWord).txRdy) = true :=
  ⟨⟨env_all rfl rfl (by decide) (by decide), trivial⟩, by decide⟩

end Verif.UsbEpFsm
