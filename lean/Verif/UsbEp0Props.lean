import Verif.UsbEp0
import Verif.UsbEpFsmProps

/-!
# Properties of the control endpoint of `Usb2DeviceCommon` (C290 - C298)
-/

namespace Verif.UsbEp0

open Verif

/-! ## Observer and environment -/

/-- bytes of the packet which is being received, the last request (the packet which starts a control transfer) -/
structure Obs where
  cur : List Nat
  req : List Nat

def obsNext (s : St) (o : Obs) (x : In) : Obs :=
  if x.rst then ⟨[], o.req⟩
  else if x.rxVld then
    if x.rxLast then ⟨[], if s.stage = .idle then o.cur ++ [x.rxData] else o.req⟩
    else ⟨o.cur ++ [x.rxData], o.req⟩
  else o

abbrev Sys := St × Obs
def sys (c : Cfg) (y : Sys) (x : In) : Sys := (next c y.1 x, obsNext y.1 y.2 x)
def run (c : Cfg) (y : Sys) (xs : List In) : Sys := xs.foldl (sys c) y
def start (a0 d0 : Nat) (r0 : Nat → Nat) : Sys := (init a0 d0 r0, ⟨[], []⟩)

def Along (P : Sys → In → Prop) (c : Cfg) (y : Sys) : List In → Prop
  | [] => True
  | x :: xs => P y x ∧ Along P c (sys c y x) xs

/-- Data come only if the endpoint is ready for them, requests have 8 bytes. -/
structure Env (c : Cfg) (y : Sys) (x : In) : Prop where
  rdy : x.rxVld = true → (out c y.1).rxRdy = true
  len : y.1.stage = .idle → x.rxVld = true → (x.rxLast = true ↔ y.2.cur.length = 7)

/-- byte of a request -/
def byte (p : List Nat) (i : Nat) : Nat := p.getD i 0
def std (p : List Nat) : Bool := byte p 0 / 32 % 4 == 0
def value (p : List Nat) : Nat := byte p 2 + 256 * byte p 3
def index (p : List Nat) : Nat := byte p 4 + 256 * byte p 5
def length (p : List Nat) : Nat := byte p 6 + 256 * byte p 7
def fromDev (p : List Nat) : Bool := byte p 0 / 128 % 2 == 1

def isSetAddr (p : List Nat) : Bool := std p && byte p 1 == 5

structure Inv (y : Sys) : Prop where
  idx : y.1.idx = y.2.cur.length % 8
  cur : y.2.cur.length ≤ 8 → ∀ i, i < y.2.cur.length → y.1.req i = byte y.2.cur i
  setup : y.1.stage = .setup → ∀ i, i < 8 → y.1.req i = byte y.2.req i
  addr : y.1.stage = .dataSet ∨ y.1.stage = .statusIn →
    y.1.addrNext = if isSetAddr y.2.req then value y.2.req % 128 else y.1.addr

theorem byte_snoc_lt {l : List Nat} {d i : Nat} (h : i < l.length) : byte (l ++ [d]) i = byte l i := by
  simp [byte, List.getD_eq_getElem?_getD, List.getElem?_append_left h]

theorem byte_snoc_eq (l : List Nat) (d : Nat) : byte (l ++ [d]) l.length = d := by
  simp [byte, List.getD_eq_getElem?_getD]

theorem init_inv (a0 d0 r0) : Inv (start a0 d0 r0) := by
  constructor <;> simp [start, init]

theorem req_step {y : Sys} {x : In} (hi : Inv y) (hl : y.2.cur.length < 8) :
    ∀ i, i < y.2.cur.length + 1 → upd y.1.req y.1.idx x.rxData i = byte (y.2.cur ++ [x.rxData]) i := by
  intro i h
  rw [hi.idx, Nat.mod_eq_of_lt hl]
  by_cases he : i = y.2.cur.length
  · subst he; rw [upd_same, byte_snoc_eq]
  · rw [upd_ne _ _ _ _ he, byte_snoc_lt (by omega)]
    exact hi.cur (by omega) i (by omega)

/-- the result of decoding depends only on the 8 bytes -/
theorem decode_addr (c : Cfg) (r : Nat → Nat) (x : In) (d : Dec) (p : List Nat) (h : ∀ i, i < 8 → r i = byte p i) :
    (decode c r x d).addrNext = if isSetAddr p then value p % 128 else d.addrNext := by
  have hv : value p = wValue r := by
    rw [value, wValue, h 2 (by decide), h 3 (by decide)]
  have ht : std p = (rType r == 0) := by rw [std, rType, h 0 (by decide)]
  rw [isSetAddr, hv, ht, ← h 1 (by decide)]
  unfold decode
  by_cases h0 : rType r = 0
  · by_cases h5 : r 1 = 5
    · simp [h0, h5]
    · simp only [h0, h5, if_true, if_false, beq_self_eq_true]
      simp only [show (r 1 == 5) = false by simpa using h5, Bool.and_false, Bool.false_eq_true, if_false]
      unfold getDescr
      repeat' (first | rfl | split)
  · simp only [h0, if_false]
    simp only [show (rType r == 0) = false by simpa using h0, Bool.false_and, Bool.false_eq_true, if_false]
    repeat' (first | rfl | split)

theorem step_inv {c : Cfg} {y : Sys} {x : In} (hi : Inv y) (he : Env c y x) : Inv (sys c y x) := by
  cases hr : x.rst
  · refine ⟨?_, ?_, ?_, ?_⟩
    · simp only [sys, next, hr, obsNext, hi.idx]
      cases x.rxVld <;> cases x.rxLast <;> simp [Nat.add_mod]
    · simp only [sys, next, hr, obsNext]
      cases hv : x.rxVld
      · simp; exact hi.cur
      · cases x.rxLast
        · simp only [if_true]
          intro h
          simpa using req_step hi (by simp at h; omega)
        · simp
    · -- SETUP
      intro h
      have h' : (nextCore c y.1 x).stage = .setup := by simpa [sys, next, hr] using h
      have : y.1.stage = .idle ∧ x.rxVld = true ∧ x.rxLast = true := by
        revert h'
        unfold nextCore
        cases hs : y.1.stage <;> simp only <;> repeat' split
        all_goals simp_all
      obtain ⟨h1, h2, h3⟩ := this
      have hl : y.2.cur.length = 7 := (he.len h1 h2).1 h3
      have := req_step (x := x) hi (by omega)
      simp only [sys, next, hr, obsNext, h1, h2, h3]
      intro i hi'
      simpa using this i (by omega)
    · -- DATA_SET, STATUS_IN
      intro h
      have h' : (nextCore c y.1 x).stage = .dataSet ∨ (nextCore c y.1 x).stage = .statusIn := by
        simpa [sys, next, hr] using h
      have hst : y.1.stage = .setup ∨ y.1.stage = .dataSet ∨ y.1.stage = .statusIn := by
        revert h'
        unfold nextCore
        cases hs : y.1.stage <;> simp only <;> repeat' split
        all_goals simp_all
      have hreq : (sys c y x).2.req = y.2.req := by
        have : y.1.stage ≠ .idle := by rcases hst with h | h | h <;> rw [h] <;> decide
        simp only [sys, obsNext, hr]
        cases x.rxVld <;> cases x.rxLast <;> simp [this]
      rw [hreq]
      rcases hst with hs | hs | hs
      · have := decode_addr c y.1.req x ⟨y.1.addr, y.1.stall, y.1.configured, y.1.daddr, y.1.len⟩ y.2.req (hi.setup hs)
        simpa [sys, next, hr, nextCore, hs] using this
      · have h1 := hi.addr (.inl hs)
        have e1 : (nextCore c y.1 x).addrNext = y.1.addrNext := by
          simp only [nextCore, hs]
          repeat' split
          all_goals rfl
        have e2 : (nextCore c y.1 x).addr = y.1.addr := by
          simp only [nextCore, hs]
          repeat' split
          all_goals rfl
        simp only [sys, next, hr, e1, e2]
        exact h1
      · have h1 := hi.addr (.inr hs)
        cases ht : x.txRdy
        · simpa [sys, next, hr, nextCore, hs, ht] using h1
        · simp [nextCore, hs, ht] at h'
  · refine ⟨?_, ?_, ?_, ?_⟩ <;> simp [sys, next, hr, obsNext]

theorem run_inv {c : Cfg} : ∀ (xs : List In) (y : Sys), Inv y → Along (Env c) c y xs → Inv (run c y xs)
  | [], _, hi, _ => hi
  | x :: xs, y, hi, ⟨h, ha⟩ => run_inv xs (sys c y x) (step_inv hi h) ha

/-- The registers agree with the packet. -/
structure Agree (r : Nat → Nat) (p : List Nat) : Prop where
  val : wValue r = value p
  ind : wIndex r = index p
  len : wLength r = length p
  typ : (rType r = 0) ↔ std p = true
  ty : rType r = byte p 0 / 32 % 4
  get : isGet r = fromDev p
  b1 : r 1 = byte p 1
  b2 : r 2 = byte p 2
  b3 : r 3 = byte p 3

theorem agree {r : Nat → Nat} {p : List Nat} (h : ∀ i, i < 8 → r i = byte p i) : Agree r p := by
  constructor
  · rw [value, wValue, h 2 (by decide), h 3 (by decide)]
  · rw [index, wIndex, h 4 (by decide), h 5 (by decide)]
  · rw [length, wLength, h 6 (by decide), h 7 (by decide)]
  · rw [std, rType, h 0 (by decide), beq_iff_eq]
  · rw [rType, h 0 (by decide)]
  · rw [isGet, fromDev, h 0 (by decide)]
  all_goals exact h _ (by decide)

/-- A reachable state in which the last byte of a request comes; `p` is the request. -/
structure ReqAt (c : Cfg) (y : Sys) (x : In) (p : List Nat) : Prop where
  reach : ∃ a0 d0 r0 xs, Along (Env c) c (start a0 d0 r0) xs ∧ y = run c (start a0 d0 r0) xs
  idle : y.1.stage = .idle
  vld : x.rxVld = true
  last : x.rxLast = true
  rst : x.rst = false
  pkt : p = y.2.cur ++ [x.rxData]
  len : p.length = 8

/-- no reset and no data from the host -/
def Calm (x : In) : Prop := x.rst = false ∧ x.rxVld = false

theorem at_setup {c : Cfg} {y : Sys} {x : In} {p : List Nat} (h : ReqAt c y x p) :
    (next c y.1 x).stage = .setup ∧ Agree (next c y.1 x).req p ∧ (next c y.1 x).addr = y.1.addr ∧
    (next c y.1 x).stall = y.1.stall ∧ (next c y.1 x).configured = y.1.configured ∧ (next c y.1 x).len = y.1.len := by
  obtain ⟨a0, d0, r0, xs, ha, rfl⟩ := h.reach
  have hi := run_inv xs _ (init_inv a0 d0 r0) ha
  have h1 := h.idle
  have h2 := h.vld
  have h3 := h.last
  have h4 := h.rst
  have hl : (run c (start a0 d0 r0) xs).2.cur.length = 7 := by
    have := h.len
    rw [h.pkt, List.length_append] at this
    simpa using this
  refine ⟨by simp [next, h4, nextCore, h1, h2, h3], agree ?_, ?_⟩
  · intro i hi8
    have := req_step (x := x) hi (by omega) i (by omega)
    simp only [next, h4, h2]
    rw [h.pkt]
    simpa using this
  · simp [next, h4, nextCore, h1, h2, h3]

def runS (c : Cfg) (s : St) (xs : List In) : St := xs.foldl (next c) s

/-! ## Example: device with two strings, packets of 8 bytes -/

def cEx : Cfg where
  maxp := 8
  rom := fun a => a
  device := (0, 18)
  config := (18, 32)
  strings := [(50, 4), (54, 10)]
  lineCoding := none

def calm : In := ⟨false, false, false, 0, false, 0, 0⟩
def rxB (d : Nat) (last : Bool) : In := { calm with rxVld := true, rxData := d, rxLast := last }
def txR : In := { calm with txRdy := true }
/-- request without the last byte -/
def req7 (p : List Nat) : List In := (p.take 7).map fun d => rxB d false
def reqAll (p : List Nat) : List In := req7 p ++ [rxB (byte p 7) true]

def start0 : Sys := start 0 0 (fun _ => 0)

theorem reqAt_ex (p : List Nat) (h : p.length = 8) : ReqAt cEx (run cEx start0 (req7 p)) (rxB (byte p 7) true) p := by
  match p, h with
  | [a, b, c, d, e, f, g, i], _ =>
    refine ⟨⟨0, 0, fun _ => 0, _, ?_, rfl⟩, rfl, rfl, rfl, rfl, rfl, rfl⟩
    refine ⟨⟨?_, ?_⟩, ⟨?_, ?_⟩, ⟨?_, ?_⟩, ⟨?_, ?_⟩, ⟨?_, ?_⟩, ⟨?_, ?_⟩, ⟨?_, ?_⟩, trivial⟩ <;>
      first
      | exact fun _ => rfl
      | exact fun _ _ => ⟨fun h => absurd h Bool.false_ne_true, fun h => absurd h (by simp [start, sys, obsNext, rxB, calm])⟩

/-! ## C290: address -/

/-- After a reset of the bus the device has the default address and waits for a request. -/
theorem addr_reset (c : Cfg) (s : St) (x : In) (h : x.rst = true) :
    (out c (next c s x)).addr = 0 ∧ (out c (next c s x)).stall = false ∧ (next c s x).configured = false ∧
    (next c s x).stage = .idle := by
  simp [out, next, h]

/-- The address of the device changes only when the zero length packet of the status stage is taken, the request was
SET_ADDRESS, and the new address is in it. -/
theorem addr_change (c : Cfg) (a0 d0 : Nat) (r0 : Nat → Nat) (xs : List In) (x : In)
    (ha : Along (Env c) c (start a0 d0 r0) xs) (hr : x.rst = false)
    (hc : (out c (run c (start a0 d0 r0) (xs ++ [x])).1).addr ≠ (out c (run c (start a0 d0 r0) xs).1).addr) :
    (out c (run c (start a0 d0 r0) xs).1).txVld = true ∧ x.txRdy = true ∧
    (out c (run c (start a0 d0 r0) xs).1).txKeep = false ∧ (out c (run c (start a0 d0 r0) xs).1).txLast = true ∧
    isSetAddr (run c (start a0 d0 r0) xs).2.req = true ∧
    (out c (run c (start a0 d0 r0) (xs ++ [x])).1).addr = value (run c (start a0 d0 r0) xs).2.req % 128 := by
  have hi := run_inv xs _ (init_inv a0 d0 r0) ha
  have e : run c (start a0 d0 r0) (xs ++ [x]) = sys c (run c (start a0 d0 r0) xs) x := by simp [run]
  rw [e] at hc ⊢
  revert hi hc
  generalize run c (start a0 d0 r0) xs = y
  intro hc hi
  have h1 : y.1.stage = .statusIn ∧ x.txRdy = true := by
    revert hc
    simp only [out, sys, next, hr, nextCore]
    cases hs : y.1.stage <;> simp only <;> repeat' split
    all_goals simp_all
  obtain ⟨h1, h2⟩ := h1
  have h3 := hi.addr (.inr h1)
  have h4 : (out c (sys c y x).1).addr = y.1.addrNext := by simp [out, sys, next, hr, nextCore, h1, h2]
  rw [h4] at hc ⊢
  have h5 : isSetAddr y.2.req = true := by
    cases h : isSetAddr y.2.req
    · rw [h] at h3
      exact absurd h3 hc
    · rfl
  rw [h5] at h3
  exact ⟨by simp [out, h1], h2, by simp [out, h1], by simp [out, h1], h5, h3⟩

theorem statusIn_wait (c : Cfg) : ∀ (ws : List In) (s : St), s.stage = .statusIn →
    (∀ w ∈ ws, w.rst = false ∧ w.txRdy = false) →
    (runS c s ws).stage = .statusIn ∧ (runS c s ws).addrNext = s.addrNext ∧ (runS c s ws).addr = s.addr
  | [], _, h, _ => ⟨h, rfl, rfl⟩
  | w :: ws, s, h, hw => by
    obtain ⟨h1, h2⟩ := hw w (List.mem_cons_self ..)
    obtain ⟨r1, r2, r3⟩ := statusIn_wait c ws (next c s w) (by simp [next, h1, nextCore, h, h2])
      fun w hm => hw w (List.mem_cons_of_mem _ hm)
    exact ⟨r1, r2.trans (by simp [next, h1, nextCore, h, h2]), r3.trans (by simp [next, h1, nextCore, h, h2])⟩

/-- SET_ADDRESS without data: the old address is used until the status stage ends, then the new one. -/
theorem set_address (c : Cfg) (y : Sys) (x0 x1 z : In) (p : List Nat) (ws : List In) (h : ReqAt c y x0 p)
    (hp : isSetAddr p = true) (hd : fromDev p = false) (hl : length p = 0) (h1 : Calm x1)
    (hw : ∀ w ∈ ws, w.rst = false ∧ w.txRdy = false) (hz : z.rst = false ∧ z.txRdy = true) :
    (out c (runS c y.1 (x0 :: x1 :: ws))).addr = (out c y.1).addr ∧
    (out c (runS c y.1 (x0 :: x1 :: ws ++ [z]))).addr = value p % 128 := by
  obtain ⟨e1, e2, e3, _⟩ := at_setup h
  generalize hs : next c y.1 x0 = s at e1 e2 e3
  simp only [isSetAddr, Bool.and_eq_true, beq_iff_eq] at hp
  have f1 : (next c s x1).stage = .statusIn := by simp [next, h1.1, nextCore, e1, e2.get, hd, e2.len, hl]
  have f2 : (next c s x1).addrNext = value p % 128 := by
    simp [next, h1.1, nextCore, e1, decode, e2.typ.2 hp.1, e2.b1, hp.2, e2.val]
  have f3 : (next c s x1).addr = s.addr := by simp [next, h1.1, nextCore, e1]
  obtain ⟨g1, g2, g3⟩ := statusIn_wait c ws _ f1 hw
  have r1 : runS c y.1 (x0 :: x1 :: ws) = runS c (next c s x1) ws := by simp [runS, hs]
  have r2 : runS c y.1 (x0 :: x1 :: ws ++ [z]) = next c (runS c (next c s x1) ws) z := by simp [runS, hs]
  rw [r1, r2]
  generalize runS c (next c s x1) ws = t at g1 g2 g3
  refine ⟨?_, ?_⟩
  · show t.addr = y.1.addr
    rw [g3, f3, e3]
  · rw [f2] at g2
    simp [out, next, hz.1, nextCore, g1, hz.2, g2]

/-- SET_ADDRESS 5 -/
example : let p := [0, 5, 5, 0, 0, 0, 0, 0]
    ReqAt cEx (run cEx start0 (req7 p)) (rxB (byte p 7) true) p ∧ isSetAddr p = true ∧ fromDev p = false ∧
    length p = 0 ∧ Calm calm ∧ (∀ w ∈ [calm], w.rst = false ∧ w.txRdy = false) ∧ txR.rst = false ∧ txR.txRdy = true ∧
    (out cEx (run cEx start0 (reqAll p ++ [calm, calm, txR])).1).addr = 5 :=
  ⟨reqAt_ex _ rfl, rfl, rfl, rfl, ⟨rfl, rfl⟩, by decide, rfl, rfl, by decide⟩

/-! ## C291: descriptors -/

abbrev Word := Option Nat × Bool × Bool

/-- words which are taken from `ep0.tx` -/
def sent (c : Cfg) (s : St) : List In → List Word
  | [] => []
  | x :: xs =>
    (if (out c s).txVld && x.txRdy then [((out c s).txData, (out c s).txKeep, (out c s).txLast)] else []) ++
      sent c (next c s x) xs

/-- number of cycles in which a word can be taken -/
def rdys (xs : List In) : Nat := (xs.filter (·.txRdy)).length

theorem rdys_cons (x : In) (xs : List In) : rdys (x :: xs) = (if x.txRdy then 1 else 0) + rdys xs := by
  cases h : x.txRdy <;> simp [rdys, h]
  omega

/-- sizes of packets of endpoints (`USB_2_0_PACKET_SIEZES`) -/
def Size (c : Cfg) : Prop := c.maxp ∈ [8, 16, 32, 64, 128, 256, 512]

theorem size_facts {c : Cfg} (h : Size c) : cntMod c = c.maxp ∧ 2 ≤ c.maxp ∧ 65536 % c.maxp = 0 := by
  unfold cntMod
  simp only [Size, List.mem_cons, List.not_mem_nil, or_false] at h
  rcases h with h | h | h | h | h | h | h <;> rw [h] <;> decide

/-- the word with index `i` of response with `n` bytes from the address `a` -/
def descrWord (c : Cfg) (a n i : Nat) : Word :=
  (some (c.rom ((a + i) % 256)), true, decide ((i + 1) % c.maxp = 0) || decide (i + 1 = n))

theorem succ_mod {j m : Nat} (hm : 2 ≤ m) : (j % m = m - 1) ↔ (j + 1) % m = 0 := by
  have h1 : j % m < m := Nat.mod_lt _ (by omega)
  have h2 : (j + 1) % m = (j % m + 1) % m := by simp
  constructor
  · intro h
    rw [h2, h, show m - 1 + 1 = m by omega, Nat.mod_self]
  · intro h
    rw [h2] at h
    by_cases hlt : j % m + 1 < m
    · rw [Nat.mod_eq_of_lt hlt] at h
      omega
    · omega

/-- State after `j` words of `n`. -/
structure GetAt (c : Cfg) (a n j : Nat) (s : St) : Prop where
  stage : s.stage = .dataGet
  stall : s.stall = false
  len : s.len = n - j
  cntr : s.cntr = j % c.maxp
  daddr : s.daddr = (a + j) % 256

theorem statusOut_wait (c : Cfg) : ∀ (xs : List In) (s : St), s.stage = .statusOut → (∀ x ∈ xs, Calm x) →
    sent c s xs = [] ∧ (runS c s xs).stage = .statusOut
  | [], _, h, _ => ⟨rfl, h⟩
  | x :: xs, s, h, hx => by
    have h1 := hx x (List.mem_cons_self ..)
    obtain ⟨r1, r2⟩ := statusOut_wait c xs (next c s x) (by simp [next, h1.1, nextCore, h, h1.2])
      fun w hm => hx w (List.mem_cons_of_mem _ hm)
    exact ⟨by simp [sent, r1, out, h], r2⟩

theorem get_core (c : Cfg) (hc : Size c) (a n : Nat) (hn : n < 65536) (hm : n % c.maxp ≠ 0) :
    ∀ (xs : List In) (s : St) (j : Nat), GetAt c a n j s → j < n → (∀ x ∈ xs, Calm x) →
    sent c s xs = (List.range' j (min (rdys xs) (n - j))).map (descrWord c a n) ∧
    (runS c s xs).stage = if n - j ≤ rdys xs then .statusOut else .dataGet
  | [], s, j, h, hj, _ => by
    refine ⟨by simp [sent, rdys], ?_⟩
    have : ¬ (n - j ≤ rdys []) := by simp [rdys]; omega
    rw [if_neg this]
    exact h.stage
  | x :: xs, s, j, h, hj, hx => by
    obtain ⟨f1, f2, f3⟩ := size_facts hc
    have h1 := hx x (List.mem_cons_self ..)
    have hx' : ∀ x ∈ xs, Calm x := fun w hm => hx w (List.mem_cons_of_mem _ hm)
    have hst := h.stage
    cases ht : x.txRdy
    · have hnext : GetAt c a n j (next c s x) := by
        have : next c s x = s := by
          simp [next, h1.1, h1.2, nextCore, hst, ht]
          rw [← hst]
        rw [this]; exact h
      obtain ⟨r1, r2⟩ := get_core c hc a n hn hm xs (next c s x) j hnext hj hx'
      refine ⟨?_, ?_⟩
      · rw [sent, r1, rdys_cons, ht]
        simp
      · rw [rdys_cons, ht]
        simpa [runS] using r2
    · have hw : ((out c s).txData, (out c s).txKeep, (out c s).txLast) = descrWord c a n j := by
        simp only [out, hst, if_true, descrWord, h.len, h.cntr, h.daddr]
        refine Prod.ext rfl (Prod.ext ?_ ?_)
        · simp; omega
        · show (decide (n - j < 2) || j % c.maxp == c.maxp - 1) = _
          have e1 : decide (n - j < 2) = decide (j + 1 = n) := by
            apply decide_eq_decide.2; omega
          have e2 : (j % c.maxp == c.maxp - 1) = decide ((j + 1) % c.maxp = 0) := by
            rw [Bool.eq_iff_iff, beq_iff_eq, decide_eq_true_iff]
            exact succ_mod f2
          rw [e1, e2, Bool.or_comm]
      have hv : (out c s).txVld = true := by simp [out, hst]
      have hs : sent c s (x :: xs) = descrWord c a n j :: sent c (next c s x) xs := by
        rw [sent, hv, ht, hw]; rfl
      by_cases hl : j + 1 = n
      · -- the last word
        have hnx : (next c s x).stage = .statusOut := by
          have e1 : s.len = 1 := by rw [h.len]; omega
          have e2 : s.cntr ≠ c.maxp - 1 := by
            rw [h.cntr]
            intro h'
            exact hm (hl ▸ (succ_mod f2).1 h')
          simp [next, h1.1, nextCore, hst, ht, h.stall, e1, e2]
        obtain ⟨r1, r2⟩ := statusOut_wait c xs _ hnx hx'
        refine ⟨?_, ?_⟩
        · rw [hs, r1, rdys_cons, ht]
          have : min ((if true = true then 1 else 0) + rdys xs) (n - j) = 1 := by simp; omega
          rw [this]
          rfl
        · rw [rdys_cons, ht, if_pos (by simp; omega)]
          exact r2
      · have hg : GetAt c a n (j + 1) (next c s x) := by
          have e1 : ¬ (s.len < 2 ∧ (s.cntr ≠ c.maxp - 1 ∧ s.len = 1)) := by rw [h.len]; omega
          have e : next c s x = { s with daddr := (s.daddr + 1) % 256, cntr := (s.cntr + 1) % cntMod c,
                                         len := (s.len + 65535) % 65536 } := by
            simp only [next, h1.1, h1.2, nextCore, hst, ht, h.stall, if_neg e1]
            rfl
          rw [e]
          refine ⟨hst, h.stall, ?_, ?_, ?_⟩
          · show (s.len + 65535) % 65536 = _
            rw [h.len]; omega
          · show (s.cntr + 1) % cntMod c = _
            rw [f1, h.cntr]; simp
          · show (s.daddr + 1) % 256 = _
            rw [h.daddr]; simp [Nat.add_assoc]
        obtain ⟨r1, r2⟩ := get_core c hc a n hn hm xs (next c s x) (j + 1) hg (by omega) hx'
        refine ⟨?_, ?_⟩
        · rw [hs, r1, rdys_cons, ht]
          have : min ((if true = true then 1 else 0) + rdys xs) (n - j) = min (rdys xs) (n - (j + 1)) + 1 := by
            simp; omega
          rw [this, List.range'_succ]
          rfl
        · rw [rdys_cons, ht]
          show (runS c (next c s x) xs).stage = _
          rw [r2]
          by_cases h' : n - (j + 1) ≤ rdys xs
          · rw [if_pos h', if_pos (by simp; omega)]
          · rw [if_neg h', if_neg (by simp; omega)]

/-- GET_DESCRIPTOR of type `t` from `(a, n)` in ROM -/
structure GetReq (c : Cfg) (p : List Nat) (d : Nat × Nat) : Prop where
  std : std p = true
  req : byte p 1 = 6
  dir : fromDev p = true
  typ : (byte p 3 = 1 ∧ d = c.device) ∨ (byte p 3 = 2 ∧ d = c.config)
  len : 0 < min (length p) d.2
  len16 : length p < 65536
  rom : d.1 < 256

theorem get_start (c : Cfg) (y : Sys) (x0 x1 : In) (p : List Nat) (d : Nat × Nat) (h : ReqAt c y x0 p)
    (hg : GetReq c p d) (h1 : Calm x1) : GetAt c d.1 (min (length p) d.2) 0 (runS c y.1 [x0, x1]) := by
  obtain ⟨e1, e2, e3, _⟩ := at_setup h
  show GetAt c d.1 (min (length p) d.2) 0 (next c (next c y.1 x0) x1)
  generalize next c y.1 x0 = s at e1 e2 e3
  have hl : length p ≠ 0 := by have := hg.len; omega
  have ht := e2.typ.2 hg.std
  rcases hg.typ with ⟨h3, hd⟩ | ⟨h3, hd⟩ <;> subst hd <;>
    refine ⟨?_, ?_, ?_, ?_, ?_⟩ <;>
    simp [next, h1.1, nextCore, e1, decode, ht, getDescr, e2.b1, e2.b3, hg.req, h3, e2.get, hg.dir, e2.len, hl,
      Nat.mod_eq_of_lt hg.rom]

/-- Full claim: for every length of the response the descriptor bytes are sent and then the status stage follows. -/
def GetComplete : Prop :=
  ∀ (c : Cfg) (y : Sys) (x0 x1 : In) (p : List Nat) (d : Nat × Nat) (xs : List In), Size c → ReqAt c y x0 p →
    GetReq c p d → Calm x1 → (∀ x ∈ xs, Calm x) → min (length p) d.2 ≤ rdys xs →
    ∃ rest, sent c (runS c y.1 [x0, x1]) xs =
      (List.range (min (length p) d.2)).map (descrWord c d.1 (min (length p) d.2)) ++ rest ∧
      (min (length p) d.2 < rdys xs → (runS c (runS c y.1 [x0, x1]) xs).stage = .statusOut)

/-- The response to GET_DESCRIPTOR (device, configuration): bytes of ROM, at most `wLength`, split to packets of
maximal size, then the status stage; if the length is not a multiple of the size of packet. -/
theorem get_stream_partial (c : Cfg) (y : Sys) (x0 x1 : In) (p : List Nat) (d : Nat × Nat) (xs : List In)
    (hc : Size c) (h : ReqAt c y x0 p) (hg : GetReq c p d) (h1 : Calm x1) (hx : ∀ x ∈ xs, Calm x)
    (hm : min (length p) d.2 % c.maxp ≠ 0) :
    sent c (runS c y.1 [x0, x1]) xs =
      (List.range (min (rdys xs) (min (length p) d.2))).map (descrWord c d.1 (min (length p) d.2)) ∧
    (runS c (runS c y.1 [x0, x1]) xs).stage = if min (length p) d.2 ≤ rdys xs then .statusOut else .dataGet := by
  have hl : min (length p) d.2 < 65536 := by have := hg.len16; omega
  have := get_core c hc d.1 _ hl hm xs _ 0 (get_start c y x0 x1 p d h hg h1) hg.len hx
  simpa [List.range_eq_range'] using this

/-- GET_DESCRIPTOR device with 64 bytes -/
def getDev : List Nat := [0x80, 6, 0, 1, 0, 0, 64, 0]

theorem getDev_ok : GetReq cEx getDev cEx.device :=
  ⟨rfl, rfl, rfl, .inl ⟨rfl, rfl⟩, by decide, by decide, by decide⟩

example : Size cEx ∧ ReqAt cEx (run cEx start0 (req7 getDev)) (rxB (byte getDev 7) true) getDev ∧
    GetReq cEx getDev cEx.device ∧ Calm calm ∧ (∀ x ∈ List.replicate 20 txR, Calm x) ∧
    min (length getDev) cEx.device.2 % cEx.maxp ≠ 0 := by
  refine ⟨by simp [Size, cEx], reqAt_ex _ rfl, getDev_ok, ⟨rfl, rfl⟩, ?_, by decide⟩
  intro x hx
  rw [(List.mem_replicate.1 hx).2]
  exact ⟨rfl, rfl⟩

/-- The data stage with counters which never end it. -/
structure Stuck (c : Cfg) (s : St) : Prop where
  stage : s.stage = .dataGet
  stall : s.stall = false
  cntr : s.cntr < c.maxp
  sum : (s.cntr + s.len) % c.maxp = 0

theorem stuck_step {c : Cfg} (hc : Size c) {s : St} {x : In} (h : Stuck c s) (hr : x.rst = false) :
    Stuck c (next c s x) := by
  obtain ⟨f1, f2, f3⟩ := size_facts hc
  cases ht : x.txRdy
  · have e : nextCore c s x = s := by simp [nextCore, h.stage, ht]
    have e' : next c s x = { s with
      req := if x.rxVld then upd s.req s.idx x.rxData else s.req
      idx := if x.rxVld then (if x.rxLast then 0 else (s.idx + 1) % 8) else s.idx } := by
      simp [next, hr, e]
    rw [e']
    exact ⟨h.stage, h.stall, h.cntr, h.sum⟩
  · have e1 : ¬ (s.len < 2 ∧ (s.cntr ≠ c.maxp - 1 ∧ s.len = 1)) := by
      rintro ⟨_, h1, h2⟩
      have := h.sum
      rw [h2] at this
      have h3 := (succ_mod (j := s.cntr) f2).2 this
      rw [Nat.mod_eq_of_lt h.cntr] at h3
      exact h1 h3
    have e : nextCore c s x = { s with daddr := (s.daddr + 1) % 256, cntr := (s.cntr + 1) % cntMod c,
                                       len := (s.len + 65535) % 65536 } := by
      simp only [nextCore, h.stage, ht, h.stall, if_neg e1]
      rfl
    have hd : c.maxp ∣ 65536 := Nat.dvd_of_mod_eq_zero f3
    refine ⟨?_, ?_, ?_, ?_⟩
    · simp [next, hr, e, h.stage]
    · simp [next, hr, e, h.stall]
    · have : (next c s x).cntr = (s.cntr + 1) % cntMod c := by simp [next, hr, e]
      rw [this, f1]
      exact Nat.mod_lt _ (by omega)
    · have a : (next c s x).cntr = (s.cntr + 1) % c.maxp := by rw [← f1]; simp [next, hr, e]
      have b : (next c s x).len = (s.len + 65535) % 65536 := by simp [next, hr, e]
      rw [a, b, Nat.add_mod, Nat.mod_mod, Nat.mod_mod_of_dvd _ hd, ← Nat.add_mod,
        show s.cntr + 1 + (s.len + 65535) = s.cntr + s.len + 65536 by omega, Nat.add_mod, h.sum, f3]
      simp

theorem stuck_run {c : Cfg} (hc : Size c) : ∀ (xs : List In) (s : St), Stuck c s → (∀ x ∈ xs, x.rst = false) →
    Stuck c (runS c s xs)
  | [], _, h, _ => h
  | x :: xs, s, h, hx => stuck_run hc xs (next c s x) (stuck_step hc h (hx x (List.mem_cons_self ..)))
      fun w hm => hx w (List.mem_cons_of_mem _ hm)

/-- If the length of the response is a multiple of the size of packet, the data stage never ends: the endpoint sends
data for ever and accepts nothing from the host (neither the status stage nor SETUP) until reset. -/
theorem get_multiple_stuck (c : Cfg) (y : Sys) (x0 x1 : In) (p : List Nat) (d : Nat × Nat) (xs : List In)
    (hc : Size c) (h : ReqAt c y x0 p) (hg : GetReq c p d) (h1 : Calm x1) (hx : ∀ x ∈ xs, x.rst = false)
    (hm : min (length p) d.2 % c.maxp = 0) :
    (out c (runS c (runS c y.1 [x0, x1]) xs)).txVld = true ∧
    (out c (runS c (runS c y.1 [x0, x1]) xs)).rxRdy = false := by
  have hs := get_start c y x0 x1 p d h hg h1
  have f2 := (size_facts hc).2.1
  have := stuck_run hc xs _ ⟨hs.stage, hs.stall, by rw [hs.cntr]; exact Nat.mod_lt _ (by omega),
    by rw [hs.cntr, hs.len]; simpa using hm⟩ hx
  simp [out, this.stage]

/-- GET_DESCRIPTOR device with 8 bytes (the first request of many hosts) -/
def getDev8 : List Nat := [0x80, 6, 0, 1, 0, 0, 8, 0]

theorem getDev8_ok : GetReq cEx getDev8 cEx.device :=
  ⟨rfl, rfl, rfl, .inl ⟨rfl, rfl⟩, by decide, by decide, by decide⟩

example : Size cEx ∧ ReqAt cEx (run cEx start0 (req7 getDev8)) (rxB (byte getDev8 7) true) getDev8 ∧
    GetReq cEx getDev8 cEx.device ∧ Calm calm ∧ min (length getDev8) cEx.device.2 % cEx.maxp = 0 :=
  ⟨by simp [Size, cEx], reqAt_ex _ rfl, getDev8_ok, ⟨rfl, rfl⟩, by decide⟩

theorem get_complete_fails : ¬ GetComplete := by
  intro h
  have hx : ∀ x ∈ List.replicate 9 txR, Calm x := by
    intro x hx
    rw [(List.mem_replicate.1 hx).2]
    exact ⟨rfl, rfl⟩
  obtain ⟨rest, _, h2⟩ := h cEx _ _ calm getDev8 _ (List.replicate 9 txR) (by simp [Size, cEx])
    (reqAt_ex getDev8 rfl) getDev8_ok ⟨rfl, rfl⟩ hx (by decide)
  exact absurd (h2 (by decide)) (by decide)

/-! ## C292: length of response -/

/-- Full claim: a response to GET_DESCRIPTOR has at most `wLength` bytes. -/
def LenBounded : Prop :=
  ∀ (c : Cfg) (y : Sys) (x0 x1 : In) (p : List Nat), ReqAt c y x0 p → std p = true → byte p 1 = 6 →
    fromDev p = true → 0 < length p → length p < 65536 → Calm x1 → (runS c y.1 [x0, x1]).stall = false →
    (runS c y.1 [x0, x1]).len ≤ length p

/-- The length of a string is not limited by `wLength`: all its bytes are sent. -/
theorem len_bounded_fails : ¬ LenBounded := by
  intro h
  have := h cEx _ _ calm [0x80, 6, 1, 3, 0, 0, 2, 0] (reqAt_ex _ rfl) rfl rfl rfl (by decide) (by decide) ⟨rfl, rfl⟩
    (by decide)
  exact absurd this (by decide)

/-- All words of a string `(a, n)` are sent whatever `wLength` is. -/
theorem string_ignores_length (c : Cfg) (y : Sys) (x0 x1 : In) (p : List Nat) (a n : Nat) (xs : List In)
    (hc : Size c) (h : ReqAt c y x0 p) (hs : std p = true) (h6 : byte p 1 = 6) (hd : fromDev p = true)
    (h3 : byte p 3 = 3) (hstr : c.strings[byte p 2]? = some (a, n)) (hl : 0 < length p) (ha : a < 256)
    (hn : 0 < n ∧ n < 65536 ∧ n % c.maxp ≠ 0) (h1 : Calm x1) (hx : ∀ x ∈ xs, Calm x) :
    sent c (runS c y.1 [x0, x1]) xs = (List.range (min (rdys xs) n)).map (descrWord c a n) := by
  obtain ⟨e1, e2, e3, _⟩ := at_setup h
  have hg : GetAt c a n 0 (runS c y.1 [x0, x1]) := by
    show GetAt c a n 0 (next c (next c y.1 x0) x1)
    generalize next c y.1 x0 = s at e1 e2 e3
    have ht := e2.typ.2 hs
    have hl' : length p ≠ 0 := by omega
    refine ⟨?_, ?_, ?_, ?_, ?_⟩ <;>
    simp [next, h1.1, nextCore, e1, decode, ht, getDescr, e2.b1, e2.b2, e2.b3, h6, h3, hstr, e2.get, hd, e2.len, hl',
      Nat.mod_eq_of_lt ha]
  have := (get_core c hc a n hn.2.1 hn.2.2 xs _ 0 hg hn.1 hx).1
  simpa [List.range_eq_range'] using this

example : let p := [0x80, 6, 1, 3, 0, 0, 2, 0]
    Size cEx ∧ ReqAt cEx (run cEx start0 (req7 p)) (rxB (byte p 7) true) p ∧ std p = true ∧ byte p 1 = 6 ∧
    fromDev p = true ∧ byte p 3 = 3 ∧ cEx.strings[byte p 2]? = some (54, 10) ∧ 0 < length p ∧ 54 < 256 ∧
    (0 < 10 ∧ 10 < 65536 ∧ 10 % cEx.maxp ≠ 0) ∧ Calm calm :=
  ⟨by simp [Size, cEx], reqAt_ex _ rfl, rfl, rfl, rfl, rfl, rfl, by decide, by decide, by decide, ⟨rfl, rfl⟩⟩

/-! ## C293: stall -/

/-- Full claim: the stall of a not supported request ends with the answer. -/
def StallEnds : Prop :=
  ∀ (c : Cfg) (a0 d0 : Nat) (r0 : Nat → Nat) (xs : List In) (x : In), Along (Env c) c (start a0 d0 r0) xs →
    (out c (run c (start a0 d0 r0) xs).1).stall = true → (out c (run c (start a0 d0 r0) xs).1).txVld = true →
    x.txRdy = true → (out c (next c (run c (start a0 d0 r0) xs).1 x)).stall = false

/-- request of a vendor without data -/
def vendor : List Nat := [0x40, 1, 0, 0, 0, 0, 0, 0]

theorem along_append {P : Sys → In → Prop} {c : Cfg} : ∀ (xs ys : List In) (y : Sys), Along P c y xs →
    Along P c (run c y xs) ys → Along P c y (xs ++ ys)
  | [], _, _, _, h => h
  | x :: xs, ys, y, ⟨h1, h2⟩, h => ⟨h1, along_append xs ys (sys c y x) h2 h⟩

theorem reqAll_along (p : List Nat) (h : p.length = 8) : Along (Env cEx) cEx start0 (reqAll p ++ [calm]) := by
  match p, h with
  | [a, b, c, d, e, f, g, i], _ =>
    refine ⟨⟨?_, ?_⟩, ⟨?_, ?_⟩, ⟨?_, ?_⟩, ⟨?_, ?_⟩, ⟨?_, ?_⟩, ⟨?_, ?_⟩, ⟨?_, ?_⟩, ⟨?_, ?_⟩, ⟨?_, ?_⟩, trivial⟩ <;>
      first
      | exact fun _ => rfl
      | exact fun h => absurd h Bool.false_ne_true
      | exact fun _ h => absurd h Bool.false_ne_true
      | exact fun _ _ => ⟨fun h => absurd h Bool.false_ne_true, fun h => absurd h (by simp [start0, start, sys, obsNext, rxB, calm])⟩
      | exact fun _ _ => ⟨fun _ => rfl, fun _ => rfl⟩

theorem stall_ends_fails : ¬ StallEnds := by
  intro h
  have := h cEx 0 0 (fun _ => 0) (reqAll vendor ++ [calm]) txR (reqAll_along vendor rfl) (by decide) (by decide) rfl
  exact absurd this (by decide)

/-- In the data stage the stall ends with the first word. -/
theorem stall_ends_partial (c : Cfg) (s : St) (x : In) (h : s.stage = .dataGet) (hs : s.stall = true)
    (ht : x.txRdy = true) : (out c (next c s x)).stall = false ∧ (out c (next c s x)).rxRdy = true ∧ (next c s x).stage = .idle := by
  cases hr : x.rst <;> simp [out, next, nextCore, hr, h, hs, ht]

example : (run cEx start0 (reqAll [0xC0, 1, 0, 0, 0, 0, 1, 0] ++ [calm])).1.stage = .dataGet ∧
    (run cEx start0 (reqAll [0xC0, 1, 0, 0, 0, 0, 1, 0] ++ [calm])).1.stall = true ∧ txR.txRdy = true := by decide

/-- no complete packet comes -/
theorem stall_stays (c : Cfg) : ∀ (xs : List In) (s : St), s.stage = .idle → s.stall = true →
    (∀ x ∈ xs, x.rst = false ∧ (x.rxVld && x.rxLast) = false) →
    (runS c s xs).stage = .idle ∧ (out c (runS c s xs)).stall = true
  | [], _, h, hs, _ => ⟨h, hs⟩
  | x :: xs, s, h, hs, hx => by
    obtain ⟨h1, h2⟩ := hx x (List.mem_cons_self ..)
    exact stall_stays c xs (next c s x) (by simp [next, h1, nextCore, h, h2]) (by simp [next, h1, nextCore, h, h2, hs])
      fun w hm => hx w (List.mem_cons_of_mem _ hm)

/-- After a not supported request without data (its status stage was answered) data of any other endpoint are
answered by STALL and a word is lost, until the next request for EP0 (device_common.py:318). -/
theorem stall_leaks (c : Cfg) (s : St) (x : In) (xs : List In) (hs : s.stage = .statusIn) (hst : s.stall = true)
    (hr : x.rst = false) (hrdy : x.txRdy = true)
    (hx : ∀ x ∈ xs, x.rst = false ∧ (x.rxVld && x.rxLast) = false)
    (k : UsbEpFsm.Cfg) (f : UsbEpFsm.St) (t z : UsbEpFsm.In) (b : Bool) (hf : f.st = .idle) (ht1 : t.rst = false)
    (ht2 : t.hVld = true) (ht3 : t.hPid = .tokIn) (ht4 : t.txVld = true)
    (ht5 : t.txStall = ((out c (runS c s (x :: xs))).stall || b)) (hz1 : z.txVld = true) (hz2 : z.cmdRdy = true)
    (hz3 : z.txStall = ((out c (runS c s (x :: xs))).stall || b)) :
    (UsbEpFsm.out (UsbEpFsm.next k f t) z).cmdPid = some .stall ∧
    (UsbEpFsm.out (UsbEpFsm.next k f t) z).txRdy = true := by
  have h1 : (next c s x).stage = .idle := by simp [next, hr, nextCore, hs, hrdy]
  have h2 : (next c s x).stall = true := by simp [next, hr, nextCore, hs, hrdy, hst]
  have h3 := (stall_stays c xs _ h1 h2 hx).2
  have h4 : (out c (runS c s (x :: xs))).stall = true := h3
  rw [h4, Bool.true_or] at ht5 hz3
  have e1 : (UsbEpFsm.next k f t).st = .txHs := by
    simp [UsbEpFsm.next, ht1, UsbEpFsm.nextSt, hf, ht2, ht3, UsbEpFsm.epTxStall, ht4, ht5]
  refine ⟨(UsbEpFsm.in_answered_partial k f t z hf ht1 ht2 ht3 fun _ => hz1).2.1 ht4 ht5, ?_⟩
  simp [UsbEpFsm.out, e1, UsbEpFsm.epTxStall, hz1, hz2, hz3]

example : (run cEx start0 (reqAll vendor ++ [calm])).1.stage = .statusIn ∧
    (run cEx start0 (reqAll vendor ++ [calm])).1.stall = true ∧ txR.rst = false ∧ txR.txRdy = true ∧
    (UsbEpFsm.init none 1).st = .idle ∧
    (let t := { UsbEpFsm.inTok with txStall := true };
      t.rst = false ∧ t.hVld = true ∧ t.hPid = UsbEpFsm.Pid.tokIn ∧ t.txVld = true ∧ t.cmdRdy = true) := by decide

/-! ## C294: SETUP is always accepted -/

/-- Full claim: the endpoint is ready for a request, except of the cycle in which the previous one is processed. -/
def SetupReady : Prop :=
  ∀ (c : Cfg) (a0 d0 : Nat) (r0 : Nat → Nat) (xs : List In), Along (Env c) c (start a0 d0 r0) xs →
    (run c (start a0 d0 r0) xs).1.stage ≠ .setup → (out c (run c (start a0 d0 r0) xs).1).rxRdy = true

theorem setup_ready_fails : ¬ SetupReady := by
  intro h
  have := h cEx 0 0 (fun _ => 0) (reqAll getDev ++ [calm]) (reqAll_along getDev rfl) (by decide)
  exact absurd this (by decide)

/-- If the host stops reading, nothing is accepted for ever. -/
theorem aborted_stuck (c : Cfg) : ∀ (xs : List In) (s : St), s.stage = .dataGet ∨ s.stage = .statusIn →
    (∀ x ∈ xs, x.rst = false ∧ x.txRdy = false) → (out c (runS c s xs)).rxRdy = false
  | [], s, h, _ => by rcases h with h | h <;> simp [out, runS, h] <;> decide
  | x :: xs, s, h, hx => by
    obtain ⟨h1, h2⟩ := hx x (List.mem_cons_self ..)
    exact aborted_stuck c xs (next c s x)
      (by rcases h with h | h <;> simp [next, h1, nextCore, h, h2])
      fun w hm => hx w (List.mem_cons_of_mem _ hm)

/-- A request which comes instead of the status stage is accepted but it is lost. -/
theorem request_lost (c : Cfg) (s : St) (x : In) (hs : s.stage = .statusOut) (hr : x.rst = false)
    (hv : x.rxVld = true) (hl : x.rxLast = true) :
    (out c s).rxRdy = true ∧ (next c s x).stage = .idle ∧ (next c s x).addr = s.addr ∧
    (next c s x).configured = s.configured ∧ (next c s x).stall = s.stall := by
  simp [out, next, hr, nextCore, hs, hv, hl]

example : (run cEx start0 (reqAll [0x80, 6, 0, 1, 0, 0, 1, 0] ++ [calm, txR])).1.stage = .statusOut ∧
    (rxB 0 true).rst = false ∧ (rxB 0 true).rxVld = true ∧ (rxB 0 true).rxLast = true := by decide

/-- The endpoint is ready between transfers and in stages with data from host; a complete request is processed
in the next cycle. -/
theorem setup_ready_partial (c : Cfg) (s : St) (h : s.stage = .idle ∨ s.stage = .dataSet ∨ s.stage = .statusOut) :
    (out c s).rxRdy = true ∧
    (s.stage = .idle → ∀ x, x.rst = false → x.rxVld = true → x.rxLast = true → (next c s x).stage = .setup) := by
  refine ⟨by rcases h with h | h | h <;> simp [out, h], fun h x h1 h2 h3 => by simp [next, h1, nextCore, h, h2, h3]⟩

/-! ## C295: SET_CONFIGURATION -/

theorem decode_conf (c : Cfg) (r : Nat → Nat) (x : In) (d : Dec) (p : List Nat) (h : Agree r p) :
    (decode c r x d).configured =
      if std p && byte p 1 == 9 && (value p == 0 || value p == 1) then value p == 1 else d.configured := by
  rw [← h.b1, ← h.val]
  unfold decode
  by_cases h0 : rType r = 0
  · have hs : std p = true := h.typ.1 h0
    by_cases h9 : r 1 = 9
    · simp only [h0, h9, hs, if_true]
      by_cases a : wValue r = 0
      · simp [a]
      · by_cases b : wValue r = 1
        · simp [b]
        · simp [a, b]
    · simp only [show (r 1 == 9) = false by simpa using h9, Bool.and_false, Bool.false_and, Bool.false_eq_true, if_false,
        h0, if_true, h9]
      unfold getDescr
      repeat' (first | rfl | split)
  · have hs : std p = false := by
      cases hs : std p
      · rfl
      · exact absurd (h.typ.2 hs) h0
    simp only [h0, if_false, hs, Bool.false_and, Bool.false_eq_true]
    repeat' (first | rfl | split)

theorem agree_setup {y : Sys} (hi : Inv y) (h : y.1.stage = .setup) : Agree y.1.req y.2.req := agree (hi.setup h)

/-- `dev_configured` is set by SET_CONFIGURATION 1, cleared by SET_CONFIGURATION 0 and not changed by anything else
(except of reset); it changes in the cycle after the request. -/
theorem configured_change (c : Cfg) (a0 d0 : Nat) (r0 : Nat → Nat) (xs : List In) (x : In)
    (ha : Along (Env c) c (start a0 d0 r0) xs) (hr : x.rst = false) :
    (run c (start a0 d0 r0) (xs ++ [x])).1.configured =
      (let y := run c (start a0 d0 r0) xs
       if y.1.stage = .setup ∧ std y.2.req = true ∧ byte y.2.req 1 = 9 ∧ (value y.2.req = 0 ∨ value y.2.req = 1) then
         value y.2.req == 1
       else y.1.configured) := by
  have hi := run_inv xs _ (init_inv a0 d0 r0) ha
  have e : run c (start a0 d0 r0) (xs ++ [x]) = sys c (run c (start a0 d0 r0) xs) x := by simp [run]
  rw [e]
  revert hi
  generalize run c (start a0 d0 r0) xs = y
  intro hi
  by_cases hs : y.1.stage = .setup
  · have := decode_conf c y.1.req x ⟨y.1.addr, y.1.stall, y.1.configured, y.1.daddr, y.1.len⟩ _ (agree_setup hi hs)
    simp only [sys, next, hr, nextCore, hs, this]
    simp [and_assoc]
  · have : (next c y.1 x).configured = y.1.configured := by
      simp only [next, hr, nextCore]
      cases h : y.1.stage <;> simp only <;> repeat' split
      all_goals simp_all
    simp [sys, this, hs]

/-- SET_CONFIGURATION 1 -/
example : (run cEx start0 (reqAll [0, 9, 1, 0, 0, 0, 0, 0])).1.stage = .setup ∧
    (run cEx start0 (reqAll [0, 9, 1, 0, 0, 0, 0, 0] ++ [calm])).1.configured = true := by decide

/-! ## C296: GET_STATUS, GET_CONFIGURATION -/

/-- Full claim: GET_STATUS is answered by two bytes. -/
def StatusTwoBytes : Prop :=
  ∀ (c : Cfg) (y : Sys) (x0 x1 : In) (p : List Nat) (xs : List In), Size c → ReqAt c y x0 p → std p = true →
    byte p 1 = 0 → fromDev p = true → length p = 2 → Calm x1 → (∀ x ∈ xs, Calm x) → 2 ≤ rdys xs →
    (sent c (runS c y.1 [x0, x1]) xs).map (fun w => (w.2.1, w.2.2)) = [(true, false), (true, true)]

/-- `ep0_trans_len` is not set by the request. If it is 0 (after reset) the data stage never ends. -/
theorem get_status_stuck (c : Cfg) (y : Sys) (x0 x1 : In) (p : List Nat) (xs : List In) (hc : Size c)
    (h : ReqAt c y x0 p) (hs : std p = true) (h0 : byte p 1 = 0 ∨ byte p 1 = 8) (hd : fromDev p = true)
    (hl : length p ≠ 0) (hlen : y.1.len = 0) (h1 : Calm x1) (hx : ∀ x ∈ xs, x.rst = false) :
    (out c (runS c (runS c y.1 [x0, x1]) xs)).txVld = true ∧
    (out c (runS c (runS c y.1 [x0, x1]) xs)).rxRdy = false := by
  obtain ⟨e1, e2, _, _, _, e6⟩ := at_setup h
  have hst : Stuck c (runS c y.1 [x0, x1]) := by
    show Stuck c (next c (next c y.1 x0) x1)
    generalize next c y.1 x0 = s at e1 e2 e6
    have ht := e2.typ.2 hs
    have f2 := (size_facts hc).2.1
    rcases h0 with h0 | h0 <;>
      refine ⟨?_, ?_, ?_, ?_⟩ <;>
      simp [next, h1.1, nextCore, e1, decode, ht, e2.b1, h0, e2.get, hd, e2.len, hl, e6, hlen] <;> omega
  have := stuck_run hc xs _ hst hx
  simp [out, this.stage]

def getStatus : List Nat := [0x80, 0, 0, 0, 0, 0, 2, 0]

example : Size cEx ∧ ReqAt cEx (run cEx start0 (req7 getStatus)) (rxB (byte getStatus 7) true) getStatus ∧
    std getStatus = true ∧ byte getStatus 1 = 0 ∧ fromDev getStatus = true ∧ length getStatus ≠ 0 ∧
    (run cEx start0 (req7 getStatus)).1.len = 0 ∧ Calm calm :=
  ⟨by simp [Size, cEx], reqAt_ex _ rfl, rfl, rfl, rfl, by decide, rfl, ⟨rfl, rfl⟩⟩

theorem status_two_bytes_fails : ¬ StatusTwoBytes := by
  intro h
  have := h cEx _ _ calm getStatus [txR, txR] (by simp [Size, cEx]) (reqAt_ex getStatus rfl) rfl rfl rfl rfl ⟨rfl, rfl⟩
    (by intro x hx; simp at hx; subst hx; exact ⟨rfl, rfl⟩) (by decide)
  exact absurd this (by decide)

/-! ## C297: SET_INTERFACE -/

/-- Full claim: SET_INTERFACE (bRequest 11 in USB 2.0, table 9-4) with the only alternate setting of the first
interface is supported. -/
def SetInterfaceOk : Prop :=
  ∀ (c : Cfg) (y : Sys) (x0 x1 : In) (p : List Nat), ReqAt c y x0 p → std p = true → byte p 1 = 11 →
    fromDev p = false → length p = 0 → value p = 0 → index p = 0 → Calm x1 → (runS c y.1 [x0, x1]).stall = false

/-- SET_INTERFACE has the code 0x11 instead of 11 (device_request.py:54): the request is always stalled. -/
theorem set_interface_stalls (c : Cfg) (y : Sys) (x0 x1 : In) (p : List Nat) (h : ReqAt c y x0 p)
    (hs : std p = true) (h11 : byte p 1 = 11) (h1 : Calm x1) : (out c (runS c y.1 [x0, x1])).stall = true := by
  obtain ⟨e1, e2, _⟩ := at_setup h
  show (next c (next c y.1 x0) x1).stall = true
  generalize next c y.1 x0 = s at e1 e2
  have ht := e2.typ.2 hs
  simp [next, h1.1, nextCore, e1, decode, ht, e2.b1, h11]

def setIf : List Nat := [1, 11, 0, 0, 0, 0, 0, 0]

example : ReqAt cEx (run cEx start0 (req7 setIf)) (rxB (byte setIf 7) true) setIf ∧ std setIf = true ∧
    byte setIf 1 = 11 ∧ Calm calm := ⟨reqAt_ex _ rfl, rfl, rfl, ⟨rfl, rfl⟩⟩

theorem set_interface_fails : ¬ SetInterfaceOk := by
  intro h
  have := h cEx _ _ calm setIf (reqAt_ex setIf rfl) rfl rfl rfl rfl rfl rfl ⟨rfl, rfl⟩
  exact absurd this (by decide)

/-- The code 0x11 is accepted only for the only alternate setting of the first interface. -/
theorem code11_checked (c : Cfg) (y : Sys) (x0 x1 : In) (p : List Nat) (h : ReqAt c y x0 p)
    (hs : std p = true) (h11 : byte p 1 = 0x11) (h1 : Calm x1) :
    (out c (runS c y.1 [x0, x1])).stall = (value p != 0 || index p != 0) := by
  obtain ⟨e1, e2, _⟩ := at_setup h
  show (next c (next c y.1 x0) x1).stall = _
  have hv := e2.val
  have hi := e2.ind
  generalize next c y.1 x0 = s at e1 e2 hv hi
  have ht := e2.typ.2 hs
  simp [next, h1.1, nextCore, e1, decode, ht, e2.b1, h11, hv, hi]

/-! ## C298: data stage from host -/

/-- Full claim: the status stage follows after `wLength` bytes of data from host. -/
def SetDataLength : Prop :=
  ∀ (c : Cfg) (y : Sys) (x0 x1 : In) (p : List Nat) (ds : List In), Size c → ReqAt c y x0 p → fromDev p = false →
    0 < length p → Calm x1 → (runS c y.1 [x0, x1]).stall = false →
    (∀ x ∈ ds, x.rst = false ∧ x.rxVld = true) → ds.length < length p →
    (runS c (runS c y.1 [x0, x1]) ds).stage = .dataSet

/-- The length of data is not loaded: with the value from reset the stage ends with the first byte. -/
theorem set_data_fails : ¬ SetDataLength := by
  intro h
  have := h { cEx with lineCoding := some (100, 7) } (run cEx start0 (req7 [0x21, 0x20, 0, 0, 0, 0, 7, 0])) (rxB 0 true)
    calm [0x21, 0x20, 0, 0, 0, 0, 7, 0] [rxB 1 false] (by simp [Size, cEx])
    (by
      refine ⟨⟨0, 0, fun _ => 0, req7 [0x21, 0x20, 0, 0, 0, 0, 7, 0], ?_, rfl⟩, rfl, rfl, rfl, rfl, rfl, rfl⟩
      refine ⟨⟨?_, ?_⟩, ⟨?_, ?_⟩, ⟨?_, ?_⟩, ⟨?_, ?_⟩, ⟨?_, ?_⟩, ⟨?_, ?_⟩, ⟨?_, ?_⟩, trivial⟩ <;>
      first
      | exact fun _ => rfl
      | exact fun _ _ => ⟨fun h => absurd h Bool.false_ne_true, fun h => absurd h (by simp [start, sys, obsNext, rxB, calm])⟩)
    rfl (by decide) ⟨rfl, rfl⟩ (by decide) (by decide) (by decide)
  exact absurd this (by decide)

/-- The stage ends after as many bytes as there are in the counter (one if it is 0), STALL ends it at the first byte. -/
theorem set_data_partial (c : Cfg) : ∀ (ds : List In) (s : St), s.stage = .dataSet → s.stall = false →
    s.len < 65536 → (∀ x ∈ ds, x.rst = false ∧ x.rxVld = true) → ds.length = max 1 s.len →
    (runS c s ds).stage = .statusIn ∧ ∀ k, k < ds.length → (runS c s (ds.take k)).stage = .dataSet
  | [], s, _, _, _, _, h => by simp at h; omega
  | x :: ds, s, hs, hst, hl, hx, hn => by
    obtain ⟨h1, h2⟩ := hx x (List.mem_cons_self ..)
    by_cases hlen : s.len = 1 ∨ s.len = 0
    · have hd : ds = [] := by
        apply List.eq_nil_of_length_eq_zero
        simp at hn
        omega
      subst hd
      refine ⟨by simp [runS, next, h1, nextCore, hs, h2, hst, hlen], fun k hk => ?_⟩
      simp at hk
      subst hk
      exact hs
    · have e1 : (next c s x).stage = .dataSet := by simp [next, h1, nextCore, hs, h2, hst, hlen]
      have e2 : (next c s x).stall = false := by simp [next, h1, nextCore, hs, h2, hst, hlen]
      have e3 : (next c s x).len = s.len - 1 := by
        have : (next c s x).len = (s.len + 65535) % 65536 := by simp [next, h1, nextCore, hs, h2, hst, hlen]
        rw [this]; omega
      obtain ⟨r1, r2⟩ := set_data_partial c ds (next c s x) e1 e2 (by omega)
        (fun w hm => hx w (List.mem_cons_of_mem _ hm)) (by simp at hn; omega)
      refine ⟨r1, fun k hk => ?_⟩
      match k with
      | 0 => exact hs
      | k + 1 => exact r2 k (by simpa using hk)

example : let s := { init 0 0 (fun _ => 0) with stage := .dataSet, len := 2 }
    s.stage = .dataSet ∧ s.stall = false ∧ s.len < 65536 ∧
    (∀ x ∈ [rxB 1 false, rxB 2 true], x.rst = false ∧ x.rxVld = true) ∧
    [rxB 1 false, rxB 2 true].length = max 1 s.len := by decide

end Verif.UsbEp0
