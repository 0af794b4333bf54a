import Verif.Common
/-!
# Models of the clock domain crossings (hwtLib/clocking/cdc.py, clocking/vldSynced_cdc.py, handshaked/cdc.py)

Two clocks as in `FifoAsync`: an event carries a rising edge of the input clock, of the output clock, or of
both at once. If both tick at once, the first register behind the crossing samples a signal which changes at
the same moment and may get the old or the new value (chosen by the environment); this also stands for a
metastable sample, which resolves either way.
-/
namespace Verif.Cdc

universe u
variable {α : Type u}

/-! ## `Cdc` and `CdcPulseGen` -/

/-- cdc.py:67-92: `inReg` in the input domain, `outs` in the output domain (first one samples `inReg`). -/
structure St (α : Type u) where
  inReg : α
  outs : List α
deriving DecidableEq

/-- `late`: what is sampled if both clocks tick at once: old value (`false`) or new value (`true`) -/
structure Ev (α : Type u) where
  ci : Bool
  co : Bool
  data : α
  late : Bool
deriving DecidableEq

/-- cdc.py:69-75 -/
def inNext (s : St α) (e : Ev α) : α := if e.ci then e.data else s.inReg

/-- The value the first register of the output domain gets. -/
def crossing (s : St α) (e : Ev α) : α := if e.late then inNext s e else s.inReg

/-- cdc.py:77-92 without `en`: shift. -/
def shift (x : α) (l : List α) : List α := (x :: l).dropLast

/-- cdc.py:128-146 (`Cdc.hwImpl`) -/
def next (s : St α) (e : Ev α) : St α where
  inReg := inNext s e
  outs := if e.co then shift (crossing s e) s.outs else s.outs

/-- Reset: all registers have INIT_VAL (cdc.py:57-65), `n` = OUT_REG_CNT. -/
def init (n : Nat) (x : α) : St α := ⟨x, List.replicate n x⟩

/-- `Cdc`: output is `dataOut` (cdc.py:143; the last register). -/
def cdc : Machine (St α) (Ev α) (Option α) where
  out s _ := s.outs.getLast?
  next := next

/-- `CdcPulseGen` (cdc.py:150-179): OUT_REG_CNT = 3, output `dataOut_en = out_reg1 ^ out_reg2`. -/
def pulseGen : Machine (St Bool) (Ev Bool) Bool where
  out s _ := s.outs.getD 1 false ^^ s.outs.getD 2 false
  next := next

/-! ## `VldSyncedCdc` -/

/-- vldSynced_cdc.py:83-104: `v`/`d` the registers of the input domain, `v0 v1 v2` and `o` of the output domain -/
structure VSt (α : Type u) where
  v : Bool
  d : α
  v0 : Bool
  v1 : Bool
  v2 : Bool
  o : α

structure VEv (α : Type u) where
  ci : Bool
  co : Bool
  vld : Bool
  data : α
  late : Bool
deriving DecidableEq

/-- vldSynced_cdc.py:83-104; `out_data_en` is the output of the second register of the output domain (:92). -/
def vNext (s : VSt α) (e : VEv α) : VSt α where
  v := if e.ci then e.vld else s.v
  d := if e.ci then e.data else s.d
  v0 := if e.co then (if e.ci && e.late then e.vld else s.v) else s.v0
  v1 := if e.co then s.v0 else s.v1
  v2 := if e.co then s.v1 else s.v2
  o := if e.co && s.v1 then (if e.ci && e.late then e.data else s.d) else s.o

/-- output: `dataOut.vld`, `dataOut.data` (vldSynced_cdc.py:93, :104) -/
def vldCdc : Machine (VSt α) (VEv α) (Bool × α) where
  out s _ := (s.v2, s.o)
  next := vNext

def vInit (d0 o0 : α) : VSt α := ⟨false, d0, false, false, false, o0⟩

/-! ## `HandshakedCdc` -/

/-- handshaked/cdc.py:121-191. Input domain: `rdT` register of `tx_fsm` (:33-38), `en` = din_en, `data` = din_data,
`ei` the input register of `out_en_pulse_gen`, `a0 a1 a2` output registers of `in_ack_pulse_gen`.
Output domain: `e0 e1 e2` output registers of `out_en_pulse_gen`, `rdR` register of `rx_fsm`, `ack` = dout_ack,
`dout` = dout_data, `vd` = dout_vld_delayed, `ai` input register of `in_ack_pulse_gen`. -/
structure HSt (α : Type u) where
  rdT : Bool
  en : Bool
  data : α
  ei : Bool
  e0 : Bool
  e1 : Bool
  e2 : Bool
  rdR : Bool
  ack : Bool
  dout : α
  vd : Bool
  ai : Bool
  a0 : Bool
  a1 : Bool
  a2 : Bool
deriving DecidableEq

/-- `lateE`, `lateA`: old or new value sampled by the two crossings if both clocks tick at once. -/
structure HEv (α : Type u) where
  ci : Bool
  co : Bool
  vld : Bool
  din : α
  rd : Bool
  lateE : Bool
  lateA : Bool
deriving DecidableEq

structure HOut (α : Type u) where
  rd : Bool
  vld : Bool
  data : α
deriving DecidableEq

/-- handshaked/cdc.py:150 `next_dataIn` -/
def take (s : HSt α) (e : HEv α) : Bool := e.vld && s.rdT
/-- handshaked/cdc.py:157 `dout_load_data` -/
def load (s : HSt α) (e : HEv α) : Bool := !s.rdR && e.rd

/-- handshaked/cdc.py:33-37, :150-156, :158-160, :169-171, :174, :176-180 and cdc.py:67-92, :176-179. The data word
itself is sampled by the output domain at `load` (old value if the input register changes at once). -/
def hNext (s : HSt α) (e : HEv α) : HSt α where
  rdT := if e.ci then (if s.rdT then !e.vld else s.a1 ^^ s.a2) else s.rdT
  en := if e.ci then s.en ^^ take s e else s.en
  data := if e.ci && take s e then e.din else s.data
  ei := if e.ci then s.en else s.ei
  e0 := if e.co then (if e.ci && e.lateE then s.en else s.ei) else s.e0
  e1 := if e.co then s.e0 else s.e1
  e2 := if e.co then s.e1 else s.e2
  rdR := if e.co then (if s.rdR then !(s.e1 ^^ s.e2) else e.rd) else s.rdR
  ack := if e.co then s.ack ^^ load s e else s.ack
  dout := if e.co && load s e then s.data else s.dout
  vd := if e.co then !s.rdR else s.vd
  ai := if e.co then s.ack else s.ai
  a0 := if e.ci then (if e.co && e.lateA then s.ack else s.ai) else s.a0
  a1 := if e.ci then s.a0 else s.a1
  a2 := if e.ci then s.a1 else s.a2

def hsCdc : Machine (HSt α) (HEv α) (HOut α) where
  out s _ := ⟨s.rdT, s.vd, s.dout⟩
  next := hNext

/-- Both domains after reset; DATA_RESET_VAL None leaves the data registers arbitrary. -/
def hInit (d0 o0 : α) : HSt α :=
  ⟨true, false, d0, false, false, false, false, true, false, o0, false, false, false, false, false⟩

/-! ### Phases of one transfer -/

/-- The states reached if the consumer is always ready, by phase of the transfer, parity `p` of the number of
transfers before, data registers `d`, `o`. Phase 0 is idle; after phase 9 the parity changes. -/
def conc (ph : Nat) (p : Bool) (d o : α) : HSt α where
  rdT := decide (ph = 0)
  en := p ^^ decide (1 ≤ ph)
  data := d
  ei := p ^^ decide (2 ≤ ph)
  e0 := p ^^ decide (3 ≤ ph)
  e1 := p ^^ decide (4 ≤ ph)
  e2 := p ^^ decide (5 ≤ ph)
  rdR := decide (ph ≠ 5)
  ack := p ^^ decide (6 ≤ ph)
  dout := o
  vd := decide (ph = 6)
  ai := p ^^ decide (7 ≤ ph)
  a0 := p ^^ decide (8 ≤ ph)
  a1 := p ^^ decide (9 ≤ ph)
  a2 := p

/-- How the phase changes. -/
def phNext (ph : Nat) (e : HEv α) : Nat :=
  match ph with
  | 0 => if e.ci && e.vld then 1 else 0
  | 1 => if e.ci then (if e.co && e.lateE then 3 else 2) else 1
  | 2 => if e.co then 3 else 2
  | 3 => if e.co then 4 else 3
  | 4 => if e.co then 5 else 4
  | 5 => if e.co then 6 else 5
  | 6 => if e.co then (if e.ci && e.lateA then 8 else 7) else 6
  | 7 => if e.ci then 8 else 7
  | 8 => if e.ci then 9 else 8
  | 9 => if e.ci then 0 else 9
  | n => n

theorem phNext_le (ph : Nat) (e : HEv α) (h : ph ≤ 9) : phNext ph e ≤ 9 := by
  unfold phNext
  split <;> (repeat' split) <;> omega

theorem conc_next (ph : Nat) (h : ph ≤ 9) (p : Bool) (d o : α) (e : HEv α) (hr : e.co = true → e.rd = true) :
    hNext (conc ph p d o) e
      = conc (phNext ph e) (if ph = 9 ∧ e.ci = true then !p else p)
          (if ph = 0 ∧ e.ci = true ∧ e.vld = true then e.din else d)
          (if ph = 5 ∧ e.co = true then d else o) := by
  obtain ⟨ci, co, vld, din, rd, le, la⟩ := e
  have : ph = 0 ∨ ph = 1 ∨ ph = 2 ∨ ph = 3 ∨ ph = 4 ∨ ph = 5 ∨ ph = 6 ∨ ph = 7 ∨ ph = 8 ∨ ph = 9 := by omega
  simp only at hr
  rcases this with h | h | h | h | h | h | h | h | h | h <;> subst h <;>
    cases ci <;> cases co <;> (try (have hr := hr rfl; subst hr)) <;>
    cases p <;> cases vld <;> cases le <;> cases la <;> first | rfl | (cases rd <;> rfl)

end Verif.Cdc
