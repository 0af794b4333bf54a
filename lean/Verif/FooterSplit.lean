import Verif.Common

/-!
# `Axi4S_footerSplit` (`hwtLib/amba/axis_comp/frame_parser/footer_split.py`)

`r 1 … r LA` and `r (LA + 1)` (`out_reg`) are the registers of `generate_regs` (lines 133-178), index 0 is
`dataIn`. Simplifications: a word is the list of its enabled bytes (the mask is `1` on the lowest lanes),
disabled lanes are not represented; `n = DATA_WIDTH / 8`, `F = FOOTER_WIDTH / 8`; only one of keep/strb is
used (both would carry the same value); `is_footer` is a predicate of lanes. The power-up values of the
registers without reset (`data`, `last`, `keep`) are arbitrary.
-/

namespace Verif.FooterSplit

open Verif

structure Cfg where
  n : Nat
  F : Nat

/-- `LOOK_AHEAD = ceil(FOOTER_WIDTH / D_W)` (line 255) -/
def Cfg.LA (c : Cfg) : Nat := (c.F + c.n - 1) / c.n

structure Word (β : Type) where
  bytes : List β
  last : Bool
deriving DecidableEq, Repr

structure Reg (β : Type) where
  w : Word β
  valid : Bool
  foot : Nat → Bool

structure St (β : Type) where
  r : Nat → Reg β
  sofSeen : Bool

structure In (β : Type) where
  vld : Bool
  w : Word β
  rd0 : Bool
  rd1 : Bool

structure Out (β : Type) where
  rd : Bool
  /-- `dataOut[0]`: bytes with keep set, last -/
  out0 : Option (List β × Bool)
  out1 : Option (List β × Bool)
deriving DecidableEq, Repr

variable {β : Type}

/-- line 198: `din.valid & din.last` -/
def setFoot (x : In β) : Bool := x.vld && x.w.last

/-- lines 199-244: number of bytes of the input word as it is decoded from the mask: the first lane from 1
which is not enabled. -/
def lastBytes (c : Cfg) (x : In β) : Nat :=
  (((List.range (c.n - 1)).map (· + 1)).find? fun b => !decide (b < x.w.bytes.length)).getD c.n

/-- lines 202-204, in bytes -/
def footStart (c : Cfg) (x : In β) : Nat := c.LA * c.n + lastBytes c x - c.F

/-- bit `p` of `_is_footer` (lines 212-216) -/
def isFoot (c : Cfg) (x : In β) (p : Nat) : Bool :=
  decide (footStart c x ≤ p) && decide (p < footStart c x + c.F)

/-- lines 218-237: `is_footer_set_val` of register `i` -/
def setVal (c : Cfg) (x : In β) (i b : Nat) : Bool :=
  if i = 0 then setFoot x && isFoot c x (c.LA * c.n + b)
  else isFoot c x ((c.LA + 1 - i) * c.n + b)

/-- item `i` of `regs` -/
def reg (c : Cfg) (s : St β) (x : In β) (i : Nat) : Reg β :=
  if i = 0 then ⟨x.w, x.vld, setVal c x 0⟩ else s.r i

/-- lines 180-184 -/
def canFlush (s : St β) : Nat → Bool
  | 0 => false
  | i + 1 => ((s.r (i + 1)).valid && (s.r (i + 1)).w.last) || canFlush s i

/-- `is_footer != 0` -/
def anyFoot (c : Cfg) (f : Nat → Bool) : Bool := (List.range c.n).any f

def outReg (c : Cfg) (s : St β) : Reg β := s.r (c.LA + 1)

/-- lines 271-287 -/
def en (c : Cfg) (s : St β) (x : In β) : Bool := x.vld || canFlush s (c.LA + 1)
def d1En (c : Cfg) (s : St β) : Bool := anyFoot c (outReg c s).foot
def zeroLen (c : Cfg) (s : St β) : Bool :=
  d1En c s && (outReg c s).foot 0 && !s.sofSeen && (outReg c s).valid && (outReg c s).w.last
def d0En (c : Cfg) (s : St β) : Bool := !(outReg c s).foot 0 || zeroLen c s

/-- Bytes of lanes selected by `p`. -/
def sel (p : Nat → Bool) (l : List β) : List β := ((l.zipIdx).filter fun e => p e.2).map (·.1)

/-- lines 289-292, 299-306 -/
def valid0 (c : Cfg) (s : St β) (x : In β) : Bool :=
  (outReg c s).valid && d0En c s && en c s x && (!d1En c s || x.rd1)
def last0 (c : Cfg) (s : St β) (x : In β) : Bool :=
  d1En c s || ((reg c s x c.LA).valid && (reg c s x c.LA).foot 0)
def bytes0 (c : Cfg) (s : St β) : List β :=
  sel (fun b => !(outReg c s).foot b && !zeroLen c s) (outReg c s).w.bytes
/-- lines 294-297 -/
def valid1 (c : Cfg) (s : St β) (x : In β) : Bool :=
  (outReg c s).valid && d1En c s && en c s x && (!d0En c s || x.rd0)
def bytes1 (c : Cfg) (s : St β) : List β := sel (outReg c s).foot (outReg c s).w.bytes

/-- lines 308-325: `ready` of register `LA + 2 - k`; index `LA + 2` stands for the outputs. -/
def readyD (c : Cfg) (s : St β) (x : In β) : Nat → Bool
  | 0 => (x.rd0 || !d0En c s) && (x.rd1 || !d1En c s)
  | k + 1 => !(s.r (c.LA + 1 - k)).valid || readyD c s x k

def ready (c : Cfg) (s : St β) (x : In β) (i : Nat) : Bool := readyD c s x (c.LA + 2 - i)

def out (c : Cfg) (s : St β) (x : In β) : Out β where
  rd := ready c s x 1
  out0 := if valid0 c s x then some (bytes0 c s, last0 c s x) else none
  out1 := if valid1 c s x then some (bytes1 c s, (outReg c s).w.last) else none

/-- lines 337-354: `prev_r_vld` of register `i + 1` -/
def prevVld (c : Cfg) (s : St β) (x : In β) (i : Nat) : Bool :=
  (reg c s x i).valid && (x.vld || canFlush s i)

/-- lines 337-354: next value of register `i + 1` -/
def nextReg (c : Cfg) (s : St β) (x : In β) (i : Nat) : Reg β :=
  let r := s.r (i + 1)
  let p := reg c s x i
  if ready c s x (i + 1) then
    { w := if prevVld c s x i || canFlush s (i + 1) then p.w else r.w
      foot := if setFoot x && !(p.valid && p.w.last) then setVal c x (i + 1)
        else if prevVld c s x i then p.foot
        else if canFlush s (i + 1) then fun _ => false
        else r.foot
      valid := if setFoot x && !(p.valid && p.w.last) then p.valid
        else if prevVld c s x i then p.valid
        else if canFlush s (i + 1) then false
        else r.valid }
  else r

def next (c : Cfg) (s : St β) (x : In β) : St β where
  r i := if 1 ≤ i ∧ i ≤ c.LA + 1 then nextReg c s x (i - 1) else s.r i
  -- lines 279-284
  sofSeen :=
    if valid1 c s x && x.rd1 && (outReg c s).w.last then false
    else if valid0 c s x && x.rd0 then true
    else s.sofSeen

def machine (c : Cfg) : Machine (St β) (In β) (Out β) := ⟨out c, next c⟩

structure IsInit (s : St β) : Prop where
  valid : ∀ i, (s.r i).valid = false
  foot : ∀ i b, (s.r i).foot b = false
  sof : s.sofSeen = false

/-- `hwImpl`: `FOOTER_WIDTH` and `DATA_WIDTH` are not zero. -/
def Ok (c : Cfg) : Prop := 1 ≤ c.n ∧ 1 ≤ c.F

end Verif.FooterSplit
