import Verif.Dsp48

/-!
# Wide adder from DSP48E1 blocks with handshake pipeline, xilinx/primitive/examples/dsp48e1Add.py

Stages of the pipeline are numbered from the input. The data of one stage are the registers of all DSPs (and the delay registers
of `postpone_val`) which are enabled by the clock enable of this stage. The state of the machine is the state after the reset was
released; the contents of data registers is arbitrary. DSPs with an index `≥ N` do not exist, their data are not used.

Simplification: outputs of X, Y, Z multiplexers are modelled only for values which do not depend on P (OPMODE is 0 after reset or
the constant from `set_mode`), the pattern detector, multiplier and DRC messages are not used by the adder.
-/
namespace Verif.Dsp48Add
open Verif.Dsp48

structure Cfg where
  W : Nat
  regIn : Bool
  regOut : Bool

variable (g : Cfg)

/-- number of DSPs, dsp48e1Add.py:147 -/
def Cfg.N : Nat := (g.W + 47) / 48

/-- `REQUIRES_CASCADE`, :144 -/
def Cfg.cascade : Bool := g.regOut && decide (g.W > 48)

/-- `stage_cnt`, :203, :240 -/
def Cfg.stages : Nat :=
  if g.cascade then g.regIn.toNat + g.regOut.toNat + g.N - 1 else g.regIn.toNat + g.regOut.toNat

/-- width of the part of DSP `i`, :186 -/
def Cfg.width (i : Nat) : Nat := min 48 (g.W - 48 * i)

/-- values of one DSP in one stage: operands C and A, B, result and carry -/
structure V where
  c : BitVec 48
  a : BitVec 30
  b : BitVec 18
  p : BitVec 48
  co : Bool

/-- values of all DSPs in one stage -/
abbrev D := Nat → V

/-- inputs of DSPs, :183-195, :283-294 -/
def dspIn (a b : Nat) : D := fun i =>
  let off := i * 48
  let w := g.width i
  { c := BitVec.ofNat 48 (slice a (off + w) off)
    a := if w ≤ 18 then 0 else BitVec.ofNat 30 (slice b (off + w) (18 + off))
    b := if w ≤ 18 then BitVec.ofNat 18 (slice b (off + w) off) else BitVec.ofNat 18 (slice b (off + 18) off)
    p := 0
    co := false }

/-- OPMODE of the adder, `get_opmode(X_SEL.A_B, Y_SEL.ZERO, Z_SEL.C)`, :120, dsp48e1_constants.py:164-194 -/
def opAdd : BitVec 7 := 0b0000011 ||| 0b0000000 ||| 0b0110000

/-- ALU of one DSP with OPMODE register `op`, ALUMODE 0 and the selected carry -/
def dspAlu (op : BitVec 7) (v : V) (cin : Bool) : BitVec 48 × Bool :=
  alu 0 (xMux (op.extractLsb' 0 2) v.a v.b 0 0) (yMux (op.extractLsb' 2 2) (op.extractLsb' 4 3) v.c true)
    (zMux (op.extractLsb' 4 3) 0 0 v.c) cin

/-- value which is loaded into stage `s` if the previous stage has `prev` and REG_OUT is used, :208-236, :324-336: registers
of DSP `i` before its P register, P register with the carry of the previous DSP, delay registers of the output -/
def stageOut (ops : Nat → BitVec 7) (s : Nat) (prev : D) : D := fun i =>
  if s < i + g.regIn.toNat then prev i
  else if s = i + g.regIn.toNat then
    let r := dspAlu (ops i) (prev i) (if i = 0 then false else (prev (i - 1)).co)
    { prev i with p := r.1, co := r.2 }
  else prev i

/-- value which is loaded into stage `s` -/
def stageFn (ops : Nat → BitVec 7) (s : Nat) (prev : D) : D := if g.regOut then stageOut g ops s prev else prev

/-- combinational chain of DSPs without P register, :269-281 -/
def ripple (ops : Nat → BitVec 7) (d : D) : Nat → BitVec 48 × Bool
  | 0 => dspAlu (ops 0) (d 0) false
  | i + 1 => dspAlu (ops (i + 1)) (d (i + 1)) (ripple ops d i).2

/-- `dsp.P` after delays -/
def resP (ops : Nat → BitVec 7) (d : D) (i : Nat) : BitVec 48 := if g.regOut then (d i).p else (ripple ops d i).1

/-- `Concat(*reversed(dsp_outputs))` of the `k` lowest outputs `dsp.P[width:]`, :297, :337 -/
def concatP (p : Nat → BitVec 48) : Nat → Nat
  | 0 => 0
  | k + 1 => slice (p k).toNat (g.width k) 0 * 2 ^ (48 * k) + concatP p k

def dout (ops : Nat → BitVec 7) (d : D) : Nat := concatP g (resP g ops d) g.N

/-- `rd` of a stage with following stages `rest`, :84-86 -/
def rdOf (rest : List (Bool × D)) (rdy : Bool) : Bool := rest.any (fun y => !y.1) || rdy

/-- clock enables of stages, :93-94 -/
def ces (rdy : Bool) : Bool → List (Bool × D) → List Bool
  | _, [] => []
  | pv, x :: rest => (!x.1 || (rdOf rest rdy && pv)) :: ces rdy x.1 rest

/-- registers of stages; `f s` is the value for stage `s`, `force` is `mode_preload` in clock enables of :252-253 -/
def stepPipe (f : Nat → D → D) (rdy force : Bool) : Nat → Bool × D → List (Bool × D) → List (Bool × D)
  | _, _, [] => []
  | s, prev, x :: rest =>
    (prev.1 || (x.1 && !rdOf rest rdy),
      if force || (!x.1 || (rdOf rest rdy && prev.1)) then f s prev.2 else x.2) :: stepPipe f rdy force (s + 1) x rest

/-- `in_ready`, :82, :88 -/
def inReady (rdy : Bool) : List (Bool × D) → Bool
  | [] => rdy
  | x :: rest => rdOf rest rdy || !x.1

structure St where
  preload : Bool
  ops : Nat → BitVec 7
  st : List (Bool × D)

structure In where
  vld : Bool
  a : Nat
  b : Nat
  rd : Bool

structure Out where
  rd : Bool
  vld : Bool
  data : Nat

/-- clock enable `ce_0` of control registers of DSP `i`, :210-226, :242-253 -/
def ce0 (preload : Bool) (ce : List Bool) (i : Nat) : Bool :=
  if g.cascade then
    if g.regIn then ce.getD i true else if i = 0 then true else ce.getD (i - 1) true
  else preload || (if g.regIn then ce.getD 0 true else true)

/-- `Dsp48e1Add`, :142-337 -/
def dspAdd : Machine St In Out where
  out s i :=
    let first := (i.vld && !s.preload, dspIn g i.a i.b)
    let last := (first :: s.st).getLast (by simp)
    { rd := inReady i.rd s.st && !s.preload
      vld := last.1 && !s.preload
      data := dout g s.ops last.2 }
  next s i :=
    let first := (i.vld && !s.preload, dspIn g i.a i.b)
    let ce := ces i.rd first.1 s.st
    { preload := false
      ops := fun k => if ce0 g s.preload ce k then opAdd else s.ops k
      st := stepPipe (stageFn g s.ops) i.rd (s.preload && !g.cascade) 0 first s.st }

/-- states after reset -/
def St.reset (s : St) : Prop :=
  s.preload = true ∧ (∀ i, s.ops i = 0) ∧ s.st.length = g.stages ∧ ∀ x ∈ s.st, x.1 = false

def accepted (e : In × Out) : Option (Nat × Nat) := if e.1.vld && e.2.rd then some (e.1.a, e.1.b) else none

def delivered (e : In × Out) : Option Nat := if e.2.vld && e.1.rd then some e.2.data else none

end Verif.Dsp48Add
