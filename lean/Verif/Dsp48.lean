import Verif.Common

/-!
# Behavioural model of DSP48E1 in xilinx/primitive/dsp48e1.py: ALU and input registers of operands A and B

Only `USE_SIMD = "ONE48"` is modelled. All values are defined bits (no X). The value `none` of an operand stands for the invalid
value `None` which the code assigns explicitly.
-/
namespace Verif.Dsp48

/-- `v[hi:lo]` as number -/
def slice (v hi lo : Nat) : Nat := v / 2 ^ lo % 2 ^ (hi - lo)

/-- `co` and `s`, dsp48e1.py:715-721, `a0` is `qalumode_o_mux[0]` -/
def csa (a0 : Bool) (x y z : BitVec 48) : BitVec 48 × BitVec 48 :=
  if a0 then (((x &&& y) ||| (~~~z &&& y)) ||| (x &&& ~~~z), (~~~z ^^^ x) ^^^ y)
  else (((x &&& y) ||| (z &&& y)) ||| (x &&& z), (z ^^^ x) ^^^ y)

/-- sum of the lowest 12 bits, `s0`, :327 -/
def add0 (co s : Nat) (cin : Bool) : Nat := (2 * slice co 11 0 + cin.toNat + slice s 12 0) % 2 ^ 13

/-- sum of bits `[lo+12:lo]`, `s1`, `s2`, :331, :335 (C and the bit of `comux` below `lo` are carried because of ONE48) -/
def addMid (lo co s c : Nat) : Nat :=
  (2 * slice co (lo + 11) lo + slice co lo (lo - 1) + slice s (lo + 12) lo + c) % 2 ^ 13

/-- sum of the highest 12 bits, `s3`, :339 -/
def add3 (co s c : Nat) : Nat := (2 * slice co 48 36 + slice co 36 35 + slice s 48 36 + c) % 2 ^ 14

/-- final adder, :327-340: `Concat(s3[12:0], s2[12:0], s1[12:0], s0[12:0])` and `cout3` -/
def finalAdd (co s : Nat) (cin : Bool) : Nat × Bool :=
  let s0 := add0 co s cin
  let s1 := addMid 12 co s (slice s0 13 12)
  let s2 := addMid 24 co s (slice s1 13 12)
  let s3 := add3 co s (slice s2 13 12)
  (slice s3 12 0 * 2 ^ 36 + slice s2 12 0 * 2 ^ 24 + slice s1 12 0 * 2 ^ 12 + slice s0 12 0, slice s3 13 12 == 1)

/-- `alu_o` and `carrycascout_o` for `qalumode_o_mux = mode`, operands of the X, Y, Z multiplexer and `qcarryin_o_mux_tmp`,
:715-739, :805-809 -/
def alu (mode : BitVec 4) (x y z : BitVec 48) (cinTmp : Bool) : BitVec 48 × Bool :=
  let co := (csa (mode.getLsbD 0) x y z).1
  let s := (csa (mode.getLsbD 0) x y z).2
  let comux := if mode.getLsbD 2 then 0 else co
  let smux := if mode.getLsbD 3 then co else s
  let cin := if mode.getLsbD 3 || mode.getLsbD 2 then false else cinTmp
  let r := finalAdd comux.toNat smux.toNat cin
  let v := BitVec.ofNat 48 r.1
  (if mode.getLsbD 1 then ~~~v else v, r.2)

/-- X multiplexer without multiplier for PREG = 1 or USE_MULT = "NONE", :564-583 ; `p` is `qp_o_mux`, `m` extended product -/
def xMux (sel : BitVec 2) (a : BitVec 30) (b : BitVec 18) (m p : BitVec 48) : BitVec 48 :=
  if sel = 0 then 0 else if sel = 1 then m else if sel = 2 then p else a ++ b

/-- Y multiplexer, :586-594 with `y_mac_cascd`, :316 -/
def yMux (sel : BitVec 2) (zsel : BitVec 3) (c : BitVec 48) (multsignin : Bool) : BitVec 48 :=
  if sel = 0 then 0 else if sel = 1 then 0
  else if sel = 2 then (if zsel = 4 then (if multsignin then BitVec.allOnes 48 else 0) else BitVec.allOnes 48) else c

/-- Z multiplexer, :599-615 -/
def zMux (sel : BitVec 3) (pcin p c : BitVec 48) : BitVec 48 :=
  if sel = 0 then 0 else if sel = 1 then pcin else if sel = 2 then p else if sel = 3 then c else if sel = 4 then p
  else if sel = 5 then pcin.sshiftRight 17 else p.sshiftRight 17

/-- names of operations in the table `ALU_MODE`, dsp48e1_constants.py:203-223 -/
inductive Op
  | add | sub | rsub | nadd | xor | xnor | and | andn | nand | orn | or | orN | nor | nandX
  deriving DecidableEq, Repr

/-- value of `ALUMODE` from the table and the selection of Y, if the item has one, dsp48e1_constants.py:203-223 -/
def aluMode : Op → Option (BitVec 7) × BitVec 4
  | .add => (none, 0b0000)
  | .sub => (none, 0b0011)
  | .rsub => (none, 0b0001)
  | .nadd => (none, 0b0010)
  | .xor => (some 0b0000000, 0b0100)
  | .xnor => (some 0b0000000, 0b0101)
  | .and => (some 0b0000000, 0b1100)
  | .andn => (some 0b0000000, 0b1101)
  | .nand => (some 0b0000000, 0b1110)
  | .orn => (some 0b0000000, 0b1111)
  | .or => (some 0b0001000, 0b1100)
  | .orN => (some 0b0001000, 0b1101)
  | .nor => (some 0b0001000, 0b1110)
  | .nandX => (some 0b0001000, 0b1111)

/-! ### Input registers of operands -/

/-- registers of one operand, `none` is invalid value -/
structure Regs (V : Type) where
  r1 : Option V
  r2 : Option V

/-- inputs of one clock cycle: operand, RSTx, CEx1, CEx2 -/
structure RegIn (V : Type) where
  d : V
  rst : Bool
  ce1 : Bool
  ce2 : Bool

/-- registers of operand A for AREG, dsp48e1.py:385-412 (`zero` is the reset value); the output is `qa_o_mux` -/
def regA {V : Type} (zero : V) (areg : Nat) : Machine (Regs V) (RegIn V) (Option V) where
  out s i := if areg = 0 then some i.d else s.r2
  next s i :=
    if areg = 1 ∨ areg = 2 then
      if i.rst then ⟨some zero, some zero⟩
      else ⟨if i.ce1 then some i.d else s.r1,
        if i.ce2 then (if areg = 1 then some i.d else if areg = 2 then s.r1 else none) else s.r2⟩
    else ⟨none, s.r2⟩

/-- registers of operand B for BREG, dsp48e1.py:437-463; the output is `qb_o_mux` -/
def regB {V : Type} (zero : V) (breg : Nat) : Machine (Regs V) (RegIn V) (Option V) where
  out s i := if breg = 0 then some i.d else s.r2
  next s i :=
    if breg = 1 ∨ breg = 2 then
      if i.rst then ⟨some zero, some zero⟩
      else ⟨if i.ce1 then some i.d else s.r1,
        if i.ce2 then (if breg = 1 then some i.d else if breg = 1 then s.r1 else none) else s.r2⟩
    else ⟨none, s.r2⟩

end Verif.Dsp48
