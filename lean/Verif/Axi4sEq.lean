import Verif.Common
/-!
# Model of `Axi4S_eq` (hwtLib/peripheral/ethernet/_axis_eq.py)

Comparator of a value transferred as a frame with a constant.
`DW` is `DATA_WIDTH`, `VW` the width of `VAL`; words and the constant are numbers.
`strb`/`keep`/`id`/`dest`/`user` are not read by the component and are left out.
-/
namespace Verif.Axi4sEq

structure Cfg where
  DW : Nat
  VW : Nat
  V : Nat

/-- :50 `ceil(VAL_W / D_W)` -/
def Cfg.cnt (c : Cfg) : Nat := (c.VW + c.DW - 1) / c.DW

/-- Values of `word_index` (:51, `HBits(log2ceil(word_cnt - 1))`). -/
def Cfg.idxMod (c : Cfg) : Nat := 2 ^ log2ceil (c.cnt - 1)

/-- Width of the `i`-th part of the constant, :58-60 (`in_high = val_high - val_low`). -/
def Cfg.partW (c : Cfg) (i : Nat) : Nat := min (i * c.DW + c.DW) c.VW - i * c.DW

/-- :61 `din.data[in_high:]._eq(V[val_high:val_low])` -/
def wordEq (c : Cfg) (i d : Nat) : Bool := d % 2 ^ c.partW i == c.V / 2 ^ (i * c.DW) % 2 ^ c.partW i

/-- Registers `word_index`, `state` (:51-54). -/
structure St where
  idx : Nat
  eq : Bool
deriving DecidableEq, Repr

/-- `dataIn.valid`, `dataIn.data`, `dataIn.last`, `dataOut.rd`. -/
structure In where
  vld : Bool
  data : Nat
  last : Bool
  rd : Bool
deriving DecidableEq, Repr

/-- `dataIn.ready`, `dataOut.vld`, `dataOut.data`. -/
structure Out where
  rd : Bool
  vld : Bool
  data : Bool
deriving DecidableEq, Repr

/-- The value fits in one word: :44-47. Otherwise :62-63 and :81-85
(`extraConds={dout: valid & last}`, `skipWhen={dout: ~(valid & last)}`). -/
def out (c : Cfg) (s : St) (x : In) : Out :=
  if c.VW ≤ c.DW then ⟨x.rd, x.vld, x.data % 2 ^ c.VW == c.V⟩
  else ⟨x.rd || !(x.vld && x.last), x.vld && x.last, s.eq && wordEq c (c.cnt - 1) x.data⟩

/-- :69-79; `StreamNode([din], [dout]).ack()` is `din.valid & dout.rd`. -/
def next (c : Cfg) (s : St) (x : In) : St :=
  if c.VW ≤ c.DW then s
  else if x.vld && x.rd then
    if x.last then ⟨0, true⟩
    else ⟨(s.idx + 1) % c.idxMod, if s.idx < c.cnt - 1 then s.eq && wordEq c s.idx x.data else s.eq⟩
  else s

def machine (c : Cfg) : Machine St In Out := ⟨out c, next c⟩

/-- Reset values, :51-54. -/
def init : St := ⟨0, true⟩

/-! ## Observations on the ports -/

/-- Words transferred on `dataIn`. -/
def accepted (tr : List (In × Out)) : List (Nat × Bool) :=
  tr.filterMap fun e => if e.1.vld && e.2.rd then some (e.1.data, e.1.last) else none

/-- Answers transferred on `dataOut`. -/
def answers (tr : List (In × Out)) : List Bool :=
  tr.filterMap fun e => if e.2.vld && e.1.rd then some e.2.data else none

/-- Complete frames of a sequence of words (`cur` are words of the frame which was started). -/
def frames (cur : List Nat) : List (Nat × Bool) → List (List Nat)
  | [] => []
  | (d, l) :: t => if l then (cur ++ [d]) :: frames [] t else frames (cur ++ [d]) t

/-- The number which is transferred by the words, the first one has the lowest bits. -/
def number (DW : Nat) : List Nat → Nat
  | [] => 0
  | d :: t => d % 2 ^ DW + 2 ^ DW * number DW t

/-- The frame carries exactly the value (and nothing more except of unused bits of the last word). -/
def Carries (c : Cfg) (f : List Nat) : Prop := f.length = c.cnt ∧ number c.DW f % 2 ^ c.VW = c.V

instance (c : Cfg) (f : List Nat) : Decidable (Carries c f) := inferInstanceAs (Decidable (_ ∧ _))

structure Ok (c : Cfg) : Prop where
  dw : 1 ≤ c.DW
  vw : 1 ≤ c.VW
  v : c.V < 2 ^ c.VW

end Verif.Axi4sEq
