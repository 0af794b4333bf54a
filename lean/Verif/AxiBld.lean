import Verif.Common
/-!
# Builder of AXI components (hwtLib/amba/axi_comp/builder.py) and the configuration of the components it makes
-/
namespace Verif.AxiBld

inductive Cls where
  | axi3Lite | axi4Lite | axi3 | axi4
deriving DecidableEq

inductive Err where
  /-- an attribute which does not exist is read -/
  | attribute
  /-- interfaces of different structure are connected (raised by hwt) -/
  | connect
  /-- AssertionError -/
  | assertion
  /-- NotImplementedError -/
  | notImplemented
deriving DecidableEq

/-- `issubclass(axi_cls, (Axi3, Axi4))`: axi3.py:236, axi4.py:126, axi4Lite.py:72 -/
def Cls.full : Cls → Bool
  | .axi3 | .axi4 => true
  | _ => false

/-- the parameter ID_WIDTH exists: axi3.py:251-254, axi4.py:148-152, not in axi3Lite.py:188-193 -/
def Cls.hasId (c : Cls) : Bool := c.full

/-- Axi_to_AxiLite(hwIOCls): the class of `m`; to_axiLite.py:59-72 reads ID_WIDTH -/
def axiToLite (hwIOCls : Cls) : Except Err Cls :=
  if hwIOCls.hasId then .ok .axi4Lite else .error .attribute

/-- AxiLite_to_Axi(hwIOCls): the classes of `s` and `m`; axiLite_comp/to_axi.py:48-52, and :65-66 drives the
signal `id` which exists only with ID_WIDTH ≠ 0 (axi_common.py:19-21) -/
def liteToAxi (hwIOCls : Cls) (idWidth : Nat) (end_ : Cls) : Except Err Cls :=
  if end_ ≠ .axi4Lite then .error .connect
  else if idWidth = 0 then .error .attribute
  else .ok hwIOCls

/-- builder.py:118-134: the class of the end of the builder after `to_axi(axi_cls, id_width)` -/
def toAxi (end_ axiCls : Cls) (idWidth : Nat) : Except Err Cls :=
  if end_ = axiCls then .ok end_
  else if !axiCls.full then axiToLite end_
  else liteToAxi axiCls idWidth end_

/-! ## buff_cdc -/

/-- frequencies which are given to the ports of the component for clocks, and the clocks connected there -/
structure Cdc where
  clkFreq : Nat
  mClkFreq : Nat
  clkConnected : Nat
  mClkConnected : Nat
  addrDepth : Nat
  dataDepth : Nat
deriving DecidableEq

def isPow2 (n : Nat) : Bool := n != 0 && 2 ^ Nat.log2 n == n

/-- builder.py:69-98 with buff_cdc.py:29-45; `current`, `clk` are the frequencies of the clocks -/
def buffCdc (current clk addrItems dataItems : Nat) : Except Err Cdc :=
  let sFreq := current
  let mFreq := clk
  if (addrItems == 1 || isPow2 (addrItems - 1)) && (dataItems == 1 || isPow2 (dataItems - 1)) then
    .ok { clkFreq := mFreq, mClkFreq := sFreq, clkConnected := current, mClkConnected := clk,
          addrDepth := addrItems, dataDepth := dataItems }
  else .error .assertion

/-! ## to_avalon_mm -/

/-- MAX_BURST of the component: builder.py:142; avalon/axiToMm.py:72-73 refuses other values -/
def maxBurst (lenWidth : Nat) : Nat := 2 ^ (lenWidth + 1)

/-- avalon/mm.py:62 -/
def burstCountWidth (lenWidth : Nat) : Nat := log2ceil (maxBurst lenWidth)

/-- avalon/axiToMm.py:240: `fitTo(len, burstCount) + 1` -/
def burstCount (lenWidth len : Nat) : Nat :=
  (len % 2 ^ burstCountWidth lenWidth + 1) % 2 ^ burstCountWidth lenWidth

/-! ## resize -/

/-- builder.py:100-116: widths of the address and of the data of the end, and if a component is made; the
resizer has the widths it is configured to -/
def resize (endAddr endData : Nat) (addrWidth dataWidth : Option Nat) : (Nat × Nat) × Bool :=
  let d := dataWidth.getD endData
  let a := addrWidth.getD endAddr
  if d = endData ∧ a = endAddr then ((endAddr, endData), false) else ((a, d), true)

end Verif.AxiBld
