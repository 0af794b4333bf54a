import Verif.Common
import Verif.AddrDecode
/-!
# `AddrDataRdVld_to_Axi` (`hwtLib/commonHwIO/addr_data_to_Axi.py`)

Requests of `s_w`, `s_r` are translated to AXI bursts. Modelled: the counters of pending transactions with the handshake of the
requests, the address and the position in the AXI word, the length of the burst.

Simplifications: the buffer `AxiBuff` behind the logic is cut off (it keeps order and content); the slaves of the `StreamNode`
other than the address channel (data register and `_select`, or `sel`) are one ready signal. Addresses are `Nat`.
-/
namespace Verif.AddrDataAxi
open Verif.AddrDecode (propagate alignBits)

/-! ## Pending transactions -/

/-- `vld` of `s_w` or `s_r.addr`, `ready` of the address channel, ready of the other slaves of the node, `done` is `b.valid` or
`r_en`. -/
structure In where
  vld : Bool
  ardy : Bool
  ordy : Bool
  done : Bool
deriving DecidableEq, Repr

/-- `rd` of the request, `valid` of the address channel, valid of the other slaves -/
structure Out where
  rd : Bool
  avld : Bool
  ovld : Bool
deriving DecidableEq, Repr

/-- addr_data_to_Axi.py:278-279 -/
def cntrMax (overlap : Nat) : Nat := 2 ^ log2ceil overlap - 1

/-- `sync(cntr != CNTR_MAX)` (addr_data_to_Axi.py:166, 228-229) -/
def out (overlap : Nat) (c : Nat) (i : In) : Out :=
  let en := c != cntrMax overlap
  { rd := i.ardy && i.ordy && en
    avld := i.vld && i.ordy && en
    ovld := i.vld && i.ardy && en }

/-- addr_data_to_Axi.py:169-175, 242-248 -/
def next (overlap : Nat) (c : Nat) (i : In) : Nat :=
  if i.ardy && (out overlap c i).avld then
    if !i.done then (c + 1) % 2 ^ log2ceil overlap else c
  else if i.done then (c + 2 ^ log2ceil overlap - 1) % 2 ^ log2ceil overlap
  else c

def m (overlap : Nat) : Machine Nat In Out := ⟨out overlap, next overlap⟩

/-! ## Address -/

/-- `A`: `DATA_WIDTH` of AXI, `S`: `S_DATA_WIDTH`, `step`: `S_ADDR_STEP`, `sw`, `dw`: widths of the addresses,
`off`: `M_ADDR_OFFSET` -/
structure Cfg where
  A : Nat
  S : Nat
  step : Nat
  sw : Nat
  dw : Nat
  off : Nat
deriving DecidableEq, Repr

/-- addr_data_to_Axi.py:83 -/
def Cfg.DW (g : Cfg) : Nat := (g.S + 7) / 8 * 8
/-- `data_words_in_axi_word` (addr_data_to_Axi.py:84) -/
def Cfg.n (g : Cfg) : Nat := g.A / g.DW
/-- addr_data_to_Axi.py:179 -/
def Cfg.subBits (g : Cfg) : Nat := log2ceil (g.n - 1)
/-- addr_data_to_Axi.py:180, the low bits are cleared; the address itself for one word (:143-144, 199-200) -/
def Cfg.mainAddr (g : Cfg) (a : Nat) : Nat := if g.n ≤ 1 then a else a - a % 2 ^ g.subBits
/-- addr_data_to_Axi.py:181 -/
def Cfg.subAddr (g : Cfg) (a : Nat) : Nat := if g.n ≤ 1 then 0 else a % 2 ^ g.subBits
/-- `connect_addr` (addr_data_to_Axi.py:124-128) -/
def Cfg.axAddr (g : Cfg) (a : Nat) : Nat := propagate g.dw g.step 8 g.off (g.mainAddr a)
/-- offset of the member `data{i}` of the union in the word, in bits (addr_data_to_Axi.py:92-103) -/
def Cfg.lane (g : Cfg) (a : Nat) : Nat := g.subAddr a * g.DW
/-- `len` (addr_data_to_Axi.py:115-116) -/
def Cfg.len (g : Cfg) : Nat := (g.S + g.A - 1) / g.A - 1

/-- Configurations which can be built: AXI words of a power of two bytes, asserts addr_data_to_Axi.py:255 and
addressStepTranslation.py:17, 41; members of the union have the same width and the data has the width of the member
(:97, 161, 224). -/
structure Legal (g : Cfg) : Prop where
  axi : ∃ p, g.A = 8 * 2 ^ p
  step : ∃ q, g.step = 2 ^ q
  pos : 0 < g.S
  fits : g.S ≤ g.step
  union : g.n ≤ 1 ∨ (g.S % 8 = 0 ∧ g.A % g.S = 0)
  addr : 8 ≤ g.step → g.sw + alignBits g.step 8 ≤ g.dw

/-- AXI: the bytes of a burst begin on the word which contains the start address. Byte `j` of the word of the request. -/
def byteAddr (g : Cfg) (a j : Nat) : Nat :=
  g.axAddr a / (g.A / 8) * (g.A / 8) + (g.lane a + 8 * j) / 8

end Verif.AddrDataAxi
