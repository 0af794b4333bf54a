import Verif.Common
/-!
# Agents of ready/valid interfaces with several data signals

Two functions of the agents: `set_data` of the driver writes a tuple on the signals (`None` if there is nothing to send) and
`get_data` of the monitor reads a tuple.  Signals are named by strings, a value is a number or `none` (invalid).  `none` as result
of a function is an exception.  A function object in a tuple is `Cell.func`.

Simplifications: an item without brackets is a tuple with one member; nested tuples are flat; a tuple with a wrong number of members
is an exception (of unpacking).
-/
namespace Verif.TupAg

abbrev Val := Option Nat
abbrev Env := String → Val

inductive Cell
  | val (v : Val)
  | func
deriving DecidableEq

structure Agent where
  /-- number of members of a tuple -/
  arity : Nat
  set : Option (List Val) → Env → Option Env
  get : Env → Option (List Cell)

def put (e : Env) (f : String) (v : Val) : Env := fun g => if g = f then v else e g

/-- signals `fs` written with members of `d` -/
def writes : List String → List Val → Env → Env
  | f :: fs, v :: d, e => writes fs d (put e f v)
  | _, _, e => e

/-- `a, b, c = data` and the writes; `None` on all signals for `None` -/
def plainSet (fs : List String) (data : Option (List Val)) (e : Env) : Option Env :=
  match data with
  | none => some (writes fs (fs.map fun _ => none) e)
  | some d => if d.length = fs.length then some (writes fs d e) else none

def plainGet (fs : List String) (e : Env) : Option (List Cell) := some (fs.map fun f => .val (e f))

/-- agent with tuples `wr` for `set_data`, `rd` for `get_data` -/
def plain (wr rd : List String) : Agent := ⟨wr.length, plainSet wr, plainGet rd⟩

/-- commonHwIO/addr_data.py:91-107 -/
def addrData : Agent := plain ["addr", "data"] ["addr", "data"]
/-- commonHwIO/addr_data.py:110-127 -/
def addrDataMask : Agent := plain ["addr", "data", "mask"] ["addr", "data", "mask"]
/-- commonHwIO/addr_data.py:130-147 -/
def addrDataVld : Agent := plain ["addr", "data", "vld_flag"] ["addr", "data", "vld_flag"]
/-- commonHwIO/data_mask_last_hs.py:40-54 -/
def dataMaskLast : Agent := plain ["data", "mask", "last"] ["data", "mask", "last"]
/-- commonHwIO/index_key_hs.py:33-55 -/
def indexKey (key : Bool) : Agent :=
  if key then plain ["key", "index"] ["key", "index"] else plain ["index"] ["index"]
/-- mem/fifoArray.py:70-81 -/
def fifoArrayInsert : Agent := plain ["addr", "append", "data"] ["addr", "append", "data"]
/-- mem/fifoArray.py:112-126 -/
def fifoArrayPop : Agent := plain ["data", "last", "addr_next"] ["data", "last", "addr_next"]
/-- mem/fifoDrop.py:50-67 -/
def fifoDrop : Agent := plain ["data", "commit", "discard"] ["commit", "discard", "data"]
/-- amba/axi_comp/oooOp/reorder_buffer.py:48-61 -/
def reorder : Agent := plain ["id", "data"] ["id", "data"]
/-- amba/axi3.py:161-183 -/
def axi3R : Agent := plain ["id", "data", "resp", "last"] ["id", "data", "resp", "last"]
/-- amba/axi3.py:217-232 -/
def axi3B : Agent := plain ["id", "resp"] ["id", "resp"]
/-- amba/axi3Lite.py:81-95 -/
def axiLiteR : Agent := plain ["data", "resp"] ["data", "resp"]
/-- amba/axi3Lite.py:124-137 -/
def axiLiteW : Agent := plain ["data", "strb"] ["data", "strb"]
/-- amba/axi4Lite.py:33-44 -/
def axi4LiteAddr : Agent := plain ["addr", "prot"] ["addr", "prot"]
/-- avalon/st.py:47-67 -/
def avalonSt : Agent :=
  plain ["channel", "data", "error", "startOfPacket", "endOfPacket"] ["channel", "data", "error", "startOfPacket", "endOfPacket"]
/-- avalon/mm.py:105-120 -/
def avalonR : Agent := plain ["readData", "response"] ["readData", "response"]
/-- peripheral/mdio/master.py:55-74 -/
def mdioReq : Agent := plain ["opcode", "phy", "reg", "wdata"] ["opcode", "phy", "reg", "wdata"]
/-- peripheral/spi/master.py:21-37 -/
def spiData : Agent := plain ["slave", "dout", "last"] ["slave", "dout", "last"]
/-- peripheral/i2c/masterBitCntrl.py:54-66 -/
def i2cCmd : Agent := plain ["cmd", "din"] ["cmd", "din"]
/-- peripheral/ethernet/vldsynced_data_err_last.py:34-55 -/
def errLast (mask : Bool) : Agent :=
  if mask then plain ["data", "mask", "err", "last"] ["data", "mask", "err", "last"]
  else plain ["data", "err", "last"] ["data", "err", "last"]

/-- mem/cuckooHashTable_intf.py:58-78 -/
def cuckooInsert (hasData : Bool) : Agent :=
  if hasData then plain ["key", "data"] ["key", "data"] else plain ["key"] ["key"]

/-- mem/cuckooHashTable_intf.py:87-109; without data `p` is read before it is assigned -/
def cuckooInsertRes (hasData : Bool) : Agent :=
  if hasData then plain ["pop", "key", "data"] ["pop", "key", "data"]
  else ⟨2, fun _ _ => none, plainGet ["pop", "key"]⟩

/-- mem/hashTable_intf.py:27-59; `hash` in `get_data` is the function of Python, the value read is in `_hash` -/
def insert (hasData : Bool) : Agent :=
  if hasData then
    ⟨4, plainSet ["hash", "key", "data", "item_vld"], fun e => some [.func, .val (e "key"), .val (e "data"), .val (e "item_vld")]⟩
  else ⟨3, plainSet ["hash", "key", "item_vld"], fun e => some [.func, .val (e "key"), .val (e "item_vld")]⟩

/-- mem/hashTable_intf.py:97-111; the signal of the interface is `lookupId` (:128), `lookup_id` is an AttributeError -/
def lookupKey (hasId : Bool) : Agent :=
  if hasId then ⟨2, fun _ _ => none, fun _ => none⟩ else plain ["key"] ["key"]

def lookupFields (hasHash hasKey hasData : Bool) : List String :=
  (if hasHash then ["hash"] else []) ++ (if hasKey then ["key"] else []) ++ (if hasData then ["data"] else []) ++
    ["found", "occupied"]

/-- mem/hashTable_intf.py:150-192; `iter(None)` is a TypeError, `next` at the end raises StopIteration (not IndexError), a longer tuple
is an AssertionError, a shorter one a StopIteration -/
def lookupRes (hasHash hasKey hasData : Bool) : Agent :=
  ⟨(lookupFields hasHash hasKey hasData).length, fun _ _ => none, plainGet (lookupFields hasHash hasKey hasData)⟩

end Verif.TupAg
