import Verif.Common
/-!
# `DebugBusMonitor` (`hwtLib/abstract/debug_bus_monitor.py`) and its tool (`hwtLib/tools/debug_bus_monitor_ctl.py`)

* The address space is one number with the byte 0 in its lowest bits, the bus is 32 bit wide (`devmem` reads words of 4 bytes).
  `HStruct` packs its fields without a padding, the first one in the lowest bits.
* JSON: `json.loads(json.dumps(x))` is `x` (Python library), the text is an arbitrary list of bytes.
* Trigger, CDC and registers between the interface and the monitor are not modelled, the monitored value is the value at its input.
* Links between the nodes are not modelled.
-/
namespace Verif.DbgMon

/-! ## Monitored data -/

mutual
/-- An interface with its current value: a signal with its width and value or named members. -/
inductive V
  | sig (w v : Nat)
  | node (ms : Ms)
inductive Ms
  | nil
  | cons (name : String) (v : V) (ms : Ms)
end

mutual
/-- `DebugBusMonitorDataRecord` (debug_bus_monitor.py:22-44); `id` is the position in `monitored_data`, `io` is `none` for a record
which is `visual_only`. -/
inductive Tree
  | mk (id : Nat) (name : String) (io : Option V) (kids : Forest)
inductive Forest
  | nil
  | cons (t : Tree) (ts : Forest)
end

mutual
def V.width : V → Nat
  | .sig w _ => w
  | .node ms => ms.width
def Ms.width : Ms → Nat
  | .nil => 0
  | .cons _ v ms => v.width + ms.width
end

mutual
/-- Bits of the interface in `data_memory` (`HwIO_to_HdlType`, debug_bus_monitor.py:147-150) -/
def V.pack : V → Nat
  | .sig _ v => v
  | .node ms => ms.pack
def Ms.pack : Ms → Nat
  | .nil => 0
  | .cons _ v ms => v.pack + 2 ^ v.width * ms.pack
end

mutual
/-- Each value fits into its width. -/
def V.Fits : V → Prop
  | .sig w v => v < 2 ^ w
  | .node ms => ms.Fits
def Ms.Fits : Ms → Prop
  | .nil => True
  | .cons _ v ms => v.Fits ∧ ms.Fits
end

/-- `data_memory`: interfaces in the order of `monitored_data`. -/
def packL : List (Option V) → Nat
  | [] => 0
  | none :: l => packL l
  | some v :: l => v.pack + 2 ^ v.width * packL l
def widthL : List (Option V) → Nat
  | [] => 0
  | none :: l => widthL l
  | some v :: l => v.width + widthL l

mutual
/-- Records of the tree, parent first. -/
def Tree.pre : Tree → List (Nat × Option V)
  | .mk i _ io kids => (i, io) :: kids.pre
def Forest.pre : Forest → List (Nat × Option V)
  | .nil => []
  | .cons t ts => t.pre ++ ts.pre
end

/-- `f` is the forest of the registered records (each record once, records without a parent are roots). -/
def Registered (regs : List (Option V)) (f : Forest) : Prop :=
  (f.pre.map Prod.fst).Perm (List.range regs.length) ∧ ∀ i io, (i, io) ∈ f.pre → regs[i]? = some io

/-! ## Meta memory -/

mutual
/-- `"data"` of a record in JSON -/
inductive Spec
  | bits (off w : Nat)
  | mems (ms : Ss)
inductive Ss
  | nil
  | cons (name : String) (s : Spec) (ms : Ss)
end

mutual
/-- A record in JSON and `VisualNodeTemplate` of the tool (debug_bus_monitor_ctl.py:102-112, 226-235) -/
inductive JT
  | mk (id : Nat) (name : String) (spec : Spec) (kids : JF)
inductive JF
  | nil
  | cons (t : JT) (ts : JF)
end

mutual
/-- `_build_meta_memory` (debug_bus_monitor.py:194-205), the second argument is the offset. -/
def V.toSpec : V → Nat → Nat × Spec
  | .sig w _, o => (o + w, .bits o w)
  | .node ms, o => ((ms.toSpec o).1, .mems (ms.toSpec o).2)
def Ms.toSpec : Ms → Nat → Nat × Ss
  | .nil, o => (o, .nil)
  | .cons n v ms, o => ((ms.toSpec (v.toSpec o).1).1, .cons n (v.toSpec o).2 (ms.toSpec (v.toSpec o).1).2)
end

/-- debug_bus_monitor.py:217-220 -/
def ioSpec : Option V → Nat → Nat × Spec
  | none, o => (o, .mems .nil)
  | some v, o => v.toSpec o

mutual
/-- `build_meta_memory_json` (debug_bus_monitor.py:209-231) -/
def Tree.toJson : Tree → Nat → Nat × JT
  | .mk i n io kids, o => ((kids.toJson (ioSpec io o).1).1, .mk i n (ioSpec io o).2 (kids.toJson (ioSpec io o).1).2)
def Forest.toJson : Forest → Nat → Nat × JF
  | .nil, o => (o, .nil)
  | .cons t ts, o => ((ts.toJson (t.toJson o).1).1, .cons (t.toJson o).2 (ts.toJson (t.toJson o).1).2)
end

/-! ## Address space (debug_bus_monitor.py:137-191) -/

/-- `int.from_bytes(b, "little")` -/
def fromBytes : List Nat → Nat
  | [] => 0
  | b :: bs => b + 256 * fromBytes bs
/-- `v.to_bytes(n, "little")` (`v` fits) -/
def toBytes : Nat → Nat → List Nat
  | 0, _ => []
  | n + 1, v => v % 256 :: toBytes n (v / 256)

/-- `int.bit_length` -/
def bitLen (n : Nat) : Nat := if n = 0 then 0 else Nat.log2 n + 1
/-- Bits before `meta_memory` -/
def closest (dw : Nat) : Nat := 2 ^ bitLen (64 + dw)
def metaOff (dw : Nat) : Nat := closest dw / 8
/-- The content of the address space: `json` is the text in the meta memory, `data` are `dw` bits of `data_memory`. -/
def space (json : List Nat) (dw data : Nat) : Nat :=
  json.length + 2 ^ 32 * (metaOff dw + 2 ^ 32 * data) + 2 ^ closest dw * fromBytes json

/-! ## Tool -/

/-- debug_bus_monitor_ctl.py:19-26 -/
def selectBits (val start len : Nat) : Nat := val / 2 ^ start % 2 ^ len
/-- Word on the bus. -/
def word (m a : Nat) : Nat := m / 2 ^ (8 * a) % 2 ^ 32
/-- debug_bus_monitor_ctl.py:34-38 -/
def joinWords : List Nat → Nat
  | [] => 0
  | w :: ws => joinWords ws * 2 ^ 32 + w
/-- debug_bus_monitor_ctl.py:29-32, 38: mask of the last word -/
def wordsToInt (ws : List Nat) (size : Nat) : Nat :=
  joinWords (if size % 4 = 0 then ws
    else match ws.getLast? with
      | none => ws
      | some w => ws.dropLast ++ [w % 2 ^ (8 * (size % 4))])
/-- `DebugBusMonitorCtlDevmem.read` (debug_bus_monitor_ctl.py:336-347) -/
def read (m addr size : Nat) : List Nat :=
  toBytes size (wordsToInt ((List.range ((size + 3) / 4)).map fun i => word m (addr + 4 * i)) size)
/-- debug_bus_monitor_ctl.py:265-268 -/
def readInt (m addr size : Nat) : Nat := fromBytes (read m addr size)

mutual
/-- `get_data_memory_width` (debug_bus_monitor_ctl.py:248-263) -/
def Spec.end : Spec → Nat
  | .bits o w => o + w
  | .mems ms => ms.end
def Ss.end : Ss → Nat
  | .nil => 0
  | .cons _ s ms => max s.end ms.end
end
/-- Only `data_spec` of the nodes is used. -/
def JF.end : JF → Nat
  | .nil => 0
  | .cons (.mk _ _ s _) ts => max s.end ts.end

/-- debug_bus_monitor_ctl.py:237-246, 274-278: the text in the meta memory -/
def loadMeta (m : Nat) : List Nat := read m (readInt m 4 4) (readInt m 0 4)
/-- debug_bus_monitor_ctl.py:246, 278 -/
def loadData (m : Nat) (j : JF) : Nat := readInt m 8 ((j.end + 7) / 8)

/-- A line of the output: indentation, name, width and value. -/
structure Line where
  ind : Nat
  name : String
  val : Option (Nat × Nat)
deriving DecidableEq

mutual
/-- `_default_txt_formatter` (debug_bus_monitor_ctl.py:196-210) without children -/
def Spec.fmt (data ind : Nat) (name : String) : Spec → List Line
  | .bits o w => [⟨ind, name, some (w, selectBits data o w)⟩]
  | .mems ms => ⟨ind, name, none⟩ :: ms.fmt data (ind + 1)
def Ss.fmt (data ind : Nat) : Ss → List Line
  | .nil => []
  | .cons n s ms => s.fmt data ind n ++ ms.fmt data ind
end

def Spec.isBits : Spec → Bool
  | .bits _ _ => true
  | .mems _ => false

mutual
/-- `_default_txt_formatter`: children are printed only behind members (debug_bus_monitor_ctl.py:204-210) -/
def JT.fmt (data ind : Nat) : JT → List Line
  | .mk _ n s kids => s.fmt data ind n ++ if s.isBits then [] else kids.fmt data (ind + 1)
/-- debug_bus_monitor_ctl.py:280-283 -/
def JF.fmt (data ind : Nat) : JF → List Line
  | .nil => []
  | .cons t ts => t.fmt data ind ++ ts.fmt data ind
end

/-- `dump_txt` for the hardware with data memory of the records `regs`. -/
def dump (json : List Nat) (regs : List (Option V)) (f : Forest) : List Line :=
  (f.toJson 0).2.fmt (loadData (space json (widthL regs) (packL regs)) (f.toJson 0).2) 0

/-! ## Colors (debug_bus_monitor_ctl.py:50-99) -/

inductive Color | red | purple | green
deriving DecidableEq

/-- `_try_get_HwIO_index_by_name` for members which are signals -/
def tryGet (ms : List (String × Nat × Nat)) (data : Nat) : List String → Option Nat
  | [] => none
  | n :: ns => match ms.reverse.lookup n with
    | some (o, w) => some (selectBits data o w)
    | none => tryGet ms data ns

def color (ms : List (String × Nat × Nat)) (data : Nat) : Option Color :=
  let rd := tryGet ms data ["rd", "ready"]
  let vld := tryGet ms data ["vld", "valid", "en", "enable", "ce", "clock_enable"]
  if rd.isSome || vld.isSome then
    if rd.getD 0 ≠ 0 ∧ vld.getD 0 ≠ 0 then some .green
    else if vld.getD 0 ≠ 0 then some .red
    else if rd.getD 0 = 0 then some .purple
    else none
  else if vld.isSome then some (if vld.getD 0 ≠ 0 then .green else .red)
  else if rd.isSome then some (if rd.getD 0 ≠ 0 then .green else .red)
  else none

end Verif.DbgMon
