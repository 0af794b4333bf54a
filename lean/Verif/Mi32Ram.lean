import Verif.Common
/-!
# Mi32 simulation memory and address channel agent, cesnet/mi32/sim_ram.py:8-56, cesnet/mi32/intf.py:108-191

A step of the memory is one change of the clock: the agent appends the requests received since the previous change,
then `checkRequests` processes at most one of them.

Simplifications: the dictionary is a function, `none` = missing key, a stored value is `some v` where `v : Option Nat` is
`none` for an invalid value; address and byte enable of a request are valid values; exceptions are values.
-/
namespace Verif.Mi32Ram

inductive Err | unaligned | keyError | masked | badMode
deriving DecidableEq, Repr

inductive Mode | read | write | readWrite
deriving DecidableEq, Repr

/-- transaction in `requests` of the monitor -/
structure Req where
  mode : Mode
  addr : Nat
  val : Option Nat
  be : Nat
deriving DecidableEq, Repr

structure St where
  mem : Nat → Option (Option Nat)
  req : List Req
  rData : List (Option Nat)

def init (mem : Nat → Option (Option Nat)) : St := ⟨mem, [], []⟩

/-- `on_read`, sim_ram.py:32-38; `wb` = _word_bytes -/
def onRead (wb : Nat) (s : St) (addr : Nat) : Except Err St :=
  if addr % wb ≠ 0 then .error .unaligned
  else match s.mem (addr / wb) with
    | none => .error .keyError
    | some d => .ok { s with rData := s.rData ++ [d] }

/-- `on_write`, sim_ram.py:40-48 -/
def onWrite (wb : Nat) (s : St) (addr : Nat) (val : Option Nat) (be : Nat) : Except Err St :=
  if addr % wb ≠ 0 then .error .unaligned
  else if be = 2 ^ wb - 1 then .ok { s with mem := upd s.mem (addr / wb) (some val) }
  else .error .masked

/-- `on_req`, sim_ram.py:50-56, called from `checkRequests`, sim_ram.py:21-30 -/
def check (wb : Nat) (s : St) : Except Err St :=
  match s.req with
  | [] => .ok s
  | r :: rest =>
    match r.mode with
    | .read => onRead wb { s with req := rest } r.addr
    | .write => onWrite wb { s with req := rest } r.addr r.val r.be
    | .readWrite => .error .badMode

def run (wb : Nat) (s : St) : List (List Req) → Except Err St
  | [] => .ok s
  | e :: es =>
    match check wb { s with req := s.req ++ e } with
    | .error x => .error x
    | .ok s' => run wb s' es

/-! ## agent of the address channel -/

/-- items for the driver: a read has only an address, intf.py:110-111, :174 -/
inductive Item
  | read (addr : Nat)
  | write (addr : Nat) (val : Option Nat) (be : Nat)
  | readWrite (addr : Nat) (val : Option Nat) (be : Nat)
deriving DecidableEq, Repr

/-- signals of the address channel -/
structure Sig where
  addr : Nat
  rd : Bool
  wr : Bool
  be : Nat
  dwr : Option Nat
deriving DecidableEq, Repr

/-- `set_data`, intf.py:164-191 -/
def setData (wb : Nat) : Item → Sig
  | .read a => ⟨a, true, false, 2 ^ wb - 1, none⟩
  | .write a v be => ⟨a, false, true, be, v⟩
  | .readWrite a v be => ⟨a, true, true, be, v⟩

/-- `AvalonMmAddrAgent.set_valid(1)`, avalon/mm.py:167-184, called by `set_valid`, intf.py:139-140 -/
def setValid (x : Item) (s : Sig) : Except Err Sig :=
  match x with
  | .read _ => .ok { s with rd := true, wr := false }
  | .write _ _ _ => .ok { s with rd := false, wr := true }
  | .readWrite _ _ _ => .error .badMode

/-- signals during the transfer of an item, hwt `DataRdVld` agent driver: data are set, then valid -/
def drive (wb : Nat) (x : Item) : Except Err Sig := setValid x (setData wb x)

/-- `get_valid`, intf.py:129-136 -/
def getValid (s : Sig) : Bool := s.rd || s.wr

/-- `get_data`, intf.py:143-161; `none` = AssertionError -/
def getData (s : Sig) : Option Req :=
  if s.rd && s.wr then some ⟨.readWrite, s.addr, s.dwr, s.be⟩
  else if s.rd then some ⟨.read, s.addr, s.dwr, s.be⟩
  else if s.wr then some ⟨.write, s.addr, s.dwr, s.be⟩
  else none

end Verif.Mi32Ram
