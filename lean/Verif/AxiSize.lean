import Verif.Common
/-!
# Sizes of AXI transfers (hwtLib/amba/constants.py, axi_comp/interconnect/base.py) and address requests
created by the simulation agents (hwtLib/amba/axi3.py, axi4.py)
-/
namespace Verif.AxiSize

/-- `int.bit_length` of a number which is not negative -/
def bitLength (n : Nat) : Nat := if h : n = 0 then 0 else bitLength (n / 2) + 1
termination_by n
decreasing_by omega

/-- constants.py:11-13 -/
def bytesInTrans (n : Nat) : Int := (bitLength n : Int) - 1

/-- axi_comp/interconnect/base.py:8-11; `dataWidth` is at least 8 -/
def getSizeWidth (maxLen dataWidth : Nat) : Nat := (log2ceil maxLen + 1) + log2ceil (dataWidth / 8 - 1)

/-- A value which the agent drives; `none` is an undefined value -/
abbrev V := Option Int

/-- arguments of `create_addr_req`, `size = none` is the default; `user` is given or `None` -/
structure Req where
  id : Int := 0
  addr : Int
  burst : Int := 1
  cache : Int := 3
  len : Int
  lock : Int := 0
  prot : Int := 0
  size : Option Int := none
  qos : Int := 0
  user : V := none

def Req.sizeOf (r : Req) (dataWidth : Nat) : Int := r.size.getD (bytesInTrans (dataWidth / 8))

/-- axi3.py:81-100; `none` is an AssertionError -/
def create3 (dataWidth userWidth : Nat) (r : Req) : Option (List V) :=
  if userWidth ≠ 0 then
    some [some r.id, some r.addr, some r.burst, some r.cache, some r.len, some r.lock, some r.prot,
      some (r.sizeOf dataWidth), r.user]
  else if r.user = none then
    some [some r.id, some r.addr, some r.burst, some r.cache, some r.len, some r.lock, some r.prot,
      some (r.sizeOf dataWidth)]
  else none

/-- axi4.py:56-76; `none` is an AssertionError -/
def create4 (dataWidth userWidth : Nat) (r : Req) : Option (List V) :=
  if userWidth ≠ 0 then
    some [some r.id, some r.addr, some r.burst, some r.cache, some r.len, some r.lock, some r.prot,
      some (r.sizeOf dataWidth), some r.qos, r.user]
  else if r.user = none then
    some [some r.id, some r.addr, some r.burst, some r.cache, some r.len, some r.lock, some r.prot,
      some (r.sizeOf dataWidth), some r.qos]
  else none

inductive Sig where
  | id | addr | burst | cache | len | lock | prot | size | qos | user
deriving DecidableEq

/-- the signals in the order in which the agent drives them: axi3.py:63-79; the signal `id` exists only with
ID_WIDTH ≠ 0 (axi_common.py:19-21), `none` is the AttributeError otherwise -/
def signals3 (idWidth userWidth : Nat) : Option (List Sig) :=
  if idWidth = 0 then none
  else some ([.id, .addr, .burst, .cache, .len, .lock, .prot, .size] ++ if userWidth ≠ 0 then [.user] else [])

/-- axi4.py:37-54 -/
def signals4 (idWidth userWidth : Nat) : Option (List Sig) :=
  if idWidth = 0 then none
  else some ([.id, .addr, .burst, .cache, .len, .lock, .prot, .size, .qos] ++ if userWidth ≠ 0 then [.user] else [])

/-- The values are written to the signals in order (`zip`) -/
def drive (sigs : List Sig) (vs : List V) (s : Sig) : Option V :=
  ((sigs.zip vs).find? (fun p => p.1 = s)).map (·.2)

end Verif.AxiSize
