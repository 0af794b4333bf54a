import Verif.HsFifo
import Verif.HsReg

/-!
# `AvalonMmBuff` (`hwtLib/avalon/mm_buff.py`)

Built from the models of `HandshakedFifo` and `HandshakedReg`. A request is `some r` if `read | write`, `r` are all
signals which are packed to the buffer. `DATA_BUFF_DEPTH = 1` with another `ADDR_BUFF_DEPTH` can not be built (assert of
`HandshakedFifo`, because the fifo of addresses gets `DEPTH = 1`), the model uses a register for it.
-/

namespace Verif.AvmmBuff

open Verif

structure Cfg where
  /-- `ADDR_BUFF_DEPTH` -/
  aD : Nat
  /-- `DATA_BUFF_DEPTH` -/
  dD : Nat

variable {α β ρ : Type}

/-- Register and fifo, only one of them is present, see `buf` functions. -/
structure Buf (α : Type) where
  reg : HsReg.Stage α
  fifo : HsFifo.St α

/-- lines 49-58: the depth which is really used for the depth `D` -/
def Cfg.depth (c : Cfg) (D : Nat) : Nat := if D = 1 then 1 else c.dD

/-- `D = 1` is the register -/
def bufRd (D : Nat) (b : Buf α) (rd : Bool) : Bool :=
  if D = 1 then HsReg.stageRd b.reg rd else !Fifo.writeWait b.fifo.fifo
def bufVld (D : Nat) (b : Buf α) : Bool := if D = 1 then b.reg.occ else b.fifo.outVld
def bufData (D : Nat) (b : Buf α) : α := if D = 1 then b.reg.reg else b.fifo.fifo.dout
def bufNext (D : Nat) (b : Buf α) (i : HsFifo.In α) : Buf α :=
  if D = 1 then { b with reg := HsReg.stageNext b.reg i.vld i.data i.rd }
  else { b with fifo := HsFifo.next D b.fifo i }

structure St (α β ρ : Type) where
  r : Buf α
  w : Buf β
  a : Buf ρ

structure In (α β ρ : Type) where
  /-- slave side: `read | write` with the packed signals -/
  vld : Bool
  req : ρ
  /-- master side -/
  wait : Bool
  rdv : Bool
  rdata : α
  wrv : Bool
  resp : β

structure Out (α β ρ : Type) where
  wait : Bool
  req : Option ρ
  rdv : Bool
  rdata : α
  wrv : Bool
  resp : β
deriving DecidableEq, Repr

def Cfg.rD (c : Cfg) : Nat := c.depth c.dD
def Cfg.reqD (c : Cfg) : Nat := c.depth c.aD

def out (c : Cfg) (s : St α β ρ) (x : In α β ρ) : Out α β ρ where
  -- lines 89-92
  wait := !bufRd c.reqD s.a (!x.wait)
  -- lines 105-109
  req := if bufVld c.reqD s.a then some (bufData c.reqD s.a) else none
  -- lines 71-73
  rdv := bufVld c.rD s.r
  rdata := bufData c.rD s.r
  -- lines 81-83
  wrv := bufVld c.rD s.w
  resp := bufData c.rD s.w

def next (c : Cfg) (s : St α β ρ) (x : In α β ρ) : St α β ρ where
  r := bufNext c.rD s.r ⟨x.rdv, x.rdata, true⟩
  w := bufNext c.rD s.w ⟨x.wrv, x.resp, true⟩
  a := bufNext c.reqD s.a ⟨x.vld, x.req, !x.wait⟩

def machine (c : Cfg) : Machine (St α β ρ) (In α β ρ) (Out α β ρ) := ⟨out c, next c⟩

/-- reset of a buffer of the depth `D` -/
structure BufInit (D : Nat) (b : Buf α) : Prop where
  reg : b.reg.occ = false
  fifo : ∃ mem0 d0, b.fifo = HsFifo.init D [] mem0 d0

structure IsInit (c : Cfg) (s : St α β ρ) : Prop where
  r : BufInit c.rD s.r
  w : BufInit c.rD s.w
  a : BufInit c.reqD s.a

/-! ## Observations -/

abbrev Tr (α β ρ : Type) := List (In α β ρ × Out α β ρ)
/-- requests on both sides -/
def reqs (tr : Tr α β ρ) : List ρ := tr.flatMap fun e => given (e.1.vld && !e.2.wait) e.1.req
def mReqs (tr : Tr α β ρ) : List ρ := tr.flatMap fun e => if e.1.wait then [] else e.2.req.toList
/-- read data -/
def mData (tr : Tr α β ρ) : List α := tr.flatMap fun e => given e.1.rdv e.1.rdata
def sData (tr : Tr α β ρ) : List α := tr.flatMap fun e => given e.2.rdv e.2.rdata
/-- write responses -/
def mResp (tr : Tr α β ρ) : List β := tr.flatMap fun e => given e.1.wrv e.1.resp
def sResp (tr : Tr α β ρ) : List β := tr.flatMap fun e => given e.2.wrv e.2.resp
/-- read data with their responses -/
def mRead (tr : Tr α β ρ) : List (α × β) := tr.flatMap fun e => given e.1.rdv (e.1.rdata, e.1.resp)
def sRead (tr : Tr α β ρ) : List (α × β) := tr.flatMap fun e => given e.2.rdv (e.2.rdata, e.2.resp)

end Verif.AvmmBuff
