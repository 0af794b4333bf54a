import Verif.HsReg
import Verif.HsFifo

/-!
# `AbstractStreamBuilder.buff` (`hwtLib/abstract/streamBuilder.py`), `AxiBuff` (`hwtLib/amba/axi_comp/buff.py`) and `Mi32Buff`
(`hwtLib/cesnet/mi32/buff.py`)

`buff(items)` without `latency` and `delay`: a wire for `items=0`, `HandshakedReg` with `LATENCY=items` for `items` of 1 and 2,
`HandshakedFifo` with `DEPTH=items` for more.
-/

namespace Verif.Buff

open Verif

variable {α : Type}

structure Buf (α : Type) where
  regs : List (HsReg.Stage α)
  fifo : HsFifo.St α

def rd (D : Nat) (b : Buf α) (r : Bool) : Bool := if D ≤ 2 then HsReg.chainRd b.regs r else !Fifo.writeWait b.fifo.fifo
def vld (D : Nat) (b : Buf α) (v : Bool) : Bool := if D ≤ 2 then HsReg.chainVld b.regs v else b.fifo.outVld
def data (D : Nat) (b : Buf α) (d : α) : α := if D ≤ 2 then HsReg.chainData b.regs d else b.fifo.fifo.dout
def next (D : Nat) (b : Buf α) (i : HsFifo.In α) : Buf α :=
  if D ≤ 2 then { b with regs := HsReg.chainNext b.regs i.vld i.data i.rd } else { b with fifo := HsFifo.next D b.fifo i }

structure BufInit (D : Nat) (b : Buf α) : Prop where
  len : b.regs.length = D
  regs : ∀ s ∈ b.regs, s.occ = false
  fifo : ∃ mem0 d0, b.fifo = HsFifo.init D [] mem0 d0

/-! ## `AxiBuff`, channels of type `ar`, `aw`, `w`, `r`, `b` -/

structure Cfg where
  /-- `ADDR_BUFF_DEPTH` -/
  aD : Nat
  /-- `DATA_BUFF_DEPTH` -/
  dD : Nat

structure AxSt (AR AW W R B : Type) where
  ar : Buf AR
  aw : Buf AW
  w : Buf W
  r : Buf R
  b : Buf B

structure AxIn (AR AW W R B : Type) where
  ar : HsFifo.In AR
  aw : HsFifo.In AW
  w : HsFifo.In W
  r : HsFifo.In R
  b : HsFifo.In B

/-- `ready` to the source and `valid`, `data` to the destination of a channel -/
structure Ch (α : Type) where
  rd : Bool
  vld : Bool
  data : α

structure AxOut (AR AW W R B : Type) where
  ar : Ch AR
  aw : Ch AW
  w : Ch W
  r : Ch R
  b : Ch B

def ch (D : Nat) (b : Buf α) (i : HsFifo.In α) : Ch α := ⟨rd D b i.rd, vld D b i.vld, data D b i.data⟩

variable {AR AW W R B : Type}

def axi (c : Cfg) : Machine (AxSt AR AW W R B) (AxIn AR AW W R B) (AxOut AR AW W R B) where
  out s x := ⟨ch c.aD s.ar x.ar, ch c.aD s.aw x.aw, ch c.dD s.w x.w, ch c.dD s.r x.r, ch c.aD s.b x.b⟩
  next s x := ⟨next c.aD s.ar x.ar, next c.aD s.aw x.aw, next c.dD s.w x.w, next c.dD s.r x.r, next c.aD s.b x.b⟩

structure AxInit (c : Cfg) (s : AxSt AR AW W R B) : Prop where
  ar : BufInit c.aD s.ar
  aw : BufInit c.aD s.aw
  w : BufInit c.dD s.w
  r : BufInit c.dD s.r
  b : BufInit c.aD s.b

/-! ## `Mi32Buff` -/

/-- a request: `read`, `write` and the rest (address, byte enable, data) -/
structure Req (A : Type) where
  rd : Bool
  wr : Bool
  pay : A

structure MSt (A D : Type) where
  a : Buf (Req A)
  /-- `read_data_reg{i}`, the first one is `i=0` -/
  d : List (Bool × D)

structure MIn (A D : Type) where
  /-- `s` -/
  req : Req A
  /-- `m` -/
  ardy : Bool
  drdy : Bool
  drd : D

structure MOut (A D : Type) where
  /-- `s` -/
  ardy : Bool
  drdy : Bool
  drd : D
  /-- `m` -/
  req : Req A

variable {A D : Type}

/-- value behind the chain of registers -/
def line (x : Bool × D) (l : List (Bool × D)) : Bool × D := l.getLastD x
def shift (x : Bool × D) (l : List (Bool × D)) : List (Bool × D) := (x :: l).take l.length

def aIn (x : MIn A D) : HsFifo.In (Req A) := ⟨x.req.rd || x.req.wr, x.req, x.ardy⟩

def mi32 (c : Cfg) : Machine (MSt A D) (MIn A D) (MOut A D) where
  out s x :=
    let v := vld c.aD s.a (x.req.rd || x.req.wr)
    let q := data c.aD s.a x.req
    { ardy := rd c.aD s.a x.ardy
      drdy := (line (x.drdy, x.drd) s.d).1
      drd := (line (x.drdy, x.drd) s.d).2
      req := ⟨v && q.rd, v && q.wr, q.pay⟩ }
  next s x := { a := next c.aD s.a (aIn x), d := shift (x.drdy, x.drd) s.d }

structure MInit (c : Cfg) (s : MSt A D) : Prop where
  a : BufInit c.aD s.a
  len : s.d.length = c.dD
  d : ∀ p ∈ s.d, p.1 = false

end Verif.Buff
