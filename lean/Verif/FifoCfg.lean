import Verif.Common
/-!
# Configuration of HandshakedFifo and HsFifoAsync (hwtLib/handshaked/fifo.py, hwtLib/handshaked/fifoAsync.py)

The exceptions raised by the declaration and by the implementation for values of parameters, with the parameters given to the
inner fifo. `isPow2` and `log2ceil` are of the hwt library. INIT_DATA is given by its length, data wider than zero bits.
-/
namespace Verif.FifoCfg

inductive Err | assertion | attribute | notImplemented
  deriving DecidableEq, Repr

structure Par where
  depth : Nat
  size : Bool
  space : Bool
  init : Nat
  deriving DecidableEq, Repr

/-- the inner fifo: its parameters, if a first word is given to the output, the reset value of `out_vld` and the width of the
signals `size` and `space` -/
structure Built where
  depth : Nat
  size : Bool
  space : Bool
  init : Nat
  first : Bool
  outVld : Bool
  sizeW : Nat
  deriving DecidableEq, Repr

/-- handshaked/fifo.py:46, 52-72, 113 -/
def hsDeclr (p : Par) : Except Err Built :=
  if ¬ p.depth > 0 then .error .assertion
  else if ¬ p.depth > 1 then .error .assertion
  else if ¬ p.init ≤ p.init then .error .assertion
  else .ok {
    depth := p.depth - 1, size := p.size, space := p.space
    init := if p.init = p.depth then p.init - 1 else p.init
    first := decide (p.init = p.depth), outVld := decide (p.init = p.depth), sizeW := log2ceil (p.depth + 1 + 1) }

/-- handshaked/fifo.py:74-93: `self.size` exists only with EXPORT_SIZE -/
def hsImpl (p : Par) (b : Built) : Except Err Built :=
  if p.space && !p.size then .error .attribute else .ok b

def hsFifo (p : Par) : Except Err Built := match hsDeclr p with
  | .error e => .error e
  | .ok b => hsImpl p b

def isPow2 (n : Nat) : Bool := n != 0 && 2 ^ Nat.log2 n == n

/-- mem/fifoAsync.py:31-37 -/
def asyncDeclr (depth : Nat) (size space : Bool) : Except Err Unit :=
  if ¬ depth > 0 then .error .assertion
  else if ¬ isPow2 depth then .error .assertion
  else if size || space then .error .notImplemented
  else .ok ()

/-- handshaked/fifoAsync.py:29-62, the inner fifo is declared with the parameters; INIT_DATA is not given to it. The reset value of
`out_vld` is of handshaked/fifo.py:113. -/
def hsFifoAsync (p : Par) : Except Err Built :=
  if ¬ isPow2 (p.depth - 1) then .error .assertion
  else match asyncDeclr (p.depth - 1) p.size p.space with
  | .error e => .error e
  | .ok () => hsImpl p {
    depth := p.depth - 1, size := p.size, space := p.space, init := 0, first := false
    outVld := decide (p.init = p.depth), sizeW := log2ceil (p.depth + 1 + 1) }

end Verif.FifoCfg
