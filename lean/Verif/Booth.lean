import Verif.Common
import Mathlib.Data.List.Induction
import Mathlib.Data.List.Basic
import Mathlib.Tactic.Linarith
import Mathlib.Tactic.Ring
/-!
# Model of `MultiplierBooth` (hwtLib/examples/arithmetic/multiplierBooth.py)

`n` is `DATA_WIDTH` (at least 1), `RESULT_WIDTH` is `2 * n`. Vectors are natural numbers less than `2 ^ n`.
-/
namespace Verif.Booth

structure In where
  /-- `dataIn.vld`, `dataIn.a`, `dataIn.b` -/
  vld : Bool
  a : Nat
  b : Nat
  /-- `dataOut.rd` -/
  rd : Bool

structure Out where
  /-- `dataIn.rd` -/
  rd : Bool
  /-- `dataOut.vld`, `dataOut.data` -/
  vld : Bool
  data : Nat

structure St where
  a : Nat
  m : Nat
  q : Nat
  q1 : Nat
  counter : Nat
  wait : Bool

/-- `>> 1` of a signed vector of `n` bits -/
def sra (n x : Nat) : Nat := x / 2 + if 2 ^ (n - 1) ≤ x then 2 ^ (n - 1) else 0

/-- the vector which is shifted (:97-98, :107-120) -/
def sum (n : Nat) (s : St) : Nat :=
  if s.q % 2 = 0 ∧ s.q1 = 1 then (s.a + s.m) % 2 ^ n
  else if s.q % 2 = 1 ∧ s.q1 = 0 then (s.a + 2 ^ n - s.m) % 2 ^ n
  else s.a

def done (s : St) : Bool := s.counter == 0

/-- `start` (:134) -/
def start (s : St) (x : In) : Bool := x.vld && done s && !s.wait

/-- :132-135 -/
def out (n : Nat) (s : St) (_ : In) : Out := ⟨done s && !s.wait, done s && s.wait, s.a * 2 ^ n + s.q⟩

/-- :100-130 -/
def next (n : Nat) (s : St) (x : In) : St :=
  let w := if start s x then true else if done s && x.rd then false else s.wait
  if start s x then ⟨0, x.a, x.b, 0, n, w⟩
  else if !done s then ⟨sra n (sum n s), s.m, sum n s % 2 * 2 ^ (n - 1) + s.q / 2, s.q % 2, s.counter - 1, w⟩
  else { s with wait := w }

def machine (n : Nat) : Machine St In Out := ⟨out n, next n⟩

/-- state after reset; the registers of data have no reset value -/
def IsInit (s : St) : Prop := s.counter = 0 ∧ s.wait = false

/-! ## Observations -/

def accepted (tr : List (In × Out)) : List (Nat × Nat) := tr.flatMap fun e => given (e.1.vld && e.2.rd) (e.1.a, e.1.b)
def delivered (tr : List (In × Out)) : List Nat := tr.flatMap fun e => given (e.2.vld && e.1.rd) e.2.data

/-- value of a vector of `n` bits in two's complement -/
def sgn (n x : Nat) : Int := if x < 2 ^ (n - 1) then x else (x : Int) - 2 ^ n
/-- the vector of `n` bits with a value -/
def rep (n : Nat) (v : Int) : Nat := (v % 2 ^ n).toNat
/-- product of two vectors of `n` bits on `2 n` bits -/
def product (n : Nat) (p : Nat × Nat) : Nat := rep (2 * n) (sgn n p.1 * sgn n p.2)

end Verif.Booth
