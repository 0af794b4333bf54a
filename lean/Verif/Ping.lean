import Verif.Common

/-!
# `Axi4SPingResponder` (`hwtLib/examples/builders/pingResponder.py`)

A request has `N` words, a reply has `M` words. The frame parser gives a field in the word where the field ends; every word
of the request contains some field stored in a register (true for `DATA_WIDTH ≥ 32`), so the parser does not accept a word while
the registers are frozen (`In.rd(~freeze)`, line 88). The deparser sends one word after the other while its fields are valid
(`sendingReply`). Words are numbers, `dstOf`/`typeOf` extract the address/type from the words `d`/`t`.
-/

namespace Verif.Ping

structure Cfg where
  N : Nat
  M : Nat
  d : Nat
  t : Nat
  dstOf : Nat → Nat
  typeOf : Nat → Nat
  myIp : Nat

structure St where
  sending : Bool
  isEcho : Bool
  /-- word of the request, fields of `resp` by the word of the request, word of the reply -/
  idx : Nat
  resp : Nat → Nat
  tidx : Nat

structure In where
  vld : Bool
  data : Nat
  last : Bool
  rdy : Bool

/-- `ICMP_TYPE.ECHO_REQUEST` -/
def echoRequest : Nat := 8

/-- `rx.ready`, line 88 -/
def rxReady (s : St) : Bool := !s.sending

/-- lines 85-88, 148-150, 167-171 -/
def next (c : Cfg) (s : St) (i : In) : St :=
  let acc := i.vld && rxReady s
  let tlast := s.tidx == c.M - 1
  { sending := if i.last && i.vld then c.myIp == c.dstOf (s.resp c.d) && s.isEcho else if s.sending && tlast then false else s.sending
    isEcho := if acc && s.idx == c.t then c.typeOf i.data == echoRequest else s.isEcho
    idx := if acc then (if i.last then 0 else s.idx + 1) else s.idx
    resp := if acc then upd s.resp s.idx i.data else s.resp
    tidx := if s.sending && i.rdy then (if tlast then 0 else s.tidx + 1) else s.tidx }

/-- registers of `resp` have no reset -/
def init (r0 : Nat → Nat) : St := ⟨false, false, 0, r0, 0⟩

/-- `icmp_checksum`, lines 127-129: 16 bit inverted sum -/
def checksum (ident seqNo : Nat) : Nat := 65535 - (ident + seqNo) % 65536

end Verif.Ping
