import Verif.Common
/-!
# Headers of network protocols (hwtLib/types/net/) as laid out by `HStruct`

`HStruct` of hwt allocates the fields one after another without padding, the first one on the lowest bits; the
bit `k` of a value is the bit `k % 8` (0 is the lowest) of the byte `k / 8` of a packet.
-/
namespace Verif.NetHdr

/-- fields of a header, (name, width) -/
abbrev Hdr := List (String × Nat)

/-- bit offset and width of a field in a struct -/
def find : Hdr → String → Option (Nat × Nat)
  | [], _ => none
  | (n, w) :: r, f => if n = f then some (0, w) else (find r f).map fun p => (w + p.1, p.2)

def bitLength (h : Hdr) : Nat := (h.map (·.2)).sum

/-- a packet: value of a bit of a byte -/
abbrev Pkt := Nat → Nat → Bool

/-- the bit `i` of the value of a field at the bit offset `o` -/
def value (p : Pkt) (o i : Nat) : Bool := p ((o + i) / 8) ((o + i) % 8)

/-- ethernet.py:11-15 -/
def ethPreamble : Hdr := [("preambule", 56), ("startOfFrameDelimiter", 8)]

/-- ethernet.py:17-22 -/
def eth2 : Hdr := [("dst", 48), ("src", 48), ("type", 16)]

/-- ethernet.py:24-35, the fields of the tag are inlined -/
def eth802_1q : Hdr := [("dst", 48), ("src", 48), ("tag.tpid", 16), ("tag.tci", 16), ("type", 16)]

/-- ip.py:46-53 -/
def ipv4 : Hdr := [("ihl", 4), ("version", 4), ("ecn", 2), ("dscp", 6), ("totalLen", 16),
  ("id", 16), ("fragmentOffset", 13), ("flags", 3), ("ttl", 8), ("protocol", 8), ("headerChecksum", 16),
  ("src", 32), ("dst", 32)]

/-- ip.py:55-61 -/
def ipv6 : Hdr := [("version", 4), ("trafficClass", 8), ("flowLabel", 20), ("payloadLen", 16), ("nextHeader", 8),
  ("hopLimit", 8), ("src", 128), ("dst", 128)]

/-- ip.py:16-18 -/
def DONT_FRAGMENT : Nat := 0b010
def MORE_FRAGMENTS : Nat := 0b100

/-- tcp.py:18-28 -/
def tcp : Hdr := [("srcp", 16), ("dstp", 16), ("seq", 32), ("ack_seq", 32), ("doff", 4), ("reserved1", 4), ("flags", 8),
  ("window", 16), ("checksum", 16), ("urg_ptr", 16)]

/-- tcp.py:7-16 -/
def tcpFlags : Hdr := [("cwr", 1), ("ece", 1), ("urg", 1), ("ack", 1), ("psh", 1), ("rst", 1), ("syn", 1), ("fin", 1)]

/-- udp.py:7-11 -/
def udp : Hdr := [("srcp", 16), ("dstp", 16), ("length", 16), ("checksum", 16)]

/-- udp.py:14-18 -/
def udpIpv4Pseudo : Hdr := [("src", 32), ("dst", 32), ("zeros", 8), ("protocol", 8), ("udpLength", 16)] ++ udp

/-- udp.py:21-26 -/
def udpIpv6Pseudo : Hdr := [("src", 128), ("dst", 128), ("udpLength", 32), ("zeros", 24), ("nextHeader", 8)] ++ udp

/-- arp.py:49-59 -/
def arp : Hdr := [("htype", 16), ("ptype", 16), ("hlen", 8), ("plen", 8), ("opcode", 16), ("sHwAddr", 48),
  ("sProtAddr", 32), ("tHwAddr", 48), ("tProtAddr", 32)]

/-- icmp.py:5-9 -/
def icmp : Hdr := [("type", 8), ("code", 8), ("checksum", 16), ("restOfHeader", 32)]

/-- icmp.py:11-15 -/
def icmpEcho : Hdr := [("type", 8), ("code", 8), ("checksum", 16), ("identifier", 16), ("seqNo", 16)]

/-- dpdk.py:9-39, the hole is the field without a name -/
def rteMbuf : Hdr := [("buf_addr", 64), ("buf_physaddr", 64), ("buf_len", 16), ("data_off", 16), ("refcnt", 16),
  ("nb_segs", 8), ("port", 8), ("ol_flags", 64), ("packet_type", 32), ("pkt_len", 32), ("data_len", 16),
  ("vlan_tci", 16), ("hash", 64), ("seqn", 32), ("vlan_tci_outer", 16), ("", 48), ("userdata", 64), ("pool", 64),
  ("next", 64), ("tx_offload", 64), ("priv_size", 16), ("timesync", 16)]

/-! ## addresses as text -/

/-- a digit of `%x` -/
def hexDigit (n : Nat) : Char := if n < 10 then Char.ofNat (48 + n) else Char.ofNat (87 + n)

/-- `"%.2x"` of a number below 256 -/
def hex2 (n : Nat) : List Char := [hexDigit (n / 16), hexDigit (n % 16)]

/-- ethernet.py:53-58, for a list of bytes; `none` is the AssertionError -/
def format (mac : List Nat) : Option (List Char) :=
  if mac.length = 6 then some ([':'].intercalate (mac.map hex2)) else none

/-- a digit accepted by `int(num, 16)` -/
def digit (c : Char) : Option Nat :=
  if '0' ≤ c ∧ c ≤ '9' then some (c.toNat - 48)
  else if 'a' ≤ c ∧ c ≤ 'f' then some (c.toNat - 87)
  else if 'A' ≤ c ∧ c ≤ 'F' then some (c.toNat - 55)
  else none

/-- `int(num, 16)`; signs, spaces, underscores and the prefix, which Python accepts as well, are not modelled -/
def int16 (cs : List Char) : Option Nat :=
  if cs = [] then none else cs.foldlM (fun a c => (digit c).map (a * 16 + ·)) 0

/-- `str.split(":")` -/
def split : List Char → List (List Char)
  | [] => [[]]
  | c :: cs => if c = ':' then [] :: split cs else match split cs with
    | [] => [[c]]
    | x :: xs => (c :: x) :: xs

/-- ethernet.py:61-64; `none` is a ValueError or an OverflowError -/
def parse (s : List Char) : Option (List Nat) :=
  (split s).mapM fun x => (int16 x).bind fun n => if n < 256 then some n else none

end Verif.NetHdr
