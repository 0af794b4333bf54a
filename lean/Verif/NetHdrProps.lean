import Verif.NetHdr
/-!
# Properties of the headers of network protocols
-/
namespace Verif.NetHdr

/-! ## formats of the standards -/

/-- a field of a standard: name, offset of its first (highest) bit in the order of transmission, width -/
abbrev Fmt := List (String × Nat × Nat)

/-- the bit `i` of the value of such a field; the standards number bits of a byte from the highest one -/
def rfcBit (p : Pkt) (r w i : Nat) : Bool := p ((r + (w - 1 - i)) / 8) (7 - (r + (w - 1 - i)) % 8)

/-- The field of the struct is the field of the standard: for every packet it has the same value, after the order
of bytes is reversed if it has whole bytes. -/
def Matches (h : Hdr) (f : String) (r w : Nat) : Prop :=
  ∃ o, find h f = some (o, w) ∧ ∀ (p : Pkt) (i : Nat), i < w →
    value p o i = rfcBit p r w (if w % 8 = 0 then 8 * (w / 8 - 1 - i / 8) + i % 8 else i)

/-- IEEE 802.3 -/
def fmtPreamble : Fmt := [("preambule", 0, 56), ("startOfFrameDelimiter", 56, 8)]
def fmtEth2 : Fmt := [("dst", 0, 48), ("src", 48, 48), ("type", 96, 16)]
/-- IEEE 802.1Q -/
def fmt802_1q : Fmt := [("dst", 0, 48), ("src", 48, 48), ("tag.tpid", 96, 16), ("tag.tci", 112, 16), ("type", 128, 16)]
/-- RFC 791, 2474, 3168 -/
def fmtIpv4 : Fmt := [("version", 0, 4), ("ihl", 4, 4), ("dscp", 8, 6), ("ecn", 14, 2), ("totalLen", 16, 16),
  ("id", 32, 16), ("flags", 48, 3), ("fragmentOffset", 51, 13), ("ttl", 64, 8), ("protocol", 72, 8),
  ("headerChecksum", 80, 16), ("src", 96, 32), ("dst", 128, 32)]
/-- RFC 8200 -/
def fmtIpv6 : Fmt := [("version", 0, 4), ("trafficClass", 4, 8), ("flowLabel", 12, 20), ("payloadLen", 32, 16),
  ("nextHeader", 48, 8), ("hopLimit", 56, 8), ("src", 64, 128), ("dst", 192, 128)]
/-- RFC 9293 -/
def fmtTcp : Fmt := [("srcp", 0, 16), ("dstp", 16, 16), ("seq", 32, 32), ("ack_seq", 64, 32), ("doff", 96, 4),
  ("reserved1", 100, 4), ("flags", 104, 8), ("window", 112, 16), ("checksum", 128, 16), ("urg_ptr", 144, 16)]
def fmtTcpFlags : Fmt := [("cwr", 0, 1), ("ece", 1, 1), ("urg", 2, 1), ("ack", 3, 1), ("psh", 4, 1), ("rst", 5, 1),
  ("syn", 6, 1), ("fin", 7, 1)]
/-- RFC 768 -/
def fmtUdp : Fmt := [("srcp", 0, 16), ("dstp", 16, 16), ("length", 32, 16), ("checksum", 48, 16)]
/-- RFC 768, 8200 -/
def fmtUdpIpv4Pseudo : Fmt := [("src", 0, 32), ("dst", 32, 32), ("zeros", 64, 8), ("protocol", 72, 8),
  ("udpLength", 80, 16), ("srcp", 96, 16), ("dstp", 112, 16), ("length", 128, 16), ("checksum", 144, 16)]
def fmtUdpIpv6Pseudo : Fmt := [("src", 0, 128), ("dst", 128, 128), ("udpLength", 256, 32), ("zeros", 288, 24),
  ("nextHeader", 312, 8), ("srcp", 320, 16), ("dstp", 336, 16), ("length", 352, 16), ("checksum", 368, 16)]
/-- RFC 826 -/
def fmtArp : Fmt := [("htype", 0, 16), ("ptype", 16, 16), ("hlen", 32, 8), ("plen", 40, 8), ("opcode", 48, 16),
  ("sHwAddr", 64, 48), ("sProtAddr", 112, 32), ("tHwAddr", 144, 48), ("tProtAddr", 192, 32)]
/-- RFC 792 -/
def fmtIcmp : Fmt := [("type", 0, 8), ("code", 8, 8), ("checksum", 16, 16), ("restOfHeader", 32, 32)]
def fmtIcmpEcho : Fmt := [("type", 0, 8), ("code", 8, 8), ("checksum", 16, 16), ("identifier", 32, 16), ("seqNo", 48, 16)]

/-- whole bytes at the same place, or bits within one byte counted from its other end -/
def okAt (o r w : Nat) : Bool :=
  if w % 8 = 0 then r % 8 == 0 && o == r
  else r % 8 + w ≤ 8 && o == 8 * (r / 8) + (8 - r % 8 - w)

def okField (h : Hdr) (f : String × Nat × Nat) : Bool := match find h f.1 with
  | none => false
  | some (o, w) => w == f.2.2 && okAt o f.2.1 w

theorem matches_of_ok (h : Hdr) (f : String × Nat × Nat) (hf : okField h f = true) : Matches h f.1 f.2.1 f.2.2 := by
  obtain ⟨n, r, w⟩ := f
  unfold okField at hf
  dsimp only at hf ⊢
  cases hx : find h n with
  | none => rw [hx] at hf; cases hf
  | some x =>
    obtain ⟨o, w'⟩ := x
    rw [hx] at hf
    dsimp only at hf
    rw [Bool.and_eq_true, beq_iff_eq] at hf
    obtain ⟨rfl, ha⟩ := hf
    refine ⟨o, hx, ?_⟩
    intro p i hi
    unfold okAt at ha
    unfold value rfcBit
    by_cases h8 : w' % 8 = 0
    · rw [if_pos h8] at ha ⊢
      simp only [Bool.and_eq_true, beq_iff_eq] at ha
      obtain ⟨h1, rfl⟩ := ha
      congr 1 <;> omega
    · rw [if_neg h8] at ha ⊢
      simp only [Bool.and_eq_true, beq_iff_eq, decide_eq_true_eq] at ha
      obtain ⟨h1, rfl⟩ := ha
      congr 1 <;> omega

/-- a field of the struct has the wire bits of its own place only -/
theorem not_matches (h : Hdr) (f : String) (r w o : Nat) (hw : 0 < w) (ho : find h f = some (o, w)) (h8 : w % 8 ≠ 0)
    (hd : ((r + (w - 1)) / 8 ≠ o / 8) ∨ 7 - (r + (w - 1)) % 8 ≠ o % 8) : ¬ Matches h f r w := by
  rintro ⟨o', h1, h2⟩
  rw [ho] at h1
  injection h1 with h1
  injection h1 with h1 _
  subst h1
  have h3 := h2 (fun a b => decide (a = o / 8 ∧ b = o % 8)) 0 hw
  unfold value rfcBit at h3
  rw [if_neg h8] at h3
  simp only [Nat.add_zero, Nat.sub_zero, and_self, decide_true] at h3
  have h4 := of_decide_eq_true h3.symm
  omega

/-! ## C459: headers with fields which are not whole bytes -/

/-- C459, full statement: each field is where the standard has it. -/
def BitsFull : Prop := ∀ x ∈ [(ipv4, fmtIpv4), (ipv6, fmtIpv6), (tcp, fmtTcp), (tcpFlags, fmtTcpFlags)],
  ∀ f ∈ x.2, Matches x.1 f.1 f.2.1 f.2.2

/-- C459: these fields are elsewhere -/
theorem bits_wrong : ¬ Matches ipv4 "flags" 48 3 ∧ ¬ Matches ipv4 "fragmentOffset" 51 13 ∧
    ¬ Matches ipv6 "version" 0 4 ∧ ¬ Matches ipv6 "flowLabel" 12 20 ∧
    ¬ Matches tcp "doff" 96 4 ∧ ¬ Matches tcp "reserved1" 100 4 :=
  ⟨not_matches _ _ _ _ 61 (by decide) (by decide) (by decide) (by decide),
   not_matches _ _ _ _ 48 (by decide) (by decide) (by decide) (by decide),
   not_matches _ _ _ _ 0 (by decide) (by decide) (by decide) (by decide),
   not_matches _ _ _ _ 12 (by decide) (by decide) (by decide) (by decide),
   not_matches _ _ _ _ 96 (by decide) (by decide) (by decide) (by decide),
   not_matches _ _ _ _ 100 (by decide) (by decide) (by decide) (by decide)⟩

/-- C459: the flags of TCP are in the opposite order -/
theorem bits_flags : ∀ f ∈ fmtTcpFlags, ¬ Matches tcpFlags f.1 f.2.1 f.2.2 := by
  intro f hf
  simp only [fmtTcpFlags, List.mem_cons, List.not_mem_nil, or_false] at hf
  rcases hf with rfl | rfl | rfl | rfl | rfl | rfl | rfl | rfl
  · exact not_matches _ _ _ _ 0 (by decide) (by decide) (by decide) (by decide)
  · exact not_matches _ _ _ _ 1 (by decide) (by decide) (by decide) (by decide)
  · exact not_matches _ _ _ _ 2 (by decide) (by decide) (by decide) (by decide)
  · exact not_matches _ _ _ _ 3 (by decide) (by decide) (by decide) (by decide)
  · exact not_matches _ _ _ _ 4 (by decide) (by decide) (by decide) (by decide)
  · exact not_matches _ _ _ _ 5 (by decide) (by decide) (by decide) (by decide)
  · exact not_matches _ _ _ _ 6 (by decide) (by decide) (by decide) (by decide)
  · exact not_matches _ _ _ _ 7 (by decide) (by decide) (by decide) (by decide)

/-- C459: the class of traffic of IPv6 has its halves exchanged -/
theorem bits_class : ¬ Matches ipv6 "trafficClass" 4 8 := by
  rintro ⟨o, h1, h2⟩
  have h3 : find ipv6 "trafficClass" = some (4, 8) := by decide
  rw [h3] at h1
  injection h1 with h1
  injection h1 with h1 _
  subst h1
  exact absurd (h2 (fun a _ => a == 0) 0 (by decide)) (by decide)

theorem bits_violated : ¬ BitsFull := fun h =>
  bits_wrong.2.2.1 (h (ipv6, fmtIpv6) (by simp) ("version", 0, 4) (by simp [fmtIpv6]))

/-- C459: all other fields of IPv4, IPv6 and TCP are right. -/
theorem bits_partial :
    (∀ f ∈ fmtIpv4, f.1 ≠ "flags" → f.1 ≠ "fragmentOffset" → Matches ipv4 f.1 f.2.1 f.2.2) ∧
    (∀ f ∈ fmtIpv6, f.1 ≠ "version" → f.1 ≠ "trafficClass" → f.1 ≠ "flowLabel" → Matches ipv6 f.1 f.2.1 f.2.2) ∧
    (∀ f ∈ fmtTcp, f.1 ≠ "doff" → f.1 ≠ "reserved1" → Matches tcp f.1 f.2.1 f.2.2) := by
  refine ⟨fun f hf h1 h2 => ?_, fun f hf h1 h2 h3 => ?_, fun f hf h1 h2 => ?_⟩ <;> apply matches_of_ok
  · have := List.all_eq_true.1 (show (fmtIpv4.all fun f => f.1 == "flags" || f.1 == "fragmentOffset" || okField ipv4 f)
      = true by decide +kernel) f hf
    simpa [h1, h2] using this
  · have := List.all_eq_true.1 (show (fmtIpv6.all fun f => f.1 == "version" || f.1 == "trafficClass" ||
      f.1 == "flowLabel" || okField ipv6 f) = true by decide +kernel) f hf
    simpa [h1, h2, h3] using this
  · have := List.all_eq_true.1 (show (fmtTcp.all fun f => f.1 == "doff" || f.1 == "reserved1" || okField tcp f)
      = true by decide +kernel) f hf
    simpa [h1, h2] using this

/-- C459: the flags and the offset of a fragment are right in a packet whose bytes 6 and 7 were exchanged. -/
theorem bits_swapped (p : Pkt) (i : Nat) :
    (i < 3 → value (fun a => p (if a = 6 then 7 else if a = 7 then 6 else a)) 61 i = rfcBit p 48 3 i) ∧
    (i < 13 → value (fun a => p (if a = 6 then 7 else if a = 7 then 6 else a)) 48 i = rfcBit p 51 13 i) := by
  constructor
  · intro h
    have : i = 0 ∨ i = 1 ∨ i = 2 := by omega
    rcases this with rfl | rfl | rfl <;> rfl
  · intro h
    have : i = 0 ∨ i = 1 ∨ i = 2 ∨ i = 3 ∨ i = 4 ∨ i = 5 ∨ i = 6 ∨ i = 7 ∨ i = 8 ∨ i = 9 ∨ i = 10 ∨ i = 11 ∨ i = 12 := by
      omega
    rcases this with rfl | rfl | rfl | rfl | rfl | rfl | rfl | rfl | rfl | rfl | rfl | rfl | rfl <;> rfl

/-- C459: of the constants for the flags, DONT_FRAGMENT is the second bit sent, as RFC 791 says; MORE_FRAGMENTS is
the first one, which is reserved, instead of the third. -/
theorem flag_consts (i : Nat) (h : i < 3) : (DONT_FRAGMENT.testBit i = true ↔ 48 + (3 - 1 - i) = 49) ∧
    (MORE_FRAGMENTS.testBit i = true ↔ 48 + (3 - 1 - i) = 48) := by
  have : i = 0 ∨ i = 1 ∨ i = 2 := by omega
  rcases this with rfl | rfl | rfl <;> decide

/-! ## C460: headers of whole bytes -/

def bytesAll : List (Hdr × Fmt) := [(ethPreamble, fmtPreamble), (eth2, fmtEth2), (eth802_1q, fmt802_1q), (udp, fmtUdp),
  (udpIpv4Pseudo, fmtUdpIpv4Pseudo), (udpIpv6Pseudo, fmtUdpIpv6Pseudo), (arp, fmtArp), (icmp, fmtIcmp),
  (icmpEcho, fmtIcmpEcho)]

theorem bytes_ok : (bytesAll.all fun x => x.2.all (okField x.1)) = true := by decide +kernel

/-- C460: each field of Ethernet, 802.1Q, UDP, ARP, ICMP and of the pseudo headers is where the standard has it. -/
theorem bytes_match (x : Hdr × Fmt) (hx : x ∈ bytesAll) (f : String × Nat × Nat) (hf : f ∈ x.2) :
    Matches x.1 f.1 f.2.1 f.2.2 :=
  matches_of_ok _ _ (List.all_eq_true.1 (List.all_eq_true.1 bytes_ok x hx) f hf)

/-- C460: the structs have nothing else: the same number of fields and the size of the standard, in bytes. -/
theorem bytes_sizes : bytesAll.map (fun x => bitLength x.1) = [8, 14, 18, 8, 20, 48, 28, 8, 8].map (8 * ·) ∧
    (∀ x ∈ bytesAll, x.1.length = x.2.length) ∧
    bitLength ipv4 = 8 * 20 ∧ bitLength ipv6 = 8 * 40 ∧ bitLength tcp = 8 * 20 := by
  refine ⟨by decide +kernel, ?_, by decide, by decide, by decide⟩
  intro x hx
  simp only [bytesAll, List.mem_cons, List.not_mem_nil, or_false] at hx
  rcases hx with rfl | rfl | rfl | rfl | rfl | rfl | rfl | rfl | rfl <;> rfl

example : Matches arp "opcode" 48 16 := bytes_match (arp, fmtArp) (by simp [bytesAll]) ("opcode", 48, 16) (by simp [fmtArp])

/-! ## C461: addresses as text -/

theorem digit_hex : ∀ k : Fin 16, digit (hexDigit k.val) = some k.val := by decide
theorem hex_ne : ∀ k : Fin 16, hexDigit k.val ≠ ':' := by decide

theorem int16_hex2 (n : Nat) (h : n < 256) : int16 (hex2 n) = some n := by
  have h1 := digit_hex ⟨n / 16, by omega⟩
  have h2 := digit_hex ⟨n % 16, by omega⟩
  simp only at h1 h2
  unfold int16 hex2
  rw [if_neg (by simp)]
  simp only [List.foldlM_cons, List.foldlM_nil, h1, h2, Option.map_some, Option.bind_eq_bind, Option.bind_some,
    Option.pure_def, Option.some.injEq]
  omega

theorem hex2_colon (n : Nat) (h : n < 256) : ':' ∉ hex2 n := by
  have h1 := hex_ne ⟨n / 16, by omega⟩
  have h2 := hex_ne ⟨n % 16, by omega⟩
  simp only at h1 h2
  simp only [hex2, List.mem_cons, List.not_mem_nil, or_false]
  rintro (h | h)
  · exact h1 h.symm
  · exact h2 h.symm

theorem split_one : ∀ a : List Char, ':' ∉ a → split a = [a]
  | [], _ => rfl
  | c :: a, h => by
      have h1 : c ≠ ':' := fun e => h (by rw [e]; exact List.mem_cons_self ..)
      rw [split, if_neg h1, split_one a (fun q => h (List.mem_cons_of_mem _ q))]

theorem split_append : ∀ (a r : List Char), ':' ∉ a → split (a ++ ':' :: r) = a :: split r
  | [], r, _ => by rw [List.nil_append, split, if_pos rfl]
  | c :: a, r, h => by
      have h1 : c ≠ ':' := fun e => h (by rw [e]; exact List.mem_cons_self ..)
      rw [List.cons_append, split, if_neg h1, split_append a r (fun q => h (List.mem_cons_of_mem _ q))]

theorem split_join : ∀ (xs : List (List Char)), xs ≠ [] → (∀ x ∈ xs, ':' ∉ x) → split ([':'].intercalate xs) = xs
  | [], h, _ => absurd rfl h
  | [x], _, hx => by
      have : [':'].intercalate [x] = x := by simp [List.intercalate]
      rw [this]
      exact split_one x (hx x (List.mem_cons_self ..))
  | x :: y :: xs, _, hx => by
      have : [':'].intercalate (x :: y :: xs) = x ++ ':' :: [':'].intercalate (y :: xs) := by simp [List.intercalate]
      rw [this, split_append x _ (hx x (List.mem_cons_self ..)),
        split_join (y :: xs) (by simp) (fun z hz => hx z (List.mem_cons_of_mem _ hz))]

theorem mapM_hex2 : ∀ (mac : List Nat), (∀ b ∈ mac, b < 256) →
    (mac.map hex2).mapM (fun x => (int16 x).bind fun n => if n < 256 then some n else none) = some mac
  | [], _ => rfl
  | b :: mac, h => by
      have hb := h b (List.mem_cons_self ..)
      rw [List.map_cons, List.mapM_cons, int16_hex2 b hb, mapM_hex2 mac (fun x hx => h x (List.mem_cons_of_mem _ hx))]
      simp [hb]

/-- C461: parsing of a formatted address gives it back, for each address. -/
theorem mac_roundtrip (mac : List Nat) (hl : mac.length = 6) (hb : ∀ b ∈ mac, b < 256) :
    ∃ s, format mac = some s ∧ parse s = some mac ∧ s.length = 17 := by
  refine ⟨_, if_pos hl, ?_, ?_⟩
  · unfold parse
    rw [split_join]
    · exact mapM_hex2 mac hb
    · intro h
      rw [List.map_eq_nil_iff] at h
      subst h
      cases hl
    · intro x hx
      obtain ⟨b, h1, rfl⟩ := List.mem_map.1 hx
      exact hex2_colon b (hb b h1)
  · match mac, hl with
    | [a, b, c, d, e, f], _ => rfl

/-- C461: the text has two small hexadecimal digits for each byte, most significant first, with colons between them. -/
theorem mac_text (mac : List Nat) (hl : mac.length = 6) (hb : ∀ b ∈ mac, b < 256) (i : Nat) (hi : i < 6) : ∃ s, format mac = some s ∧
    s[3 * i]? = some ("0123456789abcdef".toList.getD (mac.getD i 0 / 16) 'x') ∧
    s[3 * i + 1]? = some ("0123456789abcdef".toList.getD (mac.getD i 0 % 16) 'x') ∧
    (i < 5 → s[3 * i + 2]? = some ':') := by
  match mac, hl with
  | [a, b, c, d, e, f], _ =>
    have hd : ∀ k : Fin 16, hexDigit k.val = "0123456789abcdef".toList.getD k.val 'x' := by decide
    have h : [a, b, c, d, e, f].getD i 0 < 256 := by
      have : i = 0 ∨ i = 1 ∨ i = 2 ∨ i = 3 ∨ i = 4 ∨ i = 5 := by omega
      rcases this with rfl | rfl | rfl | rfl | rfl | rfl <;> exact hb _ (by simp)
    refine ⟨_, if_pos rfl, ?_⟩
    rw [← hd ⟨[a, b, c, d, e, f].getD i 0 / 16, by omega⟩, ← hd ⟨[a, b, c, d, e, f].getD i 0 % 16, by omega⟩]
    have : i = 0 ∨ i = 1 ∨ i = 2 ∨ i = 3 ∨ i = 4 ∨ i = 5 := by omega
    rcases this with rfl | rfl | rfl | rfl | rfl | rfl <;> exact ⟨rfl, rfl, fun _ => by first | rfl | omega⟩

/-- C461: so different addresses have different texts. -/
theorem mac_inj (m n : List Nat) (hm : m.length = 6) (hn : n.length = 6) (bm : ∀ b ∈ m, b < 256) (bn : ∀ b ∈ n, b < 256)
    (h : format m = format n) : m = n := by
  obtain ⟨s, h1, h2, _⟩ := mac_roundtrip m hm bm
  obtain ⟨t, h3, h4, _⟩ := mac_roundtrip n hn bn
  rw [h1, h3] at h
  injection h with h
  subst h
  rw [h2] at h4
  injection h4

/-- C461, full statement: also each accepted text is an address, of 6 bytes. -/
def MacFull : Prop := ∀ s bs, parse s = some bs → bs.length = 6

/-- C461: a text with two numbers is accepted -/
theorem mac_violated : parse ['1', ':', 'f', 'F'] = some [1, 255] ∧ ¬ MacFull := by
  have h : parse ['1', ':', 'f', 'F'] = some [1, 255] := by decide
  exact ⟨h, fun q => absurd (q _ _ h) (by decide)⟩

theorem mapM_spec (g : List Char → Option Nat) (hg : ∀ x n, g x = some n → n < 256) : ∀ (xs : List (List Char)) (bs : List Nat),
    xs.mapM g = some bs → bs.length = xs.length ∧ ∀ b ∈ bs, b < 256
  | [], bs, h => by
      simp only [List.mapM_nil, Option.pure_def, Option.some.injEq] at h
      subst h; simp
  | x :: xs, bs, h => by
      rw [List.mapM_cons] at h
      cases hx : g x with
      | none => rw [hx] at h; cases h
      | some n =>
        rw [hx] at h
        cases hr : xs.mapM g with
        | none => rw [hr] at h; cases h
        | some r =>
          rw [hr] at h
          have : n :: r = bs := by simpa using h
          subst this
          have ⟨h1, h2⟩ := mapM_spec g hg xs r hr
          refine ⟨by simp [h1], ?_⟩
          intro b hb
          rcases List.mem_cons.1 hb with rfl | hb
          · exact hg x b hx
          · exact h2 b hb

/-- C461: it has as many bytes as there are parts between colons, each below 256. -/
theorem mac_partial (s : List Char) (bs : List Nat) (h : parse s = some bs) :
    bs.length = s.countP (· == ':') + 1 ∧ ∀ b ∈ bs, b < 256 := by
  have hs : ∀ s : List Char, (split s).length = s.countP (· == ':') + 1 := by
    intro s
    induction s with
    | nil => rfl
    | cons c s ih =>
      rw [split]
      by_cases hc : c = ':'
      · rw [if_pos hc, List.length_cons, ih, List.countP_cons_of_pos (by simp [hc])]
      · rw [if_neg hc, List.countP_cons_of_neg (by simp [hc])]
        cases hx : split s with
        | nil => rw [hx] at ih; simp at ih
        | cons y ys => rw [hx] at ih; simpa using ih
  have := mapM_spec _ (fun x n hn => by
    cases hx : int16 x with
    | none => rw [hx] at hn; cases hn
    | some k =>
      rw [hx] at hn
      simp only [Option.bind_some] at hn
      by_cases hk : k < 256
      · rw [if_pos hk] at hn; injection hn with hn; omega
      · rw [if_neg hk] at hn; cases hn) (split s) bs h
  rwa [hs] at this

example : ∃ s, format [0, 1, 0xab, 9, 255, 16] = some s ∧ parse s = some [0, 1, 0xab, 9, 255, 16] ∧ s.length = 17 :=
  mac_roundtrip _ rfl (by decide)

/-! ## C462: rte_mbuf -/

/-- offsets and sizes in bytes of the comments in dpdk.py:10-37 -/
def mbufDoc : List (String × Nat × Nat) := [("buf_addr", 0, 8), ("buf_physaddr", 8, 8), ("buf_len", 16, 2), ("data_off", 18, 2),
  ("refcnt", 20, 2), ("nb_segs", 22, 1), ("port", 23, 1), ("ol_flags", 24, 8), ("packet_type", 32, 4), ("pkt_len", 36, 4),
  ("data_len", 40, 2), ("vlan_tci", 42, 2), ("hash", 44, 8), ("seqn", 52, 4), ("vlan_tci_outer", 56, 2), ("userdata", 64, 8),
  ("pool", 72, 8), ("next", 80, 8), ("tx_offload", 88, 8), ("priv_size", 96, 2), ("timesync", 98, 2)]

/-- C462, full statement: fields at the documented places and the documented size (dpdk.py:40). -/
def MbufFull : Prop := (∀ f ∈ mbufDoc, find rteMbuf f.1 = some (8 * f.2.1, 8 * f.2.2)) ∧ bitLength rteMbuf = 8 * 128

/-- C462: the fields are right; missing: the padding at the end, the struct has 100 bytes. -/
theorem mbuf_partial : (∀ f ∈ mbufDoc, find rteMbuf f.1 = some (8 * f.2.1, 8 * f.2.2)) ∧ bitLength rteMbuf = 8 * 100 := by
  refine ⟨?_, by decide⟩
  intro f hf
  have := List.all_eq_true.1 (show (mbufDoc.all fun f => decide (find rteMbuf f.1 = some (8 * f.2.1, 8 * f.2.2))) = true by
    decide +kernel) f hf
  exact of_decide_eq_true this

theorem mbuf_violated : ¬ MbufFull := fun h => by
  have := mbuf_partial.2.symm.trans h.2
  cases this

end Verif.NetHdr
