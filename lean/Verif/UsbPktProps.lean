import Verif.UsbPkt
/-! # Properties of `UsbPkt.lean` -/
namespace Verif.UsbPkt
open Verif Verif.Crc Verif.UsbCrc

/-- A packet which can be on the bus: PID of its class, addr of 7 bits, endp of 4 bits, bytes. -/
def Good : Pkt → Prop
  | .token pid addr endp => pid ∈ [1, 5, 9, 13] ∧ addr < 128 ∧ endp < 16
  | .data pid d => pid ∈ [3, 7, 11, 15] ∧ ∀ b ∈ d, b < 256
  | .hs pid => pid ∈ [2, 6, 10, 14]

theorem toNat_le (b : Bool) : b.toNat ≤ 1 := by cases b <;> simp

theorem bits7 : ∀ a < 128, (a.testBit 0).toNat + 2 * (a.testBit 1).toNat + 4 * (a.testBit 2).toNat + 8 * (a.testBit 3).toNat
    + 16 * (a.testBit 4).toNat + 32 * (a.testBit 5).toNat + 64 * (a.testBit 6).toNat = a := by decide
theorem bits4 : ∀ a < 16, (a.testBit 0).toNat + 2 * (a.testBit 1).toNat + 4 * (a.testBit 2).toNat + 8 * (a.testBit 3).toNat = a := by
  decide

theorem num5_lt (f : Bits) : num5 f < 32 := by
  have := toNat_le (f 0); have := toNat_le (f 1); have := toNat_le (f 2); have := toNat_le (f 3); have := toNat_le (f 4)
  unfold num5; omega

theorem byteOf_lt (f : Bits) : byteOf f < 256 := by
  have := toNat_le (f 0); have := toNat_le (f 1); have := toNat_le (f 2); have := toNat_le (f 3); have := toNat_le (f 4)
  have := toNat_le (f 5); have := toNat_le (f 6); have := toNat_le (f 7)
  unfold byteOf; omega

/-- body of a token as numbers -/
theorem token_bytes (pid addr endp : Nat) (ha : addr < 128) (he : endp < 16) :
    agentToken pid addr endp
      = [(15 - pid) * 16 + pid, addr + 128 * (endp % 2), endp / 2 + 8 * num5 (agentCrc5 addr endp)] := by
  unfold agentToken
  have h7 := bits7 addr ha
  have h4 := bits4 endp he
  generalize agentCrc5 addr endp = c
  have e0 : byteOf (fun j => if j < 7 then addr.testBit j else endp.testBit 0) = addr + 128 * (endp % 2) := by
    simp only [byteOf, Nat.reduceLT, if_true, if_false]
    have := toNat_le (endp.testBit 0)
    omega
  have e1 : byteOf (fun j => if j < 3 then endp.testBit (j + 1) else c (j - 3)) = endp / 2 + 8 * num5 c := by
    simp only [byteOf, num5, Nat.reduceLT, if_true, if_false, Nat.reduceAdd, Nat.reduceSub]
    have := toNat_le (endp.testBit 0)
    omega
  rw [e0, e1]

theorem parseToken_ok (pid addr endp : Nat) (ha : addr < 128) (he : endp < 16) :
    parseToken pid (agentToken pid addr endp).tail = .ok (.token pid addr endp) := by
  rw [token_bytes pid addr endp ha he, List.tail_cons]
  have hc := num5_lt (agentCrc5 addr endp)
  unfold parseToken
  dsimp only
  have e1 : (addr + 128 * (endp % 2) + 256 * (endp / 2 + 8 * num5 (agentCrc5 addr endp))) % 128 = addr := by omega
  have e2 : (addr + 128 * (endp % 2) + 256 * (endp / 2 + 8 * num5 (agentCrc5 addr endp))) / 128 % 16 = endp := by omega
  have e3 : (addr + 128 * (endp % 2) + 256 * (endp / 2 + 8 * num5 (agentCrc5 addr endp))) / 2048
      = num5 (agentCrc5 addr endp) := by omega
  rw [e1, e2, e3, if_pos rfl]

theorem parseData_ok (pid : Nat) (d : List Nat) : parseData pid (agentData pid d).tail = .ok (.data pid d) := by
  unfold agentData bytes16 parseData
  rw [List.cons_append, List.tail_cons]
  simp only [List.reverse_append, List.reverse_cons, List.reverse_nil, List.nil_append, List.cons_append, List.reverse_reverse]
  rw [if_pos]
  unfold num16; omega

theorem body_ok (p : Pkt) (h : Good p) :
    parseBody p.pid (deparseUtmi p).tail = .ok p := by
  cases p with
  | token pid addr endp =>
    obtain ⟨hp, ha, he⟩ := h
    have e : isToken pid = true := by
      simp only [List.mem_cons, List.not_mem_nil, or_false] at hp
      rcases hp with rfl | rfl | rfl | rfl <;> rfl
    simp only [Pkt.pid, parseBody, e, if_true, deparseUtmi]
    exact parseToken_ok pid addr endp ha he
  | data pid d =>
    obtain ⟨hp, _⟩ := h
    have e : isToken pid = false ∧ isData pid = true := by
      simp only [List.mem_cons, List.not_mem_nil, or_false] at hp
      rcases hp with rfl | rfl | rfl | rfl <;> exact ⟨rfl, rfl⟩
    simp only [Pkt.pid, parseBody, e.1, e.2, if_true, Bool.false_eq_true, if_false, deparseUtmi]
    exact parseData_ok pid d
  | hs pid =>
    have e : isToken pid = false ∧ isData pid = false ∧ isHs pid = true := by
      unfold Good at h
      simp only [List.mem_cons, List.not_mem_nil, or_false] at h
      rcases h with rfl | rfl | rfl | rfl <;> exact ⟨rfl, rfl, rfl⟩
    simp only [Pkt.pid, parseBody, e.1, e.2.1, e.2.2, if_true, Bool.false_eq_true, if_false]

theorem pid_lt (p : Pkt) (h : Good p) : p.pid < 16 := by
  cases p with
  | token pid a e => obtain ⟨hp, _⟩ := h; simp at hp; simp only [Pkt.pid]; omega
  | data pid d => obtain ⟨hp, _⟩ := h; simp at hp; simp only [Pkt.pid]; omega
  | hs pid => unfold Good at h; simp at h; simp only [Pkt.pid]; omega

theorem deparse_cons (p : Pkt) : deparseUtmi p =
    ((15 - p.pid) * 16 + p.pid) :: (deparseUtmi p).tail := by
  cases p <;> rfl

/-- What one agent sends the other one receives, UTMI. -/
theorem utmi_round_trip (p : Pkt) (h : Good p) : parseUtmi (deparseUtmi p) = .ok p := by
  have hl := pid_lt p h
  have hb := body_ok p h
  rw [deparse_cons]
  generalize p.pid = q at *
  unfold parseUtmi
  dsimp only
  have e1 : ((15 - q) * 16 + q) % 16 = q := by omega
  have e2 : ((15 - q) * 16 + q) / 16 % 16 = 15 - q := by omega
  rw [e1, e2, if_pos (by omega), hb]

/-- What one agent sends the other one receives, ULPI. -/
theorem ulpi_round_trip (p : Pkt) (h : Good p) : parseUlpi (deparseUlpi p) = .ok p := by
  have hl := pid_lt p h
  have hb := body_ok p h
  unfold deparseUlpi parseUlpi
  generalize p.pid = q at *
  dsimp only
  have e1 : (4 * 16 + q) % 16 = q := by omega
  rw [e1, if_pos (by omega), hb]

/-- No two packets have the same bytes. -/
theorem utmi_injective (p q : Pkt) (hp : Good p) (hq : Good q) (h : deparseUtmi p = deparseUtmi q) : p = q := by
  have a := utmi_round_trip p hp
  rw [h, utmi_round_trip q hq] at a
  injection a with a
  exact a.symm

example : Good (.token 13 5 3) ∧ Good (.data 3 [0x80, 6, 0, 1, 0, 0, 64, 0]) ∧ Good (.hs 2) := by
  simp [Good]

/-! ## Only packets are accepted -/

/-- The full claim: what is accepted are the bytes of a packet (of the kind which `deparse_packet` makes). -/
def OnlyPackets (parse : List Nat → Except Err Pkt) (deparse : Pkt → List Nat) : Prop :=
  ∀ l p, (∀ b ∈ l, b < 256) → parse l = .ok p → Good p ∧ deparse p = l

/-- ACK followed by anything is an ACK. -/
theorem only_violated : ¬ OnlyPackets parseUtmi deparseUtmi ∧ ¬ OnlyPackets parseUlpi deparseUlpi := by
  constructor
  · intro h
    have := (h [0xD2, 0] (.hs 2) (by simp) rfl).2
    revert this; decide
  · intro h
    have := (h [0x42, 0] (.hs 2) (by simp) rfl).2
    revert this; decide

theorem body_sound (pid : Nat) (l : List Nat) (p : Pkt) (hl : ∀ b ∈ l, b < 256) (h : parseBody pid l = .ok p) :
    p.pid = pid ∧ Good p ∧
      ((∀ q, p ≠ .hs q) ∨ l = [] → (deparseUtmi p).tail = l) := by
  unfold parseBody at h
  by_cases e1 : isToken pid = true
  · rw [if_pos e1] at h
    have hp : pid ∈ [1, 5, 9, 13] := by
      simp [isToken] at e1 ⊢; omega
    match l, hl, h with
    | [], _, h => simp [parseToken] at h
    | [_], _, h => simp [parseToken] at h
    | _ :: _ :: _ :: _, _, h => simp [parseToken] at h
    | [b0, b1], hl, h =>
      have h0 : b0 < 256 := hl b0 (by simp)
      have h1 : b1 < 256 := hl b1 (by simp)
      unfold parseToken at h
      dsimp only at h
      by_cases hc : num5 (agentCrc5 ((b0 + 256 * b1) % 128) ((b0 + 256 * b1) / 128 % 16)) = (b0 + 256 * b1) / 2048
      · rw [if_pos hc] at h
        injection h with h
        subst h
        refine ⟨rfl, ⟨hp, by omega, by omega⟩, fun _ => ?_⟩
        unfold deparseUtmi
        dsimp only
        rw [token_bytes _ _ _ (by omega) (by omega), hc, List.tail_cons]
        have a1 : (b0 + 256 * b1) % 128 + 128 * ((b0 + 256 * b1) / 128 % 16 % 2) = b0 := by omega
        have a2 : (b0 + 256 * b1) / 128 % 16 / 2 + 8 * ((b0 + 256 * b1) / 2048) = b1 := by omega
        rw [a1, a2]
      · rw [if_neg hc] at h; simp at h
  · rw [if_neg e1] at h
    by_cases e2 : isData pid = true
    · rw [if_pos e2] at h
      have hp : pid ∈ [3, 7, 11, 15] := by
        simp [isData] at e2 ⊢; omega
      unfold parseData at h
      match hr : l.reverse, h with
      | [], h => simp at h
      | [_], h => simp at h
      | hi :: lo :: r, h =>
        dsimp only at h
        have el : l = r.reverse ++ [lo, hi] := by
          rw [← List.reverse_reverse l, hr]; simp
        by_cases hc : hi * 256 + lo = num16 (agentCrc16 r.reverse)
        · rw [if_pos hc] at h
          injection h with h
          subst h
          have hlo : lo < 256 := hl lo (by rw [el]; simp)
          refine ⟨rfl, ⟨hp, fun b hb => hl b (by rw [el]; simp at hb ⊢; exact .inl hb)⟩, fun _ => ?_⟩
          have b1 := byteOf_lt (agentCrc16 r.reverse)
          unfold num16 at hc
          unfold deparseUtmi agentData bytes16
          dsimp only
          rw [List.cons_append, List.tail_cons, el]
          have c1 : byteOf (agentCrc16 r.reverse) = lo := by omega
          have c2 : (byteOf fun j => agentCrc16 r.reverse (8 + j)) = hi := by omega
          rw [c1, c2]
        · rw [if_neg hc] at h; simp at h
    · rw [if_neg e2] at h
      by_cases e3 : isHs pid = true
      · rw [if_pos e3] at h
        injection h with h
        subst h
        refine ⟨rfl, ?_, ?_⟩
        · unfold Good; simp [isHs] at e3 ⊢; omega
        · rintro (hq | rfl)
          · exact absurd rfl (hq pid)
          · rfl
      · rw [if_neg e3] at h; simp at h

/-- Missing to the full claim: bytes behind a handshake. -/
theorem utmi_only_partial (l : List Nat) (p : Pkt) (hl : ∀ b ∈ l, b < 256) (h : parseUtmi l = .ok p) :
    Good p ∧ ((∀ q, p ≠ .hs q) ∨ l.length = 1 → deparseUtmi p = l) := by
  match l, hl, h with
  | [], _, h => simp [parseUtmi] at h
  | b :: r, hl, h =>
    unfold parseUtmi at h
    dsimp only at h
    by_cases hc : b % 16 = 15 - b / 16 % 16
    · rw [if_pos hc] at h
      obtain ⟨a1, a2, a3⟩ := body_sound (b % 16) r p (fun x hx => hl x (by simp [hx])) h
      refine ⟨a2, fun hq => ?_⟩
      have hb : b < 256 := hl b (by simp)
      rw [deparse_cons, a1, a3 (hq.imp id fun e => List.length_eq_zero_iff.mp (by simpa using e))]
      congr 1
      omega
    · rw [if_neg hc] at h; simp at h

theorem ulpi_only_partial (l : List Nat) (p : Pkt) (hl : ∀ b ∈ l, b < 256) (h : parseUlpi l = .ok p) :
    Good p ∧ ((∀ q, p ≠ .hs q) ∨ l.length = 1 → deparseUlpi p = l) := by
  match l, hl, h with
  | [], _, h => simp [parseUlpi] at h
  | b :: r, hl, h =>
    unfold parseUlpi at h
    dsimp only at h
    by_cases hc : b / 16 = 4
    · rw [if_pos hc] at h
      obtain ⟨a1, a2, a3⟩ := body_sound (b % 16) r p (fun x hx => hl x (by simp [hx])) h
      refine ⟨a2, fun hq => ?_⟩
      unfold deparseUlpi
      rw [a1, a3 (hq.imp id fun e => List.length_eq_zero_iff.mp (by simpa using e))]
      congr 1
      omega
    · rw [if_neg hc] at h; simp at h

/-- A flipped bit of the PID byte is always found on UTMI, not on ULPI (no check field there). -/
theorem utmi_pid_flip (p : Pkt) (hp : Good p) (k : Nat) (hk : k < 8) :
    parseUtmi ((((deparseUtmi p).headD 0) ^^^ (2 ^ k)) :: (deparseUtmi p).tail) = .error .pidCheck := by
  have hl := pid_lt p hp
  rw [deparse_cons]
  generalize p.pid = q at *
  simp only [List.headD_cons, List.tail_cons]
  have key : ∀ q < 16, ∀ k < 8, ¬ (((15 - q) * 16 + q) ^^^ 2 ^ k) % 16 = 15 - (((15 - q) * 16 + q) ^^^ 2 ^ k) / 16 % 16 := by decide
  unfold parseUtmi
  dsimp only
  rw [if_neg (key q hl k hk)]

example : parseUlpi [0x42 ^^^ 8] = .ok (.hs 10) := rfl

end Verif.UsbPkt
