import Verif.CrcTab
/-!
# Properties of the library of configurations of CRC
-/
namespace Verif.CrcTab

/-! ## lists of bits -/

abbrev zeros (n : Nat) : List Bool := List.replicate n false

theorem bits_length : ∀ w n, (bits w n).length = w
  | 0, _ => rfl
  | w + 1, n => by simp [bits, bits_length w n]

theorem xor_length (a b : List Bool) (h : a.length = b.length) : (xor a b).length = a.length := by
  simp [xor, h]

theorem xor_cons (a b : Bool) (l m : List Bool) : xor (a :: l) (b :: m) = (a ^^ b) :: xor l m := rfl

theorem xor_append (a b c d : List Bool) (h : a.length = b.length) : xor (a ++ c) (b ++ d) = xor a b ++ xor c d :=
  List.zipWith_append h

theorem xor_self : ∀ a : List Bool, xor a a = zeros a.length
  | [] => rfl
  | a :: l => by rw [xor_cons, xor_self l, Bool.xor_self]; rfl

theorem xor_zeros : ∀ (a : List Bool), xor a (zeros a.length) = a
  | [] => rfl
  | a :: l => by
      show xor (a :: l) (false :: zeros l.length) = _
      rw [xor_cons, xor_zeros l, Bool.xor_false]

theorem zeros_xor : ∀ (a : List Bool), xor (zeros a.length) a = a
  | [] => rfl
  | a :: l => by
      show xor (false :: zeros l.length) (a :: l) = _
      rw [xor_cons, zeros_xor l, Bool.false_xor]

theorem xor_both : ∀ (a b p : List Bool), a.length = p.length → b.length = p.length →
    xor (xor a p) (xor b p) = xor a b
  | [], [], [], _, _ => rfl
  | a :: as, b :: bs, p :: ps, h1, h2 => by
      simp only [xor_cons]
      rw [xor_both as bs ps (by simpa using h1) (by simpa using h2)]
      cases a <;> cases b <;> cases p <;> rfl
  | [], _, _ :: _, h, _ => by simp at h
  | _ :: _, _, [], h, _ => by simp at h
  | _, [], _ :: _, _, h => by simp at h
  | _, _ :: _, [], _, h => by simp at h

theorem xor_left : ∀ (a b p : List Bool), a.length = p.length → b.length = p.length →
    xor (xor a p) b = xor (xor a b) p
  | [], [], [], _, _ => rfl
  | a :: as, b :: bs, p :: ps, h1, h2 => by
      simp only [xor_cons]
      rw [xor_left as bs ps (by simpa using h1) (by simpa using h2)]
      cases a <;> cases b <;> cases p <;> rfl
  | [], _, _ :: _, h, _ => by simp at h
  | _ :: _, _, [], h, _ => by simp at h
  | _, [], _ :: _, _, h => by simp at h
  | _, _ :: _, [], _, h => by simp at h

theorem xor_right : ∀ (a b p : List Bool), a.length = p.length → b.length = p.length →
    xor a (xor b p) = xor (xor a b) p
  | [], [], [], _, _ => rfl
  | a :: as, b :: bs, p :: ps, h1, h2 => by
      simp only [xor_cons]
      rw [xor_right as bs ps (by simpa using h1) (by simpa using h2)]
      cases a <;> cases b <;> cases p <;> rfl
  | [], _, _ :: _, h, _ => by simp at h
  | _ :: _, _, [], h, _ => by simp at h
  | _, [], _ :: _, _, h => by simp at h
  | _, _ :: _, [], _, h => by simp at h

theorem xor_ne : ∀ (a d : List Bool), a.length = d.length → true ∈ d → xor a d ≠ a
  | [], [], _, h => by simp at h
  | a :: as, d :: ds, hl, h => by
      rw [xor_cons]
      intro e
      injection e with e1 e2
      cases d with
      | true => cases a <;> simp at e1
      | false =>
        refine xor_ne as ds (by simpa using hl) ?_ e2
        simpa using h
  | [], _ :: _, hl, _ => by simp at hl
  | _ :: _, [], hl, _ => by simp at hl

theorem xor_reverse (a b : List Bool) (h : a.length = b.length) : (xor a b).reverse = xor a.reverse b.reverse :=
  List.reverse_zipWith h

/-! ## the register is linear -/

theorem step_length (p r : List Bool) (b : Bool) (h : p.length = r.length) : (step p r b).length = r.length := by
  cases r with
  | nil => rfl
  | cons t r =>
    unfold step
    dsimp only
    split
    · rw [xor_length _ _ (by rw [h]; simp)]; simp
    · simp

theorem step_xor (p r s : List Bool) (b c : Bool) (hr : p.length = r.length) (hs : p.length = s.length) :
    step p (xor r s) (b ^^ c) = xor (step p r b) (step p s c) := by
  cases r with
  | nil => cases s <;> rfl
  | cons t r =>
    cases s with
    | nil => rw [hr] at hs; simp at hs
    | cons u s =>
      have h1 : (r ++ [false]).length = p.length := by simp at hr ⊢; omega
      have h2 : (s ++ [false]).length = p.length := by simp at hs ⊢; omega
      have h3 : r.length = s.length := by simp at hr hs; omega
      have e : xor r s ++ [false] = xor (r ++ [false]) (s ++ [false]) := by rw [xor_append _ _ _ _ h3]; rfl
      rw [xor_cons]
      unfold step
      dsimp only
      have eb : ((t ^^ u) ^^ (b ^^ c)) = ((t ^^ b) ^^ (u ^^ c)) := by
        cases t <;> cases u <;> cases b <;> cases c <;> rfl
      rw [eb, e]
      cases t ^^ b <;> cases u ^^ c
      · rfl
      · exact (xor_right _ _ _ h1 h2).symm
      · exact (xor_left _ _ _ h1 h2).symm
      · exact (xor_both _ _ _ h1 h2).symm

theorem feed_length : ∀ (m p r : List Bool), p.length = r.length → (feed p r m).length = r.length
  | [], _, _, _ => rfl
  | b :: m, p, r, h => by
      have := step_length p r b h
      show (feed p (step p r b) m).length = _
      rw [feed_length m p _ (by omega), this]

theorem feed_xor : ∀ (m n p r s : List Bool), p.length = r.length → p.length = s.length → m.length = n.length →
    feed p (xor r s) (xor m n) = xor (feed p r m) (feed p s n)
  | [], [], _, _, _, _, _, _ => rfl
  | b :: m, c :: n, p, r, s, hr, hs, hl => by
      show feed p (step p (xor r s) (b ^^ c)) (xor m n) = xor (feed p (step p r b) m) (feed p (step p s c) n)
      rw [step_xor p r s b c hr hs]
      exact feed_xor m n p _ _ (by rw [step_length p r b hr, hr]) (by rw [step_length p s c hs, hs]) (by simpa using hl)
  | [], _ :: _, _, _, _, _, _, h => by simp at h
  | _ :: _, [], _, _, _, _, _, h => by simp at h

theorem feed_append (p r m n : List Bool) : feed p r (m ++ n) = feed p (feed p r m) n := List.foldl_append

/-- the register which gets its own highest bits is shifted only -/
theorem feed_own : ∀ (x y p : List Bool), feed p (x ++ y) x = y ++ zeros x.length
  | [], y, p => by simp [feed]
  | b :: x, y, p => by
      show feed p (step p (b :: (x ++ y)) b) x = _
      have : step p (b :: (x ++ y)) b = x ++ (y ++ [false]) := by simp [step]
      rw [this, feed_own x (y ++ [false]) p]
      simp [List.replicate_succ]

/-! ## C455: CHECK -/

/-- `123456789` in ASCII -/
def digits : List Nat := [0x31, 0x32, 0x33, 0x34, 0x35, 0x36, 0x37, 0x38, 0x39]

def checkOk (c : Cfg) : Bool := c.check.all fun k => num (c.crc (c.msgBits digits)) == k

/-- C455, full statement: CHECK is the checksum of `123456789`. -/
def CheckFull : Prop := ∀ c ∈ table, ∀ k, c.check = some k → num (c.crc (c.msgBits digits)) = k

/-- C455: CHECK of CRC_5_EPC is 0, but its checksum is 6 -/
theorem check_epc : crc_5_epc.check = some 0 ∧ num (crc_5_epc.crc (crc_5_epc.msgBits digits)) = 6 := by
  decide +kernel

theorem check_violated : ¬ CheckFull := by
  intro h
  have h1 := h crc_5_epc (by simp [table]) 0 rfl
  rw [check_epc.2] at h1
  cases h1

/-- C455: with INIT = 9 of the catalogue it would be right -/
theorem check_epc_init : num (Cfg.crc { crc_5_epc with init := 9 } (crc_5_epc.msgBits digits)) = 0 := by
  decide +kernel

theorem check_all : (table.all fun c => c.name == "CRC_5_EPC" || checkOk c) = true := by decide +kernel

/-- C455: all others are right. -/
theorem check_partial (c : Cfg) (hc : c ∈ table) (hn : c.name ≠ "CRC_5_EPC") (k : Nat) (hk : c.check = some k) :
    num (c.crc (c.msgBits digits)) = k := by
  have h := List.all_eq_true.1 check_all c hc
  rw [Bool.or_eq_true] at h
  rcases h with h | h
  · exact absurd (by simpa using h) hn
  · rw [checkOk, hk] at h
    simpa using h

/-- so it is not empty -/
example : num (crc_32c.crc (crc_32c.msgBits digits)) = 0xe3069283 :=
  check_partial crc_32c (by simp [table]) (by decide) _ rfl

/-! ## C456: RESIDUE -/

/-- the register after a message with its checksum; it is reflected as the checksum is -/
def Cfg.after (c : Cfg) (m : List Bool) : Nat :=
  num (if c.refout then (c.reg (m ++ c.sent m)).reverse else c.reg (m ++ c.sent m))

/-- C456, full statement: RESIDUE is what a receiver finds after each message with its checksum. -/
def ResFull : Prop := ∀ c ∈ table, ∀ k, c.residue = some k → ∀ m, c.after m = k

theorem reg_length (c : Cfg) (m : List Bool) : (c.reg m).length = c.width := by
  unfold Cfg.reg Cfg.polyBits
  rw [feed_length _ _ _ (by simp [bits_length]), bits_length]

/-- the checksum in the order of transmission is the register xored with a constant -/
theorem sent_eq (c : Cfg) (m : List Bool) :
    c.sent m = xor (c.reg m) (if c.refout then (bits c.width c.xorout).reverse else bits c.width c.xorout) := by
  unfold Cfg.sent Cfg.crc
  cases c.refout with
  | false => rfl
  | true =>
    simp only [if_true]
    rw [xor_reverse _ _ (by simp [reg_length, bits_length]), List.reverse_reverse]

/-- C456: after each message with its checksum the register is the same, for every configuration. -/
theorem res_const (c : Cfg) (m : List Bool) : c.reg (m ++ c.sent m) =
    feed c.polyBits (zeros c.width) (if c.refout then (bits c.width c.xorout).reverse else bits c.width c.xorout) := by
  have hp : c.polyBits.length = c.width := bits_length ..
  have hr := reg_length c m
  have hx : (if c.refout then (bits c.width c.xorout).reverse else bits c.width c.xorout).length = c.width := by
    split <;> simp [bits_length]
  have e : c.reg (m ++ c.sent m) = feed c.polyBits (c.reg m) (c.sent m) := feed_append ..
  rw [e, sent_eq]
  generalize (if c.refout then (bits c.width c.xorout).reverse else bits c.width c.xorout) = x at *
  have h1 := feed_xor (c.reg m) x c.polyBits (c.reg m) (zeros c.width) (by omega) (by simp [hp]) (by omega)
  have h2 : xor (c.reg m) (zeros c.width) = c.reg m := by
    have := xor_zeros (c.reg m); rwa [hr] at this
  rw [h2] at h1
  rw [h1]
  have h3 := feed_own (c.reg m) [] c.polyBits
  rw [List.append_nil, List.nil_append, hr] at h3
  rw [h3]
  have h4 : (feed c.polyBits (zeros c.width) x).length = c.width := by
    rw [feed_length _ _ _ (by simp [hp])]; simp
  have := zeros_xor (feed c.polyBits (zeros c.width) x)
  rwa [h4] at this

theorem after_eq (c : Cfg) (m : List Bool) : c.after m = c.after [] := by
  unfold Cfg.after
  rw [res_const c m, res_const c []]

/-- C456: the two whose RESIDUE is the register which was not reflected -/
theorem res_two (m : List Bool) : crc_5_usb.residue = some 0x0c ∧ crc_5_usb.after m = 0x06 ∧
    num (crc_5_usb.reg (m ++ crc_5_usb.sent m)) = 0x0c ∧
    crc_32.residue = some 0xc704dd7b ∧ crc_32.after m = 0xdebb20e3 ∧
    num (crc_32.reg (m ++ crc_32.sent m)) = 0xc704dd7b := by
  rw [after_eq, after_eq crc_32, res_const crc_5_usb, res_const crc_32]
  decide +kernel

theorem res_violated : ¬ ResFull := by
  intro h
  have h1 := h crc_32 (by simp [table]) _ rfl []
  rw [(res_two []).2.2.2.2.1] at h1
  cases h1

def resOk (c : Cfg) : Bool := c.residue.all fun k => c.after [] == k

theorem res_all : (table.all fun c => c.name == "CRC_5_USB" || c.name == "CRC_32" || resOk c) = true := by
  decide +kernel

/-- C456: all others are right, for every message. -/
theorem res_partial (c : Cfg) (hc : c ∈ table) (h5 : c.name ≠ "CRC_5_USB") (h32 : c.name ≠ "CRC_32") (k : Nat)
    (hk : c.residue = some k) (m : List Bool) : c.after m = k := by
  have h := List.all_eq_true.1 res_all c hc
  rw [Bool.or_eq_true, Bool.or_eq_true] at h
  rcases h with (h | h) | h
  · exact absurd (by simpa using h) h5
  · exact absurd (by simpa using h) h32
  · rw [resOk, hk] at h
    rw [after_eq]
    simpa using h

example : crc_16_usb.after [true, false, true] = 0xb001 :=
  res_partial crc_16_usb (by simp [table]) (by decide) (by decide) _ rfl _

/-! ## C457: errors which are found -/

theorem table_odd : (table.all fun c => c.width != 0 && (c.polyBits.getLast? == some true) &&
    decide (c.poly < 2 ^ c.width) && decide (c.init < 2 ^ c.width) && decide (c.xorout < 2 ^ c.width)) = true := by
  decide +kernel

/-- C457: the constants fit to the width. -/
theorem table_fits (c : Cfg) (hc : c ∈ table) :
    0 < c.width ∧ c.poly < 2 ^ c.width ∧ c.init < 2 ^ c.width ∧ c.xorout < 2 ^ c.width := by
  have h := List.all_eq_true.1 table_odd c hc
  simp only [Bool.and_eq_true, decide_eq_true_eq, bne_iff_ne] at h
  omega

theorem poly_odd (c : Cfg) (hc : c ∈ table) : ∃ q, c.polyBits = q ++ [true] := by
  have h := List.all_eq_true.1 table_odd c hc
  simp only [Bool.and_eq_true, beq_iff_eq] at h
  exact List.getLast?_eq_some_iff.1 h.1.1.1.2

theorem step_zeros (p : List Bool) (n : Nat) : step p (zeros n) false = zeros n := by
  cases n with
  | zero => rfl
  | succ n =>
    show step p (false :: zeros n) false = _
    simp only [step, Bool.xor_false, Bool.false_eq_true, if_false]
    exact (List.replicate_succ' ..).symm

theorem feed_zeros (p : List Bool) (n : Nat) : ∀ k, feed p (zeros n) (zeros k) = zeros n
  | 0 => rfl
  | k + 1 => by
      show feed p (step p (zeros n) false) (zeros k) = _
      rw [step_zeros, feed_zeros p n k]

theorem step_keeps (q r : List Bool) (h : (q ++ [true]).length = r.length) (hr : true ∈ r) :
    true ∈ step (q ++ [true]) r false := by
  cases r with
  | nil => simp at hr
  | cons t r =>
    unfold step
    cases t with
    | true =>
      simp only [Bool.xor_false, if_true]
      rw [xor_append _ _ _ _ (by simp at h; omega)]
      simp [xor]
    | false =>
      simp only [Bool.xor_false, Bool.false_eq_true, if_false]
      simpa using hr

theorem feed_keeps (q : List Bool) : ∀ (k : Nat) (r : List Bool), (q ++ [true]).length = r.length → true ∈ r →
    true ∈ feed (q ++ [true]) r (zeros k)
  | 0, _, _, hr => hr
  | k + 1, r, h, hr => by
      show true ∈ feed (q ++ [true]) (step (q ++ [true]) r false) (zeros k)
      exact feed_keeps q k _ (by rw [step_length _ _ _ h, h]) (step_keeps q r h hr)

theorem feed_burst (q x : List Bool) (hx : x.length ≤ (q ++ [true]).length) (ht : true ∈ x) :
    true ∈ feed (q ++ [true]) (zeros (q ++ [true]).length) x := by
  generalize hw : (q ++ [true]).length = w at *
  have hR : (x ++ zeros (w - x.length)).length = w := by simp; omega
  have h1 := feed_xor (zeros x.length) x (q ++ [true]) (x ++ zeros (w - x.length)) (x ++ zeros (w - x.length))
    (by omega) (by omega) (by simp)
  rw [xor_self, hR, zeros_xor, feed_own] at h1
  have e : zeros (w - x.length) ++ zeros x.length = zeros w := by
    rw [List.replicate_append_replicate]; congr 1; omega
  rw [e] at h1
  have hl : (feed (q ++ [true]) (x ++ zeros (w - x.length)) (zeros x.length)).length = w := by
    rw [feed_length _ _ _ (by omega)]; exact hR
  have h2 := xor_zeros (feed (q ++ [true]) (x ++ zeros (w - x.length)) (zeros x.length))
  rw [hl] at h2
  rw [h1, h2]
  exact feed_keeps q _ _ (by omega) (List.mem_append_left _ ht)

/-- C457: with every configuration of the library, inverting bits of a burst which is not longer than WIDTH,
anywhere in a message of any length (or in a message with its checksum), changes the register. -/
theorem burst_found (c : Cfg) (hc : c ∈ table) (x b : List Bool) (i j : Nat) (hb : b.length ≤ c.width) (ht : true ∈ b)
    (hx : x.length = i + b.length + j) : c.reg (xor x (zeros i ++ b ++ zeros j)) ≠ c.reg x := by
  obtain ⟨q, hq⟩ := poly_odd c hc
  have hp : c.polyBits.length = c.width := bits_length ..
  have h1 := feed_xor x (zeros i ++ b ++ zeros j) c.polyBits (bits c.width c.init) (zeros c.width)
    (by rw [hp, bits_length]) (by simp [hp]) (by simp [hx]; omega)
  have h2 := xor_zeros (bits c.width c.init)
  rw [bits_length] at h2
  rw [h2] at h1
  have h3 : true ∈ feed c.polyBits (zeros c.width) (zeros i ++ b ++ zeros j) := by
    rw [feed_append, feed_append, feed_zeros]
    rw [hq] at hp ⊢
    have h4 := feed_burst q b (by omega) ht
    rw [hp] at h4
    exact feed_keeps q j _ (by rw [feed_length _ _ _ (by simp [hp])]; simp [hp]) h4
  unfold Cfg.reg
  rw [h1]
  exact xor_ne _ _ (by
    rw [feed_length _ _ _ (by rw [hp, bits_length]), feed_length _ _ _ (by simp [hp]), bits_length]; simp) h3

theorem xor_inj : ∀ (a b k : List Bool), a.length = k.length → b.length = k.length → xor a k = xor b k → a = b
  | [], [], [], _, _, _ => rfl
  | a :: as, b :: bs, k :: ks, h1, h2, h => by
      rw [xor_cons, xor_cons] at h
      injection h with e1 e2
      rw [xor_inj as bs ks (by simpa using h1) (by simpa using h2) e2]
      congr 1
      cases a <;> cases b <;> cases k <;> simp_all
  | [], _, _ :: _, h, _, _ => by simp at h
  | _ :: _, _, [], h, _, _ => by simp at h
  | _, [], _ :: _, _, h, _ => by simp at h
  | _, _ :: _, [], _, h, _ => by simp at h

/-- C457: so its checksum is different as well. -/
theorem burst_crc (c : Cfg) (hc : c ∈ table) (m b : List Bool) (i j : Nat) (hb : b.length ≤ c.width) (ht : true ∈ b)
    (hm : m.length = i + b.length + j) : c.crc (xor m (zeros i ++ b ++ zeros j)) ≠ c.crc m := by
  intro h
  apply burst_found c hc m b i j hb ht hm
  unfold Cfg.crc at h
  have := xor_inj _ _ _ (by split <;> simp [reg_length, bits_length]) (by split <;> simp [reg_length, bits_length]) h
  split at this
  · exact List.reverse_inj.1 this
  · exact this

example : crc_8_ccitt.crc [true, true, false, true] ≠ crc_8_ccitt.crc [true, false, false, true] :=
  burst_crc crc_8_ccitt (by simp [table]) [true, false, false, true] [true] 1 2 (by decide) (by decide) rfl

end Verif.CrcTab
