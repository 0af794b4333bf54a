import Verif.UsbNego

/-! # Properties of the reset detector and of the speed negotiation of `Usb2DeviceCore` -/

namespace Verif.UsbNego

/-! ## Reset -/

/-- Number of SE0 in a row at the end. -/
def se0Tail (xs : List Ls) : Nat := (xs.reverse.takeWhile (· == .se0)).length

theorem se0Tail_snoc (xs : List Ls) (x : Ls) : se0Tail (xs ++ [x]) = if x == .se0 then se0Tail xs + 1 else 0 := by
  unfold se0Tail
  rw [List.reverse_append]
  simp only [List.reverse_cons, List.reverse_nil, List.nil_append, List.singleton_append, List.takeWhile_cons]
  cases x == .se0 <;> simp

theorem run_snoc (c : Cfg) (s : St) (xs : List Ls) (x : Ls) : run c s (xs ++ [x]) = next c (run c s xs) x := by
  simp [run, List.foldl_append]

/-- Induction from the end. -/
theorem snoc_ind {P : List Ls → Prop} (h0 : P []) (h1 : ∀ xs x, P xs → P (xs ++ [x])) (xs : List Ls) : P xs := by
  have : ∀ ys : List Ls, P ys.reverse := by
    intro ys
    induction ys with
    | nil => exact h0
    | cons y ys ih => rw [List.reverse_cons]; exact h1 _ _ ih
  simpa using this xs.reverse

theorem cnt_eq (c : Cfg) (st : Ns) (xs : List Ls) : (run c (init st) xs).cnt = min (2 ^ 14) (se0Tail xs) := by
  induction xs using snoc_ind with
  | h0 => rfl
  | h1 xs x ih =>
    rw [run_snoc, se0Tail_snoc]
    generalize run c (init st) xs = s at ih
    show (if x == .se0 then (if !usbRst s then (s.cnt + 1) % 2 ^ 15 else s.cnt) else 0) = _
    cases x == .se0 with
    | false => rfl
    | true =>
      simp only [if_true]
      unfold usbRst
      rw [ih]
      rcases Nat.lt_or_ge (se0Tail xs) (2 ^ 14) with h | h
      · rw [Nat.min_eq_right (by omega), Nat.div_eq_of_lt h]
        simp
        omega
      · rw [Nat.min_eq_left h]
        simp
        omega

theorem usbRst_iff_tail (c : Cfg) (st : Ns) (xs : List Ls) : usbRst (run c (init st) xs) = true ↔ 2 ^ 14 ≤ se0Tail xs := by
  unfold usbRst
  rw [cnt_eq]
  rcases Nat.lt_or_ge (se0Tail xs) (2 ^ 14) with h | h
  · rw [Nat.min_eq_right (by omega), Nat.div_eq_of_lt h]
    simp
    omega
  · rw [Nat.min_eq_left h]
    simp
    omega

theorem tail_iff (xs : List Ls) (n : Nat) : n ≤ se0Tail xs ↔ n ≤ xs.length ∧ ∀ k, k < n → xs[xs.length - 1 - k]? = some .se0 := by
  induction xs using snoc_ind generalizing n with
  | h0 =>
    simp only [se0Tail, List.reverse_nil, List.takeWhile_nil, List.length_nil]
    constructor
    · intro h; exact ⟨h, fun k hk => by omega⟩
    · exact fun h => h.1
  | h1 xs x ih =>
    rw [se0Tail_snoc]
    cases n with
    | zero => simp
    | succ n =>
      have hlast : (xs ++ [x])[(xs ++ [x]).length - 1 - 0]? = some x := by simp
      have hprev : ∀ k, k + 1 ≤ xs.length → (xs ++ [x])[(xs ++ [x]).length - 1 - (k + 1)]? = xs[xs.length - 1 - k]? := by
        intro k hk
        have e : (xs ++ [x]).length - 1 - (k + 1) = xs.length - 1 - k := by
          simp only [List.length_append, List.length_cons, List.length_nil]; omega
        rw [e, List.getElem?_append_left (by omega)]
      have hlen : (xs ++ [x]).length = xs.length + 1 := by simp
      constructor
      · intro h
        cases hx : x == .se0 with
        | false => rw [hx] at h; simp at h
        | true =>
          rw [hx] at h
          simp only [if_true] at h
          have h' := (ih n).mp (by omega)
          refine ⟨by omega, ?_⟩
          intro k hk
          cases k with
          | zero => rw [hlast]; simpa using hx
          | succ k => rw [hprev k (by omega)]; exact h'.2 k (by omega)
      · rintro ⟨h1, h2⟩
        have hx : x = .se0 := by
          have := h2 0 (by omega)
          rw [hlast] at this
          simpa using this
        rw [hx]
        simp only [beq_self_eq_true, if_true]
        have := (ih n).mpr ⟨by omega, fun k hk => by
          rw [← hprev k (by omega)]; exact h2 (k + 1) (by omega)⟩
        omega

/-- C278: `usb_rst` is set exactly if the line was SE0 in each of last 2^14 clock cycles. -/
theorem usb_reset_iff (c : Cfg) (st : Ns) (xs : List Ls) :
    usbRst (run c (init st) xs) = true ↔ 2 ^ 14 ≤ xs.length ∧ ∀ k, k < 2 ^ 14 → xs[xs.length - 1 - k]? = some .se0 := by
  rw [usbRst_iff_tail, tail_iff]

example : usbRst (run (Cfg.ofHz 60000000) (init .idle) (List.replicate (2 ^ 14) .se0)) = true := by
  rw [usb_reset_iff]
  refine ⟨by rw [List.length_replicate]; exact Nat.le_refl _, ?_⟩
  intro k hk
  rw [List.getElem?_replicate]
  simp only [List.length_replicate]
  rw [if_pos (by omega)]

/-! ## Chirp of the device -/

/-- Counter is wide enough. -/
structure Ok (c : Cfg) : Prop where
  ac : c.attach < c.chirp
  ch : c.chirp ≤ c.hsReset
  w : c.hsReset + 1 < 2 ^ c.w

theorem next_q (c : Cfg) (s : St) (x : Ls) : (next c s x).q =
    if s.st != .waitRst && nextSt c s == .waitRst then 0
    else if s.st == .waitRst && x != .se0 then 0
    else if s.q != 2 ^ c.w - 1 then s.q + 1 else s.q := rfl

@[simp] theorem beq_ns (a b : Ns) : (a == b) = decide (a = b) := rfl

theorem to_sendK {c : Cfg} {s : St} (h : nextSt c s = .sendK) :
    (s.st = .waitRst ∧ s.q > c.attach) ∨ (s.st = .sendK ∧ s.q ≤ c.chirp) := by
  unfold nextSt at h
  cases hs : s.st <;> rw [hs] at h <;> simp only at h
  all_goals repeat' split at h
  all_goals first | (cases h; done) | (left; exact ⟨rfl, by assumption⟩) | (right; exact ⟨rfl, by omega⟩)

theorem wait_q (c : Cfg) {st : Ns} (h0 : st ≠ .waitRst) (xs : List Ls) :
    (run c (init st) xs).st = .waitRst → (run c (init st) xs).q ≤ se0Tail xs ∧ (run c (init st) xs).q ≤ c.attach + 1 := by
  induction xs using snoc_ind with
  | h0 => intro h; exact absurd h h0
  | h1 xs x ih =>
    rw [run_snoc, se0Tail_snoc]
    generalize run c (init st) xs = s at ih
    intro h
    have h' : nextSt c s = .waitRst := h
    rw [next_q]
    cases hs : s.st with
    | waitRst =>
      have ih := ih hs
      have hq : ¬ s.q > c.attach := by
        intro hq
        simp [nextSt, hs, hq] at h'
      cases hx : x == .se0 with
      | false => simp [bne, hx]
      | true =>
        simp only [bne, hx]
        simp
        split <;> omega
    | _ => simp [h', bne]

/-- C279: the device starts its chirp only if the line was SE0 for more than ATTACH_FS_TIME cycles immediately before. -/
theorem chirp_after_se0 (c : Cfg) {st : Ns} (h0 : st ≠ .waitRst) (xs : List Ls) (x : Ls)
    (h1 : chirpEn (run c (init st) xs) = false) (h2 : chirpEn (run c (init st) (xs ++ [x])) = true) :
    c.attach + 1 ≤ xs.length ∧ ∀ k, k < c.attach + 1 → xs[xs.length - 1 - k]? = some .se0 := by
  rw [← tail_iff]
  rw [run_snoc] at h2
  have hq := wait_q c h0 xs
  generalize run c (init st) xs = s at *
  have h2' : nextSt c s = .sendK := by simpa [chirpEn, next] using h2
  have h1' : s.st ≠ .sendK := by simpa [chirpEn] using h1
  rcases to_sendK h2' with ⟨hs, g⟩ | ⟨hs, _⟩
  · have := hq hs
    omega
  · exact absurd hs h1'

/-- Number of cycles in a row, now, in which the device sends its chirp (the history is from the last cycle). -/
def sendFor (c : Cfg) (st : Ns) : List Ls → Nat
  | [] => 0
  | x :: xs => if chirpEn (run c (init st) (x :: xs).reverse) then sendFor c st xs + 1 else 0

/-- In the state there are two possible values of the timer: it was or was not restarted when the chirp started. -/
theorem send_q {c : Cfg} (hc : Ok c) {st : Ns} (h0 : st ≠ .waitRst ∧ st ≠ .sendK) (xs : List Ls) :
    (run c (init st) xs).st = .sendK → ((run c (init st) xs).q = c.attach + 1 + sendFor c st xs.reverse ∨
      (run c (init st) xs).q + 1 = sendFor c st xs.reverse) ∧ (run c (init st) xs).q ≤ c.chirp + 1 := by
  have hc' := hc
  obtain ⟨hac, hch, hw⟩ := hc'
  induction xs using snoc_ind with
  | h0 => exact fun h => absurd h h0.2
  | h1 xs x ih =>
    have hrev : (xs ++ [x]).reverse = x :: xs.reverse := by simp
    intro h
    have hse : sendFor c st (x :: xs.reverse) = sendFor c st xs.reverse + 1 := by
      have : chirpEn (run c (init st) (x :: xs.reverse).reverse) = true := by
        rw [List.reverse_cons, List.reverse_reverse]
        simpa [chirpEn] using h
      simp only [sendFor, this, if_true]
    rw [hrev, hse]
    have hcur : (run c (init st) xs).st ≠ .sendK → sendFor c st xs.reverse = 0 := by
      intro hn
      cases hx : xs.reverse with
      | nil => rfl
      | cons y ys =>
        have e : ys.reverse ++ [y] = xs := by rw [← List.reverse_cons, ← hx, List.reverse_reverse]
        simp [sendFor, e, chirpEn, hn]
    have hwq := wait_q c h0.1 xs
    rw [run_snoc] at h ⊢
    generalize run c (init st) xs = s at *
    have h' : nextSt c s = .sendK := h
    rw [next_q]
    rcases to_sendK h' with ⟨hs, hq2⟩ | ⟨hs, hq2⟩
    · have hq1 := (hwq hs).2
      have hz := hcur (by rw [hs]; intro e; cases e)
      have hq3 : s.q ≠ 2 ^ c.w - 1 := by omega
      cases hx : x == .se0 with
      | false => simp [bne, hx, h', hz, hs]
      | true => simp [bne, hx, h', hz, hq3, hs]; omega
    · obtain ⟨g1, g2⟩ := ih hs
      have hq3 : s.q ≠ 2 ^ c.w - 1 := by omega
      simp [h', hq3, hs]
      omega

/-- C280: a chirp which ends was long as CHIRPK_TIME - ATTACH_FS_TIME (1 ms); if the line changed in the cycle in which it was started,
it is longer: CHIRPK_TIME + 2. -/
theorem chirp_length {c : Cfg} (hc : Ok c) {st : Ns} (h0 : st ≠ .waitRst ∧ st ≠ .sendK) (xs : List Ls) (x : Ls)
    (h1 : chirpEn (run c (init st) xs) = true) :
    (chirpEn (run c (init st) (xs ++ [x])) = false → sendFor c st xs.reverse = c.chirp - c.attach ∨ sendFor c st xs.reverse = c.chirp + 2) ∧
    sendFor c st xs.reverse ≤ c.chirp + 2 := by
  have hq := send_q hc h0 xs
  rw [run_snoc]
  generalize run c (init st) xs = s at *
  have h1' : s.st = .sendK := by simpa [chirpEn] using h1
  obtain ⟨g1, g2⟩ := hq h1'
  have hac := hc.ac
  refine ⟨?_, by omega⟩
  intro h2
  have h2' : nextSt c s ≠ .sendK := by simpa [chirpEn, next] using h2
  have : s.q > c.chirp := by
    rcases Nat.lt_or_ge c.chirp s.q with g | g
    · exact g
    · simp [nextSt, h1', show ¬ s.q > c.chirp by omega] at h2'
  omega

/-- The usual clock. -/
theorem ok_60MHz : Ok (Cfg.ofHz 60000000) := ⟨by decide, by decide, by decide⟩

example : Ok (Cfg.ofHz 1000) ∧ chirpEn (run (Cfg.ofHz 1000) (init .idle) (List.replicate 8 .se0)) = false ∧
    chirpEn (run (Cfg.ofHz 1000) (init .idle) (List.replicate 8 .se0 ++ [.se0])) = true ∧
    chirpEn (run (Cfg.ofHz 1000) (init .idle) (List.replicate 9 .se0 ++ [.se0])) = false :=
  ⟨⟨by decide, by decide, by decide⟩, by decide, by decide, by decide⟩

example : sendFor (Cfg.ofHz 1000) .idle (List.replicate 8 Ls.se0 ++ [Ls.j] ++ List.replicate 6 Ls.se0).reverse = 7 := by decide

/-! ## Result of the negotiation -/

/-- The negotiation ends, whatever the host does (the full claim). -/
def Ends (c : Cfg) : Prop :=
  ∀ (xs : List Ls), (run c (init .idle) xs).st = .waitJK →
    ∃ n, ∀ ys : List Ls, ys.length = n → ∃ k, k ≤ n ∧ speed (run c (run c (init .idle) xs) (ys.take k)) ≠ none

theorem wait_step {c : Cfg} {s : St} (h : s.st = .waitJK) (x : Ls) (hn : speed (next c s x) = none) :
    (next c s x).st = .waitJK ∧ s.q ≤ c.hsReset ∧ (next c s x).q = if s.q != 2 ^ c.w - 1 then s.q + 1 else s.q := by
  have hst : (next c s x).st = nextSt c s := rfl
  have e : nextSt c s = if s.chirps > 5 then .hs else if s.q > c.hsReset then .fs else .waitJK := by simp [nextSt, h]
  by_cases h1 : s.chirps > 5
  · rw [if_pos h1] at e; simp [speed, hst, e] at hn
  · rw [if_neg h1] at e
    by_cases h2 : s.q > c.hsReset
    · rw [if_pos h2] at e; simp [speed, hst, e] at hn
    · rw [if_neg h2] at e
      refine ⟨by rw [hst, e], by omega, ?_⟩
      rw [next_q]
      simp [h, e]

/-- C281: the negotiation ends in at most HS_RESET_TIME + 2 cycles if the counter of time can be above HS_RESET_TIME. -/
theorem nego_ends_partial {c : Cfg} (hw : c.hsReset + 1 < 2 ^ c.w) (s : St) (h : s.st = .waitJK) (ys : List Ls)
    (hl : ys.length = c.hsReset + 2) : ∃ k, k ≤ c.hsReset + 2 ∧ speed (run c s (ys.take k)) ≠ none := by
  have key : ∀ (m : Nat) (ys : List Ls) (s : St), s.st = .waitJK → ys.length = m → 0 < m → c.hsReset + 2 ≤ m + s.q →
      ∃ k, k ≤ m ∧ speed (run c s (ys.take k)) ≠ none := by
    intro m
    induction m with
    | zero => intro ys s h hl hm; omega
    | succ m ih =>
      intro ys s h hl _ hq
      cases ys with
      | nil => simp at hl
      | cons y ys =>
        cases hsp : speed (next c s y) with
        | some b => exact ⟨1, by omega, by simp [run, hsp]⟩
        | none =>
          obtain ⟨g1, g2, g3⟩ := wait_step h y hsp
          have hne : s.q ≠ 2 ^ c.w - 1 := by omega
          simp only [bne_iff_ne, ne_eq, hne, not_false_eq_true, if_true] at g3
          obtain ⟨k, hk, hk2⟩ := ih ys (next c s y) g1 (by simpa using hl) (by omega) (by omega)
          exact ⟨k + 1, by omega, by simpa [run] using hk2⟩
  exact key _ ys s h hl (by omega) (by omega)

/-- The timer never gets over HS_RESET_TIME if it is too narrow. -/
theorem q_le {c : Cfg} (s : St) (h : s.q ≤ 2 ^ c.w - 1) (ys : List Ls) : (run c s ys).q ≤ 2 ^ c.w - 1 := by
  induction ys generalizing s with
  | nil => exact h
  | cons y ys ih =>
    apply ih
    rw [next_q]
    split
    · omega
    · split
      · omega
      · split
        · next hq => simp at hq; omega
        · exact h

/-- C281: if 2^w - 1 is not above HS_RESET_TIME and the host does not support high speed (line does not change), the device stays in the
negotiation for ever. -/
theorem nego_stuck {c : Cfg} (hw : 2 ^ c.w - 1 ≤ c.hsReset) (s : St) (h : s.st = .waitJK) (hq : s.q ≤ 2 ^ c.w - 1) (hc : s.chirps ≤ 5) (n : Nat) :
    speed (run c s (List.replicate n s.last)) = none := by
  have key : ∀ (n : Nat) (s : St) (l : Ls), l = s.last → s.st = .waitJK → s.q ≤ 2 ^ c.w - 1 → s.chirps ≤ 5 →
      speed (run c s (List.replicate n l)) = none := by
    intro n
    induction n with
    | zero => intro s l _ h _ _; simp [run, speed, h]
    | succ n ih =>
      intro s l hl h hq hc
      rw [List.replicate_succ]
      show speed (run c (next c s l) (List.replicate n l)) = none
      have e : nextSt c s = .waitJK := by
        simp [nextSt, h, show ¬ s.chirps > 5 by omega, show ¬ s.q > c.hsReset by omega]
      refine ih (next c s l) l rfl e ?_ ?_
      · have := q_le (c := c) s hq [l]
        exact this
      · show (if s.st == .sendK then 0 else if s.st == .waitJK && s.last != l && s.chirps != 255 then s.chirps + 1 else s.chirps) ≤ 5
        rw [hl]
        simp [h, hc]
  exact key n s s.last rfl h hq hc

/-- C281: for CLK_FREQ = 100 * 2^k Hz the timer has k bits, HS_RESET_TIME is 2^k. -/
theorem ends_fails : ¬ Ends (Cfg.ofHz 1600) := by
  intro h
  obtain ⟨n, hn⟩ := h (List.replicate 17 .se0) (by decide)
  obtain ⟨k, hk, h1⟩ := hn (List.replicate n .se0) (by simp)
  apply h1
  rw [List.take_replicate]
  exact nego_stuck (by decide) _ (by decide) (by decide) (by decide) _

example : (run (Cfg.ofHz 1000) (init .idle) (List.replicate 11 .se0)).st = .waitJK ∧ (Cfg.ofHz 1000).hsReset + 1 < 2 ^ (Cfg.ofHz 1000).w := by
  decide

/-- Line states since the end of the last chirp of the device (the history is from the last cycle). -/
def since (c : Cfg) (st : Ns) : List Ls → List Ls
  | [] => []
  | x :: xs => if chirpEn (run c (init st) xs.reverse) then [] else x :: since c st xs

/-- Number of changes of the line since the end of the last chirp. -/
def changes (c : Cfg) (st : Ns) : List Ls → Nat
  | [] => 0
  | x :: xs => if chirpEn (run c (init st) xs.reverse) then 0 else changes c st xs + (x != xs.head?.getD .se0).toNat

theorem last_eq (c : Cfg) (st : Ns) (xs : List Ls) : (run c (init st) xs).last = xs.reverse.head?.getD .se0 := by
  induction xs using snoc_ind with
  | h0 => rfl
  | h1 xs x _ => rw [run_snoc]; simp [next]

theorem chirps_le (c : Cfg) {st : Ns} (h0 : st ≠ .sendK ∧ st ≠ .waitJK) (xs : List Ls) :
    (run c (init st) xs).st = .waitJK → (run c (init st) xs).chirps ≤ changes c st xs.reverse := by
  induction xs using snoc_ind with
  | h0 => exact fun h => absurd h h0.2
  | h1 xs x ih =>
    intro h
    rw [run_snoc] at h ⊢
    have hl := last_eq c st xs
    have e : (xs ++ [x]).reverse = x :: xs.reverse := by simp
    rw [e]
    simp only [changes, List.reverse_reverse, ← hl]
    generalize run c (init st) xs = s at *
    have h' : nextSt c s = .waitJK := h
    show (if s.st == .sendK then 0 else if s.st == .waitJK && s.last != x && s.chirps != 255 then s.chirps + 1 else s.chirps) ≤ _
    have hs : s.st = .sendK ∨ s.st = .waitJK := by
      unfold nextSt at h'
      cases hs : s.st <;> rw [hs] at h' <;> simp only at h'
      all_goals repeat' split at h'
      all_goals first | (cases h'; done) | (left; rfl) | (right; rfl)
    rcases hs with hs | hs
    · simp [hs, chirpEn]
    · have := ih hs
      simp only [hs, chirpEn, beq_ns, bne]
      rw [show (x == s.last) = (s.last == x) from by
        cases x <;> cases s.last <;> rfl]
      cases hsx : s.last == x <;> simp
      · split <;> omega
      · exact this

/-- C282: high speed is entered only after at least 6 changes of the line since the end of the chirp of the device. -/
theorem hs_needs_changes (c : Cfg) (xs : List Ls) (x : Ls) (h1 : speed (run c (init .idle) xs) ≠ some true)
    (h2 : speed (run c (init .idle) (xs ++ [x])) = some true) : 6 ≤ changes c .idle xs.reverse := by
  have hc := chirps_le c (st := .idle) ⟨by decide, by decide⟩ xs
  rw [run_snoc] at h2
  generalize run c (init .idle) xs = s at *
  have h2' : nextSt c s = .hs := by
    have hst : (next c s x).st = nextSt c s := rfl
    unfold speed at h2
    rw [hst] at h2
    cases hn : nextSt c s <;> rw [hn] at h2 <;> first | rfl | (simp at h2)
  cases hs : s.st with
  | waitJK =>
    have := hc hs
    have : s.chirps > 5 := by
      rcases Nat.lt_or_ge 5 s.chirps with g | g
      · exact g
      · simp only [nextSt, hs, show ¬ s.chirps > 5 by omega, if_false] at h2'
        split at h2' <;> cases h2'
    omega
  | hs => simp [speed, hs] at h1
  | idle => simp only [nextSt, hs] at h2'; split at h2' <;> cases h2'
  | waitRst => simp only [nextSt, hs] at h2'; split at h2' <;> cases h2'
  | sendK => simp only [nextSt, hs] at h2'; split at h2' <;> cases h2'
  | fs => simp only [nextSt, hs] at h2'; split at h2' <;> cases h2'

/-- The full claim: there were K and J from the host. -/
def HsNeedsJK (c : Cfg) : Prop :=
  ∀ xs x, speed (run c (init .idle) xs) ≠ some true → speed (run c (init .idle) (xs ++ [x])) = some true →
    Ls.k ∈ since c .idle xs.reverse ∧ Ls.j ∈ since c .idle xs.reverse

/-- C282: any changes of the line are counted, the device can go to high speed without any K from the host. -/
theorem hs_needs_jk_fails : ¬ HsNeedsJK (Cfg.ofHz 1600) := by
  intro h
  have := (h (List.replicate 17 .se0 ++ [.j, .se0, .j, .se0, .j, .se0]) .se0 (by decide) (by decide)).1
  exact absurd this (by decide)

example : speed (run (Cfg.ofHz 1600) (init .idle) (List.replicate 17 .se0 ++ [.k, .j, .k, .j, .k, .j])) ≠ some true ∧
    speed (run (Cfg.ofHz 1600) (init .idle) (List.replicate 17 .se0 ++ [.k, .j, .k, .j, .k, .j] ++ [.j])) = some true := by decide

/-! ## Reset of a connected device -/

theorem speed_step {c : Cfg} {s : St} (h : speed s ≠ none) (x : Ls) :
    (s.q > c.hsReset → usbRst s = true → speed (next c s x) = none) ∧
    (speed (next c s x) ≠ none → (next c s x).q = if s.q != 2 ^ c.w - 1 then s.q + 1 else s.q) := by
  have hst : s.st = .fs ∨ s.st = .hs := by
    cases hs : s.st <;> simp [speed, hs] at h ⊢
  have e1 : (next c s x).st = nextSt c s := rfl
  have e2 : (next c s x).q = if s.st != .waitRst && nextSt c s == .waitRst then 0
    else if s.st == .waitRst && x != .se0 then 0
    else if s.q != 2 ^ c.w - 1 then s.q + 1 else s.q := rfl
  refine ⟨fun hq hu => ?_, fun hn => ?_⟩
  · have : nextSt c s = .waitRst := by rcases hst with hs | hs <;> simp [nextSt, hs, hq, hu]
    simp [speed, e1, this]
  · have hne : nextSt c s ≠ .waitRst := by
      intro g; apply hn; simp [speed, e1, g]
    have hb : (nextSt c s == .waitRst) = false := by
      cases hh : nextSt c s <;> first | rfl | exact absurd hh hne
    have hc : (s.st == .waitRst) = false := by rcases hst with hs | hs <;> rw [hs] <;> rfl
    rw [e2, hb, hc]; simp

/-- C281: a reset by the host ends the full speed and the high speed connection (the negotiation starts again), if the counter of time can be above
HS_RESET_TIME. -/
theorem reset_leaves_partial {c : Cfg} (hw : c.hsReset + 1 < 2 ^ c.w) (st : Ns) (xs : List Ls)
    (h : speed (run c (init st) xs) ≠ none) :
    ∃ k, k ≤ 2 ^ 14 + c.hsReset + 2 ∧ speed (run c (init st) (xs ++ List.replicate k .se0)) = none := by
  have key : ∀ k, (∃ j, j ≤ k ∧ speed (run c (init st) (xs ++ List.replicate j .se0)) = none) ∨
      (speed (run c (init st) (xs ++ List.replicate k .se0)) ≠ none ∧
        (k ≤ (run c (init st) (xs ++ List.replicate k .se0)).q ∨
          2 ^ c.w - 1 ≤ (run c (init st) (xs ++ List.replicate k .se0)).q)) := by
    intro k
    induction k with
    | zero => exact .inr ⟨by simpa using h, .inl (Nat.zero_le _)⟩
    | succ k ih =>
      rcases ih with ⟨j, hj, hn⟩ | ⟨hn, hq⟩
      · exact .inl ⟨j, by omega, hn⟩
      · have e : run c (init st) (xs ++ List.replicate (k + 1) .se0) = next c (run c (init st) (xs ++ List.replicate k .se0)) .se0 := by
          rw [List.replicate_succ', ← List.append_assoc, run_snoc]
        by_cases hs : speed (run c (init st) (xs ++ List.replicate (k + 1) .se0)) = none
        · exact .inl ⟨k + 1, Nat.le_refl _, hs⟩
        · refine .inr ⟨hs, ?_⟩
          rw [e] at hs ⊢
          rw [(speed_step hn .se0).2 hs]
          split
          · next g => simp at g; omega
          · next g => simp at g; omega
  rcases key (2 ^ 14 + c.hsReset + 1) with ⟨j, hj, hn⟩ | ⟨hn, hq⟩
  · exact ⟨j, by omega, hn⟩
  · refine ⟨2 ^ 14 + c.hsReset + 2, Nat.le_refl _, ?_⟩
    rw [show 2 ^ 14 + c.hsReset + 2 = (2 ^ 14 + c.hsReset + 1) + 1 from rfl, List.replicate_succ', ← List.append_assoc, run_snoc]
    refine (speed_step hn .se0).1 (by omega) ?_
    rw [usbRst_iff_tail]
    have : ∀ k, k ≤ se0Tail (xs ++ List.replicate k .se0) := by
      intro k
      induction k with
      | zero => exact Nat.zero_le _
      | succ k ih =>
        rw [List.replicate_succ', ← List.append_assoc, se0Tail_snoc]
        simpa using ih
    have := this (2 ^ 14 + c.hsReset + 1)
    omega

example : speed (run (Cfg.ofHz 1000) (init .hs) [.j]) ≠ none ∧ (Cfg.ofHz 1000).hsReset + 1 < 2 ^ (Cfg.ofHz 1000).w := by decide

end Verif.UsbNego
