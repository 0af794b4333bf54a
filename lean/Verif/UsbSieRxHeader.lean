import Verif.UsbSieRxProps

/-!
# Headers of packets of `Usb2SieDeviceRx` (C198 - C201)
-/

namespace Verif.UsbSieRx

open Verif

/-- what is said about a header: PID, error and, for tokens, `endp` and `frame_number` -/
abbrev View := Nat × Bool × Option (Nat × Option Nat)
def view (h : Header) : View := (h.pid, h.error, if is16b h.pid then some (h.endp, h.frame) else none)

/-- the check field of PID is its inversion -/
def pidOk (d : Nat) : Bool := d % 16 == 15 - d / 16 % 16

def tokAddr (b1 : Nat) : Nat := b1 % 128
def tokEndp (b1 b2 : Nat) : Nat := b2 % 8 * 2 + b1 / 128 % 2
def tokFrame (b1 b2 : Nat) : Nat := tokEndp b1 b2 * 128 + tokAddr b1
/-- a frame number is reported for SOF -/
def frameOf (pid b1 b2 : Nat) : Option Nat := if pid = 5 then some (tokFrame b1 b2) else none
def tokErr (crc : Nat → Nat) (a b1 b2 : Nat) : Bool :=
  (a != tokAddr b1) || (crc (tokFrame b1 b2) != b2 / 8 % 32)

/-- the headers which are reported for a packet -/
def expected (crc : Nat → Nat) (a : Nat) (p : List Byte) : List View :=
  match p with
  | [] => []
  | b0 :: rest =>
    if isHs (b0.1 % 16) then [(b0.1 % 16, !rest.isEmpty, none)]
    else if isData (b0.1 % 16) then [(b0.1 % 16, false, none)]
    else if is16b (b0.1 % 16) && pidOk b0.1 then
      match rest with
      | b1 :: b2 :: more =>
        [(b0.1 % 16, tokErr crc a b1.1 b2.1 || !more.isEmpty, some (tokEndp b1.1 b2.1, frameOf (b0.1 % 16) b1.1 b2.1))]
      | _ => []
    else []

def headers (crc : Nat → Nat) (h₀ : HSt) (a : Nat) (bs : List (Option Beat)) : List View :=
  (((hmachine crc).trace h₀ (bs.map fun b => ⟨true, a, b⟩)).filterMap Prod.snd).map view

/-! ## Incremental form of `expected` -/

/-- header which is caused by a beat after the bytes `cur` of the packet -/
def emit (crc : Nat → Nat) (a : Nat) (cur : List Byte) (b : Beat) : List View :=
  match cur with
  | [] =>
    if isHs (b.data % 16) then [(b.data % 16, !b.last, none)]
    else if isData (b.data % 16) then [(b.data % 16, false, none)] else []
  | [b0, b1] =>
    if !isHs (b0.1 % 16) && !isData (b0.1 % 16) && is16b (b0.1 % 16) && pidOk b0.1 then
      [(b0.1 % 16, tokErr crc a b1.1 b.data || !b.last, some (tokEndp b1.1 b.data, frameOf (b0.1 % 16) b1.1 b.data))]
    else []
  | _ => []

/-- headers of a packet which continues -/
def early (cur : List Byte) : List View :=
  match cur with
  | [] => []
  | b0 :: rest =>
    if isHs (b0.1 % 16) then [(b0.1 % 16, true, none)]
    else if isData (b0.1 % 16) then [(b0.1 % 16, false, none)]
    else if is16b (b0.1 % 16) && pidOk b0.1 then
      match rest with
      | b1 :: b2 :: _ =>
        [(b0.1 % 16, true, some (tokEndp b1.1 b2.1, frameOf (b0.1 % 16) b1.1 b2.1))]
      | _ => []
    else []

theorem early_snoc (crc : Nat → Nat) (a : Nat) (cur : List Byte) (b : Beat) (hb : b.last = false) :
    early (cur ++ [(b.data, b.error)]) = early cur ++ emit crc a cur b := by
  match cur with
  | [] => simp [early, emit, hb]
  | [b0] => simp [early, emit]
  | [b0, b1] =>
    simp only [early, emit, List.cons_append, List.nil_append]
    cases isHs (b0.1 % 16) <;> cases isData (b0.1 % 16) <;> cases is16b (b0.1 % 16) <;> cases pidOk b0.1 <;> simp [hb]
  | b0 :: b1 :: b2 :: more => simp [early, emit]

theorem expected_snoc (crc : Nat → Nat) (a : Nat) (cur : List Byte) (b : Beat) (hb : b.last = true) :
    expected crc a (cur ++ [(b.data, b.error)]) = early cur ++ emit crc a cur b := by
  match cur with
  | [] => simp [early, emit, hb, expected]
  | [b0] => simp [early, emit, expected]
  | [b0, b1] =>
    simp only [early, emit, List.cons_append, List.nil_append, expected]
    cases isHs (b0.1 % 16) <;> cases isData (b0.1 % 16) <;> cases is16b (b0.1 % 16) <;> cases pidOk b0.1 <;> simp [hb]
  | b0 :: b1 :: b2 :: more =>
    have h : (more ++ [(b.data, b.error)]).isEmpty = false := by cases more <;> rfl
    simp only [early, emit, List.cons_append, expected, h]
    simp

/-! ## Invariant -/

/-- a token (with right check of PID) has at most `n` bytes after PID -/
def Fits (n : Nat) (p : List Byte) : Prop :=
  ∀ b0 rest, p = b0 :: rest → is16b (b0.1 % 16) = true → pidOk b0.1 = true → rest.length ≤ n

def pend (crc : Nat → Nat) (s : HSt) (a : Nat) : List View :=
  ((header crc s ⟨true, a, none⟩).toList).map view

/-- the state in the packet with bytes `cur`; `nx` tells if a beat must follow (`some true`), must not (`some false`) -/
def Rel (s : HSt) (cur : List Byte) (nx : Option Bool) : Prop :=
  match cur with
  | [] => s.pidI = false ∧ s.tokI = 0 ∧
      (s.valid = false → s.errLen = false ∧ s.crc5Loaded = false) ∧
      (s.valid = true → nx = some false ∧ s.pidLoaded = true ∧
        (isData s.pid = true → s.errLen = false ∧ s.crc5Loaded = false))
  | b0 :: rest => s.pidI = true ∧ nx = some true ∧
      if isHs (b0.1 % 16) then
        s.tokI = 0 ∧ s.crc5Loaded = false ∧
        (if s.valid then s.errLen = true ∧ s.pid = b0.1 % 16 ∧ s.pidLoaded = true
          else s.pidLoaded = false ∧ s.errLen = false)
      else if isData (b0.1 % 16) then
        s.tokI = 0 ∧ s.crc5Loaded = false ∧ s.errLen = false ∧ s.pid = b0.1 % 16 ∧ s.pidLoaded = true
      else if is16b (b0.1 % 16) then
        s.pidLoaded = true ∧ s.pid = b0.1 % 16 ∧ s.errPid = !pidOk b0.1 ∧ s.tokI = min 2 rest.length ∧
        (match rest with | b1 :: _ => s.tokI = 1 → s.addr = tokAddr b1.1 ∧ s.endp0 = b1.1 / 128 % 2 | [] => True) ∧
        (if pidOk b0.1 && decide (2 ≤ rest.length) then
            rest.length = 2 ∧ s.valid = true ∧ s.errLen = true ∧ s.crc5Loaded = true
          else s.valid = false ∧ s.errLen = false ∧ s.crc5Loaded = false)
      else
        s.tokI = 0 ∧ s.valid = false ∧ s.errLen = false ∧ s.crc5Loaded = false ∧ s.pid = b0.1 % 16

theorem isHs_excl {p : Nat} (h : isHs p = true) : isData p = false ∧ is16b p = false := by
  simp only [isHs, Bool.or_eq_true, beq_iff_eq] at h
  rcases h with ((h | h) | h) | h <;> subst h <;> decide

theorem isData_excl {p : Nat} (h : isData p = true) : isHs p = false ∧ is16b p = false := by
  simp only [isData, Bool.or_eq_true, beq_iff_eq] at h
  rcases h with ((h | h) | h) | h <;> subst h <;> decide

theorem errPid_eq (d : Nat) : (d % 16 != 15 - d / 16 % 16) = !pidOk d := rfl

/-- a cycle without a beat -/
theorem step_none (crc : Nat → Nat) (a : Nat) (s : HSt) (cur : List Byte) (nx : Option Bool) (h : Rel s cur nx)
    (hn : nx ≠ some true) :
    Rel (hnext s ⟨true, a, none⟩) cur none ∧ pend crc (hnext s ⟨true, a, none⟩) a = [] := by
  cases cur with
  | cons b0 rest => exact absurd h.2.1 hn
  | nil =>
    obtain ⟨h1, h2, h3, h4⟩ := h
    have hp : pidVld s ⟨true, a, none⟩ = none := by simp [pidVld]
    have hc : crcVld s ⟨true, a, none⟩ = false := by simp [crcVld, tokIn, afterPid]
    have hr : rxEnding ⟨true, a, none⟩ = false := rfl
    simp only [hnext, tokIn, afterPid, nextQ, hp, hc, hr, ite_self, Bool.and_false, Bool.false_and, Bool.or_false, Bool.not_true,
      Bool.false_eq_true, if_false]
    cases hv : s.valid with
    | false =>
      obtain ⟨h5, h6⟩ := h3 hv
      simp [Rel, h1, h2, h5, h6, hv, pend, header]
    | true =>
      obtain ⟨_, h6, h7⟩ := h4 hv
      cases hd : isData s.pid with
      | true =>
        obtain ⟨h8, h9⟩ := h7 hd
        simp [Rel, h1, h2, h8, h9, hasPayload, h6, hd, pend, header]
      | false =>
        simp [Rel, h1, h2, hasPayload, h6, hd, pend, header]

/-- the first byte of a packet -/
theorem step_first (crc : Nat → Nat) (a : Nat) (s : HSt) (b : Beat) (nx : Option Bool) (h : Rel s [] nx)
    (hn : nx ≠ some false) :
    Rel (hnext s ⟨true, a, some b⟩) (if b.last then [] else [(b.data, b.error)]) (some (!b.last)) ∧
      pend crc (hnext s ⟨true, a, some b⟩) a = emit crc a [] b := by
  obtain ⟨h1, h2, h3, h4⟩ := h
  have hv : s.valid = false := by
    cases hv : s.valid with
    | false => rfl
    | true => exact absurd (h4 hv).1 hn
  obtain ⟨h5, h6⟩ := h3 hv
  have hp : pidVld s ⟨true, a, some b⟩ = some b := by simp [pidVld, h1]
  cases hl : b.last with
  | false =>
    have ha : tokIn s ⟨true, a, some b⟩ = none := by simp [tokIn, afterPid, h1, hl]
    have hr : rxEnding ⟨true, a, some b⟩ = false := hl
    simp only [hnext, ha, nextQ, hp, hr, if_true, hl, Bool.not_false, Bool.and_true]
    cases hh : isHs (b.data % 16) with
    | true => simp [Rel, hh, h2, h6, pend, header, emit, hl, view, (isHs_excl hh).2]
    | false =>
      cases hd : isData (b.data % 16) with
      | true => simp [Rel, hh, hd, h2, h6, pend, header, emit, view, (isData_excl hd).2]
      | false =>
        cases ht : is16b (b.data % 16) with
        | true => simp [Rel, hh, hd, ht, h2, h6, pend, header, emit, pidOk, bne]
        | false => simp [Rel, hh, hd, ht, h2, h6, pend, header, emit]
  | true =>
    have hr : rxEnding ⟨true, a, some b⟩ = true := hl
    have key : ∀ t, t = hnext s ⟨true, a, some b⟩ → t.pidI = false ∧ t.tokI = 0 ∧ t.pid = b.data % 16 ∧ t.pidLoaded = true ∧
        t.errLen = false ∧ t.crc5Loaded = false ∧ t.valid = (isHs (b.data % 16) || isData (b.data % 16)) := by
      intro t ht
      subst ht
      simp only [hnext, nextQ, hp, hr, if_true, hl]
      cases hq : has16b s <;> simp [tokIn, afterPid, h1, hl, h2, h6, hq]
    generalize hnext s ⟨true, a, some b⟩ = t at key
    obtain ⟨k1, k2, k3, k4, k5, k6, k7⟩ := key t rfl
    constructor
    · simp [Rel, k1, k2, k4, k5, k6]
    · cases hh : isHs (b.data % 16) with
      | true => simp [pend, header, emit, hl, view, hh, k3, k5, k6, k7, (isHs_excl hh).2]
      | false =>
        cases hd : isData (b.data % 16) with
        | true => simp [pend, header, emit, view, hh, hd, k3, k5, k6, k7, (isData_excl hd).2]
        | false => simp [pend, header, emit, hh, hd, k7]

/-- the next bytes of a packet -/
theorem step_rest (crc : Nat → Nat) (a : Nat) (s : HSt) (b : Beat) (b0 : Byte) (rest : List Byte) (nx : Option Bool)
    (h : Rel s (b0 :: rest) nx) (ho : b.last = false → Fits 2 (b0 :: rest ++ [(b.data, b.error)])) :
    Rel (hnext s ⟨true, a, some b⟩) (if b.last then [] else b0 :: rest ++ [(b.data, b.error)]) (some (!b.last)) ∧
      pend crc (hnext s ⟨true, a, some b⟩) a = emit crc a (b0 :: rest) b := by
  obtain ⟨h1, h2, h3⟩ := h
  have hp : pidVld s ⟨true, a, some b⟩ = none := by simp [pidVld, h1]
  have ha : afterPid s ⟨true, a, some b⟩ = some b := by simp [afterPid, h1]
  have hr : rxEnding ⟨true, a, some b⟩ = b.last := rfl
  cases hh : isHs (b0.1 % 16) with
  | true =>
    rw [if_pos hh] at h3
    obtain ⟨h4, h5, h6⟩ := h3
    have h16 : has16b s = false := by
      simp only [has16b]
      cases hv : s.valid <;> simp [hv] at h6
      · simp [h6.1]
      · simp [h6.2.1, (isHs_excl hh).2]
    have hpl : hasPayload s = false := by
      simp only [hasPayload]
      cases hv : s.valid <;> simp [hv] at h6
      · simp [h6.1]
      · simp [h6.2.1, (isHs_excl hh).1]
    have hem : emit crc a (b0 :: rest) b = [] := by
      match rest with
      | [] => rfl
      | [b1] => simp [emit, hh]
      | _ :: _ :: _ => rfl
    rw [hem]
    simp only [hnext, tokIn, h16, nextQ, hp, hr, hpl, ite_self, Bool.and_false, Bool.false_and, Bool.or_false,
      Bool.not_true, Bool.false_eq_true, if_false, Bool.not_false]
    cases hv : s.valid <;> simp only [hv, if_true, Bool.false_eq_true, if_false] at h6
    · cases hl : b.last <;> cases he : s.errPid <;> simp [Rel, h4, h5, h6, hv, pend, header, hh]
    · cases hl : b.last <;> simp [Rel, h4, pend, header, hh]
  | false =>
  cases hd : isData (b0.1 % 16) with
  | true =>
    rw [if_neg (by simp [hh]), if_pos hd] at h3
    obtain ⟨h4, h5, h6, h7, h8⟩ := h3
    have h16 : has16b s = false := by simp [has16b, h7, (isData_excl hd).2]
    have hpl : hasPayload s = true := by simp [hasPayload, h7, h8, hd]
    have hem : emit crc a (b0 :: rest) b = [] := by
      match rest with
      | [] => rfl
      | [b1] => simp [emit, hd]
      | _ :: _ :: _ => rfl
    rw [hem]
    simp only [hnext, tokIn, h16, nextQ, hp, hr, hpl, ite_self, Bool.and_false, Bool.false_and, Bool.or_false,
      Bool.not_true, Bool.false_eq_true, if_false, Bool.not_false, h6, Bool.false_or, Bool.true_and, Bool.and_true]
    cases hl : b.last
    · cases hv : s.valid <;> simp [Rel, h4, h5, h6, h7, h8, hv, pend, header, hh, hd]
    · simp [Rel, h4, pend, header]
  | false =>
  cases ht : is16b (b0.1 % 16) with
  | false =>
    rw [if_neg (by simp [hh]), if_neg (by simp [hd]), if_neg (by simp [ht])] at h3
    obtain ⟨h4, h5, h6, h7, h8⟩ := h3
    have h16 : has16b s = false := by simp [has16b, h8, ht]
    have hpl : hasPayload s = false := by simp [hasPayload, h8, hd]
    have hem : emit crc a (b0 :: rest) b = [] := by
      match rest with
      | [] => rfl
      | [b1] => simp [emit, ht]
      | _ :: _ :: _ => rfl
    rw [hem]
    simp only [hnext, tokIn, h16, nextQ, hp, hr, hpl, ite_self, Bool.and_false, Bool.false_and, Bool.or_false,
      Bool.not_true, Bool.false_eq_true, if_false, Bool.not_false, h5, Bool.false_or]
    cases hl : b.last <;> cases he : s.errPid <;> simp [Rel, h4, h5, h6, h7, h8, pend, header, hh, hd, ht]
  | true =>
    rw [if_neg (by simp [hh]), if_neg (by simp [hd]), if_pos ht] at h3
    obtain ⟨h4, h5, h6, h7, h8, h9⟩ := h3
    have h16 : has16b s = true := by simp [has16b, h4, h5, ht]
    have hpl : hasPayload s = false := by simp [hasPayload, h5, hd]
    have hcv : crcVld s ⟨true, a, some b⟩ = (s.tokI == 1) := by simp [crcVld, tokIn, h16, ha]
    simp only [hnext, tokIn, h16, nextQ, hp, ha, hr, hpl, ite_self, Bool.and_false, Bool.false_and, Bool.or_false,
      Bool.not_true, Bool.false_eq_true, if_false, Bool.not_false, if_true, Bool.true_and, Bool.and_true, Bool.or_true]
    cases hk : pidOk b0.1 with
    | false =>
      have hem : emit crc a (b0 :: rest) b = [] := by
        match rest with
        | [] => rfl
        | [b1] => simp [emit, hk]
        | _ :: _ :: _ => rfl
      rw [hem]
      simp only [hk, Bool.false_and, Bool.false_eq_true, if_false, Bool.not_false] at h6 h9
      obtain ⟨h10, h11, h12⟩ := h9
      simp only [h6, h10, h11, Bool.not_true, Bool.and_false, Bool.false_eq_true, if_false, Bool.true_and,
        Bool.false_or]
      cases hl : b.last with
      | true => simp [Rel, pend, header]
      | false =>
        refine ⟨?_, by simp [pend, header, h10]⟩
        match rest with
        | [] => simp [Rel, hh, hd, ht, hk, h4, h5, h6, h10, h11, h12, tokAddr, h7]
        | [b1] => simp [Rel, hh, hd, ht, hk, h4, h5, h6, h10, h11, h12, h7]
        | _ :: _ :: _ =>
          simp only [List.length_cons] at h7
          have h7' : s.tokI = 2 := by omega
          simp [Rel, hh, hd, ht, hk, h4, h5, h6, h10, h11, h12, h7']
    | true =>
      simp only [hk, Bool.not_true] at h6
      match rest with
      | [] =>
        simp at h9 h7
        obtain ⟨h10, h11, h12⟩ := h9
        cases hl : b.last <;>
          simp [Rel, hh, hd, ht, hk, h4, h5, h6, h10, h11, h12, h7, tokAddr, pend, header, hcv, emit]
      | [b1] =>
        simp at h9 h7 h8
        obtain ⟨h10, h11, h12⟩ := h9
        obtain ⟨h13, h14⟩ := h8 h7
        cases hl : b.last <;>
          simp [Rel, hh, hd, ht, hk, h4, h5, h6, h11, h7, h13, h14, pend, header, hcv, emit, hl, view, tokErr, tokEndp,
            tokFrame, frameOf]
      | b1 :: b2 :: more =>
        rw [if_pos (by simp [hk])] at h9
        obtain ⟨h9, h10, h11, h12⟩ := h9
        have h7' : s.tokI = 2 := by simp only [List.length_cons] at h7; omega
        have hl : b.last = true := by
          cases hl : b.last with
          | true => rfl
          | false =>
            have := ho hl b0 _ rfl ht hk
            simp at this
        simp [Rel, hl, h7', hcv, h10, h11, pend, header, emit]

/-! ## All beats -/

def nxOf (bs : List (Option Beat)) : Option Bool :=
  match bs.getLast? with
  | some (some b) => some (!b.last)
  | _ => none

theorem shape_init {bs : List (Option Beat)} {x : Option Beat} (h : Shape (bs ++ [x])) : Shape bs := by
  intro pre b c post he
  exact h pre b c (post ++ [x]) (by rw [he]; simp)

theorem shape_nx {bs : List (Option Beat)} {x : Option Beat} (h : Shape (bs ++ [x])) :
    (nxOf bs = some true → x ≠ none) ∧ (nxOf bs = some false → x = none) := by
  rcases List.eq_nil_or_concat bs with hb | ⟨pre, y, hb⟩
  · subst hb; simp [nxOf]
  · rw [List.concat_eq_append] at hb
    subst hb
    cases y with
    | none => simp [nxOf]
    | some b =>
      have := h pre b x [] (by simp)
      cases hl : b.last <;> simp [nxOf, hl] at this ⊢ <;> exact this

theorem headers_snoc (crc : Nat → Nat) (h₀ : HSt) (a : Nat) (bs : List (Option Beat)) (x : Option Beat) :
    headers crc h₀ a (bs ++ [x]) =
      headers crc h₀ a bs ++ pend crc ((hmachine crc).final h₀ (bs.map fun b => ⟨true, a, b⟩)) a := by
  simp only [headers, List.map_append, List.map_cons, List.map_nil, Machine.trace_snoc, List.filterMap_append]
  congr 1

def curFits (P : List (List Byte) × List Byte) : Prop := (∀ p ∈ P.1, Fits 3 p) ∧ Fits 2 P.2

theorem fits_init {n : Nat} {p : List Byte} {b : Byte} (h : Fits (n + 1) (p ++ [b])) : Fits n p := by
  intro b0 rest he h1 h2
  have := h b0 (rest ++ [b]) (by rw [he]; simp) h1 h2
  simp at this
  exact this

theorem curFits_init {P : List (List Byte) × List Byte} {x : Option Beat} (h : curFits (bStep P x)) : curFits P := by
  cases x with
  | none => exact h
  | some b =>
    obtain ⟨h1, h2⟩ := h
    simp only [bStep] at h1 h2
    cases hl : b.last with
    | true =>
      simp only [hl, if_true] at h1 h2
      exact ⟨fun p hp => h1 p (by simp [hp]), fits_init (b := (b.data, b.error)) (h1 _ (by simp))⟩
    | false =>
      simp only [hl, Bool.false_eq_true, if_false] at h1 h2
      refine ⟨h1, fits_init (b := (b.data, b.error)) ?_⟩
      intro b0 rest he k1 k2
      exact Nat.le_succ_of_le (h2 b0 rest he k1 k2)

theorem run (crc : Nat → Nat) (h₀ : HSt) (h0 : HInit h₀) (a : Nat) (bs : List (Option Beat)) (hs : Shape bs)
    (hf : curFits (bs.foldl bStep ([], []))) :
    Rel ((hmachine crc).final h₀ (bs.map fun b => ⟨true, a, b⟩)) (bs.foldl bStep ([], [])).2 (nxOf bs) ∧
      headers crc h₀ a bs ++ pend crc ((hmachine crc).final h₀ (bs.map fun b => ⟨true, a, b⟩)) a =
        (bs.foldl bStep ([], [])).1.flatMap (expected crc a) ++ early (bs.foldl bStep ([], [])).2 := by
  induction bs using List.reverseRecOn with
  | nil => simp [Rel, h0.pidI, h0.tokI, h0.errLen, h0.crc5Loaded, h0.valid, headers, pend, header, early]
  | append_singleton bs x ih =>
    have e : (bs ++ [x]).foldl bStep ([], []) = bStep (bs.foldl bStep ([], [])) x := by simp
    rw [e] at hf ⊢
    obtain ⟨i1, i2⟩ := ih (shape_init hs) (curFits_init hf)
    obtain ⟨n1, n2⟩ := shape_nx hs
    rw [headers_snoc, i2, List.map_append, Machine.final_append]
    show Rel (hnext ((hmachine crc).final h₀ (bs.map fun b => ⟨true, a, b⟩)) ⟨true, a, x⟩) _ _ ∧
      _ ++ pend crc (hnext ((hmachine crc).final h₀ (bs.map fun b => ⟨true, a, b⟩)) ⟨true, a, x⟩) a = _
    generalize (hmachine crc).final h₀ (bs.map fun b => ⟨true, a, b⟩) = s at *
    generalize bs.foldl bStep ([], []) = P at *
    obtain ⟨done, cur⟩ := P
    simp only at i1 i2 ⊢
    cases x with
    | none =>
      obtain ⟨k1, k2⟩ := step_none crc a s cur (nxOf bs) i1 (fun h => n1 h rfl)
      refine ⟨?_, ?_⟩
      · simpa [nxOf, bStep] using k1
      · rw [k2]; simp [bStep]
    | some b =>
      have hk : Rel (hnext s ⟨true, a, some b⟩) (if b.last then [] else cur ++ [(b.data, b.error)]) (some (!b.last)) ∧
          pend crc (hnext s ⟨true, a, some b⟩) a = emit crc a cur b := by
        cases cur with
        | nil => exact step_first crc a s b (nxOf bs) i1 (fun h => by have := n2 h; cases this)
        | cons b0 rest =>
          refine step_rest crc a s b b0 rest (nxOf bs) i1 ?_
          intro hl
          have := hf.2
          simpa [bStep, hl] using this
      obtain ⟨k1, k2⟩ := hk
      refine ⟨?_, ?_⟩
      · cases hl : b.last <;> simpa [nxOf, bStep, hl] using k1
      · rw [k2]
        cases hl : b.last with
        | true =>
          simp only [bStep, hl, if_true, List.flatMap_append, List.flatMap_cons, List.flatMap_nil, List.append_nil,
            expected_snoc crc a cur b hl, early, List.append_assoc]
        | false =>
          simp only [bStep, hl, Bool.false_eq_true, if_false, early_snoc crc a cur b hl, List.append_assoc]

/-! ## C198 - C201 -/

/-- headers reported for the signals on UTMI -/
def reported (crc : Nat → Nat) (f₀ : FSt) (h₀ : HSt) (a : Nat) (is : List Utmi) : List View :=
  headers crc h₀ a (beats f₀ (is ++ [idle, idle, idle]))

/-- The headers are exactly those of `expected`, in the order of the packets. -/
theorem headers_partial (crc : Nat → Nat) (f₀ : FSt) (h₀ : HSt) (hf : FInit f₀) (h0 : HInit h₀) (a : Nat) (is : List Utmi)
    (hs : Steady is) (hp : ∀ p ∈ packets (is ++ [idle]), Fits 3 p) :
    reported crc f₀ h₀ a is = (packets (is ++ [idle])).flatMap (expected crc a) := by
  have hi := finv_all f₀ hf (is ++ [idle]) (steady_idle hs)
  have hsh := beats_shape f₀ hf (is ++ [idle, idle])
  have hc : ((is ++ [idle]).foldl uStep ([], [])).2 = [] := by simp [uStep, idle]
  have e : beats f₀ (is ++ [idle, idle]) = beats f₀ (is ++ [idle]) ++ [beat (front.final f₀ (is ++ [idle]))] := by
    rw [← beats_snoc _ _ idle]; simp
  have hcur : ((beats f₀ (is ++ [idle, idle])).foldl bStep ([], [])).2 = [] := by
    have := hi.cur
    rw [hc] at this
    rw [e]
    exact (List.append_eq_nil_iff.mp this.symm).1
  have hd : ((beats f₀ (is ++ [idle, idle])).foldl bStep ([], [])).1 = packets (is ++ [idle]) := front_partial f₀ hf is hs
  have hr := (run crc h₀ h0 a _ hsh ⟨by rw [hd]; exact hp, by rw [hcur]; intro b0 rest he; cases he⟩).2
  rw [hd, hcur] at hr
  rw [reported, show is ++ [idle, idle, idle] = (is ++ [idle, idle]) ++ [idle] by simp, beats_snoc, headers_snoc, hr]
  simp [early]

/-- the signals of one packet -/
def onUtmi (p : List Nat) : List Utmi := p.map (fun d => ⟨true, true, d, false⟩) ++ [idle]

def f0 : FSt := ⟨⟨false, false, 0, false⟩, ⟨false, false, 0, false⟩⟩
def h0 : HSt := ⟨false, 0, 0, 0, false, false, 0, 0, 0, false, false, false⟩
theorem f0_init : FInit f0 := ⟨rfl, rfl, rfl, rfl⟩
theorem h0_init : HInit h0 := ⟨rfl, rfl, rfl, rfl, rfl, rfl, rfl⟩

theorem steady_of {is : List Utmi} (h : ∀ x ∈ is, x.active = true → x.valid = true) : Steady is := by
  intro pre x y post he _ _ hy
  exact h y (by rw [he]; simp) hy

theorem onUtmi_steady (ps : List (List Nat)) : Steady (ps.flatMap onUtmi) := by
  refine steady_of fun x hx => ?_
  simp only [List.mem_flatMap, onUtmi, List.mem_append, List.mem_map, List.mem_singleton] at hx
  obtain ⟨p, _, ⟨d, _, rfl⟩ | rfl⟩ := hx <;> simp [idle]

theorem foldl_bytes (d : List (List Byte)) (p : List Nat) (cur : List Byte) :
    (p.map (fun d => (⟨true, true, d, false⟩ : Utmi))).foldl uStep (d, cur) = (d, cur ++ p.map (·, false)) := by
  induction p generalizing cur with
  | nil => simp
  | cons x p ih => simp [uStep, ih]

theorem foldl_onUtmi (ps : List (List Nat)) (hp : ∀ p ∈ ps, p ≠ []) (d : List (List Byte)) :
    (ps.flatMap onUtmi).foldl uStep (d, []) = (d ++ ps.map (fun p => p.map (·, false)), []) := by
  induction ps generalizing d with
  | nil => simp
  | cons p ps ih =>
    have h1 : p ≠ [] := hp p (by simp)
    rw [List.flatMap_cons, List.foldl_append, onUtmi, List.foldl_append, foldl_bytes]
    simp only [List.foldl_cons, List.foldl_nil]
    have : uStep (d, [] ++ p.map (·, false)) idle = (d ++ [p.map (·, false)], []) := by simp [uStep, idle, h1]
    rw [this, ih (fun q hq => hp q (by simp [hq]))]
    simp

theorem packets_onUtmi (ps : List (List Nat)) (hp : ∀ p ∈ ps, p ≠ []) :
    packets (ps.flatMap onUtmi ++ [idle]) = ps.map (fun p => p.map (·, false)) := by
  rw [packets, List.foldl_append, foldl_onUtmi ps hp]
  simp [uStep, idle]

/-- C198: a packet with a wrong check field of PID is never reported as a good one. -/
def PidChecked (crc : Nat → Nat) : Prop :=
  ∀ f₀ h₀ a is, FInit f₀ → HInit h₀ → Steady is →
    (∀ p ∈ packets (is ++ [idle]), ∃ b0 rest, p = b0 :: rest ∧ pidOk b0.1 = false) →
    ∀ v ∈ reported crc f₀ h₀ a is, v.2.1 = true

/-- ACK with a wrong check field -/
theorem pid_fails (crc : Nat → Nat) : ¬ PidChecked crc := by
  intro h
  have h1 := h f0 h0 0 ([[2]].flatMap onUtmi) f0_init h0_init (onUtmi_steady _) ?_ (2, false, none) ?_
  · simp at h1
  · rw [packets_onUtmi _ (by simp)]
    intro p hp
    simp at hp
    exact ⟨(2, false), [], hp, rfl⟩
  · have : reported crc f0 h0 0 ([[2]].flatMap onUtmi) = [(2, false, none)] := rfl
    rw [this]; simp

/-- Tokens with a wrong check field are not reported. -/
theorem pid_partial (crc : Nat → Nat) (f₀ : FSt) (h₀ : HSt) (hf : FInit f₀) (h0 : HInit h₀) (a : Nat) (is : List Utmi)
    (hs : Steady is)
    (hp : ∀ p ∈ packets (is ++ [idle]), ∃ b0 rest, p = b0 :: rest ∧ is16b (b0.1 % 16) = true ∧ pidOk b0.1 = false) :
    reported crc f₀ h₀ a is = [] := by
  rw [headers_partial crc f₀ h₀ hf h0 a is hs, List.flatMap_eq_nil_iff]
  · intro p hm
    obtain ⟨b0, rest, rfl, h1, h2⟩ := hp p hm
    have h3 : isHs (b0.1 % 16) = false := by
      cases h : isHs (b0.1 % 16) with
      | false => rfl
      | true => rw [(isHs_excl h).2] at h1; cases h1
    have h4 : isData (b0.1 % 16) = false := by
      cases h : isData (b0.1 % 16) with
      | false => rfl
      | true => rw [(isData_excl h).2] at h1; cases h1
    simp [expected, h2, h3, h4]
  · intro p hm b0 rest he h1 h2
    obtain ⟨b0', rest', he', _, h3⟩ := hp p hm
    rw [he] at he'
    cases he'
    rw [h2] at h3
    cases h3

example : ∀ p ∈ packets ([[0x01, 5, 6]].flatMap onUtmi ++ [idle]),
    ∃ b0 rest, p = b0 :: rest ∧ is16b (b0.1 % 16) = true ∧ pidOk b0.1 = false := by
  rw [packets_onUtmi _ (by simp)]
  intro p hp
  simp at hp
  exact ⟨_, _, hp, by decide, by decide⟩

/-- C199: what is reported for a packet does not depend on other packets. -/
def Independent (crc : Nat → Nat) : Prop :=
  ∃ f : Nat → List Byte → List View, ∀ f₀ h₀ a is, FInit f₀ → HInit h₀ → Steady is →
    reported crc f₀ h₀ a is = (packets (is ++ [idle])).flatMap (f a)

/-- the number of headers does not depend on CRC -/
theorem headers_length (crc crc' : Nat → Nat) (f₀ : FSt) (h₀ : HSt) (a : Nat) (is : List Utmi) :
    (reported crc f₀ h₀ a is).length = (reported crc' f₀ h₀ a is).length := by
  simp only [reported, headers, List.length_map]
  generalize (beats f₀ (is ++ [idle, idle, idle])).map (fun b => (⟨true, a, b⟩ : HIn)) = xs
  induction xs generalizing h₀ with
  | nil => rfl
  | cons x xs ih =>
    simp only [Machine.trace_cons, List.filterMap_cons]
    have e1 : (hmachine crc).next h₀ x = hnext h₀ x := rfl
    have e2 : (hmachine crc').next h₀ x = hnext h₀ x := rfl
    have e3 : (hmachine crc).out h₀ x = header crc h₀ x := rfl
    have e4 : (hmachine crc').out h₀ x = header crc' h₀ x := rfl
    rw [e1, e2, e3, e4]
    simp only [header]
    cases h₀.valid <;> simp [ih]

/-- The token after a token with 5 bytes is lost. -/
theorem independent_fails (crc : Nat → Nat) : ¬ Independent crc := by
  rintro ⟨f, h⟩
  have h1 := h f0 h0 1 ([[0xE1, 0, 0]].flatMap onUtmi) f0_init h0_init (onUtmi_steady _)
  have h2 := h f0 h0 1 ([[0xE1, 0, 0, 0, 0]].flatMap onUtmi) f0_init h0_init (onUtmi_steady _)
  have h3 := h f0 h0 1 ([[0xE1, 0, 0, 0, 0], [0xE1, 0, 0]].flatMap onUtmi) f0_init h0_init (onUtmi_steady _)
  rw [packets_onUtmi _ (by simp)] at h1 h2 h3
  simp only [List.map_cons, List.map_nil, List.flatMap_cons, List.flatMap_nil, List.append_nil] at h1 h2 h3
  rw [← h1, ← h2] at h3
  have h4 := congrArg List.length h3
  rw [List.length_append, headers_length crc (fun _ => 0), headers_length crc (fun _ => 0), headers_length crc (fun _ => 0)]
    at h4
  revert h4
  decide

example : reported (fun _ => 0) f0 h0 1 ([[0xE1, 0, 0, 9], [0xD2], [0xE1, 0, 0]].flatMap onUtmi) =
    [(1, true, some (0, none)), (2, false, none), (1, true, some (0, none))] := by decide

example : ∀ p ∈ packets ([[0xE1, 0, 0, 9], [0xD2], [0xE1, 0, 0]].flatMap onUtmi ++ [idle]), Fits 3 p := by
  rw [packets_onUtmi _ (by simp)]
  intro p hp b0 rest he _ _
  simp at hp
  rcases hp with hp | hp | hp <;> (rw [hp] at he; cases he; simp)

/-- C200: a start of frame with right CRC is reported without an error. -/
def SofOk (crc : Nat → Nat) : Prop :=
  ∀ f₀ h₀ a is b0 b1 b2, FInit f₀ → HInit h₀ → Steady is → packets (is ++ [idle]) = [[b0, b1, b2]] →
    b0.1 = 0xA5 → crc (tokFrame b1.1 b2.1) = b2.1 / 8 % 32 →
    reported crc f₀ h₀ a is = [(5, false, some (tokEndp b1.1 b2.1, some (tokFrame b1.1 b2.1)))]

/-- what is reported for a token of 3 bytes -/
theorem token_reported (crc : Nat → Nat) (f₀ : FSt) (h₀ : HSt) (hf : FInit f₀) (h0 : HInit h₀) (a : Nat) (is : List Utmi)
    (hs : Steady is) (b0 b1 b2 : Byte) (hp : packets (is ++ [idle]) = [[b0, b1, b2]]) (h1 : is16b (b0.1 % 16) = true)
    (h2 : pidOk b0.1 = true) :
    reported crc f₀ h₀ a is = [(b0.1 % 16, (a != b1.1 % 128) || (crc (tokFrame b1.1 b2.1) != b2.1 / 8 % 32),
      some (tokEndp b1.1 b2.1, frameOf (b0.1 % 16) b1.1 b2.1))] := by
  have h3 : isHs (b0.1 % 16) = false := by
    cases h : isHs (b0.1 % 16) with
    | false => rfl
    | true => rw [(isHs_excl h).2] at h1; cases h1
  have h4 : isData (b0.1 % 16) = false := by
    cases h : isData (b0.1 % 16) with
    | false => rfl
    | true => rw [(isData_excl h).2] at h1; cases h1
  rw [headers_partial crc f₀ h₀ hf h0 a is hs, hp]
  · simp [expected, h1, h2, h3, h4, tokErr, tokAddr]
  · rw [hp]
    intro p hm b0 rest he _ _
    simp at hm
    rw [hm] at he
    cases he
    simp

example : packets ([[0xE1, 5, 6]].flatMap onUtmi ++ [idle]) = [[(0xE1, false), (5, false), (6, false)]] ∧
    is16b (0xE1 % 16) = true ∧ pidOk 0xE1 = true := by decide

/-- There is an error if the low bits of the frame number are not the address of the device. -/
theorem sof_partial (crc : Nat → Nat) (f₀ : FSt) (h₀ : HSt) (hf : FInit f₀) (h0 : HInit h₀) (a : Nat) (is : List Utmi)
    (hs : Steady is) (b0 b1 b2 : Byte) (hp : packets (is ++ [idle]) = [[b0, b1, b2]]) (h1 : b0.1 = 0xA5)
    (hc : crc (tokFrame b1.1 b2.1) = b2.1 / 8 % 32) :
    reported crc f₀ h₀ a is =
      [(5, a != tokFrame b1.1 b2.1 % 128, some (tokEndp b1.1 b2.1, some (tokFrame b1.1 b2.1)))] := by
  rw [token_reported crc f₀ h₀ hf h0 a is hs b0 b1 b2 hp (by rw [h1]; decide) (by rw [h1]; decide), h1, hc]
  have : tokFrame b1.1 b2.1 % 128 = b1.1 % 128 := by simp only [tokFrame, tokAddr]; omega
  rw [this]
  simp [frameOf]

theorem sof_fails (crc : Nat → Nat) (hc : crc 0 < 32) : ¬ SofOk crc := by
  intro h
  have hp : packets ([[0xA5, 0, 8 * crc 0]].flatMap onUtmi ++ [idle]) = [[(0xA5, false), (0, false), (8 * crc 0, false)]] :=
    packets_onUtmi _ (by simp)
  have e : crc (tokFrame 0 (8 * crc 0)) = 8 * crc 0 / 8 % 32 := by
    have : tokFrame 0 (8 * crc 0) = 0 := by simp only [tokFrame, tokAddr, tokEndp]; omega
    rw [this]; omega
  have h1 := h f0 h0 1 _ _ _ _ f0_init h0_init (onUtmi_steady _) hp rfl e
  have h2 := sof_partial crc f0 h0 f0_init h0_init 1 _ (onUtmi_steady _) _ _ _ hp rfl e
  rw [h1] at h2
  have : tokFrame 0 (8 * crc 0) % 128 = 0 := by simp only [tokFrame, tokAddr, tokEndp]; omega
  simp [this] at h2

/-- C201: a token for which bytes are missing is reported as an error. -/
def MissingReported (crc : Nat → Nat) : Prop :=
  ∀ f₀ h₀ a is b0 rest, FInit f₀ → HInit h₀ → Steady is → packets (is ++ [idle]) = [b0 :: rest] →
    is16b (b0.1 % 16) = true → pidOk b0.1 = true → rest.length ≠ 2 → ∃ v ∈ reported crc f₀ h₀ a is, v.2.1 = true

theorem missing_fails (crc : Nat → Nat) : ¬ MissingReported crc := by
  intro h
  obtain ⟨v, hv, _⟩ := h f0 h0 0 ([[0xE1, 0]].flatMap onUtmi) _ _ f0_init h0_init (onUtmi_steady _)
    (packets_onUtmi _ (by simp)) (by decide) (by decide) (by decide)
  have : reported crc f0 h0 0 ([[0xE1, 0]].flatMap onUtmi) = [] := rfl
  rw [this] at hv
  cases hv

/-- With one byte more there is an error, if bytes are missing there is no header. -/
theorem missing_partial (crc : Nat → Nat) (f₀ : FSt) (h₀ : HSt) (hf : FInit f₀) (h0 : HInit h₀) (a : Nat) (is : List Utmi)
    (hs : Steady is) (b0 : Byte) (rest : List Byte) (hp : packets (is ++ [idle]) = [b0 :: rest])
    (h1 : is16b (b0.1 % 16) = true) (h2 : pidOk b0.1 = true) (hl : rest.length ≤ 3) :
    (rest.length < 2 → reported crc f₀ h₀ a is = []) ∧
      (rest.length = 3 → ∃ v, reported crc f₀ h₀ a is = [v] ∧ v.1 = b0.1 % 16 ∧ v.2.1 = true) := by
  have h3 : isHs (b0.1 % 16) = false := by
    cases h : isHs (b0.1 % 16) with
    | false => rfl
    | true => rw [(isHs_excl h).2] at h1; cases h1
  have h4 : isData (b0.1 % 16) = false := by
    cases h : isData (b0.1 % 16) with
    | false => rfl
    | true => rw [(isData_excl h).2] at h1; cases h1
  rw [headers_partial crc f₀ h₀ hf h0 a is hs, hp]
  · match rest with
    | [] => simp [expected, h1, h2, h3, h4]
    | [b1] => simp [expected, h1, h2, h3, h4]
    | [b1, b2] => simp
    | [b1, b2, b3] => simp [expected, h1, h2, h3, h4]
    | _ :: _ :: _ :: _ :: _ => simp at hl
  · rw [hp]
    intro p hm b0' rest' he _ _
    simp at hm
    rw [hm] at he
    cases he
    exact hl

example : packets ([[0xE1, 5, 6, 7]].flatMap onUtmi ++ [idle]) = [[(0xE1, false), (5, false), (6, false), (7, false)]] ∧
    is16b (0xE1 % 16) = true ∧ pidOk 0xE1 = true := by decide

end Verif.UsbSieRx
