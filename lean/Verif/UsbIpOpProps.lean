import Verif.UsbIpOp
import Verif.UsbIpProps
import Verif.UsbXferProps
/-! Properties of the operations and data toggles of the USB/IP server (C407–C410) -/
namespace Verif.UsbIpOp
open Verif.UsbIp Verif.UsbXfer

/-! ## C407: data toggles of OUT transfers -/

/-- device endpoint by the specification of USB: a packet with other PID than expected is a repeated one and is dropped -/
def rx : Bool → List Pkt → List Nat
  | _, [] => []
  | e, p :: r => if p.1 = e then p.2 ++ rx (!e) r else rx e r

/-- C407: full statement: a device receives all bytes of all transfers, each once and in order -/
def outSpec : Prop := ∀ (m : Nat) (bufs : List (List Nat)), 0 < m → rx false (outPkts m false bufs) = bufs.flatten

/-- C407: the toggle changes once per transfer: after a transfer of two packets the next transfer is dropped by the device -/
theorem out_violated : ¬ outSpec := by
  intro h
  exact absurd (h 2 [[1, 2], [3]] (by omega)) (by decide +kernel)

theorem rx_splitN (m : Nat) (hm : 0 < m) : ∀ (n : Nat) (pid : Bool) (d : List Nat) (r : List Pkt), d.length < n →
    rx pid (splitN n m pid d ++ r) = d ++ rx (pid ^^ decide ((d.length / m) % 2 = 0)) r := by
  intro n
  induction n with
  | zero => intro pid d r h; omega
  | succ n ih =>
    intro pid d r h
    rw [splitN, List.cons_append, rx, if_pos rfl]
    by_cases hl : (d.take m).length < m
    · rw [if_pos hl]
      rw [List.length_take] at hl
      rw [List.take_of_length_le (by omega), Nat.div_eq_of_lt (by omega)]
      cases pid <;> rfl
    · rw [if_neg hl]
      rw [List.length_take] at hl
      rw [ih _ _ _ (by rw [List.length_drop]; omega), ← List.append_assoc, List.take_append_drop, List.length_drop]
      have e : d.length / m = (d.length - m) / m + 1 := by rw [Nat.div_eq_sub_div hm (show m ≤ d.length by omega)]
      rw [e]
      generalize (d.length - m) / m = k
      congr 2
      rcases Nat.mod_two_eq_zero_or_one k with h0 | h0
      · have h1 : (k + 1) % 2 = 1 := by omega
        simp [h0, h1]
      · have h1 : (k + 1) % 2 = 0 := by omega
        simp [h0, h1]

/-- C407: holds if each transfer has an odd number of packets; missing: transfers with an even number of packets -/
theorem out_partial (m : Nat) (hm : 0 < m) : ∀ (bufs : List (List Nat)) (pid : Bool),
    (∀ b ∈ bufs, (b.length / m) % 2 = 0) → rx pid (outPkts m pid bufs) = bufs.flatten := by
  intro bufs
  induction bufs with
  | nil => intro pid _; rfl
  | cons b bs ih =>
    intro pid h
    have hb := h b (by simp)
    rw [outPkts, split, rx_splitN m hm _ _ _ _ (by omega), List.flatten_cons]
    rw [hb]
    have e : (pid ^^ decide (0 = 0)) = !pid := by cases pid <;> rfl
    rw [e, ih _ (fun x hx => h x (List.mem_cons_of_mem _ hx))]

example : (∀ b ∈ [[1], [], [2, 3, 4, 5], [6]], (b.length / 2) % 2 = 0) ∧
    rx false (outPkts 2 false [[1], [], [2, 3, 4, 5], [6]]) = [1, 2, 3, 4, 5, 6] := by decide +kernel

/-- C407: a transfer which follows a transfer with an even number of packets loses its first packet -/
theorem out_lost (m : Nat) (hm : 0 < m) (a b : List Nat) (ha : (a.length / m) % 2 = 1) (hb : b.length < m) (pid : Bool) :
    rx pid (outPkts m pid [a, b]) = a := by
  rw [outPkts, split, rx_splitN m hm _ _ _ _ (by omega), ha, outPkts, outPkts, List.append_nil]
  have e : (pid ^^ decide (1 = 0)) = pid := by cases pid <;> rfl
  rw [e, split, splitN, if_pos (by rw [List.length_take]; omega)]
  simp [rx]

example : ([1, 2].length / 2) % 2 = 1 ∧ [3].length < 2 := by decide

/-! ## C408: data toggles of IN transfers -/

/-- device endpoint by the specification of USB: PID changes after each packet which was acknowledged -/
def tx : Bool → List (Option (List Nat)) → List (Option Pkt)
  | _, [] => []
  | p, none :: r => none :: tx p r
  | p, some d :: r => some (p, d) :: tx (!p) r

/-- C408: for every sequence of NAKs and packets each IN transfer returns the packet of the device (nothing for NAK) and the
check of PID never fails -/
theorem in_toggle : ∀ (l : List (Option (List Nat))) (p : Bool), inSubmits p (tx p l) = some (l.map fun a => a.getD []) := by
  intro l
  induction l with
  | nil => intro p; rfl
  | cons a l ih =>
    intro p
    cases a with
    | none => simp only [tx, inSubmits, ih]; rfl
    | some d => simp only [tx, inSubmits, ih, if_true]; rfl

example : inSubmits false (tx false [some [1], none, some [2, 3]]) = some [[1], [], [2, 3]] := by decide

/-! ## C409: DEVLIST -/

/-- record of a device as seen by a client -/
structure Rec where
  path : List Nat
  busid : List Nat
  busnum : Nat
  devnum : Nat
  speed : Nat
  idVendor : Nat
  idProduct : Nat
  bcdDevice : Nat
  cls : Nat
  subCls : Nat
  protocol : Nat
  config : Nat
  numConfigs : Nat
  numIfcs : Nat
deriving DecidableEq, Repr

/-- a client reads struct usbip_usb_device -/
def decodeDev (inp : List Nat) : Option (Rec × List Nat) :=
  match rd 256 inp with
  | none => none
  | some (path, i1) =>
  match rd 32 i1 with
  | none => none
  | some (busid, i2) =>
  match rdN 4 i2 with
  | none => none
  | some (busnum, i3) =>
  match rdN 4 i3 with
  | none => none
  | some (devnum, i4) =>
  match rdN 4 i4 with
  | none => none
  | some (speed, i5) =>
  match rdN 2 i5 with
  | none => none
  | some (idVendor, i6) =>
  match rdN 2 i6 with
  | none => none
  | some (idProduct, i7) =>
  match rdN 2 i7 with
  | none => none
  | some (bcdDevice, i8) =>
  match rdN 1 i8 with
  | none => none
  | some (cls, i9) =>
  match rdN 1 i9 with
  | none => none
  | some (subCls, i10) =>
  match rdN 1 i10 with
  | none => none
  | some (protocol, i11) =>
  match rdN 1 i11 with
  | none => none
  | some (config, i12) =>
  match rdN 1 i12 with
  | none => none
  | some (numConfigs, i13) =>
  match rdN 1 i13 with
  | none => none
  | some (numIfcs, i14) =>
    some (⟨path, busid, busnum, devnum, speed, idVendor, idProduct, bcdDevice, cls, subCls, protocol, config, numConfigs, numIfcs⟩, i14)

/-- a client reads `n` records struct usbip_usb_interface -/
def decodeIfcs : Nat → List Nat → Option (List (Nat × Nat × Nat) × List Nat)
  | 0, inp => some ([], inp)
  | n + 1, inp =>
    match rdN 1 inp with
    | none => none
    | some (c, i1) =>
    match rdN 1 i1 with
    | none => none
    | some (s, i2) =>
    match rdN 1 i2 with
    | none => none
    | some (p, i3) =>
    match rdN 1 i3 with
    | none => none
    | some (_, i4) => (decodeIfcs n i4).map fun r => ((c, s, p) :: r.1, r.2)

def decodeDevs : Nat → List Nat → Option (List (Rec × List (Nat × Nat × Nat)) × List Nat)
  | 0, inp => some ([], inp)
  | n + 1, inp =>
    match decodeDev inp with
    | none => none
    | some (r, i1) =>
    match decodeIfcs r.numIfcs i1 with
    | none => none
    | some (is, i2) => (decodeDevs n i2).map fun q => ((r, is) :: q.1, q.2)

/-- a client reads the reply of OP_REQ_DEVLIST -/
def decodeList (inp : List Nat) : Option (List (Rec × List (Nat × Nat × Nat)) × List Nat) :=
  match rdN 2 inp with
  | none => none
  | some (version, i1) =>
  match rdN 2 i1 with
  | none => none
  | some (code, i2) =>
  match rdN 4 i2 with
  | none => none
  | some (status, i3) =>
  match rdN 4 i3 with
  | none => none
  | some (n, i4) => if version = 0x111 ∧ code = 5 ∧ status = 0 then decodeDevs n i4 else none

/-- values in the range of their descriptor fields -/
def Valid (d : Dev) : Prop :=
  d.addr < 128 ∧ d.speed < 2 ^ 32 ∧ d.idVendor < 2 ^ 16 ∧ d.idProduct < 2 ^ 16 ∧ d.bcdDevice < 2 ^ 16 ∧ d.cls < 256 ∧
  d.subCls < 256 ∧ d.protocol < 256 ∧ d.numConfigs < 256 ∧ (∃ n, d.cfg0 = some n ∧ n < 256) ∧
  ∀ i ∈ d.ifcs, i.1 < 256 ∧ i.2.1 < 256 ∧ i.2.2 < 256

/-- the record which the client has to see -/
def recOf (d : Dev) : Rec :=
  ⟨pad 256 (pathPrefix ++ dec d.addr), pad 32 (busId d.addr), 0, d.addr, d.speed, d.idVendor, d.idProduct, d.bcdDevice, d.cls,
    d.subCls, d.protocol, 1, d.numConfigs, d.cfg0.getD 0⟩

/-- C409: full statement: a client reads from the reply all the devices with their values and interfaces and nothing else -/
def listSpec : Prop :=
  ∀ ds : List Dev, (∀ d ∈ ds, Valid d) → ds.length < 2 ^ 32 →
    ∃ out, devlist ds = some out ∧ decodeList out = some (ds.map fun d => (recOf d, d.ifcs), [])

/-- a device with one interface with two alternate settings -/
def altDev : Dev := ⟨1, 3, 1, 2, 3, 0, 0, 0, 1, some 1, [(1, 0, 0), (1, 0, 0)]⟩

/-- C409: there is a record for each interface descriptor, also for alternate settings, more than bNumInterfaces -/
theorem list_violated : ¬ listSpec := by
  intro h
  obtain ⟨out, h1, h2⟩ := h [altDev] (by
    intro d hd
    simp only [List.mem_singleton] at hd
    subst hd
    exact ⟨by decide, by decide, by decide, by decide, by decide, by decide, by decide, by decide, by decide, ⟨1, rfl, by decide⟩,
      by decide⟩) (by decide)
  have e : ((devlist [altDev]).bind decodeList).map (fun p => p.2) = some [1, 0, 0, 0] := by decide +kernel
  rw [h1, Option.bind_some, h2] at e
  simp at e

theorem pad_length (n : Nat) (s : List Nat) : (pad n s).length = n := by
  simp only [pad, List.length_append, List.length_take, List.length_replicate]; omega

theorem decodeDev_pack (d : Dev) (b : Bool) (rest : List Nat) (h : Valid d) :
    ∃ out, packDesc d b = some out ∧ decodeDev (out ++ rest) = some (recOf d, (if b then
      d.ifcs.flatMap fun i => be 1 i.1 ++ (be 1 i.2.1 ++ (be 1 i.2.2 ++ be 1 0)) else []) ++ rest) := by
  obtain ⟨h1, h2, h3, h4, h5, h6, h7, h8, h9, ⟨n, h10, hn⟩, _⟩ := h
  refine ⟨_, by rw [packDesc, h10]; rfl, ?_⟩
  unfold decodeDev
  simp only [List.append_assoc]
  rw [rd_append _ _ 256 (pad_length _ _)]; dsimp only
  rw [rd_append _ _ 32 (pad_length _ _)]; dsimp only
  rw [rdN_be 4 0 _ (by omega)]; dsimp only
  rw [rdN_be 4 d.addr _ (by omega)]; dsimp only
  rw [rdN_be 4 d.speed _ (by omega)]; dsimp only
  rw [rdN_be 2 d.idVendor _ (by omega)]; dsimp only
  rw [rdN_be 2 d.idProduct _ (by omega)]; dsimp only
  rw [rdN_be 2 d.bcdDevice _ (by omega)]; dsimp only
  rw [rdN_be 1 d.cls _ (by omega)]; dsimp only
  rw [rdN_be 1 d.subCls _ (by omega)]; dsimp only
  rw [rdN_be 1 d.protocol _ (by omega)]; dsimp only
  rw [rdN_be 1 1 _ (by omega)]; dsimp only
  rw [rdN_be 1 d.numConfigs _ (by omega)]; dsimp only
  rw [rdN_be 1 n _ (by omega)]; dsimp only
  rw [recOf, h10]; rfl

theorem decodeIfcs_pack (rest : List Nat) : ∀ l : List (Nat × Nat × Nat), (∀ i ∈ l, i.1 < 256 ∧ i.2.1 < 256 ∧ i.2.2 < 256) →
    decodeIfcs l.length ((l.flatMap fun i => be 1 i.1 ++ (be 1 i.2.1 ++ (be 1 i.2.2 ++ be 1 0))) ++ rest) = some (l, rest) := by
  intro l
  induction l with
  | nil => intro _; rfl
  | cons i l ih =>
    intro h
    obtain ⟨h1, h2, h3⟩ := h i (by simp)
    rw [List.flatMap_cons, List.length_cons, decodeIfcs]
    simp only [List.append_assoc]
    rw [rdN_be 1 i.1 _ (by omega)]; dsimp only
    rw [rdN_be 1 i.2.1 _ (by omega)]; dsimp only
    rw [rdN_be 1 i.2.2 _ (by omega)]; dsimp only
    rw [rdN_be 1 0 _ (by omega)]; dsimp only
    rw [ih (fun x hx => h x (List.mem_cons_of_mem _ hx))]
    rfl

theorem decodeDevs_pack : ∀ ds : List Dev, (∀ d ∈ ds, Valid d) → (∀ d ∈ ds, d.cfg0 = some d.ifcs.length) →
    ∃ out, packAll ds = some out ∧ decodeDevs ds.length out = some (ds.map fun d => (recOf d, d.ifcs), []) := by
  intro ds
  induction ds with
  | nil => intro _ _; exact ⟨[], rfl, rfl⟩
  | cons d ds ih =>
    intro hv hc
    obtain ⟨o2, h3, h4⟩ := ih (fun x hx => hv x (List.mem_cons_of_mem _ hx)) (fun x hx => hc x (List.mem_cons_of_mem _ hx))
    obtain ⟨o1, h1, h2⟩ := decodeDev_pack d true o2 (hv d (by simp))
    refine ⟨o1 ++ o2, by rw [packAll, h1, h3], ?_⟩
    rw [List.length_cons, decodeDevs, h2]
    dsimp only
    have hn : (recOf d).numIfcs = d.ifcs.length := by rw [recOf, hc d (by simp)]; rfl
    rw [hn, if_pos rfl, decodeIfcs_pack o2 d.ifcs (hv d (by simp)).2.2.2.2.2.2.2.2.2.2]
    dsimp only
    rw [h4]
    rfl

/-- C409: holds if the number of interface descriptors of each device is bNumInterfaces of the first configuration;
missing: alternate settings and more configurations -/
theorem list_partial (ds : List Dev) (hv : ∀ d ∈ ds, Valid d) (hl : ds.length < 2 ^ 32)
    (hc : ∀ d ∈ ds, d.cfg0 = some d.ifcs.length) :
    ∃ out, devlist ds = some out ∧ decodeList out = some (ds.map fun d => (recOf d, d.ifcs), []) := by
  obtain ⟨o, h1, h2⟩ := decodeDevs_pack ds hv hc
  refine ⟨_, by rw [devlist, h1]; rfl, ?_⟩
  unfold decodeList
  rw [rdN_be 2 _ _ (by omega)]; dsimp only
  rw [rdN_be 2 _ _ (by omega)]; dsimp only
  rw [rdN_be 4 _ _ (by omega)]; dsimp only
  rw [rdN_be 4 _ _ (by omega)]; dsimp only
  rw [if_pos ⟨rfl, rfl, rfl⟩, h2]

example : ({ altDev with cfg0 := some 2 } : Dev).cfg0 = some ({ altDev with cfg0 := some 2 } : Dev).ifcs.length := rfl

/-! ## C410: IMPORT -/

/-- C410: full statement: an import of the id of a device in the list attaches it and returns its description; for any other
text the reply is "not available" and nothing is attached -/
def importSpec : Prop :=
  ∀ (ds : List Dev) (devices : List Nat) (name : List Nat), (∀ d ∈ ds, Valid d) → name.length ≤ 32 →
    (∀ c ∈ name, 0 < c ∧ c < 128) →
    ∃ dv out, handleOp ds devices (be 2 0x111 ++ be 2 0x8003 ++ be 4 0 ++ pad 32 name) = some (dv, [], out) ∧
      if ∃ d ∈ ds, name = busId d.addr then ∃ d ∈ ds, name = busId d.addr ∧ d.addr ∈ dv else
        dv = devices ∧ out = be 2 0x111 ++ (be 2 3 ++ be 4 1)

/-- C410: a text which is not an id of a device (e.g. usb1) closes the connection -/
theorem import_violated : ¬ importSpec := by
  intro h
  obtain ⟨dv, out, h1, _⟩ := h [altDev] [] [117, 115, 98, 49] (by
    intro d hd
    simp only [List.mem_singleton] at hd
    subst hd
    exact ⟨by decide, by decide, by decide, by decide, by decide, by decide, by decide, by decide, by decide, ⟨1, rfl, by decide⟩,
      by decide⟩) (by decide) (by decide)
  have e : handleOp [altDev] [] (be 2 0x111 ++ be 2 0x8003 ++ be 4 0 ++ pad 32 [117, 115, 98, 49]) = none := by decide +kernel
  rw [e] at h1
  cases h1

/-- C410: a text which only begins with the id (0-1xyz) attaches the device -/
theorem import_prefix : ∃ out, handleOp [altDev] [] (be 2 0x111 ++ be 2 0x8003 ++ be 4 0 ++ pad 32 [48, 45, 49, 120, 121, 122]) =
    some ([1], [], out) ∧ [48, 45, 49, 120, 121, 122] ≠ busId 1 := by
  refine ⟨be 2 0x111 ++ (be 2 3 ++ (be 4 0 ++ (packDesc altDev false).getD [])), by decide +kernel, by decide +kernel⟩

theorem decN_digit : ∀ (f n : Nat), ∀ c ∈ decN f n, 48 ≤ c ∧ c ≤ 57 := by
  intro f
  induction f with
  | zero => intro n c h; simp [decN] at h
  | succ f ih =>
    intro n c h
    rw [decN] at h
    by_cases hn : n < 10
    · rw [if_pos hn] at h
      simp only [List.mem_singleton] at h
      omega
    · rw [if_neg hn, List.mem_append] at h
      rcases h with h | h
      · exact ih _ _ h
      · simp only [List.mem_singleton] at h
        omega

theorem decN_value : ∀ (f n : Nat), n < f → toInt (decN f n) = n := by
  intro f
  induction f with
  | zero => intro n h; omega
  | succ f ih =>
    intro n h
    rw [decN]
    by_cases hn : n < 10
    · rw [if_pos hn]
      simp only [toInt, List.foldl_cons, List.foldl_nil]; omega
    · rw [if_neg hn]
      have := ih (n / 10) (by omega)
      unfold toInt at this ⊢
      rw [List.foldl_append, this]
      simp only [List.foldl_cons, List.foldl_nil]; omega

theorem decN_ne (f n : Nat) : decN (f + 1) n ≠ [] := by
  rw [decN]
  by_cases hn : n < 10
  · rw [if_pos hn]; simp
  · rw [if_neg hn]; simp

theorem digits_append : ∀ (s r : List Nat), (∀ c ∈ s, 48 ≤ c ∧ c ≤ 57) → (∀ c r', r = c :: r' → ¬ (48 ≤ c ∧ c ≤ 57)) →
    digits (s ++ r) = (s, r) := by
  intro s
  induction s with
  | nil =>
    intro r _ hr
    cases r with
    | nil => rfl
    | cons c r => rw [List.nil_append, digits, if_neg (hr c r rfl)]
  | cons c s ih =>
    intro r hs hr
    rw [List.cons_append, digits, if_pos (hs c (by simp)), ih r (fun x hx => hs x (List.mem_cons_of_mem _ hx)) hr]

/-- text of an id of any bus and device -/
def idText (b n : Nat) : List Nat := dec b ++ 45 :: dec n

theorem parse_idText (b n : Nat) : parseBusId (idText b n) = some (b, n) := by
  unfold parseBusId idText
  rw [digits_append (dec b) (45 :: dec n) (decN_digit _ _) (by intro c r h; cases h; omega)]
  have hb : dec b ≠ [] := decN_ne _ _
  have hn : dec n ≠ [] := decN_ne _ _
  have e : digits (dec n) = (dec n, []) := by
    have := digits_append (dec n) [] (decN_digit _ _) (by intro c r h; cases h)
    rwa [List.append_nil] at this
  have vb : toInt (dec b) = b := decN_value _ _ (by omega)
  have vn : toInt (dec n) = n := decN_value _ _ (by omega)
  cases hb' : dec b with
  | nil => exact absurd hb' hb
  | cons x xs =>
    cases hn' : dec n with
    | nil => exact absurd hn' hn
    | cons y ys =>
      rw [hn'] at e vn
      rw [hb'] at vb
      simp only [e, vb, vn]

theorem rstrip_pad (n : Nat) (s : List Nat) (hs : s.length ≤ n) (h0 : ∀ c ∈ s, 0 < c) : rstrip (pad n s) = s := by
  unfold rstrip pad
  rw [List.take_of_length_le hs, List.reverse_append, List.reverse_replicate]
  have e : ∀ (k : Nat) (l : List Nat), (List.replicate k 0 ++ l).dropWhile (· == 0) = l.dropWhile (· == 0) := by
    intro k l
    induction k with
    | zero => rfl
    | succ k ih => rw [List.replicate_succ, List.cons_append, List.dropWhile_cons, if_pos (by decide), ih]
  rw [e]
  cases hr : s.reverse with
  | nil => rw [List.dropWhile_nil, ← hr, List.reverse_reverse]
  | cons x xs =>
    have hx : x ∈ s := by rw [← List.mem_reverse, hr]; simp
    have := h0 x hx
    rw [List.dropWhile_cons, if_neg (by simp; omega), ← hr, List.reverse_reverse]

theorem idText_char (b n : Nat) : ∀ c ∈ idText b n, 0 < c := by
  intro c hc
  rw [idText, List.mem_append, List.mem_cons] at hc
  rcases hc with h | h | h
  · have := decN_digit _ _ c h; omega
  · omega
  · have := decN_digit _ _ c h; omega

theorem dec_inj (a b : Nat) (h : dec a = dec b) : a = b := by
  have h1 : toInt (dec a) = a := decN_value _ _ (by omega)
  have h2 : toInt (dec b) = b := decN_value _ _ (by omega)
  rw [← h1, h, h2]

theorem idText_inj (a b c d : Nat) (h : idText a b = idText c d) : a = c ∧ b = d := by
  have := parse_idText a b
  rw [h, parse_idText c d] at this
  simp only [Option.some.injEq, Prod.mk.injEq] at this
  exact ⟨this.1.symm, this.2.symm⟩

/-- C410: holds for all texts which are ids of a bus and device: the id of a device in the list attaches exactly this device (its
id is then accepted in URBs) and a client reads its description, any other id is not available and nothing changes; missing:
texts which are not an id -/
theorem import_partial (ds : List Dev) (devices : List Nat) (b n : Nat) (hv : ∀ d ∈ ds, Valid d)
    (hd : ∀ d ∈ ds, ∀ e ∈ ds, d.addr = e.addr → d = e) (hl : (idText b n).length ≤ 32) :
    (∀ d ∈ ds, idText b n = busId d.addr → ∃ out desc,
      handleOp ds devices (be 2 0x111 ++ be 2 0x8003 ++ be 4 0 ++ pad 32 (idText b n)) = some (d.addr :: devices, [], out) ∧
      out = be 2 0x111 ++ (be 2 3 ++ (be 4 0 ++ desc)) ∧ decodeDev desc = some (recOf d, [])) ∧
    ((∀ d ∈ ds, idText b n ≠ busId d.addr) →
      handleOp ds devices (be 2 0x111 ++ be 2 0x8003 ++ be 4 0 ++ pad 32 (idText b n)) =
        some (devices, [], be 2 0x111 ++ (be 2 3 ++ be 4 1))) := by
  have hop : handleOp ds devices (be 2 0x111 ++ be 2 0x8003 ++ be 4 0 ++ pad 32 (idText b n)) =
      match doImport ds devices (idText b n) with
      | .err => none
      | .ok dv r => some (dv, [], r) := by
    unfold handleOp
    simp only [List.append_assoc]
    rw [rdN_be 2 _ _ (by omega)]; dsimp only
    rw [if_neg (by decide), rdN_be 2 _ _ (by omega)]; dsimp only
    rw [rdN_be 4 _ _ (by omega)]; dsimp only
    rw [if_neg (by decide), if_neg (by decide), if_pos rfl]
    have e := rd_append (pad 32 (idText b n)) [] 32 (pad_length _ _)
    rw [List.append_nil] at e
    rw [e]
    dsimp only
    rw [rstrip_pad 32 _ hl (idText_char b n)]
    cases doImport ds devices (idText b n) <;> rfl
  rw [hop, doImport, parse_idText]
  dsimp only
  constructor
  · intro d hm he
    obtain ⟨e1, e2⟩ := idText_inj b n 0 d.addr he
    subst e1; subst e2
    cases hf : ds.find? (fun x => decide (0 = 0 ∧ x.addr = d.addr)) with
    | none =>
      have := List.find?_eq_none.mp hf d hm
      simp at this
    | some x =>
      have hx := List.find?_some hf
      have hxm := List.mem_of_find?_eq_some hf
      have hxe : x = d := hd x hxm d hm (by simpa using hx)
      subst hxe
      obtain ⟨desc, h1, h2⟩ := decodeDev_pack x false [] (hv x hm)
      dsimp only
      rw [h1]
      dsimp only
      refine ⟨_, desc, ?_, rfl, by simpa using h2⟩
      simp
  · intro hne
    have hf : ds.find? (fun x => decide (0 = b ∧ x.addr = n)) = none := by
      rw [List.find?_eq_none]
      intro x hx hp
      simp only [decide_eq_true_eq] at hp
      obtain ⟨p1, p2⟩ := hp
      subst p1; subst p2
      exact hne x hx rfl
    rw [hf]

example : idText 0 1 = busId altDev.addr ∧ idText 0 12 ≠ busId altDev.addr ∧ (idText 0 12).length ≤ 32 := by decide +kernel

end Verif.UsbIpOp
