import Verif.UsbIp
/-! Properties of the URB part of the USB/IP server (C404, C405, C406) -/
namespace Verif.UsbIp

theorem be_length (n v : Nat) : (be n v).length = n := by
  induction n with
  | zero => rfl
  | succ n ih => rw [be, List.length_cons, ih]

theorem unbe_be_aux (v n : Nat) : ∀ a, (be n v).foldl (fun a b => a * 256 + b) a = a * 256 ^ n + v % 256 ^ n := by
  induction n with
  | zero => intro a; simp [be, Nat.mod_one]
  | succ n ih =>
    intro a
    rw [be, List.foldl_cons, ih, Nat.pow_succ, Nat.mod_mul, Nat.add_mul]
    rw [Nat.mul_assoc a 256, Nat.mul_comm 256 (256 ^ n), Nat.mul_comm (v / 256 ^ n % 256)]
    omega

theorem unbe_be (n v : Nat) : unbe (be n v) = v % 256 ^ n := by
  unfold unbe
  rw [unbe_be_aux]; simp

theorem rd_append (l r : List Nat) (n : Nat) (h : l.length = n) : rd n (l ++ r) = some (l, r) := by
  subst h
  unfold rd
  rw [if_neg (by rw [List.length_append]; omega)]
  simp

theorem rdN_be (n v : Nat) (r : List Nat) (h : v < 256 ^ n) : rdN n (be n v ++ r) = some (v, r) := by
  unfold rdN
  rw [rd_append _ _ n (be_length n v), Option.map_some, unbe_be, Nat.mod_eq_of_lt h]

/-- command of a client -/
inductive Cmd
  | submit (seqnum devid direction ep flags buflen start npk interval : Nat) (setup buf : List Nat)
  | unlink (seqnum devid direction ep target : Nat)

/-- message with the command (Linux Documentation/usb/usbip_protocol.rst) -/
def encode : Cmd → List Nat
  | .submit seqnum devid direction ep flags buflen start npk interval setup buf =>
    be 4 1 ++ be 4 seqnum ++ be 4 devid ++ be 4 direction ++ be 4 ep ++ be 4 flags ++ be 4 buflen ++ be 4 start ++ be 4 npk ++
      be 4 interval ++ setup ++ buf
  | .unlink seqnum devid direction ep target =>
    be 4 2 ++ be 4 seqnum ++ be 4 devid ++ be 4 direction ++ be 4 ep ++ be 4 target ++ List.replicate 24 0

/-- a command of a correct client for the attached device ids -/
def Good (devices : List Nat) : Cmd → Prop
  | .submit seqnum devid direction ep flags buflen start npk interval setup buf =>
    seqnum < 2 ^ 32 ∧ devid < 2 ^ 32 ∧ devid ∈ devices ∧ (direction = 0 ∨ direction = 1) ∧ ep < 16 ∧ flags < 2 ^ 32 ∧
    buflen < 2 ^ 31 ∧ (start = 0 ∨ start = 0xffffffff) ∧ (npk = 0 ∨ npk = 0xffffffff) ∧ interval < 2 ^ 32 ∧
    setup.length = 8 ∧ buf.length = (if direction = 0 then buflen else 0) ∧ (ep = 0 → setup.getD 6 0 + setup.getD 7 0 * 256 = buflen)
  | .unlink seqnum devid direction ep target =>
    seqnum < 2 ^ 32 ∧ devid < 2 ^ 32 ∧ devid ∈ devices ∧ direction < 2 ^ 32 ∧ ep < 2 ^ 32 ∧ target < 2 ^ 32

/-- the transfer a command asks for -/
def Cmd.xfer : Cmd → Option Xfer
  | .submit _ _ direction ep _ _ _ _ _ setup buf =>
    if ep = 0 then
      if direction = 1 then some (.ctrlIn setup)
      else if setup.getD 0 0 = 0 ∧ setup.getD 1 0 = 5 then none
      else some (.ctrlOut setup buf)
    else if direction = 1 then some (.bulkIn ep) else some (.bulkOut ep buf)
  | .unlink _ _ _ _ _ => none

/-- reply as seen by a client -/
structure Reply where
  command : Nat
  seqnum : Nat
  devid : Nat
  direction : Nat
  ep : Nat
  status : Nat
  actual : Nat
  data : List Nat
deriving DecidableEq, Repr

/-- a client reads a reply: 48 bytes and the data of an IN transfer -/
def decode (inp : List Nat) : Option (Reply × List Nat) :=
  match rdN 4 inp with
  | none => none
  | some (command, i1) =>
  match rdN 4 i1 with
  | none => none
  | some (seqnum, i2) =>
  match rdN 4 i2 with
  | none => none
  | some (devid, i3) =>
  match rdN 4 i3 with
  | none => none
  | some (direction, i4) =>
  match rdN 4 i4 with
  | none => none
  | some (ep, i5) =>
  match rdN 4 i5 with
  | none => none
  | some (status, i6) =>
  match rdN 4 i6 with
  | none => none
  | some (actual, i7) =>
  match rd 20 i7 with
  | none => none
  | some (_, i8) =>
  match rd (if command = 3 ∧ direction = 1 then actual else 0) i8 with
  | none => none
  | some (data, i9) => some (⟨command, seqnum, devid, direction, ep, status, actual, data⟩, i9)

/-- all the replies in a byte stream -/
def decodeAll : Nat → List Nat → Option (List Reply)
  | 0, inp => if inp = [] then some [] else none
  | n + 1, inp =>
    match decode inp with
    | none => none
    | some (r, rest) => (decodeAll n rest).map (r :: ·)

/-- state of the device and its answer for a command -/
def answer {D : Type} (exec : D → Xfer → D × Option (List Nat)) (d : D) (c : Cmd) : D × Option (List Nat) :=
  match c.xfer with
  | none => (d, none)
  | some x => exec d x

/-- what the server has to send as the reply -/
def expected (c : Cmd) (a : Option (List Nat)) : Reply :=
  match c with
  | .submit seqnum devid direction ep _ _ _ _ _ _ buf =>
    ⟨3, seqnum, devid, direction, ep, (match a with | some _ => 0 | none => 2 ^ 32 - 32),
      (match a with | some data => if direction = 1 then data.length else if ep = 0 then buf.length else 0 | none => 0),
      (match a with | some data => if direction = 1 then data else [] | none => [])⟩
  | .unlink seqnum devid _ _ _ => ⟨4, seqnum, devid, 0, 0, 2 ^ 32 - 2, 0, []⟩

/-- endpoint of a submit -/
def Cmd.isBulk : Cmd → Bool
  | .submit _ _ _ ep _ _ _ _ _ _ _ => ep != 0
  | .unlink _ _ _ _ _ => false

/-- the device answers: no exception in a transfer of an endpoint other than 0 and no more than 2^31 - 1 bytes -/
def Answered (c : Cmd) (a : Option (List Nat)) : Prop :=
  (c.isBulk = true → a ≠ none) ∧ ∀ data, a = some data → data.length < 2 ^ 31

theorem decode_retSubmit (seqnum devid direction ep status actual : Nat) (data rest : List Nat)
    (h1 : seqnum < 2 ^ 32) (h2 : devid < 2 ^ 32) (h3 : direction = 0 ∨ direction = 1) (h4 : ep < 2 ^ 32)
    (h5 : status < 2 ^ 32) (h6 : actual < 2 ^ 32) (h7 : data.length = if direction = 1 then actual else 0) :
    decode (retSubmit seqnum devid direction ep status actual data ++ rest) =
      some (⟨3, seqnum, devid, direction, ep, status, actual, data⟩, rest) := by
  have hd : direction < 2 ^ 32 := by omega
  unfold retSubmit basic decode
  simp only [List.append_assoc]
  rw [rdN_be 4 3 _ (by omega)]; dsimp only
  rw [rdN_be 4 seqnum _ (by omega)]; dsimp only
  rw [rdN_be 4 devid _ (by omega)]; dsimp only
  rw [rdN_be 4 direction _ (by omega)]; dsimp only
  rw [rdN_be 4 ep _ (by omega)]; dsimp only
  rw [rdN_be 4 status _ (by omega)]; dsimp only
  rw [rdN_be 4 actual _ (by omega)]; dsimp only
  have e : be 4 0 ++ (be 4 4294967295 ++ (be 4 0 ++ (List.replicate 8 0 ++ (data ++ rest)))) =
      (be 4 0 ++ (be 4 4294967295 ++ (be 4 0 ++ List.replicate 8 0))) ++ (data ++ rest) := by simp [List.append_assoc]
  rw [e, rd_append _ _ 20 (by simp [be_length])]
  dsimp only
  rw [rd_append data rest _ (by rw [h7]; by_cases hh : direction = 1 <;> simp [hh])]

theorem handle_submit {D : Type} (exec : D → Xfer → D × Option (List Nat)) (s : St D) (seqnum devid direction ep flags buflen
    start npk interval : Nat) (setup buf rest : List Nat)
    (hg : Good s.devices (.submit seqnum devid direction ep flags buflen start npk interval setup buf)) :
    handle exec s (encode (.submit seqnum devid direction ep flags buflen start npk interval setup buf) ++ rest) =
      if ep = 0 then
        let r := control exec s.dev direction setup buf
        .ok { s with dev := r.1 } rest (retSubmit seqnum devid direction ep r.2.1 r.2.2.1 r.2.2.2)
      else
        match bulk exec s.dev direction ep buf with
        | (_, none) => .err
        | (d, some r) => .ok { s with dev := d } rest (retSubmit seqnum devid direction ep r.1 r.2.1 r.2.2) := by
  obtain ⟨g1, g2, g3, g4, g5, g6, g7, g8, g9, g10, g11, g12, g13⟩ := hg
  have h41 : be 4 1 = be 2 0 ++ be 2 1 := by decide
  unfold encode handle
  simp only [List.append_assoc, h41]
  rw [rdN_be 2 0 _ (by omega)]; dsimp only
  rw [if_neg (by simp)]
  rw [rdN_be 2 1 _ (by omega)]; dsimp only
  rw [rdN_be 4 seqnum _ (by omega)]; dsimp only
  rw [rdN_be 4 devid _ (by omega)]; dsimp only
  rw [rdN_be 4 direction _ (by omega)]; dsimp only
  rw [rdN_be 4 ep _ (by omega)]; dsimp only
  rw [if_neg (by simpa using g3), if_pos rfl]
  unfold submit
  rw [rdN_be 4 flags _ (by omega)]; dsimp only
  rw [rdN_be 4 buflen _ (by omega)]; dsimp only
  rw [rdN_be 4 start _ (by omega)]; dsimp only
  rw [rdN_be 4 npk _ (by omega)]; dsimp only
  rw [rdN_be 4 interval _ (by omega)]; dsimp only
  rw [rd_append setup _ 8 g11]
  dsimp only
  rw [if_neg (by omega), if_neg (by omega), if_neg (by omega), rd_append buf rest _ g12]
  dsimp only
  by_cases he : ep = 0
  · rw [if_pos he, if_pos he, if_neg (by unfold wLength; rw [g13 he]; simp)]
  · rw [if_neg he, if_neg he]
    cases bulk exec s.dev direction ep buf with
    | mk d a => cases a <;> rfl

/-- one command: the server answers by one reply and continues behind the command -/
theorem handle_one {D : Type} (exec : D → Xfer → D × Option (List Nat)) (s : St D) (c : Cmd) (rest : List Nat)
    (hg : Good s.devices c) (ha : Answered c (answer exec s.dev c).2) :
    ∃ reply, handle exec s (encode c ++ rest) = .ok { s with dev := (answer exec s.dev c).1 } rest reply ∧
      ∀ more, decode (reply ++ more) = some (expected c (answer exec s.dev c).2, more) := by
  cases c with
  | submit seqnum devid direction ep flags buflen start npk interval setup buf =>
    rw [handle_submit exec s _ _ _ _ _ _ _ _ _ _ _ _ hg]
    obtain ⟨g1, g2, g3, g4, g5, g6, g7, g8, g9, g10, g11, g12, g13⟩ := hg
    obtain ⟨a1, a2⟩ := ha
    by_cases he : ep = 0
    · subst he
      rw [if_pos rfl]
      by_cases hd : direction = 1
      · subst hd
        simp only [control, if_pos, answer, Cmd.xfer] at a2 ⊢
        cases hx : exec s.dev (.ctrlIn setup) with
        | mk d' a =>
          cases a with
          | none =>
            refine ⟨_, rfl, fun more => ?_⟩
            dsimp only
            rw [decode_retSubmit seqnum devid 1 0 (neg32 32) 0 [] more g1 g2 (Or.inr rfl) (by omega) (by decide) (by decide) rfl]
            rfl
          | some data =>
            have hl := a2 data (by rw [hx])
            refine ⟨_, rfl, fun more => ?_⟩
            dsimp only
            rw [decode_retSubmit _ _ _ _ _ _ _ _ g1 g2 (Or.inr rfl) (by omega) (by decide) (by omega) rfl]
            rfl
      · have hd0 : direction = 0 := by omega
        subst hd0
        by_cases hs : setup.getD 0 0 = 0 ∧ setup.getD 1 0 = 5
        · simp only [control, if_neg hd, if_pos hs, answer, Cmd.xfer, if_true]
          refine ⟨_, rfl, fun more => ?_⟩
          rw [decode_retSubmit _ _ _ _ _ _ _ _ g1 g2 (Or.inl rfl) (by omega) (by decide) (by decide) rfl]
          rfl
        · simp only [control, if_neg hd, if_neg hs, answer, Cmd.xfer, if_true]
          cases hx : exec s.dev (.ctrlOut setup buf) with
          | mk d' a =>
            cases a with
            | none =>
              refine ⟨_, rfl, fun more => ?_⟩
              dsimp only
              rw [decode_retSubmit _ _ _ _ _ _ _ _ g1 g2 (Or.inl rfl) (by omega) (by decide) (by decide) rfl]
              rfl
            | some data =>
              refine ⟨_, rfl, fun more => ?_⟩
              dsimp only
              rw [decode_retSubmit _ _ _ _ _ _ _ _ g1 g2 (Or.inl rfl) (by omega) (by decide) (by
                rw [if_pos rfl] at g12; omega) rfl]
              rfl
    · rw [if_neg he]
      by_cases hd : direction = 1
      · subst hd
        simp only [bulk, if_pos, answer, Cmd.xfer, if_neg he, Cmd.isBulk] at a1 a2 ⊢
        cases hx : exec s.dev (.bulkIn ep) with
        | mk d' a =>
          cases a with
          | none => exact absurd (by rw [hx]) (a1 (by simpa using he))
          | some data =>
            have hl := a2 data (by rw [hx])
            refine ⟨_, rfl, fun more => ?_⟩
            dsimp only
            rw [decode_retSubmit _ _ _ _ _ _ _ _ g1 g2 (Or.inr rfl) (by omega) (by decide) (by omega) rfl]
            rfl
      · have hd0 : direction = 0 := by omega
        subst hd0
        simp only [bulk, if_neg hd, if_pos, answer, Cmd.xfer, if_neg he, Cmd.isBulk] at a1 a2 ⊢
        cases hx : exec s.dev (.bulkOut ep buf) with
        | mk d' a =>
          cases a with
          | none => exact absurd (by rw [hx]) (a1 (by simpa using he))
          | some data =>
            refine ⟨_, rfl, fun more => ?_⟩
            dsimp only
            rw [decode_retSubmit _ _ _ _ _ _ _ _ g1 g2 (Or.inl rfl) (by omega) (by decide) (by decide) rfl]
            simp [expected, he]
  | unlink seqnum devid direction ep target =>
    obtain ⟨g1, g2, g3, g4, g5, g6⟩ := hg
    have h42 : be 4 2 = be 2 0 ++ be 2 2 := by decide
    refine ⟨basic 4 seqnum devid 0 0 ++ (be 4 (neg32 2) ++ List.replicate 24 0), ?_, ?_⟩
    · unfold encode handle
      simp only [List.append_assoc, h42]
      rw [rdN_be 2 0 _ (by omega)]; dsimp only
      rw [if_neg (by simp)]
      rw [rdN_be 2 2 _ (by omega)]; dsimp only
      rw [rdN_be 4 seqnum _ (by omega)]; dsimp only
      rw [rdN_be 4 devid _ (by omega)]; dsimp only
      rw [rdN_be 4 direction _ (by omega)]; dsimp only
      rw [rdN_be 4 ep _ (by omega)]; dsimp only
      rw [if_neg (by simpa using g3), if_neg (by omega), if_pos rfl]
      unfold unlink
      rw [← List.append_assoc, rd_append _ rest 28 (by simp [be_length])]
      rfl
    · intro more
      unfold basic decode
      simp only [List.append_assoc]
      rw [rdN_be 4 4 _ (by omega)]; dsimp only
      rw [rdN_be 4 seqnum _ (by omega)]; dsimp only
      rw [rdN_be 4 devid _ (by omega)]; dsimp only
      rw [rdN_be 4 0 _ (by omega)]; dsimp only
      rw [rdN_be 4 0 _ (by omega)]; dsimp only
      rw [rdN_be 4 _ _ (by decide)]; dsimp only
      have e : List.replicate 24 0 ++ more = be 4 0 ++ (List.replicate 20 0 ++ more) := rfl
      rw [e, rdN_be 4 0 _ (by omega)]; dsimp only
      rw [rd_append _ _ 20 (by simp)]
      dsimp only
      rw [if_neg (by simp), show rd 0 more = some ([], more) by simp [rd]]
      rfl

/-- states of the device before each command -/
def answers {D : Type} (exec : D → Xfer → D × Option (List Nat)) (d : D) : List Cmd → List (Option (List Nat))
  | [] => []
  | c :: cs => (answer exec d c).2 :: answers exec (answer exec d c).1 cs

/-- C404: for every sequence of commands of a correct client to attached devices, if the device answers, the bytes which the
server writes are read by the client as exactly one reply per command, in order, with the sequence number, device id, direction
and endpoint of the command, with the status and data of the device, and the connection remains open. -/
theorem urb_stream {D : Type} (exec : D → Xfer → D × Option (List Nat)) :
    ∀ (cs : List Cmd) (s : St D) (rest : List Nat), (∀ c ∈ cs, Good s.devices c) →
      (∀ p ∈ List.zip cs (answers exec s.dev cs), Answered p.1 p.2) →
      ∃ s' out, serve exec cs.length s (cs.flatMap encode ++ rest) = (s', out, true) ∧ s'.devices = s.devices ∧
        decodeAll cs.length out = some ((List.zip cs (answers exec s.dev cs)).map fun p => expected p.1 p.2) := by
  intro cs
  induction cs with
  | nil => intro s rest _ _; exact ⟨s, [], rfl, rfl, rfl⟩
  | cons c cs ih =>
    intro s rest hg ha
    simp only [answers, List.zip_cons_cons] at ha
    obtain ⟨reply, h1, h2⟩ := handle_one exec s c (cs.flatMap encode ++ rest) (hg c (by simp))
      (ha (c, (answer exec s.dev c).2) (by simp))
    obtain ⟨s', out, h3, h4, h5⟩ := ih { s with dev := (answer exec s.dev c).1 } rest
      (fun x hx => hg x (List.mem_cons_of_mem _ hx)) (fun p hp => ha p (List.mem_cons_of_mem _ hp))
    refine ⟨s', reply ++ out, ?_, h4, ?_⟩
    · rw [List.flatMap_cons, List.append_assoc, List.length_cons, serve, h1]
      dsimp only
      rw [h3]
    · rw [List.length_cons, decodeAll, h2 out]
      simp only [answers, List.zip_cons_cons, List.map_cons]
      rw [h5]
      rfl

/-- device with a counter as the state -/
def demoExec : Nat → Xfer → Nat × Option (List Nat)
  | n, .ctrlIn _ => (n + 1, none)
  | n, .ctrlOut _ _ => (n + 1, some [])
  | n, .bulkIn _ => (n + 1, some [n, 7])
  | n, .bulkOut _ _ => (n + 1, some [])

def demo : List Cmd :=
  [.submit 5 1 1 2 0 64 0 0 0 (List.replicate 8 0) [], .unlink 6 1 0 0 5, .submit 7 1 1 0 0 18 0 0xffffffff 0 [128, 6, 0, 1, 0, 0, 18, 0] [],
   .submit 8 1 0 1 0 3 0 0 0 (List.replicate 8 0) [1, 2, 3]]

example : (∀ c ∈ demo, Good [1] c) ∧ (∀ p ∈ List.zip demo (answers demoExec 0 demo), Answered p.1 p.2) := by
  constructor
  · simp [demo, Good]
  · simp [demo, answers, answer, Cmd.xfer, demoExec, Answered, Cmd.isBulk]

example : decodeAll 4 (serve demoExec 4 ⟨[1], 0⟩ (demo.flatMap encode)).2.1 =
    some [⟨3, 5, 1, 1, 2, 0, 2, [0, 7]⟩, ⟨4, 6, 1, 0, 0, 2 ^ 32 - 2, 0, []⟩, ⟨3, 7, 1, 1, 0, 2 ^ 32 - 32, 0, []⟩,
      ⟨3, 8, 1, 0, 1, 0, 0, []⟩] := by decide +kernel

/-- C405: full statement: the reply of a write which succeeded reports the number of bytes which were written -/
def lengthSpec : Prop :=
  ∀ (D : Type) (exec : D → Xfer → D × Option (List Nat)) (s : St D) (seqnum devid ep flags buflen : Nat) (setup buf : List Nat)
    (a : List Nat),
    Good s.devices (.submit seqnum devid 0 ep flags buflen 0 0 0 setup buf) →
    (answer exec s.dev (.submit seqnum devid 0 ep flags buflen 0 0 0 setup buf)).2 = some a →
    ∃ s' reply r, handle exec s (encode (.submit seqnum devid 0 ep flags buflen 0 0 0 setup buf)) = .ok s' [] reply ∧
      decode reply = some (r, []) ∧ r.actual = buflen

/-- C405: `actual_length` of a transfer to an endpoint other than 0 is always 0 -/
theorem length_violated : ¬ lengthSpec := by
  intro h
  obtain ⟨s', reply, r, h1, h2, h3⟩ := h Nat demoExec ⟨[1], 0⟩ 0 1 1 0 1 (List.replicate 8 0) [9] []
    (by simp [Good]) rfl
  have e : handle demoExec ⟨[1], 0⟩ (encode (.submit 0 1 0 1 0 1 0 0 0 (List.replicate 8 0) [9])) =
      .ok ⟨[1], 1⟩ [] (retSubmit 0 1 0 1 0 0 []) := rfl
  rw [e] at h1
  cases h1
  have e2 : decode (retSubmit 0 1 0 1 0 0 []) = some (⟨3, 0, 1, 0, 1, 0, 0, []⟩, []) := by decide +kernel
  rw [e2] at h2
  cases h2
  cases h3

/-- C405: holds for writes by endpoint 0; missing: other endpoints -/
theorem length_partial {D : Type} (exec : D → Xfer → D × Option (List Nat)) (s : St D) (seqnum devid flags buflen start npk
    interval : Nat) (setup buf : List Nat) (a : List Nat)
    (hg : Good s.devices (.submit seqnum devid 0 0 flags buflen start npk interval setup buf))
    (ha : (answer exec s.dev (.submit seqnum devid 0 0 flags buflen start npk interval setup buf)).2 = some a)
    (hl : a.length < 2 ^ 31) :
    ∃ s' reply r, handle exec s (encode (.submit seqnum devid 0 0 flags buflen start npk interval setup buf)) = .ok s' [] reply ∧
      decode reply = some (r, []) ∧ r.actual = buflen := by
  obtain ⟨reply, h1, h2⟩ := handle_one exec s (.submit seqnum devid 0 0 flags buflen start npk interval setup buf) [] hg
    ⟨fun h => by simp [Cmd.isBulk] at h, fun d hd => by rw [ha] at hd; cases hd; exact hl⟩
  rw [List.append_nil] at h1
  refine ⟨_, reply, _, h1, by have := h2 []; rwa [List.append_nil] at this, ?_⟩
  rw [ha]
  have := hg.2.2.2.2.2.2.2.2.2.2.2.1
  simpa [expected] using this

example : (answer demoExec 0 (.submit 0 1 0 0 0 1 0 0 0 [33, 32, 0, 0, 0, 0, 1, 0] [9])).2 = some [] := rfl

/-- C406: full statement: the reply of a read has at most as many bytes as the client has requested -/
def readSpec : Prop :=
  ∀ (D : Type) (exec : D → Xfer → D × Option (List Nat)) (s s' : St D) (seqnum devid ep flags buflen : Nat) (setup : List Nat)
    (reply : List Nat) (r : Reply),
    Good s.devices (.submit seqnum devid 1 ep flags buflen 0 0 0 setup []) →
    handle exec s (encode (.submit seqnum devid 1 ep flags buflen 0 0 0 setup [])) = .ok s' [] reply →
    decode reply = some (r, []) → r.data.length ≤ buflen

/-- C406: the requested length is not passed to the transfer, a packet of two bytes is sent as the reply of a request of one -/
theorem read_violated : ¬ readSpec := by
  intro h
  have := h Nat demoExec ⟨[1], 0⟩ ⟨[1], 1⟩ 0 1 2 0 1 (List.replicate 8 0) (retSubmit 0 1 1 2 0 2 [0, 7]) ⟨3, 0, 1, 1, 2, 0, 2, [0, 7]⟩
    (by simp [Good]) rfl (by decide +kernel)
  simp at this

/-- C406: holds if the packets of the device are not longer than the request; missing: requests shorter than a packet -/
theorem read_partial {D : Type} (exec : D → Xfer → D × Option (List Nat)) (s s' : St D) (seqnum devid ep flags buflen : Nat)
    (setup reply : List Nat) (r : Reply)
    (hg : Good s.devices (.submit seqnum devid 1 ep flags buflen 0 0 0 setup []))
    (hdev : ∀ a, (answer exec s.dev (.submit seqnum devid 1 ep flags buflen 0 0 0 setup [])).2 = some a → a.length ≤ buflen)
    (hh : handle exec s (encode (.submit seqnum devid 1 ep flags buflen 0 0 0 setup [])) = .ok s' [] reply)
    (hr : decode reply = some (r, [])) : r.data.length ≤ buflen ∧ r.actual = r.data.length := by
  have hb : buflen < 2 ^ 31 := hg.2.2.2.2.2.2.1
  have hans : Answered (.submit seqnum devid 1 ep flags buflen 0 0 0 setup [])
      (answer exec s.dev (.submit seqnum devid 1 ep flags buflen 0 0 0 setup [])).2 := by
    constructor
    · intro hbulk hnone
      have := handle_submit exec s seqnum devid 1 ep flags buflen 0 0 0 setup [] [] hg
      rw [List.append_nil, hh] at this
      have he : ep ≠ 0 := by simpa [Cmd.isBulk] using hbulk
      rw [if_neg he] at this
      simp only [answer, Cmd.xfer, if_neg he, if_true] at hnone
      simp only [bulk, if_true] at this
      cases hx : exec s.dev (.bulkIn ep) with
      | mk d' a =>
        rw [hx] at hnone this
        dsimp only at hnone
        subst hnone
        cases this
    · intro d hd
      have := hdev d hd
      omega
  obtain ⟨rep, h1, h2⟩ := handle_one exec s _ [] hg hans
  rw [List.append_nil, hh] at h1
  cases h1
  have h3 := h2 []
  rw [List.append_nil, hr] at h3
  cases h3
  cases ha : (answer exec s.dev (.submit seqnum devid 1 ep flags buflen 0 0 0 setup [])).2 with
  | none => simp [expected]
  | some a => simpa [expected] using hdev a ha

end Verif.UsbIp
