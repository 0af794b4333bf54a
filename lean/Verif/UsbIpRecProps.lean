import Verif.UsbIpRec
import Verif.UsbIpProps
/-! # Recordings of USB/IP sessions: properties -/
namespace Verif.UsbIpRec
open Verif.UsbIp

/-! ## what the recorder stores -/

/-- one exchange of a session: a command of the client and the reply of the server, or an operation (list of devices, import)
given by its version and the other reads of the server -/
inductive Exch
  | urb (c : Cmd) (reply : List Nat)
  | op (version : Nat) (reads : List (List Nat)) (reply : List Nat)

/-- pieces in which the server reads a command (`readexactly` of 2, 18, 28 bytes and the data, connection.py:195-206, 298,
323-335) -/
def pieces : Cmd → List (List Nat)
  | .submit seqnum devid direction ep flags buflen start npk interval setup buf =>
    [be 2 0, be 2 1 ++ be 4 seqnum ++ be 4 devid ++ be 4 direction ++ be 4 ep,
     be 4 flags ++ be 4 buflen ++ be 4 start ++ be 4 npk ++ be 4 interval ++ setup] ++
    (if direction = 0 ∧ buflen ≠ 0 then [buf] else [])
  | .unlink seqnum devid direction ep target =>
    [be 2 0, be 2 2 ++ be 4 seqnum ++ be 4 devid ++ be 4 direction ++ be 4 ep, be 4 target ++ List.replicate 24 0]

def Exch.reads : Exch → List (List Nat)
  | .urb c _ => pieces c
  | .op v rs _ => be 2 v :: rs

def Exch.reply : Exch → List Nat
  | .urb _ w => w
  | .op _ _ w => w

/-- items of one exchange, `ts` gives the time of every item -/
def items (ts : Nat → Int) (e : Exch) : List Item :=
  (e.reads.zipIdx.map fun p => ⟨ts (p.2 + 1), true, p.1⟩) ++ [⟨ts 0, false, e.reply⟩]

/-- exchanges which a session can contain: commands of a correct client answered by a message with the header of 48 bytes,
operations of protocol versions other than 0 -/
def Exch.Good (devices : List Nat) : Exch → Prop
  | .urb c w => UsbIp.Good devices c ∧ 48 ≤ w.length
  | .op v rs _ => v ≠ 0 ∧ v < 2 ^ 16 ∧ ∀ r ∈ rs, r.length ≠ 2

/-- what the user asks to leave out -/
def Exch.removed (rm : Nat → Bool) : Exch → Bool
  | .urb (.submit seqnum devid direction ep ..) w =>
    rm seqnum || (decide (direction = 1 ∧ ep ≠ 0) && decide (w = retSubmit seqnum devid direction ep 0 0 []))
  | _ => false

/-- the pieces are the message of the client -/
theorem pieces_encode (devices : List Nat) (c : Cmd) (h : UsbIp.Good devices c) : (pieces c).flatten = encode c := by
  have h41 : be 4 1 = be 2 0 ++ be 2 1 := by decide
  have h42 : be 4 2 = be 2 0 ++ be 2 2 := by decide
  cases c with
  | submit seqnum devid direction ep flags buflen start npk interval setup buf =>
    obtain ⟨_, _, _, hd, _, _, _, _, _, _, _, hb, _⟩ := h
    unfold pieces encode
    dsimp only
    rw [h41]
    by_cases hc : direction = 0 ∧ buflen ≠ 0
    · rw [if_pos hc]; simp
    · rw [if_neg hc]
      have hz : buf = [] := by
        apply List.eq_nil_of_length_eq_zero
        rw [hb]
        by_cases h0 : direction = 0
        · rw [if_pos h0]
          rcases Nat.eq_zero_or_pos buflen with h | h
          · exact h
          · exact absurd ⟨h0, by omega⟩ hc
        · rw [if_neg h0]
      rw [hz]; simp
  | unlink seqnum devid direction ep target =>
    unfold pieces encode
    dsimp only
    rw [h42]; simp

/-! ## fields -/

theorem fld_skip (n o k : Nat) (l r : List Nat) (h : l.length = n) : fld (n + o) k (l ++ r) = fld o k r := by
  unfold fld
  rw [← List.drop_drop, List.drop_append, ← h]
  simp

theorem fld_here (n v : Nat) (r : List Nat) (h : v < 256 ^ n) : fld 0 n (be n v ++ r) = v := by
  unfold fld
  rw [List.drop_zero, List.take_append_of_le_length (by rw [be_length]; exact Nat.le_refl _)]
  rw [List.take_of_length_le (by rw [be_length]; exact Nat.le_refl _), unbe_be, Nat.mod_eq_of_lt h]

theorem head_fields (op seqnum devid direction ep : Nat) (h0 : op < 2 ^ 16) (h1 : seqnum < 2 ^ 32) (h2 : devid < 2 ^ 32)
    (h3 : direction < 2 ^ 32) (h4 : ep < 2 ^ 32) :
    (be 2 op ++ be 4 seqnum ++ be 4 devid ++ be 4 direction ++ be 4 ep).length = 18 ∧
    fld 0 2 (be 2 op ++ be 4 seqnum ++ be 4 devid ++ be 4 direction ++ be 4 ep) = op ∧
    fld 2 4 (be 2 op ++ be 4 seqnum ++ be 4 devid ++ be 4 direction ++ be 4 ep) = seqnum ∧
    fld 6 4 (be 2 op ++ be 4 seqnum ++ be 4 devid ++ be 4 direction ++ be 4 ep) = devid ∧
    fld 10 4 (be 2 op ++ be 4 seqnum ++ be 4 devid ++ be 4 direction ++ be 4 ep) = direction ∧
    fld 14 4 (be 2 op ++ be 4 seqnum ++ be 4 devid ++ be 4 direction ++ be 4 ep) = ep := by
  simp only [List.append_assoc]
  refine ⟨by simp [be_length], fld_here 2 op _ (by omega), ?_, ?_, ?_, ?_⟩
  · rw [fld_skip 2 0 4 _ _ (be_length 2 op), fld_here 4 seqnum _ (by omega)]
  · rw [fld_skip 2 4 4 _ _ (be_length 2 op), fld_skip 4 0 4 _ _ (be_length 4 _), fld_here 4 devid _ (by omega)]
  · rw [fld_skip 2 8 4 _ _ (be_length 2 op), fld_skip 4 4 4 _ _ (be_length 4 _), fld_skip 4 0 4 _ _ (be_length 4 _),
      fld_here 4 direction _ (by omega)]
  · rw [fld_skip 2 12 4 _ _ (be_length 2 op), fld_skip 4 8 4 _ _ (be_length 4 _), fld_skip 4 4 4 _ _ (be_length 4 _),
      fld_skip 4 0 4 _ _ (be_length 4 _)]
    have := fld_here 4 ep [] (by omega)
    rwa [List.append_nil] at this

theorem body_fields (flags buflen start npk interval : Nat) (setup : List Nat) (h : buflen < 2 ^ 32) (hs : setup.length = 8) :
    (be 4 flags ++ be 4 buflen ++ be 4 start ++ be 4 npk ++ be 4 interval ++ setup).length = 28 ∧
    fld 4 4 (be 4 flags ++ be 4 buflen ++ be 4 start ++ be 4 npk ++ be 4 interval ++ setup) = buflen := by
  simp only [List.append_assoc]
  refine ⟨by simp [be_length, hs], ?_⟩
  rw [fld_skip 4 0 4 _ _ (be_length 4 _), fld_here 4 buflen _ (by omega)]

theorem fld_be2 (v : Nat) (h : v < 2 ^ 16) : fld 0 2 (be 2 v) = v := by
  have := fld_here 2 v [] (by omega)
  rwa [List.append_nil] at this

/-! ## filter -/

theorem filter_plain (rm : Nat → Bool) (a : Item) (r : List Item)
    (h : ¬(a.read = true ∧ a.d.length = 2 ∧ fld 0 2 a.d = 0)) :
    filterEmptyIn rm (a :: r) = (filterEmptyIn rm r).map fun x => a :: x := by
  conv => lhs; rw [filterEmptyIn.eq_def]
  dsimp only
  rw [if_neg h]

theorem filter_plains (rm : Nat → Bool) (l r : List Item)
    (h : ∀ a ∈ l, ¬(a.read = true ∧ a.d.length = 2 ∧ fld 0 2 a.d = 0)) :
    filterEmptyIn rm (l ++ r) = (filterEmptyIn rm r).map fun x => l ++ x := by
  induction l with
  | nil => simp
  | cons a l ih =>
    rw [List.cons_append, filter_plain rm a _ (h a (by simp)), ih (fun x hx => h x (by simp [hx])), Option.map_map]
    rfl

/-- one exchange -/
theorem filter_one (rm : Nat → Bool) (devices : List Nat) (ts : Nat → Int) (e : Exch) (hg : e.Good devices) (r y : List Item)
    (hr : filterEmptyIn rm r = some y) :
    filterEmptyIn rm (items ts e ++ r) = some (if e.removed rm then y else items ts e ++ y) := by
  cases e with
  | op v rs w =>
    obtain ⟨h0, h1, h2⟩ := hg
    rw [filter_plains, hr]
    · rfl
    · intro a ha
      unfold items Exch.reads at ha
      rw [List.mem_append] at ha
      rcases ha with ha | ha
      · rw [List.mem_map] at ha
        obtain ⟨p, hp, rfl⟩ := ha
        have hm : p.1 ∈ be 2 v :: rs := by
          have := List.mem_zipIdx' hp
          rw [this.2]; exact List.getElem_mem _
        rw [List.mem_cons] at hm
        rintro ⟨_, hl, hz⟩
        dsimp only at hl hz
        rcases hm with hm | hm
        · rw [hm, fld_be2 v h1] at hz; exact h0 hz
        · exact h2 _ hm hl
      · rw [List.mem_singleton] at ha
        subst ha
        rintro ⟨hh, _⟩
        cases hh
  | urb c w =>
    obtain ⟨hg, hw⟩ := hg
    cases c with
    | unlink seqnum devid direction ep target =>
      obtain ⟨g1, g2, g3, g4, g5, g6⟩ := hg
      obtain ⟨f0, f1, f2, f3, f4, f5⟩ := head_fields 2 seqnum devid direction ep (by omega) g1 g2 g4 g5
      simp only [items, Exch.reads, pieces, Exch.reply, Exch.removed, List.zipIdx_cons, List.zipIdx_nil, List.map_cons, List.map_nil,
        List.cons_append, List.nil_append]
      conv => lhs; rw [filterEmptyIn.eq_def]
      dsimp only
      rw [if_pos ⟨rfl, be_length 2 0, fld_be2 0 (by omega)⟩, if_pos f0, f1, if_neg (by omega), if_neg (by omega)]
      rw [filter_plain _ _ _ (by dsimp only; simp [be_length]), filter_plain _ _ _ (by dsimp only; simp), hr]
      rfl
    | submit seqnum devid direction ep flags buflen start npk interval setup buf =>
      obtain ⟨g1, g2, g3, g4, g5, g6, g7, g8, g9, g10, g11, g12, g13⟩ := hg
      obtain ⟨f0, f1, f2, f3, f4, f5⟩ := head_fields 1 seqnum devid direction ep (by omega) g1 g2 (by omega) (by omega)
      obtain ⟨b1, b2⟩ := body_fields flags buflen start npk interval setup (by omega) g11
      by_cases hp : direction = 0 ∧ buflen ≠ 0
      · have hbl : buf.length = buflen := by rw [g12, if_pos hp.1]
        simp only [items, Exch.reads, pieces, Exch.reply, Exch.removed, if_pos hp, List.zipIdx_cons, List.zipIdx_nil, List.map_cons,
          List.map_nil, List.cons_append, List.nil_append]
        conv => lhs; rw [filterEmptyIn.eq_def]
        dsimp only
        rw [if_pos ⟨rfl, be_length 2 0, fld_be2 0 (by omega)⟩, if_pos f0, f1, f2, f4, f5, f3, b1, b2]
        by_cases hrm : rm seqnum = true
        · rw [if_pos ⟨rfl, hrm⟩, if_neg (by omega), if_pos hp, if_neg (by omega), if_neg (by decide), hr, hrm]
          rfl
        · rw [if_neg (fun h => hrm h.2), if_neg (by omega)]
          have hre : (rm seqnum || decide (direction = 1 ∧ ep ≠ 0) &&
              decide (w = retSubmit seqnum devid direction ep 0 0 [])) = false := by
            rw [Bool.eq_false_iff.mpr hrm, decide_eq_false (by omega)]; rfl
          rw [hre]
          rw [filter_plain _ _ _ (by dsimp only; omega)]
          by_cases hz : buf.length = 2 ∧ fld 0 2 buf = 0
          · conv => lhs; rw [filterEmptyIn.eq_def]
            dsimp only
            rw [if_pos ⟨rfl, hz⟩, if_neg (by omega), hr]
            rfl
          · rw [filter_plain _ _ _ (by dsimp only; exact fun h => hz h.2), filter_plain _ _ _ (by dsimp only; simp), hr]
            rfl
      · simp only [items, Exch.reads, pieces, Exch.reply, Exch.removed, if_neg hp, List.zipIdx_cons, List.zipIdx_nil, List.map_cons,
          List.map_nil, List.cons_append, List.nil_append, List.append_nil]
        conv => lhs; rw [filterEmptyIn.eq_def]
        dsimp only
        rw [if_pos ⟨rfl, be_length 2 0, fld_be2 0 (by omega)⟩, if_pos f0, f1, f2, f4, f5, f3, b1, b2]
        by_cases hrm : rm seqnum = true
        · rw [if_pos ⟨rfl, hrm⟩, if_neg (by omega), if_neg hp, if_neg (by decide), hr, hrm]
          rfl
        · rw [if_neg (fun h => hrm h.2), Bool.eq_false_iff.mpr hrm, Bool.false_or]
          by_cases hin : direction = 1 ∧ ep ≠ 0
          · rw [if_pos ⟨rfl, hin.2, hin.1⟩, if_neg (by omega), if_neg (by decide), decide_eq_true hin, Bool.true_and]
            by_cases hq : w = retSubmit seqnum devid direction ep 0 0 []
            · rw [if_pos hq, hr, decide_eq_true hq]; rfl
            · rw [if_neg hq, hr, decide_eq_false hq]; rfl
          · rw [if_neg (fun h => hin ⟨h.2.2, h.2.1⟩), decide_eq_false hin, Bool.false_and]
            rw [filter_plain _ _ _ (by dsimp only; omega), filter_plain _ _ _ (by dsimp only; simp), hr]
            rfl

/-- C413: the filtered recording is the recording of the session without exactly the exchanges to be removed, at any times -/
theorem filter_exact (rm : Nat → Bool) (devices : List Nat) (sess : List (Exch × (Nat → Int)))
    (hg : ∀ p ∈ sess, p.1.Good devices) :
    filterEmptyIn rm (sess.flatMap fun p => items p.2 p.1) =
      some ((sess.filter fun p => !p.1.removed rm).flatMap fun p => items p.2 p.1) := by
  induction sess with
  | nil => rfl
  | cons p sess ih =>
    rw [List.flatMap_cons, filter_one rm devices p.2 p.1 (hg p (by simp)) _ _ (ih fun q hq => hg q (by simp [hq]))]
    cases hr : p.1.removed rm
    · rw [List.filter_cons_of_pos (by rw [hr]; rfl), List.flatMap_cons]; rfl
    · rw [List.filter_cons_of_neg (by rw [hr]; decide)]; rfl

/-- an empty IN, an OUT with two zero bytes and a selected command -/
example : ∀ p ∈ [(Exch.urb (.submit 1 2 1 3 0 64 0 0 0 (List.replicate 8 0) []) (retSubmit 1 2 1 3 0 0 []), fun n : Nat => (n : Int)),
    (Exch.urb (.submit 2 2 0 3 0 2 0 0 0 (List.replicate 8 0) [0, 0]) (retSubmit 2 2 0 3 0 2 []), fun n : Nat => (n : Int)),
    (Exch.op 0x0111 [List.replicate 6 0, List.replicate 32 0] [1], fun _ : Nat => (7 : Int))], p.1.Good [2] := by
  intro p hp
  simp only [List.mem_cons, List.not_mem_nil, or_false] at hp
  rcases hp with rfl | rfl | rfl
  · simp [Exch.Good, UsbIp.Good, retSubmit, basic, be_length]
  · simp [Exch.Good, UsbIp.Good, retSubmit, basic, be_length]
  · simp [Exch.Good]

/-! ## cutting of time -/

/-- segments in order, without overlap -/
def Segs : List (Int × Int) → Prop
  | [] => True
  | s :: r => s.1 ≤ s.2 ∧ (∀ q ∈ r, s.2 ≤ q.1) ∧ Segs r

def Sorted (l : List Int) : Prop := l.Pairwise (· ≤ ·)

/-- total length of segments which end until `t` -/
def cutUntil (segs : List (Int × Int)) (t : Int) : Int :=
  match segs with
  | [] => 0
  | s :: r => (if s.2 ≤ t then s.2 - s.1 else 0) + cutUntil r t

/-- C414, full statement: times of the result are in order, and no item is lost -/
def OrderSpec : Prop :=
  ∀ (data : List Item) (segs : List (Int × Int)), Sorted (data.map (·.t)) → Segs segs →
    ∃ r, cutOff data segs = some r ∧ r.map (fun x => (x.read, x.d)) = data.map (fun x => (x.read, x.d)) ∧ Sorted (r.map (·.t))

/-- a transaction inside of a segment is not detected: times 5, 10 become 5, 0 -/
theorem cut_violated : ¬ OrderSpec := by
  intro h
  obtain ⟨r, h1, _, h3⟩ := h [⟨5, true, [0]⟩, ⟨10, true, [1]⟩] [(0, 10)] (by unfold Sorted; decide)
    ⟨by decide, fun q hq => by simp at hq, trivial⟩
  have : r = [⟨5, true, [0]⟩, ⟨0, true, [1]⟩] := by
    have h2 : cutOff [⟨5, true, [0]⟩, ⟨10, true, [1]⟩] [(0, 10)] = some [⟨5, true, [0]⟩, ⟨0, true, [1]⟩] := by decide
    rw [h2] at h1; injection h1 with h1; exact h1.symm
  rw [this] at h3
  revert h3; unfold Sorted; decide

/-- nothing to cut is an error -/
theorem cut_empty (data : List Item) : cutOff data [] = none := rfl

/-- the example of the documentation (0, 10, 11 become 0, 1, 2) does not hold -/
theorem cut_doc : (cutOff [⟨0, true, []⟩, ⟨10, true, []⟩, ⟨11, true, []⟩] [(0, 10)]).map (fun r => r.map (·.t)) = some [0, 0, 1] := by
  decide

theorem cutUntil_zero (segs : List (Int × Int)) (t : Int) (h : ∀ q ∈ segs, t < q.2) : cutUntil segs t = 0 := by
  induction segs with
  | nil => rfl
  | cons s r ih =>
    rw [cutUntil, ih fun q hq => h q (by simp [hq]), if_neg (by have := h s (by simp); omega)]; rfl

theorem segs_le {s : Int × Int} {r : List (Int × Int)} (h : Segs r) (hs : ∀ q ∈ r, s.2 ≤ q.1) : ∀ q ∈ r, s.2 ≤ q.2 := by
  induction r with
  | nil => intro q hq; simp at hq
  | cons a r ih =>
    intro q hq
    rcases List.mem_cons.mp hq with rfl | hq
    · have := hs q (by simp); have := h.1; omega
    · exact ih h.2.2 (fun q hq => hs q (by simp [hq])) q hq

theorem skip_spec (t : Int) : ∀ (segs : List (Int × Int)) (off : Int), Segs segs →
    (skipSegs t segs off).2 = off - cutUntil segs t ∧ Segs (skipSegs t segs off).1 ∧
    ∀ t' ≥ t, cutUntil segs t' = cutUntil segs t + cutUntil (skipSegs t segs off).1 t' := by
  intro segs
  induction segs with
  | nil => intro off _; exact ⟨by simp [skipSegs, cutUntil], trivial, fun t' _ => by simp [skipSegs, cutUntil]⟩
  | cons s r ih =>
    intro off hs
    rw [skipSegs]
    by_cases h : t ≥ s.2
    · rw [if_pos h]
      obtain ⟨i1, i2, i3⟩ := ih (off - (s.2 - s.1)) hs.2.2
      refine ⟨?_, i2, ?_⟩
      · rw [i1, cutUntil, if_pos h]; omega
      · intro t' ht
        rw [cutUntil, cutUntil, if_pos h, if_pos (by omega), i3 t' ht]; omega
    · rw [if_neg h]
      have hz : cutUntil (s :: r) t = 0 := by
        apply cutUntil_zero
        intro q hq
        rcases List.mem_cons.mp hq with rfl | hq
        · omega
        · have := segs_le hs.2.2 hs.2.1 q hq; omega
      refine ⟨by rw [hz]; simp, hs, fun t' _ => by rw [hz]; simp⟩

theorem cutGo_spec : ∀ (data : List Item) (segs : List (Int × Int)) (off : Int), Segs segs → Sorted (data.map (·.t)) →
    cutGo data segs off = data.map fun x => { x with t := x.t + off - cutUntil segs x.t } := by
  intro data
  induction data with
  | nil => intro segs off _ _; rfl
  | cons x data ih =>
    intro segs off hs hd
    unfold Sorted at hd
    rw [List.map_cons, List.pairwise_cons] at hd
    obtain ⟨i1, i2, i3⟩ := skip_spec x.t segs off hs
    rw [cutGo, ih _ _ i2 hd.2, List.map_cons, i1]
    congr 1
    · congr 1; omega
    · apply List.map_congr_left
      intro y hy
      have := i3 y.t (hd.1 y.t (List.mem_map_of_mem hy))
      congr 1; omega

/-- a part without segments inside which a time lies is long enough -/
theorem cut_gap : ∀ (segs : List (Int × Int)) (u v : Int), Segs segs → u ≤ v → (∀ q ∈ segs, ¬(q.1 < u ∧ u < q.2)) →
    cutUntil segs v - cutUntil segs u ≤ v - u := by
  intro segs
  induction segs with
  | nil => intro u v _ h _; simp [cutUntil]; omega
  | cons s r ih =>
    intro u v hs huv hn
    have hn' : ∀ q ∈ r, ¬(q.1 < u ∧ u < q.2) := fun q hq => hn q (by simp [hq])
    have h0 := hn s (by simp)
    rw [cutUntil, cutUntil]
    by_cases h1 : s.2 ≤ u
    · rw [if_pos h1, if_pos (by omega)]
      have := ih u v hs.2.2 huv hn'
      omega
    · rw [if_neg h1]
      by_cases h2 : s.2 ≤ v
      · rw [if_pos h2]
        have hz : cutUntil r u = 0 := cutUntil_zero r u fun q hq => by have := segs_le hs.2.2 hs.2.1 q hq; omega
        -- the rest lies behind `s.2`
        have := ih s.2 v hs.2.2 h2 (fun q hq => by have := hs.2.1 q hq; omega)
        have h3 : 0 ≤ cutUntil r s.2 := by
          have : ∀ (l : List (Int × Int)) (t : Int), Segs l → 0 ≤ cutUntil l t := by
            intro l t
            induction l with
            | nil => intro _; simp [cutUntil]
            | cons a l il =>
              intro ha
              have := il ha.2.2
              have := ha.1
              rw [cutUntil]
              by_cases hc : a.2 ≤ t
              · rw [if_pos hc]; omega
              · rw [if_neg hc]; omega
          exact this r s.2 hs.2.2
        have h4 : cutUntil r s.2 ≤ 0 := by
          have : ∀ (l : List (Int × Int)) (t : Int), Segs l → (∀ q ∈ l, t ≤ q.1) → cutUntil l t ≤ 0 := by
            intro l t
            induction l with
            | nil => intro _ _; simp [cutUntil]
            | cons a l il =>
              intro ha hb
              have := il ha.2.2 fun q hq => hb q (by simp [hq])
              have := hb a (by simp)
              have := ha.1
              rw [cutUntil]
              by_cases hc : a.2 ≤ t
              · rw [if_pos hc]; omega
              · rw [if_neg hc]; omega
          exact this r s.2 hs.2.2 hs.2.1
        omega
      · rw [if_neg h2]
        have := ih u v hs.2.2 huv hn'
        omega

/-- C414, for at least one segment and no transaction strictly inside of a segment: every time is moved back by the segments
before it, so the order and all gaps without a segment are kept -/
theorem cut_partial (data : List Item) (segs : List (Int × Int)) (hd : Sorted (data.map (·.t))) (hs : Segs segs) (hne : segs ≠ [])
    (hin : ∀ x ∈ data, ∀ q ∈ segs, ¬(q.1 < x.t ∧ x.t < q.2)) :
    ∃ r, cutOff data segs = some r ∧ r = data.map (fun x => { x with t := x.t - cutUntil segs x.t }) ∧ Sorted (r.map (·.t)) := by
  obtain ⟨s, l, rfl⟩ := List.exists_cons_of_ne_nil hne
  refine ⟨_, rfl, ?_, ?_⟩
  · rw [cutGo_spec data _ 0 hs hd]
    apply List.map_congr_left
    intro x _
    congr 1; omega
  · rw [cutGo_spec data _ 0 hs hd]
    unfold Sorted at hd ⊢
    rw [List.map_map, List.pairwise_map]
    rw [List.pairwise_map] at hd
    refine hd.imp_of_mem ?_
    intro a b ha _ hab
    have := cut_gap (s :: l) a.t b.t hs hab (hin a ha)
    simp only [Function.comp]
    omega

/-- the unit test of the repository -/
example : cutOff [⟨0, true, [0]⟩, ⟨10, true, [1]⟩, ⟨20, true, [2]⟩, ⟨30, true, [1]⟩] [(1, 2), (21, 30), (31, 50)] =
    some [⟨0, true, [0]⟩, ⟨9, true, [1]⟩, ⟨19, true, [2]⟩, ⟨20, true, [1]⟩] := by decide

example : Segs [(1, 2), (21, 30), (31, 50)] ∧ Sorted [0, 10, 20, 30] := by
  refine ⟨⟨by decide, by simp, by decide, by simp, by decide, by simp, trivial⟩, by unfold Sorted; decide⟩

end Verif.UsbIpRec
