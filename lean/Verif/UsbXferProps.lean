import Verif.UsbXfer
/-!
# Properties of the USB agents
-/
namespace Verif.UsbXfer

open Verif.UsbBundle

/-! ## C385: bulk transfers -/

theorem recv_splitN (m : Nat) (hm : 0 < m) : ∀ (n : Nat) (pid : Bool) (d : List Nat) (rest : List Pkt), d.length < n →
    recv m pid (splitN n m pid d ++ rest) = some (d, rest) := by
  intro n
  induction n with
  | zero => intro pid d rest h; omega
  | succ n ih =>
    intro pid d rest h
    rw [splitN, List.cons_append, recv, if_pos rfl]
    by_cases hl : (d.take m).length < m
    · rw [if_pos hl, if_pos hl]
      rw [List.length_take] at hl
      rw [List.take_of_length_le (by omega)]; rfl
    · rw [if_neg hl, if_neg hl]
      rw [List.length_take] at hl
      rw [ih _ _ _ (by rw [List.length_drop]; omega)]
      simp

theorem splitN_length (m : Nat) (hm : 0 < m) : ∀ (n : Nat) (pid : Bool) (d : List Nat), d.length < n →
    (splitN n m pid d).length = d.length / m + 1 := by
  intro n
  induction n with
  | zero => intro pid d h; omega
  | succ n ih =>
    intro pid d h
    rw [splitN, List.length_cons, List.length_take]
    by_cases hl : min m d.length < m
    · rw [if_pos hl, Nat.div_eq_of_lt (by omega)]; rfl
    · rw [if_neg hl, ih _ _ (by rw [List.length_drop]; omega), List.length_drop, Nat.div_eq_sub_div hm (show m ≤ d.length by omega)]

theorem splitN_pkt (m : Nat) : ∀ (n : Nat) (pid : Bool) (d : List Nat) (i : Nat) (p : Pkt), (splitN n m pid d)[i]? = some p →
    p.2.length ≤ m ∧ p.1 = (pid ^^ decide (i % 2 = 1)) := by
  intro n
  induction n with
  | zero => intro pid d i p h; simp [splitN] at h
  | succ n ih =>
    intro pid d i p h
    rw [splitN] at h
    cases i with
    | zero =>
      simp only [List.getElem?_cons_zero, Option.some.injEq] at h
      subst h
      refine ⟨by simp only [List.length_take]; omega, by simp⟩
    | succ i =>
      rw [List.getElem?_cons_succ] at h
      by_cases hl : (d.take m).length < m
      · rw [if_pos hl] at h; simp at h
      · rw [if_neg hl] at h
        obtain ⟨h1, h2⟩ := ih _ _ _ _ h
        refine ⟨h1, ?_⟩
        rw [h2]
        rcases Nat.mod_two_eq_zero_or_one i with hi | hi
        · have : (i + 1) % 2 = 1 := by omega
          simp [hi, this]
        · have : (i + 1) % 2 = 0 := by omega
          simp [hi, this]

theorem recv_sound (m : Nat) : ∀ (ps : List Pkt) (pid : Bool) (d : List Nat) (rest : List Pkt),
    (∀ p ∈ ps, p.2.length ≤ m) → recv m pid ps = some (d, rest) → ∀ n, d.length < n → 0 < m →
    ps = splitN n m pid d ++ rest := by
  intro ps
  induction ps with
  | nil => intro pid d rest _ h; simp [recv] at h
  | cons p ps ih =>
    intro pid d rest hp h n hn hm
    obtain ⟨q, e⟩ := p
    rw [recv] at h
    by_cases hq : q = pid
    · rw [if_pos hq] at h
      subst hq
      have he : e.length ≤ m := hp (q, e) (by simp)
      obtain ⟨n, rfl⟩ : ∃ k, n = k + 1 := ⟨n - 1, by omega⟩
      by_cases hl : e.length < m
      · rw [if_pos hl] at h
        simp only [Option.some.injEq, Prod.mk.injEq] at h
        obtain ⟨rfl, rfl⟩ := h
        rw [splitN, List.take_of_length_le (by omega), if_pos hl]; rfl
      · rw [if_neg hl] at h
        cases hr : recv m (!q) ps with
        | none => rw [hr] at h; simp at h
        | some r =>
          rw [hr] at h
          obtain ⟨d', rest'⟩ := r
          simp only [Option.map_some, Option.some.injEq, Prod.mk.injEq] at h
          obtain ⟨rfl, rfl⟩ := h
          have hem : e.length = m := by omega
          rw [splitN, List.take_append_of_le_length (by omega), List.take_of_length_le (by omega), if_neg hl,
            List.drop_append_of_le_length (by omega), List.drop_of_length_le (by omega), List.nil_append, List.cons_append]
          rw [List.length_append] at hn
          rw [← ih (!q) d' rest' (fun p hp' => hp p (by simp [hp'])) hr n (by omega) hm]
    · rw [if_neg hq] at h; cases h

/-- C385: for every data and packet size `m` the data which is sent in packets is received whole and next packets are not touched;
the data is sent in `d.length / m + 1` packets of at most `m` bytes with alternating PIDs; and no other sequence of packets
up to `m` bytes is received as this data. -/
theorem bulk_round_trip (m : Nat) (hm : 0 < m) (pid : Bool) (d : List Nat) :
    (∀ rest, recv m pid (split m pid d ++ rest) = some (d, rest)) ∧
    (split m pid d).length = d.length / m + 1 ∧
    (∀ i p, (split m pid d)[i]? = some p → p.2.length ≤ m ∧ p.1 = (pid ^^ decide (i % 2 = 1))) ∧
    (∀ ps rest, (∀ p ∈ ps, p.2.length ≤ m) → recv m pid ps = some (d, rest) → ps = split m pid d ++ rest) :=
  ⟨fun rest => recv_splitN m hm _ pid d rest (by omega), splitN_length m hm _ pid d (by omega), splitN_pkt m _ pid d,
    fun ps rest hp h => recv_sound m ps pid d rest hp h _ (by omega) hm⟩

example : split 4 true [1, 2, 3, 4, 5, 6, 7, 8] = [(true, [1, 2, 3, 4]), (false, [5, 6, 7, 8]), (true, [])] := by decide
example : recv 4 true [(true, [1, 2, 3, 4]), (false, [5]), (true, [9])] = some ([1, 2, 3, 4, 5], [(true, [9])]) := by decide
example : recv 4 true [(true, [1, 2, 3, 4]), (true, [5])] = none := by decide

/-! ## C386: download of the device descriptor -/

theorem findFrom_append (p : Descr → Bool) (suf : List Descr) (d : Descr) (hd : p d = true) :
    ∀ (pre : List Descr) (i k : Nat), (pre.filter p).length = k → findFrom p (pre ++ d :: suf) i k = some (i + pre.length, d) := by
  intro pre
  induction pre with
  | nil =>
    intro i k hk
    have : k = 0 := by simpa using hk.symm
    subst this
    simp [findFrom, hd]
  | cons a pre ih =>
    intro i k hk
    rw [List.cons_append, findFrom]
    by_cases ha : p a = true
    · rw [List.filter_cons_of_pos ha, List.length_cons] at hk
      rw [if_pos ha, if_neg (by omega), ih (i + 1) (k - 1) (by omega), List.length_cons]
      congr 2; omega
    · rw [List.filter_cons_of_neg ha] at hk
      rw [if_neg ha, ih (i + 1) k hk, List.length_cons]
      congr 2; omega

theorem findFrom_none (p : Descr → Bool) (ds : List Descr) (i k : Nat) (h : (ds.filter p).length ≤ k) : findFrom p ds i k = none :=
  (findFrom_spec p ds i k).2.2 h

/-- request of a descriptor after `pre` -/
theorem download_at (pre suf : List Descr) (d : Descr) (m mh t k w : Nat) (hk : (pre.filter fun d => d.ty == t).length = k)
    (hd : d.ty = t) :
    download (pre ++ d :: suf) m mh t k w =
      match recv mh true (split m true (((d :: suf).flatMap Descr.bytes).take w)) with
      | some (d, []) => some (.data d)
      | _ => none := by
  unfold download getDescriptor
  rw [findFrom_append (fun d => d.ty == t) suf d (by simp [hd]) pre 0 k hk]
  simp only [getBytes, Nat.zero_add, List.drop_left, bytesFrom_eq]
  rfl

theorem download_ok (pre suf : List Descr) (d : Descr) (m t k w : Nat) (hm : 0 < m)
    (hk : (pre.filter fun d => d.ty == t).length = k) (hd : d.ty = t) :
    download (pre ++ d :: suf) m m t k w = some (.data (((d :: suf).flatMap Descr.bytes).take w)) := by
  rw [download_at pre suf d m m t k w hk hd]
  have := (bulk_round_trip m hm true (((d :: suf).flatMap Descr.bytes).take w)).1 []
  rw [List.append_nil] at this
  rw [this]

/-- full statement of C386: the device descriptor of a device of any valid packet size (8, 16, 32, 64, std.py:84) is downloaded -/
def DeviceSpec : Prop := ∀ (dev : Descr) (suf : List Descr), dev.ty = 1 → dev.bytes.length = 18 →
  maxPacket dev.bytes ∈ [8, 16, 32, 64] → downloadDevice (dev :: suf) = some dev.bytes

def devBytes (m : Nat) : List Nat := [18, 1, 0, 2, 2, 0, 0, m, 0, 0, 0, 0, 0, 0, 0, 0, 0, 1]

theorem device_violated : ¬ DeviceSpec := by
  intro h
  have := h ⟨1, devBytes 8, .device 8⟩ [] rfl rfl (by decide)
  revert this
  decide +kernel

theorem recv_first (mh m : Nat) (d : List Nat) (hm : 0 < m) (h : d.length < mh) :
    (∃ x, recv mh true (split m true d) = some (x, [])) ↔ d.length < m := by
  unfold split
  rw [splitN, recv, if_pos rfl, if_pos (by rw [List.length_take]; omega)]
  by_cases hl : d.length < m
  · rw [if_pos (by rw [List.length_take]; omega)]
    exact ⟨fun _ => hl, fun _ => ⟨_, rfl⟩⟩
  · rw [if_neg (by rw [List.length_take]; omega)]
    refine ⟨?_, fun h' => absurd h' hl⟩
    rintro ⟨x, hx⟩
    simp only [Option.some.injEq, Prod.mk.injEq] at hx
    have := splitN_length m hm d.length (!true) (d.drop m) (by rw [List.length_drop]; omega)
    rw [hx.2] at this
    simp at this

/-- C386 (partial): the descriptor is downloaded exactly if it fits to one packet with less bytes than the packet size of the device
(valid sizes 32 and 64); for 8 and 16 the enumeration fails. -/
theorem device_partial (dev : Descr) (suf : List Descr) (ht : dev.ty = 1) (hl : dev.bytes.length = 18)
    (hm : 0 < maxPacket dev.bytes) :
    (downloadDevice (dev :: suf) = some dev.bytes ↔ 18 < maxPacket dev.bytes) ∧
    (downloadDevice (dev :: suf) = none ↔ maxPacket dev.bytes ≤ 18) ∧
    (maxPacket dev.bytes ∈ [32, 64] → downloadDevice (dev :: suf) = some dev.bytes) := by
  have key : downloadDevice (dev :: suf) = downloadSized (dev :: suf) (maxPacket dev.bytes) 64 1 0 18 := by
    unfold downloadDevice getDescriptor
    rw [findFrom, if_pos (by simp [ht]), if_pos rfl]
  have htk : ((dev :: suf).flatMap Descr.bytes).take 18 = dev.bytes := by
    rw [List.flatMap_cons, List.take_append_of_le_length (by omega), List.take_of_length_le (by omega)]
  have hdl := download_at [] suf dev (maxPacket dev.bytes) 64 1 0 18 rfl ht
  rw [List.nil_append, htk] at hdl
  have hfirst := recv_first 64 (maxPacket dev.bytes) dev.bytes hm (by omega)
  rw [hl] at hfirst
  have hyes : 18 < maxPacket dev.bytes → downloadDevice (dev :: suf) = some dev.bytes := by
    intro h
    rw [key, downloadSized, hdl]
    have : recv 64 true (split (maxPacket dev.bytes) true dev.bytes) = some (dev.bytes, []) := by
      unfold split
      rw [splitN, recv, if_pos rfl, List.take_of_length_le (by omega), if_pos (by omega), if_pos (by omega)]
    rw [this]
    simp [hl]
  have hno : ¬ 18 < maxPacket dev.bytes → downloadDevice (dev :: suf) = none := by
    intro h
    rw [key, downloadSized, hdl]
    cases hr : recv 64 true (split (maxPacket dev.bytes) true dev.bytes) with
    | none => rfl
    | some r =>
      obtain ⟨x, l⟩ := r
      cases l with
      | nil => exact absurd (hfirst.1 ⟨x, hr⟩) h
      | cons _ _ => rfl
  refine ⟨⟨fun h => ?_, hyes⟩, ⟨fun h => ?_, fun h => hno (by omega)⟩, fun h => hyes ?_⟩
  · by_cases h' : 18 < maxPacket dev.bytes
    · exact h'
    · rw [hno h'] at h; cases h
  · by_cases h' : 18 < maxPacket dev.bytes
    · rw [hyes h'] at h; cases h
    · omega
  · simp at h; omega

example : downloadDevice [⟨1, devBytes 64, .device 64⟩] = some (devBytes 64) := by decide +kernel
example : downloadDevice [⟨1, devBytes 16, .device 16⟩] = none := by decide +kernel

/-! ## C387: parser of the configuration -/

/-- the descriptor is of `bLength` bytes and of a size of its type; types 2 configuration, 4 interface, 5 endpoint, 0x24 functional
(USB 2.0 specification 9.6, CDC 1.1 5.2.3) -/
def SizeOk (d : List Nat) : Prop :=
  d.getD 0 0 = d.length ∧
    ((d.getD 1 0 = 2 ∧ d.length = 9) ∨ (d.getD 1 0 = 4 ∧ d.length = 9) ∨ (d.getD 1 0 = 5 ∧ d.length = 7) ∨
     (d.getD 1 0 = 0x24 ∧ ((d.getD 2 0 ≤ 1 ∧ d.length = 5) ∨ (d.getD 2 0 = 2 ∧ d.length = 4) ∨ (d.getD 2 0 = 6 ∧ 5 ≤ d.length))))

/-- `ds[i]` is in a communication interface: the nearest preceding configuration or interface is an interface of class 2 -/
def InCdc (ds : List (List Nat)) (i : Nat) : Prop :=
  ∃ j d, j < i ∧ ds[j]? = some d ∧ d.getD 1 0 = 4 ∧ d.getD 5 0 = 2 ∧
    ∀ k e, j < k → k < i → ds[k]? = some e → e.getD 1 0 ≠ 4 ∧ e.getD 1 0 ≠ 2

/-- a list of descriptors of configurations -/
def ConfOk (ds : List (List Nat)) : Prop :=
  (∀ d ∈ ds, SizeOk d) ∧ ∀ i d, ds[i]? = some d → d.getD 1 0 = 0x24 → InCdc ds i

/-- the same with the class of the preceding interface -/
def ConfFrom : Option Nat → List (List Nat) → Prop
  | _, [] => True
  | cls, d :: ds => SizeOk d ∧ (d.getD 1 0 = 0x24 → cls = some 2) ∧
      ConfFrom (if d.getD 1 0 = 2 then none else if d.getD 1 0 = 4 then some (d.getD 5 0) else cls) ds

theorem sizeOk_pos {d : List Nat} (h : SizeOk d) : 4 ≤ d.length := by
  obtain ⟨_, h | h | h | ⟨_, h | h | h⟩⟩ := h <;> omega

theorem functionalOk_iff (cls : Option Nat) (d : List Nat) : functionalOk cls d = true ↔
    cls = some 2 ∧ ((d.getD 2 0 ≤ 1 ∧ d.length = 5) ∨ (d.getD 2 0 = 2 ∧ d.length = 4) ∨ (d.getD 2 0 = 6 ∧ 5 ≤ d.length)) := by
  unfold functionalOk
  rw [Bool.and_eq_true, Bool.and_eq_true, beq_iff_eq, decide_eq_true_iff]
  generalize d.getD 2 0 = s
  split
  · simp only [beq_iff_eq]; constructor
    · rintro ⟨⟨h1, h2⟩, h3⟩; exact ⟨h1, by omega⟩
    · rintro ⟨h1, h2⟩; exact ⟨⟨h1, by omega⟩, by omega⟩
  · simp only [beq_iff_eq]; constructor
    · rintro ⟨⟨h1, h2⟩, h3⟩; exact ⟨h1, by omega⟩
    · rintro ⟨h1, h2⟩; exact ⟨⟨h1, by omega⟩, by omega⟩
  · simp only [beq_iff_eq]; constructor
    · rintro ⟨⟨h1, h2⟩, h3⟩; exact ⟨h1, Or.inr (Or.inl ⟨trivial, h3⟩)⟩
    · rintro ⟨h1, h2⟩; exact ⟨⟨h1, by omega⟩, by omega⟩
  · simp only [decide_eq_true_iff]; constructor
    · rintro ⟨⟨h1, h2⟩, h3⟩; exact ⟨h1, Or.inr (Or.inr ⟨trivial, h3⟩)⟩
    · rintro ⟨h1, h2⟩; exact ⟨⟨h1, by omega⟩, by omega⟩
  · rename_i h0 h1 h2 h6
    constructor
    · rintro ⟨_, h3⟩; cases h3
    · rintro ⟨_, h | h | h⟩
      · have : s ≠ 0 := h0
        have : s ≠ 1 := h1
        omega
      · exact absurd h.1 h2
      · exact absurd h.1 h6

theorem getD_take (l : List Nat) (n i : Nat) (h : i < n) : (l.take n).getD i 0 = l.getD i 0 := by
  rw [List.getD_eq_getElem?_getD, List.getD_eq_getElem?_getD, List.getElem?_take_of_lt h]

theorem getD_append (a b : List Nat) (i : Nat) (h : i < a.length) : (a ++ b).getD i 0 = a.getD i 0 := by
  rw [List.getD_eq_getElem?_getD, List.getD_eq_getElem?_getD, List.getElem?_append_left h]

theorem parseN_complete : ∀ (n : Nat) (cls : Option Nat) (ds : List (List Nat)), ds.flatten.length < n → ConfFrom cls ds →
    parseN n cls ds.flatten = some ds := by
  intro n
  induction n with
  | zero => intro cls ds h; omega
  | succ n ih =>
    intro cls ds hn hc
    cases ds with
    | nil => rfl
    | cons d ds =>
      obtain ⟨hs, hf, hr⟩ := hc
      have h4 := sizeOk_pos hs
      rw [List.flatten_cons] at hn ⊢
      rw [List.length_append] at hn
      have h0 : (d ++ ds.flatten).getD 0 0 = d.length := by rw [getD_append _ _ _ (by omega)]; exact hs.1
      have h1 : (d ++ ds.flatten).getD 1 0 = d.getD 1 0 := getD_append _ _ _ (by omega)
      rw [parseN, if_neg (by intro h; rw [List.append_eq_nil_iff] at h; rw [h.1] at h4; simp at h4),
        h0, if_neg (by rw [List.length_append]; omega), h1, List.take_left, List.drop_left]
      obtain ⟨_, ⟨ht, hl⟩ | ⟨ht, hl⟩ | ⟨ht, hl⟩ | ⟨ht, hl⟩⟩ := hs
      · rw [ht] at hr ⊢
        simp only [if_pos hl]
        rw [ih none ds (by omega) (by simpa using hr)]; rfl
      · rw [ht] at hr ⊢
        simp only [if_pos hl]
        rw [ih _ ds (by omega) (by simpa using hr)]; rfl
      · rw [ht] at hr ⊢
        simp only [if_pos hl]
        rw [ih cls ds (by omega) (by simpa using hr)]; rfl
      · have hfo : functionalOk cls d = true := (functionalOk_iff cls d).2 ⟨hf ht, hl⟩
        rw [ht] at hr ⊢
        simp only [if_pos hfo]
        rw [ih cls ds (by omega) (by simpa using hr)]; rfl

theorem parseN_sound : ∀ (n : Nat) (cls : Option Nat) (data : List Nat) (ds : List (List Nat)), parseN n cls data = some ds →
    ds.flatten = data ∧ ConfFrom cls ds := by
  intro n
  induction n with
  | zero => intro cls data ds h; cases h
  | succ n ih =>
    intro cls data ds h
    rw [parseN] at h
    by_cases h0 : data = []
    · rw [if_pos h0] at h; cases h; exact ⟨h0.symm, trivial⟩
    · rw [if_neg h0] at h
      by_cases h1 : data.length < 2 ∨ data.length < data.getD 0 0
      · rw [if_pos h1] at h; cases h
      · rw [if_neg h1] at h
        simp only [not_or, Nat.not_lt] at h1
        have hlen : (data.take (data.getD 0 0)).length = data.getD 0 0 := by rw [List.length_take]; omega
        have fin : ∀ (cls' : Option Nat) (ds' : List (List Nat)), parseN n cls' (data.drop (data.getD 0 0)) = some ds' →
            SizeOk (data.take (data.getD 0 0)) →
            ((data.take (data.getD 0 0)).getD 1 0 = 0x24 → cls = some 2) →
            (cls' = if data.getD 1 0 = 2 then none else if data.getD 1 0 = 4 then some ((data.take (data.getD 0 0)).getD 5 0) else cls) →
            (data.take (data.getD 0 0) :: ds').flatten = data ∧ ConfFrom cls (data.take (data.getD 0 0) :: ds') := by
          intro cls' ds' hp hs hf hcls
          obtain ⟨hi1, hi2⟩ := ih _ _ _ hp
          refine ⟨by rw [List.flatten_cons, hi1, List.take_append_drop], hs, hf, ?_⟩
          have := sizeOk_pos hs
          rw [getD_take _ _ 1 (by omega), ← hcls]
          exact hi2
        have hd0 : 1 < data.getD 0 0 → (data.take (data.getD 0 0)).getD 0 0 = (data.take (data.getD 0 0)).length ∧
            (data.take (data.getD 0 0)).getD 1 0 = data.getD 1 0 := by
          intro hgt
          rw [getD_take _ _ 0 (by omega), getD_take _ _ 1 hgt, hlen]; exact ⟨rfl, rfl⟩
        simp only at h
        split at h
        · rename_i ht
          by_cases hl : (data.take (data.getD 0 0)).length = 9
          · rw [if_pos hl] at h
            obtain ⟨ds', hp, rfl⟩ := Option.map_eq_some_iff.1 h
            obtain ⟨ha, hb⟩ := hd0 (by omega)
            exact fin _ _ hp ⟨ha, Or.inl ⟨by rw [hb, ht], hl⟩⟩ (by rw [hb, ht]; intro h; cases h) (by rw [ht]; rfl)
          · rw [if_neg hl] at h; cases h
        · rename_i ht
          by_cases hl : (data.take (data.getD 0 0)).length = 9
          · rw [if_pos hl] at h
            obtain ⟨ds', hp, rfl⟩ := Option.map_eq_some_iff.1 h
            obtain ⟨ha, hb⟩ := hd0 (by omega)
            exact fin _ _ hp ⟨ha, Or.inr (Or.inl ⟨by rw [hb, ht], hl⟩)⟩ (by rw [hb, ht]; intro h; cases h) (by rw [ht]; rfl)
          · rw [if_neg hl] at h; cases h
        · rename_i ht
          by_cases hl : (data.take (data.getD 0 0)).length = 7
          · rw [if_pos hl] at h
            obtain ⟨ds', hp, rfl⟩ := Option.map_eq_some_iff.1 h
            obtain ⟨ha, hb⟩ := hd0 (by omega)
            exact fin _ _ hp ⟨ha, Or.inr (Or.inr (Or.inl ⟨by rw [hb, ht], hl⟩))⟩ (by rw [hb, ht]; intro h; cases h) (by rw [ht]; rfl)
          · rw [if_neg hl] at h; cases h
        · rename_i ht
          by_cases hl : functionalOk cls (data.take (data.getD 0 0)) = true
          · rw [if_pos hl] at h
            obtain ⟨ds', hp, rfl⟩ := Option.map_eq_some_iff.1 h
            obtain ⟨hc, hs⟩ := (functionalOk_iff _ _).1 hl
            obtain ⟨ha, hb⟩ := hd0 (by omega)
            exact fin _ _ hp ⟨ha, Or.inr (Or.inr (Or.inr ⟨by rw [hb, ht], hs⟩))⟩ (fun _ => hc) (by rw [ht]; rfl)
          · rw [if_neg hl] at h; cases h
        · cases h

/-- the class of the interface of the position after `ds` -/
def clsAfter (cls : Option Nat) (ds : List (List Nat)) : Option Nat :=
  ds.foldl (fun c d => if d.getD 1 0 = 2 then none else if d.getD 1 0 = 4 then some (d.getD 5 0) else c) cls

theorem confFrom_iff : ∀ (ds : List (List Nat)) (cls : Option Nat), ConfFrom cls ds ↔
    (∀ d ∈ ds, SizeOk d) ∧ ∀ i d, ds[i]? = some d → d.getD 1 0 = 0x24 → clsAfter cls (ds.take i) = some 2 := by
  intro ds
  induction ds with
  | nil => intro cls; simp [ConfFrom]
  | cons d ds ih =>
    intro cls
    rw [ConfFrom, ih]
    constructor
    · rintro ⟨h1, h2, h3, h4⟩
      refine ⟨by intro x hx; rcases List.mem_cons.1 hx with rfl | hx; exact h1; exact h3 x hx, ?_⟩
      intro i e he hf
      cases i with
      | zero => rw [List.getElem?_cons_zero] at he; cases he; exact h2 hf
      | succ i => rw [List.getElem?_cons_succ] at he; exact h4 i e he hf
    · rintro ⟨h1, h2⟩
      refine ⟨h1 d (by simp), fun hf => h2 0 d rfl hf, fun x hx => h1 x (by simp [hx]), ?_⟩
      intro i e he hf
      exact h2 (i + 1) e (by rw [List.getElem?_cons_succ]; exact he) hf

theorem clsAfter_cdc (ds : List (List Nat)) : ∀ i, i ≤ ds.length → (clsAfter none (ds.take i) = some 2 ↔ InCdc ds i) := by
  intro i
  induction i with
  | zero =>
    intro _
    constructor
    · intro h; cases h
    · rintro ⟨j, _, hj, _⟩; omega
  | succ i ih =>
    intro hi
    have hget : ds[i]? = some ds[i] := List.getElem?_eq_getElem (by omega)
    have hsnoc : ds.take (i + 1) = ds.take i ++ [ds[i]] := by rw [List.take_add_one, hget]; rfl
    have hstep : clsAfter none (ds.take (i + 1)) = if ds[i].getD 1 0 = 2 then none else
        if ds[i].getD 1 0 = 4 then some (ds[i].getD 5 0) else clsAfter none (ds.take i) := by
      rw [hsnoc]; unfold clsAfter; rw [List.foldl_append]; rfl
    rw [hstep]
    by_cases h2 : ds[i].getD 1 0 = 2
    · rw [if_pos h2]
      refine ⟨fun h => (by cases h), ?_⟩
      rintro ⟨j, d, hj, hd, h4, _, hk⟩
      by_cases hji : j = i
      · subst hji; rw [hget] at hd; cases hd; omega
      · exact absurd h2 (hk i _ (by omega) (by omega) hget).2
    · rw [if_neg h2]
      by_cases h4 : ds[i].getD 1 0 = 4
      · rw [if_pos h4]
        constructor
        · intro h
          exact ⟨i, ds[i], by omega, hget, h4, by simpa using h, by intro k _ _ _; omega⟩
        · rintro ⟨j, d, hj, hd, _, h5, hk⟩
          by_cases hji : j = i
          · subst hji; rw [hget] at hd; cases hd; rw [h5]
          · exact absurd h4 (hk i _ (by omega) (by omega) hget).1
      · rw [if_neg h4, ih (by omega)]
        constructor
        · rintro ⟨j, d, hj, hd, ha, hb, hk⟩
          refine ⟨j, d, by omega, hd, ha, hb, ?_⟩
          intro k e h1 h3 he
          by_cases hki : k = i
          · subst hki; rw [hget] at he; cases he; exact ⟨h4, h2⟩
          · exact hk k e h1 (by omega) he
        · rintro ⟨j, d, hj, hd, ha, hb, hk⟩
          have hji : j ≠ i := by rintro rfl; rw [hget] at hd; cases hd; exact h4 ha
          exact ⟨j, d, by omega, hd, ha, hb, fun k e h1 h3 he => hk k e h1 (by omega) he⟩

theorem confOk_iff (ds : List (List Nat)) : ConfFrom none ds ↔ ConfOk ds := by
  rw [confFrom_iff]
  unfold ConfOk
  refine and_congr_right fun _ => ?_
  constructor
  · intro h i d hd hf
    have hi : i < ds.length := by
      rcases Nat.lt_or_ge i ds.length with h | h
      · exact h
      · rw [List.getElem?_eq_none h] at hd; cases hd
    exact (clsAfter_cdc ds i (by omega)).1 (h i d hd hf)
  · intro h i d hd hf
    have hi : i < ds.length := by
      rcases Nat.lt_or_ge i ds.length with h | h
      · exact h
      · rw [List.getElem?_eq_none h] at hd; cases hd
    exact (clsAfter_cdc ds i (by omega)).2 (h i d hd hf)

/-- C387: the parser accepts exactly the bytes of the valid non empty lists of descriptors and returns the list; the functional
descriptors are accepted only in a communication interface. -/
theorem parse_iff (data : List Nat) (ds : List (List Nat)) :
    parse data = some ds ↔ ds ≠ [] ∧ ds.flatten = data ∧ ConfOk ds := by
  unfold parse
  constructor
  · intro h
    by_cases h0 : data = []
    · rw [if_pos h0] at h; cases h
    · rw [if_neg h0] at h
      obtain ⟨h1, h2⟩ := parseN_sound _ _ _ _ h
      refine ⟨?_, h1, (confOk_iff ds).1 h2⟩
      rintro rfl
      exact h0 h1.symm
  · rintro ⟨h0, rfl, h2⟩
    have hne : ds.flatten ≠ [] := by
      intro h
      cases ds with
      | nil => exact h0 rfl
      | cons d ds =>
        have := sizeOk_pos (h2.1 d (by simp))
        rw [List.flatten_cons, List.append_eq_nil_iff] at h
        rw [h.1] at this; simp at this
    rw [if_neg hne]
    exact parseN_complete _ _ _ (by omega) ((confOk_iff ds).2 h2)

/-- configuration, communication interface, header and union functional descriptors, endpoint -/
def conf : List (List Nat) :=
  [[9, 2, 35, 0, 1, 1, 0, 192, 50], [9, 4, 0, 0, 1, 2, 2, 1, 0], [5, 0x24, 0, 16, 1], [5, 0x24, 6, 0, 1], [7, 5, 130, 3, 8, 0, 10]]

example : parse conf.flatten = some conf := by decide +kernel
example : ConfOk conf := ((parse_iff conf.flatten conf).1 (by decide +kernel)).2.2
example : parse ([9, 2, 14, 0, 1, 1, 0, 192, 50] ++ [5, 0x24, 0, 16, 1]) = none := by decide +kernel
example : parse (conf.flatten.take 30) = none := by decide +kernel

/-! ## C388: enumeration -/

/-- a configuration: the configuration descriptor with the size of the whole configuration, interfaces and endpoints -/
structure ConfWf (l : List Descr) : Prop where
  head : ∃ c r, l = c :: r ∧ c.ty = 2 ∧ (∀ d ∈ r, d.ty ≠ 2) ∧
    c.bytes.getD 2 0 + 256 * c.bytes.getD 3 0 = (l.flatMap Descr.bytes).length
  ty : ∀ d ∈ l, d.ty = d.bytes.getD 1 0
  ok : ConfOk (l.map Descr.bytes)

/-- a device with configurations and strings -/
structure BundleWf (dev : Descr) (confs : List (List Descr)) (strs : List Descr) : Prop where
  ty : dev.ty = 1
  len : dev.bytes.length = 18
  mps : maxPacket dev.bytes ∈ [32, 64]
  num : dev.bytes.getD 17 0 = confs.length
  some : confs ≠ []
  conf : ∀ l ∈ confs, ConfWf l
  str : ∀ s ∈ strs, s.ty = 3 ∧ s.bytes.length % 2 = 0 ∧ 2 ≤ s.bytes.length ∧ s.bytes.length ≤ 255
  lang : ∃ s r, strs = s :: r ∧ 4 ≤ s.bytes.length ∧ s.bytes.getD 2 0 = 0x09 ∧ s.bytes.getD 3 0 = 0x04

/-- full statement of C388: after the enumeration the host has the descriptors of the device -/
def EnumSpec : Prop := ∀ dev confs strs, BundleWf dev confs strs →
  enumerate (dev :: confs.flatten ++ strs) = some ((dev :: confs.flatten ++ strs).map Descr.bytes)

theorem flatMap_bytes (l : List Descr) : l.flatMap Descr.bytes = (l.map Descr.bytes).flatten := by
  rw [List.flatMap_def]

theorem confWf_types {l : List Descr} (h : ConfWf l) : ∀ d ∈ l, d.ty ≠ 1 ∧ d.ty ≠ 3 ∧ d.ty ≠ 6 := by
  intro d hd
  obtain ⟨_, h'⟩ := h.ok.1 d.bytes (List.mem_map_of_mem hd)
  rw [h.ty d hd]
  obtain h' | h' | h' | h' := h' <;> omega

theorem filter_confs (confs : List (List Descr)) (h : ∀ l ∈ confs, ConfWf l) :
    (confs.flatten.filter fun d => d.ty == 2).length = confs.length := by
  induction confs with
  | nil => rfl
  | cons l confs ih =>
    obtain ⟨c, r, rfl, hc, hr, _⟩ := (h l (by simp)).head
    rw [List.flatten_cons, List.filter_append, List.length_append, ih fun l hl => h l (by simp [hl]),
      List.filter_cons_of_pos (by simp [hc]), List.filter_eq_nil_iff.2 (by intro d hd; simp [hr d hd]), List.length_cons]
    simp; omega

theorem filter_ne (l : List Descr) (t : Nat) (h : ∀ d ∈ l, d.ty ≠ t) : l.filter (fun d => d.ty == t) = [] :=
  List.filter_eq_nil_iff.2 (by intro d hd; simp [h d hd])

theorem confLoop_eq (dev : Descr) (m : Nat) (hm : 0 < m) (hty : dev.ty = 1) (strs : List Descr) :
    ∀ (B A : List (List Descr)), (∀ l ∈ A ++ B, ConfWf l) →
    confLoop (dev :: (A ++ B).flatten ++ strs) m A.length B.length = some (B.flatten.map Descr.bytes) := by
  intro B
  induction B with
  | nil => intro A _; rfl
  | cons l B ih =>
    intro A hw
    have hl := hw l (by simp)
    obtain ⟨c, r, hlc, hc, hr, hsz⟩ := hl.head
    have hc9 : c.bytes.length = 9 := by
      obtain ⟨_, h'⟩ := hl.ok.1 c.bytes (List.mem_map_of_mem (by rw [hlc]; simp))
      have hcty := hl.ty c (by rw [hlc]; simp)
      rw [← hcty, hc] at h'
      obtain h' | h' | h' | h' := h' <;> omega
    have hds : dev :: (A ++ l :: B).flatten ++ strs = (dev :: A.flatten) ++ c :: (r ++ (B.flatten ++ strs)) := by
      rw [hlc]; simp
    have hcount : ((dev :: A.flatten).filter fun d => d.ty == 2).length = A.length := by
      rw [List.filter_cons_of_neg (by simp [hty]), filter_confs A fun x hx => hw x (by simp [hx])]
    have hflat : (c :: (r ++ (B.flatten ++ strs))).flatMap Descr.bytes =
        l.flatMap Descr.bytes ++ (B.flatten ++ strs).flatMap Descr.bytes := by
      rw [hlc, ← List.cons_append, List.flatMap_append]
    have hll : 9 ≤ (l.flatMap Descr.bytes).length := by
      rw [hlc, List.flatMap_cons, List.length_append]; omega
    have hs1 : downloadSized (dev :: (A ++ l :: B).flatten ++ strs) m m 2 A.length 9 = some c.bytes := by
      unfold downloadSized
      rw [hds, download_ok _ _ _ m 2 _ 9 hm hcount hc, List.flatMap_cons, List.take_append_of_le_length (by omega),
        List.take_of_length_le (by omega)]
      simp [hc9]
    have hs2 : downloadSized (dev :: (A ++ l :: B).flatten ++ strs) m m 2 A.length (l.flatMap Descr.bytes).length =
        some (l.flatMap Descr.bytes) := by
      unfold downloadSized
      rw [hds, download_ok _ _ _ m 2 _ _ hm hcount hc, hflat, List.take_left]
      simp
    have hp : parse (l.flatMap Descr.bytes) = some (l.map Descr.bytes) :=
      (parse_iff _ _).2 ⟨by rw [hlc]; simp, (flatMap_bytes l).symm, hl.ok⟩
    rw [List.length_cons, confLoop, hs1]
    simp only
    rw [hsz, hs2]
    simp only
    rw [hp]
    simp only
    have hi := ih (A ++ [l]) (by intro x hx; exact hw x (by simpa using hx))
    rw [List.append_assoc, List.singleton_append, List.length_append, List.length_singleton] at hi
    rw [hi]
    simp

/-- strings which the host gets: each one is followed by the next ones -/
def suffixes : List Descr → List (List Nat)
  | [] => []
  | s :: r => (s :: r).flatMap Descr.bytes :: suffixes r

theorem strLoop_eq (pre : List Descr) (m : Nat) (hm : 0 < m) (hpre : ∀ d ∈ pre, d.ty ≠ 3) :
    ∀ (B A : List Descr) (n : Nat) (lang : Option Nat), (∀ s ∈ A ++ B, s.ty = 3) → (∀ s ∈ B, s.bytes.length % 2 = 0 ∧ 2 ≤ s.bytes.length) →
    (B.flatMap Descr.bytes).length ≤ 255 → B.length < n → 0 < A.length → lang = some 0x0409 →
    strLoop (pre ++ (A ++ B)) m A.length n lang = some (suffixes B) := by
  intro B
  induction B with
  | nil =>
    intro A n lang h3 _ _ hn hA hlang
    obtain ⟨n, rfl⟩ : ∃ k, n = k + 1 := ⟨n - 1, by simp at hn; omega⟩
    have : download (pre ++ (A ++ [])) m m 3 A.length 255 = some .stall := by
      unfold download getDescriptor
      rw [findFrom_none]
      rw [List.filter_append, filter_ne pre 3 hpre, List.append_nil, List.nil_append]
      exact List.length_filter_le _ _
    rw [strLoop, if_neg (by rintro ⟨_, h⟩; exact h hlang), this]
    simp only
    rw [if_neg (by omega)]; rfl
  | cons s B ih =>
    intro A n lang h3 hs hl hn hA hlang
    obtain ⟨n, rfl⟩ : ∃ k, n = k + 1 := ⟨n - 1, by simp at hn; omega⟩
    have hcount : ((pre ++ A).filter fun d => d.ty == 3).length = A.length := by
      rw [List.filter_append, filter_ne pre 3 hpre, List.nil_append,
        List.filter_eq_self.2 (by intro d hd; simp [h3 d (by simp [hd])])]
    have hdl := download_ok (pre ++ A) B s m 3 A.length 255 hm hcount (h3 s (by simp))
    rw [List.take_of_length_le hl] at hdl
    have heven : ((s :: B).flatMap Descr.bytes).length % 2 = 0 := by
      have : ∀ (l : List Descr), (∀ s ∈ l, s.bytes.length % 2 = 0 ∧ 2 ≤ s.bytes.length) → (l.flatMap Descr.bytes).length % 2 = 0 := by
        intro l
        induction l with
        | nil => intro _; rfl
        | cons a l ih =>
          intro h
          rw [List.flatMap_cons, List.length_append]
          have h1 := (h a (by simp)).1
          have h2 := ih fun x hx => h x (by simp [hx])
          omega
      exact this _ hs
    have h2 : 2 ≤ ((s :: B).flatMap Descr.bytes).length := by
      rw [List.flatMap_cons, List.length_append]; have := (hs s (by simp)).2; omega
    have hi := ih (A ++ [s]) n lang (by intro x hx; exact h3 x (by simpa using hx)) (fun x hx => hs x (by simp [hx]))
      (by rw [List.flatMap_cons, List.length_append] at hl; omega) (by simpa using hn) (by simp) hlang
    rw [List.append_assoc, List.singleton_append, List.length_append, List.length_singleton] at hi
    rw [strLoop, if_neg (by rintro ⟨_, h⟩; exact h hlang)]
    rw [List.append_assoc] at hdl
    rw [hdl]
    simp only
    rw [if_neg (by omega), if_neg (by omega : A.length ≠ 0), hi]; rfl

theorem suffixes_first (s : Descr) (r : List Descr) (pre : List Descr) (m : Nat) (hm : 0 < m) (hpre : ∀ d ∈ pre, d.ty ≠ 3)
    (h3 : ∀ x ∈ s :: r, x.ty = 3) (he : ∀ x ∈ s :: r, x.bytes.length % 2 = 0 ∧ 2 ≤ x.bytes.length)
    (hl : ((s :: r).flatMap Descr.bytes).length ≤ 255) (h4 : 4 ≤ s.bytes.length) (hb2 : s.bytes.getD 2 0 = 0x09)
    (hb3 : s.bytes.getD 3 0 = 0x04) (hr : r.length < 254) :
    strLoop (pre ++ s :: r) m 0 255 none = some (suffixes (s :: r)) := by
  have hdl := download_ok pre r s m 3 0 255 hm (by rw [filter_ne pre 3 hpre]; rfl) (h3 s (by simp))
  rw [List.take_of_length_le hl] at hdl
  have heven : ((s :: r).flatMap Descr.bytes).length % 2 = 0 := by
    have : ∀ (l : List Descr), (∀ s ∈ l, s.bytes.length % 2 = 0 ∧ 2 ≤ s.bytes.length) → (l.flatMap Descr.bytes).length % 2 = 0 := by
      intro l
      induction l with
      | nil => intro _; rfl
      | cons a l ih =>
        intro h
        rw [List.flatMap_cons, List.length_append]
        have h1 := (h a (by simp)).1
        have h2 := ih fun x hx => h x (by simp [hx])
        omega
    exact this _ he
  have hge : 4 ≤ ((s :: r).flatMap Descr.bytes).length := by
    rw [List.flatMap_cons, List.length_append]; omega
  have hi := strLoop_eq pre m hm hpre r [s] 254 (some 0x0409) (by simpa using h3) (fun x hx => he x (by simp [hx]))
    (by rw [List.flatMap_cons, List.length_append] at hl; omega) hr (by simp) rfl
  rw [strLoop, if_neg (by rintro ⟨h, _⟩; exact h rfl), hdl]
  simp only
  rw [if_neg (by omega), if_pos trivial, if_neg (by omega)]
  have hg : ∀ i, i < 4 → ((s :: r).flatMap Descr.bytes).getD i 0 = s.bytes.getD i 0 := by
    intro i hi; rw [List.flatMap_cons]; exact getD_append _ _ _ (by omega)
  rw [hg 2 (by omega), hg 3 (by omega), hb2, hb3]
  simp only [List.singleton_append, List.length_singleton] at hi
  rw [show (0x09 + 256 * 0x04) = 0x0409 from rfl, hi]; rfl

/-- C388 (partial): if the strings have together at most 255 bytes the host gets the device descriptor and the descriptors of all
configurations, but each string is followed by all next strings; the host has the descriptors of the device exactly if there is
only one string (the languages). -/
theorem enum_partial (dev : Descr) (confs : List (List Descr)) (strs : List Descr) (h : BundleWf dev confs strs)
    (hl : (strs.flatMap Descr.bytes).length ≤ 255) :
    enumerate (dev :: confs.flatten ++ strs) = some ((dev :: confs.flatten).map Descr.bytes ++ suffixes strs) ∧
    (enumerate (dev :: confs.flatten ++ strs) = some ((dev :: confs.flatten ++ strs).map Descr.bytes) ↔ strs.length = 1) := by
  have hm18 : 18 < maxPacket dev.bytes := by have := h.mps; simp at this; omega
  have hdev : downloadDevice (dev :: confs.flatten ++ strs) = some dev.bytes :=
    ((device_partial dev (confs.flatten ++ strs) h.ty h.len (by omega)).1).2 hm18
  have hconf := confLoop_eq dev (maxPacket dev.bytes) (by omega) h.ty strs confs [] (by simpa using h.conf)
  rw [List.nil_append, List.length_nil] at hconf
  have hct : ∀ d ∈ confs.flatten, d.ty ≠ 1 ∧ d.ty ≠ 3 ∧ d.ty ≠ 6 := by
    intro d hd
    obtain ⟨l, hl1, hl2⟩ := List.mem_flatten.1 hd
    exact confWf_types (h.conf l hl1) d hl2
  have hqual : download (dev :: confs.flatten ++ strs) (maxPacket dev.bytes) (maxPacket dev.bytes) 6 0 10 = some .stall := by
    unfold download getDescriptor
    rw [findFrom_none]
    rw [filter_ne]; · simp
    intro d hd
    rcases List.mem_append.1 hd with hd | hd
    · rcases List.mem_cons.1 hd with rfl | hd
      · rw [h.ty]; omega
      · exact (hct d hd).2.2
    · rw [(h.str d hd).1]; omega
  obtain ⟨s, r, hsr, h4, hb2, hb3⟩ := h.lang
  have hcnt : ∀ (l : List Descr), (∀ s ∈ l, 2 ≤ s.bytes.length) → 2 * l.length ≤ (l.flatMap Descr.bytes).length := by
    intro l
    induction l with
    | nil => intro _; simp
    | cons a l ih =>
      intro hh
      have := hh a (by simp)
      have := ih fun x hx => hh x (by simp [hx])
      rw [List.flatMap_cons, List.length_append, List.length_cons]; omega
  have hn := hcnt strs fun x hx => (h.str x hx).2.2.1
  have hstr := suffixes_first s r (dev :: confs.flatten) (maxPacket dev.bytes) (by omega)
    (by
      intro d hd
      rcases List.mem_cons.1 hd with rfl | hd
      · rw [h.ty]; omega
      · exact (hct d hd).2.1)
    (by intro x hx; exact (h.str x (hsr ▸ hx)).1)
    (by intro x hx; exact ⟨(h.str x (hsr ▸ hx)).2.1, (h.str x (hsr ▸ hx)).2.2.1⟩) (hsr ▸ hl) h4 hb2 hb3
    (by rw [hsr, List.length_cons] at hn; rw [hsr] at hl; omega)
  rw [← hsr] at hstr
  have hres : enumerate (dev :: confs.flatten ++ strs) = some ((dev :: confs.flatten).map Descr.bytes ++ suffixes strs) := by
    unfold enumerate
    rw [hdev]
    simp only
    have hne : dev.bytes.getD 17 0 ≠ 0 := by
      rw [h.num]; have := h.some; intro h0; exact this (List.length_eq_zero_iff.1 h0)
    rw [if_neg hne, h.num, hconf]
    simp only
    rw [hqual]
    simp only
    rw [hstr]
    simp
  refine ⟨hres, ?_⟩
  rw [hres, List.map_append, Option.some.injEq, List.append_cancel_left_eq, hsr]
  constructor
  · intro heq
    cases r with
    | nil => rfl
    | cons r0 r =>
      exfalso
      rw [suffixes, List.map_cons, List.cons.injEq] at heq
      have h1 := congrArg List.length heq.1
      rw [List.flatMap_cons, List.flatMap_cons, List.length_append, List.length_append] at h1
      have := (h.str r0 (by rw [hsr]; simp)).2.2.1
      omega
  · intro h1
    cases r with
    | nil => simp [suffixes]
    | cons _ _ => simp at h1

def dev64 : Descr := ⟨1, devBytes 64, .device 64⟩
def confD : List Descr := conf.map fun b => ⟨b.getD 1 0, b, .other⟩
def str0 : Descr := ⟨3, [4, 3, 9, 4], .other⟩
/-- `make_usb_descriptor_string("M")` -/
def str1 : Descr := ⟨3, [6, 3, 0xFF, 0xFE, 0x4D, 0], .other⟩

theorem bundle_wf (strs : List Descr) (h : strs = [str0] ∨ strs = [str0, str1]) : BundleWf dev64 [confD] strs where
  ty := rfl
  len := rfl
  mps := by decide
  num := rfl
  some := by simp
  conf := by
    intro l hl
    rw [List.mem_singleton] at hl
    subst hl
    refine ⟨⟨_, _, rfl, rfl, by decide, by decide⟩, by decide, ?_⟩
    exact ((parse_iff conf.flatten conf).1 (by decide +kernel)).2.2
  str := by rcases h with rfl | rfl <;> decide
  lang := by
    rcases h with rfl | rfl
    · exact ⟨str0, [], rfl, by decide, rfl, rfl⟩
    · exact ⟨str0, [str1], rfl, by decide, rfl, rfl⟩

theorem enum_violated : ¬ EnumSpec := by
  intro h
  have hw := bundle_wf [str0, str1] (Or.inr rfl)
  have h1 := h _ _ _ hw
  exact absurd (((enum_partial _ _ _ hw (by decide)).2).1 h1) (by decide)

example : BundleWf dev64 [confD] [str0] ∧ ([str0].flatMap Descr.bytes).length ≤ 255 := ⟨bundle_wf _ (Or.inl rfl), by decide⟩
example : enumerate (dev64 :: [confD].flatten ++ [str0]) = some ((dev64 :: [confD].flatten ++ [str0]).map Descr.bytes) :=
  (enum_partial _ _ _ (bundle_wf _ (Or.inl rfl)) (by decide)).2.2 rfl
/-- the host gets the string `"M"` also in the language descriptor -/
example : enumerate (dev64 :: [confD].flatten ++ [str0, str1]) =
    some ((dev64 :: [confD].flatten).map Descr.bytes ++ [[4, 3, 9, 4, 6, 3, 0xFF, 0xFE, 0x4D, 0], [6, 3, 0xFF, 0xFE, 0x4D, 0]]) :=
  (enum_partial _ _ _ (bundle_wf _ (Or.inr rfl)) (by decide)).1

end Verif.UsbXfer
