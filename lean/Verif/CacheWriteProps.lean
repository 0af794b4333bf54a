import Verif.CacheWrite
import Verif.CacheTagArrayProps
import Mathlib.Data.List.Induction

/-!
# Properties of the write path of `AxiCacheWriteAllocWawOnlyWritePropagating` (C220 - C222)
-/

namespace Verif.CacheWrite

open Verif CacheTagArray

abbrev Tr := List (In × Out)

/-- addresses of accepted writes -/
def accepted (tr : Tr) : List Nat := tr.filterMap fun p => if p.1.awVld && p.2.awRd then some p.1.awAddr else none
/-- transactions to the data array -/
def das (tr : Tr) : List Da := tr.filterMap fun p => if p.2.daVld && p.1.daRd then some p.2.da else none

/-- tags of the lines which are in the data array after the transactions -/
def owner (c : Cfg) (l : List (Nat × Da)) : Nat → Nat → Option Nat :=
  l.foldl (fun o p => fun i w => if i = p.2.idx ∧ w = p.2.way then some (tagOf c p.1) else o i w) fun _ _ => none

/-- No line is lost or duplicated by the transaction of `a` after transactions `l`: if the place has another line then it is flushed to its own
address, nothing else is flushed, and a line which is in the cache is written to its place. -/
def SafeStep (c : Cfg) (l : List (Nat × Da)) (a : Nat) (d : Da) : Prop :=
  d.idx = idxOf c a ∧ d.way < c.WAY_CNT ∧
  (∀ t, owner c l d.idx d.way = some t → t ≠ tagOf c a → d.flush = true ∧ d.victimTag = t) ∧
  (d.flush = true → ∃ t, owner c l d.idx d.way = some t ∧ d.victimTag = t ∧ t ≠ tagOf c a) ∧
  (∀ w < c.WAY_CNT, owner c l d.idx w = some (tagOf c a) → w = d.way)

def Safe (c : Cfg) (l : List (Nat × Da)) : Prop := ∀ pre a d post, l = pre ++ (a, d) :: post → SafeStep c pre a d

/-- the transactions with the addresses of the writes, in order -/
def log (tr : Tr) : List (Nat × Da) := (accepted tr).zip (das tr)

/-- accepted writes which were not sent to the data array yet -/
def inFlight (tr : Tr) : List Nat := (accepted tr).drop (das tr).length

/-- a write is accepted only if no write to the same set is in flight -/
def Spaced (c : Cfg) (tr : Tr) : Prop :=
  ∀ pre p post, tr = pre ++ p :: post → p.1.awVld = true → p.2.awRd = true → ∀ a ∈ inFlight pre, idxOf c a ≠ idxOf c p.1.awAddr

/-- the way to be replaced is known when the data array is ready -/
def VictimReady (c : Cfg) (p : In × Out) : Prop :=
  p.2.da.flush = true → p.1.daRd = true → p.1.vdVld = true ∧ p.1.vdData < c.WAY_CNT

/-- signals of the write path in a run of the composition with the LRU array -/
def sysTr (c : Cfg) (s : SysSt) (is : List In) : Tr := ((sys c).trace s is).map (·.2)

/-- full statement -/
def AlwaysSafe (c : Cfg) : Prop :=
  ∀ s, SysInit s → ∀ is : List In, (∀ x ∈ is, x.vdData < c.WAY_CNT) → Safe c (log (sysTr c s is))

/-! ## Invariant -/

/-- addresses in the pipeline, the oldest first -/
def pipe (s : St) : List Nat := (if s.vld then [s.st0.addr] else []) ++ (if s.ta.lkVld then [s.ta.lkAddr] else [])

structure Inv (c : Cfg) (tr : Tr) (m : Mem) (s : St) : Prop where
  acc : ∃ done, accepted tr = done ++ pipe s ∧ done.length = (das tr).length
  safe : Safe c (log tr)
  ta : CacheTagArray.Inv c m s.ta
  own : ∀ i, ∀ w < c.WAY_CNT, owner c (log tr) i w = if (m i w).valid then some (m i w).tag else none
  uniq : ∀ i, ∀ w < c.WAY_CNT, ∀ v < c.WAY_CNT, (m i w).valid = true → (m i v).valid = true → (m i w).tag = (m i v).tag → w = v
  tags : s.vld = true → ∀ w < c.WAY_CNT, s.st0.tags w = m (idxOf c s.st0.addr) w
  empty : s.vld = true → s.st0.hadEmpty = hasEmpty c (m (idxOf c s.st0.addr))
  found : s.vld = true → (s.st0.found = true ↔ ∃ w < c.WAY_CNT, Holds c m s.st0.addr w)
  way : s.vld = true → s.st0.found = true → s.st0.foundWay < c.WAY_CNT ∧ Holds c m s.st0.addr s.st0.foundWay
  dist : s.vld = true → s.ta.lkVld = true → idxOf c s.st0.addr ≠ idxOf c s.ta.lkAddr
  upd : s.ta.upd.vld = true → s.ta.lkVld = true → idxOf c s.ta.lkAddr ≠ idxOf c s.ta.upd.addr

theorem accepted_snoc (tr : Tr) (p : In × Out) :
    accepted (tr ++ [p]) = accepted tr ++ if p.1.awVld && p.2.awRd then [p.1.awAddr] else [] := by
  simp only [accepted, List.filterMap_append, List.filterMap_cons, List.filterMap_nil]
  cases p.1.awVld && p.2.awRd <;> rfl

theorem das_snoc (tr : Tr) (p : In × Out) : das (tr ++ [p]) = das tr ++ if p.2.daVld && p.1.daRd then [p.2.da] else [] := by
  simp only [das, List.filterMap_append, List.filterMap_cons, List.filterMap_nil]
  cases p.2.daVld && p.1.daRd <;> rfl

theorem owner_snoc (c : Cfg) (l : List (Nat × Da)) (a : Nat) (d : Da) (i w : Nat) :
    owner c (l ++ [(a, d)]) i w = if i = d.idx ∧ w = d.way then some (tagOf c a) else owner c l i w := by
  simp only [owner, List.foldl_append, List.foldl_cons, List.foldl_nil]

theorem safe_snoc {c : Cfg} {l : List (Nat × Da)} {a : Nat} {d : Da} (h : Safe c l) (h' : SafeStep c l a d) : Safe c (l ++ [(a, d)]) := by
  intro pre b e post he
  rcases List.eq_nil_or_concat post with hp | ⟨q, y, hp⟩
  · subst hp
    have := List.append_inj' he rfl
    obtain ⟨h1, h2⟩ := this
    cases h2
    rw [← h1]; exact h'
  · subst hp
    rw [List.concat_eq_append, ← List.cons_append, ← List.append_assoc] at he
    obtain ⟨h1, -⟩ := List.append_inj' he rfl
    exact h pre b e q h1

theorem zip_snoc_left {α β : Type} (as : List α) (bs : List β) (a : List α) (h : bs.length ≤ as.length) : (as ++ a).zip bs = as.zip bs := by
  induction bs generalizing as with
  | nil => simp
  | cons y bs ih =>
    cases as with
    | nil => simp at h
    | cons x as => simp at h; simp [ih as h]

theorem zip_snoc_right {α β : Type} (as : List α) (bs : List β) (b : β) (a : α) (h : as[bs.length]? = some a) :
    as.zip (bs ++ [b]) = as.zip bs ++ [(a, b)] := by
  induction bs generalizing as with
  | nil =>
    cases as with
    | nil => simp at h
    | cons x as => simp at h; simp [h]
  | cons y bs ih =>
    cases as with
    | nil => simp at h
    | cons x as => simp at h; simp [ih as h]

theorem inFlight_eq {c : Cfg} {tr : Tr} {m : Mem} {s : St} (hi : Inv c tr m s) : inFlight tr = pipe s := by
  obtain ⟨d, h1, h2⟩ := hi.acc
  rw [inFlight, h1, ← h2, List.drop_left]

/-- with a known victim the tags are updated exactly when the transaction is taken -/
theorem fire_eq {c : Cfg} {s : St} {x : In} (hv : VictimReady c (x, out c s x)) : (daVld s x && x.daRd) = (s.vld && x.daRd) := by
  unfold VictimReady at hv
  simp only [out] at hv
  unfold daVld skipV
  cases h1 : s.vld <;> cases h2 : x.daRd <;> cases h3 : s.st0.found <;> cases h4 : s.st0.hadEmpty <;> simp [h1, h2, h3, h4] at hv ⊢
  exact hv.1

theorem hasEmpty_iff {c : Cfg} {t : Nat → Rec} : hasEmpty c t = true ↔ ∃ w < c.WAY_CNT, (t w).valid = false := by
  simp [hasEmpty]

theorem hasEmpty_congr {c : Cfg} {t u : Nat → Rec} (h : ∀ w < c.WAY_CNT, t w = u w) : hasEmpty c t = hasEmpty c u := by
  rw [Bool.eq_iff_iff, hasEmpty_iff, hasEmpty_iff]
  constructor <;> rintro ⟨w, hw, h'⟩ <;> refine ⟨w, hw, ?_⟩
  · rw [← h w hw]; exact h'
  · rw [h w hw]; exact h'

/-- the place of the line and its victim -/
theorem victim_spec {c : Cfg} {tr : Tr} {m : Mem} {s : St} {x : In} (hi : Inv c tr m s) (hv : VictimReady c (x, out c s x))
    (h : s.vld = true) (hd : x.daRd = true) :
    victimWay c s.st0 x.vdData < c.WAY_CNT ∧
    (s.st0.found = true → Holds c m s.st0.addr (victimWay c s.st0 x.vdData)) ∧
    (s.st0.found = false → s.st0.hadEmpty = true → (m (idxOf c s.st0.addr) (victimWay c s.st0 x.vdData)).valid = false) ∧
    (s.st0.found = false → s.st0.hadEmpty = false →
      (m (idxOf c s.st0.addr) (victimWay c s.st0 x.vdData)) = ⟨(victim c s.st0 x.vdData).2, true⟩) := by
  unfold VictimReady at hv
  simp only [out, h, Bool.true_and] at hv
  have ht := hi.tags h
  have he := hi.empty h
  cases hf : s.st0.found with
  | true =>
    have := hi.way h hf
    simp [victimWay, hf, this]
  | false =>
    cases hE : s.st0.hadEmpty with
    | true =>
      rw [hE] at he
      obtain ⟨w, hw, hw'⟩ := hasEmpty_iff.1 he.symm
      simp only [victimWay, hf, victim]
      cases hq : (List.range c.WAY_CNT).find? fun i => !(s.st0.tags i).valid with
      | none =>
        have := List.find?_eq_none.1 hq w (List.mem_range.2 hw)
        rw [ht w hw, hw'] at this
        exact absurd rfl this
      | some v =>
        have hm := List.mem_range.1 (List.mem_of_find?_eq_some hq)
        have hp := List.find?_some hq
        rw [ht v hm] at hp
        simpa [hm] using hp
    | false =>
      rw [hE] at he
      have hall : ∀ w < c.WAY_CNT, (m (idxOf c s.st0.addr) w).valid = true := by
        intro w hw
        cases hq : (m (idxOf c s.st0.addr) w).valid with
        | true => rfl
        | false =>
          have := hasEmpty_iff.2 ⟨w, hw, hq⟩
          rw [← he] at this; cases this
      rw [hf, hE] at hv
      obtain ⟨-, hlt⟩ := hv rfl hd
      have hq : ((List.range c.WAY_CNT).find? fun i => !(s.st0.tags i).valid) = none := by
        rw [List.find?_eq_none]
        intro w hw
        rw [ht w (List.mem_range.1 hw), hall w (List.mem_range.1 hw)]
        simp
      simp only [victimWay, hf, victim, hq]
      refine ⟨hlt, by simp, by simp, fun _ _ => ?_⟩
      have := hall x.vdData hlt
      simp only [ht x.vdData hlt]
      cases hr : m (idxOf c s.st0.addr) x.vdData with
      | mk t v => rw [hr] at this; cases this; simp [hr]

theorem da_way (c : Cfg) (s : St) (x : In) : (out c s x).da.way = victimWay c s.st0 x.vdData := by
  simp only [out, victimWay]
  cases s.st0.found <;> rfl

theorem fire_safe {c : Cfg} {tr : Tr} {m : Mem} {s : St} {x : In} (hi : Inv c tr m s) (hv : VictimReady c (x, out c s x))
    (h : s.vld = true) (hd : x.daRd = true) : SafeStep c (log tr) s.st0.addr (out c s x).da := by
  obtain ⟨hlt, h1, h2, h3⟩ := victim_spec hi hv h hd
  have hF : (out c s x).da.flush = (!s.st0.hadEmpty && !s.st0.found) := by simp [out, h]
  have hT : (out c s x).da.victimTag = (victim c s.st0 x.vdData).2 := rfl
  have hI : (out c s x).da.idx = idxOf c s.st0.addr := rfl
  unfold SafeStep
  rw [da_way, hF, hT, hI, hi.own _ _ hlt]
  have hfound := hi.found h
  refine ⟨rfl, hlt, ?_, ?_, ?_⟩
  · intro t ho hne
    cases hf : s.st0.found with
    | true =>
      have hh := h1 hf
      unfold Holds at hh
      rw [hh] at ho
      simp at ho
      exact absurd ho.symm hne
    | false =>
      cases hE : s.st0.hadEmpty with
      | true => rw [h2 hf hE] at ho; simp at ho
      | false => rw [h3 hf hE] at ho; simpa using ho
  · intro hfl
    cases hf : s.st0.found with
    | true => rw [hf] at hfl; simp at hfl
    | false =>
      cases hE : s.st0.hadEmpty with
      | true => rw [hE] at hfl; simp at hfl
      | false =>
        have hh := h3 hf hE
        refine ⟨_, by rw [hh]; rfl, rfl, ?_⟩
        intro he
        have : s.st0.found = true := hfound.2 ⟨_, hlt, by unfold Holds; rw [hh, he]⟩
        rw [hf] at this; cases this
  · intro w hw ho
    rw [hi.own _ _ hw] at ho
    have hh : Holds c m s.st0.addr w := by
      unfold Holds
      cases hr : m (idxOf c s.st0.addr) w with
      | mk t v =>
        rw [hr] at ho
        cases v with
        | false => simp at ho
        | true => simp at ho; rw [ho]
    have hf := hfound.2 ⟨w, hw, hh⟩
    have hh2 := h1 hf
    unfold Holds at hh hh2
    exact hi.uniq _ w hw _ hlt (by rw [hh]) (by rw [hh2]) (by rw [hh, hh2])

theorem lk_next {c : Cfg} {s : St} {x : In} (h : (next c s x).ta.lkVld = true) :
    ((x.awVld && (out c s x).awRd) = true ∧ (next c s x).ta.lkAddr = x.awAddr) ∨
    ((x.awVld && (out c s x).awRd) = false ∧ s.ta.lkVld = true ∧ resRd c s x = false ∧ (next c s x).ta.lkAddr = s.ta.lkAddr) := by
  simp only [next, CacheTagArray.next, out, CacheTagArray.out, lkRd, taIn, taIn0] at h ⊢
  rcases Bool.eq_false_or_eq_true (resRd c s x) with h3 | h3 <;> rcases Bool.eq_false_or_eq_true s.ta.lkVld with h4 | h4 <;>
    rcases Bool.eq_false_or_eq_true x.awVld with h1 | h1 <;> rcases Bool.eq_false_or_eq_true x.rcRd with h2 | h2 <;>
    simp [h1, h2, h3, h4] at h ⊢

theorem pipe_next (c : Cfg) (s : St) (x : In) (hf : (daVld s x && x.daRd) = (s.vld && x.daRd)) :
    (if s.vld && x.daRd then [s.st0.addr] else []) ++ pipe (next c s x) =
      pipe s ++ if x.awVld && (out c s x).awRd then [x.awAddr] else [] := by
  have hst : (s.vld && st0Rd s x) = (s.vld && x.daRd) := by
    rw [← hf]; unfold st0Rd daVld
    cases s.vld <;> simp
  have hin : st0InRd s x = (!s.vld || x.daRd) := by
    unfold st0InRd
    cases h : s.vld
    · rfl
    · rw [h] at hst; simpa using hst
  simp only [pipe, next, CacheTagArray.next, out, CacheTagArray.out, lkRd, taIn, taIn0, resRd, hin, res]
  generalize skipR c s x = k
  generalize x.vrRd = v
  generalize hkv : (v || k) = kv
  generalize s.ta.lkVld = l
  generalize x.awVld = a
  generalize x.rcRd = rc
  generalize x.daRd = d
  generalize s.vld = sv
  cases sv <;> cases d <;> cases l <;> cases kv <;> cases a <;> cases rc <;> rfl

theorem log_snoc {c : Cfg} {tr : Tr} {m : Mem} {s : St} {x : In} (hi : Inv c tr m s) (hv : VictimReady c (x, out c s x)) :
    log (tr ++ [(x, out c s x)]) = log tr ++ if s.vld && x.daRd then [(s.st0.addr, (out c s x).da)] else [] := by
  obtain ⟨d, h1, h2⟩ := hi.acc
  have hf := fire_eq hv
  have hd : (out c s x).daVld = daVld s x := rfl
  unfold log
  rw [accepted_snoc, das_snoc]
  simp only [hd, hf]
  cases h : (s.vld && x.daRd) with
  | false =>
    simp only [Bool.false_eq_true, if_false, List.append_nil]
    exact zip_snoc_left _ _ _ (by rw [h1, ← h2]; simp)
  | true =>
    have hvld : s.vld = true := by simp only [Bool.and_eq_true] at h; exact h.1
    have hp : pipe s = s.st0.addr :: (if s.ta.lkVld then [s.ta.lkAddr] else []) := by simp [pipe, hvld]
    simp only [if_true]
    rw [zip_snoc_left _ _ _ (by rw [h1, hp]; simp [h2]), zip_snoc_right _ _ _ s.st0.addr]
    rw [h1, hp, ← h2]; simp

theorem write_off {c : Cfg} {s : St} {x : In} {m : Mem} (h : (s.vld && x.daRd) = false) : write c (tagUpd c s x) m = m := by
  funext i w
  simp [write, tagUpd, h]

theorem write_other {c : Cfg} {s : St} {x : In} {m : Mem} {i : Nat} (h : s.vld = true → i ≠ idxOf c s.st0.addr) :
    write c (tagUpd c s x) m i = m i := by
  funext w
  simp only [write, tagUpd]
  rcases Bool.eq_false_or_eq_true s.vld with hv | hv
  · simp [h hv]
  · simp [hv]

theorem inv_step {c : Cfg} {tr : Tr} {m : Mem} {s : St} {x : In} (hi : Inv c tr m s) (hv : VictimReady c (x, out c s x))
    (hsp : (x.awVld && (out c s x).awRd) = true → ∀ a ∈ pipe s, idxOf c a ≠ idxOf c x.awAddr) :
    Inv c (tr ++ [(x, out c s x)]) (write c (tagUpd c s x) m) (next c s x) := by
  have hf := fire_eq hv
  have hlog := log_snoc hi hv
  have hres : (res c s x).vld = s.ta.lkVld := rfl
  have mem0 : s.vld = true → s.st0.addr ∈ pipe s := fun h => by simp [pipe, h]
  have mem1 : s.ta.lkVld = true → s.ta.lkAddr ∈ pipe s := fun h => by simp [pipe, h]
  -- the lookup which is in the tag array in the next cycle is not for the set of the previous stage
  have hlk : s.vld = true → (next c s x).ta.lkVld = true → idxOf c s.st0.addr ≠ idxOf c (next c s x).ta.lkAddr := by
    intro h1 h2
    rcases lk_next h2 with ⟨h3, h4⟩ | ⟨-, h3, -, h4⟩
    · rw [h4]; exact hsp h3 _ (mem0 h1)
    · rw [h4]; exact hi.dist h1 h3
  -- state of the second stage in the next cycle
  have hst : (next c s x).vld = true →
      (s.vld = true ∧ (s.vld && x.daRd) = false ∧ (next c s x).st0 = s.st0) ∨
      (s.ta.lkVld = true ∧ resRd c s x = true ∧ (next c s x).st0.addr = s.ta.lkAddr ∧ (next c s x).st0.tags = s.ta.dout ∧
        (next c s x).st0.found = (res c s x).found ∧ (next c s x).st0.hadEmpty = hasEmpty c s.ta.dout ∧
        (next c s x).st0.foundWay = (res c s x).way) := by
    intro h
    simp only [next] at h
    cases hr : st0InRd s x with
    | false =>
      left
      simp only [st0InRd, Bool.or_eq_false_iff, Bool.not_eq_false'] at hr
      refine ⟨hr.1, ?_, ?_⟩
      · rw [← hf]
        have := hr.2
        simp only [st0Rd] at this
        simp only [daVld]
        cases h1 : x.daRd with
        | false => simp
        | true => rw [h1] at this; simp at this; simp [this]
      · simp [next, st0InRd, hr]
    | true =>
      right
      rw [hr] at h
      simp only [if_true] at h
      have hl : s.ta.lkVld = true := by simp only [Bool.and_eq_true] at h; exact h.1
      have hk : (x.vrRd || skipR c s x) = true := by simp only [Bool.and_eq_true] at h; exact h.2
      have hn : (next c s x).st0 =
          { id := (res c s x).id, addr := (res c s x).addr, tags := (res c s x).tags, found := (res c s x).found,
            hadEmpty := hasEmpty c (res c s x).tags, foundWay := (res c s x).way } := by
        simp only [next, hr, h, Bool.and_self, if_true]
      rw [hn]
      exact ⟨hl, by simp [resRd, hk, hr], rfl, rfl, rfl, rfl, rfl⟩
  -- the records of the set of the lookup
  have hdout : s.ta.lkVld = true → ∀ w, s.ta.dout w = m (idxOf c s.ta.lkAddr) w := fun h w =>
    hi.ta.dout h w fun hh => hi.upd hh.1 h hh.2.1
  have hkeep : s.ta.lkVld = true → write c (tagUpd c s x) m (idxOf c s.ta.lkAddr) = m (idxOf c s.ta.lkAddr) := fun h =>
    write_other fun h1 h2 => hi.dist h1 h h2.symm
  have hfnd := fun h => found_iff hi.ta (c := c) (s := s.ta) h
  have hfd : s.ta.lkVld = true → ((res c s x).found = true ↔ ∃ w < c.WAY_CNT, Holds c m s.ta.lkAddr w) := by
    intro h
    show (List.range c.WAY_CNT).any (CacheTagArray.found c s.ta) = true ↔ _
    rw [List.any_eq_true]
    constructor
    · rintro ⟨w, hw, h'⟩
      exact ⟨w, List.mem_range.1 hw, (hfnd h w).1 h'⟩
    · rintro ⟨w, hw, h'⟩
      exact ⟨w, List.mem_range.2 hw, (hfnd h w).2 h'⟩
  have hwy : s.ta.lkVld = true → (res c s x).found = true → (res c s x).way < c.WAY_CNT ∧ Holds c m s.ta.lkAddr (res c s x).way := by
    intro h h2
    obtain ⟨v, hv1, hv2⟩ := (hfd h).1 h2
    show firstSet c.WAY_CNT (CacheTagArray.found c s.ta) < _ ∧ Holds c m s.ta.lkAddr (firstSet c.WAY_CNT (CacheTagArray.found c s.ta))
    unfold firstSet
    cases he : (List.range c.WAY_CNT).find? (CacheTagArray.found c s.ta) with
    | none => exact absurd ((hfnd h v).2 hv2) (List.find?_eq_none.1 he v (List.mem_range.2 hv1))
    | some w => exact ⟨List.mem_range.1 (List.mem_of_find?_eq_some he), (hfnd h w).1 (List.find?_some he)⟩
  have hH : s.ta.lkVld = true → ∀ w, Holds c (write c (tagUpd c s x) m) s.ta.lkAddr w ↔ Holds c m s.ta.lkAddr w := by
    intro h w; unfold Holds; rw [hkeep h]
  constructor
  · obtain ⟨d, h1, h2⟩ := hi.acc
    refine ⟨d ++ if s.vld && x.daRd then [s.st0.addr] else [], ?_, ?_⟩
    · rw [accepted_snoc, h1, List.append_assoc, List.append_assoc]
      congr 1
      exact (pipe_next c s x hf).symm
    · rw [das_snoc]
      have : (out c s x).daVld = daVld s x := rfl
      simp only [this, hf]
      cases (s.vld && x.daRd) <;> simp [h2]
  · rw [hlog]
    cases h : (s.vld && x.daRd) with
    | false => simpa using hi.safe
    | true =>
      simp only [Bool.and_eq_true] at h
      simp only [if_true]
      exact safe_snoc hi.safe (fire_safe hi hv h.1 h.2)
  · have := CacheTagArray.inv_step hi.ta (taIn c s x)
    exact this
  · intro i w hw
    rw [hlog]
    cases h : (s.vld && x.daRd) with
    | false => rw [write_off h]; simpa using hi.own i w hw
    | true =>
      simp only [if_true]
      rw [owner_snoc, da_way, hi.own i w hw]
      have : (out c s x).da.idx = idxOf c s.st0.addr := rfl
      rw [this]
      simp only [write, tagUpd, h, Bool.true_and, Bool.and_eq_true, beq_iff_eq]
      split <;> rfl
  · intro i w hw v hv'
    cases h : (s.vld && x.daRd) with
    | false => rw [write_off h]; exact hi.uniq i w hw v hv'
    | true =>
      have h' := h
      simp only [Bool.and_eq_true] at h'
      obtain ⟨hlt, h1, -, -⟩ := victim_spec hi hv h'.1 h'.2
      have key : ∀ u < c.WAY_CNT, (m (idxOf c s.st0.addr) u).valid = true → (m (idxOf c s.st0.addr) u).tag = tagOf c s.st0.addr →
          u = victimWay c s.st0 x.vdData := by
        intro u hu hu1 hu2
        have hh : Holds c m s.st0.addr u := by
          unfold Holds
          cases hr : m (idxOf c s.st0.addr) u with
          | mk t b => rw [hr] at hu1 hu2; simp at hu1 hu2; rw [hu1, hu2]
        have hf' := (hi.found h'.1).2 ⟨u, hu, hh⟩
        have hh2 := h1 hf'
        unfold Holds at hh hh2
        exact hi.uniq _ u hu _ hlt (by rw [hh]) (by rw [hh2]) (by rw [hh, hh2])
      simp only [write, tagUpd, h, Bool.true_and, Bool.and_eq_true, beq_iff_eq]
      by_cases hidx : i = idxOf c s.st0.addr
      · subst hidx
        by_cases hw1 : w = victimWay c s.st0 x.vdData <;> by_cases hv1 : v = victimWay c s.st0 x.vdData
        · intros; rw [hw1, hv1]
        · simp only [hw1, hv1, and_self, and_false, if_true, if_false]
          intro _ h3 h4
          exact (key v hv' h3 h4.symm).symm
        · simp only [hw1, hv1, and_self, and_false, if_true, if_false]
          intro h3 _ h4
          exact absurd (key w hw h3 h4) hw1
        · simp only [hw1, hv1, and_false, if_false]
          exact hi.uniq _ w hw v hv'
      · simp only [hidx, false_and, if_false]
        exact hi.uniq _ w hw v hv'
  · intro h w hw
    rcases hst h with ⟨h1, h2, h3⟩ | ⟨h1, -, h3, h4, -⟩
    · rw [h3, write_off h2]; exact hi.tags h1 w hw
    · rw [h3, h4, hkeep h1]; exact hdout h1 w
  · intro h
    rcases hst h with ⟨h1, h2, h3⟩ | ⟨h1, -, h3, -, -, h4, -⟩
    · rw [h3, write_off h2]; exact hi.empty h1
    · rw [h3, h4, hkeep h1]; exact hasEmpty_congr fun w _ => hdout h1 w
  · intro h
    rcases hst h with ⟨h1, h2, h3⟩ | ⟨h1, -, h3, -, h4, -⟩
    · rw [h3, write_off h2]; exact hi.found h1
    · rw [h3, h4, hfd h1]; simp only [hH h1]
  · intro h hfo
    rcases hst h with ⟨h1, h2, h3⟩ | ⟨h1, -, h3, -, h4, -, h5⟩
    · rw [h3] at hfo ⊢; rw [write_off h2]; exact hi.way h1 hfo
    · rw [h4] at hfo
      rw [h3, h5, hH h1]; exact hwy h1 hfo
  · intro h hl
    rcases hst h with ⟨h1, h2, h3⟩ | ⟨h1, hr, h3, -⟩
    · rw [h3]; exact hlk h1 hl
    · rw [h3]
      rcases lk_next hl with ⟨h4, h5⟩ | ⟨-, -, h4, -⟩
      · rw [h5]; exact hsp h4 _ (mem1 h1)
      · rw [hr] at h4; cases h4
  · intro hu hl
    have hu' : (s.vld && x.daRd) = true := hu
    simp only [Bool.and_eq_true] at hu'
    exact fun he => hlk hu'.1 hl he.symm

theorem inv_init {c : Cfg} {s : St} (hs : IsInit s) : Inv c [] s.ta.mem s where
  acc := ⟨[], by simp [accepted, pipe, hs.vld, hs.ta.lk], rfl⟩
  safe := by intro pre a d post h; simp [log, accepted] at h
  ta := by
    refine ⟨rfl, ?_, ?_⟩
    · intro h; rw [hs.ta.upd] at h; cases h
    · intro h; rw [hs.ta.lk] at h; cases h
  own := by intro i w _; rw [hs.mem i w]; rfl
  uniq := by intro i w _ v _ h; rw [hs.mem i w] at h; cases h
  tags := by intro h; rw [hs.vld] at h; cases h
  empty := by intro h; rw [hs.vld] at h; cases h
  found := by intro h; rw [hs.vld] at h; cases h
  way := by intro h; rw [hs.vld] at h; cases h
  dist := by intro h; rw [hs.vld] at h; cases h
  upd := by intro h; rw [hs.ta.upd] at h; cases h

theorem inv_run {c : Cfg} {s : St} (hs : IsInit s) (is : List In) (hsp : Spaced c ((machine c).trace s is))
    (hv : ∀ p ∈ (machine c).trace s is, VictimReady c p) :
    ∃ m, Inv c ((machine c).trace s is) m ((machine c).final s is) := by
  induction is using List.reverseRecOn with
  | nil => exact ⟨_, inv_init hs⟩
  | append_singleton is x ih =>
    rw [Machine.trace_snoc] at *
    simp only [Machine.final_append, Machine.final_cons, Machine.final_nil]
    obtain ⟨m, hi⟩ := ih
      (by
        intro pre p post h
        exact hsp pre p (post ++ [(x, (machine c).outAfter s is x)]) (by rw [h]; simp))
      (fun p hp => hv p (List.mem_append_left _ hp))
    refine ⟨_, inv_step hi (hv _ (List.mem_append_right _ (List.mem_singleton.2 rfl))) ?_⟩
    intro ha
    simp only [Bool.and_eq_true] at ha
    have := hsp _ _ [] rfl ha.1 ha.2
    rwa [inFlight_eq hi] at this

/-- no line is lost or duplicated if writes to one set do not overlap and the victim is known in time, for any LRU array -/
theorem safe_of_victim (c : Cfg) (s : St) (hs : IsInit s) (is : List In) (hsp : Spaced c ((machine c).trace s is))
    (hv : ∀ p ∈ (machine c).trace s is, VictimReady c p) : Safe c (log ((machine c).trace s is)) := by
  obtain ⟨m, hi⟩ := inv_run hs is hsp hv
  exact hi.safe

/-! ## With the LRU array -/

/-- the LRU array has a victim exactly for the write which needs it -/
def SInv (s : SysSt) : Prop := s.lv = (s.st.vld && (!s.st.st0.found && !s.st.st0.hadEmpty))

theorem sinv_step (c : Cfg) (s : SysSt) (x : In) (h : SInv s) : SInv (sysNext c s x) := by
  obtain ⟨st, lv⟩ := s
  unfold SInv at h
  dsimp only at h
  subst h
  unfold SInv sysNext
  dsimp only
  generalize hx : sysIn ⟨st, st.vld && (!st.st0.found && !st.st0.hadEmpty)⟩ x = x'
  have h1 : x'.vdVld = (st.vld && (!st.st0.found && !st.st0.hadEmpty)) := by rw [← hx]; rfl
  have h2 : x'.vrRd = (!(st.vld && (!st.st0.found && !st.st0.hadEmpty)) || (st.vld && x'.daRd && (!st.st0.found && !st.st0.hadEmpty))) := by
    rw [← hx]; rfl
  clear hx
  have hr1 : (res c st x').vld = st.ta.lkVld := rfl
  simp only [next, out, skipR, hr1]
  have hin : st0InRd st x' = (!st.vld || x'.daRd) := by
    unfold st0InRd st0Rd skipV
    rw [h1]
    cases st.vld <;> cases st.st0.found <;> cases st.st0.hadEmpty <;> cases x'.daRd <;> rfl
  rw [hin, h2]
  generalize st.ta.lkVld = l
  generalize hfo : (res c st x').found = f
  generalize he : hasEmpty c (res c st x').tags = e
  rcases Bool.eq_false_or_eq_true st.vld with h3 | h3 <;> rcases Bool.eq_false_or_eq_true x'.daRd with h4 | h4 <;>
    rcases Bool.eq_false_or_eq_true st.st0.found with h5 | h5 <;> rcases Bool.eq_false_or_eq_true st.st0.hadEmpty with h6 | h6 <;>
    simp only [h3, h4, h5, h6] <;> cases l <;> cases f <;> cases e <;> simp [h5, h6]

theorem sinv_run (c : Cfg) (s : SysSt) (hs : SysInit s) (is : List In) : SInv ((sys c).final s is) := by
  refine Machine.inv_final (sys c) SInv (fun _ => True) (fun s x h _ => sinv_step c s x h) is s ?_ (fun _ _ => trivial)
  unfold SInv
  rw [hs.lv, hs.st.vld]; rfl

theorem sinv_ready {c : Cfg} {s : SysSt} {x : In} (h : SInv s) (hd : x.vdData < c.WAY_CNT) :
    VictimReady c (sysIn s x, out c s.st (sysIn s x)) := by
  unfold VictimReady
  intro h1 _
  refine ⟨?_, hd⟩
  unfold SInv at h
  show s.lv = true
  rw [h]
  simp only [out] at h1
  revert h1
  cases s.st.vld <;> cases s.st.st0.found <;> cases s.st.st0.hadEmpty <;> simp

/-- C221: a victim is there exactly when a write which needs it is, so each of them is used for the write which asked for it, and
the tags are updated exactly when the data array takes the transaction -/
theorem victim_in_time (c : Cfg) (s : SysSt) (hs : SysInit s) (is : List In) (x : In) :
    let p := (sys c).outAfter s is x
    (p.1.vdVld = p.2.da.flush) ∧ ((p.1.vdVld && p.2.vdRd) = (p.2.daVld && p.1.daRd && p.2.da.flush)) ∧
    ((tagUpd c ((sys c).final s is).st p.1).vld = (p.2.daVld && p.1.daRd)) := by
  have h := sinv_run c s hs is
  unfold Machine.outAfter
  generalize (sys c).final s is = t at *
  unfold SInv at h
  simp only [sys, out, sysIn, daVld, skipV, tagUpd, h]
  cases t.st.vld <;> cases t.st.st0.found <;> cases t.st.st0.hadEmpty <;> cases x.daRd <;> simp

theorem sys_inv {c : Cfg} {s : SysSt} (hs : SysInit s) (is : List In) (hd : ∀ x ∈ is, x.vdData < c.WAY_CNT) (hsp : Spaced c (sysTr c s is)) :
    ∃ m, Inv c (sysTr c s is) m ((sys c).final s is).st := by
  induction is using List.reverseRecOn with
  | nil => exact ⟨_, inv_init hs.st⟩
  | append_singleton is x ih =>
    unfold sysTr at *
    rw [Machine.trace_snoc, List.map_append] at *
    simp only [Machine.final_append, Machine.final_cons, Machine.final_nil, List.map_cons, List.map_nil] at *
    obtain ⟨m, hi⟩ := ih (fun x hx => hd x (List.mem_append_left _ hx))
      (by
        intro pre p post h
        exact hsp pre p (post ++ [(sys c).outAfter s is x]) (by rw [h]; simp))
    refine ⟨_, inv_step hi (sinv_ready (sinv_run c s hs is) (hd x (List.mem_append_right _ (List.mem_singleton.2 rfl)))) ?_⟩
    intro ha
    simp only [Bool.and_eq_true] at ha
    have := hsp _ _ [] rfl ha.1 ha.2
    rwa [inFlight_eq hi] at this

/-- C220: no line is lost or duplicated if writes to one set do not overlap -/
theorem safe_partial (c : Cfg) (s : SysSt) (hs : SysInit s) (is : List In) (hd : ∀ x ∈ is, x.vdData < c.WAY_CNT)
    (hsp : Spaced c (sysTr c s is)) : Safe c (log (sysTr c s is)) := by
  obtain ⟨m, hi⟩ := sys_inv hs is hd hsp
  exact hi.safe

/-- accepted writes (set, id) -/
def writes (c : Cfg) (tr : Tr) : List (Nat × Nat) :=
  tr.filterMap fun p => if p.1.awVld && p.2.awRd then some (idxOf c p.1.awAddr, p.1.awId) else none
def stores (tr : Tr) : List (Nat × Nat) := tr.filterMap fun p => if p.2.daVld && p.1.daRd then some (p.2.da.idx, p.2.da.id) else none

/-- C222: each accepted write makes one transaction to the data array, in order, with its set and id (for any LRU array) -/
theorem writes_once (c : Cfg) (s : St) (hs : IsInit s) (is : List In) :
    ∃ pend : List (Nat × Nat), pend.length ≤ 2 ∧ writes c ((machine c).trace s is) = stores ((machine c).trace s is) ++ pend := by
  have h := Machine.conserve (machine c) (fun _ => True) (fun _ => True)
    (fun s => (if s.vld then [(idxOf c s.st0.addr, s.st0.id)] else []) ++ (if s.ta.lkVld then [(idxOf c s.ta.lkAddr, s.ta.lkId)] else []))
    (fun p => if p.1.awVld && p.2.awRd then some (idxOf c p.1.awAddr, p.1.awId) else none)
    (fun p => if p.2.daVld && p.1.daRd then some (p.2.da.idx, p.2.da.id) else none)
    (by
      intro s x _ _
      refine ⟨trivial, ?_⟩
      have hin : st0InRd s x = (!s.vld || (daVld s x && x.daRd)) := by
        unfold st0InRd st0Rd daVld
        cases s.vld <;> cases x.vdVld <;> cases skipV s <;> cases x.daRd <;> rfl
      have hdv : s.vld = false → daVld s x = false := by intro h; simp [daVld, h]
      simp only [machine, out, next, CacheTagArray.next, CacheTagArray.out, lkRd, taIn, taIn0, resRd, hin, res]
      generalize hk : (x.vrRd || skipR c s x) = k
      rcases Bool.eq_false_or_eq_true s.vld with h3 | h3 <;> rcases Bool.eq_false_or_eq_true (daVld s x) with h4 | h4 <;>
      rcases Bool.eq_false_or_eq_true x.daRd with h5 | h5 <;> rcases Bool.eq_false_or_eq_true s.ta.lkVld with h6 | h6 <;>
      rcases Bool.eq_false_or_eq_true x.awVld with h1 | h1 <;> rcases Bool.eq_false_or_eq_true x.rcRd with h2 | h2 <;>
      simp only [h1, h2, h3, h4, h5, h6] <;> first | (exact absurd (hdv h3) (by rw [h4]; decide)) | (cases k <;> rfl))
    is s trivial (fun _ _ => trivial)
  have h2 := h.2
  rw [hs.ta.lk, hs.vld] at h2
  refine ⟨_, ?_, h2⟩
  split <;> split <;> simp

/-! ## Examples: two ways, two sets -/

def exSt : St where
  ta := CacheTagArray.exSt
  vld := false
  st0 := ⟨0, 0, fun _ => ⟨0, false⟩, false, false, 0⟩

theorem exInit : IsInit exSt := ⟨⟨rfl, rfl⟩, rfl, fun _ _ => rfl⟩
def exSys : SysSt := ⟨exSt, false⟩
theorem exSysInit : SysInit exSys := ⟨exInit, rfl⟩

/-- write of the line `a`, everything is ready -/
def aw (a : Nat) : In := ⟨true, a, a, true, true, true, 1, true, fun _ => ⟨0, false⟩⟩
def idle : In := { aw 0 with awVld := false }
/-- the answer of LRU is not there yet -/
def noVictim : In := { idle with vdVld := false, vdData := 0 }

/-- writes of four lines of the set 0, one at a time, the third and the fourth one replaces way 1 -/
def exIn : List In := [aw 4, idle, idle, aw 8, idle, idle, aw 12, idle, idle, aw 16, idle, idle]

example : (log (sysTr exCfg exSys exIn)).map (fun p => (p.1, p.2.way, p.2.flush, p.2.victimTag)) =
    [(4, 0, false, 0), (8, 1, false, 0), (12, 1, true, 2), (16, 1, true, 3)] := by decide

/-- executable form of the condition `Spaced` -/
def spacedB (c : Cfg) (tr : Tr) : Bool :=
  (List.range tr.length).all fun n =>
    match tr[n]? with
    | none => true
    | some p => !(p.1.awVld && p.2.awRd) || (inFlight (tr.take n)).all fun a => idxOf c a != idxOf c p.1.awAddr

theorem spaced_of {c : Cfg} {tr : Tr} (h : spacedB c tr = true) : Spaced c tr := by
  intro pre p post he h1 h2 a ha
  have := List.all_eq_true.1 h pre.length (List.mem_range.2 (by rw [he]; simp))
  simp only [he] at this
  simp [h1, h2] at this
  exact this a ha

example : Spaced exCfg (sysTr exCfg exSys exIn) ∧ ∀ x ∈ exIn, x.vdData < exCfg.WAY_CNT := ⟨spaced_of (by decide), by decide⟩
example : Spaced exCfg ((machine exCfg).trace exSt exIn) ∧ ∀ p ∈ (machine exCfg).trace exSt exIn, VictimReady exCfg p := by
  refine ⟨spaced_of (by decide), ?_⟩
  unfold VictimReady
  decide
example : ((sys exCfg).outAfter exSys (exIn.take 8) idle).1.vdVld = true ∧ ((sys exCfg).outAfter exSys (exIn.take 8) idle).2.daVld = true := by
  decide
example : stores ((machine exCfg).trace exSt exIn) = [(0, 4), (0, 8), (0, 12), (0, 16)] := by decide

/-- two writes which follow each other get the same empty way -/
def badIn : List In := [aw 4, aw 8, idle, idle]

example : (log (sysTr exCfg exSys badIn)).map (fun p => (p.1, p.2.way, p.2.flush)) = [(4, 0, false), (8, 0, false)] := by decide

/-- C220: writes of two lines of one set which follow each other: the first line is overwritten -/
theorem safe_fails : ¬AlwaysSafe exCfg := by
  intro h
  have h1 := h exSys exSysInit badIn (by decide)
  obtain ⟨-, -, h2, -⟩ := h1 [(4, ⟨0, 0, false, 0, 4⟩)] 8 ⟨0, 0, false, 0, 8⟩ [] (by decide)
  have := h2 1 (by decide) (by decide)
  exact absurd this.1 (by decide)

/-- with an LRU array which may answer later it would not be enough if the writes to one set do not overlap -/
def SpacedSafe (c : Cfg) : Prop :=
  ∀ s, IsInit s → ∀ is, (∀ p ∈ (machine c).trace s is, p.1.vdData < c.WAY_CNT) → Spaced c ((machine c).trace s is) →
    Safe c (log ((machine c).trace s is))

/-- the tag of the line 12 is stored to way 0 before the victim is known, the line is stored to way 1; the next write of the line 12
finds it in way 0 which has the line 4 -/
def lateIn : List In := [aw 4, idle, idle, aw 8, idle, idle, aw 12, noVictim, noVictim, idle, aw 12, idle, idle]

example : (log ((machine exCfg).trace exSt lateIn)).map (fun p => (p.1, p.2.way, p.2.flush, p.2.victimTag)) =
    [(4, 0, false, 0), (8, 1, false, 0), (12, 1, true, 2), (12, 0, false, 3)] := by decide

/-- the tags are updated although the victim is not known yet, so `VictimReady` is needed -/
theorem late_victim_fails : ¬SpacedSafe exCfg := by
  intro h
  have h1 := h exSt exInit lateIn (by decide) (spaced_of (by decide))
  obtain ⟨-, -, h2, -⟩ := h1 [(4, ⟨0, 0, false, 0, 4⟩), (8, ⟨0, 1, false, 0, 8⟩), (12, ⟨0, 1, true, 2, 12⟩)] 12 ⟨0, 0, false, 3, 12⟩ []
    (by decide)
  have := h2 1 (by decide) (by decide)
  exact absurd this.1 (by decide)

end Verif.CacheWrite
