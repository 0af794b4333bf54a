import Verif.AxiMatrixLemmas
import Verif.AddrDecodeProps
import Verif.OneHotProps
import Verif.SplitJoinProps
import Mathlib.Data.List.Induction
/-!
# Runs of the AXI interconnect matrix
-/
namespace Verif.AxiMatrix
open Verif.SplitJoin (anyN isSelected prioInit rol1 OneHot)

universe u v w x y

/-! ## Data crossbar inside of a machine -/

section
variable {β : Type v} {S : Type w} {I : Type x} {Ou : Type y}

/-- Words taken from input `i`. -/
def taken (xi : I → XIn β) (xo : Ou → XOut β) (tr : List (I × Ou)) (i : Nat) : List (Beat β) :=
  tr.flatMap (fun e => given ((xi e.1).vld i && (xo e.2).rd i) ((xi e.1).beat i))
/-- Words given by output `o`. -/
def gives (xi : I → XIn β) (xo : Ou → XOut β) (tr : List (I × Ou)) (o : Nat) : List (Option (Beat β)) :=
  tr.flatMap (fun e => given ((xo e.2).vld o && (xi e.1).rd o) ((xo e.2).beat o))

/-- A machine which contains a data crossbar whose order fifos are written with the transactions `tr`. -/
structure HasXbar (M : Machine S I Ou) (c : XCfg) (st : S → XSt) (xi : I → XIn β) (xo : Ou → XOut β)
    (tr : I × Ou → List (Nat × Nat)) (Ok : S → Prop) (okI : I → Prop) : Prop where
  ok : ∀ s i, Ok s → okI i → Ok (M.next s i)
  out : ∀ s i, xo (M.out s i) = xOut c (st s) (xi i)
  next : ∀ s i, Ok s → okI i → ∃ pA pB, st (M.next s i) = xNext c (st s) (xi i) pA pB ∧
    (∀ t ∈ tr (i, M.out s i), t.1 < c.nI ∧ t.2 < c.nO ∧ c.con t.1 t.2 = true) ∧
    (∀ k, k < c.nI → hasA c k = true →
      (pA k).toList = ((tr (i, M.out s i)).filter (fun t => t.1 == k)).map Prod.snd) ∧
    (∀ o, o < c.nO → hasB c o = true →
      (pB o).toList = ((tr (i, M.out s i)).filter (fun t => t.2 == o)).map Prod.fst)

variable {M : Machine S I Ou} {c : XCfg} {st : S → XSt} {xi : I → XIn β} {xo : Ou → XOut β}
  {tr : I × Ou → List (Nat × Nat)} {Ok : S → Prop} {okI : I → Prop}

theorem HasXbar.inv (h : HasXbar M c st xi xo tr Ok okI) {s0 : S} (h0 : Ok s0) (hst : st s0 = xInit)
    {plan : Nat → Nat → List (Beat β)} (hplan : ∀ i k, IsBurst (plan i k)) (is : List I) (hi : ∀ i ∈ is, okI i)
    (henv : ∀ i, i < c.nI → (∀ o, o < c.nO → c.con i o = true → Ordered c i o) →
      ∃ n, taken xi xo (M.trace s0 is) i <+: firstBursts plan i n) :
    Ok (M.final s0 is) ∧ ∃ O, XInv c plan ((M.trace s0 is).flatMap tr) (st (M.final s0 is))
      (taken xi xo (M.trace s0 is)) (gives xi xo (M.trace s0 is)) O := by
  induction is using List.reverseRecOn with
  | nil =>
    refine ⟨h0, [], ?_⟩
    rw [Machine.final_nil, hst]
    exact xInv_init c plan
  | append_singleton is i ih =>
    rw [Machine.trace_snoc] at henv ⊢
    rw [Machine.final_append]
    have eo : M.outAfter s0 is i = M.out (M.final s0 is) i := rfl
    have en : M.final (M.final s0 is) [i] = M.next (M.final s0 is) i := rfl
    rw [eo] at henv ⊢
    rw [en]
    have htk : ∀ k, taken xi xo (M.trace s0 is ++ [(i, M.out (M.final s0 is) i)]) k
        = taken xi xo (M.trace s0 is) k ++ took c (st (M.final s0 is)) (xi i) k := by
      intro k
      simp only [taken, List.flatMap_append, List.flatMap_cons, List.flatMap_nil, List.append_nil]
      rw [h.out]; rfl
    have hgv : ∀ k, gives xi xo (M.trace s0 is ++ [(i, M.out (M.final s0 is) i)]) k
        = gives xi xo (M.trace s0 is) k ++ gave c (st (M.final s0 is)) (xi i) k := by
      intro k
      simp only [gives, List.flatMap_append, List.flatMap_cons, List.flatMap_nil, List.append_nil]
      rw [h.out]; rfl
    obtain ⟨hok, O, hO⟩ := ih (fun j hj => hi j (List.mem_append_left _ hj)) (by
      intro k hk ho
      obtain ⟨n, hn⟩ := henv k hk ho
      rw [htk] at hn
      exact ⟨n, (List.prefix_append _ _).trans hn⟩)
    have hii := hi i (by simp)
    refine ⟨h.ok _ _ hok hii, ?_⟩
    obtain ⟨pA, pB, e, hT, hA, hB⟩ := h.next _ _ hok hii
    obtain ⟨O', hO'⟩ := hO.step hplan (xi i) _ pA pB hT hA hB (by
      intro k hk ho
      obtain ⟨n, hn⟩ := henv k hk ho
      rw [htk] at hn
      exact ⟨n, hn⟩)
    refine ⟨O', ?_⟩
    rw [e, List.flatMap_append, List.flatMap_cons, List.flatMap_nil, List.append_nil, funext htk, funext hgv]
    exact hO'

/-- Data of a connection without order fifos passes directly. -/
theorem HasXbar.direct (h : HasXbar M c st xi xo tr Ok okI) {i o : Nat} (hi : i < c.nI) (ho : o < c.nO)
    (hc : c.con i o = true) (hd : ¬ Ordered c i o) (s0 : S) (is : List I) :
    gives xi xo (M.trace s0 is) o = (taken xi xo (M.trace s0 is) i).map some := by
  induction is generalizing s0 with
  | nil => rfl
  | cons x is ih =>
    simp only [gives, taken, Machine.trace_cons, List.flatMap_cons, List.map_append] at ih ⊢
    rw [ih]
    congr 1
    rw [h.out]
    have hx : ∀ j q, Xfer c (st s0) (xi x) j q → (j = i ↔ q = o) := by
      intro j q hjq
      simp only [Ordered, not_or, Bool.not_eq_true] at hd
      constructor
      · intro e; subst e; exact out_unique hd.1 hjq.ho ho hjq.con hc
      · intro e; subst e; exact in_unique hd.2 hjq.hi hi hjq.con hc
    by_cases hf : Xfer c (st s0) (xi x) i o
    · have k1 := (xfer_iff_rd hi).2 ⟨o, hf⟩
      have k2 := (xfer_iff_vld ho).2 ⟨i, hf⟩
      simp only [xOut, k1, k2, xfer_beat hf, given, List.map_cons, List.map_nil]
    · have k1 : ((xi x).vld i && xRd c (st s0) (xi x) i) = false := by
        rw [← Bool.not_eq_true, xfer_iff_rd hi]
        rintro ⟨q, hq⟩; rw [(hx _ _ hq).1 rfl] at hq; exact hf hq
      have k2 : (xVld c (st s0) (xi x) o && (xi x).rd o) = false := by
        rw [← Bool.not_eq_true, xfer_iff_vld ho]
        rintro ⟨q, hq⟩; rw [(hx _ _ hq).2 rfl] at hq; exact hf hq
      simp only [xOut, k1, k2, given, List.map_nil]

theorem expected_single {plan : Nat → Nat → List (Beat β)} {G : List (Nat × Nat)} {i o : Nat}
    (h : ∀ t ∈ G, t.1 = i ↔ t.2 = o) : expected plan G o = firstBursts plan i (cnt G i) := by
  have key := tagFrom_filter (fun _ => 0) G i (plan i)
  simp only [Nat.zero_add] at key
  unfold expected firstBursts
  have e2 : (fun k => plan i k) = plan i := rfl
  rw [e2] at key
  rw [← key]
  have e3 : (tagFrom (fun _ => 0) G).filter (fun t => t.2.1 == o)
      = (tagFrom (fun _ => 0) G).filter (fun t => t.1 == i) := by
    refine List.filter_congr fun t ht => ?_
    have := h _ (mem_tagFrom ht)
    simp only at this
    rw [Bool.eq_iff_iff, beq_iff_eq, beq_iff_eq, this]
  rw [e3]
  refine List.flatMap_congr fun t ht => ?_
  have : t.1 = i := by simpa using (List.mem_filter.1 ht).2
  rw [this]

theorem HasXbar.pairs (h : HasXbar M c st xi xo tr Ok okI) {s0 : S} (h0 : Ok s0) (is : List I)
    (hi : ∀ i ∈ is, okI i) :
    ∀ t ∈ (M.trace s0 is).flatMap tr, t.1 < c.nI ∧ t.2 < c.nO ∧ c.con t.1 t.2 = true := by
  induction is generalizing s0 with
  | nil => simp
  | cons x is ih =>
    intro t ht
    rw [Machine.trace_cons, List.flatMap_cons] at ht
    rcases List.mem_append.1 ht with ht | ht
    · obtain ⟨_, _, _, hT, _⟩ := h.next s0 x h0 (hi x (by simp))
      exact hT t ht
    · exact ih (h.ok _ _ h0 (hi x (by simp))) (fun j hj => hi j (by simp [hj])) t ht

/-- Data is routed by the transactions, the environment gives only data of transactions of the run. -/
theorem HasXbar.routes (h : HasXbar M c st xi xo tr Ok okI) {s0 : S} (h0 : Ok s0) (hst : st s0 = xInit)
    {plan : Nat → Nat → List (Beat β)} (hplan : ∀ i k, IsBurst (plan i k)) (is : List I) (hi : ∀ i ∈ is, okI i)
    (henv : ∀ i, i < c.nI → taken xi xo (M.trace s0 is) i
      <+: firstBursts plan i (cnt ((M.trace s0 is).flatMap tr) i)) :
    (∀ o, o < c.nO → gives xi xo (M.trace s0 is) o
      <+: (expected plan ((M.trace s0 is).flatMap tr) o).map some) ∧
    ((∀ i, i < c.nI → taken xi xo (M.trace s0 is) i
        = firstBursts plan i (cnt ((M.trace s0 is).flatMap tr) i)) →
      ∀ o, o < c.nO → gives xi xo (M.trace s0 is) o
        = (expected plan ((M.trace s0 is).flatMap tr) o).map some) := by
  obtain ⟨_, O, hO⟩ := h.inv h0 hst hplan is hi (fun i hi _ => ⟨_, henv i hi⟩)
  have hp := h.pairs h0 is hi
  generalize hG : (M.trace s0 is).flatMap tr = G at *
  have hdir : ∀ i o, i < c.nI → o < c.nO → c.con i o = true → ¬ Ordered c i o →
      expected plan G o = firstBursts plan i (cnt G i) := by
    intro i o hi ho hc hd
    refine expected_single fun t ht => ?_
    obtain ⟨h1, h2, h3⟩ := hp t ht
    simp only [Ordered, not_or, Bool.not_eq_true] at hd
    constructor
    · intro e; rw [e] at h3; exact out_unique hd.1 h2 ho h3 hc
    · intro e; rw [e] at h3; exact in_unique hd.2 h1 hi h3 hc
  refine ⟨fun o ho => ?_, fun hall o ho => ?_⟩
  · by_cases hd : ∀ i, i < c.nI → c.con i o = true → Ordered c i o
    · rw [← hO.doutEq o ho hd]; exact List.prefix_append _ _
    · simp only [not_forall] at hd
      obtain ⟨i, hi', hc, hd⟩ := hd
      rw [h.direct hi' ho hc hd, hdir i o hi' ho hc hd]
      exact (henv i hi').map _
  · by_cases hd : ∀ i, i < c.nI → c.con i o = true → Ordered c i o
    · rw [← hO.doutEq o ho hd]
      have : ofO o O = [] := by
        match hl : ofO o O with
        | [] => rfl
        | e :: l =>
          exfalso
          have me : e ∈ O := (List.mem_filter.1 (show e ∈ ofO o O by rw [hl]; simp)).1
          obtain ⟨k1, k2, k3, k4⟩ := hO.ent e me
          have hin := hO.dinEq e.i k1 (ordered_in k2 k3 k4)
          rw [hall e.i k1] at hin
          have hnil : (ofI e.i O).flatMap Ent.rest = [] := by
            simpa using hin
          rw [List.flatMap_eq_nil_iff] at hnil
          exact isBurst_ne (hO.burst e me) (hnil e (List.mem_filter.2 ⟨me, by simp⟩))
      rw [this]; simp
    · simp only [not_forall] at hd
      obtain ⟨i, hi', hc, hd⟩ := hd
      rw [h.direct hi' ho hc hd, hdir i o hi' ho hc hd, hall i hi']

/-- If data of a transaction is missing, the senders which have to send offer data, the receivers accept and the order
fifos show their heads then a word is transferred. -/
theorem HasXbar.progress (h : HasXbar M c st xi xo tr Ok okI) {s0 : S} (h0 : Ok s0) (hst : st s0 = xInit)
    {plan : Nat → Nat → List (Beat β)} (hplan : ∀ i k, IsBurst (plan i k)) (is : List I) (hi : ∀ i ∈ is, okI i)
    (henv : ∀ i, i < c.nI → taken xi xo (M.trace s0 is) i
      <+: firstBursts plan i (cnt ((M.trace s0 is).flatMap tr) i)) (x : I)
    (hv : ∀ i, i < c.nI → taken xi xo (M.trace s0 is) i
      ≠ firstBursts plan i (cnt ((M.trace s0 is).flatMap tr) i) → (xi x).vld i = true)
    (hr : ∀ o, o < c.nO → (xi x).rd o = true) (hav : ∀ i, i < c.nI → (xi x).av i = true)
    (hbv : ∀ o, o < c.nO → (xi x).bv o = true)
    (hmiss : ∃ i, i < c.nI ∧ taken xi xo (M.trace s0 is) i
      ≠ firstBursts plan i (cnt ((M.trace s0 is).flatMap tr) i)) :
    ∃ i, i < c.nI ∧ (xi x).vld i = true ∧ (xo (M.outAfter s0 is x)).rd i = true := by
  obtain ⟨_, O, hO⟩ := h.inv h0 hst hplan is hi (fun i hi _ => ⟨_, henv i hi⟩)
  have hp := h.pairs h0 is hi
  have eo : M.outAfter s0 is x = M.out (M.final s0 is) x := rfl
  rw [eo, h.out]
  suffices hs : ∃ i o, Xfer c (st (M.final s0 is)) (xi x) i o by
    obtain ⟨i, o, hx⟩ := hs
    refine ⟨i, hx.hi, hx.vld, ?_⟩
    have := (xfer_iff_rd hx.hi).2 ⟨o, hx⟩
    rw [hx.vld, Bool.true_and] at this
    exact this
  match hl : O with
  | e :: l =>
    obtain ⟨k1, k2, k3, k4⟩ := hO.ent e (by simp)
    refine ⟨e.i, e.o, k1, k2, k3, ?_, hr _ k2, fun ha => ?_, fun hb => ?_⟩
    · refine hv e.i k1 fun k => ?_
      have hin := hO.dinEq e.i k1 (ordered_in k2 k3 k4)
      rw [k] at hin
      have hnil : (ofI e.i (e :: l)).flatMap Ent.rest = [] := by simpa using hin
      rw [List.flatMap_eq_nil_iff] at hnil
      exact isBurst_ne (hO.burst e (by simp)) (hnil e (List.mem_filter.2 ⟨by simp, by simp⟩))
    · have hA := hO.aEq e.i k1 ha
      simp only [ofI, List.filter_cons, beq_self_eq_true, if_true, List.map_cons] at hA
      have : aVld (st (M.final s0 is)) (xi x) e.i = true := by simp [aVld, hA, hav _ k1]
      exact ⟨this, by simp [aData, this, hA]⟩
    · have hB := hO.bEq e.o k2 hb
      simp only [ofO, List.filter_cons, beq_self_eq_true, if_true, List.map_cons] at hB
      have : bVld (st (M.final s0 is)) (xi x) e.o = true := by simp [bVld, hB, hbv _ k2]
      exact ⟨this, by simp [bData, this, hB]⟩
  | [] =>
    -- nothing is outstanding over the fifos, the missing data is of a direct connection
    obtain ⟨i, hi', hne⟩ := hmiss
    by_cases hd : ∀ o, o < c.nO → c.con i o = true → Ordered c i o
    · have hin := hO.dinEq i hi' hd
      simp only [ofI, List.filter_nil, List.flatMap_nil, List.append_nil] at hin
      exact absurd hin hne
    · simp only [not_forall] at hd
      obtain ⟨o, ho, hc, hd⟩ := hd
      simp only [Ordered, not_or, Bool.not_eq_true] at hd
      exact ⟨i, o, hi', ho, hc, hv i hi' hne, hr o ho, fun k => by simp [hd.1] at k, fun k => by simp [hd.2] at k⟩

end

/-! ## Address crossbar -/

section
variable {α : Type u}

/-- The address belongs to the slave. -/
def InRange (c : Cfg) (s a : Nat) : Prop := c.base s ≤ a ∧ a < c.base s + c.size s
instance (c : Cfg) (s a : Nat) : Decidable (InRange c s a) := inferInstanceAs (Decidable (_ ∧ _))

/-- Disjoint nonempty address ranges inside of the address space. -/
structure CfgOk (c : Cfg) : Prop where
  nM : 0 < c.nM
  size : ∀ s, s < c.nS → 1 ≤ c.size s
  fits : ∀ s, s < c.nS → c.base s + c.size s ≤ 2 ^ c.W
  disjoint : ∀ s s' a, s < c.nS → s' < c.nS → InRange c s a → InRange c s' a → s = s'

/-- Addresses of the requests are of the width `ADDR_WIDTH`. -/
def AddrOk (c : Cfg) (x : AIn α) : Prop := ∀ m, m < c.nM → (x.req m).addr < 2 ^ c.W

/-- The arbiters have one priority bit set. -/
def PrioOk (c : Cfg) (p : Nat → Nat → Bool) : Prop := ∀ s, ∃ q, q < c.nM ∧ OneHot c.nM (p s) q

theorem prioOk_init {c : Cfg} (h : 0 < c.nM) : PrioOk c (fun _ => prioInit) :=
  fun _ => ⟨0, h, SplitJoin.init_oneHot _⟩

theorem prioOk_next {c : Cfg} {p : Nat → Nat → Bool} (h : PrioOk c p) : PrioOk c (fun k => rol1 c.nM (p k)) := by
  intro s
  obtain ⟨q, hq, h⟩ := h s
  exact ⟨(q + 1) % c.nM, Nat.mod_lt _ (by omega), SplitJoin.rol_oneHot hq h⟩

theorem decode {c : Cfg} (hc : CfgOk c) {s a : Nat} (hs : s < c.nS) (ha : a < 2 ^ c.W) :
    (AddrDecode.isMine c.W 8 8 (slaveArr c s) a = true ↔ InRange c s a) ∧
    (InRange c s a → AddrDecode.sub c.W 8 8 (slaveArr c s) a = a - c.base s) := by
  have h := AddrDecode.endpoint_decode c.W 3 3 (Nat.le_refl _) (slaveArr c s) (hc.size s hs)
    (by simp [slaveArr]) (by have := hc.fits s hs; simp only [slaveArr]; omega) a ha
  simp only [slaveArr, show (2:Nat) ^ 3 = 8 from rfl] at h ⊢
  have e : AddrDecode.isMine c.W 8 8 ⟨c.base s * 8, c.size s⟩ a = true ↔ InRange c s a := by
    rw [h.1]; unfold InRange; omega
  refine ⟨e, fun k => ?_⟩
  rw [(h.2 (e.2 k)).1]
  omega

/-- The request of master `m` is accepted by slave `s`. -/
structure Acc (c : Cfg) (p : Nat → Nat → Bool) (x : AIn α) (m s : Nat) : Prop where
  hm : m < c.nM
  hs : s < c.nS
  con : c.con m s = true
  vld : x.vld m = true
  rng : InRange c s (x.req m).addr
  aV : aV c x s m = true
  sel : sel c p x s m = true
  rd : x.rd s = true
  rdM : hasM c m = true → x.rdM m = true
  rdS : hasS c s = true → x.rdS s = true

theorem aV_iff {c : Cfg} (hc : CfgOk c) {x : AIn α} (hx : AddrOk c x) {m s : Nat} (hm : m < c.nM) (hs : s < c.nS) :
    aV c x s m = true ↔ c.con m s = true ∧ x.vld m = true ∧ InRange c s (x.req m).addr ∧
      (hasM c m = true → x.rdM m = true) := by
  unfold aV slvEn
  rcases Bool.eq_false_or_eq_true (c.con m s) with e | e
  · simp only [e, if_true, Bool.true_and, Bool.and_eq_true, (decode hc hs (hx m hm)).1, Bool.or_eq_true,
      Bool.not_eq_true', true_and, and_assoc]
    rcases Bool.eq_false_or_eq_true (hasM c m) with k | k <;> simp [k]
  · simp [e]

theorem imp_or {a b : Bool} : (!a || b) = true ↔ (a = true → b = true) := by cases a <;> simp

theorem acc_iff_m {c : Cfg} (hc : CfgOk c) {p : Nat → Nat → Bool} {x : AIn α} (hx : AddrOk c x) {m : Nat}
    (hm : m < c.nM) : (x.vld m && mRd c p x m) = true ↔ ∃ s, Acc c p x m s := by
  simp only [mRd, rdFor, rdFrom, slavesOf, Bool.and_eq_true, List.any_eq_true, List.mem_filter, List.mem_range,
    imp_or]
  constructor
  · rintro ⟨hv, ⟨s, ⟨hs, hcon⟩, ⟨⟨h1, h2⟩, h3⟩, h4⟩, h5⟩
    have h2' := (aV_iff hc hx hm hs).1 h2
    exact ⟨s, hm, hs, hcon, hv, h2'.2.2.1, h2, h1, h3, h5, h4⟩
  · rintro ⟨s, h⟩
    exact ⟨h.vld, ⟨s, ⟨h.hs, h.con⟩, ⟨⟨h.sel, h.aV⟩, h.rd⟩, h.rdS⟩, h.rdM⟩

theorem acc_iff_s {c : Cfg} (hc : CfgOk c) {p : Nat → Nat → Bool} {x : AIn α} (hx : AddrOk c x) {s : Nat}
    (hs : s < c.nS) : (slvVld c p x s && x.rd s) = true ↔ ∃ m, Acc c p x m s := by
  simp only [slvVld, mastersOf, Bool.and_eq_true, List.any_eq_true, List.mem_filter, List.mem_range, imp_or]
  constructor
  · rintro ⟨⟨⟨m, ⟨hm, hcon⟩, h1, h2⟩, h4⟩, h3⟩
    have h2' := (aV_iff hc hx hm hs).1 h2
    exact ⟨m, hm, hs, hcon, h2'.2.1, h2'.2.2.1, h2, h1, h3, h2'.2.2.2, h4⟩
  · rintro ⟨m, h⟩
    exact ⟨⟨⟨m, ⟨h.hm, h.con⟩, h.sel, h.aV⟩, h.rdS⟩, h.rd⟩

theorem acc_fun {c : Cfg} (hc : CfgOk c) {p : Nat → Nat → Bool} {x : AIn α} {m s s' : Nat} (h : Acc c p x m s)
    (h' : Acc c p x m s') : s = s' := hc.disjoint s s' _ h.hs h'.hs h.rng h'.rng

theorem sel_unique {c : Cfg} {p : Nat → Nat → Bool} (hp : PrioOk c p) {x : AIn α} {m m' s : Nat}
    (hm : m < c.nM) (hm' : m' < c.nM) (h : sel c p x s m = true ∧ aV c x s m = true)
    (h' : sel c p x s m' = true ∧ aV c x s m' = true) : m = m' := by
  obtain ⟨q, hq, ho⟩ := hp s
  obtain ⟨k, _, _, hk⟩ := SplitJoin.isSelected_unique hq ho ⟨m, hm, h.2⟩
  rw [hk m hm h, hk m' hm' h']

theorem acc_inj {c : Cfg} {p : Nat → Nat → Bool} (hp : PrioOk c p) {x : AIn α} {m m' s : Nat} (h : Acc c p x m s)
    (h' : Acc c p x m' s) : m = m' := sel_unique hp h.hm h'.hm ⟨h.sel, h.aV⟩ ⟨h'.sel, h'.aV⟩

theorem acc_req {c : Cfg} (hc : CfgOk c) {p : Nat → Nat → Bool} (hp : PrioOk c p) {x : AIn α} (hx : AddrOk c x)
    {m s : Nat} (h : Acc c p x m s) :
    slvReq c p x s = some ⟨(x.req m).addr - c.base s, (x.req m).info⟩ := by
  unfold slvReq
  match hf : (List.range c.nM).find? (fun m => c.con m s && (x.vld m && (aV c x s m && sel c p x s m && x.rd s))) with
  | none =>
    have := List.find?_eq_none.1 hf m (List.mem_range.2 h.hm)
    simp [h.con, h.vld, h.aV, h.sel, h.rd] at this
  | some k =>
    have k1 := List.find?_some hf
    have k2 := List.mem_range.1 (List.mem_of_find?_eq_some hf)
    simp only [Bool.and_eq_true] at k1
    have : k = m := sel_unique hp k2 h.hm ⟨k1.2.2.1.2, k1.2.2.1.1⟩ ⟨h.sel, h.aV⟩
    subst this
    simp only [Option.map_some, Option.some.injEq, Req.mk.injEq, and_true]
    exact (decode hc h.hs (hx k h.hm)).2 h.rng

theorem oneHot_of {n : Nat} {b : Nat → Bool} {k : Nat} (hk : k < n) (h : b k = true)
    (hu : ∀ j, j < n → b j = true → j = k) : OneHot.oneHotToBin n b = k := by
  have hn : 0 < n := by omega
  have hs := OneHot.oneHotToBin_lowest n hn b
  exact hu _ hs.2.1 (hs.1 ⟨k, hk, h⟩).1

theorem acc_pushS {c : Cfg} {p : Nat → Nat → Bool} (hp : PrioOk c p) {x : AIn α} {m s : Nat} (h : Acc c p x m s)
    (hS : hasS c s = true) : pushS c p x s = some m := by
  have ha : arb c p x s m = true := by simp [arb, h.con, h.sel, h.aV]
  unfold pushS
  rw [if_pos]
  · congr 1
    refine oneHot_of h.hm ha fun j hj hja => ?_
    simp only [arb, Bool.and_eq_true] at hja
    exact sel_unique hp hj h.hm hja.2 ⟨h.sel, h.aV⟩
  · simp only [hS, h.rd, h.rdS hS, Bool.and_true, Bool.true_and, anyN, List.any_eq_true]
    exact ⟨m, List.mem_range.2 h.hm, ha⟩

theorem pushS_acc {c : Cfg} (hc : CfgOk c) {p : Nat → Nat → Bool} {x : AIn α} (hx : AddrOk c x) {s k : Nat}
    (hs : s < c.nS) (h : pushS c p x s = some k) : ∃ m, Acc c p x m s := by
  unfold pushS at h
  split at h
  · next hc' =>
    simp only [Bool.and_eq_true, anyN, List.any_eq_true, arb] at hc'
    obtain ⟨⟨h1, ⟨m, hm, h2, h3, h4⟩, h5⟩, h6⟩ := hc'
    have h4' := (aV_iff hc hx (List.mem_range.1 hm) hs).1 h4
    exact ⟨m, List.mem_range.1 hm, hs, h2, h4'.2.1, h4'.2.2.1, h4, h3, h5, h4'.2.2.2, fun _ => h6⟩
  · simp at h

theorem acc_pushM {c : Cfg} (hc : CfgOk c) {p : Nat → Nat → Bool} {x : AIn α} (hx : AddrOk c x)
    {m s : Nat} (h : Acc c p x m s) (hM : hasM c m = true) : pushM c p x m = some s := by
  have hrd := (acc_iff_m hc hx h.hm).2 ⟨s, h⟩
  simp only [mRd, Bool.and_eq_true] at hrd
  unfold pushM
  rw [if_pos]
  · congr 1
    refine oneHot_of h.hs ?_ fun j hj hja => ?_
    · simp only [slvEn, h.con, Bool.true_and]
      exact (decode hc h.hs (hx m h.hm)).1.2 h.rng
    · simp only [slvEn, Bool.and_eq_true] at hja
      exact hc.disjoint j s _ hj h.hs ((decode hc hj (hx m h.hm)).1.1 hja.2) h.rng
  · simp [hM, hrd.2.1, h.vld, h.rdM hM]

theorem pushM_acc {c : Cfg} (hc : CfgOk c) {p : Nat → Nat → Bool} {x : AIn α} (hx : AddrOk c x) {m k : Nat}
    (hm : m < c.nM) (h : pushM c p x m = some k) : ∃ s, Acc c p x m s := by
  unfold pushM at h
  split at h
  · next hc' =>
    simp only [Bool.and_eq_true] at hc'
    obtain ⟨⟨h1, h2, h3⟩, h4⟩ := hc'
    refine (acc_iff_m hc hx hm).1 ?_
    simp [mRd, h2, h3, h4]
  · simp at h

/-! ## Accepted requests -/

/-- The slave connected to the master which has the address. -/
def owner (c : Cfg) (m a : Nat) : Option Nat :=
  (List.range c.nS).find? (fun s => c.con m s && decide (InRange c s a))

/-- Requests accepted in a cycle: pairs (master, slave which has the address). -/
def accepted (c : Cfg) (e : AIn α × AOut α) : List (Nat × Nat) :=
  (List.range c.nM).filterMap (fun m =>
    if e.1.vld m && e.2.mRd m then (owner c m (e.1.req m).addr).map (fun s => (m, s)) else none)

theorem mem_accepted {c : Cfg} (hc : CfgOk c) {p : Nat → Nat → Bool} {x : AIn α} (hx : AddrOk c x) {t : Nat × Nat} :
    t ∈ accepted c (x, aOut c p x) ↔ Acc c p x t.1 t.2 := by
  unfold accepted
  rw [List.mem_filterMap]
  constructor
  · rintro ⟨m, hm, h⟩
    have hm := List.mem_range.1 hm
    split at h
    case isFalse => simp at h
    rename_i h0
    obtain ⟨s, hs, rfl⟩ := Option.map_eq_some_iff.1 h
    replace h : (x.vld m && mRd c p x m) = true := h0
    obtain ⟨s', h'⟩ := (acc_iff_m hc hx hm).1 h
    have k1 := List.find?_some hs
    have k2 := List.mem_range.1 (List.mem_of_find?_eq_some hs)
    simp only [Bool.and_eq_true, decide_eq_true_eq] at k1
    have := hc.disjoint s s' _ k2 h'.hs k1.2 h'.rng
    exact this ▸ h'
  · intro h
    refine ⟨t.1, List.mem_range.2 h.hm, ?_⟩
    refine (if_pos (show (x.vld t.1 && mRd c p x t.1) = true from (acc_iff_m hc hx h.hm).2 ⟨_, h⟩)).trans ?_
    refine Option.map_eq_some_iff.2 ⟨t.2, ?_, rfl⟩
    unfold owner
    match hf : (List.range c.nS).find? (fun s => c.con t.1 s && decide (InRange c s (x.req t.1).addr)) with
    | none =>
      have := List.find?_eq_none.1 hf t.2 (List.mem_range.2 h.hs)
      simp [h.con, h.rng] at this
    | some k =>
      have k1 := List.find?_some hf
      have k2 := List.mem_range.1 (List.mem_of_find?_eq_some hf)
      simp only [Bool.and_eq_true, decide_eq_true_eq] at k1
      rw [hc.disjoint k t.2 _ k2 h.hs k1.2 h.rng]

theorem nodup_accepted (c : Cfg) (e : AIn α × AOut α) : (accepted c e).Nodup := by
  unfold accepted
  refine List.Nodup.filterMap ?_ List.nodup_range
  intro a a' b hb hb'
  simp only [Option.mem_def, Option.ite_none_right_eq_some, Option.map_eq_some_iff] at hb hb'
  obtain ⟨_, s, _, rfl⟩ := hb
  obtain ⟨_, s', _, h⟩ := hb'
  exact (Prod.mk.inj h).1.symm

theorem eq_singleton {γ : Type u} {l : List γ} {z : γ} (hn : l.Nodup) (hz : z ∈ l) (hu : ∀ y ∈ l, y = z) : l = [z] := by
  match l, hn, hz, hu with
  | [a], _, _, hu => rw [hu a (by simp)]
  | a :: b :: l, hn, _, hu =>
    have e1 := hu a (by simp)
    have e2 := hu b (by simp)
    rw [e1, e2] at hn
    simp at hn

theorem accepted_pushM {c : Cfg} (hc : CfgOk c) {p : Nat → Nat → Bool} {x : AIn α} (hx : AddrOk c x)
    {m : Nat} (hm : m < c.nM) (hM : hasM c m = true) :
    (pushM c p x m).toList = ((accepted c (x, aOut c p x)).filter (fun t => t.1 == m)).map Prod.snd := by
  by_cases h : ∃ s, Acc c p x m s
  · obtain ⟨s, h⟩ := h
    rw [acc_pushM hc hx h hM, eq_singleton (z := (m, s)) ((nodup_accepted c _).filter _)]
    · rfl
    · exact List.mem_filter.2 ⟨(mem_accepted hc hx).2 h, by simp⟩
    · intro y hy
      obtain ⟨hy, e⟩ := List.mem_filter.1 hy
      have hy := (mem_accepted hc hx).1 hy
      have e : y.1 = m := by simpa using e
      rw [e] at hy
      exact Prod.ext e (acc_fun hc hy h)
  · have h1 : pushM c p x m = none := by
      match hp : pushM c p x m with
      | none => rfl
      | some k => exact absurd (pushM_acc hc hx hm hp) h
    have h2 : (accepted c (x, aOut c p x)).filter (fun t => t.1 == m) = [] := by
      rw [List.filter_eq_nil_iff]
      intro t ht e
      have e : t.1 = m := by simpa using e
      exact h ⟨t.2, e ▸ (mem_accepted hc hx).1 ht⟩
    rw [h1, h2]; rfl

theorem accepted_pushS {c : Cfg} (hc : CfgOk c) {p : Nat → Nat → Bool} (hp : PrioOk c p) {x : AIn α}
    (hx : AddrOk c x) {s : Nat} (hs : s < c.nS) (hS : hasS c s = true) :
    (pushS c p x s).toList = ((accepted c (x, aOut c p x)).filter (fun t => t.2 == s)).map Prod.fst := by
  by_cases h : ∃ m, Acc c p x m s
  · obtain ⟨m, h⟩ := h
    rw [acc_pushS hp h hS, eq_singleton (z := (m, s)) ((nodup_accepted c _).filter _)]
    · rfl
    · exact List.mem_filter.2 ⟨(mem_accepted hc hx).2 h, by simp⟩
    · intro y hy
      obtain ⟨hy, e⟩ := List.mem_filter.1 hy
      have hy := (mem_accepted hc hx).1 hy
      have e : y.2 = s := by simpa using e
      rw [e] at hy
      exact Prod.ext (acc_inj hp hy h) e
  · have h1 : pushS c p x s = none := by
      match hp : pushS c p x s with
      | none => rfl
      | some k => exact absurd (pushS_acc hc hx hs hp) h
    have h2 : (accepted c (x, aOut c p x)).filter (fun t => t.2 == s) = [] := by
      rw [List.filter_eq_nil_iff]
      intro t ht e
      have e : t.2 = s := by simpa using e
      exact h ⟨t.1, e ▸ (mem_accepted hc hx).1 ht⟩
    rw [h1, h2]; rfl

/-! ## The data crossbars of the matrixes -/

def swapped (l : List (Nat × Nat)) : List (Nat × Nat) := l.map Prod.swap

theorem swapped_fst (l : List (Nat × Nat)) (s : Nat) :
    ((swapped l).filter (fun t => t.1 == s)).map Prod.snd = (l.filter (fun t => t.2 == s)).map Prod.fst := by
  unfold swapped; rw [List.filter_map, List.map_map]; rfl
theorem swapped_snd (l : List (Nat × Nat)) (s : Nat) :
    ((swapped l).filter (fun t => t.2 == s)).map Prod.fst = (l.filter (fun t => t.1 == s)).map Prod.snd := by
  unfold swapped; rw [List.filter_map, List.map_map]; rfl

theorem readMatrix_xbar {β : Type v} {c : Cfg} (hc : CfgOk c) :
    HasXbar (readMatrix c (α := α) (β := β)) (backCfg c) RSt.x RIn.r ROut.r
      (fun e => swapped (accepted c (e.1.a, e.2.a))) (fun s => PrioOk c s.p) (fun i => AddrOk c i.a) := by
  refine ⟨fun s i h _ => prioOk_next h, fun s i => rfl, fun s i hp hx => ⟨_, _, rfl, ?_, ?_, ?_⟩⟩
  · intro t ht
    obtain ⟨q, hq, rfl⟩ := List.mem_map.1 ht
    have := (mem_accepted hc hx).1 hq
    exact ⟨this.hs, this.hm, this.con⟩
  · intro k hk h
    rw [swapped_fst]; exact accepted_pushS hc hp hx hk h
  · intro k hk h
    rw [swapped_snd]; exact accepted_pushM hc hx hk h

theorem writeMatrix_xbar {β γ : Type v} {c : Cfg} (hc : CfgOk c) :
    HasXbar (writeMatrix c (α := α) (β := β) (γ := γ)) (fwdCfg c) WSt.w WIn.w WOut.w
      (fun e => accepted c (e.1.a, e.2.a)) (fun s => PrioOk c s.p) (fun i => AddrOk c i.a) := by
  refine ⟨fun s i h _ => prioOk_next h, fun s i => rfl, fun s i hp hx => ⟨_, _, rfl, ?_, ?_, ?_⟩⟩
  · intro t ht
    have := (mem_accepted hc hx).1 ht
    exact ⟨this.hm, this.hs, this.con⟩
  · intro k hk h; exact accepted_pushM hc hx hk h
  · intro k hk h; exact accepted_pushS hc hp hx hk h

theorem writeMatrix_bxbar {β γ : Type v} {c : Cfg} (hc : CfgOk c) :
    HasXbar (writeMatrix c (α := α) (β := β) (γ := γ)) (backCfg c) WSt.b (fun i => allLast i.b) WOut.b
      (fun e => swapped (accepted c (e.1.a, e.2.a))) (fun s => PrioOk c s.p) (fun i => AddrOk c i.a) := by
  refine ⟨fun s i h _ => prioOk_next h, fun s i => rfl, fun s i hp hx => ⟨_, _, rfl, ?_, ?_, ?_⟩⟩
  · intro t ht
    obtain ⟨q, hq, rfl⟩ := List.mem_map.1 ht
    have := (mem_accepted hc hx).1 hq
    exact ⟨this.hs, this.hm, this.con⟩
  · intro k hk h
    rw [swapped_fst]; exact accepted_pushS hc hp hx hk h
  · intro k hk h
    rw [swapped_snd]; exact accepted_pushM hc hx hk h

end
end Verif.AxiMatrix
