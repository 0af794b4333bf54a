import Verif.CacheRead
/-!
# C430, C431: reads of the cache
-/
namespace Verif.CacheRead
open Verif StreamNode

/-- result of the lookup which was taken in the cycle -/
def accIn (e : In × Out) : List Req := if e.1.resVld && e.2.resRd then [e.1.res] else []

/-- word which was sent on `s.r` in the cycle -/
def respIn (e : In × Out) : List Req := if e.1.sRd then e.2.r.toList else []

/-- reads taken, reads answered in a run -/
def acc (is : List In) : List Req := (sys.trace init is).flatMap accIn
def resp (is : List In) : List Req := (sys.trace init is).flatMap respIn

/-- reads with the id which hit/miss -/
def kind (id : Nat) (f : Bool) (r : Req) : Bool := r.id == id && r.found == f

/-- C430: words for reads with the same id are returned in order of the reads (AXI ordering rule) -/
def orderSpec : Prop := ∀ (is : List In) (id : Nat), (resp is).filter (fun r => r.id == id) <+: (acc is).filter (fun r => r.id == id)

/-- queue of the kind -/
def queue (f : Bool) (s : St) : List Req := if f then s.hq else s.mq

/-! ## one cycle -/

theorem resRd_eq (s : St) (i : In) : (out s i).resRd = ((i.arRd || (i.resVld && i.res.found)) && (i.daRd || (i.resVld && !i.res.found))) := by
  simp [out, node, Node.rdOf, Node.ackForMaster, maskSkip, Io.present, Io.extraOk]

theorem da_eq (s : St) (i : In) : ((out s i).daVld && i.daRd) = (i.resVld && (out s i).resRd && i.res.found) := by
  rw [resRd_eq]
  simp only [out, node, Node.vldOf, Node.ackForSlave, maskSkip, Io.extraOk]
  cases i.resVld <;> cases i.res.found <;> cases i.arRd <;> cases i.daRd <;> rfl

theorem ar_eq (s : St) (i : In) : ((out s i).arVld && i.arRd) = (i.resVld && (out s i).resRd && !i.res.found) := by
  rw [resRd_eq]
  simp only [out, node, Node.vldOf, Node.ackForSlave, maskSkip, Io.extraOk]
  cases i.resVld <;> cases i.res.found <;> cases i.arRd <;> cases i.daRd <;> rfl

structure Inv (s : St) : Prop where
  h : ∀ r ∈ s.hq, r.found = true
  m : ∀ r ∈ s.mq, r.found = false

/-- part of words from the data array / from the memory which was sent in the cycle -/
def sentH (s : St) (i : In) : List Req := if i.sRd then (hit s i).toList else []
def sentM (s : St) (i : In) : List Req := if i.sRd && (hit s i).isNone then (miss s i).toList else []

theorem respIn_eq (s : St) (i : In) : respIn (i, out s i) = sentH s i ++ sentM s i := by
  unfold respIn sentH sentM
  cases i.sRd
  · rfl
  · simp only [out, if_true]
    cases hit s i <;> simp

theorem hq_next (s : St) (i : In) : s.hq ++ (accIn (i, out s i)).filter (fun r => r.found) = sentH s i ++ (next s i).hq := by
  have e : (accIn (i, out s i)).filter (fun r => r.found) = if (out s i).daVld && i.daRd then [i.res] else [] := by
    rw [da_eq]
    unfold accIn
    cases i.resVld <;> cases (out s i).resRd <;> cases h : i.res.found <;> simp [h]
  rw [e]
  unfold next
  dsimp only
  rw [← List.append_assoc]
  congr 1
  unfold sentH hit
  simp only [out]
  by_cases h1 : i.sRd = true
  · by_cases h2 : i.hVld = true
    · cases s.hq <;> simp [h1, h2]
    · simp [h2]
  · simp [h1]

theorem split_erase (l : List Req) (k : Nat) (r : Req) (p : Req → Bool) (h : l[k]? = some r)
    (ha : ∀ q ∈ l.take k, q.id ≠ r.id) (hp : ∀ q, p q = true → p r = true → q.id = r.id) :
    l.filter p = [r].filter p ++ (l.eraseIdx k).filter p := by
  induction l generalizing k with
  | nil => simp at h
  | cons x l ih =>
    cases k with
    | zero =>
      simp only [List.getElem?_cons_zero, Option.some.injEq] at h
      subst h
      simp [List.filter_cons]
      split <;> simp
    | succ k =>
      simp only [List.getElem?_cons_succ] at h
      have hx : x.id ≠ r.id := ha x (by simp)
      have hih := ih k h (fun q hq => ha q (by simp [hq]))
      simp only [List.eraseIdx_cons_succ]
      by_cases hpx : p x = true
      · have hr : ¬ p r = true := fun hr => hx (hp x hpx hr)
        rw [List.filter_cons_of_pos hpx, List.filter_cons_of_pos hpx, hih]
        simp [hr]
      · rw [List.filter_cons_of_neg hpx, List.filter_cons_of_neg hpx, hih]

/-- what the memory offers is an outstanding read and it is the oldest one with its id -/
theorem miss_some (s : St) (i : In) (r : Req) (h : miss s i = some r) :
    ∃ k, i.mSel = some k ∧ s.mq[k]? = some r ∧ ∀ q ∈ s.mq.take k, q.id ≠ r.id := by
  unfold miss at h
  cases hk : i.mSel with
  | none => rw [hk] at h; simp at h
  | some k =>
    rw [hk] at h
    simp only at h
    cases hr : s.mq[k]? with
    | none => rw [hr] at h; simp at h
    | some r' =>
      rw [hr] at h
      simp only at h
      by_cases hc : (s.mq.take k).all (fun q => q.id != r'.id) = true
      · rw [if_pos hc] at h
        obtain rfl := Option.some.inj h
        refine ⟨k, rfl, hr, fun q hq => ?_⟩
        have := List.all_eq_true.1 hc q hq
        simpa using this
      · rw [if_neg hc] at h; simp at h

theorem mq_next (s : St) (i : In) (p : Req → Bool) (id : Nat) (hp : ∀ q, p q = true → q.id = id) :
    s.mq.filter p ++ ((accIn (i, out s i)).filter (fun r => !r.found)).filter p = (sentM s i).filter p ++ ((next s i).mq).filter p := by
  have e : (accIn (i, out s i)).filter (fun r => !r.found) = if (out s i).arVld && i.arRd then [i.res] else [] := by
    rw [ar_eq]
    unfold accIn
    cases i.resVld <;> cases (out s i).resRd <;> cases h : i.res.found <;> simp [h]
  rw [e]
  unfold next
  dsimp only
  rw [List.filter_append, ← List.append_assoc]
  congr 1
  unfold sentM
  rw [show (out s i).mRd = (i.sRd && (hit s i).isNone) from rfl]
  cases hm : miss s i with
  | none => simp
  | some r =>
    by_cases hc : (i.sRd && (hit s i).isNone) = true
    rotate_left
    · rw [if_neg hc, Option.isSome_some, Bool.true_and, if_neg hc]; rfl
    · obtain ⟨k, hk, hr, ha⟩ := miss_some s i r hm
      rw [if_pos hc, Option.isSome_some, Bool.true_and, if_pos hc]
      simp only [hk, Option.toList_some, Option.getD_some]
      exact split_erase _ _ _ _ hr ha (fun q h1 h2 => (hp q h1).trans (hp r h2).symm)

theorem inv_next (s : St) (i : In) (h : Inv s) : Inv (next s i) := by
  constructor
  · intro r hr
    unfold next at hr
    dsimp only at hr
    rw [da_eq] at hr
    rcases List.mem_append.1 hr with h1 | h1
    · split at h1
      · exact h.h r (List.mem_of_mem_tail h1)
      · exact h.h r h1
    · split at h1
      · next hc =>
        simp only [Bool.and_eq_true] at hc
        simp only [List.mem_singleton] at h1
        rw [h1]; exact hc.2
      · simp at h1
  · intro r hr
    unfold next at hr
    dsimp only at hr
    rw [ar_eq] at hr
    rcases List.mem_append.1 hr with h1 | h1
    · split at h1
      · exact h.m r (List.mem_of_mem_eraseIdx h1)
      · exact h.m r h1
    · split at h1
      · next hc =>
        simp only [Bool.and_eq_true, Bool.not_eq_true'] at hc
        simp only [List.mem_singleton] at h1
        rw [h1]; exact hc.2
      · simp at h1

theorem sentH_found (s : St) (i : In) (h : Inv s) : ∀ r ∈ sentH s i, r.found = true := by
  intro r hr
  unfold sentH hit at hr
  split at hr
  · split at hr
    · exact h.h r (List.mem_of_mem_head? (by simpa using hr))
    · simp at hr
  · simp at hr

theorem sentM_found (s : St) (i : In) (h : Inv s) : ∀ r ∈ sentM s i, r.found = false := by
  intro r hr
  unfold sentM at hr
  split at hr
  · cases hm : miss s i with
    | none => rw [hm] at hr; simp at hr
    | some q =>
      rw [hm] at hr
      simp only [Option.toList_some, List.mem_singleton] at hr
      subst hr
      obtain ⟨k, _, hk, _⟩ := miss_some s i _ hm
      exact h.m _ (List.mem_of_getElem? hk)
  · simp at hr

theorem filter_none (l : List Req) (p : Req → Bool) (h : ∀ r ∈ l, p r = false) : l.filter p = [] := by
  rw [List.filter_eq_nil_iff]; intro r hr; simp [h r hr]

/-- one cycle, reads of one kind -/
theorem kind_next (id : Nat) (f : Bool) (s : St) (i : In) (h : Inv s) :
    (queue f s).filter (kind id f) ++ (accIn (i, out s i)).filter (kind id f) =
      (respIn (i, out s i)).filter (kind id f) ++ (queue f (next s i)).filter (kind id f) := by
  rw [respIn_eq, List.filter_append]
  cases f
  · have e1 : (sentH s i).filter (kind id false) = [] :=
      filter_none _ _ (fun r hr => by simp [kind, sentH_found s i h r hr])
    have := mq_next s i (kind id false) id (fun q hq => by simp [kind] at hq; exact hq.1)
    rw [e1, List.nil_append]
    unfold queue
    simp only [Bool.false_eq_true, if_false]
    rw [← this]
    congr 1
    rw [List.filter_filter]
    congr 1
    funext r
    cases hr : r.found <;> simp [kind, hr]
  · have e1 : (sentM s i).filter (kind id true) = [] :=
      filter_none _ _ (fun r hr => by simp [kind, sentM_found s i h r hr])
    have := congrArg (List.filter (kind id true)) (hq_next s i)
    rw [List.filter_append, List.filter_append] at this
    rw [e1, List.append_nil]
    unfold queue
    simp only [if_true]
    rw [← this]
    congr 1
    rw [List.filter_filter]
    congr 1
    funext r
    cases hr : r.found <;> simp [kind, hr]

theorem inv_final (is : List In) : Inv (sys.final init is) :=
  sys.inv_final Inv (fun _ => True) (fun s i h _ => inv_next s i h) is init ⟨by simp [init], by simp [init]⟩ (fun _ _ => trivial)

theorem acc_snoc (is : List In) (i : In) : acc (is ++ [i]) = acc is ++ accIn (i, out (sys.final init is) i) := by
  unfold acc; rw [Machine.trace_snoc]; simp [Machine.outAfter, sys]

theorem resp_snoc (is : List In) (i : In) : resp (is ++ [i]) = resp is ++ respIn (i, out (sys.final init is) i) := by
  unfold resp; rw [Machine.trace_snoc]; simp [Machine.outAfter, sys]

theorem final_snoc (is : List In) (i : In) : sys.final init (is ++ [i]) = next (sys.final init is) i := by
  rw [Machine.final_append]; rfl

theorem snoc_ind {P : List In → Prop} (h0 : P []) (hs : ∀ l i, P l → P (l ++ [i])) (l : List In) : P l := by
  rw [← List.reverse_reverse l]
  induction l.reverse with
  | nil => exact h0
  | cons x l ih => rw [List.reverse_cons]; exact hs _ _ ih

/-- reads of one kind in a run -/
theorem kind_run (id : Nat) (f : Bool) (is : List In) :
    (acc is).filter (kind id f) = (resp is).filter (kind id f) ++ (queue f (sys.final init is)).filter (kind id f) := by
  induction is using snoc_ind with
  | h0 => cases f <;> rfl
  | hs l i ih =>
    rw [acc_snoc, resp_snoc, final_snoc, List.filter_append, List.filter_append, ih, List.append_assoc, List.append_assoc,
      kind_next id f _ i (inv_final l)]

/-! ## properties -/

/-- C430: the word of a hit overtakes the word of a miss with the same id -/
theorem order_violated : ¬ orderSpec := by
  intro h
  have := h [⟨true, ⟨0, 0, false, 0⟩, true, true, false, none, true, true⟩, ⟨true, ⟨0, 8, true, 0⟩, true, true, false, none, true, true⟩,
    ⟨false, ⟨0, 0, false, 0⟩, true, true, true, none, true, true⟩] 0
  revert this
  decide +kernel

/-- C430: reads with the same id which hit are answered in order and each at most once, the same for reads which miss; what was not
answered is pending. Missing: order between a hit and a miss with the same id. -/
theorem order_partial (is : List In) (id : Nat) (f : Bool) :
    (resp is).filter (kind id f) <+: (acc is).filter (kind id f) ∧
      (acc is).filter (kind id f) = (resp is).filter (kind id f) ++ (queue f (sys.final init is)).filter (kind id f) :=
  ⟨⟨_, (kind_run id f is).symm⟩, kind_run id f is⟩

/-- The master never sends a read with the id while a read of the other kind with this id is not answered. -/
def NoMix (is : List In) (id : Nat) : Prop :=
  ∀ a i b, is = a ++ i :: b → ∀ r ∈ accIn (i, sys.outAfter init a i), r.id = id →
    ((acc a).filter (kind id (!r.found))).length = ((resp a).filter (kind id (!r.found))).length

theorem id_split (l : List Req) (id : Nat) (f : Bool) (h : l.filter (kind id (!f)) = []) :
    l.filter (fun r => r.id == id) = l.filter (kind id f) := by
  apply List.filter_congr
  intro r hr
  have := List.filter_eq_nil_iff.1 h r hr
  cases h1 : r.id == id <;> cases h2 : r.found <;> cases f <;> simp_all [kind]

theorem accIn_one (e : In × Out) : accIn e = [] ∨ accIn e = [e.1.res] := by
  unfold accIn; split <;> simp

theorem respIn_mem (s : St) (i : In) (r : Req) (hr : r ∈ respIn (i, out s i)) : r ∈ s.hq ∨ r ∈ s.mq := by
  rw [respIn_eq] at hr
  rcases List.mem_append.1 hr with h | h
  · left
    unfold sentH hit at h
    split at h
    · split at h
      · exact List.mem_of_mem_head? (by simpa using h)
      · simp at h
    · simp at h
  · right
    unfold sentM at h
    split at h
    · cases hm : miss s i with
      | none => rw [hm] at h; simp at h
      | some q =>
        rw [hm] at h
        simp only [Option.toList_some, List.mem_singleton] at h
        subst h
        obtain ⟨k, _, hk, _⟩ := miss_some s i _ hm
        exact List.mem_of_getElem? hk
    · simp at h

/-- pending reads of the id are of one kind -/
def Mono (id : Nat) (s : St) (f : Bool) : Prop := (queue (!f) s).filter (kind id (!f)) = []

theorem kind_ne (l : List Req) (id : Nat) (f : Bool) (h : ∀ r ∈ l, r.found = f) : l.filter (kind id (!f)) = [] :=
  filter_none _ _ (fun r hr => by simp [kind, h r hr])

theorem queue_found (s : St) (h : Inv s) (f : Bool) : ∀ r ∈ queue f s, r.found = f := by
  cases f
  · exact h.m
  · exact h.h

/-- C430: with this master all words of the id are in order -/
theorem order_noMix (is : List In) (id : Nat) (hn : NoMix is id) :
    (resp is).filter (fun r => r.id == id) <+: (acc is).filter (fun r => r.id == id) := by
  suffices H : NoMix is id → ∃ f, Mono id (sys.final init is) f ∧
      (acc is).filter (fun r => r.id == id) = (resp is).filter (fun r => r.id == id) ++ (queue f (sys.final init is)).filter (kind id f) by
    obtain ⟨f, _, e⟩ := H hn
    exact ⟨_, e.symm⟩
  clear hn
  induction is using snoc_ind with
  | h0 => intro _; exact ⟨true, rfl, rfl⟩
  | hs l i ih =>
    intro hn
    obtain ⟨f, hm, e⟩ := ih (fun a j b hl r hr hid => hn a j (b ++ [i]) (by rw [hl]; simp) r hr hid)
    have hinv := inv_final l
    have hacc := hn l i [] rfl
    simp only [Machine.outAfter, sys] at hacc
    rw [acc_snoc, resp_snoc, final_snoc, List.filter_append, List.filter_append, e]
    -- kind of the new state: of the new read, or as it was
    have key : ∃ g, Mono id (sys.final init l) g ∧ (accIn (i, out (sys.final init l) i)).filter (kind id (!g)) = [] ∧
        (queue f (sys.final init l)).filter (kind id f) = (queue g (sys.final init l)).filter (kind id g) := by
      rcases accIn_one (i, out (sys.final init l) i) with h0 | h1
      · exact ⟨f, hm, by rw [h0]; rfl, rfl⟩
      · by_cases hid : i.res.id = id
        · refine ⟨i.res.found, ?_, ?_, ?_⟩
          · have h2 := hacc i.res (by rw [show (⟨out, next⟩ : Machine St In Out) = sys from rfl, h1]; simp) hid
            rw [kind_run, List.length_append] at h2
            exact List.eq_nil_of_length_eq_zero (by unfold Mono at *; omega)
          · rw [h1]; exact kind_ne _ _ _ (by simp)
          · have h2 := hacc i.res (by rw [show (⟨out, next⟩ : Machine St In Out) = sys from rfl, h1]; simp) hid
            rw [kind_run, List.length_append] at h2
            have h3 : (queue (!i.res.found) (sys.final init l)).filter (kind id (!i.res.found)) = [] :=
              List.eq_nil_of_length_eq_zero (by omega)
            unfold Mono at hm
            by_cases hfg : f = i.res.found
            · rw [hfg]
            · have hfn : f = !i.res.found := by cases f <;> cases hg : i.res.found <;> simp_all
              subst hfn
              rw [h3]
              rw [Bool.not_not] at hm
              exact hm.symm
        · exact ⟨f, hm, by rw [h1]; simp [kind, hid], rfl⟩
    obtain ⟨g, hg, ha, hq⟩ := key
    rw [hq]
    have hk := kind_next id g (sys.final init l) i hinv
    have hk' := kind_next id (!g) (sys.final init l) i hinv
    rw [ha, List.append_nil] at hk'
    unfold Mono at hg
    rw [hg] at hk'
    have hk2 := List.append_eq_nil_iff.1 hk'.symm
    refine ⟨g, hk2.2, ?_⟩
    rw [id_split _ id g ha, id_split (respIn _) id g hk2.1, List.append_assoc, List.append_assoc, hk]

/-- two reads with the id 0 which miss and a hit with the id 1 -/
def exRun : List In :=
  [⟨true, ⟨0, 0, false, 0⟩, true, true, false, none, true, true⟩, ⟨true, ⟨1, 8, true, 0⟩, true, true, false, none, true, true⟩,
    ⟨true, ⟨0, 16, false, 0⟩, true, true, true, none, true, true⟩, ⟨false, ⟨0, 0, false, 0⟩, true, true, true, some 0, true, true⟩,
    ⟨false, ⟨0, 0, false, 0⟩, true, true, true, some 0, true, true⟩]

example : (acc exRun).map (fun r => r.addr) = [0, 8, 16] ∧ (resp exRun).map (fun r => r.addr) = [8, 0, 16] := by decide +kernel

example : NoMix exRun 0 := by
  intro a i b h r hr hid
  have h1 : a.length ≤ 4 := by have := congrArg List.length h; simp [exRun] at this; omega
  have ha : a = exRun.take a.length := by rw [h]; simp
  have hi : exRun[a.length]? = some i := by rw [h]; simp
  rw [ha] at hr ⊢
  generalize a.length = n at *
  clear h ha
  rcases (by omega : n = 0 ∨ n = 1 ∨ n = 2 ∨ n = 3 ∨ n = 4) with rfl | rfl | rfl | rfl | rfl <;>
    (simp only [exRun, List.getElem?_cons_succ, List.getElem?_cons_zero, Option.some.injEq] at hi; subst hi
     revert hid; revert hr; revert r; decide +kernel)

/-! ## LRU -/

/-- increment of the LRU record in the cycle: address and way -/
def incrIn (e : In × Out) : List (Nat × Nat) := if e.2.lruVld && e.1.lruRd then [(e.2.lruAddr, e.2.lruWay)] else []

/-- hit which was taken in the cycle -/
def hitIn (e : In × Out) : List (Nat × Nat) := if e.1.resVld && e.2.resRd && e.1.res.found then [(e.1.res.addr, e.1.res.way)] else []

/-- the result of a lookup stays until it is taken and it was taken in the end of the run -/
def Held : List (In × Out) → Prop
  | [] => True
  | [e] => e.1.resVld = true → e.2.resRd = true
  | e :: e' :: l => (e.1.resVld = true → e.2.resRd = false → e'.1.resVld = true ∧ e'.1.res = e.1.res) ∧ Held (e' :: l)

instance : (l : List (In × Out)) → Decidable (Held l)
  | [] => isTrue trivial
  | [e] => by unfold Held; infer_instance
  | e :: e' :: l => by
    have := instDecidableHeld (e' :: l)
    unfold Held; infer_instance

/-- C431: each read which hits increments the LRU record of its set once -/
def lruSpec : Prop := ∀ is : List In, Held (sys.trace init is) →
  (sys.trace init is).flatMap incrIn = (sys.trace init is).flatMap hitIn

/-- C431: an increment is lost if the LRU array is not ready -/
theorem lru_lost : ∃ is : List In, Held (sys.trace init is) ∧ (sys.trace init is).flatMap hitIn = [(8, 1)] ∧
    (sys.trace init is).flatMap incrIn = [] :=
  ⟨[⟨true, ⟨0, 8, true, 1⟩, true, true, false, none, true, false⟩], by decide +kernel⟩

/-- C431: the record is incremented in each cycle in which the read waits for the data array -/
theorem lru_repeated : ∃ is : List In, Held (sys.trace init is) ∧ (sys.trace init is).flatMap hitIn = [(8, 1)] ∧
    (sys.trace init is).flatMap incrIn = [(8, 1), (8, 1), (8, 1)] :=
  ⟨[⟨true, ⟨0, 8, true, 1⟩, false, true, false, none, true, true⟩, ⟨true, ⟨0, 8, true, 1⟩, false, true, false, none, true, true⟩,
    ⟨true, ⟨0, 8, true, 1⟩, true, true, false, none, true, true⟩], by decide +kernel⟩

theorem lru_violated : ¬ lruSpec := by
  intro h
  obtain ⟨is, h1, h2, h3⟩ := lru_lost
  have := h is h1
  rw [h2, h3] at this
  simp at this

/-- C431: it holds if for each hit the data array and the LRU array are ready; missing: the other cases -/
theorem lru_partial (is : List In) (h : ∀ i ∈ is, i.resVld = true → i.res.found = true → i.daRd = true ∧ i.lruRd = true) :
    (sys.trace init is).flatMap incrIn = (sys.trace init is).flatMap hitIn := by
  generalize init = s
  induction is generalizing s with
  | nil => rfl
  | cons i is ih =>
    simp only [Machine.trace_cons, List.flatMap_cons]
    rw [ih (fun j hj => h j (List.mem_cons_of_mem _ hj))]
    congr 1
    have h1 := h i (by simp)
    unfold incrIn hitIn
    have e1 : (sys.out s i).resRd = _ := resRd_eq s i
    have e2 : (sys.out s i).lruVld = (i.resVld && i.res.found) := rfl
    have e3 : (sys.out s i).lruAddr = i.res.addr := rfl
    have e4 : (sys.out s i).lruWay = i.res.way := rfl
    rw [e1, e2, e3, e4]
    by_cases hv : i.resVld = true
    · by_cases hf : i.res.found = true
      · simp [hv, hf, h1 hv hf]
      · simp [hf]
    · simp [hv]

example : (sys.trace init exRun).flatMap incrIn = [(8, 0)] := by decide +kernel

/-- Each increment is of the line which was found for the waiting read. -/
theorem lru_sound (is : List In) (i : In) (a w : Nat) (h : (a, w) ∈ incrIn (i, sys.outAfter init is i)) :
    i.resVld = true ∧ i.res.found = true ∧ i.res.addr = a ∧ i.res.way = w := by
  change (a, w) ∈ (if (i.resVld && i.res.found && i.lruRd) = true then [(i.res.addr, i.res.way)] else []) at h
  split at h
  · next hc =>
    simp only [Bool.and_eq_true] at hc
    simp only [List.mem_singleton, Prod.mk.injEq] at h
    exact ⟨hc.1.1, hc.1.2, h.1.symm, h.2.symm⟩
  · simp at h

end Verif.CacheRead
