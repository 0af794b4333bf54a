import Verif.AxiToAvmmRead

/-!
# `Axi4_to_AvalonMm`: claims C179 - C182
-/

namespace Verif.AxiToAvmm

open Verif

variable {α : Type}

def st0 (c : Cfg) : St Nat := ⟨⟨0, 0, 0, 0, false, false⟩, c.depth, [], [], 0, 0, false⟩
theorem st0_init (c : Cfg) : IsInit c (st0 c) := ⟨rfl, rfl, rfl, rfl, rfl⟩

/-- nothing happens, the Avalon slave is ready -/
def idleIn : In Nat := ⟨false, ⟨0, 0, 0⟩, false, ⟨0, 0, 0⟩, false, 0, false, true, true, false, false, 0, true, false⟩

/-! ## C179 read requests -/

/-- Each accepted read request is performed on Avalon exactly once, in order, with its address and length; at most
one of them is waiting and it is the one which is presented. -/
theorem reads_forwarded (c : Cfg) (s₀ : St α) (hi : IsInit c s₀) (is : List (In α)) (x : In α) :
    let tr := (machine c).trace s₀ is
    let o := (machine c).outAfter s₀ is x
    avReads tr ++ given o.read (o.address, o.burst) = (ars tr).map (fun a => (a.addr, a.len + 1)) :=
  reads_inv c s₀ hi is

def demo1 : List (In Nat) :=
  [{ idleIn with arV := true, ar := ⟨8, 1, 1⟩ }, { idleIn with arV := true, ar := ⟨16, 2, 0⟩, wait := true }]
example : IsInit ⟨4, true⟩ (st0 ⟨4, true⟩) ∧ ars ((machine ⟨4, true⟩).trace (st0 ⟨4, true⟩) demo1) = [⟨8, 1, 1⟩] ∧
    ((machine ⟨4, true⟩).outAfter (st0 ⟨4, true⟩) demo1 idleIn).read = true ∧
    avReads ((machine ⟨4, true⟩).trace (st0 ⟨4, true⟩) (demo1 ++ [idleIn])) = [(8, 2)] :=
  ⟨st0_init _, by decide, by decide, by decide⟩

/-! ## C180 writes -/

/-- The words written on Avalon are the words of the accepted write requests, in order, with the accepted data; a
response is sent exactly for each complete burst. -/
def WritesOk (c : Cfg) : Prop :=
  ∀ (s₀ : St Nat), IsInit c s₀ → ∀ is : List (In Nat),
    let tr := (machine c).trace s₀ is
    (avWrites tr).map (fun w => (w.1, w.2.1)) <+: words (aws tr) ∧
    (avWrites tr).map (fun w => w.2.2) = (ws tr).map Prod.fst ∧
    ((ws tr).map Prod.snd <+: lasts (aws tr) → bs tr = doneIds (aws tr) (ws tr).length)

/-- a read request waits for a place in the fifo, a write is performed without accepting its request -/
def badWrite : List (In Nat) :=
  [{ idleIn with arV := true, ar := ⟨0, 0, 1⟩ },
   { idleIn with arV := true, ar := ⟨4, 0, 0⟩, awV := true, aw := ⟨8, 3, 0⟩, wV := true, wData := 7, wLast := true },
   { idleIn with arV := true, ar := ⟨4, 0, 0⟩, awV := true, aw := ⟨8, 3, 0⟩, wV := true, wData := 7, wLast := true }]

/-- With the priority of reads (the default) the claim does not hold. -/
theorem writes_fails : ¬ WritesOk ⟨2, true⟩ := by
  intro h
  have := (h (st0 _) (st0_init _) badWrite).1
  revert this
  decide

/-- With the priority of writes, or if no read request is waiting together with a write, the claim holds. -/
theorem writes_partial (c : Cfg) (s₀ : St α) (hi : IsInit c s₀) (is : List (In α))
    (hb : c.rdPrio = true → ∀ e ∈ (machine c).trace s₀ is, NoBlockedRead e) :
    let tr := (machine c).trace s₀ is
    (avWrites tr).map (fun w => (w.1, w.2.1)) <+: words (aws tr) ∧
    (avWrites tr).map (fun w => w.2.2) = (ws tr).map Prod.fst ∧
    ((ws tr).map Prod.snd <+: lasts (aws tr) → bs tr = doneIds (aws tr) (ws tr).length) := by
  intro tr
  obtain ⟨pre, h⟩ := winv_all c s₀ hi is hb
  refine ⟨?_, h.data, ?_⟩
  · rw [h.wr, h.aws, words_append]
    rw [List.prefix_append_right_inj]
    unfold doneW
    rcases Bool.eq_false_or_eq_true (busyW ((machine c).final s₀ is).tmp) with hz | hz
    · rw [hz]
      simp only [if_true, given_true, words, cur, List.flatMap_cons, List.flatMap_nil, List.append_nil]
      refine ⟨List.replicate (((machine c).final s₀ is).tmp.len + 1)
        (((machine c).final s₀ is).tmp.addr, ((machine c).final s₀ is).tmp.lenO + 1), ?_⟩
      rw [List.replicate_append_replicate]
      congr 1
      have := h.len hz
      omega
    · rw [hz]; simp
  · intro hl
    obtain ⟨pre, h, hb⟩ := binv_all c s₀ hi is hb hl
    rw [hb, h.aws, h.num, doneIds_append]
    rcases Bool.eq_false_or_eq_true (busyW ((machine c).final s₀ is).tmp) with hz | hz
    · rw [hz]
      simp [doneIds, cur, doneW, hz]
      omega
    · rw [hz]; simp [doneIds]

def demo2 : List (In Nat) :=
  [{ idleIn with awV := true, aw := ⟨8, 3, 1⟩, wV := true, wData := 5 },
   { idleIn with wV := true, wData := 5 },
   { idleIn with wV := true, wData := 6, wLast := true, wait := true, awV := true, aw := ⟨16, 4, 0⟩ },
   { idleIn with wV := true, wData := 6, wLast := true, awV := true, aw := ⟨16, 4, 0⟩ }]
example : (∀ e ∈ (machine ⟨4, true⟩).trace (st0 ⟨4, true⟩) demo2, NoBlockedRead e) ∧
    aws ((machine ⟨4, true⟩).trace (st0 ⟨4, true⟩) demo2) = [⟨8, 3, 1⟩, ⟨16, 4, 0⟩] ∧
    avWrites ((machine ⟨4, true⟩).trace (st0 ⟨4, true⟩) demo2) = [(8, 2, 5), (8, 2, 6)] ∧
    bs ((machine ⟨4, true⟩).trace (st0 ⟨4, true⟩) demo2) = [3] := by
  refine ⟨?_, by decide, by decide, by decide⟩
  unfold NoBlockedRead
  decide

/-! ## C181 read data -/

/-- The words on the R channel are the answers of the accepted requests, in order, with the data from Avalon; if there
is a word which was not returned yet it is offered. -/
def ReadsOk (c : Cfg) : Prop :=
  ∀ (s₀ : St Nat), IsInit c s₀ → ∀ (is : List (In Nat)) (x : In Nat),
    let tr := (machine c).trace s₀ is
    SlaveOk tr →
    (rs tr).map (fun r => (r.1, r.2.2)) <+: answer (ars tr) ∧
    (rs tr).map (fun r => r.2.1) <+: avData tr ∧
    ((rs tr).length < (avData tr).length → ((machine c).outAfter s₀ is x).r ≠ none)

/-- a burst of 5 words is accepted, there is a place for 2 -/
def badRead : List (In Nat) :=
  [{ idleIn with arV := true, ar := ⟨0, 0, 4⟩ }, idleIn,
   { idleIn with rdv := true, rdata := 1, rR := false }, { idleIn with rdv := true, rdata := 2, rR := false },
   { idleIn with rdv := true, rdata := 3, rR := false }, idleIn, idleIn]

theorem read_fails : ¬ ReadsOk ⟨2, true⟩ := by
  intro h
  have := (h (st0 _) (st0_init _) badRead idleIn (by unfold SlaveOk; decide)).2.2
  revert this
  decide

/-- If the length of the accepted bursts fits to the register with the capacity then the claim holds; the burst is
accepted only if there is a place for it. -/
theorem read_partial (c : Cfg) (s₀ : St α) (hi : IsInit c s₀) (is : List (In α)) (x : In α)
    (hl : ∀ a ∈ ars ((machine c).trace s₀ is), a.len < 2 ^ log2ceil (c.depth + 1))
    (hs : SlaveOk ((machine c).trace s₀ is)) :
    let tr := (machine c).trace s₀ is
    (rs tr).map (fun r => (r.1, r.2.2)) <+: answer (ars tr) ∧
    (rs tr).map (fun r => r.2.1) <+: avData tr ∧
    ((rs tr).length < (avData tr).length → ((machine c).outAfter s₀ is x).r ≠ none) ∧
    (answer (ars tr)).length ≤ (rs tr).length + c.depth := by
  intro tr
  have h := rinv_all c s₀ hi is hl hs
  refine ⟨?_, ?_, ?_, ?_⟩
  · rw [h.ans]; exact List.prefix_append _ _
  · rw [h.data]; exact List.prefix_append _ _
  · intro hn
    have hd : ((machine c).final s₀ is).datas ≠ [] := by
      intro he
      rw [h.data, he] at hn
      simp [tr] at hn
    have hv := h.vld hd
    have ho : ((machine c).outAfter s₀ is x).r = if ((machine c).final s₀ is).wVld then
      ((machine c).final s₀ is).datas.head?.map fun d =>
        (((machine c).final s₀ is).wId, d, ((machine c).final s₀ is).wLen == 0) else none := rfl
    rw [ho, hv]
    cases hd' : ((machine c).final s₀ is).datas with
    | nil => exact absurd hd' hd
    | cons d l => simp
  · rw [h.ans, List.length_append, List.length_map]
    have := h.cap
    show _ ≤ ((rs ((machine c).trace s₀ is)).length + c.depth)
    omega

/-- The place in the fifo is not lost: if all words are returned then a request of up to `depth` words is accepted
(unless a write is performed or has the priority). -/
theorem read_room_partial (c : Cfg) (s₀ : St α) (hi : IsInit c s₀) (is : List (In α)) (x : In α)
    (hl : ∀ a ∈ ars ((machine c).trace s₀ is), a.len < 2 ^ log2ceil (c.depth + 1))
    (hs : SlaveOk ((machine c).trace s₀ is))
    (hb : c.rdPrio = true → ∀ e ∈ (machine c).trace s₀ is, NoBlockedRead e)
    (hr : (rs ((machine c).trace s₀ is)).length = (answer (ars ((machine c).trace s₀ is))).length)
    (hr2 : (avReads ((machine c).trace s₀ is)).length = (ars ((machine c).trace s₀ is)).length)
    (hw : (ws ((machine c).trace s₀ is)).length = (words (aws ((machine c).trace s₀ is))).length)
    (hx : x.arV = true ∧ x.szRd = true ∧ x.ar.len < c.depth ∧ (c.rdPrio = true ∨ (x.awV && x.wV) = false)) :
    ((machine c).outAfter s₀ is x).arRd = true := by
  have h := rinv_all c s₀ hi is hl hs
  have h1 := reads_inv c s₀ hi is
  obtain ⟨pre, h2⟩ := winv_all c s₀ hi is hb
  have ho : (machine c).outAfter s₀ is x = out c ((machine c).final s₀ is) x := rfl
  rw [ho]
  generalize (machine c).final s₀ is = s at *
  have hrem : (rem s).length = 0 := by
    have := congrArg List.length h.ans
    rw [List.length_append, List.length_map] at this
    omega
  have hcap : s.cap = c.depth := by have := h.cap; omega
  have hbz : busyW s.tmp = false := by
    rcases Bool.eq_false_or_eq_true (busyW s.tmp) with hz | hz
    · rw [h2.num, h2.aws, words_append, hz, List.length_append] at hw
      simp [words, cur, doneW, hz] at hw
      omega
    · exact hz
  have hp : (s.tmp.vld && !s.tmp.isW) = false := by
    have := congrArg List.length h1
    rw [List.length_append, List.length_map, hr2] at this
    have : (pendR s.tmp).length = 0 := by omega
    unfold pendR at this
    rcases Bool.eq_false_or_eq_true (s.tmp.vld && !s.tmp.isW) with hz | hz
    · rw [hz] at this; simp at this
    · exact hz
  have hv : s.tmp.vld = false := by
    unfold busyW at hbz
    revert hbz hp
    cases s.tmp.vld <;> cases s.tmp.isW <;> simp
  have hf : c.fit x.ar.len < s.cap := by
    rw [hcap, Cfg.fit]
    exact Nat.lt_of_le_of_lt (Nat.mod_le _ _) hx.2.2.1
  have hi : willBeIdle s x = true := by simp [willBeIdle, hv]
  have h0 : arEn0 c s x = true := by simp [arEn0, hi, hx.1, hf, hx.2.1]
  have ha : arEn c s x = true := by
    unfold arEn
    rcases hx.2.2.2 with h | h
    · rw [h]; exact h0
    · rw [h, h0]; simp [isNotLastW, isW, hv]
  simp [out, hi, ha]

def demo3 : List (In Nat) :=
  [{ idleIn with arV := true, ar := ⟨0, 5, 1⟩ }, idleIn,
   { idleIn with rdv := true, rdata := 1, rR := false }, { idleIn with rdv := true, rdata := 2, rR := false },
   idleIn, idleIn]
example : (∀ a ∈ ars ((machine ⟨2, true⟩).trace (st0 ⟨2, true⟩) demo3), a.len < 2 ^ log2ceil (2 + 1)) ∧
    SlaveOk ((machine ⟨2, true⟩).trace (st0 ⟨2, true⟩) demo3) ∧
    (∀ e ∈ (machine ⟨2, true⟩).trace (st0 ⟨2, true⟩) demo3, NoBlockedRead e) ∧
    rs ((machine ⟨2, true⟩).trace (st0 ⟨2, true⟩) demo3) = [(5, 1, false), (5, 2, true)] ∧
    answer (ars ((machine ⟨2, true⟩).trace (st0 ⟨2, true⟩) demo3)) = [(5, false), (5, true)] ∧
    avReads ((machine ⟨2, true⟩).trace (st0 ⟨2, true⟩) demo3) = [(0, 2)] ∧
    ((machine ⟨2, true⟩).outAfter (st0 ⟨2, true⟩) demo3 { idleIn with arV := true, ar := ⟨0, 5, 1⟩ }).arRd = true := by
  refine ⟨by decide, by unfold SlaveOk; decide, by unfold NoBlockedRead; decide, by decide, by decide, by decide,
    by decide⟩

/-! ## C182 `valid` does not wait for `ready` -/

/-- The valid signals of the outputs B, R do not depend on the ready signals of the master. -/
def ValidIndep (c : Cfg) : Prop :=
  ∀ (s₀ : St Nat), IsInit c s₀ → ∀ (is : List (In Nat)) (x : In Nat) (bR rR : Bool),
    let o := (machine c).outAfter s₀ is x
    let o' := (machine c).outAfter s₀ is { x with bR := bR, rR := rR }
    (o.b.isSome = o'.b.isSome) ∧ o.r = o'.r

theorem valid_fails : ¬ ValidIndep ⟨2, true⟩ := by
  intro h
  have := (h (st0 _) (st0_init _) [{ idleIn with awV := true, aw := ⟨8, 3, 0⟩, wV := true, wLast := true }]
    { idleIn with wV := true, wLast := true } false true).1
  revert this
  decide

/-- For R the claim holds. -/
theorem valid_partial (c : Cfg) (s₀ : St α) (is : List (In α)) (x : In α) (bR rR : Bool) :
    ((machine c).outAfter s₀ is x).r = ((machine c).outAfter s₀ is { x with bR := bR, rR := rR }).r := rfl

/-- The master which waits with `b.ready` for `b.valid` gets no response and its last word is not accepted. -/
theorem resp_waits (c : Cfg) (s₀ : St α) (hi : IsInit c s₀) (is : List (In α)) (x : In α)
    (hb : c.rdPrio = true → ∀ e ∈ (machine c).trace s₀ is, NoBlockedRead e)
    (hl : (ws ((machine c).trace s₀ (is ++ [x]))).map Prod.snd <+: lasts (aws ((machine c).trace s₀ is)))
    (hr : x.bR = false) (hx : x.wLast = true) :
    (x.wV && ((machine c).outAfter s₀ is x).wRd) = false ∧ ((machine c).outAfter s₀ is x).b = none := by
  obtain ⟨pre, h⟩ := winv_all c s₀ hi is hb
  have ho : (machine c).outAfter s₀ is x = out c ((machine c).final s₀ is) x := rfl
  rw [Machine.trace_snoc, ho] at hl
  rw [ho]
  generalize (machine c).final s₀ is = s at *
  generalize (machine c).trace s₀ is = tr at *
  have hwr : (out c s x).wRd = wReady s x := rfl
  rcases Bool.eq_false_or_eq_true (x.wV && wReady s x) with hacc | hacc
  · exfalso
    have hr2 : wReady s x = true := by revert hacc; cases x.wV <;> simp
    simp only [wReady, Bool.and_eq_true, Bool.or_eq_true, Bool.not_eq_true', hr, Bool.false_eq_true, or_false] at hr2
    have hbz : busyW s.tmp = true := by simp [busyW, hr2.1.1.1, hr2.1.1.2]
    have hl0 : s.tmp.len ≠ 0 := by simpa using hr2.2
    have e1 : (ws (tr ++ [(x, out c s x)])).map Prod.snd = (ws tr).map Prod.snd ++ [x.wLast] := by
      rw [ws_snoc, List.map_append]
      simp only [hwr, hacc]
      rfl
    rw [e1] at hl
    have := prefix_get _ _ _ hl
    have hd : doneW s.tmp = s.tmp.lenO - s.tmp.len := by simp [doneW, hbz]
    have e2 : aws tr = pre ++ [cur s.tmp] ++ [] := by rw [h.aws, hbz]; simp
    rw [e2, List.length_map, h.num, ← lasts_length, hd, lasts_get pre _ (cur s.tmp) _ (by simp [cur]), hx] at this
    have h5 := h.len hbz
    simp [cur] at this
    omega
  · refine ⟨by rw [hwr]; exact hacc, ?_⟩
    have hc : (s.tmp.vld && s.tmp.isW && !x.wait && wReady s x && x.wV && x.wLast) = false := by
      cases h1 : x.wV <;> cases h2 : wReady s x <;> simp_all
    simp only [out, hc]
    rfl

example : (ws ((machine ⟨2, true⟩).trace (st0 ⟨2, true⟩) (demo2.take 3 ++
    [{ idleIn with wV := true, wLast := true, bR := false }]))).map Prod.snd <+:
    lasts (aws ((machine ⟨2, true⟩).trace (st0 ⟨2, true⟩) (demo2.take 3))) := by decide

end Verif.AxiToAvmm
