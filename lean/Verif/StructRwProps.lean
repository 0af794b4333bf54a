import Verif.StructRw
/-!
# Properties C365-C368: `StructReader`, `StructWriter`
-/
namespace Verif.StructRw
open Verif.StreamNode (Io Node)

/-! ## C365: requests of the frames -/

/-- The source of `get` keeps the address until it is taken. -/
def Stable : List (RIn × ROut) → Prop
  | e :: e' :: t => (∀ a, e.1.get = some a → e.2.getRd = false → e'.1.get = some a) ∧ Stable (e' :: t)
  | _ => True

/-- Requests transferred to the datapump -/
def reqs (tr : List (RIn × ROut)) : List Req := tr.filterMap fun e => if e.1.rd then e.2.req else none
/-- Addresses taken from `get` -/
def taken (tr : List (RIn × ROut)) : List Nat := tr.filterMap fun e => if e.2.getRd then e.1.get else none

theorem Stable.tail {e : RIn × ROut} {t : List (RIn × ROut)} (h : Stable (e :: t)) : Stable t := by
  cases t with
  | nil => trivial
  | cons e' t => exact h.2

theorem reader_aux (dw aw : Nat) (fs : List Frame) (hf : fs ≠ []) (is : List RIn) (idx c : Nat) (hi : idx < fs.length)
    (hc : idx ≠ 0 → ∀ i, is.head? = some i → i.get = some c) (hs : Stable ((reader dw aw fs).trace idx is)) :
    ∃ c', (fs.take idx).map (mkReq dw aw c) ++ reqs ((reader dw aw fs).trace idx is) =
        ((taken ((reader dw aw fs).trace idx is)).flatMap fun a => fs.map (mkReq dw aw a)) ++
          (fs.take ((reader dw aw fs).final idx is)).map (mkReq dw aw c') ∧
      (reader dw aw fs).final idx is < fs.length := by
  induction is generalizing idx c with
  | nil => exact ⟨c, by simp [reqs, taken], hi⟩
  | cons i is ih =>
    rw [Machine.trace_cons] at hs ⊢
    rw [Machine.final_cons]
    have hst := hs.tail
    have hpos : 0 < fs.length := List.length_pos_iff.2 hf
    obtain ⟨g, rd⟩ := i
    cases g with
    | none =>
      have h0 : idx = 0 := by
        by_cases h0 : idx = 0
        · exact h0
        · simpa using hc h0 _ rfl
      subst h0
      have hn : (reader dw aw fs).next 0 ⟨none, rd⟩ = 0 := by simp [reader, nextIdx]
      rw [hn] at hst ⊢
      obtain ⟨c', h1, h2⟩ := ih 0 c hpos (by simp) hst
      refine ⟨c', ?_, h2⟩
      have hr : ((reader dw aw fs).out 0 ⟨none, rd⟩).req = none := by
        simp only [reader]; split <;> simp_all
      simp only [reqs, taken, List.filterMap_cons, hr, ite_self] at h1 ⊢
      exact h1
    | some a =>
      have hca : (fs.take idx).map (mkReq dw aw c) = (fs.take idx).map (mkReq dw aw a) := by
        by_cases h0 : idx = 0
        · subst h0; simp
        · have := hc h0 _ rfl
          simp only [Option.some.injEq] at this
          rw [this]
      rw [hca]
      have hhead : ∀ st, ((reader dw aw fs).out idx ⟨some a, rd⟩).getRd = false →
          st = (reader dw aw fs).next idx ⟨some a, rd⟩ → ∀ i, is.head? = some i → i.get = some a := by
        intro st hg _ i hh
        cases is with
        | nil => simp at hh
        | cons j is =>
          simp only [List.head?_cons, Option.some.injEq] at hh
          subst hh
          exact hs.1 a rfl hg
      cases rd with
      | false =>
        have hn : (reader dw aw fs).next idx ⟨some a, false⟩ = idx := by simp [reader, nextIdx]
        have hg : ((reader dw aw fs).out idx ⟨some a, false⟩).getRd = false := by simp [reader]
        have hh := hhead _ hg rfl
        rw [hn] at hst ⊢
        obtain ⟨c', h1, h2⟩ := ih idx a hi (fun _ => hh) hst
        refine ⟨c', ?_, h2⟩
        simpa [reqs, taken, hg] using h1
      | true =>
        have hget : fs[idx]? = some fs[idx] := List.getElem?_eq_getElem hi
        have hreq : ((reader dw aw fs).out idx ⟨some a, true⟩).req = some (mkReq dw aw a fs[idx]) := by
          simp [reader, hget]
        by_cases hl : idx = fs.length - 1
        · have hn : (reader dw aw fs).next idx ⟨some a, true⟩ = 0 := by simp [reader, nextIdx, hl]
          have hg : ((reader dw aw fs).out idx ⟨some a, true⟩).getRd = true := by simp [reader, hl]
          rw [hn] at hst ⊢
          obtain ⟨c', h1, h2⟩ := ih 0 a hpos (by simp) hst
          refine ⟨c', ?_, h2⟩
          have hall : (fs.take idx).map (mkReq dw aw a) ++ [mkReq dw aw a fs[idx]] = fs.map (mkReq dw aw a) := by
            have := List.take_succ_eq_append_getElem hi
            rw [show idx + 1 = fs.length by omega, List.take_length] at this
            have h := congrArg (List.map (mkReq dw aw a)) this
            rw [List.map_append] at h
            exact h.symm
          simp only [List.take_zero, List.map_nil, List.nil_append] at h1
          simp only [reqs, taken, List.filterMap_cons, hreq, hg, if_true, List.flatMap_cons] at h1 ⊢
          rw [h1, ← hall]
          simp
        · have hn : (reader dw aw fs).next idx ⟨some a, true⟩ = idx + 1 := by simp [reader, nextIdx, hl]
          have hg : ((reader dw aw fs).out idx ⟨some a, true⟩).getRd = false := by simp [reader, hl]
          have hh := hhead _ hg rfl
          rw [hn] at hst ⊢
          obtain ⟨c', h1, h2⟩ := ih (idx + 1) a (by omega) (fun _ => hh) hst
          refine ⟨c', ?_, h2⟩
          rw [List.take_succ_eq_append_getElem hi] at h1
          simp only [reqs, taken, List.filterMap_cons, hreq, hg, if_true] at h1 ⊢
          rw [List.map_append, List.append_assoc] at h1
          exact h1

/-- **C365** (reader): the requests are those of all frames of the taken addresses, frame after frame, and of some first frames of
the address which waits on `get`. -/
theorem reader_requests (dw aw : Nat) (fs : List Frame) (hf : fs ≠ []) (is : List RIn)
    (hs : Stable ((reader dw aw fs).trace 0 is)) :
    ∃ k c, k < fs.length ∧ reqs ((reader dw aw fs).trace 0 is) =
      ((taken ((reader dw aw fs).trace 0 is)).flatMap fun a => fs.map (mkReq dw aw a)) ++
        (fs.take k).map (mkReq dw aw c) := by
  obtain ⟨c, h1, h2⟩ := reader_aux dw aw fs hf is 0 0 (List.length_pos_iff.2 hf) (by simp) hs
  exact ⟨_, c, h2, by simpa using h1⟩

/-- Two frames (item0 to item1, item6 to item7 of structReader.py:164-182) and a stalled datapump. -/
def exFrames : List Frame := [⟨0, 192⟩, ⟨640, 768⟩]
def exRun : List RIn := [⟨some 64, true⟩, ⟨some 64, false⟩, ⟨some 64, true⟩, ⟨some 128, true⟩]

example : Stable ((reader 64 32 exFrames).trace 0 exRun) ∧
    reqs ((reader 64 32 exFrames).trace 0 exRun) = [⟨64, 2, 0⟩, ⟨144, 1, 0⟩, ⟨128, 2, 0⟩] ∧
    taken ((reader 64 32 exFrames).trace 0 exRun) = [64] := by
  refine ⟨?_, by decide +kernel, by decide +kernel⟩
  simp [exRun, exFrames, reader, Stable, nextIdx]

/-- The source of `set` of the writer keeps the address until it is taken. -/
def WStable : List (WIn × WOut) → Prop
  | e :: e' :: t => (∀ a, e.1.set = some a → e.2.setRd = false → e'.1.set = some a) ∧ WStable (e' :: t)
  | _ => True

def wreqs (tr : List (WIn × WOut)) : List Req := tr.filterMap fun e => if e.1.rd then e.2.req else none
def wtaken (tr : List (WIn × WOut)) : List Nat := tr.filterMap fun e => if e.2.setRd then e.1.set else none

/-- The writer requests as a reader whose datapump is ready together with `ackPropageteInfo`. -/
def toR (i : WIn) : RIn := ⟨i.set, i.rd && i.infoRd⟩

theorem inNode_ack (i : WIn) : (inNode i).ack = (i.rd && i.infoRd) := by
  simp [inNode, Node.ack, Io.ackPart, Io.extraOk]

theorem reqVld_eq (i : WIn) : reqVld i = (i.infoRd && i.set.isSome) := by
  simp [reqVld, inNode, Node.vldOf, Node.ackForSlave, StreamNode.maskSkip, Io.present, Io.extraOk]

theorem infoVld_eq (i : WIn) : infoVld i = (i.rd && i.set.isSome) := by
  simp [infoVld, inNode, Node.vldOf, Node.ackForSlave, StreamNode.maskSkip, Io.present, Io.extraOk]

theorem out_toR (dw aw : Nat) (fs : List Frame) (s : WSt) (i : WIn) :
    ((writer dw aw fs).out s i).setRd = ((reader dw aw fs).out s.idx (toR i)).getRd ∧
    (if i.rd then ((writer dw aw fs).out s i).req else none) =
      (if (toR i).rd then ((reader dw aw fs).out s.idx (toR i)).req else none) ∧
    ((writer dw aw fs).next s i).idx = (reader dw aw fs).next s.idx (toR i) := by
  obtain ⟨set, rd, infoRd, offer, ack, wa⟩ := i
  simp only [writer, reader, inNode_ack, reqVld_eq, toR]
  refine ⟨trivial, ?_, ?_⟩
  · cases h : fs[s.idx]? <;> cases set <;> cases rd <;> cases infoRd <;> simp
  · cases set <;> simp

theorem wtrace (dw aw : Nat) (fs : List Frame) (is : List WIn) (s : WSt) :
    wreqs ((writer dw aw fs).trace s is) = reqs ((reader dw aw fs).trace s.idx (is.map toR)) ∧
    wtaken ((writer dw aw fs).trace s is) = taken ((reader dw aw fs).trace s.idx (is.map toR)) ∧
    (WStable ((writer dw aw fs).trace s is) → Stable ((reader dw aw fs).trace s.idx (is.map toR))) := by
  induction is generalizing s with
  | nil => simp [wreqs, reqs, wtaken, taken, Stable]
  | cons i is ih =>
    obtain ⟨h1, h2, h3⟩ := out_toR dw aw fs s i
    obtain ⟨i1, i2, i3⟩ := ih ((writer dw aw fs).next s i)
    rw [h3] at i1 i2 i3
    refine ⟨?_, ?_, ?_⟩
    · simp only [Machine.trace_cons, List.map_cons, wreqs, reqs, List.filterMap_cons] at i1 ⊢
      rw [i1, h2]
    · simp only [Machine.trace_cons, List.map_cons, wtaken, taken, List.filterMap_cons] at i2 ⊢
      rw [i2, h1]; rfl
    · cases is with
      | nil => simp [Stable]
      | cons j is =>
        intro hw
        rw [List.map_cons, Machine.trace_cons, List.map_cons, Machine.trace_cons]
        rw [Machine.trace_cons, Machine.trace_cons] at hw
        rw [Machine.trace_cons, List.map_cons, Machine.trace_cons] at i3
        refine ⟨?_, i3 hw.2⟩
        intro a ha hg
        exact hw.1 a ha (h1.trans hg)

/-- **C365** (writer): the same for the writer, for each behaviour of the acknowledges. -/
theorem writer_requests (dw aw : Nat) (fs : List Frame) (hf : fs ≠ []) (is : List WIn)
    (hs : WStable ((writer dw aw fs).trace ⟨0, []⟩ is)) :
    ∃ k c, k < fs.length ∧ wreqs ((writer dw aw fs).trace ⟨0, []⟩ is) =
      ((wtaken ((writer dw aw fs).trace ⟨0, []⟩ is)).flatMap fun a => fs.map (mkReq dw aw a)) ++
        (fs.take k).map (mkReq dw aw c) := by
  obtain ⟨h1, h2, h3⟩ := wtrace dw aw fs is ⟨0, []⟩
  rw [h1, h2]
  exact reader_requests dw aw fs hf _ (h3 hs)

def exWRun : List WIn := [⟨some 64, true, true, false, false, true⟩, ⟨some 64, true, false, true, true, true⟩,
  ⟨some 64, true, true, true, false, true⟩, ⟨none, false, true, true, true, true⟩]

example : WStable ((writer 64 32 exFrames).trace ⟨0, []⟩ exWRun) ∧
    wreqs ((writer 64 32 exFrames).trace ⟨0, []⟩ exWRun) = [⟨64, 2, 0⟩, ⟨144, 1, 0⟩] := by
  refine ⟨?_, by decide +kernel⟩
  simp [exWRun, exFrames, writer, WStable, nextIdx, inNode_ack]

/-! ## C366: size of the request -/

/-- Frames of a structure: not empty, on word boundaries; words of whole bytes. -/
def Legal (dw : Nat) (fs : List Frame) : Prop :=
  0 < dw ∧ dw % 8 = 0 ∧ fs ≠ [] ∧ ∀ f ∈ fs, f.start < f.stop ∧ f.start % dw = 0

/-- Bytes which are requested: `rem` is the number of bytes in the last word, 0 for all (amba/datapump). -/
def reqBytes (dw : Nat) (r : Req) : Nat :=
  if r.rem = 0 then (r.len + 1) * (dw / 8) else r.len * (dw / 8) + r.rem

/-- The request of each frame of each structure can be built and it asks for exactly the bytes of the frame. -/
def SizeSpec (maxLen : Nat → List Frame → Nat) : Prop := ∀ dw aw fs f a, Legal dw fs → f ∈ fs →
  ∃ r, elabReq dw aw (maxLen dw fs) a f = some r ∧ reqBytes dw r = (f.bits + 7) / 8 ∧
    r.addr = (a + f.start / 8) % 2 ^ aw

/-- **C366** (violated): a structure of one word can not be read, the request of the datapump has no `len`. -/
theorem sizeSpec_reader_violated : ¬ SizeSpec readerMaxLen := by
  intro h
  obtain ⟨r, h1, _⟩ := h 64 32 [⟨0, 64⟩] ⟨0, 64⟩ 0 (by simp [Legal]) (by simp)
  revert h1
  rw [show elabReq 64 32 (readerMaxLen 64 [⟨0, 64⟩]) 0 ⟨0, 64⟩ = none by decide +kernel]
  simp

/-- **C366** (violated): a structure of more than 512 words can not be written. -/
theorem sizeSpec_writer_violated : ¬ SizeSpec (fun _ _ => writerMaxLen) := by
  intro h
  obtain ⟨r, h1, _⟩ := h 64 32 [⟨0, 64 * 513⟩] ⟨0, 64 * 513⟩ 0 (by simp [Legal]) (by simp)
  revert h1
  rw [show elabReq 64 32 writerMaxLen 0 ⟨0, 64 * 513⟩ = none by decide +kernel]
  simp

/-- **C366** (violated): nor can a structure which ends in the last byte of the word but not at its end. -/
theorem size_unaligned : elabReq 64 32 (readerMaxLen 64 [⟨0, 124⟩]) 0 ⟨0, 124⟩ = none ∧
    elabReq 64 32 writerMaxLen 0 ⟨0, 124⟩ = none := by decide +kernel

theorem le_foldl_max (l : List Nat) (b : Nat) : b ≤ l.foldl max b ∧ ∀ x ∈ l, x ≤ l.foldl max b := by
  induction l generalizing b with
  | nil => simp
  | cons y l ih =>
    obtain ⟨h1, h2⟩ := ih (max b y)
    simp only [List.foldl_cons, List.mem_cons]
    refine ⟨by omega, ?_⟩
    rintro x (rfl | hx)
    · omega
    · exact h2 x hx

theorem elab_some {dw aw maxLen a : Nat} {f : Frame} (hdw : 0 < dw) (h8 : dw % 8 = 0) (hf : f.start < f.stop)
    (hb : f.bits % 8 = 0) (hm : maxLen ≠ 0) (hl : f.words dw - 1 ≤ maxLen) :
    ∃ r, elabReq dw aw maxLen a f = some r ∧ reqBytes dw r = (f.bits + 7) / 8 ∧ r.addr = (a + f.start / 8) % 2 ^ aw := by
  have hB : dw = 8 * (dw / 8) := by omega
  have hB0 : 0 < dw / 8 := by omega
  have hbits : 0 < f.bits := by unfold Frame.bits; omega
  have h1 := le_two_pow_log2ceil (maxLen + 1)
  have h2 := le_two_pow_log2ceil (dw / 8)
  have hmod := Nat.mod_lt f.bits hdw
  have hr8 : f.bits % dw % 8 = 0 := by rw [Nat.mod_mod_of_dvd _ ⟨dw / 8, hB⟩]; exact hb
  have hrem : (f.bits % dw + 7) / 8 < 2 ^ log2ceil (dw / 8) := by omega
  refine ⟨⟨(a + f.start / 8) % 2 ^ aw, f.words dw - 1, (f.bits % dw + 7) / 8⟩, ?_, ?_, rfl⟩
  · simp only [elabReq, drive, driveRem, hm, if_false]
    rw [if_pos (show f.words dw - 1 < 2 ^ log2ceil (maxLen + 1) by omega), if_pos hrem]
    rfl
  · have hdm := Nat.div_add_mod f.bits dw
    have e1 : dw * (f.bits / dw) = 8 * (f.bits / dw * (dw / 8)) := by
      have := Nat.mul_assoc 8 (dw / 8) (f.bits / dw)
      rw [← hB] at this
      rw [this, Nat.mul_comm (dw / 8)]
    unfold reqBytes Frame.words
    simp only
    by_cases h0 : (f.bits % dw + 7) / 8 = 0
    · have hm0 : f.bits % dw = 0 := by omega
      have hq : (f.bits + dw - 1) / dw = f.bits / dw := by
        rw [hm0, Nat.add_zero] at hdm
        have : f.bits + dw - 1 = dw * (f.bits / dw) + (dw - 1) := by omega
        rw [this, Nat.mul_add_div hdw, Nat.div_eq_of_lt (show dw - 1 < dw by omega), Nat.add_zero]
      have hqp : 0 < f.bits / dw := by
        rcases Nat.eq_zero_or_pos (f.bits / dw) with h | h
        · rw [h, Nat.mul_zero, hm0] at hdm; omega
        · exact h
      rw [if_pos h0, hq, Nat.sub_add_cancel hqp]
      omega
    · have hq : (f.bits + dw - 1) / dw = f.bits / dw + 1 := by
        have : f.bits + dw - 1 = dw * (f.bits / dw + 1) + (f.bits % dw - 1) := by
          rw [Nat.mul_add]; omega
        rw [this, Nat.mul_add_div hdw, Nat.div_eq_of_lt (show f.bits % dw - 1 < dw by omega), Nat.add_zero]
      rw [if_neg h0, hq, Nat.add_sub_cancel]
      omega

/-- **C366** (part): the reader of a structure with a frame longer than a word, all frames of whole bytes. Missing: structures of
one word and frames which do not end at a byte. -/
theorem size_reader_partial (dw aw : Nat) (fs : List Frame) (f : Frame) (a : Nat) (h : Legal dw fs) (hm : f ∈ fs)
    (hb : f.bits % 8 = 0) (hw : ∃ g ∈ fs, dw < g.bits) :
    ∃ r, elabReq dw aw (readerMaxLen dw fs) a f = some r ∧ reqBytes dw r = (f.bits + 7) / 8 ∧
      r.addr = (a + f.start / 8) % 2 ^ aw := by
  obtain ⟨hdw, h8, hne, hf⟩ := h
  have hB : dw = 8 * (dw / 8) := by omega
  have hB0 : 0 < dw / 8 := by omega
  have key : ∀ g ∈ fs, g.bits ≤ 8 * maxBytes fs := by
    intro g hg
    have := (le_foldl_max (fs.map Frame.bits) 0).2 g.bits (List.mem_map.2 ⟨g, hg, rfl⟩)
    unfold maxBytes
    omega
  have hlen : ∀ g ∈ fs, g.words dw ≤ (maxBytes fs + dw / 8 - 1) / (dw / 8) := by
    intro g hg
    have h1 := key g hg
    unfold Frame.words
    rw [Nat.le_div_iff_mul_le hB0]
    have h2 : (g.bits + dw - 1) / dw * dw ≤ g.bits + dw - 1 := Nat.div_mul_le_self _ _
    have h3 : (g.bits + dw - 1) / dw * dw = 8 * ((g.bits + dw - 1) / dw * (dw / 8)) := by
      have := Nat.mul_assoc 8 (dw / 8) ((g.bits + dw - 1) / dw)
      rw [← hB] at this
      rw [Nat.mul_comm, this, Nat.mul_comm (dw / 8)]
    omega
  obtain ⟨g, hg, hgw⟩ := hw
  have h2 : 2 ≤ g.words dw := by
    unfold Frame.words
    rw [Nat.le_div_iff_mul_le hdw]; omega
  have hg2 := hlen g hg
  have hf2 := hlen f hm
  apply elab_some hdw h8 (hf f hm).1 hb
  · unfold readerMaxLen; omega
  · unfold readerMaxLen; omega

example : Legal 64 exFrames ∧ (∃ g ∈ exFrames, 64 < g.bits) ∧ ∀ f ∈ exFrames, f.bits % 8 = 0 := by
  refine ⟨by simp [Legal, exFrames], ⟨⟨0, 192⟩, by simp [exFrames], by decide⟩, by decide⟩

/-- **C366** (part): the writer of frames of whole bytes and at most 512 words. Missing: longer frames and frames which do not end
at a byte. -/
theorem size_writer_partial (dw aw : Nat) (fs : List Frame) (f : Frame) (a : Nat) (h : Legal dw fs) (hm : f ∈ fs)
    (hb : f.bits % 8 = 0) (hw : f.words dw ≤ 512) :
    ∃ r, elabReq dw aw writerMaxLen a f = some r ∧ reqBytes dw r = (f.bits + 7) / 8 ∧
      r.addr = (a + f.start / 8) % 2 ^ aw := by
  obtain ⟨hdw, h8, hne, hf⟩ := h
  exact elab_some hdw h8 (hf f hm).1 hb (by decide) (by simp only [writerMaxLen]; omega)

/-- The elaborated request is the request of the machines. -/
theorem elab_eq {dw aw maxLen a : Nat} {f : Frame} {r : Req} (h : elabReq dw aw maxLen a f = some r) :
    r = mkReq dw aw a f := by
  unfold elabReq drive driveRem at h
  split at h
  · simp at h
  · split at h
    · split at h
      · simpa [mkReq, eq_comm] using h
      · simp at h
    · simp at h

/-! ## C367: acknowledge of the structure -/

/-- Requests sent, structures taken, acknowledges of frames received, acknowledges of structures sent -/
def nReq (tr : List (WIn × WOut)) : Nat := (wreqs tr).length
def nTaken (tr : List (WIn × WOut)) : Nat := (wtaken tr).length
def nAck (tr : List (WIn × WOut)) : Nat := (tr.filter fun e => e.1.ack && e.2.ackRd).length
def nWriteAck (tr : List (WIn × WOut)) : Nat := (tr.filter fun e => e.2.waVld && e.1.waRd).length

/-- If all frames of all structures were requested and acknowledged, there was one `writeAck` for each structure. -/
def AckSpec : Prop := ∀ dw aw fs is, fs ≠ [] → 
  nReq ((writer dw aw fs).trace ⟨0, []⟩ is) = fs.length * nTaken ((writer dw aw fs).trace ⟨0, []⟩ is) →
  nAck ((writer dw aw fs).trace ⟨0, []⟩ is) = nReq ((writer dw aw fs).trace ⟨0, []⟩ is) →
  nWriteAck ((writer dw aw fs).trace ⟨0, []⟩ is) = nTaken ((writer dw aw fs).trace ⟨0, []⟩ is)

/-- **C367** (violated): a structure of one frame is written and acknowledged, there is no `writeAck`. -/
theorem ackSpec_violated : ¬ AckSpec := by
  intro h
  have := h 64 32 [⟨0, 64⟩] [⟨some 64, true, true, false, false, true⟩, ⟨none, true, true, true, true, true⟩] (by simp)
    (by decide +kernel) (by decide +kernel)
  revert this
  decide +kernel

theorem ackNode_eq (s : WSt) (i : WIn) (dw aw : Nat) (fs : List Frame) :
    ((writer dw aw fs).out s i).ackRd = (i.offer && !s.q.isEmpty && (i.waRd || s.q.headD 0 == PROPAGATE)) ∧
    infoOutRd s i = (i.ack && (i.waRd || s.q.headD 0 == PROPAGATE)) ∧
    ((writer dw aw fs).out s i).waVld = (i.ack && (i.offer && !s.q.isEmpty) && !(s.q.headD 0 == PROPAGATE)) := by
  simp [writer, infoOutRd, ackNode, Node.rdOf, Node.vldOf, Node.ackForMaster, Node.ackForSlave, StreamNode.maskSkip,
    Io.present, Io.extraOk]

theorem lenIf {α β : Type} (f : α → Option β) (e : α) (l : List α) :
    ((e :: l).filterMap f).length = (l.filterMap f).length + (if (f e).isSome then 1 else 0) := by
  rw [List.filterMap_cons]
  cases f e <;> simp

theorem counts (dw aw : Nat) (fs : List Frame) (hf : fs ≠ []) (is : List WIn) (s : WSt) (hi : s.idx < fs.length)
    (hq : ∀ x ∈ s.q, x = SKIP ∨ x = PROPAGATE) :
    let tr := (writer dw aw fs).trace s is
    let t := (writer dw aw fs).final s is
    t.idx < fs.length ∧ (∀ x ∈ t.q, x = SKIP ∨ x = PROPAGATE) ∧
    t.idx + fs.length * nTaken tr = s.idx + nReq tr ∧
    nAck tr + t.q.length = s.q.length + nReq tr ∧
    nWriteAck tr + t.q.count SKIP + (s.idx - 1) = s.q.count SKIP + (t.idx - 1) + (fs.length - 1) * nTaken tr := by
  induction is generalizing s with
  | nil => simp [nTaken, nReq, nAck, nWriteAck, wreqs, wtaken, hi]; exact hq
  | cons i is ih =>
    have hpos : 0 < fs.length := List.length_pos_iff.2 hf
    obtain ⟨hA, hB, hC⟩ := ackNode_eq s i dw aw fs
    -- the step
    have hreq : ((if i.rd then ((writer dw aw fs).out s i).req else none).isSome = (i.set.isSome && i.rd && i.infoRd)) := by
      rw [(out_toR dw aw fs s i).2.1]
      obtain ⟨set, rd, infoRd, offer, ack, wa⟩ := i
      simp only [toR, reader, List.getElem?_eq_getElem hi]
      cases set <;> cases rd <;> cases infoRd <;> simp
    have htak : ((if ((writer dw aw fs).out s i).setRd then i.set else none).isSome =
        (i.set.isSome && i.rd && i.infoRd && decide (s.idx = fs.length - 1))) := by
      simp only [writer, inNode_ack]
      obtain ⟨set, rd, infoRd, offer, ack, wa⟩ := i
      by_cases hl : s.idx = fs.length - 1 <;> cases set <;> cases rd <;> cases infoRd <;> simp [hl]
    have hidx : ((writer dw aw fs).next s i).idx =
        nextIdx fs.length s.idx (i.set.isSome && i.rd && i.infoRd) := by
      simp only [writer, inNode_ack]
      congr 1
      cases i.set <;> cases i.rd <;> cases i.infoRd <;> rfl
    have hqn : ((writer dw aw fs).next s i).q =
        (if (i.ack && (i.waRd || s.q.headD 0 == PROPAGATE)) && (i.offer && !s.q.isEmpty) then s.q.tail else s.q) ++
        (if (i.set.isSome && i.rd && i.infoRd) then [if s.idx ≠ 0 then SKIP else PROPAGATE] else []) := by
      simp only [writer, hB, infoVld_eq]
      congr 2
      cases i.set <;> cases i.rd <;> cases i.infoRd <;> rfl
    generalize hs' : (writer dw aw fs).next s i = s' at *
    generalize hF : (i.set.isSome && i.rd && i.infoRd) = F at *
    have hi' : s'.idx < fs.length := by
      rw [hidx]; unfold nextIdx
      split
      · split <;> omega
      · exact hi
    have hq' : ∀ x ∈ s'.q, x = SKIP ∨ x = PROPAGATE := by
      intro x hx
      rw [hqn, List.mem_append] at hx
      rcases hx with hx | hx
      · split at hx
        · exact hq x (List.mem_of_mem_tail hx)
        · exact hq x hx
      · split at hx
        · simp only [List.mem_singleton] at hx
          subst hx
          split <;> simp
        · simp at hx
    have hrec := ih s' hi' hq'
    simp only at hrec ⊢
    rw [Machine.trace_cons, Machine.final_cons, hs']
    obtain ⟨r1, r2, r3, r4, r5⟩ := hrec
    generalize (writer dw aw fs).trace s' is = tr at *
    generalize (writer dw aw fs).final s' is = t at *
    refine ⟨r1, r2, ?_⟩
    have eReq : nReq ((i, (writer dw aw fs).out s i) :: tr) = nReq tr + (if F then 1 else 0) := by
      simp only [nReq, wreqs]
      rw [lenIf, hreq]
    have eTak : nTaken ((i, (writer dw aw fs).out s i) :: tr) =
        nTaken tr + (if F && decide (s.idx = fs.length - 1) then 1 else 0) := by
      simp only [nTaken, wtaken]
      rw [lenIf, htak]
    have eAck : nAck ((i, (writer dw aw fs).out s i) :: tr) =
        nAck tr + (if (i.ack && (i.offer && !s.q.isEmpty && (i.waRd || s.q.headD 0 == PROPAGATE))) then 1 else 0) := by
      simp only [nAck, List.filter_cons, hA]
      split <;> simp
    have eWa : nWriteAck ((i, (writer dw aw fs).out s i) :: tr) =
        nWriteAck tr + (if (i.ack && (i.offer && !s.q.isEmpty) && !(s.q.headD 0 == PROPAGATE)) && i.waRd then 1 else 0) := by
      simp only [nWriteAck, List.filter_cons, hC]
      split <;> simp
    rw [eReq, eTak, eAck, eWa]
    have hlen : s'.q.length + (if (i.ack && (i.offer && !s.q.isEmpty && (i.waRd || s.q.headD 0 == PROPAGATE))) then 1 else 0) =
        s.q.length + (if F then 1 else 0) := by
      rw [hqn]
      cases hh : s.q with
      | nil => cases F <;> simp
      | cons x q =>
        cases i.ack <;> cases i.offer <;> cases i.waRd <;> cases F <;> by_cases hx : x = PROPAGATE <;> simp [hx] <;> omega
    have hcnt : s'.q.count SKIP +
        (if (i.ack && (i.offer && !s.q.isEmpty) && !(s.q.headD 0 == PROPAGATE)) && i.waRd then 1 else 0) =
        s.q.count SKIP + (if F && decide (s.idx ≠ 0) then 1 else 0) := by
      rw [hqn]
      cases hh : s.q with
      | nil => cases F <;> by_cases h0 : s.idx = 0 <;> simp [h0, SKIP, PROPAGATE]
      | cons x q =>
        have hx := hq x (by rw [hh]; simp)
        rcases hx with hx | hx <;>
        cases i.ack <;> cases i.offer <;> cases i.waRd <;> cases F <;> by_cases h0 : s.idx = 0 <;>
          simp [hx, h0, SKIP, PROPAGATE] <;> omega
    generalize (if (i.ack && (i.offer && !s.q.isEmpty && (i.waRd || s.q.headD 0 == PROPAGATE))) then 1 else 0) = A at *
    generalize (if (i.ack && (i.offer && !s.q.isEmpty) && !(s.q.headD 0 == PROPAGATE)) && i.waRd then 1 else 0) = W at *
    generalize nTaken tr = T at *
    unfold nextIdx at hidx
    rw [Nat.mul_add, Nat.mul_add]
    cases F with
    | false =>
      simp only [Bool.false_and, Bool.false_eq_true, if_false, Nat.mul_zero, Nat.add_zero] at *
      rw [hidx] at r3 r5
      generalize fs.length * T = X at *
      generalize (fs.length - 1) * T = Y at *
      omega
    | true =>
      by_cases hl : s.idx = fs.length - 1
      · have e1 : (if (true && decide (s.idx = fs.length - 1)) = true then 1 else 0) = 1 := by simp [hl]
        rw [e1]
        rw [if_pos rfl, if_pos hl] at hidx
        rw [hidx] at r3 r5
        simp only [Bool.true_and, if_true, decide_eq_true_eq] at hlen hcnt ⊢
        generalize fs.length * T = X at *
        generalize (fs.length - 1) * T = Y at *
        by_cases h0 : s.idx = 0
        · rw [if_neg (by simpa using h0)] at hcnt; omega
        · rw [if_pos h0] at hcnt; omega
      · have e1 : (if (true && decide (s.idx = fs.length - 1)) = true then 1 else 0) = 0 := by simp [hl]
        rw [e1]
        rw [if_pos rfl, if_neg hl] at hidx
        rw [hidx] at r3 r5
        simp only [Bool.true_and, if_true, decide_eq_true_eq] at hlen hcnt ⊢
        generalize fs.length * T = X at *
        generalize (fs.length - 1) * T = Y at *
        by_cases h0 : s.idx = 0
        · rw [if_neg (by simpa using h0)] at hcnt; omega
        · rw [if_pos h0] at hcnt; omega

/-- **C367** (part): a structure of `n` frames has `n - 1` acknowledges, one if it has two frames. Missing: one acknowledge for
other numbers of frames. -/
theorem write_ack_partial (dw aw : Nat) (fs : List Frame) (is : List WIn) (hf : fs ≠ [])
    (hr : nReq ((writer dw aw fs).trace ⟨0, []⟩ is) = fs.length * nTaken ((writer dw aw fs).trace ⟨0, []⟩ is))
    (ha : nAck ((writer dw aw fs).trace ⟨0, []⟩ is) = nReq ((writer dw aw fs).trace ⟨0, []⟩ is)) :
    nWriteAck ((writer dw aw fs).trace ⟨0, []⟩ is) = (fs.length - 1) * nTaken ((writer dw aw fs).trace ⟨0, []⟩ is) ∧
    (fs.length = 2 →
      nWriteAck ((writer dw aw fs).trace ⟨0, []⟩ is) = nTaken ((writer dw aw fs).trace ⟨0, []⟩ is)) := by
  obtain ⟨h1, h2, h3, h4, h5⟩ := counts dw aw fs hf is ⟨0, []⟩ (List.length_pos_iff.2 hf) (by simp)
  generalize (writer dw aw fs).trace ⟨0, []⟩ is = tr at *
  generalize (writer dw aw fs).final ⟨0, []⟩ is = t at *
  simp only [List.length_nil, List.count_nil] at h3 h4 h5
  have hq : t.q = [] := List.length_eq_zero_iff.1 (by omega)
  rw [hq] at h5
  simp only [List.count_nil] at h5
  have hw : nWriteAck tr = (fs.length - 1) * nTaken tr := by
    generalize (fs.length - 1) * nTaken tr = Y at *
    generalize fs.length * nTaken tr = X at *
    omega
  refine ⟨hw, fun h => ?_⟩
  rw [hw, h]; omega

example : nReq ((writer 64 32 exFrames).trace ⟨0, []⟩ (exWRun ++ [⟨none, false, true, true, true, true⟩])) = 2 * 1 ∧
    nAck ((writer 64 32 exFrames).trace ⟨0, []⟩ (exWRun ++ [⟨none, false, true, true, true, true⟩])) = 2 ∧
    nTaken ((writer 64 32 exFrames).trace ⟨0, []⟩ (exWRun ++ [⟨none, false, true, true, true, true⟩])) = 1 ∧
    nWriteAck ((writer 64 32 exFrames).trace ⟨0, []⟩ (exWRun ++ [⟨none, false, true, true, true, true⟩])) = 1 := by
  decide +kernel

/-- **C367**: `ack` is taken only for frames which were requested. -/
theorem write_ack_bound (dw aw : Nat) (fs : List Frame) (is : List WIn) (hf : fs ≠ []) :
    nAck ((writer dw aw fs).trace ⟨0, []⟩ is) ≤ nReq ((writer dw aw fs).trace ⟨0, []⟩ is) := by
  obtain ⟨h1, h2, h3, h4, h5⟩ := counts dw aw fs hf is ⟨0, []⟩ (List.length_pos_iff.2 hf) (by simp)
  simp only [List.length_nil] at h4
  omega

/-! ## C368: pending structures -/

/-- With `WRITE_ACK` (no buffer) `set` is ready only if everything requested for the earlier structures was acknowledged. -/
def IdleSpec : Prop := ∀ dw aw fs is i, fs ≠ [] →
  i.set.isSome = true → ((writer dw aw fs).outAfter ⟨0, []⟩ is i).setRd = true →
  fs.length * nTaken ((writer dw aw fs).trace ⟨0, []⟩ is) ≤ nAck ((writer dw aw fs).trace ⟨0, []⟩ is)

/-- **C368** (violated): a second address is accepted while the first structure is pending. -/
theorem idleSpec_violated : ¬ IdleSpec := by
  intro h
  have := h 64 32 [⟨0, 64⟩] [⟨some 64, true, true, false, false, true⟩] ⟨some 128, true, true, false, false, true⟩ (by simp)
    rfl (by decide +kernel)
  revert this
  decide +kernel

theorem one_req (dw aw : Nat) (fs : List Frame) (s : WSt) (i : WIn) :
    nReq [(i, (writer dw aw fs).out s i)] ≤ if i.infoRd then 1 else 0 := by
  simp only [nReq, wreqs]
  rw [lenIf]
  simp only [(out_toR dw aw fs s i).2.1, List.filterMap_nil, List.length_nil, Nat.zero_add]
  by_cases h : i.infoRd = true
  · rw [if_pos h]; generalize (Option.isSome _) = b; cases b <;> simp
  · have : (toR i).rd = false := by simp [toR, h]
    simp [this]

/-- **C368** (part): if `ackPropageteInfo` accepts only while it holds less than `d` items, there are at most `d` requests without
acknowledge (`d` is given by `MAX_OVERLAP`). Missing: the idle state. -/
theorem pending_limit_partial (dw aw : Nat) (fs : List Frame) (d : Nat) (is : List WIn)
    (hd : ∀ pre i post, is = pre ++ i :: post → i.infoRd = true →
      nReq ((writer dw aw fs).trace ⟨0, []⟩ pre) < nAck ((writer dw aw fs).trace ⟨0, []⟩ pre) + d) :
    nReq ((writer dw aw fs).trace ⟨0, []⟩ is) ≤ nAck ((writer dw aw fs).trace ⟨0, []⟩ is) + d := by
  rcases List.eq_nil_or_concat is with rfl | ⟨l, i, rfl⟩
  · simp [nReq, wreqs]
  · induction hl : l.length generalizing l i with
    | zero =>
      rw [List.length_eq_zero_iff.1 hl] at hd ⊢
      have := hd [] i [] rfl
      simp only [List.concat_eq_append, List.nil_append, Machine.trace_cons, Machine.trace_nil] at this ⊢
      have hz : nReq [] = 0 := rfl
      have hz' : nAck [] = 0 := rfl
      rw [hz, hz'] at this
      have h1 : nReq [(i, (writer dw aw fs).out ⟨0, []⟩ i)] ≤ if i.infoRd then 1 else 0 := by
        exact one_req dw aw fs ⟨0, []⟩ i
      split at h1
      · have := this (by assumption); omega
      · omega
    | succ n ih =>
      rcases List.eq_nil_or_concat l with rfl | ⟨l', j, rfl⟩
      · simp at hl
      · have hprev := ih l' j (by
          intro pre k post he hk
          exact hd pre k (post ++ [i]) (by rw [List.concat_eq_append (a := i), he]; simp) hk) (by simpa using hl)
        have hlast := hd (l'.concat j) i [] (by simp)
        rw [List.concat_eq_append (a := i), Machine.trace_snoc]
        generalize (writer dw aw fs).trace ⟨0, []⟩ (l'.concat j) = tr at *
        simp only [Machine.outAfter]
        generalize (writer dw aw fs).final ⟨0, []⟩ (l'.concat j) = s at *
        have h1 : nReq (tr ++ [(i, (writer dw aw fs).out s i)]) ≤ nReq tr + if i.infoRd then 1 else 0 := by
          simp only [nReq, wreqs, List.filterMap_append, List.length_append]
          have : (List.filterMap (fun e : WIn × WOut => if e.1.rd then e.2.req else none)
              [(i, (writer dw aw fs).out s i)]).length ≤ if i.infoRd then 1 else 0 := one_req dw aw fs s i
          omega
        have h2 : nAck tr ≤ nAck (tr ++ [(i, (writer dw aw fs).out s i)]) := by
          simp [nAck, List.filter_append]
        split at h1
        · have := hlast (by assumption); omega
        · omega

example : ∀ pre i post, exWRun = pre ++ i :: post → i.infoRd = true →
    nReq ((writer 64 32 exFrames).trace ⟨0, []⟩ pre) < nAck ((writer 64 32 exFrames).trace ⟨0, []⟩ pre) + 2 := by
  intro pre i post h _
  have hp : pre = exWRun.take pre.length := by rw [h]; simp
  have hl : pre.length < 4 := by
    have := congrArg List.length h
    simp [exWRun] at this; omega
  rw [hp]
  generalize pre.length = k at hl
  have : k = 0 ∨ k = 1 ∨ k = 2 ∨ k = 3 := by omega
  rcases this with rfl | rfl | rfl | rfl <;> decide +kernel

end Verif.StructRw
