import Verif.Buff
import Verif.AvmmBuffProps
import Mathlib.Data.List.Induction

/-!
# Properties of `AxiBuff` and `Mi32Buff` (C223 - C225)
-/

namespace Verif.Buff

open Verif

variable {α : Type}

def q (D : Nat) (b : Buf α) : List α := if D ≤ 2 then HsReg.chainQ b.regs else HsFifo.queue D b.fifo
def Inv (D : Nat) (b : Buf α) : Prop := (D ≤ 2 ∧ b.regs.length = D) ∨ (3 ≤ D ∧ HsFifo.Inv D b.fifo)

theorem step {D : Nat} (b : Buf α) (i : HsFifo.In α) (h : Inv D b) :
    Inv D (next D b i) ∧ q D b ++ given (i.vld && rd D b i.rd) i.data =
      given (vld D b i.vld && i.rd) (data D b i.data) ++ q D (next D b i) := by
  rcases h with ⟨h, hl⟩ | ⟨h, hi⟩
  · simp only [q, next, rd, vld, data, if_pos h, Inv]
    exact ⟨.inl ⟨h, by rw [HsReg.chain_length]; exact hl⟩, HsReg.chain_step b.regs i.vld i.data i.rd⟩
  · have hD : ¬D ≤ 2 := by omega
    have hs := HsFifo.step b.fifo i hi
    simp only [q, next, rd, vld, data, Inv, if_neg hD]
    refine ⟨.inr ⟨h, hs.1⟩, ?_⟩
    rw [← AvmmBuff.toList_given, ← AvmmBuff.toList_given]
    exact hs.2

theorem q_le {D : Nat} (b : Buf α) (h : Inv D b) : (q D b).length ≤ D := by
  rcases h with ⟨h, hl⟩ | ⟨h, hi⟩
  · simp only [q, if_pos h]
    have := HsReg.chainQ_length b.regs
    omega
  · have hD : ¬D ≤ 2 := by omega
    simp only [q, if_neg hD]
    exact HsFifo.queue_le (by omega) _ hi

theorem chainQ_empty : ∀ (ss : List (HsReg.Stage α)), (∀ s ∈ ss, s.occ = false) → HsReg.chainQ ss = []
  | [], _ => rfl
  | s :: ss, h => by
    simp only [HsReg.chainQ, h s (List.mem_cons_self ..), chainQ_empty ss fun t ht => h t (List.mem_cons_of_mem _ ht)]
    rfl

theorem init {D : Nat} (b : Buf α) (h : BufInit D b) : Inv D b ∧ q D b = [] := by
  by_cases h1 : D ≤ 2
  · simp only [Inv, q, if_pos h1]
    exact ⟨.inl ⟨h1, h.len⟩, chainQ_empty _ h.regs⟩
  · obtain ⟨m, d, hf⟩ := h.fifo
    simp only [Inv, q, if_neg h1, hf]
    exact ⟨.inr ⟨by omega, HsFifo.init_inv [] (by simp; omega) m d⟩, HsFifo.init_queue [] (by simp; omega) m d⟩

/-- an offered word stays until it is taken -/
theorem stable {D : Nat} (hD : 1 ≤ D) (b : Buf α) (h : Inv D b) (i j : HsFifo.In α) (hv : vld D b i.vld = true) (hr : i.rd = false) :
    vld D (next D b i) j.vld = true ∧ data D (next D b i) j.data = data D b i.data := by
  rcases h with ⟨h, hl⟩ | ⟨h, hi⟩
  · simp only [vld, data, next, if_pos h] at hv ⊢
    rw [hr]
    exact HsReg.chain_stable b.regs i.vld i.data j.vld j.data (by intro h0; rw [h0] at hl; simp at hl; omega) hv
  · have hD : ¬D ≤ 2 := by omega
    simp only [vld, data, next, if_neg hD] at hv ⊢
    have e1 := Fifo.fifoRead_eq (HsFifo.proto b.fifo i)
    have hre : (HsFifo.fifoIn b.fifo i).ren = false := by simp [HsFifo.fifoIn, hv, hr]
    refine ⟨by simp [HsFifo.next, hr, hv], ?_⟩
    show (if Fifo.fifoRead b.fifo.fifo (HsFifo.fifoIn b.fifo i) then _ else _) = _
    rw [e1, hre]; rfl

/-! ## A channel of a machine -/

/-- words which came from the source of a channel and words taken by its destination -/
def came {I O : Type} (fi : I → HsFifo.In α) (fo : O → Ch α) (tr : List (I × O)) : List α :=
  tr.flatMap fun e => given ((fi e.1).vld && (fo e.2).rd) (fi e.1).data
def left {I O : Type} (fi : I → HsFifo.In α) (fo : O → Ch α) (tr : List (I × O)) : List α :=
  tr.flatMap fun e => given ((fo e.2).vld && (fi e.1).rd) (fo e.2).data

theorem chan_run {S I O : Type} (m : Machine S I O) (D : Nat) (fb : S → Buf α) (fi : I → HsFifo.In α) (fo : O → Ch α)
    (ho : ∀ s x, fo (m.out s x) = ch D (fb s) (fi x)) (hn : ∀ s x, fb (m.next s x) = next D (fb s) (fi x))
    (s : S) (hs : BufInit D (fb s)) (is : List I) :
    Inv D (fb (m.final s is)) ∧ came fi fo (m.trace s is) = left fi fo (m.trace s is) ++ q D (fb (m.final s is)) := by
  obtain ⟨h1, h2⟩ := init _ hs
  have h := Machine.conserveL m (fun s => Inv D (fb s)) (fun _ => True) (fun s => q D (fb s))
    (fun e => given ((fi e.1).vld && (fo e.2).rd) (fi e.1).data)
    (fun e => given ((fo e.2).vld && (fi e.1).rd) (fo e.2).data)
    (by
      intro s x hI _
      have := step (fb s) (fi x) hI
      simp only [hn, ho, ch]
      exact this)
    is s h1 (fun _ _ => trivial)
  rw [h2] at h
  exact h

/-- words of a channel pass once and in order, at most `D` of them are inside -/
def Passes {I O : Type} (D : Nat) (fi : I → HsFifo.In α) (fo : O → Ch α) (tr : List (I × O)) : Prop :=
  ∃ inside : List α, inside.length ≤ D ∧ came fi fo tr = left fi fo tr ++ inside

theorem passes {S I O : Type} (m : Machine S I O) (D : Nat) (fb : S → Buf α) (fi : I → HsFifo.In α) (fo : O → Ch α)
    (ho : ∀ s x, fo (m.out s x) = ch D (fb s) (fi x)) (hn : ∀ s x, fb (m.next s x) = next D (fb s) (fi x))
    (s : S) (hs : BufInit D (fb s)) (is : List I) : Passes D fi fo (m.trace s is) :=
  ⟨_, q_le _ (chan_run m D fb fi fo ho hn s hs is).1, (chan_run m D fb fi fo ho hn s hs is).2⟩

variable {AR AW W R B : Type}

/-- C223: each item of each channel of `AxiBuff` passes exactly once and in order, the capacity of the channels is the depth -/
theorem axi_passes (c : Cfg) (s : AxSt AR AW W R B) (hs : AxInit c s) (is : List (AxIn AR AW W R B)) :
    Passes c.aD (·.ar) (·.ar) ((axi c).trace s is) ∧ Passes c.aD (·.aw) (·.aw) ((axi c).trace s is) ∧
    Passes c.dD (·.w) (·.w) ((axi c).trace s is) ∧ Passes c.dD (·.r) (·.r) ((axi c).trace s is) ∧
    Passes c.aD (·.b) (·.b) ((axi c).trace s is) :=
  ⟨passes (axi c) c.aD (·.ar) _ _ (fun _ _ => rfl) (fun _ _ => rfl) s hs.ar is,
   passes (axi c) c.aD (·.aw) _ _ (fun _ _ => rfl) (fun _ _ => rfl) s hs.aw is,
   passes (axi c) c.dD (·.w) _ _ (fun _ _ => rfl) (fun _ _ => rfl) s hs.w is,
   passes (axi c) c.dD (·.r) _ _ (fun _ _ => rfl) (fun _ _ => rfl) s hs.r is,
   passes (axi c) c.aD (·.b) _ _ (fun _ _ => rfl) (fun _ _ => rfl) s hs.b is⟩

/-- the destination of a channel sees a stable item until it takes it, whatever the source does -/
def Stable {I O : Type} (fi : I → HsFifo.In α) (fo : O → Ch α) (x : I) (o o' : O) : Prop :=
  (fo o).vld = true → (fi x).rd = false → (fo o').vld = true ∧ (fo o').data = (fo o).data

theorem chan_stable {S I O : Type} (m : Machine S I O) (D : Nat) (hD : 1 ≤ D) (fb : S → Buf α) (fi : I → HsFifo.In α) (fo : O → Ch α)
    (ho : ∀ s x, fo (m.out s x) = ch D (fb s) (fi x)) (hn : ∀ s x, fb (m.next s x) = next D (fb s) (fi x))
    (s : S) (hs : BufInit D (fb s)) (is : List I) (x y : I) :
    Stable fi fo x (m.outAfter s is x) (m.outAfter s (is ++ [x]) y) := by
  have hi := (chan_run m D fb fi fo ho hn s hs is).1
  unfold Stable Machine.outAfter
  simp only [Machine.final_append, Machine.final_cons, Machine.final_nil, ho, hn, ch]
  intro hv hr
  exact stable hD _ hi _ _ hv hr

/-- C224: outputs of `AxiBuff` with nonzero depths are stable until taken -/
theorem axi_stable (c : Cfg) (ha : 1 ≤ c.aD) (hd : 1 ≤ c.dD) (s : AxSt AR AW W R B) (hs : AxInit c s) (is : List (AxIn AR AW W R B))
    (x y : AxIn AR AW W R B) :
    let o := (axi c).outAfter s is x
    let o' := (axi c).outAfter s (is ++ [x]) y
    Stable (·.ar) (·.ar) x o o' ∧ Stable (·.aw) (·.aw) x o o' ∧ Stable (·.w) (·.w) x o o' ∧ Stable (·.r) (·.r) x o o' ∧
    Stable (·.b) (·.b) x o o' :=
  ⟨chan_stable (axi c) c.aD ha (·.ar) _ _ (fun _ _ => rfl) (fun _ _ => rfl) s hs.ar is x y,
   chan_stable (axi c) c.aD ha (·.aw) _ _ (fun _ _ => rfl) (fun _ _ => rfl) s hs.aw is x y,
   chan_stable (axi c) c.dD hd (·.w) _ _ (fun _ _ => rfl) (fun _ _ => rfl) s hs.w is x y,
   chan_stable (axi c) c.dD hd (·.r) _ _ (fun _ _ => rfl) (fun _ _ => rfl) s hs.r is x y,
   chan_stable (axi c) c.aD ha (·.b) _ _ (fun _ _ => rfl) (fun _ _ => rfl) s hs.b is x y⟩

/-! ## `Mi32Buff` -/

variable {A D : Type}

/-- requests taken from `s` and issued on `m` -/
def sReqs (tr : List (MIn A D × MOut A D)) : List (Req A) :=
  tr.flatMap fun e => given ((e.1.req.rd || e.1.req.wr) && e.2.ardy) e.1.req
def mReqs (tr : List (MIn A D × MOut A D)) : List (Req A) :=
  tr.flatMap fun e => given ((e.2.req.rd || e.2.req.wr) && e.1.ardy) e.2.req

/-- each stored request is a read or a write -/
def Real (c : Cfg) (s : MSt A D) : Prop := Inv c.aD s.a ∧ ∀ r ∈ q c.aD s.a, (r.rd || r.wr) = true

theorem head_real {c : Cfg} {s : MSt A D} (x : MIn A D) (h : Real c s) (hv : vld c.aD s.a (x.req.rd || x.req.wr) = true) :
    ((data c.aD s.a x.req).rd || (data c.aD s.a x.req).wr) = true := by
  have h1 := (step s.a ⟨x.req.rd || x.req.wr, x.req, true⟩ h.1).2
  simp only [hv, Bool.true_and] at h1
  have : data c.aD s.a x.req ∈ q c.aD s.a ++ given ((x.req.rd || x.req.wr) && rd c.aD s.a true) x.req := by
    rw [h1]; simp [given]
  rcases List.mem_append.1 this with h2 | h2
  · exact h.2 _ h2
  · cases h3 : (x.req.rd || x.req.wr)
    · rw [h3] at h2; simp [given] at h2
    · cases h4 : rd c.aD s.a true
      · rw [h4] at h2; simp [given] at h2
      · rw [h3, h4] at h2
        simp [given] at h2
        rw [h2]; exact h3

theorem mi_step (c : Cfg) (s : MSt A D) (x : MIn A D) (h : Real c s) :
    Real c ((mi32 c).next s x) ∧
    q c.aD s.a ++ given ((x.req.rd || x.req.wr) && ((mi32 c).out s x).ardy) x.req =
      given ((((mi32 c).out s x).req.rd || ((mi32 c).out s x).req.wr) && x.ardy) ((mi32 c).out s x).req ++
        q c.aD ((mi32 c).next s x).a := by
  have hs := step s.a (aIn x) h.1
  have hh := head_real x h
  have e1 : ((mi32 c).out s x).ardy = rd c.aD s.a x.ardy := rfl
  have e2 : ((mi32 c).next s x).a = next c.aD s.a (aIn x) := rfl
  have e3 : given ((((mi32 c).out s x).req.rd || ((mi32 c).out s x).req.wr) && x.ardy) ((mi32 c).out s x).req =
      given (vld c.aD s.a (x.req.rd || x.req.wr) && x.ardy) (data c.aD s.a x.req) := by
    simp only [mi32]
    cases hv : vld c.aD s.a (x.req.rd || x.req.wr) with
    | false => simp [given]
    | true =>
      have := hh hv
      simp only [Bool.true_and, this]
  rw [e1, e2, e3]
  have hs2 := hs.2
  simp only [aIn] at hs2
  refine ⟨⟨hs.1, ?_⟩, hs2⟩
  intro r hr
  rw [e2] at hr
  have : r ∈ q c.aD s.a ++ given ((x.req.rd || x.req.wr) && rd c.aD s.a x.ardy) x.req := by
    rw [hs2]; exact List.mem_append_right _ hr
  rcases List.mem_append.1 this with h2 | h2
  · exact h.2 _ h2
  · cases h3 : (x.req.rd || x.req.wr)
    · rw [h3] at h2; simp [given] at h2
    · cases h4 : rd c.aD s.a x.ardy
      · rw [h4] at h2; simp [given] at h2
      · rw [h3, h4] at h2
        simp [given] at h2
        rw [h2]; exact h3

/-- C225: each request accepted by `Mi32Buff` is issued exactly once, in order -/
theorem mi_requests (c : Cfg) (s : MSt A D) (hs : MInit c s) (is : List (MIn A D)) :
    ∃ inside : List (Req A), inside.length ≤ c.aD ∧ sReqs ((mi32 c).trace s is) = mReqs ((mi32 c).trace s is) ++ inside := by
  obtain ⟨h1, h2⟩ := init _ hs.a
  have h := Machine.conserveL (mi32 c) (Real c) (fun _ => True) (fun s => q c.aD s.a)
    (fun e => given ((e.1.req.rd || e.1.req.wr) && e.2.ardy) e.1.req)
    (fun e => given ((e.2.req.rd || e.2.req.wr) && e.1.ardy) e.2.req)
    (fun s x h _ => mi_step c s x h) is s ⟨h1, by rw [h2]; simp⟩ (fun _ _ => trivial)
  rw [h2] at h
  exact ⟨_, q_le _ h.1.1, h.2⟩

/-- the registers hold the last values, the newest first -/
theorem line_run (c : Cfg) (s : MSt A D) (hs : MInit c s) (is : List (MIn A D)) :
    ((mi32 c).final s is).d = ((is.map fun x => (x.drdy, x.drd)).reverse ++ s.d).take c.dD := by
  induction is using List.reverseRecOn with
  | nil => simp [← hs.len]
  | append_singleton is x ih =>
    simp only [Machine.final_append, Machine.final_cons, Machine.final_nil]
    show shift (x.drdy, x.drd) ((mi32 c).final s is).d = _
    rw [ih]
    have hl : (((is.map fun x => (x.drdy, x.drd)).reverse ++ s.d).take c.dD).length = c.dD := by
      rw [List.length_take, List.length_append, hs.len]; omega
    simp only [shift, hl, List.map_append, List.reverse_append, List.map_cons, List.map_nil, List.reverse_singleton, List.cons_append,
      List.nil_append]
    cases c.dD with
    | zero => simp
    | succ n =>
      rw [List.take_succ_cons, List.take_succ_cons, List.take_take]
      congr 2
      omega

/-- C225: read data pass with the latency `DATA_BUFF_DEPTH`, each exactly once -/
theorem mi_data (c : Cfg) (s : MSt A D) (hs : MInit c s) (is : List (MIn A D)) (x : MIn A D) :
    let o := (mi32 c).outAfter s is x
    (is.length < c.dD → o.drdy = false) ∧
    (∀ n, is.length = n + c.dD → ∀ y, (is ++ [x])[n]? = some y → (o.drdy, o.drd) = (y.drdy, y.drd)) := by
  have hl := line_run c s hs is
  have ho : (((mi32 c).outAfter s is x).drdy, ((mi32 c).outAfter s is x).drd) = line (x.drdy, x.drd) ((mi32 c).final s is).d := rfl
  refine ⟨fun h => ?_, fun n hn y hy => ?_⟩
  · have : ((mi32 c).outAfter s is x).drdy = (line (x.drdy, x.drd) ((mi32 c).final s is).d).1 := rfl
    rw [this, hl]
    have h2 : (((is.map fun x => (x.drdy, x.drd)).reverse ++ s.d).take c.dD).getLast? = s.d[c.dD - 1 - is.length]? := by
      rw [List.getLast?_eq_getElem?, List.length_take, List.length_append, hs.len]
      simp only [List.length_reverse, List.length_map]
      rw [Nat.min_eq_left (by omega), List.getElem?_take_of_lt (by omega), List.getElem?_append_right (by simp; omega)]
      simp
    unfold line
    rw [List.getLastD_eq_getLast?, h2]
    have hlt : c.dD - 1 - is.length < s.d.length := by rw [hs.len]; omega
    rw [List.getElem?_eq_getElem hlt]
    exact hs.d _ (List.getElem_mem hlt)
  · rw [ho, hl]
    unfold line
    rw [List.getLastD_eq_getLast?, List.getLast?_eq_getElem?, List.length_take, List.length_append, hs.len]
    simp only [List.length_reverse, List.length_map]
    rw [Nat.min_eq_left (by omega)]
    cases hd : c.dD with
    | zero =>
      rw [hd] at hn
      have : n = is.length := by omega
      subst this
      simp at hy
      simp [hy]
    | succ k =>
      rw [hd] at hn
      rw [Nat.add_sub_cancel, List.getElem?_take_of_lt (by omega), List.getElem?_append_left (by simp; omega),
        List.getElem?_reverse (by simp; omega)]
      rw [List.getElem?_append_left (by omega)] at hy
      simp only [List.length_map, List.getElem?_map]
      have : is.length - 1 - k = n := by omega
      rw [this, hy]
      rfl

/-! ## Examples -/

def exBuf (D : Nat) (d : α) : Buf α := ⟨List.replicate D ⟨false, d⟩, HsFifo.init D [] (fun _ => d) d⟩
theorem exBuf_init (D : Nat) (d : α) : BufInit D (exBuf D d) :=
  ⟨by simp [exBuf], by intro s h; rw [(List.mem_replicate.1 h).2], ⟨_, _, rfl⟩⟩

def exAx : AxSt Nat Nat Nat Nat Nat := ⟨exBuf 2 0, exBuf 2 0, exBuf 4 0, exBuf 4 0, exBuf 2 0⟩
example : AxInit ⟨2, 4⟩ exAx := ⟨exBuf_init .., exBuf_init .., exBuf_init .., exBuf_init .., exBuf_init ..⟩
/-- `ar`, `w` send `n`, all sides are ready -/
def exAxIn (n : Nat) : AxIn Nat Nat Nat Nat Nat :=
  ⟨⟨true, n, true⟩, ⟨false, 0, true⟩, ⟨true, n + 10, true⟩, ⟨false, 0, true⟩, ⟨false, 0, true⟩⟩
example : left (·.ar) (·.ar) ((axi ⟨2, 4⟩).trace exAx [exAxIn 1, exAxIn 2, exAxIn 3, exAxIn 4]) = [1, 2] ∧
    left (·.w) (·.w) ((axi ⟨2, 4⟩).trace exAx [exAxIn 1, exAxIn 2, exAxIn 3, exAxIn 4]) = [11, 12] := by decide

def exMi : MSt Nat Nat := ⟨exBuf 1 ⟨false, false, 0⟩, [(false, 0), (false, 0)]⟩
example : MInit ⟨1, 2⟩ exMi := ⟨exBuf_init .., rfl, by decide⟩
def exMiIn (n : Nat) : MIn Nat Nat := ⟨⟨true, false, n⟩, true, true, n + 10⟩
example : (mReqs ((mi32 ⟨1, 2⟩).trace exMi [exMiIn 1, exMiIn 2, exMiIn 3])).map (·.pay) = [1, 2] ∧
    ((mi32 ⟨1, 2⟩).outAfter exMi [exMiIn 1, exMiIn 2] (exMiIn 3)).drdy = true ∧
    ((mi32 ⟨1, 2⟩).outAfter exMi [exMiIn 1, exMiIn 2] (exMiIn 3)).drd = 11 := by decide

end Verif.Buff
