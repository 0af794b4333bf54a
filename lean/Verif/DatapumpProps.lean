import Verif.DatapumpRW
/-!
# Properties of the AXI datapumps (C120 - C126)
-/
namespace Verif.Datapump
universe u
variable {α : Type u}

/-! ### Legal parameters and requests -/

/-- Bytes of a request. -/
def Req.bytes (W : Nat) (q : Req) : Nat := q.len * W + if q.rem = 0 then W else q.rem

/-- The assertions of `hwDeclr` (base.py:66-72), word and address widths of AXI, `len` of the read datapump. -/
structure Legal (p : Params) : Prop where
  data : ∃ w, p.dataW = 8 * 2 ^ w ∧ w ≤ p.addrW
  alignas : ∃ a, p.alignas = 8 * 2 ^ a ∧ p.alignas ≤ p.dataW
  chunk : ∃ c, p.chunkW = 8 * 2 ^ c
  chunks : 0 < p.maxChunks
  maxLen : p.maxLen = Params.readMaxLen p.maxChunks p.chunkW p.dataW

/-- A request which the documentation of the parameters allows: an address aligned to `ALIGNAS`, at most `MAX_CHUNKS` chunks. -/
structure ReqLegal (p : Params) (q : Req) : Prop where
  addr : q.addr < p.A
  al : q.addr % (p.alignas / 8) = 0
  rem : q.rem < p.W
  chunks : q.bytes p.W % (p.chunkW / 8) = 0
  len : q.bytes p.W ≤ p.maxChunks * (p.chunkW / 8)

/-- The addresses of the words which contain a byte of the request, in order. -/
def reqAddrs (p : Params) (q : Req) : List Nat :=
  (List.range ((q.addr % p.W + q.bytes p.W + (p.W - 1)) / p.W)).map fun k => (q.addr - q.addr % p.W + k * p.W) % p.A

/-- The last request event is not a request which waits. -/
def Settled (l : List ReqEv) : Prop := ∀ e, l.getLast? = some e → e.1 = true → e.2.2 = true

theorem want_addrs (p : Params) (q : Req) : (want p q).map Prod.fst = reqAddrs p q := by
  unfold want reqAddrs wantAt wordCnt Req.bytes
  rw [List.map_map]; rfl

theorem burstWords_eq (p : Params) (P : List Burst) :
    burstWords p (P.map fun b => (b.addr, b.len)) = ((P.flatMap (expand p)).map Beat.norm).map Prod.fst := by
  unfold burstWords expand
  rw [List.flatMap_map, List.map_flatMap, List.map_flatMap]
  simp [List.map_map, Function.comp_def, Beat.norm]

theorem settled_pend {p : Params} {plan : List Req} {s : ASt} {l : List ReqEv} {P : List Burst} (h : ARun p plan s l P) (hs : Settled l) :
    s.pend = false := by
  cases hp : s.pend
  · rfl
  · obtain ⟨e, a1, a2, a3⟩ := h.held hp
    have := hs e a1 a2
    rw [a3] at this; simp at this

/-! ### C120: addresses -/

/-- C120 for given parameters: the words of the AXI bursts are the words of the requests in order, a burst is not longer than AXI
allows and the words of all accepted requests are addressed. -/
def AddrFull (p : Params) : Prop :=
  ∀ (plan : List Req) (s0 : ASt) (is : List AIn), (∀ q ∈ plan, ReqLegal p q) → s0.pend = false → (∀ i ∈ is, i.err = false) →
    DriverOk plan (aReqs ((addrMachine p).trace s0 is)) →
    burstWords p (aBursts ((addrMachine p).trace s0 is)) <+: plan.flatMap (reqAddrs p) ∧
    (∀ b ∈ aBursts ((addrMachine p).trace s0 is), b.2 + 1 ≤ p.L) ∧
    (Settled (aReqs ((addrMachine p).trace s0 is)) → burstWords p (aBursts ((addrMachine p).trace s0 is)) =
      (plan.take (accepted (aReqs ((addrMachine p).trace s0 is)))).flatMap (reqAddrs p))

/-- C120 -/
theorem datapump_addr_partial {p : Params} (h : Ok p) {plan : List Req} (hp : ∀ q ∈ plan, ReqOk p q) {s0 : ASt} (h0 : s0.pend = false)
    (is : List AIn) (hd : DriverOk plan (aReqs ((addrMachine p).trace s0 is))) :
    burstWords p (aBursts ((addrMachine p).trace s0 is)) <+: plan.flatMap (reqAddrs p) ∧
    (∀ b ∈ aBursts ((addrMachine p).trace s0 is), b.2 + 1 ≤ p.L) ∧
    (Settled (aReqs ((addrMachine p).trace s0 is)) → burstWords p (aBursts ((addrMachine p).trace s0 is)) =
      (plan.take (accepted (aReqs ((addrMachine p).trace s0 is)))).flatMap (reqAddrs p)) := by
  obtain ⟨P, r, e⟩ := arun_run h hp h0 is hd
  rw [e, burstWords_eq]
  have em : ∀ l : List Req, (l.flatMap (want p)).map Prod.fst = l.flatMap (reqAddrs p) := by
    intro l
    rw [List.map_flatMap]
    congr 1; funext q; exact want_addrs p q
  refine ⟨?_, ?_, ?_⟩
  · rw [← em]; exact (arun_marks r).map _
  · intro b hb
    obtain ⟨x, hx, rfl⟩ := List.mem_map.1 hb
    exact r.len x hx
  · intro hs
    rw [r.inv.2.1 (settled_pend r hs), em]

/-- Legal parameters for which the address part is right. -/
structure Sound (p : Params) : Prop extends Legal p where
  /-- `DATA_WIDTH` is not 8 -/
  wide : 16 ≤ p.dataW
  /-- the alignment check does not check more than `ALIGNAS` -/
  chunkAl : p.alignas = 8 ∨ p.chunkW ≤ p.alignas ∧ 16 ≤ p.chunkW
  /-- requests which take one more word fit to a burst -/
  fit : p.L < p.maxLen + 1 ∨ p.maxLen + 1 = p.L ∧ p.alignas ≠ p.dataW ∧ p.dataW ≤ p.chunkW ∨ p.alignas = p.dataW ∨ 0 < p.maxLen ∧ p.maxLen + 1 < p.L

theorem log2ceil_pow (n : Nat) (h : 0 < n) : 2 ^ log2ceil (2 ^ n) = 2 ^ n := by
  unfold log2ceil
  have h1 : 2 ≤ 2 ^ n := by
    calc 2 = 2 ^ 1 := rfl
      _ ≤ 2 ^ n := Nat.pow_le_pow_right (by omega) h
  rw [if_neg (by omega)]
  congr 1
  have h2 : Nat.log2 (2 ^ n - 1) < n := (Nat.log2_lt (by omega)).2 (by omega)
  have h3 : n - 1 ≤ Nat.log2 (2 ^ n - 1) := by
    rw [Nat.le_log2 (by omega)]
    have : 2 ^ n = 2 ^ (n - 1) * 2 := by rw [← Nat.pow_succ]; congr 1; omega
    omega
  omega

theorem sound_ok {p : Params} (h : Sound p) : Ok p := by
  obtain ⟨w, hw, hle⟩ := h.data
  have hwide := h.wide
  have eW : p.W = 2 ^ w := by unfold Params.W; rw [hw]; omega
  have hw0 : 0 < w := by
    rcases Nat.eq_zero_or_pos w with h0 | h0
    · rw [h0] at hw; omega
    · exact h0
  refine ⟨?_, ?_, ?_, ?_⟩
  · unfold Params.sz; rw [eW]; exact log2ceil_pow w hw0
  · rw [eW]; exact Nat.two_pow_pos _
  · rw [eW]; exact Nat.pow_dvd_pow 2 hle
  · intro hs ha
    rcases h.fit with h1 | h1 | h1 | h1
    · rw [Params.split, if_pos h1] at hs; cases hs
    · rw [Params.split, if_neg (by omega), if_pos h1.1, Params.crossing] at hs
      simp [h1.2] at hs
    · simp [Params.aligned, h1] at ha
    · exact h1

theorem sound_req {p : Params} (h : Sound p) {q : Req} (hq : ReqLegal p q) : ReqOk p q := by
  obtain ⟨w, hw, hle⟩ := h.data
  obtain ⟨a, ha, hale⟩ := h.alignas
  obtain ⟨c, hc⟩ := h.chunk
  have eW : p.W = 2 ^ w := by unfold Params.W; rw [hw]; omega
  have hW : 0 < p.W := by rw [eW]; exact Nat.two_pow_pos _
  have eA : p.alignas / 8 = 2 ^ a := by rw [ha]; omega
  have eC : p.chunkW / 8 = 2 ^ c := by rw [hc]; omega
  refine ⟨hq.rem, ?_, ?_, hq.addr, ?_⟩
  · rw [h.maxLen]
    have h1 := hq.len
    have e1 : p.dataW / 8 = p.W := rfl
    unfold Params.readMaxLen
    rw [e1]
    generalize p.maxChunks * (p.chunkW / 8) = B at *
    unfold Req.bytes at h1
    have h2 : q.len * p.W + 1 ≤ B := by
      split at h1 <;> omega
    have h3 : q.len + 1 ≤ (B + p.W - 1) / p.W := by
      rw [Nat.le_div_iff_mul_le hW, Nat.add_mul]
      omega
    omega
  · unfold Params.chunkAl
    split
    · exact Nat.mod_one _
    · rename_i hne
      obtain ⟨h1, h2⟩ := h.chunkAl.resolve_left hne
      have hc0 : 0 < c := by
        rcases Nat.eq_zero_or_pos c with h0 | h0
        · rw [h0] at hc; omega
        · exact h0
      rw [eC, log2ceil_pow c hc0]
      have : 2 ^ c ∣ 2 ^ a := by
        apply Nat.pow_dvd_pow
        rw [hc, ha] at h1
        exact (Nat.pow_le_pow_iff_right (by omega : 1 < 2)).1 (by omega)
      have hal := hq.al
      rw [eA] at hal
      exact Nat.mod_eq_zero_of_dvd (Nat.dvd_trans this (Nat.dvd_of_mod_eq_zero hal))
  · intro hal
    have : p.alignas = p.dataW := by simpa [Params.aligned] using hal
    have h1 := hq.al
    rw [this] at h1
    exact h1

/-- C120 for all legal requests. -/
theorem datapump_addr_sound_partial {p : Params} (h : Sound p) : AddrFull p := by
  intro plan s0 is hp h0 _ hd
  exact datapump_addr_partial (sound_ok h) (fun q hq => sound_req h (hp q hq)) h0 is hd

/-- 64 bit AXI4, data at any byte, 4096 B at most (the defaults but of `MAX_CHUNKS`) -/
def pDefault : Params := ⟨64, 8, 64, 512, 32, 8, 511⟩

example : Sound pDefault := by
  refine ⟨⟨⟨3, by decide⟩, ⟨0, by decide⟩, ⟨3, by decide⟩, by decide, by decide⟩, by decide, by decide, ?_⟩
  exact Or.inl (by decide)

/-- 64 bit AXI4, data at any byte, the longest request is as long as the longest burst -/
def pFull : Params := ⟨64, 8, 64, 256, 32, 8, 255⟩

example : Sound pFull := by
  refine ⟨⟨⟨3, by decide⟩, ⟨0, by decide⟩, ⟨3, by decide⟩, by decide, by decide⟩, by decide, by decide, ?_⟩
  exact Or.inr (Or.inl (by decide))

example : ReqLegal pDefault ⟨13, 511, 0⟩ := ⟨by decide, by decide, by decide, by decide, by decide⟩

/-- A request of 512 words at a byte offset: 256 + 256 + 1 words. -/
example : aBursts ((addrMachine pDefault).trace ⟨false, 0, 0⟩ (List.replicate 3 ⟨true, ⟨13, 511, 0⟩, true, true, false⟩)) =
    [(8, 255), (2056, 255), (4104, 0)] := by decide

theorem one_request {p : Params} {q : Req} (hq : ReqLegal p q) (b : List (Nat × Nat))
    (h1 : aReqs ((addrMachine p).trace ⟨false, 0, 0⟩ [⟨true, q, true, true, false⟩]) = [(true, q, true)])
    (h2 : aBursts ((addrMachine p).trace ⟨false, 0, 0⟩ [⟨true, q, true, true, false⟩]) = b)
    (h3 : burstWords p b ≠ reqAddrs p q) : ¬ AddrFull p := by
  intro h
  have := (h [q] ⟨false, 0, 0⟩ [⟨true, q, true, true, false⟩] (by simpa using hq) rfl (by simp) (by
    rw [h1]
    intro n e he hv
    cases n with
    | zero => cases he; simp [accepted]
    | succ n => simp at he)).2.2 (by rw [h1]; intro e he; cases he; simp)
  rw [h1, h2] at this
  simp [accepted] at this
  exact h3 this

/-- C120, `MAX_LEN = 0`: 4 bytes over the end of a word are read as one word. -/
def pShort : Params := ⟨64, 8, 32, 1, 32, 8, 0⟩
theorem datapump_addr_short : Legal pShort ∧ ¬ AddrFull pShort := by
  refine ⟨⟨⟨3, by decide⟩, ⟨0, by decide⟩, ⟨2, by decide⟩, by decide, by decide⟩, ?_⟩
  exact one_request (q := ⟨6, 0, 4⟩) ⟨by decide, by decide, by decide, by decide, by decide⟩ [(0, 0)] rfl rfl (by decide)

/-- C120, the length of a burst overflows: 2048 bytes at offset 4 are read as one word. -/
def pWrap : Params := ⟨64, 32, 32, 512, 32, 8, 255⟩
theorem datapump_addr_wrap : Legal pWrap ∧ ¬ AddrFull pWrap := by
  refine ⟨⟨⟨3, by decide⟩, ⟨2, by decide⟩, ⟨2, by decide⟩, by decide, by decide⟩, ?_⟩
  refine one_request (q := ⟨4, 255, 0⟩) ⟨by decide, by decide, by decide, by decide, by decide⟩ [(0, 0)] (by decide) (by decide) ?_
  intro h
  have := congrArg List.length h
  rw [reqAddrs, List.length_map, List.length_range] at this
  revert this
  decide

/-- C120, the alignment check uses `CHUNK_WIDTH`: a request is accepted and no word is read. -/
def pChunk : Params := ⟨64, 32, 64, 1, 32, 8, 0⟩
theorem datapump_addr_chunk : Legal pChunk ∧ ¬ AddrFull pChunk := by
  refine ⟨⟨⟨3, by decide⟩, ⟨2, by decide⟩, ⟨3, by decide⟩, by decide, by decide⟩, ?_⟩
  exact one_request (q := ⟨4, 0, 0⟩) ⟨by decide, by decide, by decide, by decide, by decide⟩ [] rfl rfl (by decide)

/-- C120, `DATA_WIDTH = 8`: the lowest bit of the address is cleared. -/
def pByte : Params := ⟨8, 8, 8, 16, 32, 8, 15⟩
theorem datapump_addr_byte : Legal pByte ∧ ¬ AddrFull pByte := by
  refine ⟨⟨⟨0, by decide⟩, ⟨0, by decide⟩, ⟨0, by decide⟩, by decide, by decide⟩, ?_⟩
  exact one_request (q := ⟨1, 0, 0⟩) ⟨by decide, by decide, by decide, by decide, by decide⟩ [(0, 0)] rfl rfl (by decide)

/-! ### C121: read data -/

theorem out_words {p : Params} (h : Ok p) (hal : p.aligned = true) (mem : Nat → α) {q : Req} (hq : ReqOk p q) :
    (want p q).map (outOf p mem) = reqWords p mem q := by
  unfold want reqWords
  rw [wordCnt_aligned h hal hq, List.map_map]
  apply List.map_congr_left
  intro k _
  have h0 := hq.word hal
  simp only [Function.comp, wantAt, outOf, wordCnt_aligned h hal hq, h0, Nat.sub_zero]
  by_cases hk : k = q.len
  · by_cases hr : q.rem = 0 <;> simp [hk, hr]
  · simp [hk]

theorem aligned_err {p : Params} (h : Ok p) (hal : p.aligned = true) {q : Req} (hq : ReqOk p q) :
    q.addr % readErrAl p = 0 ∧ q.addr % writeErrAl p = 0 := by
  have hw := hq.word hal
  have e : p.alignas = p.dataW := by simpa [Params.aligned] using hal
  have e2 : 2 ^ log2ceil (p.alignas / 8) = p.W := by
    rw [e]; exact h.sz
  constructor
  · unfold readErrAl
    split
    · exact Nat.mod_one _
    · rw [e2]; exact hw
  · unfold writeErrAl
    split
    · exact Nat.mod_one _
    · rw [h.sz]; exact hw

/-- C121: the driver gets exactly the words of its requests, in order, with masks and marks; one word for each word of the slave. -/
theorem datapump_read {p : Params} (h : Ok p) (hal : p.aligned = true) {plan : List Req} (hp : ∀ q ∈ plan, ReqOk p q)
    (mem : Nat → α) {s0 : RSt} (h0 : RInit s0) (is : List (RIn α)) (hok : ∀ i ∈ is, i.rVld = true → i.rOk = true)
    (hd : DriverOk plan (rReqs ((readMachine p).trace s0 is)))
    (hs : rBeats ((readMachine p).trace s0 is) <+: slaveBeats p mem (rBursts ((readMachine p).trace s0 is))) :
    rWords ((readMachine p).trace s0 is) <+: plan.flatMap (reqWords p mem) ∧
    (rWords ((readMachine p).trace s0 is)).length = (rBeats ((readMachine p).trace s0 is)).length ∧
    (Settled (rReqs ((readMachine p).trace s0 is)) →
      rBeats ((readMachine p).trace s0 is) = slaveBeats p mem (rBursts ((readMachine p).trace s0 is)) →
      rWords ((readMachine p).trace s0 is) =
        (plan.take (accepted (rReqs ((readMachine p).trace s0 is)))).flatMap (reqWords p mem)) := by
  obtain ⟨P, D, R, j, k⟩ := read_run h hp (fun q hq => (aligned_err h hal (hp q hq)).1) mem h0 _ is hok hd (List.prefix_refl _) hs
  have ew : ∀ l : List Req, (∀ q ∈ l, ReqOk p q) → l.flatMap (reqWords p mem) = (l.flatMap (want p)).map (outOf p mem) := by
    intro l hl
    rw [List.map_flatMap]
    apply List.flatMap_congr
    intro q hq
    exact (out_words h hal mem (hl q hq)).symm
  have ec : rWords ((readMachine p).trace s0 is) = ((consumed p D R j).map Beat.norm).map (outOf p mem) := by
    rw [k.words, List.map_map]; rfl
  refine ⟨?_, ?_, ?_⟩
  · rw [ew plan hp, ec]
    refine List.IsPrefix.map _ (List.IsPrefix.trans ?_ (arun_marks k.a))
    rw [k.split]
    exact (consumed_prefix p D R j).map _
  · rw [k.words, k.beats, List.length_map, List.length_map]
  · intro hset hall
    rw [ew _ (fun q hq => hp q (List.mem_of_mem_take hq)), ec, ← k.a.inv.2.1 (settled_pend k.a hset)]
    congr 2
    have hpre := consumed_prefix p D R j
    rw [← k.split] at hpre
    refine hpre.eq_of_length ?_
    have := congrArg List.length hall
    rw [k.beats, k.bursts, slaveBeats_eq, List.length_map, List.length_map] at this
    exact this

/-- 64 bit AXI4, data aligned to words -/
def pWord : Params := ⟨64, 64, 64, 64, 32, 8, 63⟩
theorem pWord_ok : Ok pWord := ⟨by decide, by decide, ⟨2 ^ 29, by decide⟩, by decide⟩

/-- a cycle of the read datapump -/
def rCyc (vld : Bool) (q : Req) (rVld : Bool) (d : Nat) (rLast : Bool) (ok : Bool := true) : RIn Nat :=
  ⟨vld, q, true, true, true, rVld, d, rLast, ok, true⟩

def rRun1 : List (RIn Nat) := [rCyc true ⟨16, 1, 3⟩ false 0 false, rCyc true ⟨64, 0, 0⟩ true 116 false,
  rCyc false ⟨0, 0, 0⟩ true 124 true, rCyc false ⟨0, 0, 0⟩ true 164 true]

/-- The hypotheses of `datapump_read` hold, three words are read. -/
example : ReqOk pWord ⟨16, 1, 3⟩ ∧ ReqOk pWord ⟨64, 0, 0⟩ ∧ RInit ⟨⟨false, 0, 0⟩, [], false, false⟩ ∧
    rReqs ((readMachine pWord).trace ⟨⟨false, 0, 0⟩, [], false, false⟩ rRun1) =
      [(true, ⟨16, 1, 3⟩, true), (true, ⟨64, 0, 0⟩, true), (false, ⟨0, 0, 0⟩, true), (false, ⟨0, 0, 0⟩, true)] ∧
    rBeats ((readMachine pWord).trace ⟨⟨false, 0, 0⟩, [], false, false⟩ rRun1) =
      slaveBeats pWord (fun a => 100 + a) (rBursts ((readMachine pWord).trace ⟨⟨false, 0, 0⟩, [], false, false⟩ rRun1)) ∧
    rWords ((readMachine pWord).trace ⟨⟨false, 0, 0⟩, [], false, false⟩ rRun1) =
      [(116, 255, false), (124, 7, true), (164, 255, true)] := by
  refine ⟨⟨?_, ?_, ?_, ?_, ?_⟩, ⟨?_, ?_, ?_, ?_, ?_⟩, ⟨rfl, rfl, rfl, rfl⟩, ?_, ?_, ?_⟩ <;> decide

/-! ### C122: errors of the read channel -/

/-- "errorRead stays high when there was error on axi read channel, it will not affect unit functionality" (r.py:66-67):
the words given to the driver do not depend on the status of the slave. -/
def ErrorHarmless : Prop := ∀ (p : Params) (is is' : List (RIn Nat)) (s0 : RSt), RInit s0 →
  List.Forall₂ (fun i i' => i' = { i with rOk := i'.rOk }) is is' →
  rWords ((readMachine p).trace s0 is) = rWords ((readMachine p).trace s0 is')

def rRunErr (ok : Bool) : List (RIn Nat) := [rCyc true ⟨16, 1, 0⟩ false 0 false, rCyc false ⟨0, 0, 0⟩ true 116 false ok,
  rCyc false ⟨0, 0, 0⟩ true 124 true]

/-- C122: the words after an error are taken from the slave and lost. -/
theorem datapump_error_harms : ¬ ErrorHarmless := by
  intro h
  have := h pWord (rRunErr true) (rRunErr false) ⟨⟨false, 0, 0⟩, [], false, false⟩ ⟨rfl, rfl, rfl, rfl⟩
    (.cons rfl (.cons rfl (.cons rfl .nil)))
  revert this
  decide

theorem datapump_error_lost : (rBeats ((readMachine pWord).trace ⟨⟨false, 0, 0⟩, [], false, false⟩ (rRunErr false))).length = 2 ∧
    (rWords ((readMachine pWord).trace ⟨⟨false, 0, 0⟩, [], false, false⟩ (rRunErr false))).length = 1 := by decide

/-- C122: `errorRead` is set exactly if the slave has answered with an error before. -/
theorem datapump_errorRead_partial (p : Params) {s0 : RSt} (h0 : RInit s0) (is : List (RIn α)) (i : RIn α) :
    ((readMachine p).outAfter s0 is i).errorRead = is.any fun j => j.rVld && !j.rOk := by
  have e : ((readMachine p).outAfter s0 is i).errorRead = ((readMachine p).final s0 is).errR := rfl
  rw [e]
  have : ∀ (is : List (RIn α)) (s : RSt), ((readMachine p).final s is).errR = (s.errR || is.any fun j => j.rVld && !j.rOk) := by
    intro is
    induction is with
    | nil => intro s; simp [Machine.final_nil]
    | cons j is ih =>
      intro s
      rw [Machine.final_cons, ih]
      show ((s.errR || (j.rVld && !j.rOk)) || _) = _
      rw [List.any_cons, Bool.or_assoc]
  rw [this, h0.2.2.1, Bool.false_or]

/-- C122: after an error nothing is requested and nothing is given to the driver. -/
theorem datapump_error_stops (p : Params) {s0 : RSt} (is : List (RIn α)) (i : RIn α)
    (h : ((readMachine p).outAfter s0 is i).errorRead = true ∨ ((readMachine p).outAfter s0 is i).errorAlignment = true) :
    ((readMachine p).outAfter s0 is i).outVld = false ∧ ((readMachine p).outAfter s0 is i).arVld = false ∧
    ((readMachine p).outAfter s0 is i).reqRd = false := by
  have e : (readMachine p).outAfter s0 is i = rOut p ((readMachine p).final s0 is) i := rfl
  rw [e] at h ⊢
  generalize (readMachine p).final s0 is = s at *
  have he : s.err = true := by
    rcases h with h | h
    · have : s.errR = true := h
      simp [RSt.err, this]
    · have : s.errA = true := h
      simp [RSt.err, this]
  refine ⟨?_, ?_, ?_⟩
  · simp [rOut, he]
  · simp only [rOut, arVld, rAIn, he]; split <;> simp
  · simp only [rOut, reqRd, rAIn, he]; split <;> simp

/-! ### C123: write -/

/-- Number of words. -/
def wordsOf (l : List Nat) : Nat := (l.map (· + 1)).sum

theorem marks_count (ls : List Nat) (l : List Bool) (h : l <+: marks ls) :
    l.count true ≤ ls.length ∧ wordsOf (ls.take (l.count true)) ≤ l.length ∧
    (l.count true < ls.length → l.length < wordsOf (ls.take (l.count true + 1))) := by
  induction ls generalizing l with
  | nil =>
    have : l = [] := by simpa [marks] using h
    subst this; simp [wordsOf]
  | cons n ls ih =>
    have em : marks (n :: ls) = (List.replicate n false ++ [true]) ++ marks ls := by simp [marks]
    rw [em] at h
    rcases Nat.lt_or_ge l.length (n + 1) with hl | hl
    · have hp : l <+: List.replicate n false ++ [true] :=
        List.prefix_of_prefix_length_le h (List.prefix_append _ _) (by simp; omega)
      have hp2 : l <+: List.replicate n false :=
        List.prefix_of_prefix_length_le hp (List.prefix_append _ _) (by simp; omega)
      have hc : l.count true = 0 := by
        rw [List.count_eq_zero]
        intro hm
        have := (List.mem_replicate.1 (hp2.subset hm)).2
        simp at this
      rw [hc]
      simp [wordsOf]; omega
    · obtain ⟨l', rfl⟩ : List.replicate n false ++ [true] <+: l :=
        List.prefix_of_prefix_length_le (List.prefix_append _ _) h (by simp; omega)
      have h' := (List.prefix_append_right_inj _).1 h
      obtain ⟨a, b, c⟩ := ih l' h'
      have hc : (List.replicate n false ++ [true] ++ l').count true = l'.count true + 1 := by
        rw [List.count_append, List.count_append]
        simp [List.count_replicate]; omega
      rw [hc]
      refine ⟨by simp; omega, ?_, ?_⟩
      · simp [wordsOf, List.take_succ_cons] at b ⊢; omega
      · intro hlt
        have := c (by simpa using hlt)
        simp [wordsOf, List.take_succ_cons] at this ⊢; omega

theorem marks_length (ls : List Nat) : (marks ls).length = wordsOf ls := by
  induction ls with
  | nil => rfl
  | cons n ls ih =>
    have em : marks (n :: ls) = (List.replicate n false ++ [true]) ++ marks ls := by simp [marks]
    rw [em, List.length_append, ih]
    simp [wordsOf]

/-- C123: words of the driver go to AXI in order, the words of AXI bursts are marked as the bursts were announced and a burst is
written after it was announced; responses are taken for finished bursts only. -/
theorem datapump_write {p : Params} (h : Ok p) (hal : p.aligned = true) {plan : List Req} (hp : ∀ q ∈ plan, ReqOk p q)
    {s0 : WSt} (h0 : WInit s0) (is : List (WIn α)) (hok : ∀ i ∈ is, i.bVld = true → i.bOk = true)
    (hd : DriverOk plan (wReqs ((writeMachine p).trace s0 is)))
    (hs : (wWords ((writeMachine p).trace s0 is)).map Prod.snd <+: marks (plan.map Req.len)) :
    (wBeats ((writeMachine p).trace s0 is)).map Prod.fst = (wWords ((writeMachine p).trace s0 is)).map Prod.fst ∧
    (wBeats ((writeMachine p).trace s0 is)).map Prod.snd <+: marks ((wBursts ((writeMachine p).trace s0 is)).map Prod.snd) ∧
    burstWords p (wBursts ((writeMachine p).trace s0 is)) <+: plan.flatMap (reqAddrs p) ∧
    wResps ((writeMachine p).trace s0 is) ≤ ((wBeats ((writeMachine p).trace s0 is)).map Prod.snd).count true := by
  obtain ⟨P, D, R, j, k⟩ := write_run h hal hp (fun q hq => (aligned_err h hal (hp q hq)).2) h0 is hok hd hs
  refine ⟨k.data, ?_, ?_, ?_⟩
  · rw [k.beats, k.bursts, List.map_map]
    have : (Prod.snd ∘ fun b : Burst => (b.addr, b.len)) = Burst.len := rfl
    rw [this, ← fins_eq p, k.split]
    exact (consumed_prefix p D R j).map _
  · rw [k.bursts, burstWords_eq]
    have em : plan.flatMap (reqAddrs p) = (plan.flatMap (want p)).map Prod.fst := by
      rw [List.map_flatMap]
      congr 1; funext q; exact (want_addrs p q).symm
    rw [em]; exact (arun_marks k.a).map _
  · obtain ⟨done, r1, r2, r3⟩ := k.resp
    rw [r2, k.beats]
    have h1 : done.length ≤ D.length := by
      have := congrArg List.length r1
      simp at this; omega
    have h2 : D.length ≤ ((consumed p D R j).map Beat.fin).count true := by
      unfold consumed
      rw [List.map_append, List.count_append, fins_eq]
      have : ∀ l : List Nat, (marks l).count true = l.length := by
        intro l
        induction l with
        | nil => rfl
        | cons n l ih =>
          have em : marks (n :: l) = (List.replicate n false ++ [true]) ++ marks l := by simp [marks]
          rw [em, List.count_append, ih]
          simp [List.count_replicate]; omega
      rw [this, List.length_map]; omega
    omega

/-- C123: one acknowledge for each request, at the response of its last burst: with the responses of the first bursts, which
have `n` words together, the acknowledged requests are all those which end in these words. -/
theorem datapump_write_acks {p : Params} (h : Ok p) (hal : p.aligned = true) {plan : List Req} (hp : ∀ q ∈ plan, ReqOk p q)
    {s0 : WSt} (h0 : WInit s0) (is : List (WIn α)) (hok : ∀ i ∈ is, i.bVld = true → i.bOk = true)
    (hd : DriverOk plan (wReqs ((writeMachine p).trace s0 is)))
    (hs : (wWords ((writeMachine p).trace s0 is)).map Prod.snd <+: marks (plan.map Req.len))
    (a n : Nat) (ha : a = wAcks ((writeMachine p).trace s0 is))
    (hn : n = wordsOf (((wBursts ((writeMachine p).trace s0 is)).take (wResps ((writeMachine p).trace s0 is))).map Prod.snd)) :
    a ≤ plan.length ∧ wordsOf ((plan.take a).map Req.len) ≤ n ∧ (a < plan.length → n < wordsOf ((plan.take (a + 1)).map Req.len)) := by
  obtain ⟨P, D, R, j, k⟩ := write_run h hal hp (fun q hq => (aligned_err h hal (hp q hq)).2) h0 is hok hd hs
  obtain ⟨done, r1, r2, r3⟩ := k.resp
  have hlen : done.length ≤ D.length := by
    have := congrArg List.length r1
    simp at this; omega
  have htake : P.take done.length = D.take done.length := by
    rw [k.split, List.take_append_of_le_length hlen]
  have hdone : done = (P.take done.length).map Burst.last := by
    rw [htake, List.map_take, r1]; simp
  have hm : (((P.take done.length).flatMap (expand p)).map Beat.norm).map (fun x => x.2.isSome) <+: marks (plan.map Req.len) := by
    rw [← want_marks h hal hp]
    refine List.IsPrefix.map _ (List.IsPrefix.trans ?_ (arun_marks k.a))
    refine List.IsPrefix.map _ ?_
    conv_rhs => rw [← List.take_append_drop done.length P, List.flatMap_append]
    exact List.prefix_append _ _
  have hcount : ∀ l : List Burst, ((((l.flatMap (expand p)).map Beat.norm).map (fun x => x.2.isSome)).count true = (l.map Burst.last).count true ∧
      (((l.flatMap (expand p)).map Beat.norm).map (fun x => x.2.isSome)).length = wordsOf (l.map Burst.len)) := by
    intro l
    induction l with
    | nil => exact ⟨rfl, rfl⟩
    | cons b l ih =>
      rw [List.flatMap_cons, List.map_append, List.map_append, List.count_append, List.length_append, ih.1, ih.2]
      have e1 : ((expand p b).map Beat.norm).map (fun x => x.2.isSome) = List.replicate b.len false ++ [b.last] := by
        unfold expand
        rw [List.map_map, List.map_map, List.range_succ, List.map_append]
        congr 1
        · rw [List.eq_replicate_iff]
          refine ⟨by simp, ?_⟩
          intro x hx
          obtain ⟨k, hk, rfl⟩ := List.mem_map.1 hx
          have := List.mem_range.1 hk
          have : k ≠ b.len := by omega
          simp [Beat.norm, this]
        · cases hl : b.last <;> simp [Beat.norm, hl]
      rw [e1, List.map_cons, List.count_append]
      constructor
      · rw [List.count_cons]
        cases hl : b.last <;> simp [List.count_replicate, Nat.add_comm]
      · simp [wordsOf]
  obtain ⟨m1, m2, m3⟩ := marks_count _ _ hm
  obtain ⟨c1, c2⟩ := hcount (P.take done.length)
  rw [← hdone] at c1
  rw [c1, c2] at m2 m3
  rw [c1] at m1
  have en : n = wordsOf ((P.take done.length).map Burst.len) := by
    rw [hn, k.bursts, r2, List.map_take, List.map_take, List.map_map]; rfl
  rw [ha, r3, en, List.map_take (l := plan), List.map_take (l := plan)]
  rw [List.length_map] at m1 m3
  exact ⟨m1, m2, m3⟩

/-- a cycle of the write datapump -/
def wCyc (vld : Bool) (q : Req) (inVld : Bool) (d : Nat) (l : Bool) (bVld : Bool) (ok : Bool := true) : WIn Nat :=
  ⟨vld, q, true, true, true, inVld, d, l, true, true, true, bVld, ok, true⟩

/-- 2 beats in a burst at most -/
def pTiny : Params := ⟨64, 64, 64, 4, 32, 1, 511⟩
def wRun1 : List (WIn Nat) := [wCyc true ⟨16, 2, 0⟩ false 0 false false, wCyc true ⟨16, 2, 0⟩ true 1 false false,
  wCyc true ⟨64, 0, 0⟩ true 2 false false, wCyc false ⟨0, 0, 0⟩ true 3 true true, wCyc false ⟨0, 0, 0⟩ true 4 true true,
  wCyc false ⟨0, 0, 0⟩ false 0 false true]

/-- The hypotheses of `datapump_write` hold: three bursts for two requests. -/
example : Ok pTiny ∧ ReqOk pTiny ⟨16, 2, 0⟩ ∧ ReqOk pTiny ⟨64, 0, 0⟩ ∧ WInit ⟨⟨false, 0, 0⟩, 0, [], 0, false, false⟩ ∧
    (wReqs ((writeMachine pTiny).trace ⟨⟨false, 0, 0⟩, 0, [], 0, false, false⟩ wRun1)).take 3 =
      [(true, ⟨16, 2, 0⟩, false), (true, ⟨16, 2, 0⟩, true), (true, ⟨64, 0, 0⟩, true)] ∧
    (wWords ((writeMachine pTiny).trace ⟨⟨false, 0, 0⟩, 0, [], 0, false, false⟩ wRun1)).map Prod.snd = marks [2, 0] ∧
    wBursts ((writeMachine pTiny).trace ⟨⟨false, 0, 0⟩, 0, [], 0, false, false⟩ wRun1) = [(16, 1), (32, 0), (64, 0)] ∧
    wBeats ((writeMachine pTiny).trace ⟨⟨false, 0, 0⟩, 0, [], 0, false, false⟩ wRun1) = [(1, false), (2, true), (3, true), (4, true)] ∧
    wResps ((writeMachine pTiny).trace ⟨⟨false, 0, 0⟩, 0, [], 0, false, false⟩ wRun1) = 3 ∧
    wAcks ((writeMachine pTiny).trace ⟨⟨false, 0, 0⟩, 0, [], 0, false, false⟩ wRun1) = 2 := by
  refine ⟨⟨by decide, by decide, ⟨2 ^ 29, by decide⟩, by decide⟩, ⟨?_, ?_, ?_, ?_, ?_⟩, ⟨?_, ?_, ?_, ?_, ?_⟩, ⟨rfl, rfl, rfl, rfl, rfl, rfl⟩, ?_, ?_, ?_, ?_, ?_, ?_⟩ <;>
    decide

/-! ### C124: alignment errors -/

/-- Requests which are aligned to `ALIGNAS` raise no alignment error. -/
def NoAlignError (p : Params) : Prop := ∀ (is : List (WIn Nat)) (i : WIn Nat) (s0 : WSt), WInit s0 →
  (∀ j ∈ is, j.vld = true → j.q.addr % (p.alignas / 8) = 0) → ((writeMachine p).outAfter s0 is i).errorAlignment = false

/-- C124: the write datapump checks the alignment to `DATA_WIDTH`. -/
theorem datapump_write_align : Legal pWrap ∧ ¬ NoAlignError pWrap := by
  refine ⟨datapump_addr_wrap.1, fun h => ?_⟩
  have := h [wCyc true ⟨4, 0, 4⟩ false 0 false false] (wCyc false ⟨0, 0, 0⟩ false 0 false false) ⟨⟨false, 0, 0⟩, 0, [], 0, false, false⟩
    ⟨rfl, rfl, rfl, rfl, rfl, rfl⟩ (by simp [wCyc, pWrap])
  revert this
  decide

theorem write_errA (p : Params) (is : List (WIn α)) (s : WSt) :
    ((writeMachine p).final s is).errA = (s.errA || is.any fun j => j.vld && decide (j.q.addr % writeErrAl p ≠ 0)) := by
  induction is generalizing s with
  | nil => simp [Machine.final_nil]
  | cons j is ih =>
    rw [Machine.final_cons, ih]
    show ((s.errA || (j.vld && decide (j.q.addr % writeErrAl p ≠ 0))) || _) = _
    rw [List.any_cons, Bool.or_assoc]

theorem read_errA (p : Params) (is : List (RIn α)) (s : RSt) :
    ((readMachine p).final s is).errA = (s.errA || is.any fun j => j.vld && decide (j.q.addr % readErrAl p ≠ 0)) := by
  induction is generalizing s with
  | nil => simp [Machine.final_nil]
  | cons j is ih =>
    rw [Machine.final_cons, ih]
    show ((s.errA || (j.vld && decide (j.q.addr % readErrAl p ≠ 0))) || _) = _
    rw [List.any_cons, Bool.or_assoc]

/-- C124: no error for `ALIGNAS = 8` or `ALIGNAS = DATA_WIDTH` (wider than 8). -/
theorem datapump_write_align_partial (p : Params) (h : Legal p) (ha : p.alignas = 8 ∨ p.alignas = p.dataW ∧ 16 ≤ p.dataW) : NoAlignError p := by
  intro is i s0 h0 hq
  show ((writeMachine p).final s0 is).errA = false
  rw [write_errA, h0.2.2.2.2.2, Bool.false_or, List.any_eq_false]
  intro j hj
  have hjq := hq j hj
  cases hv : j.vld
  · simp
  · have h1 := hjq hv
    unfold writeErrAl
    rcases ha with ha | ⟨ha, h16⟩
    · rw [if_pos ha]; simp [Nat.mod_one]
    · rw [if_neg (by omega)]
      obtain ⟨w, hw, _⟩ := h.data
      have hw0 : 0 < w := by
        rcases Nat.eq_zero_or_pos w with h0 | h0
        · rw [h0] at hw; omega
        · exact h0
      have eW : p.dataW / 8 = 2 ^ w := by rw [hw]; omega
      have : p.sz = 2 ^ w := by
        unfold Params.sz Params.W; rw [eW]; exact log2ceil_pow w hw0
      rw [ha, eW] at h1
      rw [this, h1]; simp

/-- C124: the read datapump raises the error exactly for the requests which are not aligned to `ALIGNAS`. -/
theorem datapump_read_align (p : Params) (h : Legal p) {s0 : RSt} (h0 : RInit s0) (is : List (RIn α)) (i : RIn α) :
    ((readMachine p).outAfter s0 is i).errorAlignment = is.any fun j => j.vld && decide (j.q.addr % (p.alignas / 8) ≠ 0) := by
  show ((readMachine p).final s0 is).errA = _
  rw [read_errA, h0.2.2.2, Bool.false_or]
  obtain ⟨a, ha, _⟩ := h.alignas
  have e1 : p.alignas / 8 = 2 ^ a := by rw [ha]; omega
  have : readErrAl p = p.alignas / 8 := by
    unfold readErrAl
    split
    · rename_i h8; rw [h8]
    · rename_i h8
      have : 0 < a := by
        rcases Nat.eq_zero_or_pos a with h0 | h0
        · rw [h0] at ha; omega
        · exact h0
      rw [e1, log2ceil_pow a this]
  rw [this]

example : NoAlignError pWord := datapump_write_align_partial _
  ⟨⟨3, by decide⟩, ⟨3, by decide⟩, ⟨3, by decide⟩, by decide, by decide⟩ (Or.inr (by decide))

/-! ### C125: 4 KB boundary -/

/-- A burst (address, length) stays in one 4 KB page. -/
def InPage (p : Params) (b : Nat × Nat) : Prop := (b.1 + (b.2 + 1) * p.W - 1) / 4096 = b.1 / 4096

/-- C125: AXI bursts do not cross a 4 KB boundary (AXI specification, A3.4.1). -/
def NoCross (p : Params) : Prop := ∀ (plan : List Req) (s0 : ASt) (is : List AIn), (∀ q ∈ plan, ReqOk p q) → s0.pend = false →
  DriverOk plan (aReqs ((addrMachine p).trace s0 is)) → ∀ b ∈ aBursts ((addrMachine p).trace s0 is), InPage p b

/-- C125 does not hold for a request over the boundary. -/
theorem datapump_cross : Sound pWord ∧ ¬ NoCross pWord := by
  refine ⟨⟨⟨⟨3, by decide⟩, ⟨3, by decide⟩, ⟨3, by decide⟩, by decide, by decide⟩, by decide, by decide, by decide⟩, fun h => ?_⟩
  have := h [⟨4088, 1, 0⟩] ⟨false, 0, 0⟩ [⟨true, ⟨4088, 1, 0⟩, true, true, false⟩]
    (by simp only [List.mem_singleton, forall_eq]; refine ⟨?_, ?_, ?_, ?_, ?_⟩ <;> decide) rfl (by
    intro n e he hv
    cases n with
    | zero =>
      cases he
      refine ⟨rfl, fun h' => ?_⟩
      have h'' : reqRd pWord ⟨false, 0, 0⟩ ⟨true, ⟨4088, 1, 0⟩, true, true, false⟩ = false := h'
      revert h''
      decide
    | succ n => simp [aReqs, Machine.trace] at he) (4088, 1) (by decide)
  revert this
  unfold InPage
  decide

/-- The words of a burst are consecutive words of one request. -/
theorem burst_of_req {p : Params} (h : Ok p) {plan : List Req} (hp : ∀ q ∈ plan, ReqOk p q) {s0 : ASt} (h0 : s0.pend = false)
    (is : List AIn) (hd : DriverOk plan (aReqs ((addrMachine p).trace s0 is))) :
    ∀ b ∈ aBursts ((addrMachine p).trace s0 is), ∃ q ∈ plan, ∃ k, k + b.2 + 1 ≤ wordCnt p.W q ∧
      b.1 = (q.addr - q.addr % p.W + k * p.W) % p.A := by
  induction is using List.reverseRecOn with
  | nil => intro b hb; simp [aBursts, Machine.trace] at hb
  | append_singleton is i ih =>
    rw [Machine.trace_snoc] at hd ⊢
    have eo : (addrMachine p).outAfter s0 is i = (addrMachine p).out ((addrMachine p).final s0 is) i := rfl
    have er : ∀ (tr : List (AIn × AOut)) e, aReqs (tr ++ [e]) = aReqs tr ++ [(e.1.vld, e.1.q, e.2.reqRd)] := by
      intro tr e; simp [aReqs]
    have eB : ∀ (tr : List (AIn × AOut)) e, aBursts (tr ++ [e]) = aBursts tr ++ given (e.2.arVld && e.1.arRd) (e.2.arAddr, e.2.arLen) :=
      fun tr e => filterMap_snoc_ite _ _ tr e
    rw [er, eo] at hd
    rw [eB, eo]
    obtain ⟨d1, d2, d3⟩ := driver_snoc hd
    obtain ⟨P, r, e⟩ := arun_run h hp h0 is d1
    intro b hb
    rcases List.mem_append.1 hb with hb1 | hb1
    · exact ih d1 b hb1
    · generalize (addrMachine p).final s0 is = s at *
      generalize (addrMachine p).trace s0 is = tr at *
      cases hg : (arVld p s i && i.arRd)
      · have hb' : b ∈ given (arVld p s i && i.arRd) ((burst p s i).addr, (burst p s i).len) := hb1
        rw [hg] at hb'; simp [given] at hb'
      · have hb' : b ∈ given (arVld p s i && i.arRd) ((burst p s i).addr, (burst p s i).len) := hb1
        rw [hg, given_true, List.mem_singleton] at hb'
        subst hb'
        have hv : i.vld = true := by
          unfold arVld at hg
          cases hx : i.vld
          · rw [hx] at hg; simp at hg
          · rfl
        have hq : plan[accepted (aReqs tr)]? = some i.q := d2 hv
        have hok := hp _ (List.mem_of_getElem? hq)
        refine ⟨i.q, List.mem_of_getElem? hq, ?_⟩
        have hI := r.inv
        have hcnt := len0_eq h hok
        obtain ⟨hk, hI0, hI1⟩ := hI
        obtain ⟨n, hn1, hn2, hns⟩ : ∃ n, n + reqLen p s i + 1 = wordCnt p.W i.q ∧
            (if s.pend then s.tmp else i.q.addr) = (i.q.addr + n * p.W) % p.A ∧ (s.pend = false → n = 0) := by
          cases hpd : s.pend
          · exact ⟨0, by simp [reqLen, hpd]; omega, by simp [Nat.mod_eq_of_lt hok.addr], fun _ => rfl⟩
          · obtain ⟨q, n, a1, a2, a3, a4, a5⟩ := hI1 hpd
            rw [hq] at a1; cases a1
            exact ⟨n, by simp [reqLen, hpd]; omega, by simp [a4], by simp⟩
        have hal : addrAlign p (if s.pend then s.tmp else i.q.addr) = (i.q.addr - i.q.addr % p.W + n * p.W) % p.A := by
          rw [hn2, align_mod h, Nat.add_mul_mod_self_right]
          congr 1
          have := Nat.mod_le i.q.addr p.W
          omega
        refine ⟨n, ?_, ?_⟩
        · show n + (burst p s i).len + 1 ≤ _
          unfold burst
          cases hsp : p.split
          · simp only [Bool.false_eq_true, if_false]
            have hpd := r.ns hsp
            rw [hns hpd, ← hcnt]
            unfold len0
            split
            · omega
            · split
              · rename_i hc
                have : i.q.len % p.L ≤ i.q.len := Nat.mod_le _ _
                have := Nat.mod_le (i.q.len % p.L + 1) p.L
                omega
              · omega
          · simp only [if_true]
            split
            · rename_i hm
              have : p.L ≤ reqLen p s i := by simpa [more] using hm
              have := L_pos p
              show n + (p.L - 1) + 1 ≤ _
              omega
            · show n + reqLen p s i % p.L + 1 ≤ _
              have := Nat.mod_le (reqLen p s i) p.L
              omega
        · show (burst p s i).addr = _
          rw [← hal]
          unfold burst
          cases hsp : p.split
          · simp only [Bool.false_eq_true, if_false, r.ns hsp]
          · simp only [if_true]
            split <;> rfl

/-- C125: if the words of each request are in one page, so are the bursts. -/
theorem datapump_cross_partial {p : Params} (h : Ok p) (hA : 4096 ∣ p.A) {plan : List Req} (hp : ∀ q ∈ plan, ReqOk p q)
    (hin : ∀ q ∈ plan, InPage p (q.addr - q.addr % p.W, wordCnt p.W q - 1))
    {s0 : ASt} (h0 : s0.pend = false) (is : List AIn) (hd : DriverOk plan (aReqs ((addrMachine p).trace s0 is))) :
    ∀ b ∈ aBursts ((addrMachine p).trace s0 is), InPage p b := by
  intro b hb
  obtain ⟨q, hq, k, hk, ha⟩ := burst_of_req h hp h0 is hd b hb
  have hi := hin q hq
  have hW := h.pos
  unfold InPage at hi ⊢
  simp only at hi
  rw [show wordCnt p.W q - 1 + 1 = wordCnt p.W q by omega] at hi
  have hlt := (hp q hq).addr
  generalize hB : q.addr - q.addr % p.W = B at *
  have hBA : B < p.A := by omega
  -- the last byte of the burst
  have hm1 : (k + b.2 + 1) * p.W ≤ wordCnt p.W q * p.W := Nat.mul_le_mul_right _ hk
  rw [show k + b.2 + 1 = k + (b.2 + 1) by omega, Nat.add_mul] at hm1
  have hpos : 1 * p.W ≤ (b.2 + 1) * p.W := Nat.mul_le_mul_right _ (by omega)
  generalize wordCnt p.W q * p.W = N at *
  generalize k * p.W = K at *
  generalize (b.2 + 1) * p.W = M at *
  obtain ⟨c, hc⟩ := hA
  have hlast : B + N - 1 < p.A := by
    rw [hc] at hBA ⊢
    have h1 : B / 4096 < c := by omega
    have h2 : (B + N - 1) / 4096 < c := by omega
    omega
  rw [ha, Nat.mod_eq_of_lt (by omega)]
  have g1 : B / 4096 ≤ (B + K) / 4096 := Nat.div_le_div_right (by omega)
  have g2 : (B + K) / 4096 ≤ (B + K + M - 1) / 4096 := Nat.div_le_div_right (by omega)
  have g3 : (B + K + M - 1) / 4096 ≤ (B + N - 1) / 4096 := Nat.div_le_div_right (by omega)
  omega

/-- A request with an end at the boundary. -/
example : InPage pWord (4032 - 4032 % pWord.W, wordCnt pWord.W ⟨4032, 7, 0⟩ - 1) ∧ ReqOk pWord ⟨4032, 7, 0⟩ ∧ 4096 ∣ pWord.A := by
  refine ⟨by unfold InPage; decide, ⟨?_, ?_, ?_, ?_, ?_⟩, ⟨2 ^ 20, by decide⟩⟩ <;> decide

/-! ### C126: length of requests -/

/-- C126: a request of at most `MAX_CHUNKS` chunks can be expressed by the `len` of the read datapump. -/
theorem datapump_read_len {p : Params} (h : Legal p) {q : Req} (hq : ReqLegal p q) : q.len ≤ p.maxLen := by
  obtain ⟨w, hw, hle⟩ := h.data
  have eW : p.W = 2 ^ w := by unfold Params.W; rw [hw]; omega
  have hW : 0 < p.W := by rw [eW]; exact Nat.two_pow_pos _
  rw [h.maxLen]
  have h1 := hq.len
  have e1 : p.dataW / 8 = p.W := rfl
  unfold Params.readMaxLen
  rw [e1]
  generalize p.maxChunks * (p.chunkW / 8) = B at *
  unfold Req.bytes at h1
  have h2 : q.len * p.W + 1 ≤ B := by
    split at h1 <;> omega
  have h3 : q.len + 1 ≤ (B + p.W - 1) / p.W := by
    rw [Nat.le_div_iff_mul_le hW, Nat.add_mul]
    omega
  omega

/-- C126 for the write datapump. -/
def WriteLen (p : Params) : Prop := ∀ q, ReqLegal p q → q.len ≤ Params.writeMaxLen

/-- 8 KB requests with 64 bit words -/
def pLong : Params := ⟨64, 64, 64, 1024, 32, 8, 1023⟩
/-- C126: `MAX_CHUNKS` has no effect on `len` of the write datapump. -/
theorem datapump_write_len : Legal pLong ∧ ¬ WriteLen pLong := by
  refine ⟨⟨⟨3, by decide⟩, ⟨3, by decide⟩, ⟨3, by decide⟩, by decide, by decide⟩, fun h => ?_⟩
  have := h ⟨0, 1023, 0⟩ ⟨by decide, by decide, by decide, by decide, by decide⟩
  revert this
  decide

/-- C126: 512 words are possible. -/
theorem datapump_write_len_partial {p : Params} (h : Legal p) (hb : p.maxChunks * (p.chunkW / 8) ≤ 512 * p.W) : WriteLen p := by
  intro q hq
  obtain ⟨w, hw, hle⟩ := h.data
  have eW : p.W = 2 ^ w := by unfold Params.W; rw [hw]; omega
  have hW : 0 < p.W := by rw [eW]; exact Nat.two_pow_pos _
  have h1 := hq.len
  unfold Req.bytes at h1
  have h2 : q.len * p.W < 512 * p.W := by split at h1 <;> omega
  have := Nat.lt_of_mul_lt_mul_right h2
  unfold Params.writeMaxLen
  omega

end Verif.Datapump
