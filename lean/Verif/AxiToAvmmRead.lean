import Verif.AxiToAvmmProps

/-!
# Read data of `Axi4_to_AvalonMm`
-/

namespace Verif.AxiToAvmm

open Verif

variable {α : Type}

def curBeats (v : Bool) (id len : Nat) : List (Nat × Bool) := if v then beats id len else []
def sizeBeats (l : List (Nat × Nat)) : List (Nat × Bool) := l.flatMap fun z => beats z.1 z.2
/-- the words which are not returned yet -/
def rem (s : St α) : List (Nat × Bool) := curBeats s.wVld s.wId s.wLen ++ sizeBeats s.sizes

/-- the remaining words without the request of this clock -/
def rem1 (c : Cfg) (s : St α) (x : In α) : List (Nat × Bool) :=
  curBeats (next c s x).wVld (next c s x).wId (next c s x).wLen ++
    sizeBeats (if newSizeAck s x then s.sizes.drop 1 else s.sizes)

theorem load_size (c : Cfg) (s : St α) (x : In α) (h : newSizeAck s x = true) :
    rem1 c s x = sizeBeats s.sizes := by
  unfold rem1
  simp only [next, h, if_true]
  cases s.sizes with
  | nil => rfl
  | cons z l => simp [curBeats, sizeBeats]

/-- words on the R channel -/
def out1 (s : St α) (x : In α) : List (Nat × Bool) := given (rAck s x) (s.wId, s.wLen == 0)

theorem rem_step (c : Cfg) (s : St α) (x : In α) (hv : s.datas ≠ [] → s.wVld = true) :
    out1 s x ++ rem1 c s x = rem s := by
  rcases Bool.eq_false_or_eq_true s.wVld with hw | hw
  · rcases Bool.eq_false_or_eq_true (newSizeAck s x) with hn | hn
    · rw [load_size c s x hn]
      have : s.wLen = 0 ∧ rAck s x = true := by simpa [newSizeAck, hw] using hn
      simp [out1, rem, this, hw, curBeats, beats]
    · unfold rem1
      simp only [next, hn, out1, rem, hw]
      rcases Bool.eq_false_or_eq_true (rAck s x) with hr | hr
      · have hl : s.wLen ≠ 0 := by simpa [newSizeAck, hw, hr] using hn
        have hl2 : (s.wLen != 0) = true := by simp [hl]
        have hl3 : (s.wLen == 0) = false := by simp [hl]
        simp only [hr, hl2, hl3, given_true, curBeats, if_true, beats]
        rw [show List.replicate s.wLen (s.wId, false) = (s.wId, false) :: List.replicate (s.wLen - 1) (s.wId, false) by
          conv => lhs; rw [show s.wLen = s.wLen - 1 + 1 by omega, List.replicate_succ]]
        simp
      · simp [hr]
  · have hd : s.datas = [] := by
      by_cases h : s.datas = []
      · exact h
      · rw [hv h] at hw; exact absurd hw (by simp)
    have hr : rAck s x = false := by simp [rAck, hd]
    have hn : newSizeAck s x = true := by simp [newSizeAck, hw]
    rw [load_size c s x hn]
    simp [out1, hr, rem, hw, curBeats]

structure RInv (c : Cfg) (tr : List (In α × Out α)) (s : St α) : Prop where
  ans : answer (ars tr) = (rs tr).map (fun r => (r.1, r.2.2)) ++ rem s
  data : avData tr = (rs tr).map (fun r => r.2.1) ++ s.datas
  cap : s.cap + (rem s).length = c.depth
  vld : s.datas ≠ [] → s.wVld = true

theorem depth_lt (c : Cfg) : c.depth < 2 ^ c.capW := by
  have := le_two_pow_log2ceil (c.depth + 1)
  unfold Cfg.capW
  omega

theorem rinv_step (c : Cfg) (s : St α) (x : In α) (tr : List (In α × Out α)) (h : RInv c tr s)
    (hl : arEn c s x = true → x.ar.len < 2 ^ c.capW)
    (hs : (avData (tr ++ [(x, out c s x)])).length ≤ (answer (ars tr)).length) :
    RInv c (tr ++ [(x, out c s x)]) (next c s x) := by
  obtain ⟨h1, h2, h3, h4⟩ := h
  have hrem := rem_step c s x h4
  have hcap : ∀ h : arEn c s x = true, x.ar.len < s.cap := by
    intro h
    have := (arEn_idle c s x h).2.2.1
    rwa [Cfg.fit, Nat.mod_eq_of_lt (hl h)] at this
  -- the data of this clock
  have hout : ∃ r1 : List (Nat × α × Bool), rs (tr ++ [(x, out c s x)]) = rs tr ++ r1 ∧
      r1.map (fun r => (r.1, r.2.2)) = out1 s x ∧
      r1.map (fun r => r.2.1) ++ (if s.wVld && x.rR then s.datas.drop 1 else s.datas) = s.datas := by
    refine ⟨_, rs_snoc _ _, ?_⟩
    have ho : (out c s x).r = if s.wVld then s.datas.head?.map fun d => (s.wId, d, s.wLen == 0) else none := rfl
    rw [ho]
    unfold out1 rAck
    cases hd : s.datas with
    | nil => cases x.rR <;> cases s.wVld <;> simp
    | cons d l =>
      have hw := h4 (by simp [hd])
      rw [hw]
      cases x.rR <;> simp
  obtain ⟨r1, hr1, hr2, hr3⟩ := hout
  have hpush : x.rdv = true → dataRd c s x = true := by
    intro hv
    rw [avData_snoc, List.length_append, h2, h1] at hs
    simp only [hv, given_true, List.length_append, List.length_map, List.length_singleton] at hs
    unfold dataRd
    have : s.datas.length < c.depth := by omega
    simp [this]
  have hds : (next c s x).datas = (if s.wVld && x.rR then s.datas.drop 1 else s.datas) ++ given x.rdv x.rdata := by
    have e : (x.rdv && dataRd c s x) = x.rdv := by
      cases hv : x.rdv
      · rfl
      · rw [hpush hv]; rfl
    show _ ++ given (x.rdv && dataRd c s x) x.rdata = _
    rw [e]
  have hsz : (next c s x).sizes = (if newSizeAck s x then s.sizes.drop 1 else s.sizes) ++
      given (arEn c s x) (x.ar.id, x.ar.len) := by
    have e : (arEn c s x && x.szRd) = arEn c s x := by
      rcases Bool.eq_false_or_eq_true (arEn c s x) with h | h
      · rw [h, (arEn_idle c s x h).2.2.2]; rfl
      · rw [h]; rfl
    show _ ++ given (arEn c s x && x.szRd) _ = _
    rw [e]
  have hrn : rem (next c s x) = rem1 c s x ++ answer (given (arEn c s x) x.ar) := by
    have e : sizeBeats (given (arEn c s x) (x.ar.id, x.ar.len)) = answer (given (arEn c s x) x.ar) := by
      cases arEn c s x <;> simp [sizeBeats, answer]
    unfold rem
    rw [hsz, ← e]
    simp [rem1, sizeBeats, List.flatMap_append, List.append_assoc]
  have hlen1 : (out1 s x).length + (rem1 c s x).length = (rem s).length := by
    rw [← List.length_append, hrem]
  have hr1l : r1.length = (out1 s x).length := by rw [← hr2, List.length_map]
  have hans : answer (ars (tr ++ [(x, out c s x)])) = answer (ars tr) ++ answer (given (arEn c s x) x.ar) := by
    rw [ars_snoc]
    simp only [ar_acc]
    simp [answer]
  have hdata : avData (tr ++ [(x, out c s x)]) = (rs (tr ++ [(x, out c s x)])).map (fun r => r.2.1) ++
      (next c s x).datas := by
    rw [avData_snoc, h2, hr1, hds, List.map_append, ← List.append_assoc]
    conv => lhs; rw [← hr3]
    simp only [List.append_assoc]
  refine ⟨?_, hdata, ?_, ?_⟩
  · rw [hans, h1, hr1, hrn, List.map_append, hr2, ← hrem]
    simp only [List.append_assoc]
  · rw [hrn, List.length_append]
    have hdl := depth_lt c
    have hf : arEn c s x = true → c.fit x.ar.len = x.ar.len := fun h => Nat.mod_eq_of_lt (hl h)
    have hal : (answer [x.ar]).length = x.ar.len + 1 := by simp [answer, beats]
    have e : (next c s x).cap = if rAck s x && arEn c s x then (s.cap + 2 ^ c.capW - c.fit x.ar.len) % 2 ^ c.capW
      else if rAck s x then (s.cap + 1) % 2 ^ c.capW
      else if arEn c s x then (s.cap + 2 ^ c.capW + 2 ^ c.capW - 1 - c.fit x.ar.len) % 2 ^ c.capW
      else s.cap := rfl
    rw [e]
    unfold out1 at hlen1
    rcases Bool.eq_false_or_eq_true (rAck s x) with hr | hr <;>
      rcases Bool.eq_false_or_eq_true (arEn c s x) with ha | ha
    · have h5 := hcap ha
      simp only [hr, ha, given_true, List.length_singleton] at hlen1 ⊢
      rw [hf ha, hal]
      simp only [Bool.and_self, if_true]
      rw [show s.cap + 2 ^ c.capW - x.ar.len = (s.cap - x.ar.len) + 2 ^ c.capW by omega, Nat.add_mod_right,
        Nat.mod_eq_of_lt (by omega)]
      omega
    · simp only [hr, ha, given_true, List.length_singleton, given_false] at hlen1 ⊢
      simp only [Bool.and_false, Bool.false_eq_true, if_false, if_true, answer, List.flatMap_nil, List.length_nil]
      rw [Nat.mod_eq_of_lt (by omega)]
      omega
    · have h5 := hcap ha
      simp only [hr, ha, given_true, given_false, List.length_nil] at hlen1 ⊢
      rw [hf ha, hal]
      simp only [Bool.and_true, Bool.false_eq_true, if_false, if_true]
      rw [show s.cap + 2 ^ c.capW + 2 ^ c.capW - 1 - x.ar.len = (s.cap - 1 - x.ar.len) + 2 ^ c.capW + 2 ^ c.capW by omega,
        Nat.add_mod_right, Nat.add_mod_right, Nat.mod_eq_of_lt (by omega)]
      omega
    · simp only [hr, ha, given_false, List.length_nil] at hlen1 ⊢
      simp only [Bool.and_false, Bool.false_eq_true, if_false, answer, List.flatMap_nil, List.length_nil]
      omega
  · intro hne
    rcases Bool.eq_false_or_eq_true (next c s x).wVld with hv | hv
    · exact hv
    · exfalso
      have hz : rem1 c s x = [] := by
        have e : (next c s x).wVld = if newSizeAck s x then !s.sizes.isEmpty
          else if rAck s x then s.wLen != 0 else s.wVld := rfl
        rcases Bool.eq_false_or_eq_true (newSizeAck s x) with hn | hn
        · rw [load_size c s x hn]
          rw [e, hn] at hv
          have : s.sizes = [] := by simpa using hv
          simp [this, sizeBeats]
        · have hw : s.wVld = true := by
            cases h : s.wVld
            · simp [newSizeAck, h] at hn
            · rfl
          rw [e, hn, hw] at hv
          rcases Bool.eq_false_or_eq_true (rAck s x) with hr | hr
          · simp [newSizeAck, hw, hr] at hn
            simp [hr, hn] at hv
          · simp [hr] at hv
      have hl1 := hlen1
      rw [hz, List.length_nil, Nat.add_zero] at hl1
      have h5 := hs
      rw [hdata, h1, hr1] at h5
      simp only [List.length_append, List.length_map] at h5
      have : (next c s x).datas.length = 0 := by omega
      exact hne (List.eq_nil_of_length_eq_zero this)

theorem sum_answer (l : List Addr) : ((l.map fun a => (a.addr, a.len + 1)).map Prod.snd).sum = (answer l).length := by
  induction l with
  | nil => rfl
  | cons a l ih =>
    have e : answer (a :: l) = beats a.id a.len ++ answer l := rfl
    rw [e, List.map_cons, List.map_cons, List.sum_cons, ih, List.length_append]
    simp [beats]

theorem rinv_all (c : Cfg) (s₀ : St α) (hi : IsInit c s₀) (is : List (In α))
    (hl : ∀ a ∈ ars ((machine c).trace s₀ is), a.len < 2 ^ c.capW)
    (hs : SlaveOk ((machine c).trace s₀ is)) :
    RInv c ((machine c).trace s₀ is) ((machine c).final s₀ is) := by
  induction is using List.reverseRecOn with
  | nil => constructor <;>
      simp [answer, ars, rs, avData, rem, sizeBeats, curBeats, Machine.trace, Machine.final, hi.sizes, hi.datas, hi.cap,
        hi.wVld]
  | append_singleton is x ih =>
    rw [Machine.trace_snoc] at hs hl ⊢
    rw [Machine.final_append]
    have h1 : (machine c).outAfter s₀ is x = out c ((machine c).final s₀ is) x := rfl
    have h := ih (fun a ha => hl a (by rw [ars_snoc]; exact List.mem_append_left _ ha))
      (fun i hi => by
        have := hs i (by rw [List.length_append]; omega)
        rwa [List.take_append_of_le_length (by omega), List.take_append_of_le_length (by omega)] at this)
    have hr := reads_inv c s₀ hi is
    have h2 := hs ((machine c).trace s₀ is).length (by simp)
    rw [List.take_left, List.take_of_length_le (by simp)] at h2
    refine rinv_step c _ x _ h ?_ ?_
    · intro ha
      refine hl _ ?_
      rw [ars_snoc, h1]
      simp only [ar_acc, ha]
      simp
    · rw [← h1]
      refine Nat.le_trans h2 ?_
      rw [← sum_answer, ← hr, List.map_append, List.sum_append]
      omega

end Verif.AxiToAvmm
