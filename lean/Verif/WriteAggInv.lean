import Verif.WriteAgg
/-! Invariant of `AxiWriteAggregator`, used in `WriteAggProps`. -/
namespace Verif.WriteAgg

open FifoOoo (Phase)

variable {α : Type}

/-- How many of the first `e` items use the slot `k`. -/
def cnt (M k e : Nat) : Nat := (List.range e).countP (fun j => j % M == k)

theorem cnt_succ (M k e : Nat) : cnt M k (e + 1) = cnt M k e + (e % M == k).toNat := by
  unfold cnt
  rw [List.range_succ, List.countP_append]
  cases h : (e % M == k) <;> simp [h]

theorem cnt_mono (M k : Nat) {e e' : Nat} (h : e ≤ e') : cnt M k e ≤ cnt M k e' := by
  induction h with
  | refl => exact Nat.le_refl _
  | step _ ih => rw [cnt_succ]; omega

structure Inv (g : Cfg) (key : Nat → Nat) (word : Nat → BW α) (rw' : Nat → CumMask.Word α) (s : St α) (ph : Nat → Phase)
    (c p e r b a : Nat) (cf : Nat → Nat) : Prop where
  p_eq : p + s.tmp.occ.toNat = c
  fifo : FifoOoo.Inv g.M s.fifo ph
  wr : s.fifo.ptr.wr = p / g.n % g.M
  rd : s.fifo.ptr.rd = e % g.M
  len : Fifo.len g.M s.fifo.ptr + e = p / g.n
  off : s.off = p % g.n
  first : g.n ≠ 1 → s.wfirst = (c % g.n == 0)
  tmpKey : 0 < c → s.tmp.reg.key = key ((c - 1) / g.n)
  tmpW : s.tmp.occ = true → s.tmp.reg.w = word (c - 1)
  lk : s.tmp.occ = true ∨ c % g.n ≠ 0 → ∀ k, k < g.M → s.tmp.reg.cam k = true → s.fifo.valid k = true → s.fifo.lock k = true
  prev : 0 < p → ∀ k, k < g.M → s.prev k = false
  col : 0 < c → s.tmp.reg.col = true → 2 ≤ c
  cams : ∀ j, e ≤ j → j < p / g.n → s.cam (j % g.M) = key j
  mem : ∀ q, r ≤ q → q < p → bytesOut (s.ram.mem (q / g.n % g.M * g.n + q % g.n)) = bytesIn (word q)
  rwok : ∀ q, q < r → bytesOut (rw' q) = bytesIn (word q)
  pre : s.ram.preload = false
  dout : s.disp.pending = true → s.ram.dout 0 = rw' (r - 1)
  disp : AxiWDispatch.Inv g.n (fun j => (j % g.M, key j)) rw' s.disp r e b a
  offe : s.disp.off ≠ 0 → e < p / g.n
  conf : ∀ k, k < g.M → cf k ≤ cnt g.M k e ∧ cnt g.M k e ≤ cf k + 1 ∧ (ph k = .reading ↔ cf k < cnt g.M k e)

/-- What is decided in a cycle (`push`: the word from `w_in_reg` is stored). -/
def push (s : St α) : Bool := s.tmp.occ && FifoOoo.wrd s.fifo

structure Ctl (g : Cfg) (s : St α) : Prop where
  vld : (ramW g s).vld = push s
  en : enRd g s = true
  rd : s.tmp.occ = true → tmpRd g s = FifoOoo.wrd s.fifo
  conf : confirm g s = (push s && insLast g s)
  camw : camWrite g s = (push s && insLast g s)
  ow : s.tmp.occ = true → (ramW g s).overwrite = true
  acc : CumMask.acc (ramW g s) = false
  addr : push s = true → (ramW g s).addr = s.fifo.ptr.wr * AxiWDispatch.words g.n + s.off
  off : nextOff g s = if push s then (if s.off ≠ AxiWDispatch.maxOff g.n then s.off + 1 else 0) else s.off
  idx : s.tmp.occ = true → ∀ k, k < g.M → camIdx s k = false

section
variable {g : Cfg} {key : Nat → Nat} {word : Nat → BW α} {rw' : Nat → CumMask.Word α} {s : St α} {ph : Nat → Phase}
  {c p e r b a : Nat} {cf : Nat → Nat}

theorem Inv.empty_eq (h : Inv g key word rw' s ph c p e r b a cf) : empty s = FifoOoo.wrd s.fifo := by
  have h1 := h.fifo.wrd_iff
  have h2 := h.fifo.valid _ h.fifo.ptr.wr_lt
  unfold empty
  cases hw : FifoOoo.wrd s.fifo <;> cases hv : s.fifo.valid s.fifo.ptr.wr <;> simp_all

theorem Inv.ctl (h : Inv g key word rw' s ph c p e r b a cf) (hn : 0 < g.n) (hw : AxiWDispatch.words g.n = g.n) : Ctl g s := by
  have hidx : s.tmp.occ = true → ∀ k, k < g.M → camIdx s k = false := by
    intro ho k hk
    have hc : 0 < c := by have := h.p_eq; rw [ho] at this; simp at this; omega
    unfold camIdx
    cases hcol : s.tmp.reg.col
    · have := h.lk (Or.inl ho) k hk
      cases h1 : s.tmp.reg.cam k <;> cases h2 : s.fifo.valid k <;> simp_all
    · have h2 := h.col hc hcol
      have : 0 < p := by have := h.p_eq; rw [ho] at this; simp at this; omega
      simp [h.prev this k hk]
  have hcf : s.tmp.occ = true → camFound g s = false := by
    intro ho
    unfold camFound
    rw [List.any_eq_false]
    intro k hk
    simp [hidx ho k (List.mem_range.1 hk)]
  have hem := h.empty_eq
  have hmax : AxiWDispatch.maxOff g.n = g.n - 1 := by unfold AxiWDispatch.words at hw; omega
  have hoff : s.off < g.n := by rw [h.off]; exact Nat.mod_lt _ hn
  have hen : enRd g s = true := by
    unfold enRd ramW
    cases ho : s.tmp.occ
    · simp
    · simp [hcf ho]
  have hv : (ramW g s).vld = push s := by
    unfold ramW push willInsert
    cases ho : s.tmp.occ
    · simp
    · simp [hcf ho, hem]
      cases FifoOoo.wrd s.fifo <;> simp
  refine ⟨hv, hen, ?_, ?_, ?_, ?_, ?_, ?_, ?_, hidx⟩
  · intro ho
    unfold tmpRd
    rw [hen, hem, hcf ho]; simp
  · unfold confirm push willInsert
    cases ho : s.tmp.occ
    · simp
    · simp [hcf ho, hem, hen]
  · unfold camWrite push willInsert
    cases ho : s.tmp.occ
    · simp
    · simp [hcf ho, hem, hen]
      cases FifoOoo.wrd s.fifo <;> simp
  · intro ho; simp [ramW, ho, hcf ho]
  · unfold CumMask.acc ramW
    cases ho : s.tmp.occ
    · simp
    · simp [hcf ho]
  · intro hp
    have ho : s.tmp.occ = true := by unfold push at hp; simp only [Bool.and_eq_true] at hp; exact hp.1
    simp [ramW, ramAddr, hcf ho]
  · unfold nextOff
    rw [hv, hen]
    split
    · rename_i h1
      have : s.off = 0 := by omega
      have : AxiWDispatch.maxOff g.n = 0 := by omega
      simp_all
    · cases hp : push s
      · simp
      · have ho : s.tmp.occ = true := by unfold push at hp; simp only [Bool.and_eq_true] at hp; exact hp.1
        have hwr : FifoOoo.wrd s.fifo = true := by unfold push at hp; simp only [Bool.and_eq_true] at hp; exact hp.2
        simp [willInsert, hcf ho, hem, hwr]

/-- The functions matter only where the words exist. -/
theorem Inv.congr (h : Inv g key word rw' s ph c p e r b a cf) (hn : 0 < g.n) (hw : AxiWDispatch.words g.n = g.n)
    {key2 : Nat → Nat} {word2 : Nat → BW α} {rw2 : Nat → CumMask.Word α}
    (hk : ∀ j, j * g.n < c → key2 j = key j) (hwd : ∀ q, q < c → word2 q = word q) (hr : ∀ q, q < r → rw2 q = rw' q) :
    Inv g key2 word2 rw2 s ph c p e r b a cf := by
  have hpc : p ≤ c := by have := h.p_eq; omega
  have hdv : ∀ j, j < p / g.n → j * g.n < c := by
    intro j hj
    have := (Nat.lt_div_iff_mul_lt hn).1 hj
    omega
  have hrp : r ≤ p := by
    have h1 := h.disp.r_eq
    have h2 := h.disp.off_le
    have h3 := h.len
    rw [hw] at h1
    have h4 := Nat.mul_div_le p g.n
    by_cases h0 : s.disp.off = 0
    · have := Nat.mul_le_mul_left g.n (show e ≤ p / g.n by omega)
      omega
    · have := Nat.mul_le_mul_left g.n (Nat.succ_le_of_lt (h.offe h0))
      have hmax : AxiWDispatch.maxOff g.n = g.n - 1 := by unfold AxiWDispatch.words at hw; omega
      rw [Nat.mul_succ] at this
      omega
  have hcnt := h.disp.cnt
  refine { h with tmpKey := ?_, tmpW := ?_, cams := ?_, mem := ?_, rwok := ?_, dout := ?_, disp := ?_ }
  · intro hc
    rw [h.tmpKey hc, hk]
    have := Nat.div_mul_le_self (c - 1) g.n
    omega
  · intro ho
    have hc : 0 < c := by have := h.p_eq; rw [ho] at this; simp at this; omega
    rw [h.tmpW ho, hwd _ (by omega)]
  · intro j h1 h2
    rw [h.cams j h1 h2, hk j (hdv j h2)]
  · intro q h1 h2
    rw [h.mem q h1 h2, hwd q (by omega)]
  · intro q h1
    rw [hr q h1, h.rwok q h1, hwd q (by omega)]
  · intro hp
    rw [h.dout hp]
    rw [hp] at hcnt
    rw [hr]; simp at hcnt; omega
  · refine { h.disp with rdv := ?_, bkv := ?_, awv := ?_ }
    · intro hv
      rw [hv] at hcnt; simp at hcnt
      rw [hr _ (by omega)]
      exact h.disp.rdv hv
    · intro hv
      have h2 := h.disp.bkv hv
      rw [hv, h2.1] at hcnt; simp at hcnt
      rw [hr _ (by omega)]
      exact h2
    · intro hv
      have h2 := h.disp.awv hv
      have h3 := h.disp.acnt
      rw [hv] at h3
      rw [h2]
      have h4 := h.len
      have : a < p / g.n := by
        by_cases h0 : s.disp.off = 0
        · rw [if_pos h0] at h3; simp at h3; omega
        · have := h.offe h0
          rw [if_neg h0] at h3; simp at h3; omega
      rw [hk a (hdv a this)]

end
end Verif.WriteAgg
