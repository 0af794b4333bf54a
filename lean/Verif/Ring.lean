import Verif.Common
/-!
# Ring buffer windows (helper lemmas for all pointer based FIFOs)
-/
namespace Verif.Ring

universe u
variable {α : Type u}

/-- Index `k` positions behind `r` in a ring of `D` cells. -/
def idx (D r k : Nat) : Nat := if r + k < D then r + k else r + k - D

/-- Pointer increment in a ring of `D` cells. -/
def inc (D p : Nat) : Nat := if p + 1 = D then 0 else p + 1

/-- The `n` words starting at `r`. -/
def window (mem : Nat → α) (D r n : Nat) : List α := (List.range n).map fun k => mem (idx D r k)

@[simp] theorem window_length (mem : Nat → α) (D r n : Nat) : (window mem D r n).length = n := by
  simp [window]

@[simp] theorem window_zero (mem : Nat → α) (D r : Nat) : window mem D r 0 = [] := rfl

theorem inc_lt {D p : Nat} (h : p < D) : inc D p < D := by unfold inc; split <;> omega

theorem idx_lt {D r k : Nat} (hr : r < D) (hk : k ≤ D) : idx D r k < D := by
  unfold idx; split <;> omega

theorem idx_zero {D r : Nat} (hr : r < D) : idx D r 0 = r := by simp [idx, hr]

theorem idx_inc {D r k : Nat} (_hr : r < D) (hk : k + 1 ≤ D) : idx D (inc D r) k = idx D r (k + 1) := by
  unfold idx inc; split <;> split <;> split <;> omega

theorem inc_idx {D r k : Nat} (_hr : r < D) (hk : k < D) : inc D (idx D r k) = idx D r (k + 1) := by
  unfold idx inc; split <;> split <;> split <;> omega

theorem idx_inj {D r k l : Nat} (_hr : r < D) (hk : k < D) (hl : l < D)
    (h : idx D r k = idx D r l) : k = l := by
  revert h; unfold idx; split <;> split <;> omega

theorem window_pop {mem : Nat → α} {D r n : Nat} (hr : r < D) (hn : n + 1 ≤ D) :
    window mem D r (n + 1) = mem r :: window mem D (inc D r) n := by
  unfold window
  rw [List.range_succ_eq_map]
  simp only [List.map_cons, List.map_map, idx_zero hr, List.cons.injEq, true_and]
  apply List.map_congr_left
  intro k hk
  simp only [List.mem_range] at hk
  simp only [Function.comp, Nat.succ_eq_add_one]
  rw [idx_inc hr (by omega)]

theorem window_congr {m m' : Nat → α} {D r n : Nat}
    (h : ∀ k, k < n → m (idx D r k) = m' (idx D r k)) : window m D r n = window m' D r n := by
  apply List.map_congr_left
  intro k hk
  exact h k (by simpa using hk)

theorem window_push {mem : Nat → α} {D r n : Nat} (v : α) (hr : r < D) (hn : n < D) :
    window (upd mem (idx D r n) v) D r (n + 1) = window mem D r n ++ [v] := by
  have : window (upd mem (idx D r n) v) D r n = window mem D r n := by
    apply window_congr
    intro k hk
    apply upd_ne
    intro e
    have := idx_inj hr (by omega) hn e
    omega
  rw [← this]
  simp [window, List.range_succ]

theorem window_succ (mem : Nat → α) (D r n : Nat) :
    window mem D r (n + 1) = window mem D r n ++ [mem (idx D r n)] := by
  simp [window, List.range_succ]

/-- Writing outside of the window does not change it. -/
theorem window_upd {mem : Nat → α} {D r n p : Nat} (v : α)
    (h : ∀ k, k < n → idx D r k ≠ p) : window (upd mem p v) D r n = window mem D r n := by
  apply window_congr
  intro k hk
  exact upd_ne _ _ _ _ (h k hk)

end Verif.Ring
