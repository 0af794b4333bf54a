import Verif.AxisStoredBurst
import Verif.ResizerProps

/-! # C170: what `Axi4SStoredBurst` sends -/

namespace Verif.AxisBurst

open Verif Verif.Resizer

/-- Bytes of a word whose lane is enabled. -/
def wordBytes (w : Word β) : List β :=
  ((w.data.zip w.strb).filter (·.2)).map (·.1)

/-- Bytes carried by the transferred words; an undefined word carries nothing known. -/
def sentBytes (ws : List (Option (Word β))) : List β :=
  ws.flatMap fun o => o.elim [] wordBytes

/-- Full statement for `DATA` of type `bytes`: a sink which is ready long enough gets exactly the bytes
of `DATA`. -/
def SendsBytes (n : Nat) (D : List Nat) : Prop :=
  ∀ rds : List Bool, D.length + 1 ≤ rds.count true →
    sentBytes (burstEmitted ((burst (ofBytes n 0 D) false).trace 0 rds)) = D

/-- **C170** fails: the last word is sent twice (the default configuration: 16 bytes, 64 b words). -/
theorem axisBurst_bytes_fails :
    ¬ SendsBytes 8 [72, 101, 108, 108, 111, 32, 119, 111, 114, 108, 100, 33, 33, 33, 33, 33] := by
  intro h
  exact absurd (h (List.replicate 17 true) (by decide)) (by decide)

/-- **C170** also a partial last word is sent with all lanes enabled: five bytes in words of four bytes. -/
theorem axisBurst_mask_fails : ¬ SendsBytes 4 [1, 2, 3, 4, 5] ∧
    ((ofBytes 4 0 [1, 2, 3, 4, 5]).getLast?.map wordBytes) = some [5, 0, 0, 0] := by
  refine ⟨fun h => ?_, by decide⟩
  exact absurd (h (List.replicate 6 true) (by decide)) (by decide)

theorem grouper_length (n : Nat) (z : β) (D : List β) :
    (grouper n z D).length = (D.length + n - 1) / n := by simp [grouper]

theorem grouper_ne (n : Nat) (hn : 0 < n) (D : List β) (hD : D ≠ []) :
    0 < (D.length + n - 1) / n := by
  have := List.length_pos_iff.2 hD
  exact Nat.div_pos (by omega) hn

theorem byteWords_length (n : Nat) (hn : 0 < n) (z : β) (D : List β) (hD : D ≠ []) :
    (byteWords n z D).length = (D.length + n - 1) / n + 1 := by
  have h1 := grouper_ne n hn D hD
  have h2 := grouper_length n z D
  have : grouper n z D ≠ [] := by
    intro h; rw [h] at h2; simp at h2; omega
  simp [byteWords, h2, List.getLast?_eq_some_getLast this]

/-- **C170** (partial) `DATA` of type `bytes`: for every behaviour of the sink, every word before the
superfluous last one carries its bytes of `DATA` (zero after the end), with all lanes enabled and without
`last`; the superfluous word repeats the data of the previous one and is the only one with `last`. -/
theorem axisBurst_bytes_partial (n : Nat) (hn : 0 < n) (D : List Nat) (hD : D ≠ [])
    (rep : Bool) (rds : List Bool) (k : Nat) (o : Option (Word Nat))
    (h : (burstEmitted ((burst (ofBytes n 0 D) rep).trace 0 rds))[k]? = some o) :
    ∃ w, o = some w ∧ w.data.length = n ∧
      let W := (D.length + n - 1) / n
      let i := k % (W + 1)
      (w.last = true ↔ i = W) ∧
      (i < W → (∀ e ∈ w.strb, e = true) ∧ ∀ j < n, w.data[j]? = some ((D[i * n + j]?).getD 0)) ∧
      (i = W → ∀ j < n, w.data[j]? = some ((D[(W - 1) * n + j]?).getD 0)) := by
  have hW := grouper_ne n hn D hD
  have hg := grouper_length n 0 D
  have hgne : grouper n 0 D ≠ [] := by
    intro h; rw [h] at hg; simp at hg; omega
  have hl := byteWords_length n hn 0 D hD
  have hlen : (ofBytes n 0 D).length = (D.length + n - 1) / n + 1 := by
    simp [ofBytes, mkWords, hl]
  have hne : ofBytes n 0 D ≠ [] := by
    intro h; rw [h] at hlen; simp at hlen
  have := (storedBurst_order _ hne rep rds k o h).1
  generalize hWd : (D.length + n - 1) / n = W at *
  have hi : k % (ofBytes n 0 D).length = k % (W + 1) := by rw [hlen]
  have hlt : k % (W + 1) < W + 1 := Nat.mod_lt _ (by omega)
  refine ⟨_, this, ?_⟩
  simp only [hi]
  generalize k % (W + 1) = i at *
  have hlast : (grouper n 0 D).getLast? = (grouper n 0 D)[W - 1]? := by
    rw [List.getLast?_eq_getElem?, hg]
  have hget : ∀ i, i < W → (grouper n 0 D)[i]? =
      some ((List.range n).map fun j => (D[i * n + j]?).getD 0) := by
    intro i hi
    simp [grouper, hWd, List.getElem?_range hi]
  have hbw : ∀ (h : i < (byteWords n 0 D).length), (byteWords n 0 D)[i] =
      (List.range n).map fun j => (D[(if i < W then i else W - 1) * n + j]?).getD 0 := by
    intro h
    have h2 : (byteWords n 0 D)[i]? = some ((List.range n).map fun j =>
        (D[(if i < W then i else W - 1) * n + j]?).getD 0) := by
      unfold byteWords
      rw [hlast, hget (W - 1) (by omega)]
      by_cases c : i < W
      · rw [List.getElem?_append_left (by omega), hget i c]; simp [c]
      · have : i = W := by omega
        rw [List.getElem?_append_right (by omega)]
        simp [this, hg]
    rw [List.getElem?_eq_getElem h] at h2
    exact Option.some.inj h2
  have hall : ∀ e ∈ lanes n n, e = true := by
    intro e he
    simp only [lanes, List.mem_map, List.mem_range] at he
    obtain ⟨j, hj, rfl⟩ := he
    simpa using hj
  have hi' : i < (byteWords n 0 D).length := by omega
  simp only [ofBytes, mkWords, List.getElem_mapIdx, hbw hi', hl]
  refine ⟨by simp, by simp, fun c => ⟨?_, fun j hj => ?_⟩, fun c j hj => ?_⟩
  · have : i ≠ W := by omega
    simpa [this] using hall
  · simp [c, List.getElem?_range hj]
  · have : ¬ i < W := by omega
    simp [this, List.getElem?_range hj]

/-- The hypotheses of the theorem above are met: the third word of the default configuration. -/
example : (burstEmitted ((burst (ofBytes 4 0 [1, 2, 3, 4, 5]) false).trace 0
    [true, false, true, true, true]))[2]? =
    some (some ⟨[5, 0, 0, 0], [true, true, true, true], true⟩) := by decide

/-- **C170** `DATA` as a tuple of words: the k-th transferred word is word `k mod len(DATA)` with all lanes
enabled, `last` is set exactly on the last word of `DATA`; without `REPEAT` the number of transferred words
is the number of ready cycles up to `len(DATA)`. -/
theorem axisBurst_tuple (n : Nat) (D : List (List β)) (hD : D ≠ []) (rep : Bool) (rds : List Bool) :
    (∀ k o, (burstEmitted ((burst (ofTuple n D) rep).trace 0 rds))[k]? = some o →
      ∃ w, o = some w ∧ some w.data = D[k % D.length]? ∧ w.strb = List.replicate n true ∧
        (w.last = true ↔ k % D.length = D.length - 1) ∧ (rep = false → k < D.length)) ∧
    (rep = false → (burstEmitted ((burst (ofTuple n D) rep).trace 0 rds)).length
      = min (rds.count true) D.length) := by
  have hlen : (ofTuple n D).length = D.length := by simp [ofTuple, mkWords]
  have hne : ofTuple n D ≠ [] := by
    intro h; rw [h] at hlen
    exact hD (List.length_eq_zero_iff.1 hlen.symm)
  constructor
  · intro k o h
    obtain ⟨h1, h2⟩ := storedBurst_order _ hne rep rds k o h
    have hlt := Nat.mod_lt k (List.length_pos_iff.2 hD)
    refine ⟨_, h1, ?_⟩
    simp only [hlen] at h2 ⊢
    have hlanes : lanes n n = List.replicate n true := by
      apply List.ext_getElem (by simp [lanes])
      intro j h1 h2
      simp [lanes] at h1 ⊢
      exact h1
    simp only [ofTuple, mkWords, List.getElem_mapIdx]
    exact ⟨(List.getElem?_eq_getElem hlt).symm, by simp [hlanes], by simp, h2⟩
  · intro hr
    subst hr
    have := (storedBurst_progress _ hne rds).1
    rw [hlen] at this
    exact this

example : (burstEmitted ((burst (ofTuple 2 [[1, 2], [3, 4]]) true).trace 0
    [true, false, true, true, true])) =
    [some ⟨[1, 2], [true, true], false⟩, some ⟨[3, 4], [true, true], true⟩,
      some ⟨[1, 2], [true, true], false⟩] := by decide

end Verif.AxisBurst
