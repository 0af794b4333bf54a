import Verif.UsbDescr
/-!
# Properties of USB descriptors
-/
namespace Verif.UsbDescr
open Verif.UsbVer

/-! ## Packing -/

/-- the number of a list of fields which fit -/
def num : List (Nat × Nat) → Nat
  | [] => 0
  | f :: fs => f.2 + 2 ^ f.1 * num fs

theorem pack_some : ∀ {fs : List (Nat × Nat)} {x : Nat}, pack fs = some x →
    (∀ f ∈ fs, f.2 < 2 ^ f.1) ∧ x = num fs
  | [], x, h => by cases h; exact ⟨by simp, rfl⟩
  | f :: fs, x, h => by
      rw [pack] at h
      split at h
      · rename_i hf
        cases e : pack fs with
        | none => rw [e] at h; cases h
        | some y =>
          rw [e] at h; cases h
          obtain ⟨h1, h2⟩ := pack_some e
          refine ⟨fun g hg => ?_, by rw [num, h2]⟩
          rcases List.mem_cons.1 hg with rfl | hg
          · exact hf
          · exact h1 g hg
      · cases h

theorem pack_ok : ∀ {fs : List (Nat × Nat)}, (∀ f ∈ fs, f.2 < 2 ^ f.1) → pack fs = some (num fs)
  | [], _ => rfl
  | f :: fs, h => by
      rw [pack, if_pos (h f (List.mem_cons_self ..)), pack_ok fun g hg => h g (List.mem_cons_of_mem _ hg)]
      rfl

/-- a descriptor exists exactly if its fields and its length fit -/
theorem descr_iff (ty : Nat) (body : List (Nat × Nat)) (bs : List Nat) : descr ty body = some bs ↔
    ((16 + width body) / 8 < 256 ∧ ty < 256 ∧ ∀ f ∈ body, f.2 < 2 ^ f.1) ∧
    bs = leBytes ((16 + width body) / 8) (num ((8, (16 + width body) / 8) :: (8, ty) :: body)) := by
  unfold descr
  constructor
  · intro h
    cases e : pack ((8, (16 + width body) / 8) :: (8, ty) :: body) with
    | none => rw [e] at h; cases h
    | some x =>
      rw [e] at h; cases h
      obtain ⟨h1, rfl⟩ := pack_some e
      exact ⟨⟨h1 _ (List.mem_cons_self ..), h1 _ (List.mem_cons_of_mem _ (List.mem_cons_self ..)),
        fun f hf => h1 f (List.mem_cons_of_mem _ (List.mem_cons_of_mem _ hf))⟩, rfl⟩
  · rintro ⟨⟨h1, h2, h3⟩, rfl⟩
    rw [pack_ok]
    · rfl
    · intro f hf
      rcases List.mem_cons.1 hf with rfl | hf
      · exact h1
      · rcases List.mem_cons.1 hf with rfl | hf
        · exact h2
        · exact h3 f hf

theorem lb8 {k b x : Nat} (h : b < 256) : leBytes (k + 1) (b + 2 ^ 8 * x) = b :: leBytes k x := by
  rw [leBytes, show (b + 2 ^ 8 * x) % 256 = b by omega, show (b + 2 ^ 8 * x) / 256 = x by omega]

theorem lb16 {k v x : Nat} (h : v < 65536) :
    leBytes (k + 2) (v + 2 ^ 16 * x) = v % 256 :: v / 256 :: leBytes k x := by
  rw [leBytes, leBytes, show (v + 2 ^ 16 * x) % 256 = v % 256 by omega,
    show (v + 2 ^ 16 * x) / 256 % 256 = v / 256 by omega, show (v + 2 ^ 16 * x) / 256 / 256 = x by omega]

theorem leBytes_length : ∀ (k x : Nat), (leBytes k x).length = k
  | 0, _ => rfl
  | k + 1, x => by rw [leBytes, List.length_cons, leBytes_length k]

/-! ## C440: layout -/

/-- C440: the device descriptor is the 18 bytes of USB 2.0, table 9-8; there is an exception exactly if an
argument does not fit, the packet size is not in the list or a version is not accepted. -/
theorem device_iff (cls sub proto : Nat) (uv : List Char) (mps idV idP : Nat) (dv : List Char)
    (iM iP iS nC : Nat) (bs : List Nat) :
    device cls sub proto uv mps idV idP dv iM iP iS nC = some bs ↔
    ∃ u d, toU16 uv = .ok u ∧ toU16 dv = .ok d ∧ u < 65536 ∧ d < 65536 ∧
      mps ∈ [8, 16, 32, 64, 128] ∧ cls < 256 ∧ sub < 256 ∧ proto < 256 ∧ idV < 65536 ∧ idP < 65536 ∧
      iM < 256 ∧ iP < 256 ∧ iS < 256 ∧ nC < 256 ∧
      bs = [18, 1, u % 256, u / 256, cls, sub, proto, mps, idV % 256, idV / 256, idP % 256, idP / 256,
        d % 256, d / 256, iM, iP, iS, nC] := by
  unfold device ver
  constructor
  · intro h
    split at h
    · rename_i hm
      cases hu : toU16 uv with
      | fail => rw [hu] at h; cases h
      | neg => rw [hu] at h; cases h
      | ok u =>
        cases hd : toU16 dv with
        | fail => rw [hu, hd] at h; cases h
        | neg => rw [hu, hd] at h; cases h
        | ok d =>
          rw [hu, hd] at h
          simp only [descr_iff, width] at h
          obtain ⟨⟨_, _, h3⟩, rfl⟩ := h
          simp at h3
          obtain ⟨a1, a2, a3, a4, a5, a6, a7, a8, a9, a10, a11, a12⟩ := h3
          refine ⟨u, d, rfl, rfl, a1, a8, ?_, a2, a3, a4, a6, a7, a9, a10, a11, a12, ?_⟩
          · simp [sizes] at hm ⊢; omega
          · simp only [num]
            rw [lb8 (by omega), lb8 (by omega), lb16 a1, lb8 a2, lb8 a3, lb8 a4, lb8 a5, lb16 a6, lb16 a7,
              lb16 a8, lb8 a9, lb8 a10, lb8 a11, lb8 a12]
            rfl
    · cases h
  · rintro ⟨u, d, hu, hd, a1, a8, hm, a2, a3, a4, a6, a7, a9, a10, a11, a12, rfl⟩
    have a5 : mps < 256 := by simp at hm; omega
    rw [if_pos (by simp [sizes] at hm ⊢; omega), hu, hd]
    simp only [descr_iff, width]
    refine ⟨⟨by decide, by decide, by simp; omega⟩, ?_⟩
    simp only [num]
    rw [lb8 (by omega), lb8 (by omega), lb16 a1, lb8 a2, lb8 a3, lb8 a4, lb8 a5, lb16 a6, lb16 a7,
      lb16 a8, lb8 a9, lb8 a10, lb8 a11, lb8 a12]
    rfl

example : device 2 0 0 ['2', '.', '0'] 64 0x1234 0x5678 ['0', '.', '1'] 1 2 0 1 =
    some [18, 1, 0, 2, 2, 0, 0, 64, 0x34, 0x12, 0x78, 0x56, 0x10, 0, 1, 2, 0, 1] := by decide +kernel

/-- C440: USB 2.0, table 9-10 -/
theorem config_iff (total nIf value iConf wakeup self power : Nat) (bs : List Nat) :
    config total nIf value iConf wakeup self power = some bs ↔
    total < 65536 ∧ nIf < 256 ∧ value < 256 ∧ iConf < 256 ∧ wakeup < 2 ∧ self < 2 ∧ power < 256 ∧
    bs = [9, 2, total % 256, total / 256, nIf, value, iConf, 0x80 + 0x40 * self + 0x20 * wakeup, power] := by
  unfold config
  simp only [descr_iff, width]
  constructor
  · rintro ⟨⟨_, _, h⟩, rfl⟩
    simp at h
    obtain ⟨a1, a2, a3, a4, a5, a6, a7⟩ := h
    refine ⟨a1, a2, a3, a4, by omega, by omega, a7, ?_⟩
    simp only [num]
    rw [lb8 (by omega), lb8 (by omega), lb16 a1, lb8 a2, lb8 a3, lb8 a4,
      show 0 + 2 ^ 5 * (wakeup + 2 ^ 1 * (self + 2 ^ 1 * (1 + 2 ^ 1 * (power + 2 ^ 8 * 0)))) =
        (0x80 + 0x40 * self + 0x20 * wakeup) + 2 ^ 8 * (power + 2 ^ 8 * 0) by omega, lb8 (by omega), lb8 a7]
    rfl
  · rintro ⟨a1, a2, a3, a4, a5, a6, a7, rfl⟩
    refine ⟨⟨by decide, by decide, by simp; omega⟩, ?_⟩
    simp only [num]
    rw [lb8 (by omega), lb8 (by omega), lb16 a1, lb8 a2, lb8 a3, lb8 a4,
      show 0 + 2 ^ 5 * (wakeup + 2 ^ 1 * (self + 2 ^ 1 * (1 + 2 ^ 1 * (power + 2 ^ 8 * 0)))) =
        (0x80 + 0x40 * self + 0x20 * wakeup) + 2 ^ 8 * (power + 2 ^ 8 * 0) by omega, lb8 (by omega), lb8 a7]
    rfl

/-- C440: USB 2.0, table 9-12 -/
theorem interface_iff (n alt nEp cls sub proto iIf : Nat) (bs : List Nat) :
    interface n alt nEp cls sub proto iIf = some bs ↔
    n < 256 ∧ alt < 256 ∧ nEp < 256 ∧ cls < 256 ∧ sub < 256 ∧ proto < 256 ∧ iIf < 256 ∧
    bs = [9, 4, n, alt, nEp, cls, sub, proto, iIf] := by
  unfold interface
  simp only [descr_iff, width]
  constructor
  · rintro ⟨⟨_, _, h⟩, rfl⟩
    simp at h
    obtain ⟨a1, a2, a3, a4, a5, a6, a7⟩ := h
    refine ⟨a1, a2, a3, a4, a5, a6, a7, ?_⟩
    simp only [num]
    rw [lb8 (by omega), lb8 (by omega), lb8 a1, lb8 a2, lb8 a3, lb8 a4, lb8 a5, lb8 a6, lb8 a7]
    rfl
  · rintro ⟨a1, a2, a3, a4, a5, a6, a7, rfl⟩
    refine ⟨⟨by decide, by decide, by simp; omega⟩, ?_⟩
    simp only [num]
    rw [lb8 (by omega), lb8 (by omega), lb8 a1, lb8 a2, lb8 a3, lb8 a4, lb8 a5, lb8 a6, lb8 a7]
    rfl

/-- C440: USB 2.0, table 9-13 -/
theorem endpoint_iff (dir addr transfer sync usage mps interval : Nat) (bs : List Nat) :
    endpoint dir addr transfer sync usage mps interval = some bs ↔
    0 < addr ∧ addr < 128 ∧ dir < 2 ∧ transfer < 4 ∧ sync < 4 ∧ usage < 4 ∧ mps < 65536 ∧ interval < 256 ∧
    bs = [7, 5, addr + 0x80 * dir, transfer + 4 * sync + 16 * usage, mps % 256, mps / 256, interval] := by
  unfold endpoint
  by_cases h0 : 0 < addr
  · rw [if_pos h0]
    simp only [descr_iff, width]
    constructor
    · rintro ⟨⟨_, _, h⟩, rfl⟩
      simp at h
      obtain ⟨a1, a2, a3, a4, a5, a6, a7⟩ := h
      refine ⟨h0, a1, by omega, a3, a4, a5, a6, a7, ?_⟩
      simp only [num]
      rw [lb8 (by omega), lb8 (by omega),
        show addr + 2 ^ 7 * (dir + 2 ^ 1 * (transfer + 2 ^ 2 * (sync + 2 ^ 2 * (usage + 2 ^ 2 *
            (0 + 2 ^ 2 * (mps + 2 ^ 16 * (interval + 2 ^ 8 * 0))))))) =
          (addr + 0x80 * dir) + 2 ^ 8 * ((transfer + 4 * sync + 16 * usage) + 2 ^ 8 *
            (mps + 2 ^ 16 * (interval + 2 ^ 8 * 0))) by omega,
        lb8 (by omega), lb8 (by omega), lb16 a6, lb8 a7]
      rfl
    · rintro ⟨_, a1, a2, a3, a4, a5, a6, a7, rfl⟩
      refine ⟨⟨by decide, by decide, by simp; omega⟩, ?_⟩
      simp only [num]
      rw [lb8 (by omega), lb8 (by omega),
        show addr + 2 ^ 7 * (dir + 2 ^ 1 * (transfer + 2 ^ 2 * (sync + 2 ^ 2 * (usage + 2 ^ 2 *
            (0 + 2 ^ 2 * (mps + 2 ^ 16 * (interval + 2 ^ 8 * 0))))))) =
          (addr + 0x80 * dir) + 2 ^ 8 * ((transfer + 4 * sync + 16 * usage) + 2 ^ 8 *
            (mps + 2 ^ 16 * (interval + 2 ^ 8 * 0))) by omega,
        lb8 (by omega), lb8 (by omega), lb16 a6, lb8 a7]
      rfl
  · rw [if_neg h0]
    constructor
    · intro h; cases h
    · rintro ⟨h, _⟩; exact absurd h h0

example : endpoint 1 2 3 0 0 8 10 = some [7, 5, 0x82, 3, 8, 0, 10] := by decide +kernel

/-- C440: USB 2.0, table 9-9 -/
theorem qualifier_iff (cls sub proto : Nat) (uv : List Char) (mps nC : Nat) (bs : List Nat) :
    qualifier cls sub proto uv mps nC = some bs ↔
    ∃ u, toU16 uv = .ok u ∧ u < 65536 ∧ mps ∈ [8, 16, 32, 64, 128] ∧ cls < 256 ∧ sub < 256 ∧ proto < 256 ∧ nC < 256 ∧
      bs = [10, 6, u % 256, u / 256, cls, sub, proto, mps, nC, 0] := by
  unfold qualifier ver
  constructor
  · intro h
    split at h
    · rename_i hm
      cases hu : toU16 uv with
      | fail => rw [hu] at h; cases h
      | neg => rw [hu] at h; cases h
      | ok u =>
        rw [hu] at h
        simp only [descr_iff, width] at h
        obtain ⟨⟨_, _, h3⟩, rfl⟩ := h
        simp at h3
        obtain ⟨a1, a2, a3, a4, a5, a6⟩ := h3
        refine ⟨u, rfl, a1, ?_, a2, a3, a4, a6, ?_⟩
        · simp [sizes] at hm ⊢; omega
        · simp only [num]
          rw [lb8 (by omega), lb8 (by omega), lb16 a1, lb8 a2, lb8 a3, lb8 a4, lb8 a5, lb8 a6, lb8 (by omega)]
          rfl
    · cases h
  · rintro ⟨u, hu, a1, hm, a2, a3, a4, a6, rfl⟩
    have a5 : mps < 256 := by simp at hm; omega
    rw [if_pos (by simp [sizes] at hm ⊢; omega), hu]
    simp only [descr_iff, width]
    refine ⟨⟨by decide, by decide, by simp; omega⟩, ?_⟩
    simp only [num]
    rw [lb8 (by omega), lb8 (by omega), lb16 a1, lb8 a2, lb8 a3, lb8 a4, lb8 a5, lb8 a6, lb8 (by omega)]
    rfl

/-- C440: HID 1.11, 6.2.1 with one class descriptor -/
theorem hid_iff (hv : List Char) (country n ty len : Nat) (bs : List Nat) :
    hid hv country n ty len = some bs ↔
    ∃ u, toU16 hv = .ok u ∧ u < 65536 ∧ country < 256 ∧ n < 256 ∧ ty < 256 ∧ len < 65536 ∧
      bs = [9, 0x21, u % 256, u / 256, country, n, ty, len % 256, len / 256] := by
  unfold hid ver
  constructor
  · intro h
    cases hu : toU16 hv with
    | fail => rw [hu] at h; cases h
    | neg => rw [hu] at h; cases h
    | ok u =>
      rw [hu] at h
      simp only [descr_iff, width] at h
      obtain ⟨⟨_, _, h3⟩, rfl⟩ := h
      simp at h3
      obtain ⟨a1, a2, a3, a4, a5⟩ := h3
      refine ⟨u, rfl, a1, a2, a3, a4, a5, ?_⟩
      simp only [num]
      rw [lb8 (by omega), lb8 (by omega), lb16 a1, lb8 a2, lb8 a3, lb8 a4, lb16 a5]
      rfl
  · rintro ⟨u, hu, a1, a2, a3, a4, a5, rfl⟩
    rw [hu]
    simp only [descr_iff, width]
    refine ⟨⟨by decide, by decide, by simp; omega⟩, ?_⟩
    simp only [num]
    rw [lb8 (by omega), lb8 (by omega), lb16 a1, lb8 a2, lb8 a3, lb8 a4, lb16 a5]
    rfl

/-- C440: CDC 1.1, table 26 -/
theorem funHeader_iff (cv : List Char) (bs : List Nat) : funHeader cv = some bs ↔
    ∃ u, toU16 cv = .ok u ∧ u < 65536 ∧ bs = [5, 0x24, 0, u % 256, u / 256] := by
  unfold funHeader ver
  constructor
  · intro h
    cases hu : toU16 cv with
    | fail => rw [hu] at h; cases h
    | neg => rw [hu] at h; cases h
    | ok u =>
      rw [hu] at h
      simp only [descr_iff, width] at h
      obtain ⟨⟨_, _, h3⟩, rfl⟩ := h
      simp at h3
      refine ⟨u, rfl, h3, ?_⟩
      simp only [num]
      rw [lb8 (by omega), lb8 (by omega), lb8 (by omega), lb16 h3]
      rfl
  · rintro ⟨u, hu, a1, rfl⟩
    rw [hu]
    simp only [descr_iff, width]
    refine ⟨⟨by decide, by decide, by simp; omega⟩, ?_⟩
    simp only [num]
    rw [lb8 (by omega), lb8 (by omega), lb8 (by omega), lb16 a1]
    rfl

/-- C440: CDC 1.1, table 27 -/
theorem funCall_iff (itself overData dataIf : Nat) (bs : List Nat) : funCall itself overData dataIf = some bs ↔
    itself < 2 ∧ overData < 2 ∧ dataIf < 256 ∧ bs = [5, 0x24, 1, itself + 2 * overData, dataIf] := by
  unfold funCall
  simp only [descr_iff, width]
  have e : itself + 2 ^ 1 * (overData + 2 ^ 1 * (0 + 2 ^ 6 * (dataIf + 2 ^ 8 * 0))) =
    (itself + 2 * overData) + 2 ^ 8 * (dataIf + 2 ^ 8 * 0) := by omega
  constructor
  · rintro ⟨⟨_, _, h⟩, rfl⟩
    simp at h
    obtain ⟨a1, a2, a3⟩ := h
    refine ⟨by omega, by omega, a3, ?_⟩
    simp only [num]
    rw [lb8 (by omega), lb8 (by omega), lb8 (by omega), e, lb8 (by omega), lb8 a3]
    rfl
  · rintro ⟨a1, a2, a3, rfl⟩
    refine ⟨⟨by decide, by decide, by simp; omega⟩, ?_⟩
    simp only [num]
    rw [lb8 (by omega), lb8 (by omega), lb8 (by omega), e, lb8 (by omega), lb8 a3]
    rfl

/-- C440: CDC 1.1, table 28 -/
theorem funAcm_iff (feature line brk net : Nat) (bs : List Nat) : funAcm feature line brk net = some bs ↔
    feature < 2 ∧ line < 2 ∧ brk < 2 ∧ net < 2 ∧ bs = [4, 0x24, 2, feature + 2 * line + 4 * brk + 8 * net] := by
  unfold funAcm
  simp only [descr_iff, width]
  have e : feature + 2 ^ 1 * (line + 2 ^ 1 * (brk + 2 ^ 1 * (net + 2 ^ 1 * (0 + 2 ^ 4 * 0)))) =
    (feature + 2 * line + 4 * brk + 8 * net) + 2 ^ 8 * 0 := by omega
  constructor
  · rintro ⟨⟨_, _, h⟩, rfl⟩
    simp at h
    refine ⟨by omega, by omega, by omega, by omega, ?_⟩
    simp only [num]
    rw [lb8 (by omega), lb8 (by omega), lb8 (by omega), e, lb8 (by omega)]
    rfl
  · rintro ⟨a1, a2, a3, a4, rfl⟩
    refine ⟨⟨by decide, by decide, by simp; omega⟩, ?_⟩
    simp only [num]
    rw [lb8 (by omega), lb8 (by omega), lb8 (by omega), e, lb8 (by omega)]
    rfl

/-- C440: CDC 1.1, table 50: the rate is little endian -/
theorem lineCoding_iff (rate fmt parity bits : Nat) (bs : List Nat) : lineCoding rate fmt parity bits = some bs ↔
    rate < 2 ^ 32 ∧ fmt < 256 ∧ parity < 256 ∧ bits < 256 ∧
    bs = [rate % 256, rate / 256 % 256, rate / 65536 % 256, rate / 16777216, fmt, parity, bits] := by
  unfold lineCoding
  have e (h : rate < 2 ^ 32) (x : Nat) : rate + 2 ^ 32 * x = rate % 256 + 2 ^ 8 * (rate / 256 % 256 + 2 ^ 8 *
      (rate / 65536 % 256 + 2 ^ 8 * (rate / 16777216 + 2 ^ 8 * x))) := by omega
  constructor
  · intro h
    cases hp : pack [(32, rate), (8, fmt), (8, parity), (8, bits)] with
    | none => rw [hp] at h; cases h
    | some x =>
      rw [hp] at h; cases h
      obtain ⟨h3, rfl⟩ := pack_some hp
      simp at h3
      obtain ⟨a1, a2, a3, a4⟩ := h3
      refine ⟨a1, a2, a3, a4, ?_⟩
      simp only [num]
      rw [e a1, lb8 (by omega), lb8 (by omega), lb8 (by omega), lb8 (by omega), lb8 a2, lb8 a3, lb8 a4]
      rfl
  · rintro ⟨a1, a2, a3, a4, rfl⟩
    rw [pack_ok (by simp; omega)]
    simp only [num, Option.map_some]
    rw [e a1, lb8 (by omega), lb8 (by omega), lb8 (by omega), lb8 (by omega), lb8 a2, lb8 a3, lb8 a4]
    rfl

example : qualifier 2 0 0 ['2', '.', '0'] 64 1 = some [10, 6, 0, 2, 2, 0, 0, 64, 1, 0] ∧
    hid ['1', '.', '1'] 33 1 0x22 52 = some [9, 0x21, 0x10, 1, 33, 1, 0x22, 52, 0] ∧
    funHeader ['1', '.', '1'] = some [5, 0x24, 0, 0x10, 1] ∧ funCall 1 1 1 = some [5, 0x24, 1, 3, 1] ∧
    funAcm 0 1 1 0 = some [4, 0x24, 2, 6] ∧ lineCoding 115200 0 0 8 = some [0, 0xc2, 1, 0, 0, 0, 8] := by decide +kernel

theorem width8 (l : List Nat) : width (l.map fun s => (8, s)) = 8 * l.length := by
  induction l with
  | nil => rfl
  | cons a l ih => simp only [List.map_cons, width, ih, List.length_cons]; omega

theorem width16 (l : List Nat) : width (l.map fun s => (16, s)) = 16 * l.length := by
  induction l with
  | nil => rfl
  | cons a l ih => simp only [List.map_cons, width, ih, List.length_cons]; omega

theorem bytes8 : ∀ (l : List Nat), (∀ s ∈ l, s < 256) → leBytes l.length (num (l.map fun s => (8, s))) = l
  | [], _ => rfl
  | a :: l, h => by
      simp only [List.map_cons, num, List.length_cons]
      rw [lb8 (h a (List.mem_cons_self ..)), bytes8 l fun s hs => h s (List.mem_cons_of_mem _ hs)]

theorem bytes16 : ∀ (l : List Nat), (∀ s ∈ l, s < 65536) →
    leBytes (2 * l.length) (num (l.map fun s => (16, s))) = l.flatMap fun s => [s % 256, s / 256]
  | [], _ => rfl
  | a :: l, h => by
      simp only [List.map_cons, num, List.length_cons, List.flatMap_cons]
      rw [show 2 * (l.length + 1) = 2 * l.length + 2 by omega, lb16 (h a (List.mem_cons_self ..)),
        bytes16 l fun s hs => h s (List.mem_cons_of_mem _ hs)]
      rfl

/-- C440: USB 2.0, table 9-15, for up to 126 languages -/
theorem string0_iff (langs : List Nat) (bs : List Nat) : string0 langs = some bs ↔
    langs.length ≤ 126 ∧ (∀ l ∈ langs, l < 65536) ∧
    bs = (2 + 2 * langs.length) :: 3 :: langs.flatMap fun l => [l % 256, l / 256] := by
  unfold string0
  rw [descr_iff, width16, show (16 + 16 * langs.length) / 8 = 2 * langs.length + 1 + 1 by omega]
  constructor
  · rintro ⟨⟨h1, _, h3⟩, rfl⟩
    have h3' : ∀ l ∈ langs, l < 65536 := fun l hl => h3 (16, l) (List.mem_map.2 ⟨l, hl, rfl⟩)
    refine ⟨by omega, h3', ?_⟩
    rw [num, num, lb8 h1, lb8 (by decide : 3 < 256), bytes16 langs h3', show 2 * langs.length + 1 + 1 = 2 + 2 * langs.length by omega]
  · rintro ⟨h1, h3, rfl⟩
    refine ⟨⟨by omega, by decide, fun f hf => ?_⟩, ?_⟩
    · obtain ⟨l, hl, rfl⟩ := List.mem_map.1 hf
      exact h3 l hl
    · rw [num, num, lb8 (by omega), lb8 (by decide : 3 < 256), bytes16 langs h3, show 2 * langs.length + 1 + 1 = 2 + 2 * langs.length by omega]

/-- C440: CDC 1.1, table 33, for every number of slave interfaces which fits the length -/
theorem union_iff (master : Nat) (slaves bs : List Nat) : funUnion master slaves = some bs ↔
    slaves ≠ [] ∧ slaves.length ≤ 251 ∧ master < 256 ∧ (∀ s ∈ slaves, s < 256) ∧
    bs = (4 + slaves.length) :: 0x24 :: 6 :: master :: slaves := by
  unfold funUnion
  by_cases h0 : slaves ≠ [] ∧ slaves.length < 256
  · rw [if_pos h0, descr_iff]
    simp only [width]
    rw [width8, show (16 + (8 + (8 + 8 * slaves.length))) / 8 = slaves.length + 1 + 1 + 1 + 1 by omega]
    constructor
    · rintro ⟨⟨h1, _, h3⟩, rfl⟩
      have h3' : ∀ l ∈ slaves, l < 256 := fun l hl =>
        h3 (8, l) (List.mem_cons_of_mem _ (List.mem_cons_of_mem _ (List.mem_map.2 ⟨l, hl, rfl⟩)))
      have h4 : master < 256 := h3 (8, master) (List.mem_cons_of_mem _ (List.mem_cons_self ..))
      refine ⟨h0.1, by omega, h4, h3', ?_⟩
      rw [num, num, num, num, lb8 h1, lb8 (by decide : 0x24 < 256), lb8 (by decide : 6 < 256), lb8 h4, bytes8 slaves h3',
        show slaves.length + 1 + 1 + 1 + 1 = 4 + slaves.length by omega]
    · rintro ⟨_, h1, h4, h3, rfl⟩
      refine ⟨⟨by omega, by decide, fun f hf => ?_⟩, ?_⟩
      · rcases List.mem_cons.1 hf with rfl | hf
        · decide
        · rcases List.mem_cons.1 hf with rfl | hf
          · exact h4
          · obtain ⟨l, hl, rfl⟩ := List.mem_map.1 hf
            exact h3 l hl
      · rw [num, num, num, num, lb8 (by omega), lb8 (by decide : 0x24 < 256), lb8 (by decide : 6 < 256), lb8 h4, bytes8 slaves h3,
          show slaves.length + 1 + 1 + 1 + 1 = 4 + slaves.length by omega]
  · rw [if_neg h0]
    constructor
    · intro h; cases h
    · rintro ⟨h, h', _⟩; exact absurd ⟨h, by omega⟩ h0

example : funUnion 0 [1] = some [5, 0x24, 6, 0, 1] ∧ string0 [0x0409] = some [4, 3, 9, 4] := by decide +kernel

/-- C440: the length in the first byte and the type in the second one are right for every descriptor of
any fields of whole bytes in total. -/
theorem descr_header (ty : Nat) (body : List (Nat × Nat)) (bs : List Nat) (h : descr ty body = some bs) :
    bs.length = (16 + width body) / 8 ∧ bs[0]? = some bs.length ∧ bs[1]? = some ty := by
  obtain ⟨⟨h1, h2, _⟩, rfl⟩ := (descr_iff ty body bs).1 h
  rw [leBytes_length]
  obtain ⟨k, hk⟩ : ∃ k, (16 + width body) / 8 = k + 1 + 1 := ⟨(16 + width body) / 8 - 2, by omega⟩
  refine ⟨rfl, ?_, ?_⟩
  · rw [hk, num, lb8 (by omega)]; rfl
  · rw [hk, num, lb8 (by omega), num, lb8 h2]; rfl

/-! ## C441: sizes of packets -/

/-- C441, full statement: the descriptors which are made announce only packet sizes of USB 2.0: 8, 16, 32
or 64 for endpoint 0 and 8 to 512 for bulk endpoints of the virtual COM port. -/
def SizeFull : Prop :=
  (∀ cls sub proto uv mps idV idP dv iM iP iS nC bs,
    device cls sub proto uv mps idV idP dv iM iP iS nC = some bs → bs[7]? ∈ [some 8, some 16, some 32, some 64]) ∧
  (∀ uv mps man prod dv ds, vcp uv mps man prod dv = some ds → mps ∈ [8, 16, 32, 64, 128, 256, 512])

/-- C441: 128 bytes are accepted for endpoint 0 and any size from 64 bytes for bulk endpoints. -/
theorem size_wrong : (∃ bs, device 2 0 0 ['2', '.', '0'] 128 0 0 ['0', '.', '0'] 0 0 0 1 = some bs ∧ bs[7]? = some 128) ∧
    (vcp ['2', '.', '0'] 100 none none ['0', '.', '0']).isSome = true := by
  refine ⟨⟨_, rfl, by decide +kernel⟩, by decide +kernel⟩

theorem size_violated : ¬ SizeFull := by
  intro h
  obtain ⟨ds, e⟩ := Option.isSome_iff_exists.1 size_wrong.2
  have := h.2 _ _ _ _ _ _ e
  revert this; decide

/-- C441: endpoint 0 of the virtual COM port has a size of USB 2.0; the size of the others is one of them
or above 64. -/
theorem size_partial (uv : List Char) (mps : Nat) (man prod : Option (List Nat)) (dv : List Char) (ds : List (List Nat))
    (h : vcp uv mps man prod dv = some ds) :
    (mps ∈ [8, 16, 32] ∨ 64 ≤ mps) ∧ mps < 65536 ∧ ∃ d, ds[0]? = some d ∧ d[7]? = some (min 64 mps) ∧
      min 64 mps ∈ [8, 16, 32, 64] := by
  unfold vcp at h
  cases e1 : sequence (vcpConf mps) with
  | none => rw [e1] at h; cases h
  | some conf =>
    rw [e1, show maxPower 500 = some 250 by decide] at h
    simp only at h
    split at h
    · have hm : mps < 65536 := by
        by_cases hm : mps < 65536
        · exact hm
        · have : endpoint 0 1 2 0 0 mps 0 = none := by
            cases e : endpoint 0 1 2 0 0 mps 0 with
            | none => rfl
            | some b => have := ((endpoint_iff _ _ _ _ _ _ _ _).1 e).2.2.2.2.2.2.1; omega
          have e1' := e1
          unfold vcpConf at e1'
          rw [this] at e1'
          exfalso
          revert e1'
          rw [show interface 0 0 1 0x02 2 1 0 = some [9, 4, 0, 0, 1, 2, 2, 1, 0] by decide +kernel,
            show funHeader ['1', '.', '1'] = some [5, 0x24, 0, 0x10, 1] by decide +kernel,
            show funCall 0 0 1 = some [5, 0x24, 1, 0, 1] by decide +kernel,
            show funAcm 0 0 0 0 = some [4, 0x24, 2, 0] by decide +kernel,
            show funUnion 0 [1] = some [5, 0x24, 6, 0, 1] by decide +kernel,
            show endpoint 1 2 3 0 0 8 10 = some [7, 5, 0x82, 3, 8, 0, 10] by decide +kernel,
            show interface 1 0 2 0x0a 0 0 0 = some [9, 4, 1, 0, 2, 0x0a, 0, 0, 0] by decide +kernel]
          simp [sequence]
      cases e2 : device 0x02 0 0 uv (min 64 mps) 0 0 dv (vcpStrings man prod).2.1 (vcpStrings man prod).2.2 0 1 with
      | none => rw [e2] at h; cases h
      | some d =>
        rw [e2] at h
        simp only [List.cons_append] at h
        rw [sequence] at h
        obtain ⟨u, dd, _, _, _, _, hs, _, _, _, _, _, _, _, _, _, hb⟩ := (device_iff _ _ _ _ _ _ _ _ _ _ _ _ _).1 e2
        simp only [Option.map_eq_some_iff] at h
        obtain ⟨r, _, rfl⟩ := h
        simp only [List.mem_cons, List.not_mem_nil, or_false] at hs ⊢
        refine ⟨by omega, hm, d, rfl, by rw [hb]; rfl, by omega⟩
    · cases h

example : (vcp ['2', '.', '0'] 512 none (some [65]) ['0', '.', '0']).isSome = true := by decide +kernel

/-! ## C442: power -/

/-- C442, full statement: the current announced (units of 2 mA) is enough. -/
def PowerFull : Prop := ∀ mA v, maxPower mA = some v → mA ≤ 2 * v

/-- C442: an odd number of mA is rounded down. -/
theorem power_violated : ¬ PowerFull := by
  intro h
  have := h 101 50 (by decide)
  omega

/-- C442: exact for even numbers, at most 1 mA less for odd ones; accepted up to 511 mA. -/
theorem power_partial (mA : Nat) : (maxPower mA = none ↔ 512 ≤ mA) ∧
    ∀ v, maxPower mA = some v → v < 256 ∧ 2 * v ≤ mA ∧ mA ≤ 2 * v + 1 ∧ (mA % 2 = 0 → 2 * v = mA) := by
  unfold maxPower
  constructor
  · split <;> simp <;> omega
  · intro v h
    split at h
    · cases h; omega
    · cases h

example : maxPower 500 = some 250 := by decide

/-! ## C443: requests -/

/-- C443, full statement: the device finds the type and the index of the request in the bytes of `wValue`. -/
def ReqFull : Prop := ∀ ty i w, 0 < ty → ty < 256 → getDescr ty i = some w → w / 256 = ty ∧ w % 256 = i

/-- C443: an index of more than 8 bits changes the type: string 256 is asked for as string 0, device
descriptor 512 as string 0. -/
theorem req_wrong : getDescr 3 256 = getDescr 3 0 ∧ getDescr 1 512 = getDescr 3 0 ∧ getDescr 3 0 = some 0x300 := by
  decide

theorem req_violated : ¬ ReqFull := by
  intro h
  have := h 3 256 0x300 (by decide) (by decide) (by decide)
  omega

/-- C443: right for every index below 256. -/
theorem req_partial (ty i : Nat) (ht : ty < 256) (hi : i < 256) :
    ∃ w, getDescr ty i = some w ∧ w / 256 = ty ∧ w % 256 = i := by
  have e : ty <<< 8 ||| i = ty * 256 + i := by
    rw [Nat.shiftLeft_eq, Nat.mul_comm, ← Nat.two_pow_add_eq_or_of_lt (i := 8) (by omega) ty]
  unfold getDescr
  rw [e, if_pos (by omega)]
  exact ⟨_, rfl, by omega, by omega⟩

example : getDescr 3 2 = some 0x302 := by decide

end Verif.UsbDescr
