import Verif.UsbVcpRom
import Verif.UsbEp0Props
import Verif.UsbBundleProps
/-!
# C432, C433: what the host reads from the descriptor ROM
-/
namespace Verif.UsbVcpRom
open Verif UsbBundle UsbEp0

/-- bytes of the response which were taken by the host -/
def bytesOf (ws : List Word) : List (Option Nat) := ws.map fun w => w.1

/-- the class request GET_LINE_CODING -/
structure LineReq (p : List Nat) : Prop where
  cls : byte p 0 / 32 % 4 = 1
  dir : fromDev p = true
  req : byte p 1 = 0x21
  len : 0 < length p

/-- C432: the host gets the line coding -/
def lineSpec : Prop :=
  ∀ (ds : List Descr) (lc : List Nat) (maxp total : Nat) (junk : Nat → Nat) (y : Sys) (x0 x1 : In) (p : List Nat) (xs : List In),
    Size (vcpCfg ds lc maxp total junk) → lc.length = 7 → ((compileRom ds).1 ++ lc).length ≤ 256 →
    ReqAt (vcpCfg ds lc maxp total junk) y x0 p → LineReq p → (out (vcpCfg ds lc maxp total junk) y.1).stall = false →
    Calm x1 → (∀ x ∈ xs, Calm x) → 7 ≤ rdys xs →
    bytesOf (sent (vcpCfg ds lc maxp total junk) (runS (vcpCfg ds lc maxp total junk) y.1 [x0, x1]) xs) = lc.map some

theorem line_start (c : Cfg) (a n : Nat) (hlc : c.lineCoding = some (a, n)) (y : Sys) (x0 x1 : In) (p : List Nat) (h : ReqAt c y x0 p)
    (hp : LineReq p) (hst : (out c y.1).stall = false) (ha : a < 256) (h1 : Calm x1) : GetAt c a n 0 (runS c y.1 [x0, x1]) := by
  obtain ⟨e1, e2, e3, e4, _⟩ := at_setup h
  have hst' : y.1.stall = false := hst
  rw [hst'] at e4
  show GetAt c a n 0 (next c (next c y.1 x0) x1)
  generalize next c y.1 x0 = s at e1 e2 e3 e4
  have ht : rType s.req = 1 := by rw [e2.ty, hp.cls]
  have hl : length p ≠ 0 := by have := hp.len; omega
  refine ⟨?_, ?_, ?_, ?_, ?_⟩ <;>
    simp [next, h1.1, nextCore, e1, decode, ht, hlc, e2.b1, hp.req, e2.get, hp.dir, e2.len, hl, e4, Nat.mod_eq_of_lt ha]

theorem getElem?_slice (l : List Nat) (a n i : Nat) (h : i < n) : ((l.drop a).take n)[i]? = l[a + i]? := by
  rw [List.getElem?_take_of_lt h, List.getElem?_drop]

/-- bytes of a part of the ROM which is not over its end -/
theorem words_slice (c : Cfg) (rom : List Nat) (junk : Nat → Nat) (hr : c.rom = romAt rom junk) (a n : Nat) (h : a + n ≤ rom.length)
    (h2 : a + n ≤ 256) : bytesOf ((List.range n).map (descrWord c a n)) = ((rom.drop a).take n).map some := by
  apply List.ext_getElem?
  intro i
  unfold bytesOf
  by_cases hi : i < n
  · rw [List.getElem?_map, List.getElem?_map, List.getElem?_map, getElem?_slice _ _ _ _ hi, List.getElem?_range hi]
    simp only [Option.map_some, descrWord, hr, romAt]
    rw [Nat.mod_eq_of_lt (by omega), List.getElem?_eq_getElem (by omega)]
    simp [List.getD_eq_getElem?_getD, List.getElem?_eq_getElem (show a + i < rom.length by omega)]
  · rw [List.getElem?_eq_none (by simp; omega), List.getElem?_eq_none (by simp; omega)]

/-- C432: the response is the part of the ROM at the address `number of descriptors` -/
theorem line_response (ds : List Descr) (lc : List Nat) (maxp total : Nat) (junk : Nat → Nat) (y : Sys) (x0 x1 : In) (p : List Nat)
    (xs : List In) (hs : Size (vcpCfg ds lc maxp total junk)) (hlc : lc.length = 7)
    (hn : ds.length + 7 ≤ 256) (hr : ds.length ≤ (compileRom ds).1.length)
    (h : ReqAt (vcpCfg ds lc maxp total junk) y x0 p) (hp : LineReq p) (hst : (out (vcpCfg ds lc maxp total junk) y.1).stall = false)
    (h1 : Calm x1) (hx : ∀ x ∈ xs, Calm x) (hrd : 7 ≤ rdys xs) :
    bytesOf (sent (vcpCfg ds lc maxp total junk) (runS (vcpCfg ds lc maxp total junk) y.1 [x0, x1]) xs) =
      ((((compileRom ds).1 ++ lc).drop ds.length).take 7).map some := by
  have hg := line_start (vcpCfg ds lc maxp total junk) ds.length 7 (by simp [vcpCfg, hlc]) y x0 x1 p h hp hst (by omega) h1
  have hm : 7 % (vcpCfg ds lc maxp total junk).maxp ≠ 0 := by
    simp only [Size, List.mem_cons, List.not_mem_nil, or_false] at hs
    rcases hs with h | h | h | h | h | h | h <;> rw [h] <;> decide
  have := (get_core _ hs ds.length 7 (by omega) hm xs _ 0 hg (by omega) hx).1
  rw [this, show min (rdys xs) (7 - 0) = 7 by omega, ← List.range_eq_range']
  exact words_slice _ _ junk rfl _ _ (by rw [List.length_append]; omega) (by omega)

theorem rom_len (ds : List Descr) (h : ∀ d ∈ ds, 2 ≤ d.bytes.length) : 2 * ds.length ≤ (compileRom ds).1.length := by
  rw [(rom_lookup ds 0).1]
  induction ds with
  | nil => simp
  | cons d ds ih =>
    have h1 := h d (by simp)
    have h2 := ih (fun e he => h e (by simp [he]))
    simp only [List.flatMap_cons, List.length_append, List.length_cons]
    omega

/-- C432: for each device with at least 7 descriptors (each with its header of 2 bytes) the host gets bytes of the descriptors
instead of the line coding, whatever the line coding is -/
theorem line_wrong (ds : List Descr) (lc : List Nat) (maxp total : Nat) (junk : Nat → Nat) (y : Sys) (x0 x1 : In) (p : List Nat)
    (xs : List In) (hs : Size (vcpCfg ds lc maxp total junk)) (hlc : lc.length = 7)
    (hn : ds.length + 7 ≤ 256) (hd : 7 ≤ ds.length) (hb : ∀ d ∈ ds, 2 ≤ d.bytes.length)
    (h : ReqAt (vcpCfg ds lc maxp total junk) y x0 p) (hp : LineReq p) (hst : (out (vcpCfg ds lc maxp total junk) y.1).stall = false)
    (h1 : Calm x1) (hx : ∀ x ∈ xs, Calm x) (hrd : 7 ≤ rdys xs) :
    bytesOf (sent (vcpCfg ds lc maxp total junk) (runS (vcpCfg ds lc maxp total junk) y.1 [x0, x1]) xs) =
      (((ds.flatMap Descr.bytes).drop ds.length).take 7).map some := by
  have hl := rom_len ds hb
  rw [line_response ds lc maxp total junk y x0 x1 p xs hs hlc hn (by omega) h hp hst h1 hx hrd, ← (rom_lookup ds 0).1,
    List.drop_append_of_le_length (by omega), List.take_append_of_le_length (by rw [List.length_drop]; omega)]

/-- C432: right if by accident the address is right: the sizes of descriptors are 1 (none is so small), or there is no descriptor;
missing: all real devices -/
theorem line_partial (ds : List Descr) (lc : List Nat) (maxp total : Nat) (junk : Nat → Nat) (y : Sys) (x0 x1 : In) (p : List Nat)
    (xs : List In) (hs : Size (vcpCfg ds lc maxp total junk)) (hlc : lc.length = 7) (hn : ds.length + 7 ≤ 256)
    (hd : ds.length = (ds.flatMap Descr.bytes).length)
    (h : ReqAt (vcpCfg ds lc maxp total junk) y x0 p) (hp : LineReq p) (hst : (out (vcpCfg ds lc maxp total junk) y.1).stall = false)
    (h1 : Calm x1) (hx : ∀ x ∈ xs, Calm x) (hrd : 7 ≤ rdys xs) :
    bytesOf (sent (vcpCfg ds lc maxp total junk) (runS (vcpCfg ds lc maxp total junk) y.1 [x0, x1]) xs) = lc.map some := by
  have hr : (compileRom ds).1 = ds.flatMap Descr.bytes := (rom_lookup ds 0).1
  rw [line_response ds lc maxp total junk y x0 x1 p xs hs hlc hn (by rw [hr, ← hd]; exact Nat.le_refl _) h hp hst h1 hx hrd, hr,
    List.drop_append, hd, List.drop_length, List.nil_append, Nat.sub_self, List.drop_zero, List.take_of_length_le (by omega)]

/-! ## example -/

/-- descriptors of the size of those of `get_default_usb_cdc_vcp_descriptors` (cdc.py:241-347), bytes after headers are 0 -/
def dsEx : List Descr :=
  [(1, 18), (2, 9), (4, 9), (0x24, 5), (0x24, 5), (0x24, 4), (0x24, 5), (5, 7), (4, 9), (5, 7), (5, 7), (3, 4), (3, 24)].map
    fun d => ⟨d.1, d.2 :: d.1 :: List.replicate (d.2 - 2) 0, .other⟩

def cVcp : Cfg := vcpCfg dsEx lineCoding 64 67 fun _ => 0

/-- GET_LINE_CODING with 7 bytes -/
def getLine : List Nat := [0xA1, 0x21, 0, 0, 0, 0, 7, 0]

theorem reqAt_c (c : Cfg) (p : List Nat) (h : p.length = 8) : ReqAt c (run c start0 (req7 p)) (rxB (byte p 7) true) p := by
  match p, h with
  | [a, b, c', d, e, f, g, i], _ =>
    refine ⟨⟨0, 0, fun _ => 0, _, ?_, rfl⟩, rfl, rfl, rfl, rfl, rfl, rfl⟩
    refine ⟨⟨?_, ?_⟩, ⟨?_, ?_⟩, ⟨?_, ?_⟩, ⟨?_, ?_⟩, ⟨?_, ?_⟩, ⟨?_, ?_⟩, ⟨?_, ?_⟩, trivial⟩ <;>
      first
      | exact fun _ => rfl
      | exact fun _ _ => ⟨fun h => absurd h Bool.false_ne_true, fun h => absurd h (by simp [start, sys, obsNext, rxB, calm])⟩

theorem calm_txR (n : Nat) : ∀ x ∈ List.replicate n txR, Calm x := by
  intro x hx
  rw [(List.mem_replicate.1 hx).2]
  exact ⟨rfl, rfl⟩

theorem getLine_ok : LineReq getLine := ⟨by decide, by decide, by decide, by decide⟩

theorem line_violated : ¬ lineSpec := by
  intro h
  have := h dsEx lineCoding 64 67 (fun _ => 0) _ _ calm getLine (List.replicate 9 txR) (by simp [Size, vcpCfg, devCfg]) rfl (by decide +kernel)
    (reqAt_c _ getLine rfl) getLine_ok rfl ⟨rfl, rfl⟩ (calm_txR 9) (by decide)
  rw [line_wrong dsEx lineCoding 64 67 (fun _ => 0) _ _ calm getLine (List.replicate 9 txR) (by simp [Size, vcpCfg, devCfg]) rfl (by decide)
    (by decide) (by decide +kernel) (reqAt_c _ getLine rfl) getLine_ok rfl ⟨rfl, rfl⟩ (calm_txR 9) (by decide)] at this
  exact absurd this (by decide +kernel)

example : ∃ d : List Descr, d.length + 7 ≤ 256 ∧ d.length = (d.flatMap Descr.bytes).length ∧ d ≠ [] :=
  ⟨[⟨1, [5], .other⟩], by decide⟩

/-! ## C433 -/

/-- GET_DESCRIPTOR of the string `k` -/
structure StrReq (p : List Nat) (k : Nat) : Prop where
  std : std p = true
  req : byte p 1 = 6
  dir : fromDev p = true
  typ : byte p 3 = 3
  idx : byte p 2 = k
  len : 0 < length p

/-- C433: the host which asks for the string `k` gets the string descriptor `k` of the bundle -/
def strSpec : Prop :=
  ∀ (ds : List Descr) (maxp total : Nat) (junk : Nat → Nat) (y : Sys) (x0 x1 : In) (p : List Nat) (k : Nat) (d : Descr) (xs : List In),
    Size (devCfg ds maxp total junk) → ReqAt (devCfg ds maxp total junk) y x0 p → StrReq p k →
    (ds.filter fun d => d.ty = 3)[k]? = some d →
    (∀ t a, a ∈ (compileRom ds).2 t → a.1 < 256) → 0 < d.bytes.length → d.bytes.length < 256 → d.bytes.length % maxp ≠ 0 →
    Calm x1 → (∀ x ∈ xs, Calm x) → d.bytes.length ≤ rdys xs →
    bytesOf (sent (devCfg ds maxp total junk) (runS (devCfg ds maxp total junk) y.1 [x0, x1]) xs) = d.bytes.map some

theorem table_inv (ds : List Descr) (t k : Nat) (d : Descr) (h : (ds.filter fun d => d.ty = t)[k]? = some d) :
    ∃ a, ((compileRom ds).2 t)[k]? = some (a, d.bytes.length) ∧ ((compileRom ds).1.drop a).take d.bytes.length = d.bytes := by
  obtain ⟨_, h2, h3⟩ := rom_lookup ds t
  have hl : k < ((compileRom ds).2 t).length := by
    have := congrArg List.length h2
    simp only [List.length_map] at this
    rw [this]
    exact (List.getElem?_eq_some_iff.1 h).1
  obtain ⟨d', e1, e2, e3⟩ := h3 k _ (List.getElem?_eq_getElem hl)
  rw [h] at e1
  obtain rfl := Option.some.inj e1
  refine ⟨((compileRom ds).2 t)[k].1, ?_, ?_⟩
  · rw [List.getElem?_eq_getElem hl, ← e2]
  · rw [← e2]; exact e3

/-- C433: true if the ROM has at most 256 bytes (`descr_addr` is `uint8_t`); missing: descriptors over the address 255 -/
theorem str_partial (ds : List Descr) (maxp total : Nat) (junk : Nat → Nat) (y : Sys) (x0 x1 : In) (p : List Nat) (k : Nat) (d : Descr)
    (xs : List In) (hs : Size (devCfg ds maxp total junk)) (h : ReqAt (devCfg ds maxp total junk) y x0 p) (hp : StrReq p k)
    (hd : (ds.filter fun d => d.ty = 3)[k]? = some d) (hl : (ds.flatMap Descr.bytes).length ≤ 256)
    (hn : 0 < d.bytes.length) (hm : d.bytes.length % maxp ≠ 0)
    (h1 : Calm x1) (hx : ∀ x ∈ xs, Calm x) (hrd : d.bytes.length ≤ rdys xs) :
    bytesOf (sent (devCfg ds maxp total junk) (runS (devCfg ds maxp total junk) y.1 [x0, x1]) xs) = d.bytes.map some := by
  obtain ⟨a, e1, e2⟩ := table_inv ds 3 k d hd
  rw [← (rom_lookup ds 0).1] at hl
  have ha : a + d.bytes.length ≤ (compileRom ds).1.length := by
    have := congrArg List.length e2
    rw [List.length_take, List.length_drop] at this
    omega
  rw [string_ignores_length _ y x0 x1 p a d.bytes.length xs hs h hp.std hp.req hp.dir hp.typ (by rw [hp.idx]; exact e1) hp.len (by omega)
    ⟨hn, by omega, hm⟩ h1 hx, Nat.min_eq_right hrd, words_slice _ _ junk rfl _ _ ha (by omega), e2]

def getStr : List Nat := [0x80, 6, 0, 3, 0, 0, 255, 0]

example : StrReq getStr 0 ∧ Size (devCfg dsEx 64 67 fun _ => 0) ∧
    ReqAt (devCfg dsEx 64 67 fun _ => 0) (run (devCfg dsEx 64 67 fun _ => 0) start0 (req7 getStr)) (rxB (byte getStr 7) true) getStr ∧
    (dsEx.filter fun d => d.ty = 3)[0]? = some ⟨3, [4, 3, 0, 0], .other⟩ ∧ (dsEx.flatMap Descr.bytes).length ≤ 256 :=
  ⟨⟨rfl, rfl, rfl, rfl, rfl, by decide⟩, by simp [Size, devCfg], reqAt_c _ getStr rfl, by decide +kernel, by decide +kernel⟩

/-- a string which ends after the address 255 -/
def longD : Descr := ⟨1, 254 :: 1 :: List.replicate 252 7, .other⟩

theorem longD_len : longD.bytes.length = 254 := by decide +kernel

def dsLong : List Descr := [longD, ⟨3, [4, 3, 9, 4], .other⟩]

/-- C433: the address wraps, the end of the string is read from the begin of the ROM -/
theorem str_violated : ¬ strSpec := by
  intro h
  have := h dsLong 64 67 (fun _ => 0) _ _ calm getStr 0 ⟨3, [4, 3, 9, 4], .other⟩ (List.replicate 5 txR) (by simp [Size, devCfg])
    (reqAt_c _ getStr rfl) ⟨rfl, rfl, rfl, rfl, rfl, by decide⟩ (by decide +kernel)
    (by
      intro t a ha
      rw [show compileRom dsLong = compileFrom dsLong [] fun _ => [] from rfl, (compileFrom_spec dsLong [] fun _ => []).2 t] at ha
      simp only [List.nil_append, dsLong, places, List.append_nil, List.mem_append, longD_len, List.length_nil] at ha
      rcases ha with ha | ha
      · split at ha
        · rw [List.mem_singleton.1 ha]; decide
        · exact absurd ha List.not_mem_nil
      · split at ha
        · rw [List.mem_singleton.1 ha]; decide
        · exact absurd ha List.not_mem_nil)
    (by decide) (by decide) (by decide) ⟨rfl, rfl⟩ (calm_txR 5) (by decide)
  exact absurd this (by decide +kernel)

end Verif.UsbVcpRom
