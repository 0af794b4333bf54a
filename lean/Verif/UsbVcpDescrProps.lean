import Verif.UsbDescrProps
import Verif.UsbVcpRom
/-!
# Properties of the descriptors of the virtual COM port
-/
namespace Verif.UsbDescr
open Verif.UsbVer

/-! The host's view of a list of descriptors (USB 2.0, 9.4.3 and 9.6). -/

/-- the host cuts the bytes by `bLength`; `none` if a length is below 2 or does not fit -/
def cut : Nat → List Nat → Option (List (List Nat))
  | _, [] => some []
  | 0, _ => none
  | f + 1, b :: bs =>
    if 2 ≤ b ∧ b ≤ (b :: bs).length then (cut f ((b :: bs).drop b)).map ((b :: bs).take b :: ·) else none

/-- number of endpoint descriptors up to the next interface descriptor -/
def epsAfter : List (List Nat) → Nat
  | [] => 0
  | d :: r => if d[1]? = some 4 then 0 else (if d[1]? = some 5 then 1 else 0) + epsAfter r

/-- `bNumEndpoints` of every interface is the number of its endpoint descriptors -/
def IfOk : List (List Nat) → Prop
  | [] => True
  | d :: r => (d[1]? = some 4 → d[4]? = some (epsAfter r)) ∧ IfOk r

def ofType (t : Nat) (ds : List (List Nat)) : List (List Nat) := ds.filter fun d => d[1]? = some t

/-- the nine descriptors of the configuration -/
def body (mps : Nat) : List (List Nat) :=
  [[9, 4, 0, 0, 1, 2, 2, 1, 0], [5, 0x24, 0, 0x10, 1], [5, 0x24, 1, 0, 1], [4, 0x24, 2, 0], [5, 0x24, 6, 0, 1],
   [7, 5, 0x82, 3, 8, 0, 10],
   [9, 4, 1, 0, 2, 0x0a, 0, 0, 0], [7, 5, 1, 2, mps % 256, mps / 256, 0], [7, 5, 0x81, 2, mps % 256, mps / 256, 0]]

theorem seq_conf (mps : Nat) (h : mps < 65536) : sequence (vcpConf mps) = some (body mps) := by
  unfold vcpConf
  rw [show interface 0 0 1 0x02 2 1 0 = some [9, 4, 0, 0, 1, 2, 2, 1, 0] by decide +kernel,
    show funHeader ['1', '.', '1'] = some [5, 0x24, 0, 0x10, 1] by decide +kernel,
    show funCall 0 0 1 = some [5, 0x24, 1, 0, 1] by decide +kernel,
    show funAcm 0 0 0 0 = some [4, 0x24, 2, 0] by decide +kernel,
    show funUnion 0 [1] = some [5, 0x24, 6, 0, 1] by decide +kernel,
    show endpoint 1 2 3 0 0 8 10 = some [7, 5, 0x82, 3, 8, 0, 10] by decide +kernel,
    show interface 1 0 2 0x0a 0 0 0 = some [9, 4, 1, 0, 2, 0x0a, 0, 0, 0] by decide +kernel,
    (endpoint_iff 0 1 2 0 0 mps 0 [7, 5, 1, 2, mps % 256, mps / 256, 0]).2 (by simp; omega),
    (endpoint_iff 1 1 2 0 0 mps 0 [7, 5, 0x81, 2, mps % 256, mps / 256, 0]).2 (by simp; omega)]
  rfl

theorem seq_append : ∀ (a b : List (Option (List Nat))) (l : List (List Nat)), sequence (a ++ b) = some l →
    ∃ la lb, sequence a = some la ∧ sequence b = some lb ∧ l = la ++ lb
  | [], b, l, h => ⟨[], l, rfl, h, rfl⟩
  | none :: a, b, l, h => by rw [List.cons_append, sequence] at h; cases h
  | some d :: a, b, l, h => by
      rw [List.cons_append, sequence] at h
      obtain ⟨r, hr, rfl⟩ := Option.map_eq_some_iff.1 h
      obtain ⟨la, lb, h1, h2, rfl⟩ := seq_append a b r hr
      exact ⟨d :: la, lb, by rw [sequence, h1]; rfl, h2, rfl⟩

/-- a well formed string descriptor -/
def StrD (d : List Nat) : Prop := d[0]? = some d.length ∧ d[1]? = some 3 ∧ 2 ≤ d.length

theorem strD_string {s d : List Nat} (h : UsbBundle.stringDescr s = some d) : StrD d := by
  unfold UsbBundle.stringDescr at h
  simp only at h
  split at h
  · cases h
    refine ⟨?_, rfl, ?_⟩
    · simp only [List.length_cons, List.getElem?_cons_zero]; congr 1; omega
    · simp only [List.length_cons]; omega
  · cases h

/-- what the strings are -/
theorem strings_spec (man prod : Option (List Nat)) (st : List (List Nat))
    (h : sequence (vcpStrings man prod).1 = some st) :
    (∀ d ∈ st, StrD d) ∧
    (match man with
      | none => (vcpStrings man prod).2.1 = 0
      | some s => 0 < (vcpStrings man prod).2.1 ∧ st[(vcpStrings man prod).2.1]? = UsbBundle.stringDescr s) ∧
    (match prod with
      | none => (vcpStrings man prod).2.2 = 0
      | some s => 0 < (vcpStrings man prod).2.2 ∧ st[(vcpStrings man prod).2.2]? = UsbBundle.stringDescr s) := by
  have h0 : string0 [0x0409] = some [4, 3, 9, 4] := by decide +kernel
  have g0 : StrD [4, 3, 9, 4] := ⟨rfl, rfl, by decide⟩
  cases man with
  | none =>
    cases prod with
    | none =>
      simp only [vcpStrings, h0, sequence] at h
      cases h
      exact ⟨by simpa using g0, rfl, rfl⟩
    | some p =>
      cases e : UsbBundle.stringDescr p with
      | none => simp [vcpStrings, h0, sequence, e] at h
      | some dp =>
        simp only [vcpStrings, h0, e, List.cons_append, List.nil_append, sequence] at h
        cases h
        refine ⟨?_, rfl, Nat.one_pos, ?_⟩
        · intro d hd
          simp at hd
          rcases hd with rfl | rfl
          · exact g0
          · exact strD_string e
        · rw [e]; rfl
  | some m =>
    cases e' : UsbBundle.stringDescr m with
    | none => cases prod <;> simp [vcpStrings, h0, sequence, e'] at h
    | some dm =>
      cases prod with
      | none =>
        simp only [vcpStrings, h0, e', List.cons_append, List.nil_append, sequence] at h
        cases h
        refine ⟨?_, ⟨Nat.one_pos, ?_⟩, rfl⟩
        · intro d hd
          simp at hd
          rcases hd with rfl | rfl
          · exact g0
          · exact strD_string e'
        · rw [e']; rfl
      | some p =>
        cases e : UsbBundle.stringDescr p with
        | none => simp [vcpStrings, h0, sequence, e, e'] at h
        | some dp =>
          simp only [vcpStrings, h0, e, e', List.cons_append, List.nil_append, sequence] at h
          cases h
          refine ⟨?_, ⟨Nat.one_pos, ?_⟩, ⟨(by decide : 0 < 2), ?_⟩⟩
          · intro d hd
            simp at hd
            rcases hd with rfl | rfl | rfl
            · exact g0
            · exact strD_string e'
            · exact strD_string e
          · rw [e']; rfl
          · rw [e]; rfl

theorem vcp_shape (uv : List Char) (mps : Nat) (man prod : Option (List Nat)) (dv : List Char) (ds : List (List Nat))
    (h : vcp uv mps man prod dv = some ds) :
    ∃ dev st, ds = dev :: [9, 2, 67, 0, 2, 1, 0, 0x80, 250] :: body mps ++ st ∧
      device 0x02 0 0 uv (min 64 mps) 0 0 dv (vcpStrings man prod).2.1 (vcpStrings man prod).2.2 0 1 = some dev ∧
      sequence (vcpStrings man prod).1 = some st := by
  have hm := (size_partial uv mps man prod dv ds h).2.1
  unfold vcp at h
  rw [seq_conf mps hm, show maxPower 500 = some 250 by decide] at h
  simp only at h
  rw [show 9 + ((body mps).map List.length).sum = 67 from rfl, if_pos rfl,
    show config 67 2 1 0 0 0 250 = some [9, 2, 67, 0, 2, 1, 0, 0x80, 250] by decide +kernel] at h
  cases e2 : device 0x02 0 0 uv (min 64 mps) 0 0 dv (vcpStrings man prod).2.1 (vcpStrings man prod).2.2 0 1 with
  | none => rw [e2] at h; cases h
  | some d =>
    rw [e2] at h
    obtain ⟨la, st, h1, h2, rfl⟩ := seq_append _ _ _ h
    rw [sequence, sequence, seq_conf mps hm] at h1
    cases h1
    exact ⟨d, st, rfl, rfl, h2⟩

theorem cut_flatten : ∀ (ds : List (List Nat)) (f : Nat), ds.length ≤ f →
    (∀ d ∈ ds, d[0]? = some d.length ∧ 2 ≤ d.length) → cut f ds.flatten = some ds
  | [], f, _, _ => by cases f <;> rfl
  | [] :: ds, f, _, h => by
      have := (h [] (List.mem_cons_self ..)).2
      simp at this
  | (b :: d) :: ds, 0, hf, _ => by simp at hf
  | (b :: d) :: ds, f + 1, hf, h => by
      obtain ⟨h1, h2⟩ := h (b :: d) (List.mem_cons_self ..)
      have hb : b = (b :: d).length := by simpa using h1
      have ih := cut_flatten ds f (by simpa using hf) fun x hx => h x (List.mem_cons_of_mem _ hx)
      rw [List.flatten_cons, List.cons_append, cut, if_pos ⟨by omega, by rw [← List.cons_append, List.length_append]; omega⟩,
        ← List.cons_append]
      have e1 : ((b :: d) ++ ds.flatten).drop b = ds.flatten := List.drop_left' hb.symm
      have e2 : ((b :: d) ++ ds.flatten).take b = b :: d := List.take_left' hb.symm
      rw [e1, e2, ih]
      rfl

theorem ifOk_str : ∀ (st : List (List Nat)), (∀ d ∈ st, StrD d) → IfOk st ∧ epsAfter st = 0
  | [], _ => ⟨trivial, rfl⟩
  | d :: st, h => by
      have hd := (h d (List.mem_cons_self ..)).2.1
      obtain ⟨h1, h2⟩ := ifOk_str st fun x hx => h x (List.mem_cons_of_mem _ hx)
      refine ⟨⟨fun e => ?_, h1⟩, ?_⟩
      · rw [hd] at e; cases e
      · rw [epsAfter, hd, h2]; rfl

theorem ofType_str (t : Nat) (ht : t ≠ 3) (st : List (List Nat)) (h : ∀ d ∈ st, StrD d) : ofType t st = [] := by
  unfold ofType
  rw [List.filter_eq_nil_iff]
  intro d hd
  rw [(h d hd).2.1]
  simp [Ne.symm ht]

theorem ofType_str3 (st : List (List Nat)) (h : ∀ d ∈ st, StrD d) : ofType 3 st = st := by
  unfold ofType
  rw [List.filter_eq_self]
  intro d hd
  simp [(h d hd).2.1]

/-- C444: the descriptors of the virtual COM port are consistent for every version, packet size and strings
which are accepted: the host finds the descriptors in the bytes of the ROM by their lengths; `wTotalLength`
is the length of the configuration with its interfaces, functions and endpoints; `bNumInterfaces` and
`bNumEndpoints` are the numbers of descriptors; there is one configuration and one device descriptor; the
bulk endpoints have the asked size of packets. -/
theorem vcp_consistent (uv : List Char) (mps : Nat) (man prod : Option (List Nat)) (dv : List Char)
    (ds : List (List Nat)) (h : vcp uv mps man prod dv = some ds) :
    cut ds.length ds.flatten = some ds ∧
    IfOk ds ∧
    (∃ dev, ofType 1 ds = [dev] ∧ dev[17]? = some (ofType 2 ds).length) ∧
    (∃ conf rest, ds.drop 1 = conf :: rest ∧ ofType 2 ds = [conf] ∧
      conf[2]? = some ((((ds.drop 1).filter fun d => d[1]? ≠ some 3).flatten).length) ∧ conf[3]? = some 0 ∧
      conf[4]? = some (ofType 4 ds).length) ∧
    (∀ e ∈ ofType 5 ds, (e[3]? = some 2 → e[4]? = some (mps % 256) ∧ e[5]? = some (mps / 256))) := by
  obtain ⟨dev, st, rfl, hd, hs⟩ := vcp_shape uv mps man prod dv ds h
  obtain ⟨hst, _, _⟩ := strings_spec man prod st hs
  obtain ⟨u, d, _, _, _, _, _, _, _, _, _, _, _, _, _, _, rfl⟩ := (device_iff _ _ _ _ _ _ _ _ _ _ _ _ _).1 hd
  obtain ⟨i1, i2⟩ := ifOk_str st hst
  have f1 := ofType_str 1 (by decide) st hst
  have f2 := ofType_str 2 (by decide) st hst
  have f4 := ofType_str 4 (by decide) st hst
  have f5 := ofType_str 5 (by decide) st hst
  have fn : st.filter (fun d => !decide (d[1]? = some 3)) = [] := by
    rw [List.filter_eq_nil_iff]
    intro x hx
    simp [(hst x hx).2.1]
  unfold ofType at f1 f2 f4 f5
  refine ⟨?_, ?_, ?_, ?_, ?_⟩
  · refine cut_flatten _ _ (Nat.le_refl _) ?_
    intro x hx
    rcases List.mem_append.1 hx with hx | hx
    · simp only [body, List.mem_cons, List.not_mem_nil, or_false] at hx
      rcases hx with rfl | rfl | rfl | rfl | rfl | rfl | rfl | rfl | rfl | rfl | rfl <;> exact ⟨rfl, by simp⟩
    · exact ⟨(hst x hx).1, (hst x hx).2.2⟩
  · simp [body, IfOk, epsAfter, i1, i2]
  · simp [ofType, body, f1, f2]
  · simp [ofType, body, f2, f4, fn]
  · intro e he
    simp only [ofType, List.filter_append, f5, List.append_nil] at he
    simp [body] at he
    rcases he with rfl | rfl | rfl <;> simp

/-- C444: the indexes of strings in the device descriptor are those of the given strings, 0 if there is
none. -/
theorem vcp_strings (uv : List Char) (mps : Nat) (man prod : Option (List Nat)) (dv : List Char)
    (ds : List (List Nat)) (h : vcp uv mps man prod dv = some ds) :
    ∃ dev iM iP, ds[0]? = some dev ∧ dev[14]? = some iM ∧ dev[15]? = some iP ∧
    (ofType 3 ds)[0]? = some [4, 3, 9, 4] ∧
    (man = none → iM = 0) ∧ (∀ s, man = some s → 0 < iM ∧ (ofType 3 ds)[iM]? = UsbBundle.stringDescr s) ∧
    (prod = none → iP = 0) ∧ (∀ s, prod = some s → 0 < iP ∧ (ofType 3 ds)[iP]? = UsbBundle.stringDescr s) := by
  obtain ⟨dev, st, rfl, hd, hs⟩ := vcp_shape uv mps man prod dv ds h
  obtain ⟨hst, hm, hp⟩ := strings_spec man prod st hs
  obtain ⟨u, d, _, _, _, _, _, _, _, _, _, _, _, _, _, _, rfl⟩ := (device_iff _ _ _ _ _ _ _ _ _ _ _ _ _).1 hd
  have e3 : ofType 3 ([18, 1, u % 256, u / 256, 0x02, 0, 0, min 64 mps, 0 % 256, 0 / 256, 0 % 256, 0 / 256,
        d % 256, d / 256, (vcpStrings man prod).2.1, (vcpStrings man prod).2.2, 0, 1] ::
        [9, 2, 67, 0, 2, 1, 0, 0x80, 250] :: body mps ++ st) = st := by
    have := ofType_str3 st hst
    unfold ofType at this ⊢
    rw [List.filter_append, this]
    simp [body]
  refine ⟨_, _, _, rfl, rfl, rfl, ?_, ?_, ?_, ?_, ?_⟩
  · rw [e3]
    have h0 : string0 [0x0409] = some [4, 3, 9, 4] := by decide +kernel
    have : ∃ r, (vcpStrings man prod).1 = some [4, 3, 9, 4] :: r := by
      unfold vcpStrings
      rw [h0]
      cases man <;> cases prod <;> exact ⟨_, rfl⟩
    obtain ⟨r, hr⟩ := this
    rw [hr, sequence] at hs
    obtain ⟨q, _, rfl⟩ := Option.map_eq_some_iff.1 hs
    rfl
  · rintro rfl; exact hm
  · rintro s rfl; rw [e3]; exact hm
  · rintro rfl; exact hp
  · rintro s rfl; rw [e3]; exact hp

example : vcp ['2', '.', '0'] 512 (some [72]) (some [73]) ['0', '.', '1'] = some
    ([18, 1, 0, 2, 2, 0, 0, 64, 0, 0, 0, 0, 0x10, 0, 1, 2, 0, 1] :: [9, 2, 67, 0, 2, 1, 0, 0x80, 250] :: body 512 ++
     [[4, 3, 9, 4], [6, 3, 0xff, 0xfe, 72, 0], [6, 3, 0xff, 0xfe, 73, 0]]) := by decide +kernel

/-- C440: the line coding in the ROM of the device (`UsbVcpRom`) is the default one. -/
theorem line_default : lineCoding 115200 0 0 8 = some UsbVcpRom.lineCoding := by decide +kernel

end Verif.UsbDescr
