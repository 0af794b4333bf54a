import Verif.Common
import Verif.HsReg
/-!
# Model of `HsResizer` (hwtLib/handshaked/resizer.py) and `HandshakedStoredBurst`
(hwtLib/handshaked/storedBurst.py)
-/
namespace Verif.Resizer

universe u v
variable {α : Type u} {β : Type v}

/-! ## Downscale (resizer.py:97-130) -/

/-- `HandshakedReg` stage in front (resizer.py:103-109) and the part counter (:98-100). -/
structure DownSt (α : Type u) where
  stage : HsReg.Stage α
  cntr : Nat

structure DownOut (β : Type v) where
  rd : Bool
  vld : Bool
  data : β

/-- `inputRegs_cntr` has `log2ceil(factor + 1)` bits (resizer.py:79-81, 98-100). -/
def cntrMod (n : Nat) : Nat := 2 ^ log2ceil (n + 1)

/-- ready given to the input register: `inputRegs_cntr._eq(factor - 1) & rd(dataOut)` (:122) -/
def downRd (n : Nat) (s : DownSt α) (rd : Bool) : Bool := s.cntr == n - 1 && rd

/-- `part k w` is the k-th part of the wide word, `iterBits(din, bitsInOne=widthOfPart)` starts with
the least significant part (:115-118). -/
def downOut (n : Nat) (part : Nat → α → β) (s : DownSt α) (i : HsReg.In α) : DownOut β where
  rd := HsReg.stageRd s.stage (downRd n s i.rd)
  vld := s.stage.occ
  data := part s.cntr s.stage.reg

/-- resizer.py:124-130 and the register stage. -/
def downNext (n : Nat) (s : DownSt α) (i : HsReg.In α) : DownSt α where
  stage := HsReg.stageNext s.stage i.vld i.data (downRd n s i.rd)
  cntr := if s.stage.occ && i.rd then
            (if s.cntr == n - 1 then 0 else (s.cntr + 1) % cntrMod n) else s.cntr

def down (n : Nat) (part : Nat → α → β) : Machine (DownSt α) (HsReg.In α) (DownOut β) :=
  ⟨downOut n part, downNext n⟩

/-- reset state; `junk` is the power-up content of the data register -/
def downInit (junk : α) : DownSt α := ⟨⟨false, junk⟩, 0⟩

/-- Wide words transferred on `dataIn`. -/
def downAccepted (tr : List (HsReg.In α × DownOut β)) : List α :=
  tr.filterMap fun e => if e.1.vld && e.2.rd then some e.1.data else none
/-- Parts transferred on `dataOut`. -/
def downEmitted (tr : List (HsReg.In α × DownOut β)) : List β :=
  tr.filterMap fun e => if e.2.vld && e.1.rd then some e.2.data else none

/-- All parts of a word, least significant first. -/
def parts (n : Nat) (part : Nat → α → β) (w : α) : List β := (List.range n).map fun k => part k w

/-- parts still to be sent -/
def downQ (n : Nat) (part : Nat → α → β) (s : DownSt α) : List β :=
  if s.stage.occ then (parts n part s.stage.reg).drop s.cntr else []

def DownInv (n : Nat) (s : DownSt α) : Prop := s.cntr < n ∧ (s.stage.occ = false → s.cntr = 0)

theorem down_step (n : Nat) (hn : 0 < n) (part : Nat → α → β) (s : DownSt α) (i : HsReg.In α)
    (h : DownInv n s) :
    DownInv n (downNext n s i) ∧
    downQ n part s ++ (given (i.vld && (downOut n part s i).rd) i.data).flatMap (parts n part) =
      given ((downOut n part s i).vld && i.rd) (downOut n part s i).data
        ++ downQ n part (downNext n s i) := by
  obtain ⟨⟨o, g⟩, c⟩ := s
  obtain ⟨hc, h0⟩ := h
  obtain ⟨v, d, r⟩ := i
  simp only at hc h0
  have hlen : (parts n part g).length = n := by simp [parts]
  have hget : (parts n part g)[c]'(by omega) = part c g := by simp [parts]
  have hdrop : (parts n part g).drop c = part c g :: (parts n part g).drop (c + 1) := by
    rw [List.drop_eq_getElem_cons (by omega), hget]
  have hm : n + 1 ≤ cntrMod n := le_two_pow_log2ceil _
  have hmod : (c + 1) % cntrMod n = c + 1 := Nat.mod_eq_of_lt (by omega)
  cases o
  · have hc0 : c = 0 := h0 rfl
    subst hc0
    cases v <;> cases r <;>
      simp [DownInv, downQ, downNext, downOut, HsReg.stageRd, HsReg.stageNext, HsReg.stageWe, hn]
  · by_cases hl : c = n - 1
    · have hb : (c == n - 1) = true := by simpa using hl
      have hnil : (parts n part g).drop (c + 1) = [] := by
        apply List.drop_eq_nil_of_le; omega
      cases v <;> cases r <;>
        simp [DownInv, downQ, downNext, downOut, downRd, HsReg.stageRd, HsReg.stageNext,
          HsReg.stageWe, hb, hdrop, hnil, hc, hn]
    · have hb : (c == n - 1) = false := by simpa using hl
      have hc1 : c + 1 < n := by omega
      cases v <;> cases r <;>
        simp [DownInv, downQ, downNext, downOut, downRd, HsReg.stageRd, HsReg.stageNext,
          HsReg.stageWe, hb, hdrop, hc, hmod, hc1]

/-! ## Upscale (resizer.py:60-95) -/

/-- part counter and the `factor - 1` part registers -/
structure UpSt (β : Type v) where
  cntr : Nat
  regs : Nat → β

structure UpOut (β : Type v) where
  rd : Bool
  vld : Bool
  data : List β

/-- resizer.py:65-67 and `dout(Concat(din, *reversed(inputRegs)))` (:93): the list holds the parts
from the least significant one. -/
def upOut (n : Nat) (s : UpSt β) (i : HsReg.In β) : UpOut β where
  rd := s.cntr != n || i.rd
  vld := s.cntr == n - 1 && i.vld
  data := (List.range (n - 1)).map s.regs ++ [i.data]

/-- resizer.py:68-76, 89-92. -/
def upNext (n : Nat) (s : UpSt β) (i : HsReg.In β) : UpSt β where
  cntr := if s.cntr == n - 1 then (if i.vld && i.rd then 0 else s.cntr)
          else (if i.vld then (s.cntr + 1) % cntrMod n else s.cntr)
  regs := fun k => if s.cntr == k && i.vld then i.data else s.regs k

def up (n : Nat) : Machine (UpSt β) (HsReg.In β) (UpOut β) := ⟨upOut n, upNext n⟩

def upInit (junk : Nat → β) : UpSt β := ⟨0, junk⟩

def upAccepted (tr : List (HsReg.In β × UpOut β)) : List β :=
  tr.filterMap fun e => if e.1.vld && e.2.rd then some e.1.data else none
def upEmitted (tr : List (HsReg.In β × UpOut β)) : List (List β) :=
  tr.filterMap fun e => if e.2.vld && e.1.rd then some e.2.data else none

def upQ (s : UpSt β) : List β := (List.range s.cntr).map s.regs

theorem up_step (n : Nat) (hn : 0 < n) (s : UpSt β) (i : HsReg.In β)
    (h : s.cntr < n) (hok : (upOut n s i).vld = true → i.rd = true) :
    (upNext n s i).cntr < n ∧
    upQ s ++ given (i.vld && (upOut n s i).rd) i.data =
      (given ((upOut n s i).vld && i.rd) (upOut n s i).data).flatten ++ upQ (upNext n s i) := by
  obtain ⟨c, g⟩ := s
  obtain ⟨v, d, r⟩ := i
  simp only at h
  have hne : (c != n) = true := by simp; omega
  have hm : n + 1 ≤ cntrMod n := le_two_pow_log2ceil _
  have hmod : (c + 1) % cntrMod n = c + 1 := Nat.mod_eq_of_lt (by omega)
  by_cases hl : c = n - 1
  · have hb : (c == n - 1) = true := by simpa using hl
    simp only [upOut, hb, Bool.true_and] at hok
    cases v
    · simp [upNext, upOut, upQ, hb, h]
    · have hr : r = true := hok rfl
      subst hr
      simp [upNext, upOut, upQ, hb, hn, hne, hl]
  · have hb : (c == n - 1) = false := by simpa using hl
    cases v
    · simp [upNext, upOut, upQ, hb, h]
    · refine ⟨by simp [upNext, hb, hmod]; omega, ?_⟩
      simp only [upNext, upOut, upQ, hb, hmod, hne, Bool.true_and, Bool.true_or, Bool.false_and,
        given_true, given_false, List.flatten_nil, List.nil_append, if_true, if_false,
        Bool.and_true, Bool.false_eq_true]
      rw [List.range_succ, List.map_append]
      congr 1
      · apply List.map_congr_left
        intro k hk
        have : (c == k) = false := by
          have := List.mem_range.1 hk
          simp; omega
        simp [this]
      · simp

/-! ## `HandshakedStoredBurst` -/

structure BurstOut (α : Type u) where
  vld : Bool
  data : Option α

/-- `wordIndex_w = int(math.log2(DATA_LEN) + 1)` (storedBurst.py:64). Exact integer logarithm. -/
def burstMod (L : Nat) : Nat := 2 ^ (Nat.log2 L + 1)

/-- storedBurst.py:70-79; `none` is the undefined default. -/
def burstOut (D : List α) (idx : Nat) (_ : Bool) : BurstOut α where
  vld := decide (idx < D.length)
  data := D[idx]?

/-- storedBurst.py:43-53, 81-83; the input is `dataOut.rd`. -/
def burstNext (D : List α) (repeat_ : Bool) (idx : Nat) (rd : Bool) : Nat :=
  if rd then
    (if idx < D.length then (idx + 1) % burstMod D.length
     else if repeat_ then 0 else idx)
  else idx

def burst (D : List α) (repeat_ : Bool) : Machine Nat Bool (BurstOut α) :=
  ⟨burstOut D, burstNext D repeat_⟩

/-- Words transferred on `dataOut` (with `none` for an undefined word). -/
def burstEmitted (tr : List (Bool × BurstOut α)) : List (Option α) :=
  tr.filterMap fun e => if e.2.vld && e.1 then some e.2.data else none

theorem burstMod_gt (L : Nat) : L < burstMod L := Nat.lt_log2_self

end Verif.Resizer
