import Verif.HsReg
/-!
# Models of `Axi4S_en` and `Axi4S_resizer` (hwtLib/amba/axis_comp/en.py, hwtLib/amba/axis_comp/resizer.py)
-/
namespace Verif.Axis

universe u v
variable {α : Type u}

/-! ## Axi4S_en -/

structure EnIn (α : Type u) where
  en : Bool
  vld : Bool
  data : α
  last : Bool
  rd : Bool

structure EnOut (α : Type u) where
  rd : Bool
  vld : Bool
  data : α
  last : Bool

/-- amba/axis_comp/en.py:42-46; state is `framePending` -/
def enOut (pending : Bool) (i : EnIn α) : EnOut α where
  rd := i.rd && (i.en || pending)
  vld := i.vld && (i.en || pending)
  data := i.data
  last := i.last

/-- amba/axis_comp/en.py:35-40 -/
def enNext (pending : Bool) (i : EnIn α) : Bool :=
  if pending && (i.vld && i.rd) then !i.last else pending

def enMachine : Machine Bool (EnIn α) (EnOut α) := ⟨enOut, enNext⟩

/-! ## Axi4S_resizer.upscale

A word (data with its strobe/keep bits) of the narrow side is a value of type `α`, `z` is the word with all bits 0. -/

structure UpIn (α : Type u) where
  vld : Bool
  item : α
  last : Bool
  rd : Bool

structure UpOut (α : Type u) where
  rd : Bool
  vld : Bool
  items : Nat → α
  last : Bool

structure Up (α : Type u) where
  cnt : Nat
  r : Nat → α

/-- amba/axis_comp/resizer.py:84 -/
def upLast (n : Nat) (s : Up α) (i : UpIn α) : Bool := s.cnt == n - 1 || i.last

/-- amba/axis_comp/resizer.py:102-106, :117-128; `ITEMS = n` -/
def upOut (n : Nat) (s : Up α) (i : UpIn α) : UpOut α where
  rd := i.rd
  vld := i.vld && upLast n s i
  items := fun k => if s.cnt == k then i.item else s.r k
  last := i.last

/-- amba/axis_comp/resizer.py:83, :94-100, :131-137 -/
def upNext (n : Nat) (z : α) (s : Up α) (i : UpIn α) : Up α where
  cnt := if i.vld && i.rd then (if upLast n s i then 0 else (s.cnt + 1) % 2 ^ log2ceil (n + 1)) else s.cnt
  r := fun k => if i.vld && i.rd && upLast n s i then z else if i.vld && s.cnt == k then i.item else s.r k

def upMachine (n : Nat) (z : α) : Machine (Up α) (UpIn α) (UpOut α) := ⟨upOut n, upNext n z⟩

def upInit (z : α) : Up α := ⟨0, fun _ => z⟩

/-! ## Axi4S_resizer.downscale

The input register is `HandshakedReg` with its default LATENCY=1. Word of the wide side: items `Nat → α` and `last`. -/

abbrev Wide (α : Type u) := (Nat → α) × Bool

structure DnIn (α : Type u) where
  vld : Bool
  word : Wide α
  rd : Bool

structure DnOut (α : Type u) where
  rd : Bool
  vld : Bool
  item : Option α
  last : Bool

structure Dn (α : Type u) where
  reg : HsReg.Stage (Wide α)
  cnt : Nat

/-- amba/axis_comp/resizer.py:54-75, :158-167: the last item or all following items have zero strobe (`isZ`). -/
def dnLast (n : Nat) (isZ : α → Bool) (s : Dn α) : Bool :=
  s.cnt == n - 1 || (List.range (n - 1)).any fun i =>
    s.cnt == i && (List.range n).all fun j => decide (j < i + 1) || isZ (s.reg.reg.1 j)

/-- `inReg.dataOut.ready`, amba/axis_comp/resizer.py:185-186 -/
def dnRegRd (n : Nat) (isZ : α → Bool) (s : Dn α) (rd : Bool) : Bool := rd && dnLast n isZ s && s.reg.occ

/-- amba/axis_comp/resizer.py:169-187 -/
def dnOut (n : Nat) (isZ : α → Bool) (s : Dn α) (i : DnIn α) : DnOut α where
  rd := HsReg.stageRd s.reg (dnRegRd n isZ s i.rd)
  vld := s.reg.occ
  item := if s.cnt < n then some (s.reg.reg.1 s.cnt) else none
  last := s.reg.reg.2 && dnLast n isZ s

/-- amba/axis_comp/resizer.py:189-195 -/
def dnNext (n : Nat) (isZ : α → Bool) (s : Dn α) (i : DnIn α) : Dn α where
  reg := HsReg.stageNext s.reg i.vld i.word (dnRegRd n isZ s i.rd)
  cnt := if s.reg.occ && i.rd then (if dnLast n isZ s then 0 else (s.cnt + 1) % 2 ^ log2ceil (n + 1)) else s.cnt

def dnMachine (n : Nat) (isZ : α → Bool) : Machine (Dn α) (DnIn α) (DnOut α) := ⟨dnOut n isZ, dnNext n isZ⟩

def dnInit (junk : Wide α) : Dn α := ⟨⟨false, junk⟩, 0⟩

/-! ## Byte streams -/

/-- `none` marks the end of a frame. -/
def eof {β : Type v} (last : Bool) : List (Option β) := if last then [none] else []

theorem cnt_no_wrap (n c : Nat) (h : c < n) : (c + 1) % 2 ^ log2ceil (n + 1) = c + 1 := by
  have := le_two_pow_log2ceil (n + 1)
  exact Nat.mod_eq_of_lt (by omega)

theorem range_split (n c : Nat) (h : c < n) {γ : Type v} (f : Nat → List γ) :
    (List.range' c (n - c)).flatMap f = f c ++ (List.range' (c + 1) (n - (c + 1))).flatMap f := by
  rw [show n - c = (n - (c + 1)) + 1 by omega, List.range'_succ, List.flatMap_cons]

theorem flatMap_nil_of {γ : Type u} {δ : Type v} {l : List γ} {f : γ → List δ} (h : ∀ x ∈ l, f x = []) :
    l.flatMap f = [] := by
  rw [List.flatMap_eq_nil_iff]; exact h

end Verif.Axis
