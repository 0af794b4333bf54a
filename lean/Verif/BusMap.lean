import Verif.Common
/-!
# Models of `BusStaticRemap` and of the address allocation of `BusInterconnectUtils`
(hwtLib/abstract/busStaticRemap.py, hwtLib/abstract/busInterconnect.py)
-/
namespace Verif.BusMap

/-- python `int.bit_length` -/
def bitLength (n : Nat) : Nat := if n = 0 then 0 else n.log2 + 1

/-- `hwt.math.isPow2` -/
def isPow2 (n : Nat) : Bool := n == 2 ^ bitLength (n - 1)

theorem isPow2_pos {n : Nat} (h : isPow2 n = true) : 0 < n := by
  have : n = 2 ^ bitLength (n - 1) := by simpa [isPow2] using h
  have := Nat.two_pow_pos (bitLength (n - 1))
  omega

/-! ## Stable sort by a key (python `sorted(..., key=...)`) -/

def insertBy {α : Type _} (key : α → Nat) (x : α) : List α → List α
  | [] => [x]
  | y :: ys => if key x ≤ key y then x :: y :: ys else y :: insertBy key x ys

def sortBy {α : Type _} (key : α → Nat) : List α → List α
  | [] => []
  | x :: xs => insertBy key x (sortBy key xs)

theorem insertBy_perm {α : Type _} (key : α → Nat) (x : α) (l : List α) : (insertBy key x l).Perm (x :: l) := by
  induction l with
  | nil => exact List.Perm.refl _
  | cons y ys ih =>
    unfold insertBy
    split
    · exact List.Perm.refl _
    · exact (List.Perm.cons y ih).trans (List.Perm.swap x y ys)

theorem sortBy_perm {α : Type _} (key : α → Nat) (l : List α) : (sortBy key l).Perm l := by
  induction l with
  | nil => exact List.Perm.refl _
  | cons x xs ih => exact (insertBy_perm key x _).trans (List.Perm.cons x ih)

theorem insertBy_sorted {α : Type _} (key : α → Nat) (x : α) (l : List α) (h : l.Pairwise fun a b => key a ≤ key b) :
    (insertBy key x l).Pairwise fun a b => key a ≤ key b := by
  induction l with
  | nil => simp [insertBy]
  | cons y ys ih =>
    obtain ⟨h1, h2⟩ := List.pairwise_cons.1 h
    unfold insertBy
    split
    · next hle =>
      refine List.Pairwise.cons ?_ h
      intro z hz
      rcases List.mem_cons.1 hz with rfl | hz
      · exact hle
      · have := h1 z hz; omega
    · next hgt =>
      refine List.Pairwise.cons ?_ (ih h2)
      intro z hz
      rcases List.mem_cons.1 ((insertBy_perm key x ys).mem_iff.1 hz) with rfl | hz
      · omega
      · exact h1 z hz

theorem sortBy_sorted {α : Type _} (key : α → Nat) (l : List α) :
    (sortBy key l).Pairwise fun a b => key a ≤ key b := by
  induction l with
  | nil => exact List.Pairwise.nil
  | cons x xs ih => exact insertBy_sorted key x _ ih

/-! ## BusStaticRemap -/

/-- item of MEM_MAP: (addr_from, size, addr_to) -/
structure Region where
  inn : Nat
  size : Nat
  out : Nat
deriving DecidableEq, Repr

/-- abstract/busStaticRemap.py:27-33 on the sorted list -/
def checkSorted : Nat → List Region → Bool
  | _, [] => true
  | last, r :: rs => decide (0 < r.size) && decide (last ≤ r.inn) && checkSorted (r.inn + r.size) rs

/-- abstract/busStaticRemap.py:22-35; `none` is a failed assertion -/
def normalize (m : List Region) : Option (List Region) :=
  let s := sortBy Region.inn m
  if !m.isEmpty && checkSorted 0 s then some s else none

def Region.has (r : Region) (a : Nat) : Bool := decide (r.inn ≤ a) && decide (a < r.inn + r.size)

/-- abstract/busStaticRemap.py:37-41 `translate_addr_val`; python integers may be negative -/
def transVal (m : List Region) (a : Nat) : Int :=
  match m with
  | [] => a
  | r :: rs => if r.has a then (a : Int) - ((r.inn : Int) - r.out) else transVal rs a

/-- abstract/busStaticRemap.py:48-49 -/
def Region.inAligned (r : Region) : Bool := r.inn % r.size == 0 && isPow2 r.size
def Region.outAligned (r : Region) : Bool := r.out % r.size == 0 && isPow2 r.size
/-- :51 -/
def Region.L (r : Region) : Nat := bitLength (r.size - 1)

/-- `en_sig`, abstract/busStaticRemap.py:50-61 -/
def Region.en (r : Region) (a : Nat) : Bool :=
  if r.inAligned then a / 2 ^ r.L == r.inn / 2 ^ r.L else r.has a

/-- `addr_drive`, abstract/busStaticRemap.py:53-68; `AW` bits -/
def Region.drive (AW : Nat) (r : Region) (a : Nat) : Nat :=
  if r.inAligned then
    if r.outAligned then r.out * 2 ^ r.L + a % 2 ^ r.L
    else (a % 2 ^ r.L + r.out) % 2 ^ AW
  else if r.inn == r.out then a
  else if r.inn < r.out then (a + (r.out - r.inn)) % 2 ^ AW
  else (a + 2 ^ AW - (r.inn - r.out)) % 2 ^ AW

/-- The constants of the translation fit their types, so the component can be constructed: the prefix
`HBits(AW - L).from_py(offset_out)`, slices of non-zero width, bounds of the range. -/
def Region.elab (AW : Nat) (r : Region) : Bool :=
  if r.inAligned then
    decide (0 < r.L) && decide (r.L < AW) && decide (r.inn < 2 ^ AW) &&
      (if r.outAligned then decide (r.out < 2 ^ (AW - r.L)) else decide (r.out < 2 ^ AW))
  else decide (r.inn + r.size < 2 ^ AW) && decide (r.out < 2 ^ AW)

/-- abstract/busStaticRemap.py:43-70 `translate_addr_signal`: priority switch -/
def transSig (AW : Nat) (m : List Region) (a : Nat) : Nat :=
  match m with
  | [] => a
  | r :: rs => if r.en a then r.drive AW a else transSig AW rs a

/-! ## Interconnect address allocation -/

/-- (address or AUTO_ADDR, size) -/
structure Slave where
  addr : Option Nat
  size : Nat

inductive Err where
  | notPow2 | notAligned | collision
deriving DecidableEq

deriving instance DecidableEq for Except

/-- body of the loop abstract/busInterconnect.py:54-72 -/
def place (maxAddr : Nat) (s : Slave) : Except Err (Nat × Nat) :=
  if !isPow2 s.size then .error .notPow2
  else match s.addr with
    | none => .ok (if maxAddr % s.size == 0 then maxAddr else (maxAddr / s.size + 1) * s.size, s.size)
    | some a => if a % s.size == 0 then .ok (a, s.size) else .error .notAligned

def placeAll : Nat → List Slave → Except Err (List (Nat × Nat))
  | _, [] => .ok []
  | maxAddr, s :: ss =>
    match place maxAddr s with
    | .error e => .error e
    | .ok (a, sz) => match placeAll (max maxAddr (a + sz)) ss with
      | .error e => .error e
      | .ok r => .ok ((a, sz) :: r)

/-- abstract/busInterconnect.py:76-82; the integer `lastAddr` (initially -1) is represented by `lastAddr + 1` -/
def noCollision : Nat → List (Nat × Nat) → Bool
  | _, [] => true
  | lastEnd, (a, sz) :: rs => decide (lastEnd ≤ a) && noCollision (a + sz) rs

/-- abstract/busInterconnect.py:49-83 `_normalize_slave_configs` -/
def normalizeSlaves (ss : List Slave) : Except Err (List (Nat × Nat)) :=
  match placeAll 0 ss with
  | .error e => .error e
  | .ok r => if noCollision 0 (sortBy Prod.fst r) then .ok r else .error .collision

/-- abstract/busInterconnect.py:180-187 `getOptimalAddrSize` for the normalised slaves; `B = DATA_WIDTH // 8`;
`none` is the failed assertion -/
def optimalAddrSize (B : Nat) (slaves : List (Nat × Nat)) : Option Nat :=
  match slaves.getLast? with
  | none => none
  | some (a, sz) => if B ≤ a + sz then some (log2ceil (a + sz - B)) else none

end Verif.BusMap
