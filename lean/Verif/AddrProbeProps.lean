import Verif.AddrProbe
/-!
# Properties of the discovery of an address space
-/
namespace Verif.AddrProbe
open Verif.BusMap

/-- C435, full statement: an endpoint is reported with the address at which it is accessed. -/
def WalkFull : Prop := ∀ (n : Net) (l : List (Int × Nat)), walk n 0 = .ok l →
  ∀ p ∈ l, route n p.1 = some (p.2, 0)

/-- one endpoint at 0 behind a remap of 0x1000..0x10ff to 0 -/
def exRemap : Net := .remap [⟨0x1000, 0x100, 0⟩] (.ep 7)
/-- an adder in the address path -/
def exPlus : Net := .plus 4 (.ep 7)

/-- C435: the discovery translates the address in the direction of the access, so an endpoint which the
master finds at 0x1000 is reported at 0. -/
theorem walk_remap : walk exRemap 0 = .ok [(0, 7)] ∧ route exRemap 0x1000 = some (7, 0) ∧
    (∀ m : List Region, walk (.remap m (.ep 7)) 0 = .ok [(tv m 0, 7)]) := by
  refine ⟨by rfl, by rfl, fun m => ?_⟩
  simp [walk]

theorem walk_violated : ¬ WalkFull := by
  intro h
  have := h (.remap [⟨0, 0x100, 0x1000⟩] (.ep 7)) _ rfl _ (List.Mem.head _)
  revert this
  decide

/-- C435: an adder is passed without a change of the offset. -/
theorem walk_plus : walk exPlus 0 = .ok [(0, 7)] ∧ route exPlus 0 = some (7, 4) := ⟨rfl, rfl⟩

mutual
/-- The endpoints of the net lie in the windows of the interconnects above them, the windows do not
overlap, adders add nothing and a remap is its own inverse at the endpoints. -/
def Good : Net → Prop
  | .dead => True
  | .ep _ => True
  | .bridge n => Good n
  | .plus k n => k = 0 ∧ Good n
  | .remap m n => Good n ∧ ∀ l, walk n 0 = .ok l → ∀ p ∈ l, tv m (tv m p.1) = p.1
  | .inter _ sl => GoodS sl
def GoodS : Slots → Prop
  | .nil => True
  | .cons off size n rest =>
    Good n ∧ GoodS rest ∧ (∀ l, walk n 0 = .ok l → ∀ p ∈ l, 0 ≤ p.1 ∧ p.1 < (size : Int)) ∧
    (∀ l, walkS rest 0 = .ok l → ∀ p ∈ l, ¬ ((off : Int) ≤ p.1 ∧ p.1 < (off : Int) + size))
end

def shift (o : Int) (l : List (Int × Nat)) : List (Int × Nat) := l.map fun p => (p.1 + o, p.2)

def shiftE (o : Int) : Except Err (List (Int × Nat)) → Except Err (List (Int × Nat))
  | .error e => .error e
  | .ok l => .ok (shift o l)

theorem shift_shift (a b : Int) (l : List (Int × Nat)) : shift a (shift b l) = shift (b + a) l := by
  simp [shift, Int.add_assoc]

theorem shiftE_shiftE (a b : Int) (l : Except Err (List (Int × Nat))) :
    shiftE a (shiftE b l) = shiftE (b + a) l := by
  cases l <;> simp [shiftE, shift_shift]

mutual
theorem walk_shift : ∀ (n : Net) (o : Int), walk n o = shiftE o (walk n 0)
  | .dead, o => by simp [walk, shiftE, shift]
  | .ep id, o => by simp [walk, shiftE, shift]
  | .bridge n, o => by rw [walk, walk]; exact walk_shift n o
  | .plus _ n, o => by rw [walk, walk]; exact walk_shift n o
  | .remap m n, o => by
      rw [walk, walk]
      cases walk n 0 <;> simp [shiftE, shift]
  | .inter k sl, o => by
      rw [walk, walk]
      split
      · exact walkS_shift sl o
      · rfl
theorem walkS_shift : ∀ (sl : Slots) (o : Int), walkS sl o = shiftE o (walkS sl 0)
  | .nil, o => by simp [walkS, shiftE, shift]
  | .cons off size n rest, o => by
      rw [walkS, walkS, walk_shift n (o + off), walk_shift n (0 + off), walkS_shift rest o]
      cases walk n 0 with
      | error e => rfl
      | ok l =>
        cases walkS rest 0 with
        | error e => rfl
        | ok r =>
          simp only [shiftE, shift, List.map_append, List.map_map]
          congr 3
          funext p
          simp only [Function.comp]
          congr 1
          omega
end

mutual
theorem good_walk : ∀ (n : Net), Good n → ∀ l, walk n 0 = .ok l → ∀ p ∈ l, route n p.1 = some (p.2, 0)
  | .dead, _, l, h, p, hp => by simp [walk] at h; subst h; simp at hp
  | .ep id, _, l, h, p, hp => by
      simp [walk] at h; subst h; simp at hp; subst hp; simp [route]
  | .bridge n, g, l, h, p, hp => by
      rw [route]; rw [walk] at h; rw [Good] at g; exact good_walk n g l h p hp
  | .plus k n, g, l, h, p, hp => by
      rw [Good] at g; rw [walk] at h
      rw [route, g.1, Int.add_zero]; exact good_walk n g.2 l h p hp
  | .remap m n, g, l, h, p, hp => by
      rw [Good] at g; rw [walk] at h; rw [route]
      cases e : walk n 0 with
      | error x => rw [e] at h; cases h
      | ok l0 =>
        rw [e] at h
        cases h
        obtain ⟨q, hq, rfl⟩ := List.mem_map.1 hp
        simp only [Int.add_zero]
        rw [g.2 l0 e q hq]
        exact good_walk n g.1 l0 e q hq
  | .inter k sl, g, l, h, p, hp => by
      rw [Good] at g; rw [walk] at h; rw [route]
      split at h
      · exact good_walkS sl g l h p hp
      · cases h
theorem good_walkS : ∀ (sl : Slots), GoodS sl → ∀ l, walkS sl 0 = .ok l →
    ∀ p ∈ l, routeS sl p.1 = some (p.2, 0)
  | .nil, _, l, h, p, hp => by simp [walkS] at h; subst h; simp at hp
  | .cons off size n rest, g, l, h, p, hp => by
      rw [GoodS] at g
      obtain ⟨g1, g2, g3, g4⟩ := g
      rw [walkS, walk_shift] at h
      cases e : walk n 0 with
      | error x => rw [e] at h; cases h
      | ok l0 =>
        cases e' : walkS rest 0 with
        | error x => rw [e, e'] at h; cases h
        | ok r =>
          rw [e, e'] at h
          cases h
          rw [routeS]
          rcases List.mem_append.1 hp with hp | hp
          · obtain ⟨q, hq, rfl⟩ := List.mem_map.1 hp
            have := g3 l0 e q hq
            simp only
            rw [if_pos (by omega), show q.1 + (0 + (off : Int)) - off = q.1 by omega]
            exact good_walk n g1 l0 e q hq
          · rw [if_neg (g4 r e' p hp)]
            exact good_walkS rest g2 r e' p hp
end

/-- C435: without adders and with remaps which are their own inverse every endpoint of a tree of bridges
and interconnects is reported with the address at which it is accessed, for every address `base` of the
interface where the discovery starts. -/
theorem walk_partial (n : Net) (base : Int) (l : List (Int × Nat)) (g : Good n) (h : walk n base = .ok l) :
    ∀ p ∈ l, route n (p.1 - base) = some (p.2, 0) := by
  intro p hp
  rw [walk_shift] at h
  cases e : walk n 0 with
  | error x => rw [e] at h; cases h
  | ok l0 =>
    rw [e] at h; cases h
    obtain ⟨q, hq, rfl⟩ := List.mem_map.1 hp
    simp only
    rw [show q.1 + base - base = q.1 by omega]
    exact good_walk n g l0 e q hq

/-- two interconnects above three endpoints -/
def exTree : Net := .inter 1 (.cons 0x1000 0x100 (.bridge (.ep 1))
  (.cons 0x2000 0x1000 (.inter 1 (.cons 0 0x100 (.ep 2) (.cons 0x400 0x100 (.ep 3) .nil))) .nil))

example : walk exTree 0x8000 = .ok [(0x9000, 1), (0xa000, 2), (0xa400, 3)] ∧ Good exTree := by
  refine ⟨by rfl, ?_⟩
  refine ⟨trivial, ⟨⟨trivial, ⟨trivial, trivial, ?_, ?_⟩, ?_, ?_⟩, trivial, ?_, ?_⟩, ?_, ?_⟩ <;>
    (intro l h; cases h; simp <;> omega)

mutual
/-- the number of endpoints of a net -/
def eps : Net → Nat
  | .dead => 0
  | .ep _ => 1
  | .bridge n => eps n
  | .plus _ n => eps n
  | .remap _ n => eps n
  | .inter _ sl => epsS sl
def epsS : Slots → Nat
  | .nil => 0
  | .cons _ _ n rest => eps n + epsS rest
end

mutual
theorem walk_len : ∀ (n : Net) (o : Int) l, walk n o = .ok l → l.length = eps n
  | .dead, o, l, h => by cases h; rfl
  | .ep id, o, l, h => by cases h; rfl
  | .bridge n, o, l, h => by rw [walk] at h; rw [eps]; exact walk_len n o l h
  | .plus _ n, o, l, h => by rw [walk] at h; rw [eps]; exact walk_len n o l h
  | .remap m n, o, l, h => by
      rw [walk] at h; rw [eps]
      cases e : walk n 0 with
      | error x => rw [e] at h; cases h
      | ok l0 => rw [e] at h; cases h; rw [List.length_map]; exact walk_len n 0 l0 e
  | .inter k sl, o, l, h => by
      rw [walk] at h; rw [eps]
      split at h
      · exact walkS_len sl o l h
      · cases h
theorem walkS_len : ∀ (sl : Slots) (o : Int) l, walkS sl o = .ok l → l.length = epsS sl
  | .nil, o, l, h => by cases h; rfl
  | .cons off size n rest, o, l, h => by
      rw [walkS] at h
      cases e : walk n (o + off) with
      | error x => rw [e] at h; cases h
      | ok l0 =>
        cases e' : walkS rest o with
        | error x => rw [e, e'] at h; cases h
        | ok r =>
          rw [e, e'] at h; cases h
          rw [List.length_append, epsS, walk_len n _ l0 e, walkS_len rest o r e']
end

/-- C436, full statement: the discovered address space is the one which the master of the interface sees:
a register of the endpoint (an address below `size id`) is accessed at its address in the discovered
type. -/
def DiscoverFull : Prop := ∀ (size : Nat → Nat) (n : Net) (id : Nat), discover n 0 = .ok (some id) →
  ∀ a : Nat, a < size id → route n a = some (id, (a : Int))

/-- one endpoint in the window 0x1000..0x10ff -/
def exBase : Net := .inter 1 (.cons 0x1000 0x100 (.ep 7) .nil)

/-- C436: the offset of the endpoint is computed and lost: the registers of an endpoint at 0x1000 are
discovered at 0. -/
theorem discover_lost : walk exBase 0 = .ok [(0x1000, 7)] ∧ discover exBase 0 = .ok (some 7) ∧
    route exBase 0 = none ∧ route exBase 0x1000 = some (7, 0) ∧
    (∀ (n : Net) (o o' : Int), discover n o = discover n o') := by
  refine ⟨by rfl, by rfl, by rfl, by rfl, fun n o o' => ?_⟩
  unfold discover
  rw [walk_shift n o, walk_shift n o']
  cases walk n 0 with
  | error e => rfl
  | ok l =>
    rcases l with _ | ⟨a, _ | ⟨b, l⟩⟩ <;> rfl

theorem discover_violated : ¬ DiscoverFull := by
  intro h
  have := h (fun _ => 16) exBase 7 rfl 0 (by decide)
  revert this
  decide

/-- C436: the discovery succeeds only if there is at most one endpoint; a bus with two endpoints can not
be discovered. -/
theorem discover_one (n : Net) (o : Int) (r : Option Nat) (h : discover n o = .ok r) :
    (r = none ↔ eps n = 0) ∧ (r.isSome ↔ eps n = 1) ∧ eps n ≤ 1 := by
  unfold discover at h
  cases e : walk n o with
  | error x => rw [e] at h; cases h
  | ok l =>
    have hl := walk_len n o l e
    rw [e] at h
    rcases l with _ | ⟨a, _ | ⟨b, l⟩⟩
    · cases h; simp at hl; simp [← hl]
    · cases h; simp at hl; simp [← hl]
    · cases h

mutual
/-- The only endpoint is `id`, it is at address 0 and `len` addresses of it are in every window. -/
def Low (id len : Nat) : Net → Prop
  | .dead => False
  | .ep j => j = id
  | .bridge n => Low id len n
  | .plus k n => k = 0 ∧ Low id len n
  | .remap m n => Low id len n ∧ ∀ a : Nat, a < len → tv m a = a
  | .inter _ sl => LowS id len sl
def LowS (id len : Nat) : Slots → Prop
  | .nil => False
  | .cons off size n rest =>
    (off = 0 ∧ len ≤ size ∧ Low id len n) ∨ (eps n = 0 ∧ len ≤ off ∧ LowS id len rest)
end

mutual
theorem low_route (id len : Nat) : ∀ (n : Net), Low id len n → ∀ a : Nat, a < len → route n a = some (id, (a : Int))
  | .dead, g, a, ha => by cases g
  | .ep j, g, a, ha => by rw [Low] at g; rw [route, g]
  | .bridge n, g, a, ha => by rw [Low] at g; rw [route]; exact low_route id len n g a ha
  | .plus k n, g, a, ha => by
      rw [Low] at g; rw [route, g.1, Int.add_zero]; exact low_route id len n g.2 a ha
  | .remap m n, g, a, ha => by
      rw [Low] at g; rw [route, g.2 a ha]; exact low_route id len n g.1 a ha
  | .inter _ sl, g, a, ha => by rw [Low] at g; rw [route]; exact low_routeS id len sl g a ha
theorem low_routeS (id len : Nat) : ∀ (sl : Slots), LowS id len sl → ∀ a : Nat, a < len →
    routeS sl a = some (id, (a : Int))
  | .nil, g, a, ha => by cases g
  | .cons off size n rest, g, a, ha => by
      rw [LowS] at g; rw [routeS]
      rcases g with ⟨rfl, h2, h3⟩ | ⟨h1, h2, h3⟩
      · rw [if_pos (by omega), show (a : Int) - ((0 : Nat) : Int) = a by omega]
        exact low_route id len n h3 a ha
      · rw [if_neg (by omega)]
        exact low_routeS id len rest h3 a ha
end

mutual
theorem low_mem (id len : Nat) : ∀ (n : Net), Low id len n → ∀ o l, walk n o = .ok l → id ∈ l.map Prod.snd
  | .dead, g, o, l, h => by cases g
  | .ep j, g, o, l, h => by rw [Low] at g; cases h; simp [g]
  | .bridge n, g, o, l, h => by rw [Low] at g; rw [walk] at h; exact low_mem id len n g o l h
  | .plus k n, g, o, l, h => by rw [Low] at g; rw [walk] at h; exact low_mem id len n g.2 o l h
  | .remap m n, g, o, l, h => by
      rw [Low] at g; rw [walk] at h
      cases e : walk n 0 with
      | error x => rw [e] at h; cases h
      | ok l0 =>
        rw [e] at h; cases h
        have := low_mem id len n g.1 0 l0 e
        simpa using this
  | .inter k sl, g, o, l, h => by
      rw [Low] at g; rw [walk] at h
      split at h
      · exact low_memS id len sl g o l h
      · cases h
theorem low_memS (id len : Nat) : ∀ (sl : Slots), LowS id len sl → ∀ o l, walkS sl o = .ok l →
    id ∈ l.map Prod.snd
  | .nil, g, o, l, h => by cases g
  | .cons off size n rest, g, o, l, h => by
      rw [LowS] at g; rw [walkS] at h
      cases e : walk n (o + off) with
      | error x => rw [e] at h; cases h
      | ok l0 =>
        cases e' : walkS rest o with
        | error x => rw [e, e'] at h; cases h
        | ok r =>
          rw [e, e'] at h; cases h
          rw [List.map_append, List.mem_append]
          rcases g with ⟨_, _, h3⟩ | ⟨_, _, h3⟩
          · exact Or.inl (low_mem id len n h3 _ l0 e)
          · exact Or.inr (low_memS id len rest h3 o r e')
end

/-- C436: the discovered type describes the address space if the endpoint is at address 0 of every
interconnect and remaps do not move its addresses. -/
theorem discover_partial (n : Net) (id k len : Nat) (g : Low id len n) (h : discover n 0 = .ok (some k)) :
    k = id ∧ ∀ a : Nat, a < len → route n a = some (k, (a : Int)) := by
  have hk : k = id := by
    unfold discover at h
    cases e : walk n 0 with
    | error x => rw [e] at h; cases h
    | ok l =>
      have hm := low_mem id len n g 0 l e
      rw [e] at h
      rcases l with _ | ⟨a, _ | ⟨b, l⟩⟩
      · cases h
      · cases h; simp at hm; exact hm.symm
      · cases h
  exact ⟨hk, fun a ha => by rw [hk]; exact low_route id len n g a ha⟩

example : Low 5 0x80 (.bridge (.inter 1 (.cons 0x1000 0x100 .dead (.cons 0 0x100 (.ep 5) .nil)))) ∧
    discover (.bridge (.inter 1 (.cons 0x1000 0x100 .dead (.cons 0 0x100 (.ep 5) .nil)))) 0 = .ok (some 5) := by
  refine ⟨?_, by rfl⟩
  simp [Low, LowS, eps]

end Verif.AddrProbe
