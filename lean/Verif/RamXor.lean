import Verif.Common
/-!
# Model of `RamXorSingleClock` (hwtLib/mem/ramXor.py)

`n` write ports and any number of read ports; words are natural numbers with bitwise xor (all
operations are bitwise, so this covers every `DATA_WIDTH`).
-/
namespace Verif.RamXor

/-- `Xor` of `f 0 .. f (n-1)`. -/
def xorAll (f : Nat → Nat) : Nat → Nat
  | 0 => 0
  | n + 1 => xorAll f n ^^^ f n

/-- The same without index `i` (mem/ramXor.py:133-136). -/
def xorExcept (i : Nat) (f : Nat → Nat) : Nat → Nat
  | 0 => 0
  | n + 1 => if n = i then xorExcept i f n else xorExcept i f n ^^^ f n

structure WPort where
  en : Bool
  addr : Nat
  din : Nat

structure RPort where
  en : Bool
  addr : Nat

structure In where
  w : Nat → WPort
  r : Nat → RPort

/-- Contents (`wm y x`, `rm k x`) and output registers (`wd y x`, `rd k x`) of the memories
`w_rams[y][x]`, `r_rams[k][x]` (mem/ramXor.py:104-112) and the write registers (:145-150). -/
structure St where
  wm : Nat → Nat → Nat → Nat
  wd : Nat → Nat → Nat
  rm : Nat → Nat → Nat → Nat
  rd : Nat → Nat → Nat
  en : Nat → Bool
  ad : Nat → Nat
  da : Nat → Nat

/-- mem/ramXor.py:152 `xored_data` of write port `i` -/
def xored (n : Nat) (s : St) (i : Nat) : Nat := s.da i ^^^ xorExcept i (s.wd i) n

/-- mem/ramXor.py:164-173, output of read port `k`; the comparison uses the current `r.addr`. -/
def out (n : Nat) (s : St) (i : In) (k : Nat) : Nat :=
  xorAll (fun x => if s.en x && s.ad x == (i.r k).addr then xored n s x else s.rd k x) n

/-- Write port of the primitive memory (mem/ram.py:136-141) -/
def memWr (en : Bool) (a d : Nat) (m : Nat → Nat) : Nat → Nat := if en then upd m a d else m

/-- Clock edge, mem/ramXor.py:132-171; primitive memories are `RamSingleClock` with a write and a read
port (mem/ram.py:130-141). -/
def next (n : Nat) (s : St) (i : In) : St where
  wm y x := memWr (s.en x) (s.ad x) (xored n s x) (s.wm y x)
  wd y x := if (i.w y).en then s.wm y x (i.w y).addr else s.wd y x
  rm k x := memWr (s.en x) (s.ad x) (xored n s x) (s.rm k x)
  rd k x := if (i.r k).en then s.rm k x (i.r k).addr else s.rd k x
  en y := (i.w y).en
  ad y := (i.w y).addr
  da y := (i.w y).din

def machine (n : Nat) : Machine St In (Nat → Nat) := ⟨out n, next n⟩

/-- Power up: memories hold zeros (mem/ramXor.py:122), `w_en_reg` is 0 (:147), other registers have
arbitrary values. -/
def init (wd rd : Nat → Nat → Nat) (ad da : Nat → Nat) : St :=
  ⟨fun _ _ _ => 0, wd, fun _ _ _ => 0, rd, fun _ => false, ad, da⟩

/-- Write port `p` writes address `a` in cycle `c`. -/
def Writes (c : In) (p a : Nat) : Prop := (c.w p).en = true ∧ (c.w p).addr = a

/-- The schedule restriction under which the component works: two different write ports do not write
the same address in the same cycle or in two consecutive cycles. -/
def Sep (n : Nat) : List In → Prop
  | [] => True
  | c :: cs =>
    (∀ x y, x < n → y < n → x ≠ y → ∀ a, Writes c x a → ¬ Writes c y a) ∧
    (match cs with
      | [] => True
      | d :: _ => ∀ x y, x < n → y < n → x ≠ y → ∀ a, Writes c x a → ¬ Writes d y a) ∧
    Sep n cs

/-! ## Lemmas -/

theorem xorAll_congr {f g : Nat → Nat} : ∀ {n : Nat}, (∀ x, x < n → f x = g x) →
    xorAll f n = xorAll g n := by
  intro n
  induction n with
  | zero => intro _; rfl
  | succ n ih =>
    intro h
    simp only [xorAll]
    rw [ih fun x hx => h x (by omega), h n (by omega)]

theorem xorExcept_congr {i : Nat} {f g : Nat → Nat} : ∀ {n : Nat},
    (∀ x, x < n → x ≠ i → f x = g x) → xorExcept i f n = xorExcept i g n := by
  intro n
  induction n with
  | zero => intro _; rfl
  | succ n ih =>
    intro h
    simp only [xorExcept]
    rw [ih fun x hx => h x (by omega)]
    by_cases e : n = i
    · rw [if_pos e, if_pos e]
    · rw [if_neg e, if_neg e, h n (by omega) e]

theorem xorAll_except_ge {i : Nat} {f : Nat → Nat} : ∀ {n : Nat}, n ≤ i →
    xorExcept i f n = xorAll f n := by
  intro n
  induction n with
  | zero => intro _; rfl
  | succ n ih =>
    intro h
    simp only [xorAll, xorExcept]
    rw [if_neg (by omega), ih (by omega)]

theorem xorAll_split {i : Nat} {f : Nat → Nat} : ∀ {n : Nat}, i < n →
    xorAll f n = f i ^^^ xorExcept i f n := by
  intro n
  induction n with
  | zero => intro h; omega
  | succ n ih =>
    intro h
    simp only [xorAll, xorExcept]
    by_cases e : n = i
    · subst e
      rw [if_pos rfl, xorAll_except_ge (Nat.le_refl _), Nat.xor_comm]
    · rw [if_neg e, ih (by omega), Nat.xor_assoc]

/-- `bank x`: common contents of column `x`; `m`: specified contents including pending writes. -/
structure Inv (n : Nat) (s : St) (bank : Nat → Nat → Nat) (m : Nat → Nat) : Prop where
  wm_eq : ∀ y x, y ≠ x → s.wm y x = bank x
  rm_eq : ∀ k x, s.rm k x = bank x
  dist : ∀ x y, x < n → y < n → x ≠ y → s.en x = true → s.en y = true → s.ad x ≠ s.ad y
  ld : ∀ i x, i < n → x < n → x ≠ i → s.en i = true → s.wd i x = bank x (s.ad i)
  pend : ∀ x, x < n → s.en x = true → m (s.ad x) = s.da x
  calm : ∀ a, (∀ x, x < n → s.en x = true → s.ad x ≠ a) → m a = xorAll (fun x => bank x a) n

theorem init_inv (n : Nat) (wd rd : Nat → Nat → Nat) (ad da : Nat → Nat) :
    Inv n (init wd rd ad da) (fun _ _ => 0) (fun _ => 0) := by
  constructor
  · intros; rfl
  · intros; rfl
  · intro x y _ _ _ h; cases h
  · intro x y _ _ _ h; cases h
  · intro x _ h; cases h
  · intro a _
    have : ∀ n, xorAll (fun _ => 0) n = 0 := by
      intro n
      induction n with
      | zero => rfl
      | succ n ih => simp [xorAll, ih]
    exact (this n).symm

/-- spec memory update -/
def specNext (c : In) (m : Nat → Nat) : Nat → Nat → Nat
  | 0 => m
  | n + 1 => fun a => if (c.w n).en && (c.w n).addr == a then (c.w n).din else specNext c m n a

theorem specNext_keep {c : In} {m : Nat → Nat} {a : Nat} : ∀ {n : Nat},
    (∀ x, x < n → ¬ Writes c x a) → specNext c m n a = m a := by
  intro n
  induction n with
  | zero => intro _; rfl
  | succ n ih =>
    intro h
    have h1 := h n (by omega)
    simp only [specNext]
    rw [if_neg (by simpa [Writes] using h1)]
    exact ih fun x hx => h x (by omega)

theorem specNext_write {c : In} {m : Nat → Nat} {a p : Nat} : ∀ {n : Nat}, p < n → Writes c p a →
    (∀ x, x < n → x ≠ p → ¬ Writes c x a) → specNext c m n a = (c.w p).din := by
  intro n
  induction n with
  | zero => intro h; omega
  | succ n ih =>
    intro hp hw ho
    simp only [specNext]
    by_cases e : n = p
    · subst e
      rw [if_pos (by simpa [Writes] using hw)]
    · rw [if_neg (by simpa [Writes] using ho n (by omega) e)]
      exact ih (by omega) hw fun x hx => ho x (by omega)

theorem step_inv {n : Nat} {s : St} {bank : Nat → Nat → Nat} {m : Nat → Nat} (h : Inv n s bank m)
    (c : In)
    (h1 : ∀ x y, x < n → y < n → x ≠ y → ∀ a, Writes c x a → ¬ Writes c y a)
    (h2 : ∀ x y, x < n → y < n → x ≠ y → s.en x = true → ¬ Writes c y (s.ad x)) :
    Inv n (next n s c) (fun x => memWr (s.en x) (s.ad x) (xored n s x) (bank x))
      (specNext c m n) := by
  constructor
  · intro y x e
    show memWr _ _ _ (s.wm y x) = _
    rw [h.wm_eq y x e]
  · intro k x
    show memWr _ _ _ (s.rm k x) = _
    rw [h.rm_eq k x]
  · intro x y hx hy e e1 e2 e3
    exact h1 x y hx hy e _ ⟨e1, rfl⟩ ⟨e2, e3.symm⟩
  · intro i x hi hx e hen
    have hen' : (c.w i).en = true := hen
    show (if (c.w i).en then s.wm i x (c.w i).addr else s.wd i x) = _
    rw [if_pos hen', h.wm_eq i x (fun q => e q.symm)]
    unfold memWr
    cases hx2 : s.en x
    · rfl
    · show _ = upd _ _ _ (c.w i).addr
      rw [upd_ne]
      intro q
      exact h2 x i hx hi e hx2 ⟨hen', q⟩
  · intro x hx hen
    exact specNext_write hx ⟨hen, rfl⟩ fun y hy e hw => h1 x y hx hy (fun q => e q.symm) _ ⟨hen, rfl⟩ hw
  · intro a ha
    have ha' : ∀ x, x < n → ¬ Writes c x a := fun x hx hw => ha x hx hw.1 hw.2
    rw [specNext_keep ha']
    by_cases hp : ∃ x, x < n ∧ s.en x = true ∧ s.ad x = a
    · obtain ⟨x, hx, hen, rfl⟩ := hp
      rw [h.pend x hx hen, xorAll_split hx]
      have e1 : memWr (s.en x) (s.ad x) (xored n s x) (bank x) (s.ad x) = xored n s x := by
        simp [memWr, hen]
      have e2 : xorExcept x (fun y => memWr (s.en y) (s.ad y) (xored n s y) (bank y) (s.ad x)) n
          = xorExcept x (s.wd x) n := by
        apply xorExcept_congr
        intro y hy e
        rw [h.ld x y hx hy e hen]
        unfold memWr
        cases hy2 : s.en y
        · rfl
        · show upd _ _ _ _ = _
          rw [upd_ne]
          exact h.dist x y hx hy (fun q => e q.symm) hen hy2
      rw [e1, e2]
      unfold xored
      rw [Nat.xor_assoc, Nat.xor_self, Nat.xor_zero]
    · have hp' : ∀ x, x < n → s.en x = true → s.ad x ≠ a := fun x hx hen e => hp ⟨x, hx, hen, e⟩
      rw [h.calm a hp']
      apply xorAll_congr
      intro x hx
      unfold memWr
      cases hx2 : s.en x
      · rfl
      · show _ = upd _ _ _ _
        rw [upd_ne]
        exact fun q => hp' x hx hx2 q.symm

/-- specified contents after a history -/
def spec (n : Nat) (m : Nat → Nat) : List In → Nat → Nat
  | [] => m
  | c :: cs => spec n (specNext c m n) cs

theorem spec_append (n : Nat) (m : Nat → Nat) (a b : List In) :
    spec n m (a ++ b) = spec n (spec n m a) b := by
  induction a generalizing m with
  | nil => rfl
  | cons c cs ih => simp [spec, ih]

theorem spec_keep {n : Nat} {a : Nat} (cs : List In) : ∀ (m : Nat → Nat),
    (∀ c ∈ cs, ∀ x, x < n → ¬ Writes c x a) → spec n m cs a = m a := by
  induction cs with
  | nil => intro m _; rfl
  | cons c cs ih =>
    intro m h
    simp only [spec]
    rw [ih _ fun d hd => h d (List.mem_cons_of_mem _ hd)]
    exact specNext_keep (h c List.mem_cons_self)

theorem run_inv {n : Nat} : ∀ (cs : List In) (s : St) (bank : Nat → Nat → Nat) (m : Nat → Nat),
    Inv n s bank m → Sep n cs →
    (∀ c, cs.head? = some c → ∀ x y, x < n → y < n → x ≠ y → s.en x = true → ¬ Writes c y (s.ad x)) →
    ∃ bank', Inv n ((machine n).final s cs) bank' (spec n m cs) := by
  intro cs
  induction cs with
  | nil => intro s bank m h _ _; exact ⟨bank, h⟩
  | cons c cs ih =>
    intro s bank m h hs hh
    refine ih _ _ _ (step_inv h c hs.1 (hh c rfl)) hs.2.2 ?_
    intro d hd x y hx hy e hen hw
    have := hs.2.1
    cases cs with
    | nil => cases hd
    | cons d' ds =>
      simp at hd
      subst hd
      exact this x y hx hy e _ ⟨hen, rfl⟩ hw

end Verif.RamXor
