import Verif.StrFormat

/-! # Properties of `Axi4S_strFormat` (C303-C307) -/

namespace Verif.StrFormat

open Verif

/-! ## printf semantic -/

def base : Ty → Nat
  | .b => 2
  | .o => 8
  | .d => 10
  | .x => 16
  | .X => 16

/-- character of a digit -/
def digitChar (t : Ty) (d : Nat) : Nat := if d < 10 then 48 + d else if t = .X then 65 + (d - 10) else 97 + (d - 10)

/-- last `n` digits of the number, the most significant first -/
def digitsOf (t : Ty) (n x : Nat) : List Nat := (List.range n).map fun c => digitChar t (x / base t ^ (n - 1 - c) % base t)

/-- text of an item, `a` are values of the numbers, `S` are strings of the streams in the frame -/
def render (a : Nat → Nat) (S : Nat → List Nat) : Item → List Nat
  | .str s => s
  | .num t n i => digitsOf t n (a i)
  | .stream i => S i

/-- AXI-stream words of a text: `last` is set only in the last of them -/
def mark (l : List Nat) : List (Option Nat × Bool) := l.zipIdx.map fun e => (some e.1, decide (e.2 + 1 = l.length))

/-- frame of the text printed with the `K`-th string of every stream -/
def frameSpec (F : List Item) (a : Nat → Nat) (S : Nat → Nat → List Nat) (K : Nat) : List (Option Nat × Bool) :=
  mark (F.flatMap (render a fun i => S i K))

/-! ## environment -/

/-- constants of one run: values of the numbers and strings sent to the streams -/
structure Env where
  c : Cfg
  a : Nat → Nat
  S : Nat → Nat → List Nat

/-- one cycle: ready of the consumer, valid of the sources of strings -/
structure Cyc where
  ready : Bool
  vld : Nat → Bool

/-- the formatter, positions (string, character) of the sources and the accepted output words -/
structure Sys where
  s : St
  pos : Nat → Nat × Nat
  outs : List (Option Nat × Bool)

def inp (e : Env) (y : Sys) (x : Cyc) : In where
  ready := x.ready
  arg := e.a
  sv := x.vld
  sd := fun i => (e.S i (y.pos i).1).getD (y.pos i).2 0
  sl := fun i => (y.pos i).2 + 1 == (e.S i (y.pos i).1).length

def adv (last : Bool) (p : Nat × Nat) : Nat × Nat := if last then (p.1 + 1, 0) else (p.1, p.2 + 1)

def sys (e : Env) (y : Sys) (x : Cyc) : Sys where
  s := next e.c y.s (inp e y x)
  pos := fun i => if (out e.c y.s (inp e y x)).srd i && x.vld i then adv ((inp e y x).sl i) (y.pos i) else y.pos i
  outs := y.outs ++ given ((out e.c y.s (inp e y x)).valid && x.ready)
    ((out e.c y.s (inp e y x)).data, (out e.c y.s (inp e y x)).last)

def run (e : Env) (y : Sys) (xs : List Cyc) : Sys := xs.foldl (sys e) y

def sys0 (b0 : Nat) : Sys := ⟨init b0, fun _ => (0, 0), []⟩

/-- number of characters printed from the memory -/
def size : Item → Nat
  | .str s => s.length
  | .num _ n _ => n
  | .stream _ => 0

structure Wf (e : Env) : Prop where
  ne : e.c.F ≠ []
  str : ∀ s, Item.str s ∈ e.c.F → s ≠ []
  dig : ∀ t n i, Item.num t n i ∈ e.c.F → 0 < n
  /-- `char_i` is wide enough -/
  cw : ∀ it ∈ e.c.F, size it ≤ 2 ^ cw e.c
  /-- values fit into the inputs -/
  arg : ∀ t n i, Item.num t n i ∈ e.c.F → t ≠ .d → e.a i < 2 ^ e.c.aw i
  dec : ∀ n i, Item.num .d n i ∈ e.c.F → e.a i < 2 ^ bcdW e.c
  /-- no empty strings -/
  sne : ∀ i k, e.S i k ≠ []
  /-- a string argument is used once, strformat_fn.py:156 -/
  once : ∀ j j' i : Nat, e.c.F[j]? = some (Item.stream i) → e.c.F[j']? = some (Item.stream i) → j = j'

/-! ## memory -/

theorem rom_str (F : List Item) (m : Nat) (s : List Nat) (h : F[m]? = some (.str s)) (i : Nat) (hi : i < s.length) :
    romRead F (strOff F m) i = some s[i] := by
  obtain ⟨hm, hF⟩ := List.getElem?_eq_some_iff.1 h
  have e1 : F = F.take m ++ .str s :: F.drop (m + 1) := by
    rw [← hF, List.getElem_cons_drop, List.take_append_drop]
  have e2 : F.flatMap strBytes = (F.take m).flatMap strBytes ++ (s ++ (F.drop (m + 1)).flatMap strBytes) := by
    conv => lhs; rw [e1]
    rw [List.flatMap_append, List.flatMap_cons]; rfl
  have e3 : rom F = (F.take m).flatMap strBytes ++ (s ++ ((F.drop (m + 1)).flatMap strBytes ++ tables F tyOrder)) := by
    unfold rom; rw [e2]; simp only [List.append_assoc]
  have hlt : strOff F m + i < (rom F).length := by
    rw [e3]; simp only [strOff, List.length_append]; omega
  unfold romRead
  rw [Nat.mod_eq_of_lt (Nat.lt_of_lt_of_le hlt (le_two_pow_log2ceil _)), e3, strOff,
    List.getElem?_append_right (by omega), Nat.add_sub_cancel_left, List.getElem?_append_left hi, List.getElem?_eq_getElem hi]

theorem tables_split (F : List Item) (t : Ty) (h : hasTy F t = true) :
    ∃ r, tables F tyOrder = tables F (tyOrder.takeWhile (· ≠ t)) ++ (table t ++ r) := by
  have hs : ∀ t, ∃ r, tyOrder = tyOrder.takeWhile (· ≠ t) ++ t :: r := by
    intro t; cases t <;> exact ⟨_, rfl⟩
  obtain ⟨r, hr⟩ := hs t
  refine ⟨tables F r, ?_⟩
  conv => lhs; rw [hr]
  unfold tables
  rw [List.filter_append, List.filter_cons, if_pos h, List.flatMap_append, List.flatMap_cons]

theorem table_get (t : Ty) (d : Nat) (h : d < base t) : (table t)[d]? = some (digitChar t d) := by
  have : ∀ d < 16, ∀ t ∈ tyOrder, d < base t → (table t)[d]? = some (digitChar t d) := by decide
  exact this d (by cases t <;> simp only [base] at h <;> omega) t (by cases t <;> decide) h

theorem rom_tab (F : List Item) (t : Ty) (h : hasTy F t = true) (d : Nat) (hd : d < base t) :
    romRead F (tabOff F t) d = some (digitChar t d) := by
  obtain ⟨r, hr⟩ := tables_split F t h
  have ht := table_get t d hd
  have hl := (List.getElem?_eq_some_iff.1 ht).1
  have e3 : rom F = (F.flatMap strBytes ++ tables F (tyOrder.takeWhile (· ≠ t))) ++ (table t ++ r) := by
    unfold rom; rw [hr]; simp only [List.append_assoc]
  have hlt : tabOff F t + d < (rom F).length := by
    rw [e3]; simp only [tabOff, List.length_append]; omega
  unfold romRead
  rw [Nat.mod_eq_of_lt (Nat.lt_of_lt_of_le hlt (le_two_pow_log2ceil _)), e3, tabOff, List.getElem?_append_right
    (by rw [List.length_append]; omega), List.length_append, Nat.add_sub_cancel_left, List.getElem?_append_left hl, ht]

theorem hasTy_of (F : List Item) (t : Ty) (n i : Nat) (h : Item.num t n i ∈ F) : hasTy F t = true :=
  List.any_eq_true.2 ⟨_, h, by simp⟩

/-! ## digits -/

theorem mux_num (t : Ty) (ht : t ≠ .d) (w n x ch : Nat) (hx : x < 2 ^ w) (hc : ch < n) :
    digitMux w (bitsPer t) n x ch = some (x / base t ^ (n - 1 - ch) % base t) := by
  unfold digitMux
  rw [if_pos hc]
  have hb : base t = 2 ^ bitsPer t := by cases t <;> first | rfl | exact absurd rfl ht
  have hp : 0 < bitsPer t := by cases t <;> decide
  generalize n - 1 - ch = i
  rw [hb]
  generalize bitsPer t = b at hp
  show some _ = _
  congr 1
  rw [← Nat.pow_mul, Nat.mul_comm b i]
  split
  · rename_i h
    by_cases hle : (i + 1) * b ≤ w
    · rw [Nat.min_eq_left hle]
      congr 2
      rw [Nat.add_mul]; omega
    · rw [Nat.min_eq_right (by omega)]
      have h1 : x / 2 ^ (i * b) < 2 ^ (w - i * b) := by
        rw [Nat.div_lt_iff_lt_mul (Nat.two_pow_pos _), ← Nat.pow_add]
        rwa [Nat.sub_add_cancel (by omega)]
      have h2 : 2 ^ (w - i * b) ≤ 2 ^ b := Nat.pow_le_pow_right (by decide) (by rw [Nat.add_mul] at hle; omega)
      rw [Nat.mod_eq_of_lt h1, Nat.mod_eq_of_lt (by omega)]
  · rename_i h
    rw [Nat.div_eq_of_lt, Nat.zero_mod]
    exact Nat.lt_of_lt_of_le hx (Nat.pow_le_pow_right (by decide) (by omega))

theorem mux_dec (W D n x ch : Nat) (hW : 2 ^ W ≤ 10 ^ D) (hx : x < 2 ^ W) (hc : ch < n) :
    digitMux (4 * D) 4 n (Bcd.toBcd D x) ch = some (x / 10 ^ (n - 1 - ch) % 10) := by
  unfold digitMux
  rw [if_pos hc]
  generalize n - 1 - ch = i
  show some _ = _
  congr 1
  split
  · rename_i h
    have hi : i < D := by omega
    rw [show min ((i + 1) * 4) (4 * D) - i * 4 = 4 by omega, show i * 4 = 4 * i by omega, Nat.pow_mul]
    exact Bcd.toBcd_nibble D x i hi
  · rename_i h
    rw [Nat.div_eq_of_lt, Nat.zero_mod]
    have : 10 ^ D ≤ 10 ^ i := Nat.pow_le_pow_right (by decide) (by omega)
    omega

/-! ## frames -/

/-- text of the item number `m` -/
def text (e : Env) (K m : Nat) : List Nat := match e.c.F[m]? with | some it => render e.a (fun i => e.S i K) it | none => []

def words (e : Env) (K m : Nat) : List (Option Nat × Bool) :=
  if m + 1 = e.c.F.length then mark (text e K m) else (text e K m).map fun d => (some d, false)

def frame (e : Env) (K : Nat) : List (Option Nat × Bool) := (List.range e.c.F.length).flatMap (words e K)

theorem mark_append (l r : List Nat) (h : r ≠ []) : mark (l ++ r) = l.map (fun d => (some d, false)) ++ mark r := by
  unfold mark
  rw [List.zipIdx_append, List.map_append]
  have hr : 0 < r.length := List.length_pos_iff.2 h
  congr 1
  · apply List.ext_getElem (by simp)
    intro n h1 h2
    simp at h1 h2 ⊢
    omega
  · apply List.ext_getElem (by simp)
    intro n h1 h2
    simp at h1 h2 ⊢
    omega

theorem words_length (e : Env) (K m : Nat) : (words e K m).length = (text e K m).length := by
  unfold words; split <;> simp [mark]

theorem words_get (e : Env) (K m p : Nat) (h : p < (text e K m).length) : (words e K m)[p]? =
    some (some (text e K m)[p], decide (m + 1 = e.c.F.length) && decide (p + 1 = (text e K m).length)) := by
  unfold words
  split
  · rename_i hm
    simp [mark, hm, h]
  · rename_i hm
    simp [hm, h]

theorem text_pos {e : Env} (w : Wf e) (K m : Nat) (hm : m < e.c.F.length) : 0 < (text e K m).length := by
  unfold text
  rw [List.getElem?_eq_getElem hm]
  have hmem := List.getElem_mem hm
  cases hit : e.c.F[m] with
  | str s => rw [hit] at hmem; exact List.length_pos_iff.2 (w.str s hmem)
  | num t n i => rw [hit] at hmem; simpa [render, digitsOf] using w.dig t n i hmem
  | stream i => exact List.length_pos_iff.2 (w.sne i K)

theorem flatMap_text (e : Env) (K : Nat) : ∀ n, n ≤ e.c.F.length →
    (e.c.F.take n).flatMap (render e.a fun i => e.S i K) = (List.range n).flatMap (text e K) := by
  intro n
  induction n with
  | zero => intro _; rfl
  | succ n ih =>
    intro h
    rw [List.range_succ, List.flatMap_append, ← ih (by omega), List.take_add_one, List.flatMap_append]
    congr 1
    simp only [List.flatMap_cons, List.flatMap_nil, List.append_nil, text]
    rw [List.getElem?_eq_getElem (by omega)]
    simp

/-- items of a frame are the frame of the whole text -/
theorem frame_eq {e : Env} (w : Wf e) (K : Nat) : frame e K = frameSpec e.c.F e.a e.S K := by
  have hne : 0 < e.c.F.length := List.length_pos_iff.2 w.ne
  obtain ⟨n, hn⟩ : ∃ n, e.c.F.length = n + 1 := ⟨e.c.F.length - 1, by omega⟩
  unfold frame frameSpec
  have h1 := flatMap_text e K e.c.F.length (Nat.le_refl _)
  rw [List.take_length] at h1
  rw [h1, hn, List.range_succ, List.flatMap_append, List.flatMap_append]
  simp only [List.flatMap_cons, List.flatMap_nil, List.append_nil]
  rw [mark_append _ _ (List.ne_nil_of_length_pos (text_pos w K n (by omega)))]
  congr 1
  · rw [List.map_flatMap]
    apply flatMap_congr_range
    intro m hm
    unfold words
    rw [if_neg (by omega)]
  · unfold words
    rw [if_pos hn.symm]
where
  flatMap_congr_range {α : Type} {f g : Nat → List α} : ∀ {n : Nat}, (∀ m, m < n → f m = g m) →
      (List.range n).flatMap f = (List.range n).flatMap g := by
    intro n
    induction n with
    | zero => intro _; rfl
    | succ n ih =>
      intro h
      rw [List.range_succ, List.flatMap_append, List.flatMap_append, ih fun m hm => h m (by omega)]
      simp [h n (by omega)]

/-! ## invariant -/

/-- position in the text of the current item -/
def prog (e : Env) (y : Sys) : Nat := match item e.c y.s with | some (.stream i) => (y.pos i).2 | _ => y.s.ch

/-- the decimal converter -/
def BcdOk (e : Env) (s : St) : Prop :=
  match item e.c s with
  | some (.num .d _ i) => (s.bcd.st = .idle ∧ s.ch = 0) ∨
      ((Bcd.bpending (bcdW e.c) (bcdD e.c) s.bcd).map (Bcd.toBcd (bcdD e.c)) = [Bcd.toBcd (bcdD e.c) (e.a i)] ∧
        (0 < s.ch → s.bcd.st = .fin))
  | _ => s.bcd.st = .idle

structure Inv (e : Env) (K : Nat) (y : Sys) : Prop where
  main : y.s.main < e.c.F.length
  prog : prog e y < (text e K y.s.main).length
  outs : y.outs = (List.range K).flatMap (frame e) ++ (List.range y.s.main).flatMap (words e K) ++
    (words e K y.s.main).take (StrFormat.prog e y)
  past : ∀ j i, e.c.F[j]? = some (.stream i) → j < y.s.main → y.pos i = (K + 1, 0)
  now : ∀ i, item e.c y.s = some (.stream i) → (y.pos i).1 = K
  fut : ∀ j i, e.c.F[j]? = some (.stream i) → y.s.main < j → y.pos i = (K, 0)
  binv : Bcd.BInv (bcdW e.c) (bcdD e.c) y.s.bcd
  bcd : BcdOk e y.s

theorem beq_fin (a b : Bcd.BSt) : (a == b) = decide (a = b) := rfl

theorem hD (e : Env) : 2 ^ bcdW e.c ≤ 10 ^ bcdD e.c := Bcd.decDigits_ok _

/-- the word on the output is the next one of the current item -/
theorem out_word {e : Env} (w : Wf e) {K : Nat} {y : Sys} (h : Inv e K y) (x : Cyc)
    (hv : inVld e.c y.s (inp e y x) = true) :
    inLast e.c y.s (inp e y x) = decide (prog e y + 1 = (text e K y.s.main).length) ∧
    (words e K y.s.main)[prog e y]? = some ((out e.c y.s (inp e y x)).data, (out e.c y.s (inp e y x)).last) := by
  have hp := h.prog
  have hmain := h.main
  suffices hs : inLast e.c y.s (inp e y x) = decide (prog e y + 1 = (text e K y.s.main).length) ∧
      data e.c y.s (inp e y x) = some (text e K y.s.main)[prog e y] by
    refine ⟨hs.1, ?_⟩
    rw [words_get e K _ _ hp]
    simp only [out]
    rw [hs.1, hs.2]
    congr 2
    rw [Bool.eq_iff_iff]
    simp
    omega
  have hit : item e.c y.s = some e.c.F[y.s.main] := List.getElem?_eq_getElem hmain
  have hmem := List.getElem_mem hmain
  have hnow := h.now
  have hbcd := h.bcd
  have hbinv := h.binv
  have etext : text e K y.s.main = render e.a (fun i => e.S i K) e.c.F[y.s.main] := by
    unfold text; rw [List.getElem?_eq_getElem hmain]
  generalize hT : text e K y.s.main = T at *
  generalize hP : prog e y = P at *
  unfold prog at hP
  unfold inVld at hv
  unfold BcdOk at hbcd
  unfold inLast data
  cases hc : e.c.F[y.s.main] with
  | str s =>
    rw [hc] at hit hmem etext
    simp only [hit] at hP ⊢
    subst hP
    have et : T = s := etext
    have hp' : y.s.ch < s.length := by rw [← et]; exact hp
    refine ⟨?_, ?_⟩
    · show (y.s.ch == s.length - 1) = decide (y.s.ch + 1 = T.length)
      rw [et, Bool.eq_iff_iff]; simp; omega
    · simp only [et]
      exact rom_str e.c.F _ s hit _ hp'
  | stream i =>
    rw [hc] at hit hmem etext
    simp only [hit] at hP ⊢
    subst etext
    subst hP
    have := hnow i hit
    simp only [render, inp] at hp ⊢
    rw [this]
    refine ⟨rfl, ?_⟩
    simp [hp]
  | num t n i =>
    rw [hc] at hit hmem etext
    have hl : T.length = n := by rw [etext]; simp [render, digitsOf]
    have hd0 := w.dig t n i hmem
    have hg : ∀ (hp : P < T.length), T[P] = digitChar t (e.a i / base t ^ (n - 1 - P) % base t) := by
      intro hp; simp only [etext, render, digitsOf]; simp
    have hb : 0 < base t := by cases t <;> decide
    have ht := hasTy_of _ _ _ _ hmem
    by_cases htd : t = .d
    · subst htd
      simp only [hit] at hP hv hbcd ⊢
      rw [beq_fin] at hv
      have hfin := of_decide_eq_true hv
      refine ⟨by rw [Bool.eq_iff_iff]; simp; omega, ?_⟩
      have hdat : (Bcd.bout (bcdD e.c) y.s.bcd).data = Bcd.toBcd (bcdD e.c) (e.a i) := by
        rcases hbcd with hbcd | hbcd
        · rw [hbcd.1] at hfin; exact absurd hfin (by decide)
        · have h1 := hbcd.1
          unfold Bcd.bpending at h1
          rw [hfin] at h1
          simp only [List.map_cons, List.map_nil, List.cons.injEq, and_true] at h1
          exact (Bcd.fin_data hbinv).trans h1
      rw [hdat, hP, mux_dec (bcdW e.c) (bcdD e.c) n (e.a i) P (hD e) (w.dec n i hmem) (by omega), Option.bind_some,
        hg hp]
      exact rom_tab e.c.F .d ht _ (Nat.mod_lt _ (by decide))
    · have hm := mux_num t htd (e.c.aw i) n (e.a i) P (w.arg t n i hmem htd) (by omega)
      have hr := rom_tab e.c.F t ht _ (Nat.mod_lt (e.a i / base t ^ (n - 1 - P)) hb)
      cases t <;> first
        | exact absurd rfl htd
        | (simp only [hit] at hP hv hbcd ⊢
           refine ⟨by rw [Bool.eq_iff_iff]; simp; omega, ?_⟩
           rw [hP, show (inp e y x).arg i = e.a i from rfl, hm, Option.bind_some, hr, hg hp])

theorem hW (e : Env) : 0 < bcdW e.c := log2ceil_pos _

theorem bcdIn_ok {e : Env} (w : Wf e) (y : Sys) (x : Cyc) : Bcd.bOk (bcdW e.c) (bcdIn e.c y.s (inp e y x)) := by
  unfold Bcd.bOk bcdIn
  split
  · rename_i n i h
    exact w.dec n i (List.mem_of_getElem? h)
  · exact Nat.two_pow_pos _

/-- the word is accepted -/
def fire (e : Env) (y : Sys) (x : Cyc) : Bool := x.ready && inVld e.c y.s (inp e y x)

theorem bcd_next {e : Env} (w : Wf e) {K : Nat} {y : Sys} (h : Inv e K y) (x : Cyc) :
    if fire e y x && inLast e.c y.s (inp e y x) then (next e.c y.s (inp e y x)).bcd.st = .idle
    else BcdOk e (next e.c y.s (inp e y x)) := by
  have hb := (Bcd.bstep (hW e) (hD e) y.s.bcd _ h.binv (bcdIn_ok w y x)).2
  have hbcd := h.bcd
  have hmain : (fire e y x && inLast e.c y.s (inp e y x)) = false → item e.c (next e.c y.s (inp e y x)) = item e.c y.s := by
    intro hf
    unfold item next
    rw [show ((inp e y x).ready && inVld e.c y.s (inp e y x) && inLast e.c y.s (inp e y x)) = false from hf]
    rfl
  by_cases hd : ∃ n i, item e.c y.s = some (.num .d n i)
  · obtain ⟨n, i, hit⟩ := hd
    have e1 : bcdIn e.c y.s (inp e y x) = ⟨y.s.ch == 0, e.a i, x.ready && y.s.ch == n - 1⟩ := by
      unfold bcdIn; rw [hit]; rfl
    have e2 : inVld e.c y.s (inp e y x) = decide (y.s.bcd.st = .fin) := by
      unfold inVld; rw [hit]; rfl
    have e3 : inLast e.c y.s (inp e y x) = (y.s.ch == n - 1) := by
      unfold inLast; rw [hit]
    rw [e1] at hb
    have en : (next e.c y.s (inp e y x)).bcd = Bcd.bnext (bcdW e.c) y.s.bcd ⟨y.s.ch == 0, e.a i, x.ready && y.s.ch == n - 1⟩ := by
      unfold next; rw [e1]
    unfold BcdOk at hbcd
    simp only [hit] at hbcd
    by_cases hst : y.s.bcd.st = .fin
    · have hf : fire e y x = x.ready := by unfold fire; rw [e2, hst]; simp
      rw [hf, e3]
      have es : (next e.c y.s (inp e y x)).bcd.st = if x.ready && y.s.ch == n - 1 then .idle else .fin := by
        rw [en]; unfold Bcd.bnext; rw [hst]
      split
      · rename_i hc
        rw [es, if_pos hc]
      · rename_i hc
        rw [if_neg hc] at es
        unfold BcdOk
        rw [hmain (by rw [hf, e3]; simpa using hc), hit]
        refine Or.inr ⟨?_, fun _ => es⟩
        rcases hbcd with hbcd | hbcd
        · rw [hbcd.1] at hst; exact absurd hst (by decide)
        · have hr : (Bcd.bout (bcdD e.c) y.s.bcd).rd = false := by
            show (y.s.bcd.st == _) = _
            rw [hst]; rfl
          have hc' : (x.ready && y.s.ch == n - 1) = false := by simpa using hc
          simp only [hr, Bool.and_false, hc', given, List.append_nil, List.nil_append] at hb
          rw [en, hc', ← hb]
          exact hbcd.1
    · have hf : fire e y x = false := by unfold fire; rw [e2, decide_eq_false hst, Bool.and_false]
      rw [hf]
      have hch : (next e.c y.s (inp e y x)).ch = y.s.ch := by
        show (if fire e y x then _ else _) = _
        rw [hf]; rfl
      have hv : (Bcd.bout (bcdD e.c) y.s.bcd).vld = false := by
        show (y.s.bcd.st == _) = _
        simpa using hst
      have hc0 : y.s.ch = 0 := by
        rcases hbcd with hbcd | hbcd
        · exact hbcd.2
        · by_cases h0 : 0 < y.s.ch
          · exact absurd (hbcd.2 h0) hst
          · omega
      simp only [Bool.false_and, Bool.false_eq_true, if_false]
      unfold BcdOk
      rw [hmain (by rw [hf]; rfl), hit]
      refine Or.inr ⟨?_, fun hh => ?_⟩
      · simp only [hv, Bool.false_and, given, List.nil_append] at hb
        rw [en, ← hb, hc0]
        rcases hbcd with hbcd | hbcd
        · have : Bcd.bpending (bcdW e.c) (bcdD e.c) y.s.bcd = [] := by unfold Bcd.bpending; rw [hbcd.1]
          have hr : (Bcd.bout (bcdD e.c) y.s.bcd).rd = true := by
            show (y.s.bcd.st == _) = _
            rw [hbcd.1]; rfl
          rw [this, hr]; rfl
        · have hr : (Bcd.bout (bcdD e.c) y.s.bcd).rd = false := by
            show (y.s.bcd.st == _) = _
            have : y.s.bcd.st ≠ .idle := by
              intro hi
              have h1 := hbcd.1
              unfold Bcd.bpending at h1
              rw [hi] at h1
              exact absurd h1 (by simp)
            simpa using this
          rw [hr, Bool.and_false]
          simpa using hbcd.1
      · rw [hch, hc0] at hh; exact absurd hh (by decide)
  · have hi : y.s.bcd.st = .idle := by
      unfold BcdOk at hbcd
      split at hbcd
      · rename_i n i hit; exact absurd ⟨n, i, hit⟩ hd
      · exact hbcd
    have e1 : bcdIn e.c y.s (inp e y x) = ⟨false, 0, false⟩ := by
      unfold bcdIn
      split
      · rename_i n i hit; exact absurd ⟨n, i, hit⟩ hd
      · rfl
    have es : (next e.c y.s (inp e y x)).bcd.st = .idle := by
      show (Bcd.bnext _ _ (bcdIn e.c y.s (inp e y x))).st = _
      rw [e1]; unfold Bcd.bnext; rw [hi]; rfl
    split
    · exact es
    · rename_i hc
      unfold BcdOk
      rw [hmain (by simpa using hc)]
      split
      · rename_i n i hit; exact absurd ⟨n, i, hit⟩ hd
      · exact es

theorem bcdOk_start {e : Env} {s : St} (h : s.bcd.st = .idle) (hc : s.ch = 0) : BcdOk e s := by
  unfold BcdOk; split
  · exact Or.inl ⟨h, hc⟩
  · exact h

theorem pos_next (e : Env) (y : Sys) (x : Cyc) (i : Nat) : (sys e y x).pos i =
    if x.ready && (item e.c y.s == some (.stream i)) && x.vld i then adv ((y.pos i).2 + 1 == (e.S i (y.pos i).1).length) (y.pos i)
    else y.pos i := rfl

theorem outs_next (e : Env) (y : Sys) (x : Cyc) : (sys e y x).outs = y.outs ++ given (fire e y x)
    ((out e.c y.s (inp e y x)).data, (out e.c y.s (inp e y x)).last) := by
  show _ ++ given (inVld e.c y.s (inp e y x) && x.ready) _ = _
  rw [Bool.and_comm]; rfl

theorem take_succ_of {α : Type} {l : List α} {n : Nat} {a : α} (h : l[n]? = some a) : l.take (n + 1) = l.take n ++ [a] := by
  rw [List.take_add_one, h]; rfl

/-- at most one source moves -/
theorem pos_other (e : Env) (y : Sys) (x : Cyc) (i : Nat) (h : item e.c y.s ≠ some (.stream i)) :
    (sys e y x).pos i = y.pos i := by
  rw [pos_next]
  have : (item e.c y.s == some (.stream i)) = false := by simpa using h
  rw [this, Bool.and_false, Bool.false_and]; rfl

theorem step_inv {e : Env} (w : Wf e) {K : Nat} {y : Sys} (h : Inv e K y) (x : Cyc) : ∃ K', Inv e K' (sys e y x) := by
  have hbinv : Bcd.BInv (bcdW e.c) (bcdD e.c) (sys e y x).s.bcd :=
    (Bcd.bstep (hW e) (hD e) y.s.bcd _ h.binv (bcdIn_ok w y x)).1
  have hbn := bcd_next w h x
  have hother : ∀ j i, e.c.F[j]? = some (.stream i) → j ≠ y.s.main → (sys e y x).pos i = y.pos i := by
    intro j i hj hne
    refine pos_other e y x i fun hh => hne (w.once j _ i hj hh)
  have emain : (sys e y x).s.main = if fire e y x && inLast e.c y.s (inp e y x) then
      (if y.s.main == e.c.F.length - 1 then 0 else y.s.main + 1) else y.s.main := rfl
  have ech : (sys e y x).s.ch = if fire e y x then (if inLast e.c y.s (inp e y x) then 0 else (y.s.ch + 1) % 2 ^ cw e.c)
      else y.s.ch := rfl
  have hlen := h.main
  have hprog := h.prog
  cases hf : fire e y x with
  | false =>
    rw [hf] at emain ech hbn
    simp only [Bool.false_and, Bool.false_eq_true, if_false] at emain ech hbn
    have eit : item e.c (sys e y x).s = item e.c y.s := by unfold item; rw [emain]
    have hpos : ∀ i, (sys e y x).pos i = y.pos i := by
      intro i
      by_cases hi : item e.c y.s = some (.stream i)
      · rw [pos_next]
        have hv : inVld e.c y.s (inp e y x) = x.vld i := by unfold inVld; rw [hi]; rfl
        unfold fire at hf
        rw [hv] at hf
        have : (x.ready && (item e.c y.s == some (.stream i)) && x.vld i) = false := by
          cases hr : x.ready <;> cases hvi : x.vld i <;> simp_all
        rw [this]; rfl
      · exact pos_other e y x i hi
    have ep : prog e (sys e y x) = prog e y := by
      unfold prog; rw [eit]
      split
      · rw [hpos]
      · exact ech
    refine ⟨K, ⟨by rw [emain]; exact hlen, by rw [emain, ep]; exact hprog, ?_, ?_, ?_, ?_, hbinv, hbn⟩⟩
    · rw [outs_next, hf, emain, ep]
      simpa [given] using h.outs
    · intro j i hj hlt; rw [hpos]; rw [emain] at hlt; exact h.past j i hj hlt
    · intro i hi; rw [hpos]; rw [eit] at hi; exact h.now i hi
    · intro j i hj hlt; rw [hpos]; rw [emain] at hlt; exact h.fut j i hj hlt
  | true =>
    have hv : inVld e.c y.s (inp e y x) = true := by
      unfold fire at hf; simp only [Bool.and_eq_true] at hf; exact hf.2
    have hr : x.ready = true := by
      unfold fire at hf; simp only [Bool.and_eq_true] at hf; exact hf.1
    obtain ⟨hl, hw⟩ := out_word w h x hv
    have hcur : ∀ i, item e.c y.s = some (.stream i) →
        (sys e y x).pos i = if inLast e.c y.s (inp e y x) then (K + 1, 0) else (K, (y.pos i).2 + 1) := by
      intro i hi
      have hv' : x.vld i = true := by unfold inVld at hv; rw [hi] at hv; exact hv
      have hl' : inLast e.c y.s (inp e y x) = ((y.pos i).2 + 1 == (e.S i (y.pos i).1).length) := by
        unfold inLast; rw [hi]; rfl
      rw [pos_next, hi, hr, hv', hl']
      simp only [beq_self_eq_true, Bool.and_self, if_true, adv]
      rw [h.now i hi]
    rw [hf, Bool.true_and] at emain hbn
    rw [hf, if_pos rfl] at ech
    have houts : (sys e y x).outs = (List.range K).flatMap (frame e) ++ (List.range y.s.main).flatMap (words e K) ++
        (words e K y.s.main).take (prog e y + 1) := by
      rw [outs_next, hf, take_succ_of hw, h.outs]
      simp [given]
    cases hlast : inLast e.c y.s (inp e y x) with
    | false =>
      rw [hlast] at emain ech hbn hl
      simp only [Bool.false_eq_true, if_false] at emain ech hbn
      have hnl := of_decide_eq_false hl.symm
      have eit : item e.c (sys e y x).s = item e.c y.s := by unfold item; rw [emain]
      have ep : prog e (sys e y x) = prog e y + 1 := by
        have hsz : ∀ it, item e.c y.s = some it → size it ≤ 2 ^ cw e.c := fun it hh =>
          w.cw it (List.mem_of_getElem? hh)
        unfold prog at hnl hprog ⊢
        rw [eit]
        unfold text at hnl hprog
        have hit : e.c.F[y.s.main]? = item e.c y.s := rfl
        rw [hit] at hnl hprog
        cases hc : item e.c y.s with
        | none => rw [hc] at hprog; exact absurd hprog (by simp)
        | some it =>
          have hs := hsz it hc
          rw [hc] at hnl hprog
          cases it with
          | stream i =>
            have := hcur i hc
            rw [hlast] at this
            show ((sys e y x).pos i).2 = _
            rw [this]; rfl
          | str l =>
            simp only [render, size] at hnl hprog hs
            show (sys e y x).s.ch = _
            rw [ech, Nat.mod_eq_of_lt (by omega)]
          | num t n i =>
            simp only [render, size, digitsOf, List.length_map, List.length_range] at hnl hprog hs
            show (sys e y x).s.ch = _
            rw [ech, Nat.mod_eq_of_lt (by omega)]
      refine ⟨K, ⟨by rw [emain]; exact hlen, by rw [emain, ep]; omega, by rw [emain, ep]; exact houts, ?_, ?_, ?_, hbinv, hbn⟩⟩
      · intro j i hj hlt
        rw [emain] at hlt
        rw [hother j i hj (by omega)]; exact h.past j i hj hlt
      · intro i hi
        rw [eit] at hi
        rw [hcur i hi, hlast]; rfl
      · intro j i hj hlt
        rw [emain] at hlt
        rw [hother j i hj (by omega)]; exact h.fut j i hj hlt
    | true =>
      rw [hlast] at emain ech hbn hl
      simp only [if_true] at emain ech hbn
      have hnl := of_decide_eq_true hl.symm
      rw [hnl, ← words_length, List.take_length] at houts
      have hbok : BcdOk e (sys e y x).s := bcdOk_start hbn ech
      have hpast' : ∀ j i, e.c.F[j]? = some (.stream i) → j ≤ y.s.main → (sys e y x).pos i = (K + 1, 0) := by
        intro j i hj hle
        by_cases hjm : j = y.s.main
        · subst hjm
          have := hcur i hj
          rw [hlast] at this
          exact this
        · rw [hother j i hj hjm]; exact h.past j i hj (by omega)
      by_cases hend : y.s.main = e.c.F.length - 1
      · rw [if_pos (by simpa using hend)] at emain
        have hp0 : prog e (sys e y x) = 0 := by
          unfold prog; split
          · rename_i i hi
            unfold item at hi
            rw [emain] at hi
            rw [hpast' 0 i hi (by omega)]
          · exact ech
        refine ⟨K + 1, ⟨by rw [emain]; omega, ?_, ?_, ?_, ?_, ?_, hbinv, hbok⟩⟩
        · rw [hp0, emain]; exact text_pos w _ _ (by omega)
        · rw [houts, emain, hp0, List.range_succ, List.flatMap_append]
          simp only [List.flatMap_cons, List.flatMap_nil, List.append_nil, List.range_zero, List.take_zero,
            List.append_assoc, List.append_cancel_left_eq]
          unfold frame
          rw [show e.c.F.length = y.s.main + 1 by omega, List.range_succ, List.flatMap_append]
          simp
        · intro j i _ hlt; rw [emain] at hlt; omega
        · intro i hi
          unfold item at hi
          rw [emain] at hi
          rw [hpast' 0 i hi (by omega)]
        · intro j i hj _
          exact hpast' j i hj (by have := (List.getElem?_eq_some_iff.1 hj).1; omega)
      · rw [if_neg (by simpa using hend)] at emain
        have hfut' : ∀ j i, e.c.F[j]? = some (.stream i) → y.s.main < j → (sys e y x).pos i = (K, 0) := by
          intro j i hj hlt
          rw [hother j i hj (by omega)]; exact h.fut j i hj hlt
        have hp0 : prog e (sys e y x) = 0 := by
          unfold prog; split
          · rename_i i hi
            unfold item at hi
            rw [emain] at hi
            rw [hfut' _ i hi (by omega)]
          · exact ech
        refine ⟨K, ⟨by rw [emain]; omega, ?_, ?_, ?_, ?_, ?_, hbinv, hbok⟩⟩
        · rw [hp0, emain]; exact text_pos w _ _ (by omega)
        · rw [houts, emain, hp0, List.range_succ, List.flatMap_append]
          simp
        · intro j i hj hlt; rw [emain] at hlt; exact hpast' j i hj (by omega)
        · intro i hi
          unfold item at hi
          rw [emain] at hi
          rw [hfut' _ i hi (by omega)]
        · intro j i hj hlt; rw [emain] at hlt; exact hfut' j i hj (by omega)

theorem init_inv {e : Env} (w : Wf e) (b0 : Nat) : Inv e 0 (sys0 b0) := by
  have hne : 0 < e.c.F.length := List.length_pos_iff.2 w.ne
  have hp : prog e (sys0 b0) = 0 := by unfold prog; split <;> rfl
  refine ⟨hne, by rw [hp]; exact text_pos w _ _ hne, ?_, ?_, fun _ _ => rfl, fun _ _ _ _ => rfl, Bcd.binit_inv _ _ _,
    bcdOk_start rfl rfl⟩
  · rw [hp]; rfl
  · intro j i _ hlt; exact absurd hlt (Nat.not_lt_zero _)

theorem run_inv {e : Env} (w : Wf e) : ∀ (xs : List Cyc) (y : Sys), (∃ K, Inv e K y) → ∃ K, Inv e K (run e y xs) := by
  intro xs
  induction xs with
  | nil => exact fun _ h => h
  | cons x xs ih =>
    rintro y ⟨K, h⟩
    exact ih _ (step_inv w h x)

/-- **C303** Whatever the readiness of the consumer and of the string sources is, the accepted words are those of
the formatted texts, one frame after the other. -/
theorem format_exact {e : Env} (w : Wf e) (b0 : Nat) (xs : List Cyc) :
    ∃ n, (run e (sys0 b0) xs).outs <+: (List.range n).flatMap (frameSpec e.c.F e.a e.S) := by
  obtain ⟨K, h⟩ := run_inv w xs _ ⟨0, init_inv w b0⟩
  refine ⟨K + 1, ?_⟩
  have hf : frameSpec e.c.F e.a e.S = frame e := funext fun k => (frame_eq w k).symm
  rw [hf, List.range_succ, List.flatMap_append, h.outs, List.append_assoc]
  refine (List.prefix_append_right_inj _).2 ?_
  simp only [List.flatMap_cons, List.flatMap_nil, List.append_nil]
  unfold frame
  have hlt := h.main
  generalize (run e (sys0 b0) xs).s.main = m at *
  obtain ⟨d, hd⟩ : ∃ d, e.c.F.length = (m + 1) + d := ⟨e.c.F.length - (m + 1), by omega⟩
  rw [hd, List.range_add, List.flatMap_append, List.range_succ, List.flatMap_append, List.append_assoc]
  refine (List.prefix_append_right_inj _).2 ?_
  simp only [List.flatMap_cons, List.flatMap_nil, List.append_nil]
  exact (List.take_prefix _ _).trans (List.prefix_append _ _)

/-! ## progress -/

/-- cycles until the output is valid -/
def wait (c : Cfg) (s : St) : Nat :=
  match item c s with
  | some (.num .d _ _) => match s.bcd.st with
    | .idle => bcdW c + 1
    | .busy => bcdW c - s.bcd.cnt
    | .fin => 0
  | _ => 0

theorem progress_aux {e : Env} (w : Wf e) : ∀ (xs : List Cyc) (K : Nat) (y : Sys), Inv e K y →
    (∀ x ∈ xs, x.ready = true ∧ ∀ i, x.vld i = true) → wait e.c y.s < xs.length →
    y.outs.length < (run e y xs).outs.length := by
  intro xs
  induction xs with
  | nil => intro K y _ _ hl; exact absurd hl (Nat.not_lt_zero _)
  | cons x xs ih =>
    intro K y h hx hl
    obtain ⟨hr, hvld⟩ := hx x (List.mem_cons_self ..)
    have hmono : ∀ (xs : List Cyc) (y : Sys), y.outs.length ≤ (run e y xs).outs.length := by
      intro xs
      induction xs with
      | nil => intro y; exact Nat.le_refl _
      | cons x xs ih2 =>
        intro y
        refine Nat.le_trans ?_ (ih2 (sys e y x))
        rw [outs_next, List.length_append]; omega
    by_cases hv : inVld e.c y.s (inp e y x) = true
    · refine Nat.lt_of_lt_of_le ?_ (hmono xs (sys e y x))
      rw [outs_next, List.length_append]
      have : fire e y x = true := by unfold fire; rw [hr, hv]; rfl
      rw [this]; simp [given]
    · have hf : fire e y x = false := by unfold fire; simp [hv]
      obtain ⟨K', h'⟩ := step_inv w h x
      have hmain : (sys e y x).s.main = y.s.main := by
        show (if fire e y x && _ then _ else _) = _
        rw [hf]; rfl
      have eit : item e.c (sys e y x).s = item e.c y.s := by unfold item; rw [hmain]
      have houts : (sys e y x).outs = y.outs := by rw [outs_next, hf]; simp [given]
      rw [← houts]
      refine ih K' (sys e y x) h' (fun x' hx' => hx x' (List.mem_cons_of_mem _ hx')) ?_
      suffices hs : wait e.c (sys e y x).s < wait e.c y.s by
        simp only [List.length_cons] at hl; omega
      have hlen := h.main
      have hit : item e.c y.s = some e.c.F[y.s.main] := List.getElem?_eq_getElem hlen
      by_cases hd : ∃ n i, item e.c y.s = some (.num .d n i)
      · obtain ⟨n, i, hd⟩ := hd
        have hst : y.s.bcd.st ≠ .fin := by
          intro hh; apply hv; unfold inVld; rw [hd]; simp [hh]
        have hbcd := h.bcd
        unfold BcdOk at hbcd
        rw [hd] at hbcd
        unfold wait
        rw [eit, hd]
        simp only
        have hch : y.s.ch = 0 := by
          rcases hbcd with hb | hb
          · exact hb.2
          · by_cases h0 : 0 < y.s.ch
            · exact absurd (hb.2 h0) hst
            · omega
        have e1 : bcdIn e.c y.s (inp e y x) = ⟨true, e.a i, x.ready && y.s.ch == n - 1⟩ := by
          unfold bcdIn; rw [hd]; simp only [hch]; rfl
        have en : (sys e y x).s.bcd = Bcd.bnext (bcdW e.c) y.s.bcd ⟨true, e.a i, x.ready && y.s.ch == n - 1⟩ := by
          show Bcd.bnext _ _ (bcdIn e.c y.s (inp e y x)) = _
          rw [e1]
        cases hs : y.s.bcd.st with
        | fin => exact absurd hs hst
        | idle =>
          have : (sys e y x).s.bcd.st = .busy ∧ (sys e y x).s.bcd.cnt = 0 := by
            rw [en]; unfold Bcd.bnext; rw [hs]; exact ⟨rfl, rfl⟩
          rw [this.1, this.2]
          simp only
          omega
        | busy =>
          obtain ⟨-, -, h3, h4⟩ := Bcd.busy_step (hD e) h.binv hs ⟨true, e.a i, x.ready && y.s.ch == n - 1⟩
          rw [← en] at h3 h4
          have hc := (h.binv.busy hs).1
          rcases h4 with h4 | ⟨h4, h5⟩
          · rw [h4]; simp only; omega
          · rw [h4]; simp only; omega
      · exfalso
        apply hv
        unfold inVld
        rw [hit] at hd ⊢
        split
        · rfl
        · rename_i n i hh; exact absurd ⟨n, i, hh⟩ hd
        · rfl
        · exact hvld _
        · rename_i hh; exact absurd hh (by simp)

theorem wait_le (c : Cfg) (s : St) : wait c s ≤ bcdW c + 1 := by
  unfold wait; split
  · split <;> omega
  · omega

/-- **C304** With a ready consumer and valid strings the next word leaves in `INPUT_WIDTH + 2` cycles in any
reachable state. -/
theorem format_progress {e : Env} (w : Wf e) (b0 : Nat) (pre xs : List Cyc)
    (hx : ∀ x ∈ xs, x.ready = true ∧ ∀ i, x.vld i = true) (hl : bcdW e.c + 2 ≤ xs.length) :
    (run e (sys0 b0) pre).outs.length < (run e (sys0 b0) (pre ++ xs)).outs.length := by
  obtain ⟨K, h⟩ := run_inv w pre _ ⟨0, init_inv w b0⟩
  have := progress_aux w xs K _ h hx (by have := wait_le e.c (run e (sys0 b0) pre).s; omega)
  unfold run at this ⊢
  rw [List.foldl_append]
  exact this

/-! ## width of the character counter (C306) -/

/-- every text printed from the memory fits in the character counter -/
def CounterFits (F : List Item) : Prop := ∀ it ∈ F, size it ≤ 2 ^ log2ceil (maxChars F)

/-- C306 -/
def C306 : Prop := ∀ F : List Item, CounterFits F

def exF : List Item := [.num .x 2 0, .num .x 8 1]

/-- **C306** (violated) two hexadecimal numbers, the second one is longer -/
theorem counter_fits_fails : ¬ C306 := by
  intro h
  have := h exF (.num .x 8 1) (by decide)
  exact absurd this (by decide)

/-- **C306** (violated) such formatter never finishes the first frame -/
theorem counter_endless (e : Env) (he : e.c.F = exF) (b0 : Nat) (xs : List Cyc) :
    ∀ w ∈ (run e (sys0 b0) xs).outs, w.2 = false := by
  have hcw : cw e.c = 1 := by unfold cw; rw [he]; decide
  have key : ∀ (xs : List Cyc) (y : Sys), (y.s.main < 2 ∧ y.s.ch < 2 ∧ ∀ w ∈ y.outs, w.2 = false) →
      ∀ w ∈ (run e y xs).outs, w.2 = false := by
    intro xs
    induction xs with
    | nil => exact fun y h => h.2.2
    | cons x xs ih =>
      intro y h
      refine ih (sys e y x) ⟨?_, ?_, ?_⟩
      · have emain : (sys e y x).s.main = if fire e y x && inLast e.c y.s (inp e y x) then
            (if y.s.main == e.c.F.length - 1 then 0 else y.s.main + 1) else y.s.main := rfl
        have h1 := h.1
        have hl : e.c.F.length - 1 = 1 := by rw [he]; rfl
        rw [emain, hl]
        split
        · split
          · decide
          · rename_i h2
            have : y.s.main ≠ 1 := by simpa using h2
            omega
        · exact h1
      · have ech : (sys e y x).s.ch = if fire e y x then (if inLast e.c y.s (inp e y x) then 0
            else (y.s.ch + 1) % 2 ^ cw e.c) else y.s.ch := rfl
        rw [ech, hcw]
        have := h.2.1
        split
        · split <;> omega
        · exact this
      · intro w hw
        rw [outs_next, List.mem_append] at hw
        rcases hw with hw | hw
        · exact h.2.2 w hw
        · unfold given at hw
          split at hw
          · simp only [List.mem_singleton] at hw
            rw [hw]
            show (y.s.main == e.c.F.length - 1 && inLast e.c y.s (inp e y x)) = false
            unfold inLast item
            rw [he]
            have h1 := h.1
            have h2 := h.2.1
            obtain hm | hm : y.s.main = 0 ∨ y.s.main = 1 := by omega
            · rw [hm]; rfl
            · rw [hm]
              show (_ && (y.s.ch == 7)) = false
              have : y.s.ch ≠ 7 := by omega
              simp [this]
          · exact absurd hw (by simp)
  exact key xs _ ⟨Nat.zero_lt_two, Nat.zero_lt_two, by simp [sys0]⟩

/-- a later number of the same format (other than `d`) is not longer than the previous ones -/
def FirstLongest (F : List Item) : Prop :=
  F.Pairwise fun p q => ∀ t n i n' i', p = .num t n i → q = .num t n' i' → t ≠ .d → n' ≤ n

theorem maxChars_ge : ∀ (F : List Item) (seen : List Ty), FirstLongest F → ∀ it ∈ F,
    (∀ t n i, it = .num t n i → t ∉ seen) → size it ≤ maxCharsFrom seen F := by
  intro F
  induction F with
  | nil => intro seen _ it h; exact absurd h (by simp)
  | cons p F ih =>
    intro seen hp it hit hns
    obtain ⟨hp1, hp2⟩ := List.pairwise_cons.1 hp
    rcases List.mem_cons.1 hit with rfl | hit'
    · cases it with
      | str s => exact Nat.le_max_left _ _
      | stream i => exact Nat.zero_le _
      | num t n i =>
        have := hns t n i rfl
        unfold maxCharsFrom
        rw [if_neg this]
        split
        · exact Nat.le_max_left _ _
        · exact Nat.le_max_left _ _
    · cases p with
      | str s => exact Nat.le_trans (ih seen hp2 it hit' hns) (Nat.le_max_right _ _)
      | stream i => exact ih seen hp2 it hit' hns
      | num t n i =>
        unfold maxCharsFrom
        split
        · exact Nat.le_trans (ih seen hp2 it hit' hns) (Nat.le_max_right _ _)
        · rename_i htd
          split
          · exact ih seen hp2 it hit' hns
          · by_cases ht : ∃ n' i', it = .num t n' i'
            · obtain ⟨n', i', rfl⟩ := ht
              exact Nat.le_trans (hp1 _ hit' t n i n' i' rfl rfl htd) (Nat.le_max_left _ _)
            · refine Nat.le_trans (ih _ hp2 it hit' ?_) (Nat.le_max_right _ _)
              intro t' n' i' he hm
              rcases List.mem_cons.1 hm with rfl | hm
              · exact ht ⟨n', i', he⟩
              · exact hns t' n' i' he hm

/-- **C306** (partial) if the first number of every format is the longest one the counter is wide enough -/
theorem counter_fits_partial (F : List Item) (h : FirstLongest F) : CounterFits F := fun it hit =>
  Nat.le_trans (maxChars_ge F [] h it hit (by simp)) (le_two_pow_log2ceil _)

/-! ## printf (C307) -/

/-- digits of a number -/
def numText (t : Ty) (x : Nat) : List Nat := (Nat.toDigits (base t) x).map fun c => if t = .X then c.toUpper.toNat else c.toNat

/-- `printf` of a number: `n` is the least number of characters, they are filled by spaces or zeros (flag `0`) -/
def printf (zero : Bool) (t : Ty) (n x : Nat) : List Nat :=
  List.replicate (n - (numText t x).length) (if zero then 48 else 32) ++ numText t x

def printItem (zero : Bool) (a : Nat → Nat) (S : Nat → List Nat) : Item → List Nat
  | .str s => s
  | .num t n i => printf zero t n (a i)
  | .stream i => S i

/-- the output is that of `printf` -/
def Printf (zero : Bool) (e : Env) : Prop := ∀ (b0 : Nat) (xs : List Cyc), ∃ n,
  (run e (sys0 b0) xs).outs <+: (List.range n).flatMap fun K => mark (e.c.F.flatMap (printItem zero e.a fun i => e.S i K))

/-- C307: both with the flag `0` and without it -/
def C307 : Prop := ∀ e : Env, Wf e → Printf true e ∧ Printf false e

def exE (n x w : Nat) : Env := ⟨⟨[.num .x n 0], fun _ => w⟩, fun _ => x, fun _ _ => [65]⟩

theorem exE_wf (n x w : Nat) (hn : 0 < n) (h : x < 2 ^ w) : Wf (exE n x w) where
  ne := by simp [exE]
  str := by simp [exE]
  dig := by
    intro t n' i hm
    simp only [exE, List.mem_singleton, Item.num.injEq] at hm
    omega
  cw := by
    intro it hm
    simp only [exE, List.mem_singleton] at hm
    subst hm
    have : maxChars (exE n x w).c.F = n := by simp [exE, maxChars, maxCharsFrom]
    unfold StrFormat.cw
    rw [this]
    exact le_two_pow_log2ceil n
  arg := fun _ _ _ _ _ => h
  dec := by simp [exE]
  sne := by simp [exE]
  once := by
    intro j j' i h1 h2
    have : Item.stream i ∈ (exE n x w).c.F := List.mem_of_getElem? h1
    simp [exE] at this

theorem prefix_head {α : Type} {a : α} {l : List α} {f : Nat → List α} (h : ∃ n, a :: l <+: (List.range n).flatMap f)
    (h0 : f 0 ≠ []) : (f 0).head? = some a := by
  obtain ⟨n, h⟩ := h
  cases n with
  | zero => exact absurd h (by simp)
  | succ n =>
    rw [List.range_succ_eq_map, List.flatMap_cons] at h
    cases hf : f 0 with
    | nil => exact absurd hf h0
    | cons b r =>
      rw [hf, List.cons_append, List.cons_prefix_cons] at h
      rw [h.1]; rfl

/-- **C307** (violated) `{0:2x}` prints zeros instead of spaces -/
theorem printf_fails : ¬ C307 := by
  intro h
  have h1 := prefix_head (a := (some 48, false)) (l := [(some 55, true)]) ((h _ (exE_wf 2 7 8 (by decide) (by decide))).2 0
    [⟨true, fun _ => false⟩, ⟨true, fun _ => false⟩]) (by decide)
  exact absurd h1 (by decide)

theorem digitsOf_succ (t : Ty) (n x : Nat) :
    digitsOf t (n + 1) x = digitsOf t n (x / base t) ++ [digitChar t (x % base t)] := by
  unfold digitsOf
  rw [List.range_succ, List.map_append]
  congr 1
  · apply List.map_congr_left
    intro c hc
    have hc := List.mem_range.1 hc
    rw [Nat.div_div_eq_div_mul, Nat.mul_comm, ← Nat.pow_succ]
    congr 4
    omega
  · simp

theorem digitsOf_zero (t : Ty) (n : Nat) : digitsOf t n 0 = List.replicate n 48 := by
  induction n with
  | zero => rfl
  | succ n ih =>
    rw [digitsOf_succ, Nat.zero_div, ih, Nat.zero_mod, List.replicate_succ']
    rfl

theorem numChar (t : Ty) (d : Nat) (h : d < base t) :
    (if t = .X then (Nat.digitChar d).toUpper.toNat else (Nat.digitChar d).toNat) = digitChar t d := by
  have : ∀ d < 16, ∀ t ∈ tyOrder, d < base t →
      (if t = .X then (Nat.digitChar d).toUpper.toNat else (Nat.digitChar d).toNat) = digitChar t d := by decide
  exact this d (by cases t <;> simp only [base] at h <;> omega) t (by cases t <;> decide) h

theorem base_gt (t : Ty) : 1 < base t := by cases t <;> decide

theorem digitsOf_printf (t : Ty) : ∀ (n x : Nat), 0 < n → x < base t ^ n → digitsOf t n x = printf true t n x := by
  intro n
  induction n with
  | zero => intro x h; exact absurd h (by decide)
  | succ n ih =>
    intro x _ hx
    rw [digitsOf_succ]
    unfold printf numText
    by_cases hb : x < base t
    · rw [Nat.toDigits_of_lt_base hb, Nat.div_eq_of_lt hb, digitsOf_zero, Nat.mod_eq_of_lt hb]
      simp only [List.map_cons, List.map_nil, List.length_singleton, if_true, Nat.add_sub_cancel]
      rw [numChar t x hb]
    · have hb' : base t ≤ x := by omega
      have hn : 0 < n := by
        cases n with
        | zero => rw [Nat.zero_add, Nat.pow_one] at hx; omega
        | succ n => omega
      have hd : x / base t < base t ^ n := by
        rw [Nat.div_lt_iff_lt_mul (Nat.lt_trans Nat.zero_lt_one (base_gt t)), ← Nat.pow_succ]; exact hx
      rw [ih (x / base t) hn hd, Nat.toDigits_of_base_le (base_gt t) hb']
      unfold printf numText
      simp only [List.map_append, List.map_cons, List.map_nil, List.length_append, List.length_map,
        List.length_singleton, Nat.add_sub_add_right, List.append_assoc]
      rw [numChar t _ (Nat.mod_lt _ (Nat.lt_trans Nat.zero_lt_one (base_gt t)))]

/-- **C307** (partial) it is `printf` with the flag `0` if the numbers have at most the specified number of digits -/
theorem printf_partial {e : Env} (w : Wf e) (h : ∀ t n i, Item.num t n i ∈ e.c.F → e.a i < base t ^ n) : Printf true e := by
  intro b0 xs
  obtain ⟨n, hn⟩ := format_exact w b0 xs
  refine ⟨n, ?_⟩
  have : frameSpec e.c.F e.a e.S = fun K => mark (e.c.F.flatMap (printItem true e.a fun i => e.S i K)) := by
    funext K
    unfold frameSpec
    congr 1
    have key : ∀ F : List Item, (∀ it ∈ F, it ∈ e.c.F) →
        F.flatMap (render e.a fun i => e.S i K) = F.flatMap (printItem true e.a fun i => e.S i K) := by
      intro F
      induction F with
      | nil => intro _; rfl
      | cons it F ih =>
        intro hF
        rw [List.flatMap_cons, List.flatMap_cons, ih fun it h => hF it (List.mem_cons_of_mem _ h)]
        congr 1
        cases it with
        | str s => rfl
        | stream i => rfl
        | num t n i =>
          have hm := hF _ (List.mem_cons_self ..)
          exact digitsOf_printf t n (e.a i) (w.dig t n i hm) (h t n i hm)
    exact key _ fun _ h => h
  rw [← this]
  exact hn

/-- a number with more digits is cut, `printf` would print it whole -/
theorem printf_cut : ¬ ∀ e : Env, Wf e → Printf true e := by
  intro h
  have h1 := prefix_head (a := (some 56, false)) (l := [(some 48, true)]) (h _ (exE_wf 2 0x180 12 (by decide) (by decide)) 0
    [⟨true, fun _ => false⟩, ⟨true, fun _ => false⟩]) (by decide)
  exact absurd h1 (by decide)

/-! ## example -/

/-- "v=" decimal "," stream -/
def exEnv : Env := ⟨⟨[.str [118, 61], .num .d 2 0, .num .x 2 0, .stream 1], fun _ => 8⟩, fun _ => 42,
  fun _ k => [65 + k, 66]⟩

theorem exEnv_wf : Wf exEnv where
  ne := by simp [exEnv]
  str := by simp [exEnv]
  dig := by simp [exEnv]; omega
  cw := by decide
  arg := by simp [exEnv]
  dec := by intro n i _; show 42 < 2 ^ bcdW exEnv.c; decide
  sne := by simp [exEnv]
  once := by
    intro j j' i h1 h2
    have k : ∀ j, exEnv.c.F[j]? = some (Item.stream i) → j = 3 := by
      intro j hj
      match j, hj with
      | 0, hj => exact absurd hj (by simp [exEnv])
      | 1, hj => exact absurd hj (by simp [exEnv])
      | 2, hj => exact absurd hj (by simp [exEnv])
      | 3, _ => rfl
      | j + 4, hj => exact absurd hj (by simp [exEnv])
    rw [k j h1, k j' h2]

/-- two frames `v=422aAB`, `v=422aBB` -/
example : (run exEnv (sys0 5) (List.replicate 32 ⟨true, fun _ => true⟩)).outs =
    [118, 61, 52, 50, 50, 97, 65].map (fun d => (some d, false)) ++ [(some 66, true)] ++
    ([118, 61, 52, 50, 50, 97, 66].map (fun d => (some d, false)) ++ [(some 66, true)]) := by decide

example : FirstLongest exEnv.c.F ∧ ∀ t n i, Item.num t n i ∈ exEnv.c.F → exEnv.a i < base t ^ n := by
  refine ⟨?_, ?_⟩
  · simp [FirstLongest, exEnv]
    omega
  · simp only [exEnv, List.mem_cons, Item.num.injEq]
    rintro t n i (h | ⟨rfl, rfl, rfl⟩ | ⟨rfl, rfl, rfl⟩ | h | h)
    · exact absurd h (by simp)
    · decide
    · decide
    · exact absurd h (by simp)
    · exact absurd h (by simp)

/-! ## format strings (C305) -/

/-- source of a piece: a text or a group `{name:digits type}` -/
inductive Src
  | lit (s : List Char)
  | grp (name digits : List Char) (t : Char)

/-- escaped text -/
def esc : List Char → List Char
  | [] => []
  | c :: cs => if c = '{' ∨ c = '}' then c :: c :: esc cs else c :: esc cs

def write : Src → List Char
  | .lit s => esc s
  | .grp n d t => '{' :: n ++ ':' :: d ++ [t, '}']

def meaning : Src → Piece
  | .lit s => .lit s
  | .grp n d t => .grp ⟨n, if d = [] then none else some (toNat d), t⟩

def noBrace (s : List Char) : Prop := ∀ c ∈ s, c ≠ '{' ∧ c ≠ '}'

/-- well formed source -/
def SrcOk : Src → Prop
  | .lit s => s ≠ []
  | .grp n d t => noBrace n ∧ ':' ∉ n ∧ (∀ c ∈ d, c.isDigit = true) ∧ t ∈ ['d', 'b', 'o', 'x', 'X', 's']

/-- no two adjacent texts -/
def Alternating : List Src → Prop
  | .lit _ :: .lit _ :: _ => False
  | _ :: ps => Alternating ps
  | [] => True

/-- removal of empty strings, strformat.py:121 -/
def dropEmpty (ps : List Piece) : List Piece := ps.filter fun p => p != .lit []

/-- C305 -/
def C305 : Prop := ∀ ps : List Src, (∀ p ∈ ps, SrcOk p) → Alternating ps →
  (parse (ps.flatMap write)).map dropEmpty = .ok (ps.map meaning)

/-- **C305** (violated) the escape of `{` -/
theorem parse_fails : ¬ C305 := by
  intro h
  have := h [.lit ['{']] (by simp [SrcOk]) trivial
  have e : parse ([Src.lit ['{']].flatMap write) = .error .nested := by rfl
  rw [e] at this
  simp [Except.map] at this

/-- two equal braces next to each other -/
def hasDouble : List Char → Bool
  | a :: b :: r => (a == b && (a == '{' || a == '}')) || hasDouble (b :: r)
  | _ => false

theorem tokenize_head (acc s : List Char) : ∃ t ts, tokenize acc s = .txt t :: ts := by
  induction s generalizing acc with
  | nil => exact ⟨_, _, rfl⟩
  | cons c cs ih =>
    unfold tokenize
    split
    · exact ⟨_, _, rfl⟩
    · split
      · exact ⟨_, _, rfl⟩
      · exact ih _

theorem out_nil (acc : List Char) : parseToks .out (tokenize acc []) = .ok [.lit acc.reverse] := by
  simp [tokenize, parseToks, Except.map]

theorem out_lb (acc cs : List Char) : parseToks .out (tokenize acc ('{' :: cs)) =
    (parseToks (.grp none) (tokenize [] cs)).map (.lit acc.reverse :: ·) := by
  obtain ⟨t, ts, h⟩ := tokenize_head [] cs
  simp [tokenize, parseToks, h]

theorem out_rb (acc cs : List Char) : parseToks .out (tokenize acc ('}' :: cs)) = .error .closing := by
  obtain ⟨t, ts, h⟩ := tokenize_head [] cs
  simp [tokenize, parseToks, h, Except.map]

theorem out_chr (acc cs : List Char) (c : Char) (h : c ≠ '{') (h' : c ≠ '}') :
    parseToks .out (tokenize acc (c :: cs)) = parseToks .out (tokenize (c :: acc) cs) := by
  simp [tokenize, h, h']

theorem grp_nil (acc : List Char) : parseToks (.grp none) (tokenize acc []) = .error .missing := by
  simp [tokenize, parseToks]

theorem grp_lb (acc cs : List Char) : parseToks (.grp none) (tokenize acc ('{' :: cs)) = .error .nested := by
  simp [tokenize, parseToks]

theorem grp_rb (acc cs : List Char) : parseToks (.grp none) (tokenize acc ('}' :: cs)) =
    match acc.reverse with
    | [] => .error .empty
    | c :: b => match parseBody (c :: b) with
      | .ok g => (parseToks .out (tokenize [] cs)).map (.grp g :: ·)
      | .error e => .error e := by
  simp only [tokenize, parseToks, if_false, if_true, Char.reduceEq]
  cases acc.reverse <;> rfl

theorem grp_chr (acc cs : List Char) (c : Char) (h : c ≠ '{') (h' : c ≠ '}') :
    parseToks (.grp none) (tokenize acc (c :: cs)) = parseToks (.grp none) (tokenize (c :: acc) cs) := by
  simp [tokenize, h, h']

theorem map_ok {α β ε : Type} {f : α → β} {x : Except ε α} {b : β} (h : x.map f = .ok b) : ∃ a, x = .ok a := by
  cases x with
  | ok a => exact ⟨a, rfl⟩
  | error e => simp [Except.map] at h

theorem double_cons (c : Char) (cs : List Char) (h : c ≠ '{') (h' : c ≠ '}') : hasDouble (c :: cs) = hasDouble cs := by
  cases cs with
  | nil => rfl
  | cons d r => simp [hasDouble, h, h']

theorem no_double_aux : ∀ (s : List Char),
    (∀ acc ps, parseToks .out (tokenize acc s) = .ok ps → hasDouble s = false ∧ s.head? ≠ some '}') ∧
    (∀ acc ps, parseToks (.grp none) (tokenize acc s) = .ok ps → hasDouble s = false ∧ s.head? ≠ some '{') := by
  intro s
  induction s with
  | nil => exact ⟨fun _ _ _ => ⟨rfl, by simp⟩, fun _ _ _ => ⟨rfl, by simp⟩⟩
  | cons c cs ih =>
    refine ⟨fun acc ps h => ?_, fun acc ps h => ?_⟩
    · by_cases h1 : c = '{'
      · subst h1
        rw [out_lb] at h
        obtain ⟨a, ha⟩ := map_ok h
        have := ih.2 _ _ ha
        refine ⟨?_, by simp⟩
        cases cs with
        | nil => rfl
        | cons d r =>
          have hd : d ≠ '{' := by simpa using this.2
          simp [hasDouble, this.1, Ne.symm hd]
      · by_cases h2 : c = '}'
        · subst h2; rw [out_rb] at h; exact absurd h (by simp)
        · rw [out_chr acc cs c h1 h2] at h
          rw [double_cons c cs h1 h2]
          exact ⟨(ih.1 _ _ h).1, by simpa using h2⟩
    · by_cases h1 : c = '{'
      · subst h1; rw [grp_lb] at h; exact absurd h (by simp)
      · by_cases h2 : c = '}'
        · subst h2
          rw [grp_rb] at h
          refine ⟨?_, by simp⟩
          have : ∃ a, parseToks .out (tokenize [] cs) = .ok a := by
            split at h
            · exact absurd h (by simp)
            · split at h
              · exact map_ok h
              · exact absurd h (by simp)
          obtain ⟨a, ha⟩ := this
          have := ih.1 _ _ ha
          cases cs with
          | nil => rfl
          | cons d r =>
            have hd : d ≠ '}' := by simpa using this.2
            simp [hasDouble, this.1, Ne.symm hd]
        · rw [grp_chr acc cs c h1 h2] at h
          rw [double_cons c cs h1 h2]
          exact ⟨(ih.2 _ _ h).1, by simpa using h1⟩

/-- **C305** (violated) every format string with an escape sequence is rejected -/
theorem parse_no_escape (s : List Char) (ps : List Piece) (h : parse s = .ok ps) : hasDouble s = false :=
  ((no_double_aux s).1 [] ps h).1

theorem esc_id : ∀ (s : List Char), noBrace s → esc s = s := by
  intro s
  induction s with
  | nil => intro _; rfl
  | cons c cs ih =>
    intro h
    have hc := h c (List.mem_cons_self ..)
    unfold esc
    rw [if_neg (by simp [hc]), ih fun d hd => h d (List.mem_cons_of_mem _ hd)]

theorem out_text : ∀ (s acc r : List Char), noBrace s →
    parseToks .out (tokenize acc (s ++ r)) = parseToks .out (tokenize (s.reverse ++ acc) r) := by
  intro s
  induction s with
  | nil => intro acc r _; rfl
  | cons c cs ih =>
    intro acc r h
    have hc := h c (List.mem_cons_self ..)
    rw [List.cons_append, out_chr _ _ c hc.1 hc.2, ih _ _ fun d hd => h d (List.mem_cons_of_mem _ hd)]
    simp

theorem grp_text : ∀ (s acc r : List Char), noBrace s →
    parseToks (.grp none) (tokenize acc (s ++ r)) = parseToks (.grp none) (tokenize (s.reverse ++ acc) r) := by
  intro s
  induction s with
  | nil => intro acc r _; rfl
  | cons c cs ih =>
    intro acc r h
    have hc := h c (List.mem_cons_self ..)
    rw [List.cons_append, grp_chr _ _ c hc.1 hc.2, ih _ _ fun d hd => h d (List.mem_cons_of_mem _ hd)]
    simp

theorem split_none : ∀ (s : List Char), ':' ∉ s → splitColon s = [s] := by
  intro s
  induction s with
  | nil => intro _; rfl
  | cons c cs ih =>
    intro h
    have h1 : c ≠ ':' := fun hh => h (by rw [hh]; exact List.mem_cons_self ..)
    have h2 : ':' ∉ cs := fun hh => h (List.mem_cons_of_mem _ hh)
    simp [splitColon, h1, ih h2]

theorem split_one : ∀ (n f : List Char), ':' ∉ n → ':' ∉ f → splitColon (n ++ ':' :: f) = [n, f] := by
  intro n
  induction n with
  | nil => intro f _ hf; simp [splitColon, split_none f hf]
  | cons c cs ih =>
    intro f h hf
    have h1 : c ≠ ':' := fun hh => h (by rw [hh]; exact List.mem_cons_self ..)
    have h2 : ':' ∉ cs := fun hh => h (List.mem_cons_of_mem _ hh)
    simp [splitColon, h1, ih f h2 hf]

theorem findIdx_digits : ∀ (d : List Char) (t : Char), (∀ c ∈ d, c.isDigit = true) → t.isDigit = false →
    (d ++ [t]).findIdx? (fun c => !c.isDigit) = some d.length := by
  intro d
  induction d with
  | nil => intro t _ ht; simp [List.findIdx?_cons, ht]
  | cons c cs ih =>
    intro t h ht
    rw [List.cons_append, List.findIdx?_cons, h c (List.mem_cons_self ..),
      ih t (fun x hx => h x (List.mem_cons_of_mem _ hx)) ht]
    simp

theorem body_ok (n d : List Char) (t : Char) (hn : ':' ∉ n) (hd : ∀ c ∈ d, c.isDigit = true)
    (ht : t ∈ ['d', 'b', 'o', 'x', 'X', 's']) :
    parseBody (n ++ ':' :: d ++ [t]) = .ok ⟨n, if d = [] then none else some (toNat d), t⟩ := by
  have htd : t.isDigit = false ∧ t ≠ ':' := by
    have : ∀ t ∈ ['d', 'b', 'o', 'x', 'X', 's'], t.isDigit = false ∧ t ≠ ':' := by decide
    exact this t ht
  have hc : ':' ∉ d ++ [t] := by
    intro h
    rcases List.mem_append.1 h with h | h
    · exact absurd (hd _ h) (by decide)
    · exact htd.2 (List.mem_singleton.1 h).symm
  unfold parseBody
  rw [List.append_assoc, List.cons_append, split_one n (d ++ [t]) hn hc]
  simp only
  have hi : typeIdx (d ++ [t]) = d.length := by unfold typeIdx; rw [findIdx_digits d t hd htd.1]
  rw [hi, List.drop_left, List.take_left]
  simp only
  rw [if_pos ht]
  congr 2
  cases d <;> simp

theorem noBrace_body (n d : List Char) (t : Char) (hn : noBrace n) (hd : ∀ c ∈ d, c.isDigit = true)
    (ht : t ∈ ['d', 'b', 'o', 'x', 'X', 's']) : noBrace (n ++ ':' :: d ++ [t]) := by
  intro c hc
  rw [List.append_assoc, List.cons_append] at hc
  rcases List.mem_append.1 hc with hc | hc
  · exact hn c hc
  · rcases List.mem_cons.1 hc with rfl | hc
    · decide
    · rcases List.mem_append.1 hc with hc | hc
      · have := hd c hc
        exact ⟨by rintro rfl; exact absurd this (by decide), by rintro rfl; exact absurd this (by decide)⟩
      · have : ∀ t ∈ ['d', 'b', 'o', 'x', 'X', 's'], t ≠ '{' ∧ t ≠ '}' := by decide
        rw [List.mem_singleton.1 hc]
        exact this t ht

theorem dropEmpty_lit (s : List Char) (ps : List Piece) :
    dropEmpty (.lit s :: ps) = (if s = [] then [] else [.lit s]) ++ dropEmpty ps := by
  unfold dropEmpty
  by_cases h : s = []
  · subst h; rfl
  · have : (Piece.lit s != Piece.lit []) = true := by simpa using h
    rw [List.filter_cons, if_pos this, if_neg h]; rfl

theorem map_map {α β γ ε : Type} (f : α → β) (g : β → γ) (x : Except ε α) : (x.map f).map g = x.map (fun a => g (f a)) := by
  cases x <;> rfl

theorem parse_aux : ∀ (ps : List Src) (acc : List Char), (∀ p ∈ ps, SrcOk p) → Alternating ps →
    (∀ s, Src.lit s ∈ ps → noBrace s) → (acc = [] ∨ ∀ s r, ps ≠ .lit s :: r) →
    (parseToks .out (tokenize acc (ps.flatMap write))).map dropEmpty =
      .ok ((if acc = [] then [] else [.lit acc.reverse]) ++ ps.map meaning) := by
  intro ps
  induction ps with
  | nil =>
    intro acc _ _ _ _
    rw [List.flatMap_nil, out_nil]
    show Except.ok _ = _
    rw [dropEmpty_lit]
    simp [dropEmpty]
  | cons p ps ih =>
    intro acc hok halt hnb hacc
    have hok' : ∀ p ∈ ps, SrcOk p := fun q hq => hok q (List.mem_cons_of_mem _ hq)
    have hnb' : ∀ s, Src.lit s ∈ ps → noBrace s := fun s hs => hnb s (List.mem_cons_of_mem _ hs)
    have hp := hok p (List.mem_cons_self ..)
    cases p with
    | lit s =>
      have ha : acc = [] := by
        rcases hacc with h | h
        · exact h
        · exact absurd rfl (h s ps)
      subst ha
      have hs := hnb s (List.mem_cons_self ..)
      have hs0 : s ≠ [] := hp
      have halt' : Alternating ps ∧ ∀ s r, ps ≠ .lit s :: r := by
        cases ps with
        | nil => exact ⟨trivial, by simp⟩
        | cons q qs =>
          cases q with
          | lit s' => exact absurd halt (by simp [Alternating])
          | grp n d t => exact ⟨halt, by simp⟩
      rw [List.flatMap_cons, show write (.lit s) = esc s from rfl, esc_id s hs, out_text s _ _ hs]
      rw [ih _ hok' halt'.1 hnb' (Or.inr halt'.2)]
      simp [hs0, meaning]
    | grp n d t =>
      obtain ⟨h1, h2, h3, h4⟩ := hp
      have halt' : Alternating ps := by
        cases ps with
        | nil => trivial
        | cons q qs => exact halt
      have ew : (Src.grp n d t :: ps).flatMap write =
          '{' :: ((n ++ ':' :: d ++ [t]) ++ '}' :: ps.flatMap write) := by
        simp [write]
      rw [ew, out_lb, map_map, grp_text _ _ _ (noBrace_body n d t h1 h3 h4), grp_rb]
      have er : ((n ++ ':' :: d ++ [t]).reverse ++ []).reverse = n ++ ':' :: d ++ [t] := by simp
      rw [er]
      have hb := body_ok n d t h2 h3 h4
      cases hbody : n ++ ':' :: d ++ [t] with
      | nil => simp at hbody
      | cons b bs =>
        rw [hbody] at hb
        simp only
        rw [hb]
        simp only
        have := ih [] hok' halt' hnb' (Or.inl rfl)
        rw [map_map]
        simp only [if_true, List.nil_append] at this
        obtain ⟨a, ha⟩ := map_ok this
        rw [ha] at this ⊢
        show Except.ok (dropEmpty _) = _
        have h5 : dropEmpty a = ps.map meaning := by
          injection this
        rw [dropEmpty_lit]
        have h6 : ∀ g l, dropEmpty (.grp g :: l) = .grp g :: dropEmpty l := fun g l => rfl
        rw [h6, h5]
        simp [meaning]

/-- **C305** (partial) without braces in the texts the parsed items are those which were written -/
theorem parse_partial (ps : List Src) (hok : ∀ p ∈ ps, SrcOk p) (halt : Alternating ps)
    (hnb : ∀ s, Src.lit s ∈ ps → noBrace s) : (parse (ps.flatMap write)).map dropEmpty = .ok (ps.map meaning) := by
  have := parse_aux ps [] hok halt hnb (Or.inl rfl)
  simpa [parse] using this

/-- `toNat` reads decimal numbers -/
theorem toNat_append (a : List Char) (c : Char) : toNat (a ++ [c]) = toNat a * 10 + (c.toNat - 48) := by
  simp [toNat]

theorem toNat_toDigits (n : Nat) : toNat (Nat.toDigits 10 n) = n := by
  induction n using Nat.strongRecOn with
  | _ n ih =>
    have hc : ∀ d < 10, (Nat.digitChar d).toNat - 48 = d := by decide
    by_cases h : n < 10
    · rw [Nat.toDigits_of_lt_base h]
      show 0 * 10 + _ = _
      rw [hc n h]; omega
    · rw [Nat.toDigits_of_base_le (by decide) (by omega), toNat_append, ih _ (by omega), hc _ (Nat.mod_lt _ (by decide))]
      omega

/-- `a={0:12x}, {b:s}` -/
example : (parse "a={0:12x}, {b:s}".toList).map dropEmpty =
    .ok [.lit ['a', '='], .grp ⟨['0'], some 12, 'x'⟩, .lit [',', ' '], .grp ⟨['b'], none, 's'⟩] := by rfl

end Verif.StrFormat
