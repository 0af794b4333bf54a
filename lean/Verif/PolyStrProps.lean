import Verif.PolyStr

/-! # Properties of `parsePolyStr` (C312) -/

namespace Verif.PolyStr

/-- text of a power -/
def powText (p : Nat) : List Char := if p = 0 then [] else if p = 1 then ['x'] else 'x' :: '^' :: Nat.toDigits 10 p

/-- text of a term with a positive coefficient, `6x`, `x^2`, `5` -/
def termText (n p : Nat) : List Char := (if n = 1 ∧ p ≠ 0 then [] else Nat.toDigits 10 n) ++ powText p

/-- text of terms separated by ` + ` -/
def polyText : List (Nat × Nat) → List Char
  | [] => []
  | [t] => termText t.1 t.2
  | t :: ts => termText t.1 t.2 ++ ' ' :: '+' :: ' ' :: polyText ts

/-- coefficient of `x^i` -/
def coef (ts : List (Nat × Nat)) (i : Nat) : Int := ((ts.filter (·.2 = i)).map (fun t => (t.1 : Int))).sum

/-- C312: terms of the form `7x^2 + 6x + 5` -/
def C312 : Prop := ∀ (ts : List (Nat × Nat)) (w : Nat), (∀ t ∈ ts, 0 < t.1 ∧ t.2 < w) →
  parse (polyText ts) w = .ok ((List.range w).map (coef ts))

/-- **C312** (violated) -/
theorem poly_fails : ¬ C312 := by
  intro h
  have := h [(7, 2), (6, 1), (5, 0)] 8 (by decide)
  rw [show parse (polyText [(7, 2), (6, 1), (5, 0)]) 8 = .error .value from by rfl] at this
  cases this

/-- the example of the documentation -/
theorem poly_doc : parse "7x^2 + 6x - 5".toList 8 = .error .value := by rfl

/-- a silently wrong value -/
theorem poly_wrong : parse "x + 10".toList 2 = .ok [1, 1] := by rfl

theorem digits_all (n : Nat) : ∀ c ∈ Nat.toDigits 10 n, isDig c = true := by
  induction n using Nat.strongRecOn with
  | _ n ih =>
    have hd : ∀ d < 10, isDig (Nat.digitChar d) = true := by decide
    by_cases h : n < 10
    · rw [Nat.toDigits_of_lt_base h]
      intro c hc
      rw [List.mem_singleton.1 hc]; exact hd n h
    · rw [Nat.toDigits_of_base_le (by decide) (by omega)]
      intro c hc
      rcases List.mem_append.1 hc with hc | hc
      · exact ih _ (by omega) c hc
      · rw [List.mem_singleton.1 hc]; exact hd _ (Nat.mod_lt _ (by decide))

theorem toNat_append (a : List Char) (c : Char) : toNat (a ++ [c]) = toNat a * 10 + (c.toNat - 48) := by
  simp [toNat]

theorem toNat_toDigits (n : Nat) : toNat (Nat.toDigits 10 n) = n := by
  induction n using Nat.strongRecOn with
  | _ n ih =>
    have hc : ∀ d < 10, (Nat.digitChar d).toNat - 48 = d := by decide
    by_cases h : n < 10
    · rw [Nat.toDigits_of_lt_base h]
      show 0 * 10 + _ = _
      rw [hc n h]; omega
    · rw [Nat.toDigits_of_base_le (by decide) (by omega), toNat_append, ih _ (by omega), hc _ (Nat.mod_lt _ (by decide))]
      omega

/-- a text which does not continue a number -/
def Stop (s : List Char) : Prop := s = [] ∨ ∃ r, s = ' ' :: r

theorem many_digits (n : Nat) (r : List Char) (h : Stop r) : many isDig (Nat.toDigits 10 n ++ r) = (Nat.toDigits 10 n, r) := by
  have hd := digits_all n
  unfold many
  have ht : ∀ c ∈ Nat.toDigits 10 n, isDig c := hd
  rw [List.takeWhile_append_of_pos ht, List.dropWhile_append_of_pos ht]
  rcases h with rfl | ⟨r', rfl⟩
  · simp
  · have : isDig ' ' = false := by decide
    simp [this]

theorem strip_id (s : List Char) (h : ∀ c, s.head? = some c → c ≠ ' ') (h' : ∀ c, s.getLast? = some c → c ≠ ' ') :
    strip s = s := by
  unfold strip
  have e1 : s.dropWhile (· = ' ') = s := by
    cases s with
    | nil => rfl
    | cons c cs => simp [h c rfl]
  rw [e1]
  have e2 : s.reverse.dropWhile (· = ' ') = s.reverse := by
    cases hr : s.reverse with
    | nil => rfl
    | cons c cs =>
      have : s.getLast? = some c := by rw [List.getLast?_eq_head?_reverse, hr]; rfl
      simp [h' c this]
  rw [e2, List.reverse_reverse]

/-- text of a power of a CRC polynomial -/
def xText (p : Nat) : List Char := 'x' :: '^' :: Nat.toDigits 10 p

/-- `x^26 + x^23 + 1` -/
def crcText : List Nat → List Char
  | [] => ['1']
  | p :: ps => xText p ++ ' ' :: '+' :: ' ' :: crcText ps

theorem term_first (p : Nat) (r : List Char) (h : Stop r) : term (xText p ++ r) = ([], xText p, r) := by
  have hm := many_digits p r h
  have h1 : ¬ isDig 'x' = true := by decide
  simp only [term, xText, List.cons_append, opt, many]
  simp only [Char.reduceEq, decide_false, Bool.or_self, Bool.false_eq_true, if_false, List.takeWhile_cons, List.dropWhile_cons,
    h1, decide_true, if_true, List.append_nil, List.append_assoc]
  unfold many at hm
  injection hm with h2 h3
  simp [h2, h3]

theorem term_space (r : List Char) : term (' ' :: '+' :: r) = ([' '], [], '+' :: r) := by
  have h1 : ¬ isDig '+' = true := by decide
  simp [term, opt, many, h1]

theorem term_plus (p : Nat) (r : List Char) (h : Stop r) : term ('+' :: ' ' :: (xText p ++ r)) = (['+', ' '], xText p, r) := by
  have hm := many_digits p r h
  have h1 : ¬ isDig 'x' = true := by decide
  simp only [term, xText, List.cons_append, opt, many]
  simp only [Char.reduceEq, decide_false, Bool.false_eq_true, if_false, List.takeWhile_cons, List.dropWhile_cons,
    h1, decide_true, if_true, List.append_nil, List.append_assoc, Bool.or_true]
  unfold many at hm
  injection hm with h2 h3
  simp [h2, h3]

theorem parseN_plus : parseN (strip ['+', ' ']) = .ok 1 := by rfl

theorem digits_ne (p : Nat) : Nat.toDigits 10 p ≠ [] := Nat.toDigits_ne_nil

theorem strip_x (p : Nat) : strip (xText p) = xText p := by
  apply strip_id
  · intro c h; simp [xText] at h; rw [← h]; decide
  · intro c h
    have hm : c ∈ xText p := List.mem_of_getLast? h
    simp only [xText, List.mem_cons] at hm
    rcases hm with rfl | rfl | hm
    · decide
    · decide
    · intro hh
      have := digits_all p c hm
      rw [hh] at this
      exact absurd this (by decide)

theorem parseP_x (p : Nat) : parseP (strip (xText p)) = .ok p := by
  rw [strip_x]
  have hm := many_digits p [] (Or.inl rfl)
  rw [List.append_nil] at hm
  have h1 : parseP (xText p) = if (many isDig (Nat.toDigits 10 p)).1 = [] then .ok 1 else
    .ok (toNat (many isDig (Nat.toDigits 10 p)).1) := rfl
  rw [h1, hm, if_neg (digits_ne p)]
  show Except.ok (toNat (Nat.toDigits 10 p)) = _
  rw [toNat_toDigits]

theorem loop_step (n p : List Char) (a : Int) (b : Nat) (ts : List (List Char × List Char)) (d : Nat → Option Int)
    (ks : List Nat) (h : ¬ (strip n = [] ∧ strip p = [])) (h1 : parseN (strip n) = .ok a) (h2 : parseP (strip p) = .ok b) :
    loop ((n, p) :: ts) d ks = loop ts (addTerm d b a) (b :: ks) := by
  simp only [loop]
  rw [if_neg h, h1, h2]

theorem xText_len (p : Nat) : 0 < (xText p).length := by simp [xText]

/-- dictionary after terms `x^p` -/
def dict : List Nat → (Nat → Option Int) → (Nat → Option Int)
  | [], d => addTerm d 0 1
  | p :: ps, d => dict ps (addTerm d p 1)

theorem findall_step (fuel : Nat) (s : List Char) (n p r : List Char) (h : term s = (n, p, r)) (hne : ¬ (n = [] ∧ p = [])) :
    findall (fuel + 1) s = (n, p) :: findall fuel r := by
  show (if (term s).1 = [] ∧ (term s).2.1 = [] then _ else _) = _
  rw [h, if_neg hne]

theorem findall_nil (fuel : Nat) : findall fuel [] = [] := by
  cases fuel with
  | zero => rfl
  | succ n => rfl

theorem loop_tail : ∀ (ps : List Nat) (fuel : Nat) (d : Nat → Option Int) (ks : List Nat),
    ('+' :: ' ' :: crcText ps).length < fuel →
    loop (findall fuel ('+' :: ' ' :: crcText ps)) d ks = .ok (dict ps d, 0 :: ps.reverse ++ ks) := by
  intro ps
  induction ps with
  | nil =>
    intro fuel d ks hf
    obtain ⟨f, rfl⟩ : ∃ f, fuel = f + 1 := ⟨fuel - 1, by omega⟩
    rw [findall_step f _ ['+', ' ', '1'] [] [] (by rfl) (by simp), findall_nil]
    rfl
  | cons p ps ih =>
    intro fuel d ks hf
    obtain ⟨f, rfl⟩ : ∃ f, fuel = f + 1 + 1 := ⟨fuel - 2, by simp at hf; omega⟩
    have hx := xText_len p
    show loop (findall (f + 1 + 1) ('+' :: ' ' :: (xText p ++ ' ' :: '+' :: ' ' :: crcText ps))) d ks = _
    rw [findall_step (f + 1) _ _ _ _ (term_plus p _ (Or.inr ⟨_, rfl⟩)) (by simp),
      findall_step f _ _ _ _ (term_space _) (by simp)]
    have hlen : ('+' :: ' ' :: crcText ps).length < f := by
      simp only [crcText, List.length_cons, List.length_append] at hf ⊢
      omega
    rw [loop_step _ _ 1 p _ _ _ (by rintro ⟨h, -⟩; exact absurd h (by decide)) parseN_plus (parseP_x p)]
    have e2 : ∀ ts d ks, loop (([' '], []) :: ts) d ks = loop ts d ks := fun _ _ _ => rfl
    rw [e2, ih f _ _ hlen]
    simp [dict]

theorem loop_crc (ps : List Nat) : loop (findall ((crcText ps).length + 1) (crcText ps)) (fun _ => none) [] =
    .ok (dict ps fun _ => none, 0 :: ps.reverse) := by
  cases ps with
  | nil => rfl
  | cons p ps =>
    have hx := xText_len p
    show loop (findall ((crcText (p :: ps)).length + 1) (xText p ++ ' ' :: '+' :: ' ' :: crcText ps)) _ _ = _
    obtain ⟨f, hf⟩ : ∃ f, (crcText (p :: ps)).length = f + 1 := ⟨(crcText (p :: ps)).length - 1, by
      simp only [crcText, List.length_append, List.length_cons]; omega⟩
    have hlen : ('+' :: ' ' :: crcText ps).length < f := by
      simp only [crcText, List.length_cons, List.length_append] at hf ⊢
      have : 2 ≤ (xText p).length := by simp [xText]
      omega
    rw [hf, findall_step (f + 1) _ _ _ _ (term_first p _ (Or.inr ⟨_, rfl⟩)) (by simp [xText]),
      findall_step f _ _ _ _ (term_space _) (by simp)]
    rw [loop_step _ _ 1 p _ _ _ (by rintro ⟨-, h⟩; rw [strip_x] at h; cases h) rfl (parseP_x p)]
    have e2 : ∀ ts d ks, loop (([' '], []) :: ts) d ks = loop ts d ks := fun _ _ _ => rfl
    rw [e2, loop_tail ps f _ _ hlen]
    simp [dict]

theorem dict_get (i : Nat) : ∀ (ps : List Nat) (d : Nat → Option Int),
    (dict ps d i).getD 0 = (d i).getD 0 + ((ps.count i + (if i = 0 then 1 else 0) : Nat) : Int) := by
  intro ps
  have hadd : ∀ (d : Nat → Option Int) (p : Nat), (addTerm d p 1 i).getD 0 = (d i).getD 0 + (if i = p then 1 else 0) := by
    intro d p
    unfold addTerm
    by_cases h : i = p
    · subst h; simp
    · simp [h]
  induction ps with
  | nil =>
    intro d
    rw [dict, hadd]
    by_cases h : i = 0 <;> simp [h]
  | cons p ps ih =>
    intro d
    rw [dict, ih, hadd, List.count_cons]
    by_cases h : i = p
    · subst h; simp; omega
    · have : ¬ p = i := fun hh => h hh.symm
      simp [h, this]

/-- **C312** (partial) polynomials of CRC, `x^26 + x^23 + ... + x^1 + 1` -/
theorem poly_partial (ps : List Nat) (w : Nat) (h0 : 0 < w) (hw : ∀ p ∈ ps, p < w) (hp : 0 ∉ ps) (hd : ps.Nodup) :
    parse (crcText ps) w = .ok ((List.range w).map fun i => if i = 0 ∨ i ∈ ps then 1 else 0) := by
  unfold parse
  rw [loop_crc]
  simp only
  rw [if_pos (by simpa using ⟨h0, hw⟩)]
  congr 1
  apply List.map_congr_left
  intro i _
  rw [dict_get]
  by_cases hi : i = 0
  · subst hi
    simp [List.count_eq_zero_of_not_mem hp]
  · by_cases hm : i ∈ ps
    · have := List.nodup_iff_count.1 hd i
      have h2 := List.count_pos_iff.2 hm
      have h1 : ps.count i = 1 := by omega
      simp [hi, hm, h1]
    · simp [hi, hm, List.count_eq_zero_of_not_mem hm]

/-- the polynomial with the highest power written (`x^32` of CRC-32) is rejected -/
theorem poly_high (w : Nat) (ps : List Nat) (h : w ∈ ps) : parse (crcText ps) w = .error .index := by
  unfold parse
  rw [loop_crc]
  simp only
  rw [if_neg]
  simp only [List.all_cons, Bool.and_eq_true, List.all_reverse, List.all_eq_true, decide_eq_true_eq]
  rintro ⟨-, hh⟩
  exact Nat.lt_irrefl _ (hh w h)

example : crcText [5, 2] = "x^5 + x^2 + 1".toList := by rfl
example : parse "x^5 + x^2 + 1".toList 6 = .ok [1, 0, 1, 0, 0, 1] := by rfl

end Verif.PolyStr
