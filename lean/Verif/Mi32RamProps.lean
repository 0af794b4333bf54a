import Verif.Mi32Ram
/-! Properties of the Mi32 simulation memory and of the agent (C400, C401) -/
namespace Verif.Mi32Ram

/-- memory after the accesses `rs` in order: the last write of a cell wins -/
def memAfter (wb : Nat) (mem : Nat → Option (Option Nat)) (rs : List Req) (i : Nat) : Option (Option Nat) :=
  match rs.reverse.find? (fun r => decide (r.mode = .write ∧ r.addr / wb = i)) with
  | some r => some r.val
  | none => mem i

/-- values returned by the reads of `rs` in order, each sees the accesses before it -/
def answers (wb : Nat) (mem : Nat → Option (Option Nat)) (rs : List Req) : List (Option (Option Nat)) :=
  ((List.range rs.length).filter (fun k => decide ((rs[k]?.map Req.mode) = some .read))).map
    (fun k => memAfter wb mem (rs.take k) ((rs[k]?.map Req.addr).getD 0 / wb))

/-- an access the memory supports -/
def Good (wb : Nat) (r : Req) : Prop :=
  r.addr % wb = 0 ∧ (r.mode = .read ∨ (r.mode = .write ∧ r.be = 2 ^ wb - 1))

theorem memAfter_snoc_write (wb : Nat) (mem : Nat → Option (Option Nat)) (rs : List Req) (r : Req) (h : r.mode = .write) :
    memAfter wb mem (rs ++ [r]) = upd (memAfter wb mem rs) (r.addr / wb) (some r.val) := by
  funext i
  unfold memAfter
  rw [List.reverse_append, List.reverse_singleton, List.singleton_append, List.find?_cons]
  by_cases hi : r.addr / wb = i
  · subst hi; simp [h]
  · rw [upd_ne _ _ _ _ (fun e => hi e.symm)]
    simp [h, hi]

theorem memAfter_snoc_read (wb : Nat) (mem : Nat → Option (Option Nat)) (rs : List Req) (r : Req) (h : r.mode = .read) :
    memAfter wb mem (rs ++ [r]) = memAfter wb mem rs := by
  funext i
  unfold memAfter
  rw [List.reverse_append, List.reverse_singleton, List.singleton_append, List.find?_cons]
  simp [h]

theorem answers_prefix (wb : Nat) (mem : Nat → Option (Option Nat)) (rs : List Req) (r : Req) :
    answers wb mem (rs ++ [r]) = answers wb mem rs ++
      (if r.mode = .read then [memAfter wb mem rs (r.addr / wb)] else []) := by
  unfold answers
  rw [List.length_append, List.length_singleton, List.range_succ, List.filter_append, List.map_append]
  congr 1
  · have e1 : ∀ k, k ∈ List.range rs.length → (rs ++ [r])[k]? = rs[k]? := by
      intro k hk
      rw [List.getElem?_append_left (List.mem_range.1 hk)]
    rw [List.filter_congr (q := fun k => decide ((rs[k]?.map Req.mode) = some .read)) (by
      intro k hk; rw [e1 k hk])]
    apply List.map_congr_left
    intro k hk
    have hk' := (List.mem_filter.1 hk).1
    rw [e1 k hk', List.take_append_of_le_length (Nat.le_of_lt (List.mem_range.1 hk'))]
  · by_cases h : r.mode = .read
    · simp [h]
    · simp [h]

/-- `rs` = processed, in order -/
def SInv (wb : Nat) (mem : Nat → Option (Option Nat)) (all : List Req) (s : St) : Prop :=
  ∃ dn, all = dn ++ s.req ∧ (∀ r ∈ dn, Good wb r) ∧ s.mem = memAfter wb mem dn ∧ s.rData.map some = answers wb mem dn

theorem check_inv (wb : Nat) (mem : Nat → Option (Option Nat)) (all : List Req) (s s' : St) (h : SInv wb mem all s)
    (hc : check wb s = .ok s') : SInv wb mem all s' ∧ s'.req = s.req.tail := by
  obtain ⟨dn, h1, h2, h3, h4⟩ := h
  unfold check at hc
  split at hc
  · rename_i hq
    cases hc
    exact ⟨⟨dn, h1, h2, h3, h4⟩, by rw [hq]; rfl⟩
  · rename_i r rest hq
    rw [hq] at h1
    have happ : all = (dn ++ [r]) ++ rest := by rw [h1]; simp
    have hgood : Good wb r → ∀ x ∈ dn ++ [r], Good wb x := by
      intro hr x hx
      rcases List.mem_append.1 hx with hx | hx
      · exact h2 x hx
      · rw [List.mem_singleton.1 hx]; exact hr
    split at hc
    · rename_i hm
      unfold onRead at hc
      split at hc
      · cases hc
      · rename_i hal
        dsimp only at hc
        split at hc
        · cases hc
        · rename_i d hd
          cases hc
          refine ⟨⟨dn ++ [r], happ, hgood ⟨by omega, Or.inl hm⟩, ?_, ?_⟩, by rw [hq]; rfl⟩
          · rw [memAfter_snoc_read _ _ _ _ hm]; exact h3
          · simp only [List.map_append, h4, answers_prefix, if_pos hm, ← h3, hd, List.map_cons, List.map_nil]
    · rename_i hm
      unfold onWrite at hc
      split at hc
      · cases hc
      · rename_i hal
        split at hc
        · rename_i hbe
          cases hc
          refine ⟨⟨dn ++ [r], happ, hgood ⟨by omega, Or.inr ⟨hm, hbe⟩⟩, ?_, ?_⟩, by rw [hq]; rfl⟩
          · simp only [memAfter_snoc_write _ _ _ _ hm, h3]
          · rw [answers_prefix, if_neg (by rw [hm]; decide), List.append_nil]; exact h4
        · cases hc
    · cases hc

theorem run_inv (wb : Nat) (mem : Nat → Option (Option Nat)) :
    ∀ (es : List (List Req)) (all : List Req) (s s' : St), SInv wb mem all s → run wb s es = .ok s' →
      SInv wb mem (all ++ es.flatten) s'
  | [], all, s, s', h, hr => by cases hr; simpa using h
  | e :: es, all, s, s', h, hr => by
    rw [run] at hr
    split at hr
    · cases hr
    · rename_i s1 h1
      have h0 : SInv wb mem (all ++ e) { s with req := s.req ++ e } := by
        obtain ⟨dn, a, b, c, d⟩ := h
        exact ⟨dn, by rw [a, List.append_assoc], b, c, d⟩
      have := run_inv wb mem es _ s1 s' (check_inv wb mem _ _ s1 h0 h1).1 hr
      simpa [List.append_assoc] using this

theorem drain (wb : Nat) : ∀ (n : Nat) (s s' : St) (mem : Nat → Option (Option Nat)) (all : List Req),
    SInv wb mem all s → s.req.length ≤ n → run wb s (List.replicate n []) = .ok s' → s'.req = []
  | 0, s, s', _, _, _, h, hr => by
    cases hr
    exact List.eq_nil_of_length_eq_zero (by omega)
  | n + 1, s, s', mem, all, hi, h, hr => by
    rw [List.replicate_succ, run] at hr
    split at hr
    · cases hr
    · rename_i s1 h1
      rw [List.append_nil] at h1
      obtain ⟨a, b⟩ := check_inv wb mem all s s1 hi h1
      exact drain wb n s1 s' mem all a (by rw [b, List.length_tail]; omega) hr

/-- C400: after any run without an exception the requests were processed in order, one per check: the processed ones
are a prefix of the received ones, the memory has for every cell the value of the last processed write and every read
returned the value of the last write before it.  Everything received is processed after as many checks as there
are requests. -/
theorem sequential (wb : Nat) (mem : Nat → Option (Option Nat)) (es : List (List Req)) (s : St)
    (h : run wb (init mem) es = .ok s) :
    ∃ k, (es.flatten.drop k = s.req ∧ ∀ r ∈ es.flatten.take k, Good wb r) ∧
      (∀ i, s.mem i = memAfter wb mem (es.flatten.take k) i) ∧
      s.rData.map some = answers wb mem (es.flatten.take k) ∧
      (∀ n s', s.req.length ≤ n → run wb s (List.replicate n []) = .ok s' → s'.req = []) := by
  have h0 : SInv wb mem [] (init mem) := ⟨[], rfl, by simp, rfl, rfl⟩
  have hi := run_inv wb mem es [] _ s h0 h
  rw [List.nil_append] at hi
  have hi' := hi
  obtain ⟨dn, h1, h2, h3, h4⟩ := hi
  refine ⟨dn.length, ⟨by rw [h1]; simp, ?_⟩, ?_, ?_, ?_⟩
  · rw [h1]; simpa using h2
  · rw [h1]; simp [h3]
  · rw [h1]; simp [h4]
  · intro n s' hn hr
    exact drain wb n s s' mem _ hi' hn hr

/-- C400: an access which is aligned, a read of a known cell or a write of a whole word is never refused -/
theorem accepted (wb : Nat) (s : St) (h : ∀ r, s.req.head? = some r → Good wb r ∧ (s.mem (r.addr / wb)).isSome) :
    ∃ s', check wb s = .ok s' := by
  unfold check
  cases hq : s.req with
  | nil => exact ⟨s, rfl⟩
  | cons r rest =>
    obtain ⟨⟨ha, hm⟩, hs⟩ := h r (by rw [hq]; rfl)
    rcases hm with hm | ⟨hm, hb⟩
    · simp only [hm, onRead, ha, ne_eq, not_true_eq_false, if_false]
      cases hv : s.mem (r.addr / wb) with
      | none => rw [hv] at hs; cases hs
      | some d => exact ⟨_, rfl⟩
    · simp only [hm, onWrite, ha, ne_eq, not_true_eq_false, if_false, hb, if_true]
      exact ⟨_, rfl⟩

example : (match run 4 (init fun i => if i < 2 then some (some 9) else none)
      [[⟨.read, 4, none, 15⟩, ⟨.write, 4, some 3, 15⟩], [⟨.read, 4, none, 15⟩], []] with
    | .ok s => decide (s.rData = [some 9, some 3] ∧ s.req = [])
    | .error _ => false) = true := by decide +kernel

/-! ## agent -/

/-- mode of an item for the driver -/
def Item.mode : Item → Mode
  | .read _ => .read
  | .write _ _ _ => .write
  | .readWrite _ _ _ => .readWrite

def Item.addr : Item → Nat
  | .read a => a
  | .write a _ _ => a
  | .readWrite a _ _ => a

/-- what a monitor has to see for an item -/
def Seen (wb : Nat) (x : Item) (r : Req) : Prop :=
  r.mode = x.mode ∧ r.addr = x.addr ∧
    (match x with
     | .read _ => r.be = 2 ^ wb - 1
     | .write _ v be => r.val = v ∧ r.be = be
     | .readWrite _ v be => r.val = v ∧ r.be = be)

/-- C401: full statement: every item of a kind which `set_data` supports is put on the signals and the
monitor reads the same access from them -/
def transportSpec : Prop :=
  ∀ (wb : Nat) (x : Item), ∃ s r, drive wb x = .ok s ∧ getValid s = true ∧ getData s = some r ∧ Seen wb x r

/-- C401: a simultaneous read and write ends with an exception in `set_valid` although `set_data` supports it -/
theorem transport_violated : ¬ transportSpec := by
  intro h
  obtain ⟨s, r, h1, _⟩ := h 4 (.readWrite 0 (some 1) 15)
  cases h1

/-- C401: holds for reads and writes; missing: the read-write item (never driven, avalon/mm.py:181 raises) -/
theorem transport_partial (wb : Nat) (x : Item) (hx : x.mode ≠ .readWrite) :
    ∃ s r, drive wb x = .ok s ∧ getValid s = true ∧ getData s = some r ∧ Seen wb x r := by
  cases x with
  | read a => exact ⟨_, _, rfl, rfl, rfl, rfl, rfl, rfl⟩
  | write a v be => exact ⟨_, _, rfl, rfl, rfl, rfl, rfl, rfl, rfl⟩
  | readWrite a v be => exact absurd rfl hx

/-- C401: the exception is raised for every read-write item -/
theorem transport_never (wb a : Nat) (v : Option Nat) (be : Nat) : drive wb (.readWrite a v be) = .error .badMode := rfl

example : (Item.write 8 (some 5) 3).mode ≠ .readWrite := by decide

end Verif.Mi32Ram
