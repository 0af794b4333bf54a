import Verif.AxisSof
/-!
# C458: the start of a frame
-/
namespace Verif.AxisSof

/-- what is seen with each transferred word: `last` and the start of frame -/
def words (t : List (In × Bool)) : List (Bool × Bool) :=
  (t.filter fun x => x.1.valid && x.1.ready).map fun x => (x.1.last, x.2)

/-- words of a frame of `n + 1` words: only the last one has `last` -/
def frame (n : Nat) : List Bool := List.replicate n false ++ [true]

/-- expected on them: only the first one has the start of frame -/
def starts (n : Nat) : List Bool := true :: List.replicate n false

theorem words_cons (x : In × Bool) (t : List (In × Bool)) :
    words (x :: t) = (if x.1.valid && x.1.ready then [(x.1.last, x.2)] else []) ++ words t := by
  unfold words
  cases h : x.1.valid && x.1.ready <;> simp [h]

/-- The start of frame on each transferred word is the `last` of the previous one. -/
theorem prev : ∀ (xs : List In) (s : Bool),
    ((words (sof.trace s xs)).map (·.2)) = (s :: (words (sof.trace s xs)).map (·.1)).dropLast
  | [], s => rfl
  | x :: xs, s => by
      have ih := prev xs (sof.next s x)
      rw [Machine.trace_cons, words_cons]
      cases h : x.valid && x.ready with
      | true =>
        have e : sof.next s x = x.last := if_pos h
        rw [e] at ih ⊢
        simp only [if_true, List.cons_append, List.nil_append, List.map_cons, ih, List.dropLast_cons_cons]
        rfl
      | false =>
        have e : sof.next s x = s := if_neg (by rw [h]; decide)
        rw [e] at ih ⊢
        simpa using ih

theorem shift (n : Nat) (r : List Bool) :
    (true :: (frame n ++ r)).dropLast = starts n ++ (true :: r).dropLast := by
  have h : true :: (frame n ++ r) = starts n ++ (true :: r) := by simp [frame, starts]
  rw [h, List.dropLast_append_of_ne_nil (by simp)]

theorem frames_shift (r : List Bool) : ∀ ns : List Nat,
    (true :: (ns.flatMap frame ++ r)).dropLast = ns.flatMap starts ++ (true :: r).dropLast
  | [] => rfl
  | n :: ns => by
      rw [List.flatMap_cons, List.flatMap_cons, List.append_assoc, shift, frames_shift r ns, List.append_assoc]

/-- C458: after reset, with any gaps, the start of frame is set on the first word of each frame and on no other
word; also for a frame which was not finished yet (`k` words). -/
theorem sof_frames (xs : List In) (ns : List Nat) (k : Nat)
    (h : (words (sof.trace true xs)).map (·.1) = ns.flatMap frame ++ List.replicate k false) :
    (words (sof.trace true xs)).map (·.2) = ns.flatMap starts ++ (starts k).take k := by
  rw [prev, h, frames_shift]
  congr 1
  unfold starts
  rw [List.dropLast_eq_take]
  simp

/-- every sequence of words has this form -/
theorem is_frames : ∀ ls : List Bool, ∃ (ns : List Nat) (k : Nat), ls = ns.flatMap frame ++ List.replicate k false
  | [] => ⟨[], 0, rfl⟩
  | true :: ls => by
      obtain ⟨ns, k, h⟩ := is_frames ls
      exact ⟨0 :: ns, k, by rw [h]; rfl⟩
  | false :: ls => by
      obtain ⟨ns, k, h⟩ := is_frames ls
      cases ns with
      | nil => exact ⟨[], k + 1, by rw [h]; rfl⟩
      | cons n ns => exact ⟨(n + 1) :: ns, k, by rw [h]; rfl⟩

/-- C458: between words it tells if the next word starts a frame: after the last transferred word it is its
`last`, and set without any. -/
theorem sof_idle (xs : List In) (i : In) :
    sof.outAfter true xs i = (((words (sof.trace true xs)).map (·.1)).getLast?).getD true := by
  have : ∀ (xs : List In) (s : Bool),
      sof.final s xs = (((words (sof.trace s xs)).map (·.1)).getLast?).getD s := by
    intro xs
    induction xs with
    | nil => intro s; rfl
    | cons x xs ih =>
      intro s
      rw [Machine.final_cons, ih, Machine.trace_cons, words_cons]
      cases h : x.valid && x.ready with
      | true =>
        have e : sof.next s x = x.last := if_pos h
        rw [e]
        simp only [if_true, List.cons_append, List.nil_append, List.map_cons]
        rw [List.getLast?_cons]
        rfl
      | false =>
        have e : sof.next s x = s := if_neg (by rw [h]; decide)
        rw [e]
        simp
  exact this xs true

example : (words (sof.trace true [⟨true, true, false⟩, ⟨true, false, true⟩, ⟨true, true, true⟩, ⟨false, true, false⟩,
    ⟨true, true, true⟩])).map (·.2) = [1, 0].flatMap starts ++ (starts 0).take 0 :=
  sof_frames _ [1, 0] 0 (by decide)

end Verif.AxisSof
