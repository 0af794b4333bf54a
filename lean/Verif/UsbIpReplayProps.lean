import Verif.UsbIpReplay
/-! # Properties of `UsbIpReplay.lean` -/
namespace Verif.UsbIpReplay
open Verif.UsbIpRec

/-- The server does exactly the communication `l`: reads of these sizes, writes of these data. -/
inductive Follows : Proc → List Item → Prop where
  | nil (p : Proc) : Follows p []
  | read (n : Nat) (k : List Nat → Proc) (t : Int) (d : List Nat) (l : List Item) :
      d.length = n → Follows (k d) l → Follows (.read n k) (⟨t, true, d⟩ :: l)
  | write (d : List Nat) (p : Proc) (t : Int) (l : List Item) :
      Follows p l → Follows (.write d p) (⟨t, false, d⟩ :: l)

/-- The recording of a session is the communication of the server, and the bytes read are those which the client sent, in order. -/
theorem record_follows (now : Nat → Int) (p : Proc) (i : Nat) (input : List Nat) :
    Follows p (record now i p input) ∧
      ((record now i p input).filter (·.read)).flatMap (·.d) <+: input := by
  induction p generalizing i input with
  | read n k ih =>
    unfold record
    by_cases h : n ≤ input.length
    · rw [if_pos h]
      have := ih (input.take n) (i + 1) (input.drop n)
      refine ⟨.read n k _ _ _ (by simp [h]) this.1, ?_⟩
      obtain ⟨r, hr⟩ := this.2
      refine ⟨r, ?_⟩
      simp only [List.filter_cons, if_true, List.flatMap_cons, List.append_assoc]
      rw [hr, List.take_append_drop]
    · rw [if_neg h]; exact ⟨.nil _, by simp⟩
  | write d p ih =>
    unfold record
    refine ⟨.write d p _ _ (ih _ _).1, ?_⟩
    simpa using (ih (i + 1) input).2
  | stop => exact ⟨.nil _, by simp [record]⟩

/-- The same server passes the replay of its own recording (debug = False). -/
theorem replay_same (now : Nat → Int) (p : Proc) (i : Nat) (input : List Nat) :
    replay false p (record now i p input) = true := by
  induction p generalizing i input with
  | read n k ih =>
    unfold record
    by_cases h : n ≤ input.length
    · rw [if_pos h]
      simp only [replay]
      rw [if_pos ⟨trivial, by simp [h]⟩]
      exact ih _ _ _
    · rw [if_neg h]; rfl
  | write d p ih =>
    unfold record
    simp only [replay]
    rw [if_pos ⟨trivial, trivial⟩]
    exact ih _ _
  | stop => rfl

/-- With debug the replay always ends with an exception: the end of a recording is an `IndexError`, not the end of the connection. -/
theorem debug_never (p : Proc) (l : List Item) : replay true p l = false := by
  induction p generalizing l with
  | read n k ih =>
    cases l with
    | nil => simp [replay, finish]
    | cons x l => simp only [replay]; split
                  · exact ih _ _
                  · simp [finish]
  | write d p ih =>
    cases l with
    | nil => simp [replay, finish]
    | cons x l => simp only [replay]; split
                  · exact ih _
                  · simp [finish]
  | stop => simp [replay, finish]

/-- The full claim: a replay without exception means that the server did the communication of the recording. -/
def Detects : Prop := ∀ p l, replay false p l = true → Follows p l

/-- A wrong last reply is not found. -/
theorem detects_violated : ¬ Detects := by
  intro h
  have := h (.read 2 fun _ => .write [9, 9] .stop) [⟨0, true, [0, 0]⟩, ⟨1, false, [1, 2]⟩] (by decide)
  cases this with
  | read _ _ _ _ _ _ h2 => cases h2

/-- Missing to the full claim: the last item of the recording. -/
theorem detects_partial (p : Proc) (l : List Item) (h : replay false p l = true) : Follows p l.dropLast := by
  induction p generalizing l with
  | read n k ih =>
    match l, h with
    | [], _ => exact .nil _
    | x :: l, h =>
      simp only [replay] at h
      by_cases hc : x.read = true ∧ x.d.length = n
      · rw [if_pos hc] at h
        match l, h with
        | [], _ => exact .nil _
        | y :: l, h =>
          obtain ⟨t, r, d⟩ := x
          obtain ⟨rfl, hd⟩ := hc
          exact .read n k t d _ hd (ih d (y :: l) h)
      · rw [if_neg hc] at h
        match l, h with
        | [], _ => exact .nil _
        | _ :: _, h => simp [finish] at h
  | write d p ih =>
    match l, h with
    | [], _ => exact .nil _
    | x :: l, h =>
      simp only [replay] at h
      by_cases hc : x.read = false ∧ x.d = d
      · rw [if_pos hc] at h
        match l, h with
        | [], _ => exact .nil _
        | y :: l, hy =>
          obtain ⟨t, r, d'⟩ := x
          obtain ⟨hr, hd⟩ := hc
          subst hr; subst hd
          exact .write d' p t _ (ih (y :: l) hy)
      · rw [if_neg hc] at h
        match l, h with
        | [], _ => exact .nil _
        | _ :: _, h => simp [finish] at h
  | stop =>
    match l, h with
    | [], _ => exact .nil _
    | _ :: _, h => simp [replay, finish] at h

/-- a server which answers the sum of two bytes, twice -/
def demo : Proc := .read 2 fun a => .write [a.sum] (.read 2 fun b => .write [b.sum] (.read 2 fun _ => .stop))

example : record (fun i => i) 0 demo [1, 2, 3, 4, 5]
    = [⟨0, true, [1, 2]⟩, ⟨1, false, [3]⟩, ⟨2, true, [3, 4]⟩, ⟨3, false, [7]⟩] := by decide
example : replay false demo [⟨0, true, [1, 2]⟩, ⟨1, false, [4]⟩, ⟨2, true, [3, 4]⟩] = false := by decide
example : replay false demo [⟨0, true, [1, 2]⟩, ⟨1, false, [3]⟩, ⟨2, true, [3, 4]⟩, ⟨3, false, [8]⟩] = true := by decide

end Verif.UsbIpReplay
