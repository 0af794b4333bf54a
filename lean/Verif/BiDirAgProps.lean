import Verif.BiDirAg
/-! # Agents of bidirectional interfaces: properties -/
namespace Verif.BiDirAg

/-- the agents carry `bs` to the monitor and `as` to the driver, from any values on the signals -/
def Carries {S A B : Type} (ag : Agent S A B) (as : List A) (bs : List B) : Prop :=
  ∀ (sig : S), (run ag (min as.length bs.length) ⟨sig, as, [], bs, []⟩).monData = bs.take as.length ∧
    (run ag (min as.length bs.length) ⟨sig, as, [], bs, []⟩).drvDin = as.take bs.length

theorem run_gen {S A B : Type} (ag : Agent S A B) (P : A → Prop)
    (hb : ∀ s a b, ag.getData (ag.onMonitorReady (ag.setData s b) a) = b)
    (ha : ∀ s a b, P a → ag.onDriverWriteAck (ag.onMonitorReady (ag.setData s b) a) = a) :
    ∀ (as : List A) (bs : List B) (sig : S) (md : List B) (dd : List A), (∀ a ∈ as, P a) →
      (run ag (min as.length bs.length) ⟨sig, as, md, bs, dd⟩).monData = md ++ bs.take as.length ∧
      (run ag (min as.length bs.length) ⟨sig, as, md, bs, dd⟩).drvDin = dd ++ as.take bs.length := by
  intro as
  induction as with
  | nil => intro bs sig md dd _; simp [run]
  | cons a as ih =>
    intro bs sig md dd hp
    cases bs with
    | nil => simp [run]
    | cons b bs =>
      rw [List.length_cons, List.length_cons, Nat.add_min_add_right]
      have h1 : run ag (min as.length bs.length + 1) ⟨sig, a :: as, md, b :: bs, dd⟩ =
          run ag (min as.length bs.length) ⟨ag.onMonitorReady (ag.setData sig b) a, as, md ++ [b], bs, dd ++ [a]⟩ := by
        rw [run, shake]
        dsimp only
        rw [hb, ha _ _ _ (hp a (by simp))]
      rw [h1]
      have := ih bs (ag.onMonitorReady (ag.setData sig b) a) (md ++ [b]) (dd ++ [a]) fun x hx => hp x (by simp [hx])
      simpa using this

/-- C415, full statement for the four agents -/
def TransportSpec : Prop :=
  (∀ as bs, Carries biDir as bs) ∧ (∀ as bs, Carries addrOutDataIn as bs) ∧ (∀ as bs, Carries addrInDataOut as bs) ∧
  (∀ as bs, Carries addrInOutDataIn as bs)

/-- the driver of `HwIOAddrInOutDataInRdVld` stores the data also as the address -/
theorem transport_violated : ¬ TransportSpec := by
  intro h
  have := (h.2.2.2 [(1, 2)] [3] ⟨0, 0, 0, 0, 0, 0⟩).2
  revert this; decide

/-- the address is lost in every handshake where it differs from the data -/
theorem address_lost (a d b : Nat) (sig : Sig) (h : a ≠ d) :
    (run addrInOutDataIn 1 ⟨sig, [(a, d)], [], [b], []⟩).drvDin = [(d, d)] ∧ [(d, d)] ≠ [(a, d)] := by
  refine ⟨rfl, ?_⟩
  intro hh
  injection hh with hh
  injection hh with hh
  exact h hh.symm

/-- C415 for the other agents, and for `HwIOAddrInOutDataInRdVld` if every address equals its data; what the monitor receives is
right for it always -/
theorem transport_partial :
    (∀ as bs, Carries biDir as bs) ∧ (∀ as bs, Carries addrOutDataIn as bs) ∧ (∀ as bs, Carries addrInDataOut as bs) ∧
    (∀ as bs, (∀ p ∈ as, p.1 = p.2) → Carries addrInOutDataIn as bs) ∧
    (∀ (as : List (Nat × Nat)) (bs : List Nat) (sig : Sig),
      (run addrInOutDataIn (min as.length bs.length) ⟨sig, as, [], bs, []⟩).monData = bs.take as.length ∧
      (run addrInOutDataIn (min as.length bs.length) ⟨sig, as, [], bs, []⟩).drvDin.map (·.2) = (as.take bs.length).map (·.2)) := by
  refine ⟨?_, ?_, ?_, ?_, ?_⟩
  · intro as bs sig
    have := run_gen biDir (fun _ => True) (fun _ _ _ => rfl) (fun _ _ _ _ => rfl) as bs sig [] [] (fun _ _ => trivial)
    simpa using this
  · intro as bs sig
    have := run_gen addrOutDataIn (fun _ => True) (fun _ _ _ => rfl) (fun _ _ _ _ => rfl) as bs sig [] [] (fun _ _ => trivial)
    simpa using this
  · intro as bs sig
    have := run_gen addrInDataOut (fun _ => True) (fun _ _ _ => rfl) (fun _ _ _ _ => rfl) as bs sig [] [] (fun _ _ => trivial)
    simpa using this
  · intro as bs hp sig
    have := run_gen addrInOutDataIn (fun p => p.1 = p.2) (fun _ _ _ => rfl)
      (fun _ a _ h => Prod.ext h.symm rfl) as bs sig [] [] hp
    simpa using this
  · intro as bs
    have : ∀ (as : List (Nat × Nat)) (bs : List Nat) (sig : Sig) (md : List Nat) (dd : List (Nat × Nat)),
        (run addrInOutDataIn (min as.length bs.length) ⟨sig, as, md, bs, dd⟩).monData = md ++ bs.take as.length ∧
        (run addrInOutDataIn (min as.length bs.length) ⟨sig, as, md, bs, dd⟩).drvDin.map (·.2) =
          dd.map (·.2) ++ (as.take bs.length).map (·.2) := by
      intro as
      induction as with
      | nil => intro bs sig md dd; simp [run]
      | cons a as ih =>
        intro bs sig md dd
        cases bs with
        | nil => simp [run]
        | cons b bs =>
          rw [List.length_cons, List.length_cons, Nat.add_min_add_right]
          have h1 : run addrInOutDataIn (min as.length bs.length + 1) ⟨sig, a :: as, md, b :: bs, dd⟩ =
              run addrInOutDataIn (min as.length bs.length)
                ⟨{ sig with addrOut := b, addrIn := a.1, data := a.2 }, as, md ++ [b], bs, dd ++ [(a.2, a.2)]⟩ := rfl
          rw [h1]
          have := ih bs { sig with addrOut := b, addrIn := a.1, data := a.2 } (md ++ [b]) (dd ++ [(a.2, a.2)])
          simpa using this
    intro sig
    have := this as bs sig [] []
    simpa using this

example : (run addrOutDataIn 2 ⟨⟨9, 9, 9, 9, 9, 9⟩, [5, 6], [], [1, 2, 3], []⟩).drvDin = [5, 6] := by decide
example : ∀ p ∈ [((4 : Nat), (4 : Nat))], p.1 = p.2 := by decide

end Verif.BiDirAg
