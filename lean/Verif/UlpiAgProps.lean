import Verif.UlpiAg
/-! # Properties of simulation agents of ULPI -/
namespace Verif.UlpiAg

/-! ## RX_CMD -/

/-- The full claim: the link gets the state of PHY from RX_CMD. -/
def RxCmdOk : Prop := ∀ r k : Regs, (r.rxError = true → r.rxActive = true) → r.hostDisc = false →
  ∃ k', (buildRx r).bind (parseRx k) = some k' ∧
    vbusCode k' = vbusCode r ∧ k'.rxActive = r.rxActive ∧ k'.rxError = r.rxError

/-- RX_CMD never says that a packet is being received. -/
theorem rxCmd_violated : ¬ RxCmdOk := by
  intro h
  obtain ⟨k', h1, _, h3, _⟩ := h ⟨false, false, false, true, false, false⟩ regs0 (by decide) rfl
  have e : (buildRx ⟨false, false, false, true, false, false⟩).bind (parseRx regs0) = some regs0 := by decide
  rw [e] at h1
  injection h1 with h1
  rw [← h1] at h3
  revert h3; decide

/-- Missing: `RxActive`, `RxError`, `HostDisconnected` of PHY; the link always gets 0. The state of Vbus is right for every previous state
of the link. -/
theorem rxCmd_partial (r k : Regs) :
    ∃ k', (buildRx r).bind (parseRx k) = some k' ∧ vbusCode k' = vbusCode r ∧ k'.rxActive = false ∧ k'.rxError = false := by
  obtain ⟨a, b, c, d, e, f⟩ := r
  obtain ⟨a', b', c', d', e', f'⟩ := k
  cases a <;> cases b <;> cases c <;> cases d <;> cases e <;> cases f <;>
    refine ⟨_, rfl, ?_, rfl, rfl⟩ <;> cases a' <;> cases b' <;> rfl

example : (buildRx ⟨true, false, false, true, false, false⟩) = some 1 := by decide

/-! ## Transport of packets -/

/-- A packet to PHY begins with the command of a USB packet. -/
def Cmd (x : List Nat) : Prop := ∃ d r, x = d :: r ∧ d / 16 = 4

/-- Both agents are enabled and added packets are packets. -/
def Good (x : In) : Prop := x.enP = true ∧ x.enL = true ∧ (∀ p ∈ x.toLink, p ≠ []) ∧ ∀ p ∈ x.toPhy, Cmd p

/-- The packet which is being transferred. -/
def flight (rx cur : Option (List Nat)) : List (List Nat) :=
  match rx, cur with
  | none, none => []
  | a, b => [a.getD [] ++ b.getD []]

structure Inv (D U : List (List Nat)) (s : St) : Prop where
  lturn : s.l.turn = false
  qp : ∀ x ∈ s.p.q, x ≠ []
  ql : ∀ x ∈ s.l.q, Cmd x
  dir : s.l.phy = (s.p.phy ^^ s.p.turn)
  down : D = s.l.got ++ flight s.l.rx s.p.cur ++ s.p.q
  up : U = s.p.got ++ flight s.p.rx s.l.cur ++ s.l.q
  pcur : s.p.cur = none ∨ (∃ d r, s.p.cur = some (d :: r)) ∧ s.p.turn = false ∧ s.p.phy = true ∧ s.l.rx.isSome = true
  lrx : s.l.rx = none ∨ (∃ d r, s.l.rx = some (d :: r)) ∧
    ((s.p.turn = false ∧ s.p.phy = true ∧ s.p.cur.isSome = true) ∨ (s.p.turn = true ∧ s.p.phy = false))
  prx : (s.p.rx = none ∧ (s.l.cur = none ∨ ∃ c, s.l.cur = some c ∧ Cmd c)) ∨
    (∃ d r c, s.p.rx = some (d :: r) ∧ s.l.cur = some c) ∧ s.p.turn = false ∧ s.p.phy = false

theorem inv_init : Inv [] [] init := by
  refine ⟨rfl, by simp [init, ag0], by simp [init, ag0], rfl, rfl, rfl, .inl rfl, .inl rfl, .inl ⟨rfl, .inl rfl⟩⟩

/-- What is left to transfer to the link and to PHY. -/
def pd (s : St) : Nat := (s.p.q.map fun x => x.length + 1).sum + (s.p.cur.getD []).length + s.l.rx.isSome.toNat
def pu (s : St) : Nat := (s.l.q.map fun x => x.length + 2).sum + (match s.l.cur with | some c => c.length + 1 | none => 0)

/-- Clock cycles to the next transfer. -/
def ph (d : Nat) (turn phy : Bool) : Nat :=
  if 0 < d then (match turn, phy with | true, false => 3 | false, false => 2 | true, true => 1 | false, true => 0)
  else (match turn, phy with | true, true => 3 | false, true => 2 | true, false => 1 | false, false => 0)

def mu (s : St) : Nat := 4 * (pd s + pu s) + ph (pd s) s.p.turn s.p.phy

def Dec (s s' : St) (x : In) : Prop :=
  x.toLink = [] → x.toPhy = [] → (pd s + pu s = 0 ∧ pd s' + pu s' = 0) ∨ (0 < pd s + pu s ∧ mu s' < mu s)

local macro "dec" h:term : tactic => `(tactic| (
  intro h1 h2
  dsimp only at h1 h2
  subst h1 h2
  have hh := $h
  simp only [List.append_nil] at hh
  try subst hh
  simp [mu, pd, pu]
  try (repeat' split)
  all_goals
    try simp only [ph]
    repeat' split
  all_goals first | omega | (simp only [and_true, true_and]; omega)))

theorem inv_step {D U : List (List Nat)} {s : St} (h : Inv D U s) {x : In} (hx : Good x) :
    ∃ s', step s x = some s' ∧ Inv (D ++ x.toLink) (U ++ x.toPhy) s' ∧ Dec s s' x := by
  obtain ⟨⟨ph, tn, q, cur, rx, got⟩, ⟨ph', tn', q', cur', rx', got'⟩, w⟩ := s
  obtain ⟨enP, enL, ad, au⟩ := x
  obtain ⟨e1, e2, hd, hu⟩ := hx
  obtain ⟨lt, qp, ql, dir, down, up, pcur, lrx, prx⟩ := h
  dsimp only at *
  subst e1 e2 lt dir down up
  have hqp : ∀ x ∈ q ++ ad, x ≠ [] := by
    intro x hx; rcases List.mem_append.mp hx with h | h
    · exact qp x h
    · exact hd x h
  have hql : ∀ x ∈ q' ++ au, Cmd x := by
    intro x hx; rcases List.mem_append.mp hx with h | h
    · exact ql x h
    · exact hu x h
  cases tn
  · cases ph
    · -- LINK
      have hcur : cur = none := by rcases pcur with e | e; exact e; simp at e
      have hrx' : rx' = none := by rcases lrx with e | e; exact e; simp at e
      subst hcur hrx'
      rcases prx with ⟨rfl, hc⟩ | ⟨⟨d, r, c, rfl, rfl⟩, _⟩
      · rcases hc with rfl | ⟨c, rfl, d, r, rfl, hdc⟩
        · -- idle
          rcases hq : q' ++ au with _ | ⟨y, ys⟩
          · refine ⟨_, by simp [step, phyWrite, phyRead, linkWrite, linkRead, hq]; rfl, ?_, ?_⟩
            · refine ⟨rfl, hqp, by simp, rfl, ?_, ?_, .inl rfl, .inl rfl, .inl ⟨rfl, .inl rfl⟩⟩
              · simp [flight]
              · simp [flight, hq]
            · dec hq
          · refine ⟨_, by simp [step, phyWrite, phyRead, linkWrite, linkRead, hq]; rfl, ?_, ?_⟩
            rw [hq] at hql
            · refine ⟨rfl, hqp, fun x hx => hql x (by simp [hx]), rfl, ?_, ?_, .inl rfl, .inl rfl,
                .inl ⟨rfl, .inr ⟨y, rfl, hql y (by simp)⟩⟩⟩
              · simp [flight]
              · simp [flight, hq]
            · dec hq
        · -- the first byte
          have hd0 : d ≠ 0 := by intro e; rw [e] at hdc; simp at hdc
          refine ⟨_, by simp [step, phyWrite, phyRead, linkWrite, linkRead, hd0, hdc]; rfl, ?_, ?_⟩
          · refine ⟨rfl, hqp, hql, rfl, ?_, ?_, .inl rfl, .inl rfl, .inr ⟨⟨d, [], r, rfl, rfl⟩, rfl, rfl⟩⟩
            · simp [flight]
            · simp [flight]
          · dec (Eq.refl true)
      · cases c with
        | nil =>
          -- stp
          rcases hq : q' ++ au with _ | ⟨y, ys⟩
          · refine ⟨_, by simp [step, phyWrite, phyRead, linkWrite, linkRead, hq]; rfl, ?_, ?_⟩
            · refine ⟨rfl, hqp, by simp, rfl, ?_, ?_, .inl rfl, .inl rfl, .inl ⟨rfl, .inl rfl⟩⟩
              · simp [flight]
              · simp [flight, hq]
            · dec hq
          · refine ⟨_, by simp [step, phyWrite, phyRead, linkWrite, linkRead, hq]; rfl, ?_, ?_⟩
            rw [hq] at hql
            · refine ⟨rfl, hqp, fun x hx => hql x (by simp [hx]), rfl, ?_, ?_, .inl rfl, .inl rfl,
                .inl ⟨rfl, .inr ⟨y, rfl, hql y (by simp)⟩⟩⟩
              · simp [flight]
              · simp [flight, hq]
            · dec hq
        | cons b c =>
          refine ⟨_, by simp [step, phyWrite, phyRead, linkWrite, linkRead]; rfl, ?_, ?_⟩
          · refine ⟨rfl, hqp, hql, rfl, ?_, ?_, .inl rfl, .inl rfl, .inr ⟨⟨d, r ++ [b], c, rfl, rfl⟩, rfl, rfl⟩⟩
            · simp [flight]
            · simp [flight]
          · dec (Eq.refl true)
    · -- PHY
      have hprx : rx = none ∧ (cur' = none ∨ ∃ c, cur' = some c ∧ Cmd c) := by rcases prx with e | e; exact e; simp at e
      obtain ⟨rfl, hl⟩ := hprx
      have hb : (buildRx regs0) = some 5 := by decide
      have hp : (parseRx regs0 5).isSome = true := by decide
      rcases pcur with rfl | ⟨⟨d, r, rfl⟩, _, _, hs⟩
      · have hrx' : rx' = none := by rcases lrx with e | e; exact e; simp at e
        subst hrx'
        rcases hq : q ++ ad with _ | ⟨y, ys⟩
        · -- RX_CMD
          refine ⟨_, by simp [step, phyWrite, phyRead, linkWrite, linkRead, sel, hq, hb, hp]; rfl, ?_, ?_⟩
          · refine ⟨rfl, by simp, hql, rfl, ?_, ?_, .inl rfl, .inl rfl, .inl ⟨rfl, hl⟩⟩
            · simp [flight, hq]
            · simp
          · dec hq
        · rw [hq] at hqp
          cases y with
          | nil => exact absurd rfl (hqp [] (by simp))
          | cons d r =>
            cases r with
            | nil =>
              refine ⟨_, by simp [step, phyWrite, phyRead, linkWrite, linkRead, sel, hq]; rfl, ?_, ?_⟩
              · refine ⟨rfl, fun x hx => hqp x (by simp [hx]), hql, rfl, ?_, ?_, .inl rfl, .inr ⟨⟨d, [], rfl⟩, .inr ⟨rfl, rfl⟩⟩, .inl ⟨rfl, hl⟩⟩
                · simp [flight, hq]
                · simp
              · dec hq
            | cons r0 rs =>
              refine ⟨_, by simp [step, phyWrite, phyRead, linkWrite, linkRead, sel, hq]; rfl, ?_, ?_⟩
              · refine ⟨rfl, fun x hx => hqp x (by simp [hx]), hql, rfl, ?_, ?_, .inr ⟨⟨r0, rs, rfl⟩, rfl, rfl, rfl⟩,
                  .inr ⟨⟨d, [], rfl⟩, .inl ⟨rfl, rfl, rfl⟩⟩, .inl ⟨rfl, hl⟩⟩
                · simp [flight, hq]
                · simp
              · dec hq
      · rcases lrx with e | ⟨⟨b, bs, rfl⟩, _⟩
        · rw [e] at hs; cases hs
        · cases r with
          | nil =>
            refine ⟨_, by simp [step, phyWrite, phyRead, linkWrite, linkRead, sel]; rfl, ?_, ?_⟩
            · refine ⟨rfl, hqp, hql, rfl, ?_, ?_, .inl rfl, .inr ⟨⟨b, bs ++ [d], rfl⟩, .inr ⟨rfl, rfl⟩⟩, .inl ⟨rfl, hl⟩⟩
              · simp [flight]
              · simp
            · dec (Eq.refl true)
          | cons r0 rs =>
            refine ⟨_, by simp [step, phyWrite, phyRead, linkWrite, linkRead, sel]; rfl, ?_, ?_⟩
            · refine ⟨rfl, hqp, hql, rfl, ?_, ?_, .inr ⟨⟨r0, rs, rfl⟩, rfl, rfl, rfl⟩,
                .inr ⟨⟨b, bs ++ [d], rfl⟩, .inl ⟨rfl, rfl, rfl⟩⟩, .inl ⟨rfl, hl⟩⟩
              · simp [flight]
              · simp
            · dec (Eq.refl true)
  · -- turnaround
    have hprx : rx = none ∧ (cur' = none ∨ ∃ c, cur' = some c ∧ Cmd c) := by rcases prx with e | e; exact e; simp at e
    obtain ⟨rfl, hl⟩ := hprx
    have hcur : cur = none := by rcases pcur with e | e; exact e; simp at e
    subst hcur
    cases ph
    · rcases lrx with rfl | ⟨⟨b, bs, rfl⟩, _⟩
      · refine ⟨_, by simp [step, phyWrite, phyRead, linkWrite]; rfl, ?_, ?_⟩
        · refine ⟨rfl, hqp, hql, rfl, ?_, ?_, .inl rfl, .inl rfl, .inl ⟨rfl, hl⟩⟩
          · simp
          · simp
        · dec (Eq.refl true)
      · refine ⟨_, by simp [step, phyWrite, phyRead, linkWrite]; rfl, ?_, ?_⟩
        · refine ⟨rfl, hqp, hql, rfl, ?_, ?_, .inl rfl, .inl rfl, .inl ⟨rfl, hl⟩⟩
          · simp [flight]
          · simp
        · dec (Eq.refl true)
    · have hrx' : rx' = none := by rcases lrx with e | e; exact e; simp at e
      subst hrx'
      refine ⟨_, by simp [step, phyWrite, phyRead, linkWrite]; rfl, ?_, ?_⟩
      · refine ⟨rfl, hqp, hql, rfl, ?_, ?_, .inl rfl, .inl rfl, .inl ⟨rfl, hl⟩⟩
        · simp
        · simp
      · dec (Eq.refl true)

/-- All packets added to the queue of PHY and of the link. -/
def allDown (xs : List In) : List (List Nat) := (xs.map In.toLink).flatten
def allUp (xs : List In) : List (List Nat) := (xs.map In.toPhy).flatten

theorem inv_run {D U : List (List Nat)} {s : St} (h : Inv D U s) (xs : List In) (hx : ∀ x ∈ xs, Good x) :
    ∃ s', run s xs = some s' ∧ Inv (D ++ allDown xs) (U ++ allUp xs) s' := by
  induction xs generalizing D U s with
  | nil => exact ⟨s, rfl, by simpa [allDown, allUp] using h⟩
  | cons x xs ih =>
    obtain ⟨s1, e1, h1, _⟩ := inv_step h (hx x (by simp))
    obtain ⟨s2, e2, h2⟩ := ih h1 fun y hy => hx y (by simp [hy])
    refine ⟨s2, by simp [run, e1, e2], ?_⟩
    simpa [allDown, allUp] using h2

theorem idle_run {D U : List (List Nat)} {s : St} (h : Inv D U s) (n : Nat) (hn : mu s ≤ n) :
    ∃ s', run s (List.replicate n ⟨true, true, [], []⟩) = some s' ∧ Inv D U s' ∧ pd s' + pu s' = 0 := by
  induction n generalizing s with
  | zero =>
    refine ⟨s, rfl, h, ?_⟩
    unfold mu at hn; omega
  | succ n ih =>
    obtain ⟨s1, e1, h1, hd⟩ := inv_step h (x := ⟨true, true, [], []⟩) ⟨rfl, rfl, by simp, by simp⟩
    simp only [List.append_nil] at h1
    have keep : ∀ (m : Nat) (t : St), Inv D U t → pd t + pu t = 0 →
        ∃ s', run t (List.replicate m ⟨true, true, [], []⟩) = some s' ∧ Inv D U s' ∧ pd s' + pu s' = 0 := by
      intro m
      induction m with
      | zero => intro t ht h0; exact ⟨t, rfl, ht, h0⟩
      | succ m ihm =>
        intro t ht h0
        obtain ⟨t1, f1, g1, gd⟩ := inv_step ht (x := ⟨true, true, [], []⟩) ⟨rfl, rfl, by simp, by simp⟩
        simp only [List.append_nil] at g1
        rcases gd rfl rfl with ⟨_, z⟩ | ⟨z, _⟩
        · obtain ⟨t2, f2, g2, z2⟩ := ihm t1 g1 z
          exact ⟨t2, by simp [List.replicate_succ, run, f1, f2], g2, z2⟩
        · omega
    rcases hd rfl rfl with ⟨_, z⟩ | ⟨_, z⟩
    · obtain ⟨s2, e2, h2, z2⟩ := keep n s1 h1 z
      exact ⟨s2, by simp [List.replicate_succ, run, e1, e2], h2, z2⟩
    · obtain ⟨s2, e2, h2, z2⟩ := ih h1 (by omega)
      exact ⟨s2, by simp [List.replicate_succ, run, e1, e2], h2, z2⟩

/-- The full claim: with any enabling of the agents there is no exception and packets arrive in order and complete. -/
def Transport : Prop := ∀ xs : List In, (∀ x ∈ xs, (∀ p ∈ x.toLink, p ≠ []) ∧ ∀ p ∈ x.toPhy, Cmd p) →
  ∃ s, run init xs = some s ∧ s.l.got <+: allDown xs ∧ s.p.got <+: allUp xs

/-- Missing: agents are always enabled. No exception is raised, the agent of the link receives exactly the packets given to the agent of PHY
in order, and in the other direction. -/
theorem transport_partial (xs : List In) (hx : ∀ x ∈ xs, Good x) :
    ∃ s, run init xs = some s ∧ s.l.got <+: allDown xs ∧ s.p.got <+: allUp xs := by
  obtain ⟨s, e, h⟩ := inv_run inv_init xs hx
  refine ⟨s, e, ?_, ?_⟩
  · have := h.down
    simp only [List.nil_append] at this
    rw [this, List.append_assoc]; exact List.prefix_append _ _
  · have := h.up
    simp only [List.nil_append] at this
    rw [this, List.append_assoc]; exact List.prefix_append _ _

/-- After enough clock cycles every packet is delivered in both directions. -/
theorem delivered (xs : List In) (hx : ∀ x ∈ xs, Good x) :
    ∃ N, ∀ n, N ≤ n → ∃ s, run init (xs ++ List.replicate n ⟨true, true, [], []⟩) = some s ∧
      s.l.got = allDown xs ∧ s.p.got = allUp xs := by
  obtain ⟨s, e, h⟩ := inv_run inv_init xs hx
  refine ⟨mu s, fun n hn => ?_⟩
  obtain ⟨s', e', h', z⟩ := idle_run h n hn
  have happ : ∀ (xs ys : List In) (t u : St), run t xs = some u → run t (xs ++ ys) = run u ys := by
    intro xs
    induction xs with
    | nil => intro ys t u h; simp [run] at h; rw [h]; rfl
    | cons x xs ih =>
      intro ys t u h
      simp only [run, List.cons_append] at h ⊢
      cases hs : step t x with
      | none => rw [hs] at h; simp at h
      | some t1 => rw [hs] at h; simp at h ⊢; exact ih ys t1 u h
  refine ⟨s', by rw [happ xs _ init s e]; exact e', ?_, ?_⟩
  · have hd := h'.down
    have hq : s'.p.q = [] := by
      cases hq : s'.p.q with
      | nil => rfl
      | cons a b => simp only [pd, hq, List.map_cons, List.sum_cons] at z; omega
    have hr : s'.l.rx = none := by
      cases hr : s'.l.rx with
      | none => rfl
      | some a => simp [pd, hr] at z
    have hc : s'.p.cur = none := by
      rcases h'.pcur with e | ⟨_, _, _, e⟩
      · exact e
      · rw [hr] at e; cases e
    rw [hq, hr, hc] at hd
    simpa [flight] using hd.symm
  · have hd := h'.up
    have hq : s'.l.q = [] := by
      cases hq : s'.l.q with
      | nil => rfl
      | cons a b => simp only [pu, hq, List.map_cons, List.sum_cons] at z; omega
    have hc : s'.l.cur = none := by
      cases hr : s'.l.cur with
      | none => rfl
      | some a => simp only [pu, hr] at z; omega
    have hr : s'.p.rx = none := by
      rcases h'.prx with e | ⟨⟨_, _, _, _, e⟩, _⟩
      · exact e.1
      · rw [hc] at e; cases e
    rw [hq, hr, hc] at hd
    simpa [flight] using hd.symm

def on : In := ⟨true, true, [], []⟩
def demo : List In := ⟨true, true, [[7], [8, 9]], [[65, 0, 3], [66]]⟩ :: List.replicate 20 on

example : ∀ x ∈ demo, Good x := by
  have hc : ∀ p ∈ [[65, 0, 3], [66]], Cmd p := by
    intro p hp; simp at hp; rcases hp with rfl | rfl
    · exact ⟨65, _, rfl, rfl⟩
    · exact ⟨66, _, rfl, rfl⟩
  intro x hx
  simp only [demo, List.mem_cons, List.mem_replicate] at hx
  rcases hx with rfl | ⟨_, rfl⟩
  · exact ⟨rfl, rfl, by decide, hc⟩
  · exact ⟨rfl, rfl, by simp [on], by simp [on]⟩
example : (run init demo).map (fun s => (s.l.got, s.p.got)) = some ([[7], [8, 9]], [[65, 0, 3], [66]]) := by decide +kernel

/-- PHY is not enabled for one clock cycle: the link does not see it and a byte of its packet is lost. -/
def stall : List In :=
  [⟨true, true, [], [[65, 1, 2, 3]]⟩, on, on, on, on, on, on, ⟨false, true, [], []⟩, on, on, on, on]

theorem transport_violated : ¬ Transport := by
  intro h
  have hc : Cmd [65, 1, 2, 3] := ⟨65, _, rfl, rfl⟩
  obtain ⟨s, e, _, h2⟩ := h stall (by
    intro x hx
    simp only [stall, on, List.mem_cons, List.not_mem_nil, or_false] at hx
    rcases hx with rfl | rfl | rfl | rfl | rfl | rfl | rfl | rfl | rfl | rfl | rfl | rfl <;> simp [hc])
  have e' : (run init stall).map (fun s => s.p.got) = some [[65, 2, 3]] := by decide +kernel
  rw [e] at e'
  simp only [Option.map_some, Option.some.injEq] at e'
  rw [e'] at h2
  revert h2
  decide

end Verif.UlpiAg
