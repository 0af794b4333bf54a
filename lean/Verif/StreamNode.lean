import Verif.Common
/-!
# Model of `StreamNode` and `ExclusiveStreamGroups` (hwtLib/handshaked/streamNode.py)
-/
namespace Verif.StreamNode

/-- One interface of the node as seen by the node: `sig` is the signal the node reads (valid of a
master, ready of a slave); `const` means that this signal is the python constant 1 (a `(valid,
ready)` tuple, streamNode.py:86-87), then `sig = true`; `extra`/`skip` are the entries of
`extraConds`/`skipWhen` (`getExtraAndSkip`, :236-250).
Simplification: the signal which the node drives (ready of a master, valid of a slave) is always a
real signal, i.e. the `continue` branches :158-160, :176-178 are not modelled. -/
structure Io where
  sig : Bool
  const : Bool := false
  extra : Option Bool := none
  skip : Option Bool := none

/-- streamNode.py:200-202, :219-221: a constant has to be 1. -/
def Io.WF (i : Io) : Prop := i.const = true → i.sig = true

/-- `masters` and `slaves` (unique interfaces, identified by position). -/
structure Node where
  masters : List Io
  slaves : List Io

/-- `StreamNode.vld` (:252-274) and `StreamNode.rd` (:276-298) - the same code for both sides. -/
def Io.present (i : Io) : Bool :=
  if i.const then true
  else match i.skip with
    | none => i.sig
    | some s => i.sig || s

/-- `r & ~skip` (:316-317, :337-338) -/
def maskSkip (r : Bool) : Option Bool → Bool
  | none => r
  | some s => r && !s

/-- `*extra` of the `And` (:308-310, :329-331) -/
def Io.extraOk (i : Io) : Bool := i.extra.getD true

/-- `ackForMaster` of master number `k` (:300-319): driver of its ready signal. -/
def Node.ackForMaster (n : Node) (k : Nat) (m : Io) : Bool :=
  maskSkip ((n.masters.eraseIdx k).all Io.present && n.slaves.all Io.present && m.extraOk) m.skip

/-- `ackForSlave` of slave number `k` (:321-340): driver of its valid signal. -/
def Node.ackForSlave (n : Node) (k : Nat) (s : Io) : Bool :=
  maskSkip (n.masters.all Io.present && (n.slaves.eraseIdx k).all Io.present && s.extraOk) s.skip

/-- contribution of one interface to `ack()` (:193-210, :212-229) -/
def Io.ackPart (i : Io) : Bool :=
  if i.const then true
  else match i.skip with
    | none => i.sig && i.extraOk
    | some s => (i.sig && i.extraOk) || s

/-- `StreamNode.ack` (:186-234). -/
def Node.ack (n : Node) : Bool := n.masters.all Io.ackPart && n.slaves.all Io.ackPart

/-- `sync(enSig)` (:122-184), master side: value driven to ready of master `k`. -/
def Node.rdOf (n : Node) (en : Bool) (k : Nat) (m : Io) : Bool := n.ackForMaster k m && en
/-- `sync(enSig)`, slave side: value driven to valid of slave `k`. -/
def Node.vldOf (n : Node) (en : Bool) (k : Nat) (s : Io) : Bool := n.ackForSlave k s && en

/-! ## Specification vocabulary -/

/-- An interface is disconnected by its skip flag. -/
def Io.skipped (i : Io) : Bool := i.skip == some true

/-- Master number `k` performs a transfer: its valid and its ready are 1. -/
def Node.masterTransfers (n : Node) (en : Bool) (k : Nat) (m : Io) : Prop :=
  m.sig = true ∧ n.rdOf en k m = true
/-- Slave number `k` performs a transfer. -/
def Node.slaveTransfers (n : Node) (en : Bool) (k : Nat) (s : Io) : Prop :=
  s.sig = true ∧ n.vldOf en k s = true

instance (n : Node) (en : Bool) (k : Nat) (m : Io) : Decidable (n.masterTransfers en k m) := by
  unfold Node.masterTransfers; infer_instance
instance (n : Node) (en : Bool) (k : Nat) (m : Io) : Decidable (n.slaveTransfers en k m) := by
  unfold Node.slaveTransfers; infer_instance

/-- Some interface of the node transfers. -/
def Node.someTransfer (n : Node) (en : Bool) : Prop :=
  (∃ k m, n.masters[k]? = some m ∧ n.masterTransfers en k m) ∨
  (∃ k s, n.slaves[k]? = some s ∧ n.slaveTransfers en k s)

/-- Every connected interface of the node transfers. -/
def Node.allTransfer (n : Node) (en : Bool) : Prop :=
  (∀ k m, n.masters[k]? = some m → m.skipped = false → n.masterTransfers en k m) ∧
  (∀ k s, n.slaves[k]? = some s → s.skipped = false → n.slaveTransfers en k s)

/-- Well formed node. -/
def Node.WF (n : Node) : Prop := (∀ m ∈ n.masters, m.WF) ∧ (∀ s ∈ n.slaves, s.WF)

/-! ## Lemmas -/

theorem all_eraseIdx {β : Type} (l : List β) (p : β → Bool) (k : Nat) (x : β) (h : l[k]? = some x) :
    l.all p = ((l.eraseIdx k).all p && p x) := by
  induction l generalizing k with
  | nil => simp at h
  | cons a l ih =>
    cases k with
    | zero =>
      simp only [List.getElem?_cons_zero, Option.some.injEq] at h
      subst h; simp [Bool.and_comm]
    | succ k =>
      simp only [List.getElem?_cons_succ] at h
      simp only [List.all_cons, List.eraseIdx_cons_succ]
      rw [ih k h, Bool.and_assoc]

theorem ackPart_present (i : Io) (h : i.ackPart = true) : i.present = true := by
  obtain ⟨s, c, e, sk⟩ := i
  rcases e with _ | _ | _ <;> rcases sk with _ | _ | _ <;> cases s <;> cases c <;>
    simp_all [Io.ackPart, Io.present, Io.extraOk]

theorem ackPart_eq_present (i : Io) (h : i.extra = none) : i.ackPart = i.present := by
  obtain ⟨s, c, e, sk⟩ := i
  simp only at h
  subst h
  rcases sk with _ | _ | _ <;> cases s <;> cases c <;> simp [Io.ackPart, Io.present, Io.extraOk]

/-- Transfer of a master = everything else present, own extra condition, not skipped, own valid. -/
theorem master_iff (n : Node) (en : Bool) (k : Nat) (m : Io) (hk : n.masters[k]? = some m)
    (hw : m.WF) :
    n.masterTransfers en k m ↔ m.skipped = false ∧ m.sig = true ∧ m.extraOk = true ∧
      n.masters.all Io.present = true ∧ n.slaves.all Io.present = true ∧ en = true := by
  have e := all_eraseIdx n.masters Io.present k m hk
  simp only [Node.masterTransfers, Node.rdOf, Node.ackForMaster]
  generalize (n.masters.eraseIdx k).all Io.present = a at *
  generalize n.slaves.all Io.present = b at *
  generalize n.masters.all Io.present = c at *
  obtain ⟨s, c, ex, sk⟩ := m
  rcases ex with _ | _ | _ <;> rcases sk with _ | _ | _ <;> cases s <;> cases c <;> cases a <;>
    cases b <;> cases en <;> simp_all [Io.present, Io.extraOk, Io.skipped, maskSkip]

theorem slave_iff (n : Node) (en : Bool) (k : Nat) (m : Io) (hk : n.slaves[k]? = some m)
    (hw : m.WF) :
    n.slaveTransfers en k m ↔ m.skipped = false ∧ m.sig = true ∧ m.extraOk = true ∧
      n.masters.all Io.present = true ∧ n.slaves.all Io.present = true ∧ en = true := by
  have e := all_eraseIdx n.slaves Io.present k m hk
  simp only [Node.slaveTransfers, Node.vldOf, Node.ackForSlave]
  generalize (n.slaves.eraseIdx k).all Io.present = a at *
  generalize n.slaves.all Io.present = b at *
  generalize n.masters.all Io.present = c' at *
  obtain ⟨s, c, ex, sk⟩ := m
  rcases ex with _ | _ | _ <;> rcases sk with _ | _ | _ <;> cases s <;> cases c <;> cases a <;>
    cases c' <;> cases en <;>
    simp_all [Io.present, Io.extraOk, Io.skipped, maskSkip]

theorem present_sig (i : Io) (hw : i.WF) (hp : i.present = true) (hs : i.skipped = false) :
    i.sig = true := by
  obtain ⟨s, c, ex, sk⟩ := i
  rcases sk with _ | _ | _ <;> cases s <;> cases c <;> simp_all [Io.present, Io.skipped, Io.WF]

end Verif.StreamNode
