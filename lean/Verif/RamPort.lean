import Verif.Common
/-!
# Model of `RamAsAddrDataRdVld` (hwtLib/handshaked/ramAsAddrDataRdVld.py) connected to a RAM port

The RAM (hwtLib/mem/ram.py:119-143) is modelled by its contract towards a reader: the memory and the
registered `dout`, which holds `mem[addr]` in the cycle after an enabled read and an arbitrary
value in all other cycles. A write is an arbitrary update function of the addressed cell, so that
plain and masked writes are both covered. -/
namespace Verif.RamPort

universe u
variable {α : Type u}

/-- Registers of `read_logic` (:70-77) and the RAM. -/
structure St (α : Type u) where
  pending : Bool
  vld : Bool
  data : α
  ovVld : Bool
  ovData : α
  mem : Nat → α
  dout : α

/-- `r.addr`, `w`, `r.data.rd`; `x` is the value of `dout` when it is undefined. -/
structure In (α : Type u) where
  rAddrVld : Bool
  rAddr : Nat
  wVld : Bool
  wAddr : Nat
  wUpd : α → α
  rd : Bool
  x : α

/-- `r.addr.rd`, `w.rd`, `r.data.vld`, `r.data.data`. -/
structure Out (α : Type u) where
  rAddrRd : Bool
  wRd : Bool
  vld : Bool
  data : α

/-- `rEn` (:79) -/
def rEn (s : St α) (i : In α) : Bool := (!s.ovVld || i.rd) && (!s.vld || i.rd)

/-- :101, :124-125, :129-130 -/
def out (s : St α) (i : In α) : Out α where
  rAddrRd := rEn s i
  wRd := !rEn s i || !i.rAddrVld
  vld := s.vld
  data := s.data

/-- `ram.en` (:128), `ram.we` and `ram.addr` (:117-123). -/
def ramEn (s : St α) (i : In α) : Bool := (rEn s i && i.rAddrVld) || i.wVld
def ramWe (s : St α) (i : In α) : Bool := !(rEn s i && i.rAddrVld)
def ramAddr (s : St α) (i : In α) : Nat := if rEn s i && i.rAddrVld then i.rAddr else i.wAddr

/-- Clock edge: :80-99 and the RAM. -/
def next (s : St α) (i : In α) : St α where
  pending := i.rAddrVld && rEn s i
  vld := if s.pending then (if !s.vld || i.rd then true else s.vld)
         else (if i.rd then s.ovVld else s.vld)
  data := if s.pending then (if !s.vld || i.rd then s.dout else s.data)
          else (if i.rd then s.ovData else s.data)
  ovVld := if s.pending then (if !s.vld || i.rd then false else true)
           else (if i.rd then false else s.ovVld)
  ovData := if s.pending then (if !s.vld || i.rd then s.ovData else s.dout) else s.ovData
  mem := if ramEn s i && ramWe s i then upd s.mem (ramAddr s i) (i.wUpd (s.mem (ramAddr s i)))
         else s.mem
  dout := if ramEn s i && !ramWe s i then s.mem (ramAddr s i) else i.x

def machine : Machine (St α) (In α) (Out α) := ⟨out, next⟩

/-- Reset state with arbitrary contents of memory and data registers. -/
def init (mem0 : Nat → α) (d0 d1 d2 : α) : St α := ⟨false, false, d0, false, d1, mem0, d2⟩

/-! ## Specification -/

/-- The answers due for the accepted reads, computed from the port activity only: writes update the
memory image, a read is answered from the image at the time of its acceptance. -/
def answers : (Nat → α) → List (In α × Out α) → List α
  | _, [] => []
  | m, (i, o) :: tr =>
    let m' := if i.wVld && o.wRd then upd m i.wAddr (i.wUpd (m i.wAddr)) else m
    (if i.rAddrVld && o.rAddrRd then [m i.rAddr] else []) ++ answers m' tr

/-- Words transferred on `r.data`. -/
def delivered (tr : List (In α × Out α)) : List α :=
  tr.filterMap fun e => if e.2.vld && e.1.rd then some e.2.data else none

/-! ## Proof internals -/

def Inv (s : St α) : Prop := (s.ovVld = true → s.vld = true) ∧ ¬ (s.ovVld = true ∧ s.pending = true)

def q (s : St α) : List α := given s.vld s.data ++ given s.ovVld s.ovData ++ given s.pending s.dout

theorem step (s : St α) (i : In α) (h : Inv s) :
    Inv (next s i) ∧
    q s ++ given (i.rAddrVld && (out s i).rAddrRd) (s.mem i.rAddr) =
      given ((out s i).vld && i.rd) (out s i).data ++ q (next s i) ∧
    (next s i).mem = if i.wVld && (out s i).wRd then
        upd s.mem i.wAddr (i.wUpd (s.mem i.wAddr)) else s.mem := by
  obtain ⟨p, v, d, ov, od, m, dt⟩ := s
  obtain ⟨rv, ra, wv, wa, wu, rd, x⟩ := i
  obtain ⟨h1, h2⟩ := h
  cases p <;> cases v <;> cases ov <;> simp at h1 h2 <;>
  cases rv <;> cases wv <;> cases rd <;>
    simp [Inv, q, next, out, rEn, ramEn, ramWe, ramAddr]

theorem core : ∀ (is : List (In α)) (s : St α), Inv s →
    Inv (machine.final s is) ∧
    q s ++ answers s.mem (machine.trace s is)
      = delivered (machine.trace s is) ++ q (machine.final s is) := by
  intro is
  induction is with
  | nil => intro s h; exact ⟨h, by simp [answers, delivered]⟩
  | cons i is ih =>
    intro s h
    obtain ⟨hi, hq, hm⟩ := step s i h
    obtain ⟨hf, hq'⟩ := ih _ hi
    refine ⟨hf, ?_⟩
    have e1 : delivered (machine.trace s (i :: is)) = given ((out s i).vld && i.rd) (out s i).data
        ++ delivered (machine.trace (next s i) is) :=
      filterMap_cons_ite (fun e : In α × Out α => e.2.vld && e.1.rd) (fun e => e.2.data) _ _
    have e2 : answers s.mem (machine.trace s (i :: is)) =
        given (i.rAddrVld && (out s i).rAddrRd) (s.mem i.rAddr)
        ++ answers (next s i).mem (machine.trace (next s i) is) := by
      rw [hm, given_eq]; rfl
    rw [e1, e2, ← List.append_assoc, hq, List.append_assoc, List.append_assoc]
    congr 1

theorem q_le (s : St α) (h : Inv s) : (q s).length ≤ 2 := by
  obtain ⟨p, v, d, ov, od, m, dt⟩ := s
  obtain ⟨h1, h2⟩ := h
  cases p <;> cases v <;> cases ov <;> simp_all [q]

end Verif.RamPort
