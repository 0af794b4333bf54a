import Verif.EthMacRx
/-!
# Evaluation of the model of the receiver

The kernel evaluates terms lazily, so that the term of the state grows with each step. Functions of this file are equal to functions of
the model, but values of registers are computed after each step. They are used only for concrete witnesses.
-/
namespace Verif.EthMacRx

section
variable {α β γ : Type}

def forceB (b : Bool) (k : Bool → α) : α := match b with | true => k true | false => k false
@[simp] theorem forceB_eq (b : Bool) (k : Bool → α) : forceB b k = k b := by cases b <;> rfl

def forceN (n : Nat) (k : Nat → α) : α := match n with | 0 => k 0 | m + 1 => k (m + 1)
@[simp] theorem forceN_eq (n : Nat) (k : Nat → α) : forceN n k = k n := by cases n <;> rfl

def forceL (l : List Nat) (k : List Nat → α) : α :=
  match l with | [] => k [] | a :: t => forceN a fun a => forceL t fun t => k (a :: t)
@[simp] theorem forceL_eq (l : List Nat) : ∀ (k : List Nat → α), forceL l k = k l := by
  induction l with
  | nil => intro k; rfl
  | cons a t ih => intro k; simp [forceL, ih]

/-- The first `n` values of a function. -/
def forceF (F : β → (β → α) → α) : Nat → (Nat → β) → ((Nat → β) → α) → α
  | 0, f, k => k f
  | n + 1, f, k => forceF F n f fun g => F (f n) fun v => k fun i => if i = n then v else g i
theorem forceF_eq (F : β → (β → α) → α) (hF : ∀ b k, F b k = k b) (n : Nat) : ∀ (f : Nat → β) (k : (Nat → β) → α), forceF F n f k = k f := by
  induction n with
  | zero => intro f k; rfl
  | succ n ih =>
    intro f k
    simp only [forceF, ih, hF]
    congr 1
    funext i
    split
    · rename_i h; rw [h]
    · rfl

def forceW (w : W) (k : W → α) : α := forceN w.d fun d => forceB w.last fun l => k ⟨d, l⟩
@[simp] theorem forceW_eq (w : W) (k : W → α) : forceW w k = k w := by simp [forceW]

def forceP (p : Phy) (k : Phy → α) : α :=
  forceB p.vld fun v => forceN p.data fun d => forceB p.err fun e => forceB p.last fun l => k ⟨v, d, e, l⟩
@[simp] theorem forceP_eq (p : Phy) (k : Phy → α) : forceP p k = k p := by simp [forceP]

def forceE (s : Axi4sEq.St) (k : Axi4sEq.St → α) : α := forceN s.idx fun i => forceB s.eq fun e => k ⟨i, e⟩
@[simp] theorem forceE_eq (s : Axi4sEq.St) (k : Axi4sEq.St → α) : forceE s k = k s := by simp [forceE]

def forceR (r : FooterSplit.Reg Nat) (k : FooterSplit.Reg Nat → α) : α :=
  forceL r.w.bytes fun b => forceB r.w.last fun l => forceB r.valid fun v => forceF forceB 1 r.foot fun f => k ⟨⟨b, l⟩, v, f⟩
@[simp] theorem forceR_eq (r : FooterSplit.Reg Nat) (k : FooterSplit.Reg Nat → α) : forceR r k = k r := by
  simp [forceR, forceF_eq forceB forceB_eq]

def forceC (s : FooterSplit.St Nat) (k : FooterSplit.St Nat → α) : α :=
  forceF forceR 6 s.r fun r => forceB s.sofSeen fun f => k ⟨r, f⟩
@[simp] theorem forceC_eq (s : FooterSplit.St Nat) (k : FooterSplit.St Nat → α) : forceC s k = k s := by
  simp [forceC, forceF_eq forceR forceR_eq]

/-- A write to a memory. -/
def forceM (m : Nat → W) (wr : Bool) (a : Nat) (d : W) (k : (Nat → W) → α) : α :=
  forceB wr fun wr => match wr with
    | true => forceN a fun a => forceW d fun d => k (upd m a d)
    | false => k m
@[simp] theorem forceM_eq (m : Nat → W) (wr : Bool) (a : Nat) (d : W) (k : (Nat → W) → α) :
    forceM m wr a d k = k (if wr then upd m a d else m) := by cases wr <;> simp [forceM]

def forceD (D : Nat) (s : FifoDrop.St W) (i : FifoDrop.In W) (k : FifoDrop.St W → α) : α :=
  let n := FifoDrop.next D s i
  forceN n.wr fun wr => forceN n.wrT fun wrT => forceN n.rd fun rd => forceB n.looped fun lo => forceB n.loopedT fun loT =>
  forceM s.mem (FifoDrop.fifoWrite s i) s.wrT i.data fun mem =>
  forceW n.dout fun dout => forceN n.stash fun st => forceN n.size fun sz => forceN n.space fun sp =>
    k ⟨wr, wrT, rd, lo, loT, mem, dout, st, sz, sp⟩
@[simp] theorem forceD_eq (D : Nat) (s : FifoDrop.St W) (i : FifoDrop.In W) (k : FifoDrop.St W → α) :
    forceD D s i k = k (FifoDrop.next D s i) := by simp [forceD, FifoDrop.next]

def forceH (D : Nat) (s : Fifo.St W) (i : Fifo.In W) (k : Fifo.St W → α) : α :=
  let n := Fifo.next D s i
  forceN n.wr fun wr => forceN n.rd fun rd => forceB n.looped fun lo =>
  forceM s.mem (Fifo.fifoWrite s i) s.wr i.data fun mem =>
  forceW n.dout fun dout => forceN n.size fun sz => forceN n.space fun sp => k ⟨wr, rd, lo, mem, dout, sz, sp⟩
@[simp] theorem forceH_eq (D : Nat) (s : Fifo.St W) (i : Fifo.In W) (k : Fifo.St W → α) :
    forceH D s i k = k (Fifo.next D s i) := by simp [forceH, Fifo.next]

/-- `next`. -/
def stepF (c : Cfg) (s : St) (x : In) (k : St → α) : α :=
  let n := next c s x
  forceB (fifoIn c s).vld fun v => forceW (fifoIn c s).w fun w => forceB (fifoIn c s).discard fun d => forceB (fifoIn c s).rd fun r =>
  let fi : AxisFifoDrop.In Nat := ⟨v, w, d, r⟩
  forceB (bufIn c s x.rd).vld fun v => forceB (bufIn c s x.rd).rd fun r =>
  let bi : HsFifo.In W := ⟨v, (bufIn c s x.rd).data, r⟩
  forceP n.din fun din => forceN n.widx fun widx => forceE n.eq fun eq => forceL n.crc fun crc => forceC n.cut fun cut =>
  forceD (c.depth - 1) s.fifo.fifo (AxisFifoDrop.fifoIn s.fifo fi) fun ff =>
  forceB n.fifo.outVld fun fv =>
  forceH 3 s.buf.fifo (HsFifo.fifoIn s.buf bi) fun bf =>
  forceB n.buf.outVld fun bv => forceB n.errF fun e => forceB n.goodF fun g =>
    k ⟨din, widx, eq, crc, cut, ⟨ff, fv⟩, ⟨bf, bv⟩, e, g⟩
theorem stepF_eq (c : Cfg) (s : St) (x : In) (k : St → α) : stepF c s x k = k (next c s x) := by
  simp only [stepF, forceB_eq, forceW_eq, forceP_eq, forceN_eq, forceE_eq, forceL_eq, forceC_eq, forceD_eq, forceH_eq]
  rfl

end

/-- Result of a run: delivered words, no overflow, the state of the end. -/
structure Res where
  words : List (Nat × Bool)
  noOvf : Bool
  lastW : Bool
  goodF : Bool
  errF : Bool
deriving DecidableEq

def runF (c : Cfg) : List In → St → List (Nat × Bool) → Bool → Res
  | [], s, a, o => ⟨a.reverse, o, lastWaits s, s.goodF, s.errF⟩
  | x :: t, s, a, o =>
    forceB (o && !outOfMem c s) fun o =>
    forceB ((out s).vld && x.rd) fun v =>
    match v with
    | true => forceW (out s).w fun w => stepF c s x fun s => runF c t s ((w.d, w.last) :: a) o
    | false => stepF c s x fun s => runF c t s a o

def noOvf (c : Cfg) : St → List In → Bool
  | _, [] => true
  | s, x :: t => !outOfMem c s && noOvf c (next c s x) t

theorem runF_eq (c : Cfg) : ∀ (is : List In) (s : St) (a : List (Nat × Bool)) (o : Bool), runF c is s a o =
    ⟨a.reverse ++ delivered ((machine c).trace s is), o && noOvf c s is, lastWaits ((machine c).final s is),
      ((machine c).final s is).goodF, ((machine c).final s is).errF⟩
  | [], s, a, o => by simp [runF, noOvf, Machine.trace, Machine.final, delivered]
  | x :: t, s, a, o => by
    have ht : delivered ((machine c).trace s (x :: t)) =
        given ((out s).vld && x.rd) ((out s).w.d, (out s).w.last) ++ delivered ((machine c).trace (next c s x) t) := by
      show delivered ((x, out s) :: (machine c).trace (next c s x) t) = _
      rw [delivered, List.filterMap_cons]
      cases h : ((out s).vld && x.rd) <;> rfl
    have hf : (machine c).final s (x :: t) = (machine c).final (next c s x) t := rfl
    rw [ht, hf]
    simp only [runF, forceB_eq, forceW_eq, stepF_eq]
    cases h : ((out s).vld && x.rd) <;> simp only [runF_eq c t] <;> simp [noOvf, Bool.and_assoc]

end Verif.EthMacRx
