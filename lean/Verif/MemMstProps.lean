import Verif.MemMst
/-!
# Properties of the masters of a memory space
-/
namespace Verif.MemMst

/-! ## C478 -/

/-- the writes of a list of calls -/
def writes : List Call → List (Nat × Nat × Nat × Option Nat)
  | [] => []
  | .write a d m cb :: r => (a, d, m, cb) :: writes r
  | .read .. :: r => writes r

/-- the reads of a list of calls -/
def reads : List Call → List (Nat × Option Nat)
  | [] => []
  | .write .. :: r => reads r
  | .read a cb :: r => (a, cb) :: reads r

/-- callbacks of reads with the number of the read, the first one has the number `n` -/
def numbered : Nat → List (Nat × Option Nat) → List (Nat × Nat)
  | _, [] => []
  | n, (_, none) :: r => numbered (n + 1) r
  | n, (_, some f) :: r => (n, f) :: numbered (n + 1) r

theorem axi_fold (axi4 : Bool) : ∀ (cs : List Call) (s : Axi), cs.foldl (axiCall axi4) s =
    { aw := s.aw ++ (writes cs).map (fun x => addrItem axi4 x.1)
      w := s.w ++ (writes cs).map (fun x => (x.2.1, x.2.2.1, x.2.2.2))
      ar := s.ar ++ (reads cs).map (fun x => addrItem axi4 x.1)
      wCnt := s.wCnt + (writes cs).length
      rCnt := s.rCnt + (reads cs).length
      listener := s.listener ++ numbered (s.rCnt + 1) (reads cs) }
  | [], s => by simp [writes, reads, numbered]
  | .write a d m cb :: r, s => by
      rw [List.foldl_cons, axi_fold axi4 r]
      simp only [axiCall, writes, reads, List.map_cons, List.length_cons, List.append_assoc, List.cons_append, List.nil_append]
      congr 1
      omega
  | .read a none :: r, s => by
      rw [List.foldl_cons, axi_fold axi4 r]
      simp only [axiCall, writes, reads, numbered, List.map_cons, List.length_cons, List.append_assoc, List.cons_append, List.nil_append]
      congr 1
      omega
  | .read a (some f) :: r, s => by
      rw [List.foldl_cons, axi_fold axi4 r]
      simp only [axiCall, writes, reads, numbered, List.map_cons, List.length_cons, List.append_assoc, List.cons_append, List.nil_append]
      congr 1
      omega

theorem writes_append : ∀ a b : List Call, writes (a ++ b) = writes a ++ writes b
  | [], _ => rfl
  | .write .. :: r, b => by simp only [List.cons_append, writes, writes_append r b]
  | .read .. :: r, b => by simp only [List.cons_append, writes, writes_append r b]

theorem reads_append : ∀ a b : List Call, reads (a ++ b) = reads a ++ reads b
  | [], _ => rfl
  | .write .. :: r, b => by simp only [List.cons_append, reads, reads_append r b]
  | .read .. :: r, b => by simp only [List.cons_append, reads, reads_append r b]

/-- C478: after any calls the item of the address channel and the item of the data channel for a write stand at the same
position, it is the number of writes before it -/
theorem axi_write (axi4 : Bool) (xs ys : List Call) (a d m : Nat) (cb : Option Nat) :
    let s := axiRun axi4 (xs ++ .write a d m cb :: ys)
    let k := (writes xs).length
    s.aw[k]? = some (a, if axi4 then some 0 else none) ∧ s.w[k]? = some (d, m, cb) ∧ s.aw.length = s.w.length ∧
      s.wCnt = s.w.length := by
  unfold axiRun
  rw [axi_fold, writes_append, reads_append]
  refine ⟨?_, ?_, ?_, ?_⟩
  · simp only [writes, List.nil_append, List.map_append, List.map_cons]
    rw [List.getElem?_append_right (by simp)]
    simp only [List.length_map, Nat.sub_self, List.getElem?_cons_zero, addrItem]
    cases axi4 <;> rfl
  · simp only [writes, List.nil_append, List.map_append, List.map_cons]
    rw [List.getElem?_append_right (by simp)]
    simp
  · simp
  · simp

theorem numbered_mem : ∀ (l : List (Nat × Option Nat)) (n k f : Nat),
    (k, f) ∈ numbered n l ↔ n ≤ k ∧ ∃ a, l[k - n]? = some (a, some f)
  | [], n, k, f => by simp [numbered]
  | (a, none) :: r, n, k, f => by
      rw [numbered, numbered_mem r (n + 1) k f]
      constructor
      · rintro ⟨h, b, e⟩
        refine ⟨by omega, b, ?_⟩
        rw [show k - n = (k - (n + 1)) + 1 by omega, List.getElem?_cons_succ]
        exact e
      · rintro ⟨h, b, e⟩
        by_cases hk : k = n
        · subst hk
          simp at e
        · refine ⟨by omega, b, ?_⟩
          rw [show k - n = (k - (n + 1)) + 1 by omega, List.getElem?_cons_succ] at e
          exact e
  | (a, some g) :: r, n, k, f => by
      rw [numbered, List.mem_cons, numbered_mem r (n + 1) k f]
      constructor
      · rintro (h | ⟨h, b, e⟩)
        · cases h
          exact ⟨Nat.le_refl _, a, by simp⟩
        · refine ⟨by omega, b, ?_⟩
          rw [show k - n = (k - (n + 1)) + 1 by omega, List.getElem?_cons_succ]
          exact e
      · rintro ⟨h, b, e⟩
        by_cases hk : k = n
        · subst hk
          simp at e
          left
          rw [e.2]
        · refine .inr ⟨by omega, b, ?_⟩
          rw [show k - n = (k - (n + 1)) + 1 by omega, List.getElem?_cons_succ] at e
          exact e

/-- C478: the k-th item of the address channel of reads is of the k-th read. A callback is registered with the number of a read,
counted from one, exactly if that read has this callback. -/
theorem axi_read (axi4 : Bool) (cs : List Call) :
    (axiRun axi4 cs).ar = (reads cs).map (fun x => (x.1, if axi4 then some 0 else none)) ∧
    (axiRun axi4 cs).rCnt = (reads cs).length ∧
    ∀ k f, (k + 1, f) ∈ (axiRun axi4 cs).listener ↔ ∃ a, (reads cs)[k]? = some (a, some f) := by
  unfold axiRun
  rw [axi_fold]
  refine ⟨?_, by simp, ?_⟩
  · simp only [List.nil_append]
    apply List.map_congr_left
    intro x _
    cases axi4 <;> rfl
  · intro k f
    simp only [List.nil_append]
    rw [numbered_mem]
    simp

example : axiRun true [.read 4 none, .write 8 1 15 none, .read 12 (some 7)] =
    { aw := [(8, some 0)], w := [(1, 15, none)], ar := [(4, some 0), (12, some 0)], wCnt := 1, rCnt := 2, listener := [(2, 7)] } := by
  decide

/-! ## C479: a call which raises does not leave a request -/

def Atomic (call : List Req → Call → Res) : Prop := ∀ q c, (call q c).2 = true → (call q c).1 = q

/-- C479: for Mi32 and for a port of BRAM a call with a callback raises and does not change the queue; a call without a callback
appends one request -/
theorem atomic_partial : Atomic mi32Call ∧ Atomic bramCall ∧
    (∀ q c, (mi32Call q c).2 = false → ∃ r, (mi32Call q c).1 = q ++ [r]) ∧
    (∀ q c, (bramCall q c).2 = false → ∃ r, (bramCall q c).1 = q ++ [r]) := by
  refine ⟨?_, ?_, ?_, ?_⟩ <;> intro q c h <;> rcases c with ⟨a, d, m, _ | f⟩ | ⟨a, _ | f⟩ <;>
    simp_all [mi32Call, bramCall]

/-- C479: exactly the calls with a callback raise, on Avalon-MM only reads -/
theorem raises (q : List Req) (a d m : Nat) (cb : Option Nat) :
    (mi32Call q (.write a d m cb)).2 = cb.isSome ∧ (mi32Call q (.read a cb)).2 = cb.isSome ∧
    (bramCall q (.write a d m cb)).2 = cb.isSome ∧ (bramCall q (.read a cb)).2 = cb.isSome ∧
    (avalonCall q (.write a d m cb)).2 = false ∧ (avalonCall q (.read a cb)).2 = cb.isSome := by
  cases cb <;> simp [mi32Call, bramCall, avalonCall]

/-- C479 violated: a read with a callback on Avalon-MM raises, the request stays in the queue -/
theorem atomic_violated : ¬ Atomic avalonCall ∧ avalonCall [] (.read 4 (some 0)) = ([.read 4], true) := by
  refine ⟨fun h => ?_, rfl⟩
  have := h [] (.read 4 (some 0)) rfl
  cases this

/-! ## C480: the requests keep the calls -/

/-- a call without a callback -/
def plain : Call → Prop
  | .write _ _ _ cb => cb = none
  | .read _ cb => cb = none

/-- the queues tell what was called and in which order -/
def Faithful {Q : Type} (run : List Call → Q) : Prop :=
  ∀ xs ys, (∀ c ∈ xs, plain c) → (∀ c ∈ ys, plain c) → run xs = run ys → xs = ys

/-- the request of a call -/
def reqOf : Call → Req
  | .write a d m cb => .write a d (some m) cb
  | .read a _ => .read a

theorem queue_map (call : List Req → Call → Res) (f : Call → Req) (hc : ∀ q c, plain c → (call q c).1 = q ++ [f c]) :
    ∀ cs : List Call, (∀ c ∈ cs, plain c) → queue call cs = cs.map f := by
  have aux : ∀ (cs : List Call) (q : List Req), (∀ c ∈ cs, plain c) → cs.foldl (fun q c => (call q c).1) q = q ++ cs.map f := by
    intro cs
    induction cs with
    | nil => intro q _; simp
    | cons c r ih =>
      intro q h
      rw [List.foldl_cons, ih _ (fun x hx => h x (List.mem_cons_of_mem _ hx)), hc q c (h c (List.mem_cons_self ..))]
      simp
  intro cs h
  unfold queue
  rw [aux cs [] h, List.nil_append]

theorem reqOf_inj : ∀ xs ys : List Call, (∀ c ∈ xs, plain c) → (∀ c ∈ ys, plain c) → xs.map reqOf = ys.map reqOf → xs = ys
  | [], [], _, _, _ => rfl
  | [], _ :: _, _, _, h => by simp at h
  | _ :: _, [], _, _, h => by simp at h
  | x :: xs, y :: ys, hx, hy, h => by
      rw [List.map_cons, List.map_cons, List.cons.injEq] at h
      have h1 := hx x (List.mem_cons_self ..)
      have h2 := hy y (List.mem_cons_self ..)
      have : x = y := by
        cases x <;> cases y <;> simp_all [reqOf, plain]
      rw [this, reqOf_inj xs ys (fun c hc => hx c (List.mem_cons_of_mem _ hc)) (fun c hc => hy c (List.mem_cons_of_mem _ hc)) h.2]

/-- C480: the queues of Mi32 and Avalon-MM keep all calls in their order -/
theorem faithful_partial : Faithful (queue mi32Call) ∧ Faithful (queue avalonCall) := by
  have h1 : ∀ q c, plain c → (mi32Call q c).1 = q ++ [reqOf c] := by
    intro q c h
    cases c <;> simp_all [mi32Call, plain, reqOf]
  have h2 : ∀ q c, plain c → (avalonCall q c).1 = q ++ [reqOf c] := by
    intro q c h
    cases c <;> simp_all [avalonCall, plain, reqOf]
  refine ⟨fun xs ys hx hy e => ?_, fun xs ys hx hy e => ?_⟩
  · rw [queue_map _ _ h1 xs hx, queue_map _ _ h1 ys hy] at e
    exact reqOf_inj xs ys hx hy e
  · rw [queue_map _ _ h2 xs hx, queue_map _ _ h2 ys hy] at e
    exact reqOf_inj xs ys hx hy e

/-- C480: the requests are those of the calls, in order; on a port of BRAM without the mask -/
theorem requests (cs : List Call) (h : ∀ c ∈ cs, plain c) :
    queue mi32Call cs = cs.map reqOf ∧ queue avalonCall cs = cs.map reqOf ∧
    queue bramCall cs = cs.map (fun c => match reqOf c with | .write a d _ cb => .write a d none cb | .read a => .read a) := by
  refine ⟨queue_map _ _ ?_ cs h, queue_map _ _ ?_ cs h, queue_map _ _ ?_ cs h⟩ <;> intro q c hc <;>
    cases c <;> simp_all [mi32Call, avalonCall, bramCall, plain, reqOf]

/-- C480 violated: on AXI-Lite the order of a write and a read is lost, on a port of BRAM the mask of a write is lost -/
theorem faithful_violated : (∀ axi4, ¬ Faithful (axiRun axi4)) ∧ ¬ Faithful (queue bramCall) := by
  refine ⟨fun axi4 h => ?_, fun h => ?_⟩
  · have := h [.write 4 1 15 none, .read 4 none] [.read 4 none, .write 4 1 15 none]
      (by simp [plain]) (by simp [plain]) (by cases axi4 <;> rfl)
    cases this
  · have := h [.write 4 1 15 none] [.write 4 1 1 none] (by simp [plain]) (by simp [plain]) rfl
    cases this

end Verif.MemMst
