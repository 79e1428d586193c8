/-
Properties C58 and C59: memory management.
The heap is in `Model/Heap.lean`; a call that yields `none` has used or freed a pointer it
must not use.
-/
import Verif.Spec.Toolbox
import Verif.Proofs.HeapToolbox
import Verif.Proofs.HeapHistory

namespace Verif.Props
open Verif.Spec Verif.Heap Verif.Solver

section
variable {R : Type} [Arith R]

/-- **C58** Injection diagnostics, after any history of calls, on any heap and whichever
    allocations fail: the call uses no pointer it must not use, its outcome is as
    `Toolbox.injDiag` says, and when it returns or throws the heap has the same blocks with the same
    contents as before. -/
theorem C58_injection (g : ConnectivityGraph) (calls : List (Toolbox.Call R)) (fuel : Nat)
    (sets : List CellSet) (h : Heap) (hv : h.Valid) :
    ∃ (al : Nat → Alloc) (h' : Heap), (h.NoFail → al = noFailure) ∧
      Heap.injDiag (toolboxAfter g calls) fuel sets h =
        some (h', (toolboxAfter g calls).injDiag al fuel sets) ∧
      ((∃ sol, injectionOutcome g calls al fuel sets = .ok sol) ∨
        (∃ e, injectionOutcome g calls al fuel sets = .throw e) →
        h'.block = h.block ∧ h'.Valid ∧ h'.fails = h.fails) := by
  obtain ⟨al, nf, h', e, f⟩ := injDiag_spec (toolboxAfter g calls) fuel sets hv
  refine ⟨al, h', fun h0 => funext (nf h0), e, fun hx => ?_⟩
  obtain ⟨st, hb⟩ := f hx
  exact ⟨hb, st.valid hv, st.fails⟩

/-- **C58** for production diagnostics. -/
theorem C58_production (g : ConnectivityGraph) (calls : List (Toolbox.Call R)) (fuel : Nat)
    (sets : List CellSet) (h : Heap) (hv : h.Valid) :
    ∃ (al : Nat → Alloc) (h' : Heap), (h.NoFail → al = noFailure) ∧
      Heap.prodDiag (toolboxAfter g calls) fuel sets h =
        some (h', (toolboxAfter g calls).prodDiag al fuel sets) ∧
      ((∃ sol, productionOutcome g calls al fuel sets = .ok sol) ∨
        (∃ e, productionOutcome g calls al fuel sets = .throw e) →
        h'.block = h.block ∧ h'.Valid ∧ h'.fails = h.fails) := by
  obtain ⟨al, nf, h', e, f⟩ := prodDiag_spec (toolboxAfter g calls) fuel sets hv
  refine ⟨al, h', fun h0 => funext (nf h0), e, fun hx => ?_⟩
  obtain ⟨st, hb⟩ := f hx
  exact ⟨hb, st.valid hv, st.fails⟩

end

/-- Two cells, one connection, an injector and a producer. -/
def exHeapGraph : ConnectivityGraph := ⟨2, [0, 1]⟩
def exHeapCalls : List (Toolbox.Call (X ℚ)) :=
  [.assignPoreVolume [.fin 1, .fin 1], .assignConnectionFlux ⟨1, 1, [.fin 1]⟩,
   .assignInflowFlux [(⟨[65]⟩, [(0, .fin 1)]), (⟨[80]⟩, [(1, .fin (-1))])]]

/-- Enough memory: the call makes 16 allocations and returns.  The eighth one fails, the last of
    the reversal of the global ordering: the call ends with runtime_error.  The heap is as before in
    both cases. -/
example :
    (∃ h' t sol, Heap.injDiag (toolboxAfter exHeapGraph exHeapCalls) 50 [CellSet.ofCells ⟨[65]⟩ [0]]
      (emptyHeap fun _ => false) = some (h', t, .ok sol) ∧ h'.calls = 16 ∧
      h'.block = fun _ => none) ∧
    (∃ h' t, Heap.injDiag (toolboxAfter exHeapGraph exHeapCalls) 50 [CellSet.ofCells ⟨[65]⟩ [0]]
      (emptyHeap fun k => k == 7) = some (h', t, .throw .runtimeError) ∧ h'.calls = 8 ∧
      h'.block = fun _ => none) := by
  constructor
  · have e : (match Heap.injDiag (toolboxAfter exHeapGraph exHeapCalls) 50
        [CellSet.ofCells ⟨[65]⟩ [0]] (emptyHeap fun _ => false) with
        | some (h, _, .ok _) => h.calls == 16
        | _ => false) = true := by decide +kernel
    obtain ⟨al, h', _, eq, clean⟩ := C58_injection exHeapGraph exHeapCalls 50
      [CellSet.ofCells ⟨[65]⟩ [0]] _ (emptyHeap_valid fun _ => false)
    rw [eq] at e ⊢
    unfold injectionOutcome at clean
    generalize (toolboxAfter exHeapGraph exHeapCalls).injDiag al 50 _ = r at e eq clean
    obtain ⟨t, r⟩ := r
    cases r <;> simp at e
    exact ⟨h', t, _, rfl, e, (clean (.inl ⟨_, rfl⟩)).1⟩
  · have e : (match Heap.injDiag (toolboxAfter exHeapGraph exHeapCalls) 50
        [CellSet.ofCells ⟨[65]⟩ [0]] (emptyHeap fun k => k == 7) with
        | some (h, _, .throw .runtimeError) => h.calls == 8
        | _ => false) = true := by decide +kernel
    obtain ⟨al, h', _, eq, clean⟩ := C58_injection exHeapGraph exHeapCalls 50
      [CellSet.ofCells ⟨[65]⟩ [0]] _ (emptyHeap_valid fun k => k == 7)
    rw [eq] at e ⊢
    unfold injectionOutcome at clean
    generalize (toolboxAfter exHeapGraph exHeapCalls).injDiag al 50 _ = r at e eq clean
    obtain ⟨t, r⟩ := r
    rcases r with _ | x | _ | _ <;> try simp at e
    cases x with
    | runtimeError => exact ⟨h', t, rfl, by simpa using e, (clean (.inr ⟨_, rfl⟩)).1⟩
    | _ => simp at e

/-- **C59** A program that makes any history of calls of the C interface, whichever
    allocations fail: no call uses a pointer it must not use, and the history ends as if the
    objects were values.  If it ends with `hs` in the hands of the program, then each
    pointer leads to the value of its object, and the blocks that were not there at the
    beginning are the 2 of each workspace and the 3 of each result not yet destroyed. -/
theorem C59_history (fuel : Nat) (calls : List ApiCall) (h : Heap) (hv : h.Valid) :
    ∃ as : List CallAlloc, as.length = calls.length ∧
      (h.NoFail → ∀ a ∈ as, a = CallAlloc.good) ∧
      match valueRun fuel as calls [] with
      | .ok vs => ∃ h' hs, apiRun fuel calls [] h = some (h', .ok hs) ∧
          List.Forall₂ (Reads h') hs vs ∧
          ∃ new : List Nat, new.Nodup ∧ new.length = (hs.map Handle.blocks).sum ∧
            (∀ a ∈ new, h.block a = none ∧ h'.block a ≠ none) ∧
            ∀ a, a ∉ new → h'.block a = h.block a
      | .throw _ => False
      | .ub u => ∃ h', apiRun fuel calls [] h = some (h', .ub u)
      | .diverge => ∃ h', apiRun fuel calls [] h = some (h', .diverge) := by
  obtain ⟨as, hl, nf, e⟩ := apiRun_spec (base := h.block) fuel calls hv (ps := [])
    ⟨[], .nil, .refl (by simp)⟩
  refine ⟨as, hl, nf, ?_⟩
  simp only [List.map_nil] at e
  cases hr : valueRun fuel as calls [] with
  | ok vs =>
    rw [hr] at e
    obtain ⟨h', ps, e1, rfl, st, K, a, ch⟩ := e
    refine ⟨h', ps.map Prod.fst, e1, ?_, K, ch.nodup, a.length, ?_, ?_⟩
    · have := a.reads
      rw [List.forall₂_map_left_iff, List.forall₂_map_right_iff]
      exact List.forall₂_same.2 this
    · intro y hy
      refine ⟨?_, a.live y hy⟩
      rcases ch.fresh y hy with h | h
      · simp at h
      · exact h
    · intro y hy
      exact ch.frame y (by simp) hy
  | throw x => rw [hr] at e; exact e
  | ub u => rw [hr] at e; exact e
  | diverge => rw [hr] at e; exact e

/-- **C59**, the end of a program: once everything is destroyed, the heap is as it was. -/
theorem C59_no_leak (fuel : Nat) (calls : List ApiCall) (h : Heap) (hv : h.Valid) (h' : Heap)
    (hs : List Handle) (e : apiRun fuel calls [] h = some (h', .ok hs))
    (hd : ∀ x ∈ hs, x = .ws none ∨ x = .res none) : h'.block = h.block := by
  obtain ⟨as, _, _, f⟩ := C59_history fuel calls h hv
  split at f
  · obtain ⟨h'', hs', e', left, new, _, hl, _, hn⟩ := f
    rw [e] at e'
    simp only [Option.some.injEq, Prod.mk.injEq, Res.ok.injEq] at e'
    obtain ⟨rfl, rfl⟩ := e'
    have : (hs.map Handle.blocks).sum = 0 := by
      clear e hl left
      induction hs with
      | nil => rfl
      | cons x l ih =>
        rw [List.map_cons, List.sum_cons, ih fun y hy => hd y (List.mem_cons_of_mem _ hy)]
        rcases hd x (by simp) with rfl | rfl <;> rfl
    rw [this, List.length_eq_zero_iff] at hl
    subst hl
    exact funext fun a => hn a (by simp)
  · exact f.elim
  · obtain ⟨_, e'⟩ := f
    rw [e] at e'
    simp at e'
  · obtain ⟨_, e'⟩ := f
    rw [e] at e'
    simp at e'

/-- A program that computes, reuses a workspace, reverses, and destroys. -/
def exampleProgram : List ApiCall :=
  [.tarjan 3 [0, 1, 2, 3] [1, 2, 0], .createWorkspace 4,
   .reachable 3 [0, 1, 2, 3] [1, 2, 0] [2] 1, .reverse 0,
   .reachable 4 [0, 1, 1, 1, 1] [3] [0] 1, .destroyWorkspace 1, .reverse 3, .destroyResult 2]

/-- What the pointers of a history stand for, as far as null or not is concerned. -/
def shape (r : Res (List Value)) : Option (List (Bool × Bool)) :=
  match r with
  | .ok vs => some (vs.map fun
      | .ws x => (false, x.isSome)
      | .res x => (true, x.isSome))
  | _ => none

theorem shape_blocks {h : Heap} {hs : List Handle} {vs : List Value}
    (r : List.Forall₂ (Reads h) hs vs) :
    hs.map Handle.blocks = vs.map fun
      | .ws x => if x.isSome then 2 else 0
      | .res x => if x.isSome then 3 else 0 := by
  induction r with
  | nil => rfl
  | @cons x v _ _ r _ ih =>
    rw [List.map_cons, List.map_cons, ih]
    congr 1
    rcases x with (_ | a) | (_ | a)
    · cases (show v = .ws none from r); rfl
    · obtain ⟨y, rfl, _⟩ := r; rfl
    · cases (show v = .res none from r); rfl
    · obtain ⟨y, rfl, _⟩ := r; rfl

/-- On the empty heap the program above ends with two results left, in six blocks. -/
example : ∃ h' hs, apiRun 20 exampleProgram [] (emptyHeap fun _ => false) = some (h', .ok hs) ∧
    (hs.map Handle.blocks) = [3, 0, 0, 3] := by
  obtain ⟨as, hl, nf, f⟩ := C59_history 20 exampleProgram _ (emptyHeap_valid fun _ => false)
  have has : as = List.replicate 8 CallAlloc.good :=
    List.eq_replicate_iff.2 ⟨hl, nf fun _ => rfl⟩
  subst has
  have hsh : shape (valueRun 20 (List.replicate 8 CallAlloc.good) exampleProgram []) =
      some [(true, true), (false, false), (true, false), (true, true)] := by decide +kernel
  revert hsh f
  cases valueRun 20 (List.replicate 8 CallAlloc.good) exampleProgram [] with
  | ok vs =>
    rintro ⟨h', hs, e, r, -⟩ hsh
    refine ⟨h', hs, e, ?_⟩
    rw [shape_blocks r]
    simp only [shape, Option.some.injEq] at hsh
    have : ∀ l : List Value, ∀ b : List (Bool × Bool), (l.map fun
        | Value.ws x => (false, x.isSome)
        | .res x => (true, x.isSome)) = b →
        (l.map fun
          | Value.ws x => if x.isSome then 2 else 0
          | .res x => if x.isSome then 3 else 0) =
          b.map fun c => if c.2 then if c.1 then 3 else 2 else 0 := by
      rintro l b rfl
      rw [List.map_map]
      apply List.map_congr_left
      rintro (x | x) - <;> rfl
    rw [this vs _ hsh]
    rfl
  | throw x => exact fun f => f.elim
  | ub u => intro f hsh; simp [shape] at hsh
  | diverge => intro f hsh; simp [shape] at hsh

/-- Running out of memory in the middle: `tarjan` gets its workspace, but of its result only
    the structure and one of the two arrays. -/
example : ∃ h', apiRun 20 [.tarjan 3 [0, 1, 2, 3] [1, 2, 0]] [] (emptyHeap fun k => k == 3) =
    some (h', .ok [.res none]) ∧ h'.calls = 5 ∧ h'.block = (emptyHeap fun k => k == 3).block := by
  have e : (match apiRun 20 [.tarjan 3 [0, 1, 2, 3] [1, 2, 0]] [] (emptyHeap fun k => k == 3) with
      | some (h, .ok [.res none]) => h.calls == 5
      | _ => false) = true := by decide +kernel
  split at e
  · rename_i h' e'
    exact ⟨h', e', by simpa using e, C59_no_leak _ _ _ (emptyHeap_valid _) _ _ e' (by simp)⟩
  · simp at e

end Verif.Props
