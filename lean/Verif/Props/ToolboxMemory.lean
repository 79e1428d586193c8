/-
Property C94: a diagnostics call during which a container does not get the memory it asks for.
-/
import Verif.Props.Heap
import Verif.Props.Shortage
import Verif.Proofs.ToolboxMemory

namespace Verif.Props
open Verif.Spec Verif.Heap Verif.Solver Verif.Toolbox Verif.Memory

section
variable {R : Type} [Arith R]

/-- **C94** Injection diagnostics on a machine on which any allocation of tarjan.c and any request of a container may fail:
    no pointer is used that must not be used.  If the call throws `std::bad_alloc`, a request of a container was not met, the heap has
    the same blocks with the same contents as before, and the toolbox is in one of the states of C68.  Otherwise the call ends as
    `Toolbox.injDiag` says, and when it returns or throws, the heap has the same blocks as before. -/
theorem C94_injection (t : Toolbox R) (left : AssembledConnections R × AssembledConnections R) (fuel : Nat)
    (sets : List CellSet) (s : Machine) (hv : s.heap.Valid) :
    ∃ s' t' o, Memory.injDiag t left fuel sets s = some (s', t', o) ∧
      match o with
      | .ranOut => (∃ j, s.room j = false) ∧ s'.heap.block = s.heap.block ∧ s'.heap.Valid ∧
          ∀ al, RunsOut t (.computeInjectionDiagnostics al fuel sets) t'
      | .ended r => ∃ al : Nat → Alloc, (s.heap.NoFail → al = noFailure) ∧ (t', r) = t.injDiag al fuel sets ∧
          ((∃ sol, r = .ok sol) ∨ (∃ e, r = .throw e) → s'.heap.block = s.heap.block ∧ s'.heap.Valid) := by
  rcases injDiag_agrees t left fuel sets hv with ⟨k, e⟩ | ⟨hj, h', k, t', e, st, hb, q⟩
  · obtain ⟨al, nf, h', e', f⟩ := injDiag_spec t fuel sets hv
    rw [e'] at e
    refine ⟨_, _, _, e, al, fun h0 => funext (nf h0), rfl, fun hx => ?_⟩
    obtain ⟨st, hb⟩ := f hx
    exact ⟨hb, st.valid hv⟩
  · exact ⟨_, _, _, e, hj, hb, st.valid hv, q⟩

/-- **C94** for production diagnostics. -/
theorem C94_production (t : Toolbox R) (left : AssembledConnections R × AssembledConnections R) (fuel : Nat)
    (sets : List CellSet) (s : Machine) (hv : s.heap.Valid) :
    ∃ s' t' o, Memory.prodDiag t left fuel sets s = some (s', t', o) ∧
      match o with
      | .ranOut => (∃ j, s.room j = false) ∧ s'.heap.block = s.heap.block ∧ s'.heap.Valid ∧
          ∀ al, RunsOut t (.computeProductionDiagnostics al fuel sets) t'
      | .ended r => ∃ al : Nat → Alloc, (s.heap.NoFail → al = noFailure) ∧ (t', r) = t.prodDiag al fuel sets ∧
          ((∃ sol, r = .ok sol) ∨ (∃ e, r = .throw e) → s'.heap.block = s.heap.block ∧ s'.heap.Valid) := by
  rcases prodDiag_agrees t left fuel sets hv with ⟨k, e⟩ | ⟨hj, h', k, t', e, st, hb, q⟩
  · obtain ⟨al, nf, h', e', f⟩ := prodDiag_spec t fuel sets hv
    rw [e'] at e
    refine ⟨_, _, _, e, al, fun h0 => funext (nf h0), rfl, fun hx => ?_⟩
    obtain ⟨st, hb⟩ := f hx
    exact ⟨hb, st.valid hv⟩
  · exact ⟨_, _, _, e, hj, hb, st.valid hv, q⟩

/-- No allocation fails and every request is met. -/
def Enough (s : Machine) : Prop := s.heap.Valid ∧ s.heap.NoFail ∧ ∀ j, s.room j = true

/-- With enough memory a diagnostics call ends as `t.injDiag noFailure` says, the production one as `t.prodDiag noFailure`. -/
theorem enough_memory (t : Toolbox R) (left : AssembledConnections R × AssembledConnections R) (fuel : Nat)
    (sets : List CellSet) (s : Machine) (hs : Enough s) :
    (∃ s' t', Memory.injDiag t left fuel sets s = some (s', t', .ended (t.injDiag noFailure fuel sets).2)) ∧
    (∃ s' t', Memory.prodDiag t left fuel sets s = some (s', t', .ended (t.prodDiag noFailure fuel sets).2)) := by
  obtain ⟨hv, nf, hr⟩ := hs
  constructor
  · obtain ⟨s', t', o, e, h⟩ := C94_injection t left fuel sets s hv
    cases o with
    | ranOut => obtain ⟨⟨j, hj⟩, _⟩ := h; rw [hr j] at hj; cases hj
    | ended r =>
      obtain ⟨al, ha, e', _⟩ := h
      rw [ha nf] at e'
      exact ⟨s', t', by rw [e, ← e']⟩
  · obtain ⟨s', t', o, e, h⟩ := C94_production t left fuel sets s hv
    cases o with
    | ranOut => obtain ⟨⟨j, hj⟩, _⟩ := h; rw [hr j] at hj; cases hj
    | ended r =>
      obtain ⟨al, ha, e', _⟩ := h
      rw [ha nf] at e'
      exact ⟨s', t', by rw [e, ← e']⟩

omit [Arith R] in
/-- The events of C68 with one more diagnostics call that ran out. -/
theorem repeated_append {g : ConnectivityGraph} {es : List (Verif.Spec.Event R)} (hf : FluxRepeated g es) (hi : InflowRepeated es)
    {c : Call R} (hc : (∀ f, c ≠ .assignConnectionFlux f) ∧ ∀ m, c ≠ .assignInflowFlux m) :
    FluxRepeated g (es ++ [.ranOut c]) ∧ InflowRepeated (es ++ [.ranOut c]) ∧
      completed (es ++ [.ranOut c]) = completed es := by
  refine ⟨?_, ?_, by simp [completed]⟩
  · intro before f after e
    rcases List.eq_nil_or_concat after with rfl | ⟨l, x, rfl⟩
    · have := List.append_inj_right' e rfl
      simp only [List.cons.injEq, and_true, Spec.Event.ranOut.injEq] at this
      exact absurd this (hc.1 f)
    · rw [List.concat_eq_append, ← List.cons_append, ← List.append_assoc] at e
      obtain ⟨f', h1, h2⟩ := hf before f l (List.append_inj_left' e rfl)
      exact ⟨f', by simp [h1], h2⟩
  · intro before f after e
    rcases List.eq_nil_or_concat after with rfl | ⟨l, x, rfl⟩
    · have := List.append_inj_right' e rfl
      simp only [List.cons.injEq, and_true, Spec.Event.ranOut.injEq] at this
      exact absurd this (hc.2 f)
    · rw [List.concat_eq_append, ← List.cons_append, ← List.append_assoc] at e
      obtain ⟨f', h1⟩ := hi before f l (List.append_inj_left' e rfl)
      exact ⟨f', by simp [h1]⟩

/-- **C94** Trying again.  After a history in which assignments that ran out of memory were repeated, injection diagnostics run out of
    memory.  Then diagnostics on a machine with enough memory return or throw what they do without the failed call. -/
theorem C94_again_injection {g : ConnectivityGraph} {es : List (Verif.Spec.Event R)} {t : Toolbox R} (h : After g es t)
    (hf : FluxRepeated g es) (hi : InflowRepeated es) {left : AssembledConnections R × AssembledConnections R} {fuel : Nat}
    {sets : List CellSet} {s : Machine} (hv : s.heap.Valid) {s' : Machine} {t' : Toolbox R}
    (e : Memory.injDiag t left fuel sets s = some (s', t', .ranOut))
    (left' : AssembledConnections R × AssembledConnections R) (fuel' : Nat) (sets' : List CellSet) (s1 : Machine) (h1 : Enough s1) :
    (∃ s2 t2, Memory.injDiag t' left' fuel' sets' s1 =
      some (s2, t2, .ended (injectionOutcome g (completed es) noFailure fuel' sets'))) ∧
    (∃ s2 t2, Memory.prodDiag t' left' fuel' sets' s1 =
      some (s2, t2, .ended (productionOutcome g (completed es) noFailure fuel' sets'))) := by
  obtain ⟨s2, t2, o, e2, h2⟩ := C94_injection t left fuel sets s hv
  rw [e] at e2
  cases e2
  obtain ⟨_, _, _, ro⟩ := h2
  obtain ⟨a, b, c⟩ := repeated_append hf hi (c := .computeInjectionDiagnostics noFailure fuel sets) ⟨by simp, by simp⟩
  obtain ⟨x, y⟩ := C68_repeated (.ranOut h (ro noFailure)) a b noFailure fuel' sets'
  rw [c] at x y
  rw [← x, ← y]
  exact enough_memory t' left' fuel' sets' s1 h1

/-- **C94** Trying again after production diagnostics ran out of memory. -/
theorem C94_again_production {g : ConnectivityGraph} {es : List (Verif.Spec.Event R)} {t : Toolbox R} (h : After g es t)
    (hf : FluxRepeated g es) (hi : InflowRepeated es) {left : AssembledConnections R × AssembledConnections R} {fuel : Nat}
    {sets : List CellSet} {s : Machine} (hv : s.heap.Valid) {s' : Machine} {t' : Toolbox R}
    (e : Memory.prodDiag t left fuel sets s = some (s', t', .ranOut))
    (left' : AssembledConnections R × AssembledConnections R) (fuel' : Nat) (sets' : List CellSet) (s1 : Machine) (h1 : Enough s1) :
    (∃ s2 t2, Memory.injDiag t' left' fuel' sets' s1 =
      some (s2, t2, .ended (injectionOutcome g (completed es) noFailure fuel' sets'))) ∧
    (∃ s2 t2, Memory.prodDiag t' left' fuel' sets' s1 =
      some (s2, t2, .ended (productionOutcome g (completed es) noFailure fuel' sets'))) := by
  obtain ⟨s2, t2, o, e2, h2⟩ := C94_production t left fuel sets s hv
  rw [e] at e2
  cases e2
  obtain ⟨_, _, _, ro⟩ := h2
  obtain ⟨a, b, c⟩ := repeated_append hf hi (c := .computeProductionDiagnostics noFailure fuel sets) ⟨by simp, by simp⟩
  obtain ⟨x, y⟩ := C68_repeated (.ranOut h (ro noFailure)) a b noFailure fuel' sets'
  rw [c] at x y
  rw [← x, ← y]
  exact enough_memory t' left' fuel' sets' s1 h1

end

/-! ### Cases that meet the hypotheses -/

/-- An empty heap that never fails; the requests with the given numbers are not met. -/
def exMachine (bad : List Nat) : Machine := ⟨emptyHeap fun _ => false, fun k => !bad.contains k, 0⟩

/-- The call ran out after the given numbers of requests and allocations. -/
def ranOutAt {S α : Type} (asked calls : Nat) : Option (Machine × S × Out α) → Bool
  | some (s, _, .ranOut) => s.asked == asked && s.heap.calls == calls
  | _ => false

theorem ranOutAt_spec {S α : Type} {asked calls : Nat} {m : Option (Machine × S × Out α)} (h : ranOutAt asked calls m = true) :
    ∃ s t, m = some (s, t, .ranOut) ∧ s.asked = asked ∧ s.heap.calls = calls := by
  unfold ranOutAt at h
  split at h
  · rw [Bool.and_eq_true, beq_iff_eq, beq_iff_eq] at h; exact ⟨_, _, rfl, h⟩
  · cases h

/-- The call for `exHeapCalls` makes 20 requests and 16 allocations in all.  The eighth request (`sequence_` in
    `computeOrdering`) and the sixteenth (`component_starts_` in `computeLocalOrdering`) come while the three blocks of a result are
    allocated.  The call runs out there and leaves no block. -/
theorem exMachine_global : ranOutAt 8 8 (Memory.injDiag (toolboxAfter exHeapGraph exHeapCalls) ({}, {}) 50
    [CellSet.ofCells ⟨[65]⟩ [0]] (exMachine [7])) = true := by decide +kernel

theorem exMachine_local : ranOutAt 16 16 (Memory.injDiag (toolboxAfter exHeapGraph exHeapCalls) ({}, {}) 50
    [CellSet.ofCells ⟨[65]⟩ [0]] (exMachine [15])) = true := by decide +kernel

theorem exMachine_last : ranOutAt 20 16 (Memory.injDiag (toolboxAfter exHeapGraph exHeapCalls) ({}, {}) 50
    [CellSet.ofCells ⟨[65]⟩ [0]] (exMachine [19])) = true := by decide +kernel

example : ∃ s' t', Memory.injDiag (toolboxAfter exHeapGraph exHeapCalls) ({}, {}) 50 [CellSet.ofCells ⟨[65]⟩ [0]] (exMachine [7]) =
    some (s', t', .ranOut) ∧ s'.heap.calls = 8 ∧ s'.heap.block = fun _ => none := by
  obtain ⟨s, t, e, _, hc⟩ := ranOutAt_spec exMachine_global
  obtain ⟨s', t', o, e', h⟩ := C94_injection (toolboxAfter exHeapGraph exHeapCalls) ({}, {}) 50 [CellSet.ofCells ⟨[65]⟩ [0]]
    (exMachine [7]) (emptyHeap_valid _)
  rw [e] at e'
  cases e'
  exact ⟨s, t, e, hc, h.2.1⟩

/-- Trying again: the hypotheses are met, and the second call returns (`C58`). -/
example : ∃ s' t', Memory.injDiag (toolboxAfter exHeapGraph exHeapCalls) ({}, {}) 50 [CellSet.ofCells ⟨[65]⟩ [0]] (exMachine [15]) =
    some (s', t', .ranOut) ∧ ∃ s2 t2, Memory.injDiag t' ({}, {}) 50 [CellSet.ofCells ⟨[65]⟩ [0]] (exMachine []) =
      some (s2, t2, .ended (injectionOutcome exHeapGraph exHeapCalls noFailure 50 [CellSet.ofCells ⟨[65]⟩ [0]])) := by
  obtain ⟨s, t, e, _, _⟩ := ranOutAt_spec exMachine_local
  have hn : ∀ c : Call (X ℚ), Spec.Event.ranOut c ∉ exHeapCalls.map Spec.Event.ended := by simp
  have := C94_again_injection (after_calls exHeapGraph exHeapCalls)
    (fun b f a h => absurd (h ▸ by simp) (hn (.assignConnectionFlux f)))
    (fun b f a h => absurd (h ▸ by simp) (hn (.assignInflowFlux f)))
    (emptyHeap_valid _) e ({}, {}) 50 [CellSet.ofCells ⟨[65]⟩ [0]] (exMachine []) ⟨emptyHeap_valid _, fun _ => rfl, fun _ => rfl⟩
  rw [show completed (exHeapCalls.map Spec.Event.ended) = exHeapCalls by rfl] at this
  exact ⟨s, t, e, this.1⟩

end Verif.Props
