/-
C104: asking for several wells at once.
-/
import Verif.Props.ToolboxProblem

namespace Verif.Props
open Verif.Spec Verif.Toolbox Verif.Solver

section
variable {R : Type} [Arith R]

/-- A start set that is accepted. -/
def okStart (s : Split R) (x : CellSet) : Prop :=
  ¬ (OMap.find s.byId x.id = none ∨ ∃ c ∈ x.cells, OMap.find s.only c = none)

theorem check_ok_iff (s : Split R) (starts : List CellSet) :
    checkStartSets s.byId s.only starts = .ok () ↔ ∀ x ∈ starts, okStart s x := by
  rw [checkStartSets_eq]
  unfold okStart
  by_cases h : ∃ x ∈ starts, OMap.find s.byId x.id = none ∨ ∃ c ∈ x.cells, OMap.find s.only c = none
  · rw [if_pos h]
    obtain ⟨x, hx, hn⟩ := h
    exact ⟨(fun e => nomatch e), fun h => absurd hn (h x hx)⟩
  · rw [if_neg h]
    exact ⟨fun _ x hx hn => h ⟨x, hx, hn⟩, fun _ => rfl⟩

variable {rev : Bool} {g : ConnectivityGraph} {pv : List R} {f : ConnectionValues R} {s : Split R} {a : Alloc} {fuel : Nat}

theorem outcome_ok_iff {starts : List CellSet} {sol : Solution R} :
    outcome rev g pv f s (fun _ => a) fuel starts = .ok sol ↔
      ¬ (pv.isEmpty || f.numConnections == 0) = true ∧ (∀ x ∈ starts, okStart s x) ∧ ∃ gs, graphs g f = .ok gs ∧
        ∃ d st tof, Solver.create (if rev then gs.2 else gs.1) (if rev then gs.1 else gs.2) pv s.only = .ok (d, st) ∧
          (solveGlobal d a fuel st).2 = .ok tof ∧ (∀ x ∈ starts, ∃ l, localOf d st a fuel s.byId x.id = .ok l) ∧
          sol = recordAll (okOf d st a fuel s.byId) (starts.map CellSet.id) { tof := tof } := by
  unfold outcome
  by_cases hc : (pv.isEmpty || f.numConnections == 0) = true
  · rw [if_pos hc]
    exact ⟨(fun h => nomatch h), fun h => absurd hc h.1⟩
  · rw [if_neg hc]
    simp only [Res.bind_ok_iff, computeSolution_ok_iff]
    rw [← check_ok_iff]
    constructor
    · rintro ⟨_, h1, gs, h2, h3⟩; exact ⟨hc, h1, gs, h2, h3⟩
    · rintro ⟨_, h1, gs, h2, h3⟩; exact ⟨(), h1, gs, h2, h3⟩

/-- The outcome for some sets is a solution exactly if it is one for no sets and for each of the sets alone. -/
theorem outcome_each (starts : List CellSet) :
    (∃ sol, outcome rev g pv f s (fun _ => a) fuel starts = .ok sol) ↔
      (∃ sol, outcome rev g pv f s (fun _ => a) fuel [] = .ok sol) ∧
      ∀ x ∈ starts, ∃ sol, outcome rev g pv f s (fun _ => a) fuel [x] = .ok sol := by
  simp only [outcome_ok_iff]
  constructor
  · rintro ⟨sol, h0, h1, gs, h2, d, st, tof, h3, h4, h5, _⟩
    refine ⟨⟨_, h0, by simp, gs, h2, d, st, tof, h3, h4, by simp, rfl⟩, fun x hx => ⟨_, h0, ?_, gs, h2, d, st, tof, h3, h4, ?_, rfl⟩⟩
    · intro y hy; cases List.mem_singleton.mp hy; exact h1 x hx
    · intro y hy; cases List.mem_singleton.mp hy; exact h5 x hx
  · rintro ⟨⟨sol, h0, _, gs, h2, d, st, tof, h3, h4, _, _⟩, h⟩
    refine ⟨_, h0, ?_, gs, h2, d, st, tof, h3, h4, ?_, rfl⟩
    · intro x hx
      obtain ⟨_, _, h1, _⟩ := h x hx
      exact h1 x (by simp)
    · intro x hx
      obtain ⟨_, _, _, gs', h2', d', st', _, h3', _, h5, _⟩ := h x hx
      rw [h2] at h2'; cases h2'
      rw [h3] at h3'; cases h3'
      exact h5 x (by simp)

/-- What is reported for one id does not depend on the others. -/
theorem outcome_fields {starts starts' : List CellSet} {sol sol' : Solution R}
    (h : outcome rev g pv f s (fun _ => a) fuel starts = .ok sol)
    (h' : outcome rev g pv f s (fun _ => a) fuel starts' = .ok sol') :
    sol.timeOfFlight = sol'.timeOfFlight ∧ ∀ i, (∃ x ∈ starts, x.id = i) → (∃ x ∈ starts', x.id = i) →
      sol.concentration i = sol'.concentration i ∧ sol.timeOfFlightOf i = sol'.timeOfFlightOf i := by
  obtain ⟨_, _, gs, h2, d, st, tof, h3, h4, _, rfl⟩ := outcome_ok_iff.mp h
  obtain ⟨_, _, gs', h2', d', st', tof', h3', h4', _, rfl⟩ := outcome_ok_iff.mp h'
  rw [h2] at h2'; cases h2'
  rw [h3] at h3'; cases h3'
  rw [h4] at h4'; cases h4'
  obtain ⟨a1, a2, a3, _⟩ := recordAll_spec (okOf d st a fuel s.byId) (starts.map CellSet.id) { tof := tof }
  obtain ⟨b1, b2, b3, _⟩ := recordAll_spec (okOf d st a fuel s.byId) (starts'.map CellSet.id) { tof := tof }
  refine ⟨a1.trans b1.symm, fun i hi hi' => ?_⟩
  have e : i ∈ starts.map CellSet.id := by obtain ⟨x, hx, rfl⟩ := hi; exact List.mem_map_of_mem hx
  have e' : i ∈ starts'.map CellSet.id := by obtain ⟨x, hx, rfl⟩ := hi'; exact List.mem_map_of_mem hx
  unfold Solution.concentration Solution.timeOfFlightOf Solution.solutionValues
  rw [a2, b2, a3, b3]
  simp only [e, e', if_true, and_self]

theorem check_cases (s : Split R) (starts : List CellSet) :
    checkStartSets s.byId s.only starts = .ok () ∨ checkStartSets s.byId s.only starts = .throw .runtimeError := by
  rw [checkStartSets_eq]
  split
  · exact .inr rfl
  · exact .inl rfl

theorem forEach_record_fails {d : SolverData R} {st : SolverState R} {byId : InflowFlux R}
    (starts : List CellSet) : ∀ (sol : Solution R),
    (¬ ∃ sol', (forEach starts sol fun sol start => (localOf d st a fuel byId start.id).bind fun l => .ok (record sol start.id l))
      = .ok sol') → ∃ x ∈ starts, ∀ sol2 : Solution R,
    (forEach [x] sol2 fun sol start => (localOf d st a fuel byId start.id).bind fun l => .ok (record sol start.id l)) =
    forEach starts sol fun sol start => (localOf d st a fuel byId start.id).bind fun l => .ok (record sol start.id l) := by
  induction starts with
  | nil => intro sol h; exact absurd ⟨_, rfl⟩ h
  | cons x l ih =>
    intro sol h
    rw [forEach_cons] at h ⊢
    cases hl : localOf d st a fuel byId x.id with
    | ok y =>
      rw [hl, Res.ok_bind, Res.ok_bind] at h
      obtain ⟨z, hz, e⟩ := ih _ h
      refine ⟨z, by simp [hz], fun sol2 => ?_⟩
      rw [Res.ok_bind, Res.ok_bind]
      exact e sol2
    | throw e => exact ⟨x, by simp, fun sol2 => by rw [forEach_cons, hl]; rfl⟩
    | ub e => exact ⟨x, by simp, fun sol2 => by rw [forEach_cons, hl]; rfl⟩
    | diverge => exact ⟨x, by simp, fun sol2 => by rw [forEach_cons, hl]; rfl⟩

/-- A computation that fails for some sets fails in the same way for no sets, or for one of the sets alone. -/
theorem outcome_fails (starts : List CellSet) (h : ¬ ∃ sol, outcome rev g pv f s (fun _ => a) fuel starts = .ok sol) :
    outcome rev g pv f s (fun _ => a) fuel [] = outcome rev g pv f s (fun _ => a) fuel starts ∨
      ∃ x ∈ starts, outcome rev g pv f s (fun _ => a) fuel [x] = outcome rev g pv f s (fun _ => a) fuel starts := by
  unfold outcome at h ⊢
  by_cases hc : (pv.isEmpty || f.numConnections == 0) = true
  · simp only [if_pos hc]; exact .inl trivial
  · simp only [if_neg hc] at h ⊢
    rcases check_cases s starts with hk | hk
    · have hone : ∀ x ∈ starts, checkStartSets s.byId s.only [x] = .ok () := fun x hx => by
        rw [check_ok_iff] at hk ⊢
        intro y hy; cases List.mem_singleton.mp hy; exact hk x hx
      have hnil : checkStartSets s.byId s.only [] = .ok () := rfl
      rw [hk, hnil]
      rw [hk] at h
      simp only [Res.ok_bind] at h ⊢
      cases hg : graphs g f with
      | throw e => exact .inl rfl
      | ub e => exact .inl rfl
      | diverge => exact .inl rfl
      | ok gs =>
        rw [hg] at h
        simp only [Res.ok_bind] at h ⊢
        unfold computeSolution at h ⊢
        simp only [Res.bind_eq] at h ⊢
        cases hv : Solver.create (if rev then gs.2 else gs.1) (if rev then gs.1 else gs.2) pv s.only with
        | throw e => exact .inl rfl
        | ub e => exact .inl rfl
        | diverge => exact .inl rfl
        | ok sv =>
          obtain ⟨d, st⟩ := sv
          rw [hv] at h
          simp only [Res.ok_bind] at h ⊢
          cases ht : (solveGlobal d a fuel st).2 with
          | throw e => exact .inl rfl
          | ub e => exact .inl rfl
          | diverge => exact .inl rfl
          | ok tof =>
            rw [ht] at h
            simp only [Res.ok_bind] at h ⊢
            simp only [solveSets_eq hv a fuel s.byId _ 1 _ (.global a fuel .new)] at h ⊢
            obtain ⟨x, hx, e⟩ := forEach_record_fails starts _ h
            refine .inr ⟨x, hx, ?_⟩
            rw [hone x hx, Res.ok_bind]
            exact e _
    · refine .inr ?_
      have hk' := hk
      rw [checkStartSets_eq] at hk'
      split at hk'
      · rename_i hx
        obtain ⟨x, hx, hn⟩ := hx
        refine ⟨x, hx, ?_⟩
        rw [hk, checkStartSets_eq, if_pos ⟨x, by simp, hn⟩]
        rfl
      · cases hk'

end

section
variable {R : Type} [Arith R] (g : ConnectivityGraph) (calls : List (Call R)) (a : Alloc) (fuel : Nat)

/-- **C104** Injection diagnostics return a solution for some start sets exactly if they do for no start sets and for each of the
    start sets alone; if they end in another way, they end in this way for no start sets or for one of them alone. -/
theorem C104_injection_each (starts : List CellSet) :
    ((∃ sol, injectionOutcome g calls (fun _ => a) fuel starts = .ok sol) ↔
      (∃ sol, injectionOutcome g calls (fun _ => a) fuel [] = .ok sol) ∧
      ∀ x ∈ starts, ∃ sol, injectionOutcome g calls (fun _ => a) fuel [x] = .ok sol) ∧
    ((¬ ∃ sol, injectionOutcome g calls (fun _ => a) fuel starts = .ok sol) →
      injectionOutcome g calls (fun _ => a) fuel [] = injectionOutcome g calls (fun _ => a) fuel starts ∨
      ∃ x ∈ starts, injectionOutcome g calls (fun _ => a) fuel [x] = injectionOutcome g calls (fun _ => a) fuel starts) := by
  simp only [injectionOutcome_eq]
  exact ⟨outcome_each starts, outcome_fails starts⟩

/-- **C104** The same for production. -/
theorem C104_production_each (starts : List CellSet) :
    ((∃ sol, productionOutcome g calls (fun _ => a) fuel starts = .ok sol) ↔
      (∃ sol, productionOutcome g calls (fun _ => a) fuel [] = .ok sol) ∧
      ∀ x ∈ starts, ∃ sol, productionOutcome g calls (fun _ => a) fuel [x] = .ok sol) ∧
    ((¬ ∃ sol, productionOutcome g calls (fun _ => a) fuel starts = .ok sol) →
      productionOutcome g calls (fun _ => a) fuel [] = productionOutcome g calls (fun _ => a) fuel starts ∨
      ∃ x ∈ starts, productionOutcome g calls (fun _ => a) fuel [x] = productionOutcome g calls (fun _ => a) fuel starts) := by
  simp only [productionOutcome_eq]
  exact ⟨outcome_each starts, outcome_fails starts⟩

variable {g calls a fuel}

/-- **C104** Two calls of injection diagnostics give the same global times, and for each well that both are asked for the same
    concentrations and times, whatever other wells they are asked for. -/
theorem C104_injection_fields {starts starts' : List CellSet} {sol sol' : Solution R}
    (h : injectionOutcome g calls (fun _ => a) fuel starts = .ok sol)
    (h' : injectionOutcome g calls (fun _ => a) fuel starts' = .ok sol') :
    sol.timeOfFlight = sol'.timeOfFlight ∧ ∀ i, (∃ x ∈ starts, x.id = i) → (∃ x ∈ starts', x.id = i) →
      sol.concentration i = sol'.concentration i ∧ sol.timeOfFlightOf i = sol'.timeOfFlightOf i := by
  rw [injectionOutcome_eq] at h h'
  exact outcome_fields h h'

/-- **C104** The same for production. -/
theorem C104_production_fields {starts starts' : List CellSet} {sol sol' : Solution R}
    (h : productionOutcome g calls (fun _ => a) fuel starts = .ok sol)
    (h' : productionOutcome g calls (fun _ => a) fuel starts' = .ok sol') :
    sol.timeOfFlight = sol'.timeOfFlight ∧ ∀ i, (∃ x ∈ starts, x.id = i) → (∃ x ∈ starts', x.id = i) →
      sol.concentration i = sol'.concentration i ∧ sol.timeOfFlightOf i = sol'.timeOfFlightOf i := by
  rw [productionOutcome_eq] at h h'
  exact outcome_fields h h'

end

/-- Two injectors in one cell and a producer: what is returned for both injectors, and for one of them alone. -/
example : ∃ g calls fuel, ∃ both one : Solution (X ℚ), exProblem.GivenTo g calls ∧
    injectionOutcome g calls noFailure fuel exInjectors = .ok both ∧
    injectionOutcome g calls noFailure fuel [CellSet.ofCells ⟨[65]⟩ []] = .ok one ∧
    both.concentration ⟨[65]⟩ = one.concentration ⟨[65]⟩ ∧ both.timeOfFlightOf ⟨[65]⟩ = one.timeOfFlightOf ⟨[65]⟩ ∧
    both.timeOfFlight = one.timeOfFlight := by
  obtain ⟨g, calls, h⟩ := exProblem_given
  obtain ⟨S, N, hS⟩ := (C40_valid_problem exProblem_valid h _).1 exInjectors_accepted
  have hb := hS N le_rfl
  obtain ⟨one, ho⟩ := ((C104_injection_each g calls _ N exInjectors).1.mp ⟨S, hb⟩).2 _ (.tail _ (.head _))
  have hf := C104_injection_fields hb ho
  have := hf.2 ⟨[65]⟩ ⟨_, .tail _ (.head _), rfl⟩ ⟨_, .head _, rfl⟩
  exact ⟨g, calls, N, S, one, h, hb, ho, this.1, this.2, hf.1⟩

/-- An id that does not inject: the call for all wells ends as the call for one of them alone. -/
example : ∃ g, ∃ calls : List (Call (X ℚ)), ∃ fuel, exProblem.GivenTo g calls ∧
    injectionOutcome g calls noFailure fuel (exInjectors ++ exProducers) = .throw .runtimeError ∧
    ¬ (∃ sol, injectionOutcome g calls noFailure fuel (exInjectors ++ exProducers) = .ok sol) := by
  obtain ⟨g, calls, h⟩ := exProblem_given
  obtain ⟨_, h2, _⟩ := C40_valid_problem exProblem_valid h (exInjectors ++ exProducers)
  obtain ⟨N, hN⟩ := h2 fun ha => by
    obtain ⟨⟨set, hs, hid, e, he, hp⟩, _⟩ := ha (CellSet.ofCells ⟨[80]⟩ [3]) (by simp [exProducers])
    have : ¬ HasInflow exProblem.inflowMap ⟨[80]⟩ := by
      rw [hasInflow_problem]
      simp [exProblem, posCells]
    exact this ⟨set, hs, hid, e, he, hp⟩
  refine ⟨g, calls, N, h, hN N le_rfl, ?_⟩
  rintro ⟨sol, hs⟩
  rw [hN N le_rfl] at hs
  cases hs

end Verif.Props
