/-
What a toolbox holds after a history with calls that ran out of memory.
-/
import Verif.Spec.Shortage
import Verif.Proofs.ToolboxHistory

namespace Verif.Toolbox
open Verif.Spec Verif.Solver

variable {R : Type} [Arith R]

theorem injDiag_shape (t : Toolbox R) (al : Nat → Alloc) (fuel : Nat) (s : List CellSet) :
    ∃ d u b, (t.injDiag al fuel s).1 = { t with downstream := d, upstream := u, connBuilt := b } := by
  by_cases hb : t.connBuilt = true
  · have same : ∃ d u b, t = { t with downstream := d, upstream := u, connBuilt := b } := ⟨_, _, _, rfl⟩
    have he : t.ensureBuilt = (t, .ok ()) := by unfold ensureBuilt; rw [if_pos hb]
    unfold injDiag
    split
    · exact same
    · cases checkStartSets t.injById t.onlyInflow s <;> simp only [finish, he] <;> exact same
  · exact (injDiag_fst (fun h => absurd h hb) al fuel s).2

theorem prodDiag_shape (t : Toolbox R) (al : Nat → Alloc) (fuel : Nat) (s : List CellSet) :
    ∃ d u b, (t.prodDiag al fuel s).1 = { t with downstream := d, upstream := u, connBuilt := b } := by
  by_cases hb : t.connBuilt = true
  · have same : ∃ d u b, t = { t with downstream := d, upstream := u, connBuilt := b } := ⟨_, _, _, rfl⟩
    have he : t.ensureBuilt = (t, .ok ()) := by unfold ensureBuilt; rw [if_pos hb]
    unfold prodDiag
    split
    · exact same
    · cases checkStartSets t.prodById t.onlyOutflow s <;> simp only [finish, he] <;> exact same
  · exact (prodDiag_fst (fun h => absurd h hb) al fuel s).2

theorem ensureBuilt_shape (t : Toolbox R) :
    ∃ d u b, t.ensureBuilt.1 = { t with downstream := d, upstream := u, connBuilt := b } := by
  by_cases hb : t.connBuilt = true
  · have he : t.ensureBuilt = (t, .ok ()) := by unfold ensureBuilt; rw [if_pos hb]
    rw [he]; exact ⟨_, _, _, rfl⟩
  · exact (ensureBuilt_spec (fun h => absurd h hb)).2.1

/-- What a toolbox holds after a history. -/
structure StillHolds (g : ConnectivityGraph) (es : List (Event R)) (t : Toolbox R) : Prop where
  graph : t.g = g
  pvol : t.pvol = (lastPoreVolume g (completed es)).getD []
  flux : FluxRepeated g es → t.flux = (lastFlux g (completed es)).getD (ConnectionValues.create 0 0) ∧ Coherent t
  inflow : InflowRepeated es →
    (⟨t.onlyInflow, t.injById⟩ : Split R) = (splitInflow ((lastInflow (completed es)).getD [])).1 ∧
    (⟨t.onlyOutflow, t.prodById⟩ : Split R) = (splitInflow ((lastInflow (completed es)).getD [])).2

omit [Arith R] in
theorem fluxRepeated_init {g : ConnectivityGraph} {es : List (Event R)} {e : Event R} (h : FluxRepeated g (es ++ [e]))
    (he : ∀ f, e = .ended (.assignConnectionFlux f) → f.numConnections ≠ g.numConnections) : FluxRepeated g es := by
  intro before f after hes
  obtain ⟨f', hm, hf⟩ := h before f (after ++ [e]) (by rw [hes]; simp)
  rw [List.mem_append, List.mem_singleton] at hm
  rcases hm with hm | hm
  · exact ⟨f', hm, hf⟩
  · exact absurd hf (he f' hm.symm)

omit [Arith R] in
theorem inflowRepeated_init {es : List (Event R)} {e : Event R} (h : InflowRepeated (es ++ [e]))
    (he : ∀ m, e ≠ .ended (.assignInflowFlux m)) : InflowRepeated es := by
  intro before m after hes
  obtain ⟨m', hm⟩ := h before m (after ++ [e]) (by rw [hes]; simp)
  rw [List.mem_append, List.mem_singleton] at hm
  rcases hm with hm | hm
  · exact ⟨m', hm⟩
  · exact absurd hm.symm (he m')

omit [Arith R] in
theorem not_fluxRepeated (g : ConnectivityGraph) (es : List (Event R)) (f : ConnectionValues R) :
    ¬ FluxRepeated g (es ++ [.ranOut (.assignConnectionFlux f)]) := by
  intro h
  obtain ⟨_, hm, _⟩ := h es f [] rfl
  cases hm

omit [Arith R] in
theorem not_inflowRepeated (es : List (Event R)) (m : InflowFlux R) :
    ¬ InflowRepeated (es ++ [.ranOut (.assignInflowFlux m)]) := by
  intro h
  obtain ⟨_, hm⟩ := h es m [] rfl
  cases hm

omit [Arith R] in
theorem completed_ended (es : List (Event R)) (c : Call R) : completed (es ++ [.ended c]) = completed es ++ [c] := by
  simp [completed]

omit [Arith R] in
theorem completed_ranOut (es : List (Event R)) (c : Call R) : completed (es ++ [.ranOut c]) = completed es := by
  simp [completed]

/-- The graphs may change, as long as they stay coherent. -/
theorem StillHolds.of_graphs {g : ConnectivityGraph} {es : List (Event R)} {t : Toolbox R} (h : StillHolds g es t) {e : Event R}
    (h1 : lastPoreVolume g (completed (es ++ [e])) = lastPoreVolume g (completed es))
    (h2 : lastFlux g (completed (es ++ [e])) = lastFlux g (completed es))
    (h3 : lastInflow (completed (es ++ [e])) = lastInflow (completed es))
    (he : ∀ f, e = .ended (.assignConnectionFlux f) → f.numConnections ≠ g.numConnections)
    (he' : ∀ m, e ≠ .ended (.assignInflowFlux m))
    {t' : Toolbox R} (hc : Coherent t → Coherent t')
    (ht : ∃ d u b, t' = { t with downstream := d, upstream := u, connBuilt := b }) : StillHolds g (es ++ [e]) t' := by
  obtain ⟨d, u, b, rfl⟩ := ht
  refine ⟨h.graph, by rw [h1]; exact h.pvol, fun hr => ?_, fun hr => ?_⟩
  · obtain ⟨a, b⟩ := h.flux (fluxRepeated_init hr he)
    exact ⟨by rw [h2]; exact a, hc b⟩
  · rw [h3]; exact h.inflow (inflowRepeated_init hr he')

theorem stillHolds {g : ConnectivityGraph} {es : List (Event R)} {t : Toolbox R} (h : After g es t) : StillHolds g es t := by
  induction h with
  | start =>
    refine ⟨rfl, rfl, fun _ => ⟨rfl, fun h => by cases h⟩, fun _ => ⟨rfl, rfl⟩⟩
  | @ended es t c _ ih =>
    have l1 : lastPoreVolume g (completed (es ++ [.ended c])) = _ := (congrArg (lastPoreVolume g) (completed_ended es c)).trans (lastSome_append _ (completed es) c)
    have l2 : lastFlux g (completed (es ++ [.ended c])) = _ := (congrArg (lastFlux g) (completed_ended es c)).trans (lastSome_append _ (completed es) c)
    have l3 : lastInflow (completed (es ++ [.ended c])) = _ := (congrArg lastInflow (completed_ended es c)).trans (lastSome_append _ (completed es) c)
    cases c with
    | assignPoreVolume pv =>
      by_cases hp : pv.length = g.numCells
      · have hs : t.step (.assignPoreVolume pv) = { t with pvol := pv } := by
          show (t.assignPoreVolume pv).1 = _
          unfold Toolbox.assignPoreVolume
          rw [if_neg (by rw [ih.graph]; simpa using hp)]
        rw [hs]
        refine ⟨ih.graph, by rw [l1]; simp [hp], fun hr => ?_, fun hr => ?_⟩
        · obtain ⟨a, b⟩ := ih.flux (fluxRepeated_init hr (by nofun))
          exact ⟨by rw [l2]; exact a, b⟩
        · rw [l3]; exact ih.inflow (inflowRepeated_init hr (by nofun))
      · have hs : t.step (.assignPoreVolume pv) = t := by
          show (t.assignPoreVolume pv).1 = _
          unfold Toolbox.assignPoreVolume
          rw [if_pos (by rw [ih.graph]; simpa using hp)]
        rw [hs]
        exact ih.of_graphs (by rw [l1]; simp only [hp, if_false]; rfl) l2 l3 (by nofun) (by nofun) id ⟨_, _, _, rfl⟩
    | assignConnectionFlux f =>
      by_cases hp : f.numConnections = g.numConnections
      · have hs : t.step (.assignConnectionFlux f) = { t with flux := f, connBuilt := false } := by
          show (t.assignConnectionFlux f).1 = _
          unfold Toolbox.assignConnectionFlux
          rw [if_neg (by rw [ih.graph]; simpa using hp)]
        rw [hs]
        refine ⟨ih.graph, by rw [l1]; exact ih.pvol, fun _ => ⟨by rw [l2]; simp [hp], fun hb => by cases hb⟩, fun hr => ?_⟩
        rw [l3]; exact ih.inflow (inflowRepeated_init hr (by nofun))
      · have hs : t.step (.assignConnectionFlux f) = t := by
          show (t.assignConnectionFlux f).1 = _
          unfold Toolbox.assignConnectionFlux
          rw [if_pos (by rw [ih.graph]; simpa using hp)]
        rw [hs]
        exact ih.of_graphs l1 (by rw [l2]; simp only [hp, if_false]; rfl) l3 (fun f' e => by cases e; exact hp) (by nofun) id ⟨_, _, _, rfl⟩
    | assignInflowFlux m =>
      refine ⟨ih.graph, by rw [l1]; exact ih.pvol, fun hr => ?_, fun _ => ⟨by rw [l3]; rfl, by rw [l3]; rfl⟩⟩
      obtain ⟨a, b⟩ := ih.flux (fluxRepeated_init hr (by nofun))
      exact ⟨by rw [l2]; exact a, b⟩
    | computeInjectionDiagnostics al fuel s =>
      exact ih.of_graphs l1 l2 l3 (by nofun) (by nofun) (fun hc => (injDiag_fst hc al fuel s).1) (injDiag_shape t al fuel s)
    | computeProductionDiagnostics al fuel s =>
      exact ih.of_graphs l1 l2 l3 (by nofun) (by nofun) (fun hc => (prodDiag_fst hc al fuel s).1) (prodDiag_shape t al fuel s)
  | @ranOut es t t' c _ hr ih =>
    have l : completed (es ++ [.ranOut c]) = completed es := completed_ranOut es c
    cases hr with
    | poreVolume pv hp =>
      exact ih.of_graphs (by rw [l]) (by rw [l]) (by rw [l]) (by nofun) (by nofun) id ⟨_, _, _, rfl⟩
    | connectionFlux f hf =>
      refine ⟨ih.graph, by rw [l]; exact ih.pvol, fun h => absurd h (not_fluxRepeated g es f), fun h => ?_⟩
      rw [l]; exact ih.inflow (inflowRepeated_init h (by nofun))
    | inflow before id done data rest after stage =>
      refine ⟨ih.graph, by rw [l]; exact ih.pvol, fun h => ?_, fun h => absurd h (not_inflowRepeated es _)⟩
      rw [l]; exact ih.flux (fluxRepeated_init h (by nofun))
    | buildInj al fuel s h hb d u =>
      exact ih.of_graphs (by rw [l]) (by rw [l]) (by rw [l]) (by nofun) (by nofun) (fun _ hb' => by rw [hb] at hb'; cases hb') ⟨_, _, _, rfl⟩
    | buildProd al fuel s h hb d u =>
      exact ih.of_graphs (by rw [l]) (by rw [l]) (by rw [l]) (by nofun) (by nofun) (fun _ hb' => by rw [hb] at hb'; cases hb') ⟨_, _, _, rfl⟩
    | solveInj al fuel s h hb =>
      exact ih.of_graphs (by rw [l]) (by rw [l]) (by rw [l]) (by nofun) (by nofun) (fun hc => (ensureBuilt_spec hc).1) (ensureBuilt_shape t)
    | solveProd al fuel s h hb =>
      exact ih.of_graphs (by rw [l]) (by rw [l]) (by rw [l]) (by nofun) (by nofun) (fun hc => (ensureBuilt_spec hc).1) (ensureBuilt_shape t)

end Verif.Toolbox
