/-
The state of a toolbox whose last call ran out of memory while assigning fluxes.
-/
import Verif.Proofs.Shortage
import Verif.Proofs.ToolboxData

namespace Verif.Toolbox
open Verif.Spec Verif.Solver

variable {R : Type} [Arith R]

theorem after_calls (g : ConnectivityGraph) (calls : List (Call R)) : After g (calls.map .ended) (toolboxAfter g calls) := by
  induction calls using List.reverseRecOn with
  | nil => exact .start
  | append_singleton calls c ih =>
    have := After.ended c ih
    rw [List.map_append]
    unfold toolboxAfter at this ⊢
    rw [List.foldl_append]
    exact this

theorem after_ended {g : ConnectivityGraph} {es : List (Event R)} {t : Toolbox R} (h : After g es t) :
    ∀ calls : List (Call R), es = calls.map .ended → t = toolboxAfter g calls := by
  induction h with
  | start =>
    intro calls e
    rw [List.map_eq_nil_iff.mp e.symm]; rfl
  | @ended es t c _ ih =>
    intro calls e
    rcases List.eq_nil_or_concat calls with rfl | ⟨l, a, rfl⟩
    · simp at e
    · rw [List.concat_eq_append, List.map_append] at e
      obtain ⟨e1, e2⟩ := List.append_inj' e rfl
      simp only [List.map_cons, List.map_nil, List.cons.injEq, Event.ended.injEq, and_true] at e2
      subst e2
      rw [ih l e1, List.concat_eq_append]
      unfold toolboxAfter
      rw [List.foldl_append]; rfl
  | @ranOut es t t' c _ _ ih =>
    intro calls e
    rcases List.eq_nil_or_concat calls with rfl | ⟨l, a, rfl⟩
    · simp at e
    · rw [List.concat_eq_append, List.map_append] at e
      obtain ⟨_, e2⟩ := List.append_inj' e rfl
      simp at e2

theorem after_ranOut {g : ConnectivityGraph} {es : List (Event R)} {t : Toolbox R} (h : After g es t) :
    ∀ l c, es = l ++ [Event.ranOut c] → ∃ t0, After g l t0 ∧ RunsOut t0 c t := by
  cases h with
  | start => intro l c e; simp at e
  | ended c h =>
    intro l c e
    obtain ⟨_, e2⟩ := List.append_inj' e rfl
    simp at e2
  | ranOut h hr =>
    intro l c e
    obtain ⟨rfl, e2⟩ := List.append_inj' e rfl
    simp only [List.cons.injEq, Event.ranOut.injEq, and_true] at e2
    subst e2
    exact ⟨_, h, hr⟩

/-- The state when the last call ran out of memory while assigning fluxes. -/
theorem after_flux {g : ConnectivityGraph} {calls : List (Call R)} {f : ConnectionValues R} {t : Toolbox R}
    (h : After g (calls.map .ended ++ [.ranOut (.assignConnectionFlux f)]) t) :
    f.numConnections = g.numConnections ∧
    t = { toolboxAfter g calls with flux := { f with data := (toolboxAfter g calls).flux.data } } := by
  obtain ⟨t0, h0, hr⟩ := after_ranOut h _ _ rfl
  have := after_ended h0 _ rfl
  subst this
  cases hr with
  | connectionFlux f hf => exact ⟨hf.trans (by rw [(holdsData g calls).graph]), rfl⟩

/-- Without fluxes no graphs are built. -/
theorem not_built {g : ConnectivityGraph} {calls : List (Call R)} (hf : lastFlux g calls = none) :
    (toolboxAfter g calls).connBuilt = false := by
  induction calls using List.reverseRecOn with
  | nil => rfl
  | append_singleton calls c ih =>
    have e : toolboxAfter g (calls ++ [c]) = (toolboxAfter g calls).step c := by
      unfold toolboxAfter; rw [List.foldl_append]; rfl
    have l2 : lastFlux g (calls ++ [c]) = _ := lastSome_append _ calls c
    rw [l2, Option.or_eq_none_iff] at hf
    have ih := ih hf.2
    have hfl : (toolboxAfter g calls).flux = ConnectionValues.create 0 0 := by
      rw [(holdsData g calls).flux, show lastFlux g calls = none from hf.2]; rfl
    rw [e]
    cases c with
    | assignPoreVolume pv =>
      show ((toolboxAfter g calls).assignPoreVolume pv).1.connBuilt = false
      unfold Toolbox.assignPoreVolume; split <;> exact ih
    | assignConnectionFlux f =>
      show ((toolboxAfter g calls).assignConnectionFlux f).1.connBuilt = false
      unfold Toolbox.assignConnectionFlux; split
      · exact ih
      · rfl
    | assignInflowFlux m => exact ih
    | computeInjectionDiagnostics al fuel s =>
      show ((toolboxAfter g calls).injDiag al fuel s).1.connBuilt = false
      unfold injDiag
      rw [hfl, if_pos (by simp [ConnectionValues.create, ConnectionValues.numConnections])]
      exact ih
    | computeProductionDiagnostics al fuel s =>
      show ((toolboxAfter g calls).prodDiag al fuel s).1.connBuilt = false
      unfold prodDiag
      rw [hfl, if_pos (by simp [ConnectionValues.create, ConnectionValues.numConnections])]
      exact ih

theorem graphs_ub {g : ConnectivityGraph} {n : Nat} {cs : List (Nat × Nat)} (hg : HasConnections g n cs) (hcs : cs ≠ [])
    {f : ConnectionValues R} (hc : f.numConnections = g.numConnections) (hp : f.numPhases ≠ 0) (hd : f.data = []) :
    graphs g f = .ub .outOfBounds := by
  have hl : 0 < cs.length := List.length_pos_iff.mpr hcs
  obtain ⟨k, hk⟩ : ∃ k, g.numConnections = k + 1 := ⟨g.numConnections - 1, by rw [hg.count]; omega⟩
  obtain ⟨p, hpp⟩ : ∃ p, f.numPhases = p + 1 := ⟨f.numPhases - 1, by omega⟩
  have hget : f.get 0 0 = .ub .outOfBounds := by
    unfold ConnectionValues.get
    have h1 : f.nconn = k + 1 := by rw [← hk, ← hc]; rfl
    have h2 : f.nphase = p + 1 := hpp
    rw [if_neg (by omega), hd]
    rfl
  have hfl : connectionFlux f 0 = .ub .outOfBounds := by
    unfold connectionFlux
    rw [hpp, List.range_succ_eq_map, forEach_cons, hget]
    rfl
  have hadd : addFluxOf g f ({}, {}) 0 = .ub .outOfBounds := by
    unfold addFluxOf
    rw [hg.connection 0 hl]
    show (connectionFlux f 0).bind _ = _
    rw [hfl]; rfl
  unfold graphs
  rw [hk, List.range_succ_eq_map]
  have : (addFluxes g f (0 :: (List.range k).map Nat.succ) ({}, {})).2 = .ub .outOfBounds := by
    show (finish _ (addFluxOf g f ({}, {}) 0) _).2 = _
    rw [hadd]; rfl
  simp only [this]; rfl

/-- A call that does not assign fluxes keeps the graphs that were built. -/
theorem step_built {t : Toolbox R} (hb : t.connBuilt = true) {c : Call R} (hc : ∀ f, c ≠ .assignConnectionFlux f) :
    (t.step c).connBuilt = true := by
  have he : t.ensureBuilt = (t, .ok ()) := by unfold ensureBuilt; rw [if_pos hb]
  cases c with
  | assignPoreVolume pv =>
    show (t.assignPoreVolume pv).1.connBuilt = true
    unfold Toolbox.assignPoreVolume; split <;> exact hb
  | assignConnectionFlux f => exact absurd rfl (hc f)
  | assignInflowFlux m => exact hb
  | computeInjectionDiagnostics al fuel s =>
    show (t.injDiag al fuel s).1.connBuilt = true
    unfold injDiag
    split
    · exact hb
    · cases checkStartSets t.injById t.onlyInflow s <;> simp only [finish, he] <;> exact hb
  | computeProductionDiagnostics al fuel s =>
    show (t.prodDiag al fuel s).1.connBuilt = true
    unfold prodDiag
    split
    · exact hb
    · cases checkStartSets t.prodById t.onlyOutflow s <;> simp only [finish, he] <;> exact hb

theorem ensureBuilt_built {t : Toolbox R} (h : t.ensureBuilt.2 = .ok ()) : t.ensureBuilt.1.connBuilt = true := by
  unfold ensureBuilt at h ⊢
  by_cases hb : t.connBuilt = true
  · rw [if_pos hb]; exact hb
  · rw [if_neg hb] at h ⊢
    by_cases hg : ∃ gs, graphs t.g t.flux = .ok gs
    · obtain ⟨gs, hg⟩ := hg
      rw [build_ok hg]
    · push Not at hg
      exact absurd h (build_fail hg).2.2

theorem injDiag_built {t : Toolbox R} {al : Nat → Alloc} {fuel : Nat} {s : List CellSet} {sol : Solution R}
    (h : (t.injDiag al fuel s).2 = .ok sol) : (t.injDiag al fuel s).1.connBuilt = true := by
  unfold injDiag at h ⊢
  split at h
  · cases h
  · rename_i hn
    rw [if_neg hn]
    cases hc : checkStartSets t.injById t.onlyInflow s <;> rw [hc] at h <;> simp only [finish] at h ⊢
    · cases he : t.ensureBuilt.2 <;> rw [he] at h <;> simp only at h ⊢
      · exact ensureBuilt_built he
      all_goals cases h
    all_goals cases h

theorem prodDiag_built {t : Toolbox R} {al : Nat → Alloc} {fuel : Nat} {s : List CellSet} {sol : Solution R}
    (h : (t.prodDiag al fuel s).2 = .ok sol) : (t.prodDiag al fuel s).1.connBuilt = true := by
  unfold prodDiag at h ⊢
  split at h
  · cases h
  · rename_i hn
    rw [if_neg hn]
    cases hc : checkStartSets t.prodById t.onlyOutflow s <;> rw [hc] at h <;> simp only [finish] at h ⊢
    · cases he : t.ensureBuilt.2 <;> rw [he] at h <;> simp only at h ⊢
      · exact ensureBuilt_built he
      all_goals cases h
    all_goals cases h

end Verif.Toolbox
