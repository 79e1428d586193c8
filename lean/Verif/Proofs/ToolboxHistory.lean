/-
Toolbox: outcomes depend on the latest data only.
-/
import Verif.Spec.Toolbox
import Verif.Proofs.Res

namespace Verif.Toolbox
open Verif.Spec Verif.Solver

variable {R : Type} [Arith R]

/-- The graphs that `buildAssembledConnections` computes. -/
def graphs (g : ConnectivityGraph) (flux : ConnectionValues R) :
    Res (AssembledConnections R × AssembledConnections R) :=
  let s := addFluxes g flux (List.range g.numConnections) ({}, {})
  let n := sizeOfInt (narrowInt g.numCells)
  s.2.bind fun _ => (s.1.1.compressStep n).2.bind fun _ => (s.1.2.compressStep n).2.bind fun _ =>
    .ok ((s.1.1.compressStep n).1, (s.1.2.compressStep n).1)

theorem build_ok {t : Toolbox R} {gs : AssembledConnections R × AssembledConnections R}
    (h : graphs t.g t.flux = .ok gs) :
    t.buildAssembledConnections = ({ t with downstream := gs.1, upstream := gs.2, connBuilt := true }, .ok ()) := by
  unfold graphs at h
  unfold buildAssembledConnections
  simp only [Res.bind_ok_iff] at h
  obtain ⟨_, h1, _, h2, _, h3, h4⟩ := h
  cases h4
  simp only [h1, finish, h2, h3]

theorem build_fail {t : Toolbox R} (h : ∀ gs, graphs t.g t.flux ≠ .ok gs) :
    (∃ d u, t.buildAssembledConnections.1 = { t with downstream := d, upstream := u }) ∧
      (∀ {β : Type} (k : Unit → Res β),
        t.buildAssembledConnections.2.bind k = (graphs t.g t.flux).bind fun _ => k ()) ∧
      t.buildAssembledConnections.2 ≠ .ok () := by
  unfold graphs at h ⊢
  unfold buildAssembledConnections
  dsimp only at h ⊢
  generalize addFluxes t.g t.flux (List.range t.g.numConnections) ({}, {}) = w at h ⊢
  obtain ⟨w1, w2⟩ := w
  dsimp only at h ⊢
  cases w2 with
  | throw e => exact ⟨⟨_, _, rfl⟩, fun _ => rfl, by simp [finish]⟩
  | ub e => exact ⟨⟨_, _, rfl⟩, fun _ => rfl, by simp [finish]⟩
  | diverge => exact ⟨⟨_, _, rfl⟩, fun _ => rfl, by simp [finish]⟩
  | ok x =>
    simp only [Res.ok_bind, finish] at h ⊢
    generalize w1.1.compressStep (sizeOfInt (narrowInt t.g.numCells)) = a at h ⊢
    generalize w1.2.compressStep (sizeOfInt (narrowInt t.g.numCells)) = b at h ⊢
    obtain ⟨a1, a2⟩ := a
    obtain ⟨b1, b2⟩ := b
    cases a2 with
    | throw e => exact ⟨⟨_, _, rfl⟩, fun _ => rfl, by simp⟩
    | ub e => exact ⟨⟨_, _, rfl⟩, fun _ => rfl, by simp⟩
    | diverge => exact ⟨⟨_, _, rfl⟩, fun _ => rfl, by simp⟩
    | ok x =>
      simp only [Res.ok_bind] at h ⊢
      cases b2 with
      | throw e => exact ⟨⟨_, _, rfl⟩, fun _ => rfl, by simp⟩
      | ub e => exact ⟨⟨_, _, rfl⟩, fun _ => rfl, by simp⟩
      | diverge => exact ⟨⟨_, _, rfl⟩, fun _ => rfl, by simp⟩
      | ok x => simp at h

/-- The stored graphs are those of the stored fluxes. -/
def Coherent (t : Toolbox R) : Prop :=
  t.connBuilt = true → graphs t.g t.flux = .ok (t.downstream, t.upstream)

theorem ensureBuilt_spec {t : Toolbox R} (h : Coherent t) :
    Coherent t.ensureBuilt.1 ∧
    (∃ d u b, t.ensureBuilt.1 = { t with downstream := d, upstream := u, connBuilt := b }) ∧
    ∀ {β : Type} (k : AssembledConnections R × AssembledConnections R → Res β),
      (t.ensureBuilt.2.bind fun _ => k (t.ensureBuilt.1.downstream, t.ensureBuilt.1.upstream))
        = (graphs t.g t.flux).bind k := by
  unfold ensureBuilt
  by_cases hb : t.connBuilt = true
  · simp only [hb, if_true]
    refine ⟨h, ⟨t.downstream, t.upstream, t.connBuilt, rfl⟩, fun k => ?_⟩
    rw [h hb]; rfl
  · simp only [hb, Bool.false_eq_true, if_false]
    by_cases hg : ∃ gs, graphs t.g t.flux = .ok gs
    · obtain ⟨gs, hg⟩ := hg
      rw [build_ok hg]
      refine ⟨fun _ => ?_, ⟨gs.1, gs.2, true, rfl⟩, fun k => ?_⟩
      · show graphs t.g t.flux = _
        rw [hg]
      · rw [hg]; rfl
    · push Not at hg
      obtain ⟨⟨d, u, e⟩, h2, h3⟩ := build_fail hg
      refine ⟨?_, ⟨d, u, t.connBuilt, by rw [e]⟩, fun k => ?_⟩
      · rw [e]; intro hb'; exact absurd hb' hb
      · rw [h2 (fun _ => k (t.buildAssembledConnections.1.downstream, t.buildAssembledConnections.1.upstream))]
        cases hgr : graphs t.g t.flux with
        | ok gs => exact absurd hgr (hg gs)
        | throw e => rfl
        | ub e => rfl
        | diverge => rfl

/-- Outcome of diagnostics as a function of the data; `rev` for production. -/
def outcome (rev : Bool) (g : ConnectivityGraph) (pvol : List R) (flux : ConnectionValues R) (s : Split R)
    (al : Nat → Alloc) (fuel : Nat) (startSets : List CellSet) : Res (Solution R) :=
  if pvol.isEmpty || flux.numConnections == 0 then .throw .logicError else
  (checkStartSets s.byId s.only startSets).bind fun _ => (graphs g flux).bind fun gs =>
    computeSolution (if rev then gs.2 else gs.1) (if rev then gs.1 else gs.2) pvol s.only s.byId al fuel startSets

theorem finish_snd {S α β : Type} (s : S) (r : Res α) (k : α → S × Res β) :
    (finish s r k).2 = r.bind fun a => (k a).2 := by
  cases r <;> rfl

theorem injDiag_snd {t : Toolbox R} (h : Coherent t) (al : Nat → Alloc) (fuel : Nat) (s : List CellSet) :
    (t.injDiag al fuel s).2 = outcome false t.g t.pvol t.flux ⟨t.onlyInflow, t.injById⟩ al fuel s := by
  unfold injDiag outcome
  split
  · rfl
  · obtain ⟨_, ⟨d, u, b, e⟩, hk⟩ := ensureBuilt_spec h
    rw [finish_snd]
    congr 1
    funext _
    simp only [finish_snd]
    rw [← hk fun gs => computeSolution (if false = true then gs.2 else gs.1) (if false = true then gs.1 else gs.2) t.pvol
      t.onlyInflow t.injById al fuel s]
    congr 1; funext _
    rw [e]; rfl

theorem prodDiag_snd {t : Toolbox R} (h : Coherent t) (al : Nat → Alloc) (fuel : Nat) (s : List CellSet) :
    (t.prodDiag al fuel s).2 = outcome true t.g t.pvol t.flux ⟨t.onlyOutflow, t.prodById⟩ al fuel s := by
  unfold prodDiag outcome
  split
  · rfl
  · obtain ⟨_, ⟨d, u, b, e⟩, hk⟩ := ensureBuilt_spec h
    rw [finish_snd]
    congr 1
    funext _
    simp only [finish_snd]
    simp only [if_true]
    rw [← hk fun gs => computeSolution gs.2 gs.1 t.pvol t.onlyOutflow t.prodById al fuel s]
    congr 1; funext _
    rw [e]

/-- Diagnostics change at most the stored graphs. -/
theorem injDiag_fst {t : Toolbox R} (h : Coherent t) (al : Nat → Alloc) (fuel : Nat) (s : List CellSet) :
    Coherent (t.injDiag al fuel s).1 ∧
      ∃ d u b, (t.injDiag al fuel s).1 = { t with downstream := d, upstream := u, connBuilt := b } := by
  have same : ∃ d u b, t = { t with downstream := d, upstream := u, connBuilt := b } := ⟨_, _, _, rfl⟩
  unfold injDiag
  split
  · exact ⟨h, same⟩
  · obtain ⟨h1, h2, _⟩ := ensureBuilt_spec h
    cases checkStartSets t.injById t.onlyInflow s with
    | throw e => exact ⟨h, same⟩
    | ub e => exact ⟨h, same⟩
    | diverge => exact ⟨h, same⟩
    | ok x =>
      simp only [finish]
      cases t.ensureBuilt.2 <;> exact ⟨h1, h2⟩

theorem prodDiag_fst {t : Toolbox R} (h : Coherent t) (al : Nat → Alloc) (fuel : Nat) (s : List CellSet) :
    Coherent (t.prodDiag al fuel s).1 ∧
      ∃ d u b, (t.prodDiag al fuel s).1 = { t with downstream := d, upstream := u, connBuilt := b } := by
  have same : ∃ d u b, t = { t with downstream := d, upstream := u, connBuilt := b } := ⟨_, _, _, rfl⟩
  unfold prodDiag
  split
  · exact ⟨h, same⟩
  · obtain ⟨h1, h2, _⟩ := ensureBuilt_spec h
    cases checkStartSets t.prodById t.onlyOutflow s with
    | throw e => exact ⟨h, same⟩
    | ub e => exact ⟨h, same⟩
    | diverge => exact ⟨h, same⟩
    | ok x =>
      simp only [finish]
      cases t.ensureBuilt.2 <;> exact ⟨h1, h2⟩

/-! ### Histories -/

/-- What a toolbox holds after a history. -/
structure HoldsData (g : ConnectivityGraph) (calls : List (Call R)) (t : Toolbox R) : Prop where
  graph : t.g = g
  pvol : t.pvol = (lastPoreVolume g calls).getD []
  flux : t.flux = (lastFlux g calls).getD (ConnectionValues.create 0 0)
  inj : (⟨t.onlyInflow, t.injById⟩ : Split R) = (splitInflow ((lastInflow calls).getD [])).1
  prod : (⟨t.onlyOutflow, t.prodById⟩ : Split R) = (splitInflow ((lastInflow calls).getD [])).2
  coherent : Coherent t

theorem lastSome_append {α β : Type} (f : α → Option β) (l : List α) (x : α) :
    lastSome f (l ++ [x]) = (f x).or (lastSome f l) := by
  unfold lastSome
  rw [List.reverse_append, List.reverse_singleton, List.singleton_append, List.findSome?_cons]
  cases f x <;> rfl

theorem HoldsData.of_graphs {g : ConnectivityGraph} {calls : List (Call R)} {t : Toolbox R} (h : HoldsData g calls t)
    {c : Call R} (h1 : lastPoreVolume g (calls ++ [c]) = lastPoreVolume g calls)
    (h2 : lastFlux g (calls ++ [c]) = lastFlux g calls) (h3 : lastInflow (calls ++ [c]) = lastInflow calls)
    {t' : Toolbox R} (hc : Coherent t') (e : ∃ d u b, t' = { t with downstream := d, upstream := u, connBuilt := b }) :
    HoldsData g (calls ++ [c]) t' := by
  obtain ⟨d, u, b, rfl⟩ := e
  exact ⟨h.graph, by rw [h1]; exact h.pvol, by rw [h2]; exact h.flux, by rw [h3]; exact h.inj, by rw [h3]; exact h.prod, hc⟩

theorem holdsData (g : ConnectivityGraph) (calls : List (Call R)) : HoldsData g calls (toolboxAfter g calls) := by
  induction calls using List.reverseRecOn with
  | nil => exact ⟨rfl, rfl, rfl, rfl, rfl, fun h => by cases h⟩
  | append_singleton calls c ih =>
    have e : toolboxAfter g (calls ++ [c]) = (toolboxAfter g calls).step c := by
      unfold toolboxAfter; rw [List.foldl_append]; rfl
    rw [e]
    have l1 : lastPoreVolume g (calls ++ [c]) = _ := lastSome_append _ calls c
    have l2 : lastFlux g (calls ++ [c]) = _ := lastSome_append _ calls c
    have l3 : lastInflow (calls ++ [c]) = _ := lastSome_append _ calls c
    cases c with
    | assignPoreVolume pv =>
      by_cases hp : pv.length = g.numCells
      · have hs : (toolboxAfter g calls).step (.assignPoreVolume pv) = { toolboxAfter g calls with pvol := pv } := by
          show ((toolboxAfter g calls).assignPoreVolume pv).1 = _
          unfold Toolbox.assignPoreVolume
          rw [if_neg (by rw [ih.graph]; simpa using hp)]
        rw [hs]
        exact ⟨ih.graph, by rw [l1]; simp [hp], by rw [l2]; exact ih.flux, by rw [l3]; exact ih.inj, by rw [l3]; exact ih.prod,
          ih.coherent⟩
      · have hs : (toolboxAfter g calls).step (.assignPoreVolume pv) = toolboxAfter g calls := by
          show ((toolboxAfter g calls).assignPoreVolume pv).1 = _
          unfold Toolbox.assignPoreVolume
          rw [if_pos (by rw [ih.graph]; simpa using hp)]
        rw [hs]
        exact ih.of_graphs (by rw [l1]; simp only [hp, if_false]; rfl) l2 l3 ih.coherent ⟨_, _, _, rfl⟩
    | assignConnectionFlux f =>
      by_cases hp : f.numConnections = g.numConnections
      · have hs : (toolboxAfter g calls).step (.assignConnectionFlux f)
            = { toolboxAfter g calls with flux := f, connBuilt := false } := by
          show ((toolboxAfter g calls).assignConnectionFlux f).1 = _
          unfold Toolbox.assignConnectionFlux
          rw [if_neg (by rw [ih.graph]; simpa using hp)]
        rw [hs]
        exact ⟨ih.graph, by rw [l1]; exact ih.pvol, by rw [l2]; simp [hp], by rw [l3]; exact ih.inj, by rw [l3]; exact ih.prod,
          fun hb => by cases hb⟩
      · have hs : (toolboxAfter g calls).step (.assignConnectionFlux f) = toolboxAfter g calls := by
          show ((toolboxAfter g calls).assignConnectionFlux f).1 = _
          unfold Toolbox.assignConnectionFlux
          rw [if_pos (by rw [ih.graph]; simpa using hp)]
        rw [hs]
        exact ih.of_graphs l1 (by rw [l2]; simp only [hp, if_false]; rfl) l3 ih.coherent ⟨_, _, _, rfl⟩
    | assignInflowFlux m =>
      exact ⟨ih.graph, by rw [l1]; exact ih.pvol, by rw [l2]; exact ih.flux, by rw [l3]; rfl, by rw [l3]; rfl, ih.coherent⟩
    | computeInjectionDiagnostics al fuel s =>
      obtain ⟨h1, h2⟩ := injDiag_fst ih.coherent al fuel s
      exact ih.of_graphs l1 l2 l3 h1 h2
    | computeProductionDiagnostics al fuel s =>
      obtain ⟨h1, h2⟩ := prodDiag_fst ih.coherent al fuel s
      exact ih.of_graphs l1 l2 l3 h1 h2

theorem injectionOutcome_eq (g : ConnectivityGraph) (calls : List (Call R)) (al : Nat → Alloc) (fuel : Nat) (s : List CellSet) :
    injectionOutcome g calls al fuel s = outcome false g ((lastPoreVolume g calls).getD [])
      ((lastFlux g calls).getD (ConnectionValues.create 0 0)) (splitInflow ((lastInflow calls).getD [])).1 al fuel s := by
  have h := holdsData g calls
  unfold injectionOutcome
  rw [injDiag_snd h.coherent, h.graph, h.pvol, h.flux, h.inj]

theorem productionOutcome_eq (g : ConnectivityGraph) (calls : List (Call R)) (al : Nat → Alloc) (fuel : Nat) (s : List CellSet) :
    productionOutcome g calls al fuel s = outcome true g ((lastPoreVolume g calls).getD [])
      ((lastFlux g calls).getD (ConnectionValues.create 0 0)) (splitInflow ((lastInflow calls).getD [])).2 al fuel s := by
  have h := holdsData g calls
  unfold productionOutcome
  rw [prodDiag_snd h.coherent, h.graph, h.pvol, h.flux, h.prod]

end Verif.Toolbox
