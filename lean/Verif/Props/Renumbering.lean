/-
C91: the numbering of cells does not matter.
-/
import Verif.Props.CyclicGlobal
import Verif.Props.SolverOrder
import Verif.Props.Pairs
import Verif.Props.DerivedDiagnostics
import Verif.Proofs.AccuracySolution
import Verif.Spec.Renumbering

namespace Verif.Props
open Verif.Spec Verif.Toolbox Verif.Solver Verif.Derived Finset

/-! ### Flow -/

section flow
variable {K : Type} [Field K] [LinearOrder K] {F G : Flow K} {σ : Nat → Nat}

theorem edge_renumber (h : Renumbered σ F G) {u v : Nat} (hu : u < F.n) (hv : v < F.n) : G.Edge (σ u) (σ v) ↔ F.Edge u v := by
  unfold Flow.Edge
  rw [h.size, h.flux u hu v hv]
  exact ⟨fun e => ⟨hu, hv, e.2.2⟩, fun e => ⟨h.cells u hu, h.cells v hv, e.2.2⟩⟩

theorem reach_renumber (h : Renumbered σ F G) {u v : Nat} (hu : u < F.n) (hv : v < F.n) : G.Reach (σ u) (σ v) ↔ F.Reach u v := by
  constructor
  · intro hr
    have key : ∀ a b, G.Reach a b → ∀ u < F.n, σ u = a → ∃ v < F.n, σ v = b ∧ F.Reach u v := by
      intro a b hab
      induction hab with
      | refl => exact fun u hu e => ⟨u, hu, e, .refl⟩
      | tail _ e ih =>
        intro u hu e'
        obtain ⟨x, hx, rfl, hr⟩ := ih u hu e'
        obtain ⟨y, hy, rfl⟩ := surj h _ (by rw [← h.size]; exact e.2.1)
        exact ⟨y, hy, rfl, hr.tail ((edge_renumber h hx hy).mp e)⟩
    obtain ⟨y, hy, e, hr⟩ := key _ _ hr u hu rfl
    rwa [h.inj y hy v hv e] at hr
  · intro hr
    have key : ∀ a b, F.Reach a b → a < F.n → b < F.n ∧ G.Reach (σ a) (σ b) := by
      intro a b hab ha
      induction hab with
      | refl => exact ⟨ha, .refl⟩
      | tail _ e ih => exact ⟨e.2.1, ih.2.tail ((edge_renumber h e.1 e.2.1).mpr e)⟩
    exact (key u v hr hu).2

theorem sameCycle_renumber (h : Renumbered σ F G) {u v : Nat} (hu : u < F.n) (hv : v < F.n) :
    G.SameCycle (σ u) (σ v) ↔ F.SameCycle u v := by
  unfold Flow.SameCycle
  rw [reach_renumber h hu hv, reach_renumber h hv hu]

theorem reach_below {u v : Nat} (h : F.Reach u v) (hv : v < F.n) : u < F.n := by
  rcases Relation.ReflTransGen.cases_head h with e | ⟨x, e, _⟩
  · rw [e]; exact hv
  · exact e.1

theorem loop_renumber (h : Renumbered σ F G) {v : Nat} (hv : v < F.n) : G.Loop (σ v) ↔ F.Loop v := by
  unfold Flow.Loop
  rw [h.flux v hv v hv]
  refine and_congr_right fun _ => ⟨fun hc u hs => ?_, fun hc u hs => ?_⟩
  · have hu := reach_below hs.1 hv
    exact h.inj u hu v hv (hc _ ((sameCycle_renumber h hu hv).mpr hs))
  · have hu := reach_below hs.1 (by rw [h.size]; exact h.cells v hv)
    rw [h.size] at hu
    obtain ⟨x, hx, rfl⟩ := surj h u hu
    rw [hc x ((sameCycle_renumber h hx hv).mp hs)]

theorem noLoop_renumber (h : Renumbered σ F G) (hself : ∀ v < F.n, ¬ F.Loop v) : ∀ v < G.n, ¬ G.Loop v := by
  intro v hv
  rw [h.size] at hv
  obtain ⟨x, hx, rfl⟩ := surj h v hv
  rw [loop_renumber h hx]
  exact hself x hx

theorem cycleInflow_renumber (h : Renumbered σ F G) {v : Nat} (hv : v < F.n) : G.cycleInflow (σ v) = F.cycleInflow v := by
  classical
  unfold Flow.cycleInflow
  rw [sum_renumber h]
  refine sum_congr rfl fun u hu => ?_
  have hu := mem_range.mp hu
  rw [h.flux u hu v hv]
  exact if_congr (sameCycle_renumber h hu hv) rfl rfl

theorem downstream_renumber (h : Renumbered σ F G) {starts starts' : List Nat} (hs : ∀ v < F.n, σ v ∈ starts' ↔ v ∈ starts)
    (hp : ∀ p ∈ starts, p < F.n) (hp' : ∀ p ∈ starts', p < F.n) {v : Nat} (hv : v < F.n) :
    G.Downstream starts' (σ v) ↔ F.Downstream starts v := by
  constructor
  · rintro ⟨p, hps, hr⟩
    obtain ⟨u, hu, rfl⟩ := surj h p (hp' p hps)
    exact ⟨u, (hs u hu).mp hps, (reach_renumber h hu hv).mp hr⟩
  · rintro ⟨p, hps, hr⟩
    exact ⟨σ p, (hs p (hp p hps)).mpr hps, (reach_renumber h (hp p hps) hv).mpr hr⟩

/-- Fields carried by the flow are renumbered. -/
theorem carries_renumber (h : Renumbered σ F G) {starts starts' : List Nat} (hs : ∀ v < F.n, σ v ∈ starts' ↔ v ∈ starts)
    (hp : ∀ p ∈ starts, p < F.n) (hp' : ∀ p ∈ starts', p < F.n) {q q' x : Nat → K} (hq : ∀ v < F.n, q' (σ v) = q v)
    (hx : G.Carries starts' q' x) : F.Carries starts q fun v => x (σ v) := by
  have hn : ∀ v < F.n, σ v < G.n := fun v hv => by rw [h.size]; exact h.cells v hv
  refine ⟨fun v hv hd => hx.1 _ (hn v hv) fun hc => hd ((downstream_renumber h hs hp hp' hv).mp hc), fun v hv hd => ?_⟩
  have := hx.2 _ (hn v hv) ((downstream_renumber h hs hp hp' hv).mpr hd)
  rw [total_renumber h hv, sum_renumber h, hq v hv] at this
  rw [this]
  congr 1
  exact sum_congr rfl fun u hu => by rw [h.flux u (mem_range.mp hu) v hv]

end flow

/-! ### Problems -/

section problem
variable {K : Type} [Field K] [LinearOrder K] {P Q : Problem K} {σ : Nat → Nat}

theorem SameFlow.source (h : P.SameFlow σ Q) {v : Nat} (hv : v < P.n) : Q.source (σ v) = P.source v ∧ Q.sink (σ v) = P.sink v := by
  unfold Problem.source Problem.sink
  have key : ∀ {l l' : List (WellFlux K)}, List.Forall₂ (fun w w' => w'.id = w.id ∧ ∀ v < P.n,
      Problem.wellAt w' (σ v) = Problem.wellAt w v) l l' → ∀ f : K → K,
      (l'.map fun w => f (Problem.wellAt w (σ v))).sum = (l.map fun w => f (Problem.wellAt w v)).sum := by
    intro l l' hl f
    induction hl with
    | nil => rfl
    | cons e _ ih => simp only [List.map_cons, List.sum_cons, ih, e.2 v hv]
  exact ⟨key h.inflow fun x => max x 0, key h.inflow fun x => max (-x) 0⟩

theorem SameFlow.forward (h : P.SameFlow σ Q) : Renumbered σ P.forward Q.forward :=
  ⟨h.size, h.cells, h.inj, h.flux, h.pv, fun _ hv => (SameFlow.source h hv).1⟩

theorem SameFlow.backward (h : P.SameFlow σ Q) : Renumbered σ P.backward Q.backward :=
  ⟨h.size, h.cells, h.inj, fun u hu v hv => h.flux v hv u hu, h.pv, fun _ hv => (SameFlow.source h hv).2⟩

theorem mem_posCells {w : WellFlux K} {v : Nat} : v ∈ posCells w ↔ 0 < Problem.wellAt w v := by
  unfold posCells Problem.wellAt
  rw [List.mem_filter, decide_eq_true_eq]
  by_cases hv : v ∈ w.cells
  · simp [hv]
  · simp [hv]

theorem mem_negCells {w : WellFlux K} {v : Nat} : v ∈ negCells w ↔ Problem.wellAt w v < 0 := by
  unfold negCells Problem.wellAt
  rw [List.mem_filter, decide_eq_true_eq]
  by_cases hv : v ∈ w.cells
  · simp [hv]
  · simp [hv]

/-- The well of the other problem. -/
theorem SameFlow.well (h : P.SameFlow σ Q) {w : WellFlux K} (hw : w ∈ P.wells) :
    ∃ w' ∈ Q.wells, w'.id = w.id ∧ ∀ v < P.n, Problem.wellAt w' (σ v) = Problem.wellAt w v := by
  have key : ∀ {l l' : List (WellFlux K)}, List.Forall₂ (fun w w' => w'.id = w.id ∧ ∀ v < P.n,
      Problem.wellAt w' (σ v) = Problem.wellAt w v) l l' → w ∈ l → ∃ w' ∈ l', w'.id = w.id ∧
        ∀ v < P.n, Problem.wellAt w' (σ v) = Problem.wellAt w v := by
    intro l l' hl hw
    induction hl with
    | nil => simp at hw
    | cons e _ ih =>
      rcases List.mem_cons.mp hw with rfl | hw
      · exact ⟨_, List.mem_cons_self, e⟩
      · obtain ⟨w', hw', e'⟩ := ih hw
        exact ⟨w', List.mem_cons_of_mem _ hw', e'⟩
  exact key h.inflow hw

theorem SameFlow.well' (h : P.SameFlow σ Q) {w' : WellFlux K} (hw : w' ∈ Q.wells) :
    ∃ w ∈ P.wells, w'.id = w.id ∧ ∀ v < P.n, Problem.wellAt w' (σ v) = Problem.wellAt w v := by
  have key : ∀ {l l' : List (WellFlux K)}, List.Forall₂ (fun w w' => w'.id = w.id ∧ ∀ v < P.n,
      Problem.wellAt w' (σ v) = Problem.wellAt w v) l l' → w' ∈ l' → ∃ w ∈ l, w'.id = w.id ∧
        ∀ v < P.n, Problem.wellAt w' (σ v) = Problem.wellAt w v := by
    intro l l' hl hw
    induction hl with
    | nil => simp at hw
    | cons e _ ih =>
      rcases List.mem_cons.mp hw with rfl | hw
      · exact ⟨_, List.mem_cons_self, e⟩
      · obtain ⟨w', hw', e'⟩ := ih hw
        exact ⟨w', List.mem_cons_of_mem _ hw', e'⟩
  exact key h.inflow hw

theorem sameSets_ids {starts starts' : List CellSet} (h : SameSets σ starts starts') (i : CellSetID) :
    (∃ s ∈ starts', s.id = i) ↔ ∃ s ∈ starts, s.id = i := by
  unfold SameSets at h
  induction h with
  | nil => simp
  | cons e _ ih => simp only [List.mem_cons, exists_eq_or_imp, ih, e.1]

theorem sameSets_mem {starts starts' : List CellSet} (h : SameSets σ starts starts') {s' : CellSet} (hs : s' ∈ starts') :
    ∃ s ∈ starts, s'.id = s.id ∧ ∀ c, c ∈ s'.cells ↔ ∃ v : Nat, (v : Int) ∈ s.cells ∧ c = (σ v : Int) := by
  unfold SameSets at h
  induction h with
  | nil => simp at hs
  | cons e _ ih =>
    rcases List.mem_cons.mp hs with rfl | hs
    · exact ⟨_, List.mem_cons_self, e⟩
    · obtain ⟨s, h1, h2⟩ := ih hs
      exact ⟨s, List.mem_cons_of_mem _ h1, h2⟩

/-- The cells with sources. -/
theorem sourceCells_renumber {F G : Flow K} (hren : Renumbered σ F G) : ∀ v < F.n,
    σ v ∈ ((List.range G.n).filter fun p => decide (0 < G.src p)) ↔ v ∈ ((List.range F.n).filter fun p => decide (0 < F.src p)) := by
  intro v hv
  rw [List.mem_filter, List.mem_filter, List.mem_range, List.mem_range, hren.src v hv, hren.size]
  exact and_congr_left fun _ => ⟨fun _ => hv, fun _ => hren.cells v hv⟩

end problem

section accepts
variable {K : Type} [Field K] [LinearOrder K] [IsStrictOrderedRing K] {P Q : Problem K} {σ : Nat → Nat}

omit [IsStrictOrderedRing K] in
theorem inflowCell_problem {c : Int} : InflowCell P.inflowMap c ↔ ∃ w ∈ P.wells, ∃ v ∈ posCells w, c = (v : Int) := by
  rw [← positives_cell, positives_inflowMap]
  constructor
  · rintro ⟨e, he, rfl⟩
    obtain ⟨w, hw, v, hv, rfl⟩ := mem_contributions.mp he
    exact ⟨w, hw, v, hv, rfl⟩
  · rintro ⟨w, hw, v, hv, rfl⟩
    exact ⟨_, mem_contributions.mpr ⟨w, hw, v, hv, rfl⟩, rfl⟩

omit [IsStrictOrderedRing K] in
theorem outflowCell_problem {c : Int} : OutflowCell P.inflowMap c ↔ ∃ w ∈ P.wells, ∃ v ∈ negCells w, c = (v : Int) := by
  rw [← negatives_cell, negatives_inflowMap]
  constructor
  · rintro ⟨e, he, rfl⟩
    obtain ⟨w, hw, v, hv, rfl⟩ := mem_contributions.mp he
    exact ⟨w, hw, v, hv, rfl⟩
  · rintro ⟨w, hw, v, hv, rfl⟩
    exact ⟨_, mem_contributions.mpr ⟨w, hw, v, hv, rfl⟩, rfl⟩

theorem SameFlow.accepts (hP : P.Valid) (h : P.SameFlow σ Q) {starts starts' : List CellSet} (hs : SameSets σ starts starts') :
    (InjectionAccepts P.inflowMap starts → InjectionAccepts Q.inflowMap starts') ∧
    (ProductionAccepts P.inflowMap starts → ProductionAccepts Q.inflowMap starts') := by
  constructor
  · intro ha s' hs'
    obtain ⟨s, hm, e, hc⟩ := sameSets_mem hs hs'
    obtain ⟨h1, h2⟩ := ha s hm
    constructor
    · obtain ⟨w, hw, e1, hne⟩ := hasInflow_problem.mp h1
      obtain ⟨w', hw', e2, he⟩ := SameFlow.well h hw
      obtain ⟨v, hv⟩ := List.exists_mem_of_ne_nil _ hne
      refine hasInflow_problem.mpr ⟨w', hw', by rw [e2, e1, e], List.ne_nil_of_mem (a := σ v) ?_⟩
      have hvn := hP.cells_range w hw v (List.mem_filter.mp hv).1
      rw [mem_posCells, he v hvn]; exact mem_posCells.mp hv
    · intro c hcs
      obtain ⟨v, hv, rfl⟩ := (hc c).mp hcs
      obtain ⟨w, hw, x, hx, e1⟩ := inflowCell_problem.mp (h2 _ hv)
      have e1 : v = x := by exact_mod_cast e1
      subst e1
      obtain ⟨w', hw', _, he⟩ := SameFlow.well h hw
      have hvn := hP.cells_range w hw v (List.mem_filter.mp hx).1
      refine inflowCell_problem.mpr ⟨w', hw', σ v, ?_, rfl⟩
      rw [mem_posCells, he v hvn]; exact mem_posCells.mp hx
  · intro ha s' hs'
    obtain ⟨s, hm, e, hc⟩ := sameSets_mem hs hs'
    obtain ⟨h1, h2⟩ := ha s hm
    constructor
    · obtain ⟨w, hw, e1, hne⟩ := hasOutflow_problem.mp h1
      obtain ⟨w', hw', e2, he⟩ := SameFlow.well h hw
      obtain ⟨v, hv⟩ := List.exists_mem_of_ne_nil _ hne
      refine hasOutflow_problem.mpr ⟨w', hw', by rw [e2, e1, e], List.ne_nil_of_mem (a := σ v) ?_⟩
      have hvn := hP.cells_range w hw v (List.mem_filter.mp hv).1
      rw [mem_negCells, he v hvn]; exact mem_negCells.mp hv
    · intro c hcs
      obtain ⟨v, hv, rfl⟩ := (hc c).mp hcs
      obtain ⟨w, hw, x, hx, e1⟩ := outflowCell_problem.mp (h2 _ hv)
      have e1 : v = x := by exact_mod_cast e1
      subst e1
      obtain ⟨w', hw', _, he⟩ := SameFlow.well h hw
      have hvn := hP.cells_range w hw v (List.mem_filter.mp hx).1
      refine outflowCell_problem.mpr ⟨w', hw', σ v, ?_, rfl⟩
      rw [mem_negCells, he v hvn]; exact mem_negCells.mp hx

end accepts

/-! ### Exact arithmetic, cycle-free flow -/

section exact
variable {K : Type} [Field K] [LinearOrder K] [IsStrictOrderedRing K] [Archimedean K]

/-- What both directions have in common. -/
theorem Diag.renumber {F G : Flow K} {wells wells' : List (WellFlux K)} {cs : WellFlux K → List Nat} {f : WellFlux K → Nat → K}
    {starts starts' : List CellSet} {sol sol' : Solution (X K)} {σ : Nat → Nat}
    (D : Diag F wells cs f starts sol) (D' : Diag G wells' cs f starts' sol') (hren : Renumbered σ F G) (hacy : F.Acyclic)
    (hids : ∀ i, (∃ s ∈ starts', s.id = i) ↔ ∃ s ∈ starts, s.id = i)
    (hw : ∀ w ∈ wells, ∃ w' ∈ wells', w'.id = w.id ∧ (∀ v < F.n, σ v ∈ cs w' ↔ v ∈ cs w) ∧ ∀ v ∈ cs w, f w' (σ v) = f w v) :
    sol'.startPoints = sol.startPoints ∧
    (∀ v < F.n, sol'.timeOfFlight[σ v]? = sol.timeOfFlight[v]?) ∧
    ∀ i, ∀ v < F.n, (sol'.timeOfFlightOf i).find (σ v : Int) = (sol.timeOfFlightOf i).find (v : Int) ∧
      (sol'.concentration i).find (σ v : Int) = (sol.concentration i).find (v : Int) := by
  obtain ⟨d, st, h1, h2, h3⟩ := D.solved
  obtain ⟨d', st', h1', h2', h3'⟩ := D'.solved
  refine ⟨?_, ?_, ?_⟩
  · refine List.Perm.eq_of_pairwise (fun a b _ _ h1 h2 => absurd h1 (lt_asymm h2)) D'.sorted D.sorted ?_
    refine (List.perm_ext_iff_of_nodup (D'.sorted.imp fun h => ne_of_lt h) (D.sorted.imp fun h => ne_of_lt h)).mpr fun i => ?_
    rw [D'.points, D.points, hids]
  · intro v hv
    have hv' : σ v < G.n := by rw [hren.size]; exact hren.cells v hv
    have key := C32_global_renumbering h1 h1' hren hacy h2 h2' v hv
    obtain ⟨τ, c, hr, _⟩ := global_facts h1
    obtain ⟨τ', c', hr', _⟩ := global_facts h1'
    have e := Res.ok.inj (h2.unique hr)
    have e' := Res.ok.inj (h2'.unique hr')
    rw [e, e', arr_fieldAt _ _ hv, arr_fieldAt _ _ hv'] at key
    rw [e, e']
    rw [Solver.arr_getElem? _ hv, Solver.arr_getElem? _ hv']
    exact congrArg (fun x => some (X.fin x)) key
  · intro i v hv
    have hv' : σ v < G.n := by rw [hren.size]; exact hren.cells v hv
    by_cases hi : ∃ s ∈ starts, s.id = i
    · obtain ⟨s, hs, rfl⟩ := hi
      obtain ⟨w, hwm, e, _⟩ := D.known s hs
      obtain ⟨w', hwm', e', hcs, hf⟩ := hw w hwm
      rw [← e]
      obtain ⟨l, hl, a1, a2⟩ := h3 w hwm ⟨s, hs, e.symm⟩
      obtain ⟨l', hl', b1, b2⟩ := h3' w' hwm' ((hids _).mpr ⟨s, hs, by rw [e', e]⟩)
      rw [e'] at b1 b2
      rw [a1, a2, b1, b2]
      have hp := D.side.range w hwm
      have hp' := D'.side.range w' hwm'
      have hpF : ∀ p ∈ cs w', p < F.n := by rw [← hren.size]; exact hp'
      have hpos : ∀ p ∈ cs w, 0 ≤ f w p := fun p hps => (D.side.pos w hwm p hps).le
      have hpos' : ∀ p ∈ cs w', 0 ≤ f w' p := fun p hps => (D'.side.pos w' hwm' p hps).le
      have key := C32_local_renumbering h1 h1' hren hacy hp hcs hpF (fun p hps => ⟨hpos p hps, hf p hps⟩) hl hl' v hv
      obtain ⟨τ, c, _, _, cells, hsort, hm, rfl⟩ := local_ok h1 hp hpos hl
      obtain ⟨τ', c', _, _, cells', hsort', hm', rfl⟩ := local_ok h1' hp' hpos' hl'
      have hmem : σ v ∈ cells' ↔ v ∈ cells := by rw [hm, hm', downstream_renumber hren hcs hp hpF hv]
      simp only [valueAt_valuesOf hsort, valueAt_valuesOf hsort', hmem] at key
      simp only [Rounding.find_valuesOf, hmem]
      by_cases hc : v ∈ cells
      · simp only [hc, if_true] at key ⊢
        exact ⟨by rw [key.2], by rw [key.1]⟩
      · simp [hc]
    · obtain ⟨a1, a2⟩ := D.other i hi
      obtain ⟨b1, b2⟩ := D'.other i fun hc => hi ((hids i).mp hc)
      rw [a1, a2, b1, b2]
      exact ⟨rfl, rfl⟩

variable {P Q : Problem K} (hP : P.Valid) (hQ : Q.Valid) {σ : Nat → Nat} (hsame : P.SameFlow σ Q)
  {g g' : ConnectivityGraph} {calls calls' : List (Call (X K))} (h : P.GivenTo g calls) (h' : Q.GivenTo g' calls')
  (hacy : P.forward.Acyclic)
include hP hQ hsame h h' hacy

theorem renumber_injection {starts starts' : List CellSet} (hsets : SameSets σ starts starts') {sol sol' : Solution (X K)}
    (hr : InjectionReturns g calls starts (.ok sol)) (hr' : InjectionReturns g' calls' starts' (.ok sol')) :
    sol'.startPoints = sol.startPoints ∧ (∀ v < P.n, sol'.timeOfFlight[σ v]? = sol.timeOfFlight[v]?) ∧
      ∀ i, ∀ v < P.n, (sol'.timeOfFlightOf i).find (σ v : Int) = (sol.timeOfFlightOf i).find (v : Int) ∧
        (sol'.concentration i).find (σ v : Int) = (sol.concentration i).find (v : Int) := by
  refine (diag_injection hP h hr).renumber (diag_injection hQ h' hr') (SameFlow.forward hsame) hacy
    (sameSets_ids hsets) fun w hw => ?_
  obtain ⟨w', hw', e, he⟩ := SameFlow.well hsame hw
  have hcs : ∀ v < P.n, σ v ∈ posCells w' ↔ v ∈ posCells w := fun v hv => by rw [mem_posCells, mem_posCells, he v hv]
  refine ⟨w', hw', e, hcs, fun v hv => ?_⟩
  have hm := (List.mem_filter.mp hv).1
  have hvn := hP.cells_range w hw v hm
  have := he v hvn
  unfold Problem.wellAt at this
  rwa [if_pos hm, if_pos (List.mem_filter.mp ((hcs v hvn).mpr hv)).1] at this

theorem renumber_production {starts starts' : List CellSet} (hsets : SameSets σ starts starts') {sol sol' : Solution (X K)}
    (hr : ProductionReturns g calls starts (.ok sol)) (hr' : ProductionReturns g' calls' starts' (.ok sol')) :
    sol'.startPoints = sol.startPoints ∧ (∀ v < P.n, sol'.timeOfFlight[σ v]? = sol.timeOfFlight[v]?) ∧
      ∀ i, ∀ v < P.n, (sol'.timeOfFlightOf i).find (σ v : Int) = (sol.timeOfFlightOf i).find (v : Int) ∧
        (sol'.concentration i).find (σ v : Int) = (sol.concentration i).find (v : Int) := by
  refine (diag_production hP h hr).renumber (diag_production hQ h' hr') (SameFlow.backward hsame)
    (backward_acyclic hacy) (sameSets_ids hsets) fun w hw => ?_
  obtain ⟨w', hw', e, he⟩ := SameFlow.well hsame hw
  have hcs : ∀ v < P.n, σ v ∈ negCells w' ↔ v ∈ negCells w := fun v hv => by rw [mem_negCells, mem_negCells, he v hv]
  refine ⟨w', hw', e, hcs, fun v hv => ?_⟩
  have hm := (List.mem_filter.mp hv).1
  have hvn := hP.cells_range w hw v hm
  have := he v hvn
  unfold Problem.wellAt at this
  rw [if_pos hm, if_pos (List.mem_filter.mp ((hcs v hvn).mpr hv)).1] at this
  rw [this]

/-- **C91** (exact arithmetic, cycle-free flow) Numbering the cells in another way, and listing the connections in another way,
    gives the same injection diagnostics in the cells with the new numbers. -/
theorem C91_injection {starts starts' : List CellSet} (hsets : SameSets σ starts starts') {sol : Solution (X K)}
    (hr : InjectionReturns g calls starts (.ok sol)) :
    ∃ sol', InjectionReturns g' calls' starts' (.ok sol') ∧ sol'.startPoints = sol.startPoints ∧
      (∀ v < P.n, sol'.timeOfFlight[σ v]? = sol.timeOfFlight[v]?) ∧
      ∀ i, ∀ v < P.n, (sol'.timeOfFlightOf i).find (σ v : Int) = (sol.timeOfFlightOf i).find (v : Int) ∧
        (sol'.concentration i).find (σ v : Int) = (sol.concentration i).find (v : Int) := by
  have ha : InjectionAccepts P.inflowMap starts := by
    by_contra hc
    obtain ⟨N, hN⟩ := hr
    obtain ⟨M, hM⟩ := (C40_valid_problem hP h starts).2.1 hc
    have h1 := hN (max N M) (le_max_left ..)
    rw [hM (max N M) (le_max_right ..)] at h1
    cases h1
  obtain ⟨sol', hr'⟩ := (C40_valid_problem hQ h' starts').1 ((SameFlow.accepts hP hsame hsets).1 ha)
  exact ⟨sol', hr', renumber_injection hP hQ hsame h h' hacy hsets hr hr'⟩

/-- **C91** The same for production diagnostics. -/
theorem C91_production {starts starts' : List CellSet} (hsets : SameSets σ starts starts') {sol : Solution (X K)}
    (hr : ProductionReturns g calls starts (.ok sol)) :
    ∃ sol', ProductionReturns g' calls' starts' (.ok sol') ∧ sol'.startPoints = sol.startPoints ∧
      (∀ v < P.n, sol'.timeOfFlight[σ v]? = sol.timeOfFlight[v]?) ∧
      ∀ i, ∀ v < P.n, (sol'.timeOfFlightOf i).find (σ v : Int) = (sol.timeOfFlightOf i).find (v : Int) ∧
        (sol'.concentration i).find (σ v : Int) = (sol.concentration i).find (v : Int) := by
  have ha : ProductionAccepts P.inflowMap starts := by
    by_contra hc
    obtain ⟨N, hN⟩ := hr
    obtain ⟨M, hM⟩ := (C40_valid_problem hP h starts).2.2.2 hc
    have h1 := hN (max N M) (le_max_left ..)
    rw [hM (max N M) (le_max_right ..)] at h1
    cases h1
  obtain ⟨sol', hr'⟩ := (C40_valid_problem hQ h' starts').2.2.1 ((SameFlow.accepts hP hsame hsets).2 ha)
  exact ⟨sol', hr', renumber_production hP hQ hsame h h' hacy hsets hr hr'⟩

/-- **C91** (exact arithmetic, cycle-free flow) Volumes and fluxes of pairs and the F-Phi curve do not change when the cells are
    numbered in another way. -/
theorem C91_derived {istarts istarts' pstarts pstarts' : List CellSet} (hi : SameSets σ istarts istarts')
    (hp : SameSets σ pstarts pstarts') {S T S' T' : Solution (X K)} (hS : InjectionReturns g calls istarts (.ok S))
    (hT : ProductionReturns g calls pstarts (.ok T)) (hS' : InjectionReturns g' calls' istarts' (.ok S'))
    (hT' : ProductionReturns g' calls' pstarts' (.ok T')) :
    (∀ i p, pairVolume S' T' (arr Q.n Q.pv) i p = pairVolume S T (arr P.n P.pv) i p) ∧
    (∀ i p, pairFluxes S' T' i p Q.inflowMap = pairFluxes S T i p P.inflowMap) ∧
    ∀ sort sort', StdSort sort → StdSort sort' → ∀ frac : K,
      curveOf sort' S' T' (arr Q.n Q.pv) (X.fin frac) = curveOf sort S T (arr P.n P.pv) (X.fin frac) := by
  have DS := diag_injection hP h hS
  have DT := diag_production hP h hT
  have DS' := diag_injection hQ h' hS'
  have DT' := diag_production hQ h' hT'
  obtain ⟨_, s2, s3⟩ := renumber_injection hP hQ hsame h h' hacy hi hS hS'
  obtain ⟨_, t2, t3⟩ := renumber_production hP hQ hsame h h' hacy hp hT hT'
  have hval : ∀ {a b : CellSetValues (X K)} {u v : Nat}, a.find (u : Int) = b.find (v : Int) → valueAt a u = valueAt b v := by
    intro a b u v e
    unfold valueAt
    rw [e]
  have hsum : ∀ f : Nat → K, ∑ u ∈ range Q.n, f u = ∑ u ∈ range P.n, f (σ u) := sum_renumber (SameFlow.forward hsame)
  refine ⟨fun i p => ?_, fun i p => ?_, fun sort sort' hs hs' frac => ?_⟩
  · have e := C49_value (DS.tracer i) (DT.tracer p) P.pv
    have e' := C49_value (DS'.tracer i) (DT'.tracer p) Q.pv
    refine e'.trans (Eq.trans ?_ e.symm)
    show Res.ok (X.fin (∑ v ∈ range Q.n, _)) = Res.ok (X.fin (∑ v ∈ range P.n, _))
    rw [hsum]
    congr 2
    refine sum_congr rfl fun v hv => ?_
    have hv := mem_range.mp hv
    rw [hsame.pv v hv, hval (s3 i v hv).2, hval (t3 p v hv).2]
  · have hnone : ∀ j, (∀ w ∈ P.wells, w.id ≠ j) → P.inflowMap.find j = none ∧ Q.inflowMap.find j = none := by
      intro j hj
      constructor
      · refine OMap.find_none_iff.mpr fun e he => ?_
        obtain ⟨w, hw, rfl⟩ := List.mem_map.mp he
        exact hj w hw
      · refine OMap.find_none_iff.mpr fun e he => ?_
        obtain ⟨w', hw', rfl⟩ := List.mem_map.mp he
        obtain ⟨w, hw, e, _⟩ := SameFlow.well' hsame hw'
        rw [e]; exact hj w hw
    by_cases hwi : ∃ w ∈ P.wells, w.id = i
    · by_cases hwp : ∃ w ∈ P.wells, w.id = p
      · obtain ⟨w, hw, rfl⟩ := hwi
        obtain ⟨x, hx, rfl⟩ := hwp
        obtain ⟨w', hw', e1, he1⟩ := SameFlow.well hsame hw
        obtain ⟨x', hx', e2, he2⟩ := SameFlow.well hsame hx
        have e := C50_value hP hw hx (DS.tracer w.id) (DT.tracer x.id)
        have e' := C50_value hQ hw' hx' (DS'.tracer w'.id) (DT'.tracer x'.id)
        rw [e, ← e1, ← e2, e', hsum, hsum]
        congr 3
        · refine sum_congr rfl fun v hv => ?_
          have hv := mem_range.mp hv
          rw [he1 v hv, e2, hval (t3 x.id v hv).2]
        · congr 1
          refine sum_congr rfl fun v hv => ?_
          have hv := mem_range.mp hv
          rw [he2 v hv, e1, hval (s3 w.id v hv).2]
      · push Not at hwp
        obtain ⟨a, b⟩ := hnone p hwp
        rw [(C50_errors S T i p _).1 (Or.inr a), (C50_errors S' T' i p _).1 (Or.inr b)]
    · push Not at hwi
      obtain ⟨a, b⟩ := hnone i hwi
      rw [(C50_errors S T i p _).1 (Or.inl a), (C50_errors S' T' i p _).1 (Or.inl b)]
  · obtain ⟨c1, c2, _⟩ := C63_curve hP h hS hT sort frac
    obtain ⟨c1', c2', _⟩ := C63_curve hQ h' hS' hT' sort' frac
    rw [c1, c1']
    refine C45_numbering hs hs' hP.int ⟨hsame.size, rfl, ⟨hsame.cells, hsame.inj⟩, fun v hv => ?_, fun v hv => ?_, hsame.pv⟩
    · have := s2 v hv
      rw [(c2 v hv).1, (c2' (σ v) (by rw [hsame.size]; exact hsame.cells v hv)).1] at this
      simpa using this
    · have := t2 v hv
      rw [(c2 v hv).2, (c2' (σ v) (by rw [hsame.size]; exact hsame.cells v hv)).2] at this
      simpa using this

end exact

/-! ### Flow with cycles -/

section cyclic
variable {K : Type} [Field K] [LinearOrder K] [IsStrictOrderedRing K]

/-- Both numberings carry the same field. -/
theorem carried_eq {F G : Flow K} {σ : Nat → Nat} (hF : F.Valid) (h : Renumbered σ F G) {starts starts' : List Nat}
    (hs : ∀ v < F.n, σ v ∈ starts' ↔ v ∈ starts) (hp : ∀ p ∈ starts, p < F.n ∧ 0 < F.src p) (hp' : ∀ p ∈ starts', p < F.n)
    {q q' x x' : Nat → K} (hq : ∀ v < F.n, q' (σ v) = q v) (hx : F.Carries starts q x) (hx' : G.Carries starts' q' x') :
    ∀ v < F.n, x' (σ v) = x v :=
  (C76_exact hF hp q).2.1 _ _ (carries_renumber h hs (fun p hps => (hp p hps).1) hp' hq hx') hx

variable [Archimedean K]

section
variable {P Q : Problem K} (hP : P.Valid) (hQ : Q.Valid) {σ : Nat → Nat} (hsame : P.SameFlow σ Q)
  {g g' : ConnectivityGraph} {calls calls' : List (Call (X K))} (h : P.GivenTo g calls) (h' : Q.GivenTo g' calls')
  (hself : ∀ v < P.n, ¬ P.forward.Loop v) {starts starts' : List CellSet} (hsets : SameSets σ starts starts')
  {sol sol' : Solution (X K)} {w : WellFlux K} (hw : w ∈ P.wells) (hs : ∃ s ∈ starts, s.id = w.id)
include hP hQ hsame h h' hself hsets hw hs

/-- **C91** (exact arithmetic, any cycles, no cell has a self-connection as its only cycle) The concentrations of an injector in
    two numberings differ by at most `1e-9 * m`, where `m` is the field carried by the flow when each cell adds the flux that
    it gets from its own cycle. -/
theorem C91_injection_cyclic (hr : InjectionReturns g calls starts (.ok sol)) (hr' : InjectionReturns g' calls' starts' (.ok sol')) :
    ∃ m, P.forward.Carries (posCells w) P.forward.cycleInflow m ∧
      ∀ v < P.n, |valueAt (sol'.concentration w.id) (σ v) - valueAt (sol.concentration w.id) v| ≤ 1 / 1000000000 * m v := by
  have hren := SameFlow.forward hsame
  have D := diag_injection hP h hr
  have hv : P.forward.Valid := by obtain ⟨d, st, h1, _⟩ := D.solved; exact h1.valid
  obtain ⟨w', hw', e, he⟩ := SameFlow.well hsame hw
  obtain ⟨x, m, hx, hm, hd⟩ := C76_injection hP h hself hr hw hs
  obtain ⟨x', m', hx', hm', hd'⟩ := C76_injection hQ h' (noLoop_renumber hren hself) hr' hw' (by
    rw [e]; exact (sameSets_ids hsets _).mpr hs)
  have hcs : ∀ v < P.n, σ v ∈ posCells w' ↔ v ∈ posCells w := fun v hv => by rw [mem_posCells, mem_posCells, he v hv]
  have hp : ∀ p ∈ posCells w, p < P.forward.n ∧ 0 < P.forward.src p := fun p hp =>
    ⟨D.side.range w hw p hp, lt_of_lt_of_le (D.side.pos w hw p hp) (D.le_src hw hp)⟩
  have hp' : ∀ p ∈ posCells w', p < P.forward.n := fun p hp => by
    have := hQ.cells_range w' hw' p (List.mem_filter.mp hp).1
    rwa [hsame.size] at this
  have ex := carried_eq hv hren hcs hp hp' (q := fun v => max (Problem.wellAt w v) 0)
    (q' := fun v => max (Problem.wellAt w' v) 0) (fun v hv => by rw [he v hv]) hx hx'
  have em := carried_eq hv hren hcs hp hp' (fun v hv => cycleInflow_renumber hren hv) hm hm'
  refine ⟨m, hm, fun v hv => ?_⟩
  obtain ⟨a, b⟩ := hd v hv
  obtain ⟨a', b'⟩ := hd' (σ v) (by rw [hsame.size]; exact hsame.cells v hv)
  rw [e, ex v hv] at a' b'
  rw [em v hv] at b'
  exact abs_le.mpr ⟨by linarith, by linarith⟩

/-- **C91** The same for a producer, in the reversed flow. -/
theorem C91_production_cyclic (hr : ProductionReturns g calls starts (.ok sol))
    (hr' : ProductionReturns g' calls' starts' (.ok sol')) :
    ∃ m, P.backward.Carries (negCells w) P.backward.cycleInflow m ∧
      ∀ v < P.n, |valueAt (sol'.concentration w.id) (σ v) - valueAt (sol.concentration w.id) v| ≤ 1 / 1000000000 * m v := by
  have hren := SameFlow.backward hsame
  have D := diag_production hP h hr
  have hv : P.backward.Valid := by obtain ⟨d, st, h1, _⟩ := D.solved; exact h1.valid
  obtain ⟨w', hw', e, he⟩ := SameFlow.well hsame hw
  obtain ⟨x, m, hx, hm, hd⟩ := C76_production hP h hself hr hw hs
  obtain ⟨x', m', hx', hm', hd'⟩ := C76_production hQ h' (noLoop_renumber (SameFlow.forward hsame) hself) hr' hw' (by
    rw [e]; exact (sameSets_ids hsets _).mpr hs)
  have hcs : ∀ v < P.n, σ v ∈ negCells w' ↔ v ∈ negCells w := fun v hv => by rw [mem_negCells, mem_negCells, he v hv]
  have hp : ∀ p ∈ negCells w, p < P.backward.n ∧ 0 < P.backward.src p := fun p hp =>
    ⟨D.side.range w hw p hp, lt_of_lt_of_le (D.side.pos w hw p hp) (D.le_src hw hp)⟩
  have hp' : ∀ p ∈ negCells w', p < P.backward.n := fun p hp => by
    have := hQ.cells_range w' hw' p (List.mem_filter.mp hp).1
    rwa [hsame.size] at this
  have ex := carried_eq hv hren hcs hp hp' (q := fun v => max (-Problem.wellAt w v) 0)
    (q' := fun v => max (-Problem.wellAt w' v) 0) (fun v hv => by rw [he v hv]) hx hx'
  have em := carried_eq hv hren hcs hp hp' (fun v hv => cycleInflow_renumber hren hv) hm hm'
  refine ⟨m, hm, fun v hv => ?_⟩
  obtain ⟨a, b⟩ := hd v hv
  obtain ⟨a', b'⟩ := hd' (σ v) (by rw [hsame.size]; exact hsame.cells v hv)
  rw [e, ex v hv] at a' b'
  rw [em v hv] at b'
  exact abs_le.mpr ⟨by linarith, by linarith⟩

end
end cyclic

/-! ### Doubles -/

section double
variable {P Q : Problem ℚ} (hP : P.Valid) (hQ : Q.Valid) {M : Nat} (hO : P.OfOrdinarySize M) (hO' : Q.OfOrdinarySize M)
  {σ : Nat → Nat} (hsame : P.SameFlow σ Q) (hself : ∀ v < P.n, ¬ P.forward.Loop v)
  {g g' : ConnectivityGraph} {calls calls' : List (Call Double)} (h : P.StoredIn g calls) (h' : Q.StoredIn g' calls')
  {starts starts' : List CellSet} {sol sol' : Solution Double}
include hP hQ hO hO' hsame hself h h'

/-- **C91** (doubles, any cycles) The concentrations of an injector in two numberings differ by at most twice the error bounded
    in C80. -/
theorem C91_injection_double (htotal : ∀ v < P.n, P.forward.total v ≤ 2 ^ 100) (hsets : SameSets σ starts starts')
    (hr : InjectionReturns g calls starts (.ok sol)) (hr' : InjectionReturns g' calls' starts' (.ok sol'))
    {w : WellFlux ℚ} (hw : w ∈ P.wells) (hs : ∃ s ∈ starts, s.id = w.id) :
    ∃ m t, P.forward.Carries (posCells w) P.forward.cycleInflow m ∧ P.forward.Carries (posCells w) P.forward.total t ∧
      ∀ v < P.n, |doubleAt (sol'.concentration w.id) (σ v) - doubleAt (sol.concentration w.id) v|
        ≤ 2 * (1 / 1000000000 * m v + ((4 * M + 6 : Nat) : ℚ) / 2 ^ 51 * t v) := by
  have hren := SameFlow.forward hsame
  have N := nearly_injection hP hO htotal h hr
  have htotal' : ∀ v < Q.n, Q.forward.total v ≤ 2 ^ 100 := fun v hv => by
    obtain ⟨x, hx, rfl⟩ := surj hren v (by rw [hsame.size] at hv; exact hv)
    rw [total_renumber hren hx]; exact htotal x hx
  obtain ⟨w', hw', e, he⟩ := SameFlow.well hsame hw
  obtain ⟨x, m, t, hx, hm, ht, hd⟩ := C80_injection hP hO htotal hself h hr hw hs
  obtain ⟨x', m', t', hx', hm', ht', hd'⟩ := C80_injection hQ hO' htotal' (noLoop_renumber hren hself) h' hr' hw' (by
    rw [e]; exact (sameSets_ids hsets _).mpr hs)
  have hcs : ∀ v < P.n, σ v ∈ posCells w' ↔ v ∈ posCells w := fun v hv => by rw [mem_posCells, mem_posCells, he v hv]
  have hp := N.sources hw
  have hp' : ∀ p ∈ posCells w', p < P.forward.n := fun p hp => by
    have := hQ.cells_range w' hw' p (List.mem_filter.mp hp).1
    rwa [hsame.size] at this
  have ex := carried_eq N.valid hren hcs hp hp' (q := fun v => max (Problem.wellAt w v) 0)
    (q' := fun v => max (Problem.wellAt w' v) 0) (fun v hv => by rw [he v hv]) hx hx'
  have em := carried_eq N.valid hren hcs hp hp' (fun v hv => cycleInflow_renumber hren hv) hm hm'
  have et := carried_eq N.valid hren hcs hp hp' (fun v hv => total_renumber hren hv) ht ht'
  refine ⟨m, t, hm, ht, fun v hv => ?_⟩
  have a := abs_le.mp (hd v hv)
  have a' := abs_le.mp (hd' (σ v) (by rw [hsame.size]; exact hsame.cells v hv))
  rw [e, ex v hv, em v hv, et v hv] at a'
  exact abs_le.mpr ⟨by linarith, by linarith⟩

/-- **C91** The same for a producer, in the reversed flow. -/
theorem C91_production_double (htotal : ∀ v < P.n, P.backward.total v ≤ 2 ^ 100) (hsets : SameSets σ starts starts')
    (hr : ProductionReturns g calls starts (.ok sol)) (hr' : ProductionReturns g' calls' starts' (.ok sol'))
    {w : WellFlux ℚ} (hw : w ∈ P.wells) (hs : ∃ s ∈ starts, s.id = w.id) :
    ∃ m t, P.backward.Carries (negCells w) P.backward.cycleInflow m ∧ P.backward.Carries (negCells w) P.backward.total t ∧
      ∀ v < P.n, |doubleAt (sol'.concentration w.id) (σ v) - doubleAt (sol.concentration w.id) v|
        ≤ 2 * (1 / 1000000000 * m v + ((4 * M + 6 : Nat) : ℚ) / 2 ^ 51 * t v) := by
  have hren := SameFlow.backward hsame
  have N := nearly_production hP hO htotal h hr
  have htotal' : ∀ v < Q.n, Q.backward.total v ≤ 2 ^ 100 := fun v hv => by
    obtain ⟨x, hx, rfl⟩ := surj hren v (by rw [hsame.size] at hv; exact hv)
    rw [total_renumber hren hx]; exact htotal x hx
  obtain ⟨w', hw', e, he⟩ := SameFlow.well hsame hw
  obtain ⟨x, m, t, hx, hm, ht, hd⟩ := C80_production hP hO htotal hself h hr hw hs
  obtain ⟨x', m', t', hx', hm', ht', hd'⟩ := C80_production hQ hO' htotal'
    (noLoop_renumber (SameFlow.forward hsame) hself) h' hr' hw' (by rw [e]; exact (sameSets_ids hsets _).mpr hs)
  have hcs : ∀ v < P.n, σ v ∈ negCells w' ↔ v ∈ negCells w := fun v hv => by rw [mem_negCells, mem_negCells, he v hv]
  have hp := N.sources hw
  have hp' : ∀ p ∈ negCells w', p < P.backward.n := fun p hp => by
    have := hQ.cells_range w' hw' p (List.mem_filter.mp hp).1
    rwa [hsame.size] at this
  have ex := carried_eq N.valid hren hcs hp hp' (q := fun v => max (-Problem.wellAt w v) 0)
    (q' := fun v => max (-Problem.wellAt w' v) 0) (fun v hv => by rw [he v hv]) hx hx'
  have em := carried_eq N.valid hren hcs hp hp' (fun v hv => cycleInflow_renumber hren hv) hm hm'
  have et := carried_eq N.valid hren hcs hp hp' (fun v hv => total_renumber hren hv) ht ht'
  refine ⟨m, t, hm, ht, fun v hv => ?_⟩
  have a := abs_le.mp (hd v hv)
  have a' := abs_le.mp (hd' (σ v) (by rw [hsame.size]; exact hsame.cells v hv))
  rw [e, ex v hv, em v hv, et v hv] at a'
  exact abs_le.mpr ⟨by linarith, by linarith⟩

/-- **C91** (doubles, any cycles) Global times of flight in two numberings differ by at most twice the error bounded in C82, in
    the cells for which it is bounded there. -/
theorem C91_injection_times (htotal : ∀ v < P.n, P.forward.total v ≤ 2 ^ 100)
    (hr : InjectionReturns g calls starts (.ok sol)) (hr' : InjectionReturns g' calls' starts' (.ok sol')) :
    ∃ m t p k, P.forward.Carries ((List.range P.n).filter fun p => decide (0 < P.source p)) P.forward.cycleInflow m ∧
      P.forward.Carries ((List.range P.n).filter fun p => decide (0 < P.source p)) P.forward.total t ∧
      P.forward.Carries ((List.range P.n).filter fun p => decide (0 < P.source p)) (fun v => P.pv v * m v) p ∧
      P.forward.Carries ((List.range P.n).filter fun p => decide (0 < P.source p)) (fun v => P.pv v * t v) k ∧
      ∀ a < 200 * 365 * 24 * 60 * 60, ∀ v < P.n,
        (∀ u, P.forward.Reach u v → (∃ p < P.n, 0 < P.source p ∧ P.forward.Reach p u) ∧
          doubleIn sol.tof u ≤ a ∧ doubleIn sol'.tof (σ u) ≤ a ∧
          1 / 1000000000 * m u + ((4 * M + 6 : Nat) : ℚ) / 2 ^ 51 * t u ≤ 1 / 2) →
        |doubleIn sol'.tof (σ v) - doubleIn sol.tof v| ≤ 2 * (1 / 1000000000 * p v
          + (2 * a / 1000000000 + 200 * 365 * 24 * 60 * 60 / 1000000000000) * m v
          + ((4 * M + 8 : Nat) : ℚ) / 2 ^ 51 * (k v + (2 * a + 1) * t v)) := by
  have hren := SameFlow.forward hsame
  have hfwd := SameFlow.forward hsame
  have N := nearly_injection hP hO htotal h hr
  have htotal' : ∀ v < Q.n, Q.forward.total v ≤ 2 ^ 100 := fun v hv => by
    obtain ⟨x, hx, rfl⟩ := surj hren v (by rw [hsame.size] at hv; exact hv)
    rw [total_renumber hren hx]; exact htotal x hx
  obtain ⟨m, t, q, p, k, hm, ht, hq, hp, hk, hd⟩ := C82_injection hP hO htotal hself h hr
  obtain ⟨m', t', q', p', k', hm', ht', hq', hp', hk', hd'⟩ := C82_injection hQ hO' htotal' (noLoop_renumber hfwd hself) h' hr'
  have hcs : ∀ v < P.forward.n, σ v ∈ ((List.range Q.n).filter fun p => decide (0 < Q.source p)) ↔
      v ∈ ((List.range P.n).filter fun p => decide (0 < P.source p)) := sourceCells_renumber hren
  have hin : ∀ p ∈ ((List.range P.n).filter fun p => decide (0 < P.source p)), p < P.forward.n ∧ 0 < P.forward.src p :=
    fun p hp => by
      have hp : p < P.n ∧ 0 < P.source p := by simpa using hp
      exact hp
  have hin' : ∀ p ∈ ((List.range Q.n).filter fun p => decide (0 < Q.source p)), p < P.forward.n := fun p hp => by
    have := (List.mem_filter.mp hp).1
    rw [hsame.size] at this
    exact List.mem_range.mp this
  have em := carried_eq N.valid hren hcs hin hin' (fun v hv => cycleInflow_renumber hren hv) hm hm'
  have et := carried_eq N.valid hren hcs hin hin' (fun v hv => total_renumber hren hv) ht ht'
  have eq := carried_eq N.valid hren hcs hin hin' (fun v hv => hsame.pv v hv) hq hq'
  have ep := carried_eq N.valid hren hcs hin hin' (q := fun v => P.pv v * m v) (q' := fun v => Q.pv v * m' v)
    (fun v hv => by rw [hsame.pv v hv, em v hv]) hp hp'
  have ek := carried_eq N.valid hren hcs hin hin' (q := fun v => P.pv v * t v) (q' := fun v => Q.pv v * t' v)
    (fun v hv => by rw [hsame.pv v hv, et v hv]) hk hk'
  refine ⟨m, t, p, k, hm, ht, hp, hk, fun a ha v hv hu => ?_⟩
  have b := abs_le.mp (hd a ha v hv fun u hr => ⟨(hu u hr).1, (hu u hr).2.1, (hu u hr).2.2.2⟩)
  have b' := abs_le.mp (hd' a ha (σ v) (by rw [hsame.size]; exact hsame.cells v hv) fun y hr => by
    have hy : y < P.n := by
      have := reach_below hr (by show σ v < Q.n; rw [hsame.size]; exact hsame.cells v hv)
      rwa [← hsame.size]
    obtain ⟨u, hun, rfl⟩ := surj hfwd y hy
    have hru : P.forward.Reach u v := (reach_renumber hfwd hun hv).mp hr
    obtain ⟨⟨s, hs, hsrc, hrs⟩, c2, c3, c4⟩ := hu u hru
    refine ⟨⟨σ s, by rw [hsame.size]; exact hsame.cells s hs, by rw [(SameFlow.source hsame hs).1]; exact hsrc,
      (reach_renumber hfwd hs hun).mpr hrs⟩, c3, ?_⟩
    rw [em u hun, et u hun]; exact c4)
  rw [em v hv, et v hv, eq v hv, ep v hv, ek v hv] at b'
  exact abs_le.mpr ⟨by linarith, by linarith⟩

/-- **C91** The same for production. -/
theorem C91_production_times (htotal : ∀ v < P.n, P.backward.total v ≤ 2 ^ 100)
    (hr : ProductionReturns g calls starts (.ok sol)) (hr' : ProductionReturns g' calls' starts' (.ok sol')) :
    ∃ m t p k, P.backward.Carries ((List.range P.n).filter fun p => decide (0 < P.sink p)) P.backward.cycleInflow m ∧
      P.backward.Carries ((List.range P.n).filter fun p => decide (0 < P.sink p)) P.backward.total t ∧
      P.backward.Carries ((List.range P.n).filter fun p => decide (0 < P.sink p)) (fun v => P.pv v * m v) p ∧
      P.backward.Carries ((List.range P.n).filter fun p => decide (0 < P.sink p)) (fun v => P.pv v * t v) k ∧
      ∀ a < 200 * 365 * 24 * 60 * 60, ∀ v < P.n,
        (∀ u, P.forward.Reach v u → (∃ p < P.n, 0 < P.sink p ∧ P.forward.Reach u p) ∧
          doubleIn sol.tof u ≤ a ∧ doubleIn sol'.tof (σ u) ≤ a ∧
          1 / 1000000000 * m u + ((4 * M + 6 : Nat) : ℚ) / 2 ^ 51 * t u ≤ 1 / 2) →
        |doubleIn sol'.tof (σ v) - doubleIn sol.tof v| ≤ 2 * (1 / 1000000000 * p v
          + (2 * a / 1000000000 + 200 * 365 * 24 * 60 * 60 / 1000000000000) * m v
          + ((4 * M + 8 : Nat) : ℚ) / 2 ^ 51 * (k v + (2 * a + 1) * t v)) := by
  have hren := SameFlow.backward hsame
  have hfwd := SameFlow.forward hsame
  have N := nearly_production hP hO htotal h hr
  have htotal' : ∀ v < Q.n, Q.backward.total v ≤ 2 ^ 100 := fun v hv => by
    obtain ⟨x, hx, rfl⟩ := surj hren v (by rw [hsame.size] at hv; exact hv)
    rw [total_renumber hren hx]; exact htotal x hx
  obtain ⟨m, t, q, p, k, hm, ht, hq, hp, hk, hd⟩ := C82_production hP hO htotal hself h hr
  obtain ⟨m', t', q', p', k', hm', ht', hq', hp', hk', hd'⟩ := C82_production hQ hO' htotal' (noLoop_renumber hfwd hself) h' hr'
  have hcs : ∀ v < P.backward.n, σ v ∈ ((List.range Q.n).filter fun p => decide (0 < Q.sink p)) ↔
      v ∈ ((List.range P.n).filter fun p => decide (0 < P.sink p)) := sourceCells_renumber hren
  have hin : ∀ p ∈ ((List.range P.n).filter fun p => decide (0 < P.sink p)), p < P.backward.n ∧ 0 < P.backward.src p :=
    fun p hp => by
      have hp : p < P.n ∧ 0 < P.sink p := by simpa using hp
      exact hp
  have hin' : ∀ p ∈ ((List.range Q.n).filter fun p => decide (0 < Q.sink p)), p < P.backward.n := fun p hp => by
    have := (List.mem_filter.mp hp).1
    rw [hsame.size] at this
    exact List.mem_range.mp this
  have em := carried_eq N.valid hren hcs hin hin' (fun v hv => cycleInflow_renumber hren hv) hm hm'
  have et := carried_eq N.valid hren hcs hin hin' (fun v hv => total_renumber hren hv) ht ht'
  have eq := carried_eq N.valid hren hcs hin hin' (fun v hv => hsame.pv v hv) hq hq'
  have ep := carried_eq N.valid hren hcs hin hin' (q := fun v => P.pv v * m v) (q' := fun v => Q.pv v * m' v)
    (fun v hv => by rw [hsame.pv v hv, em v hv]) hp hp'
  have ek := carried_eq N.valid hren hcs hin hin' (q := fun v => P.pv v * t v) (q' := fun v => Q.pv v * t' v)
    (fun v hv => by rw [hsame.pv v hv, et v hv]) hk hk'
  refine ⟨m, t, p, k, hm, ht, hp, hk, fun a ha v hv hu => ?_⟩
  have b := abs_le.mp (hd a ha v hv fun u hr => ⟨(hu u hr).1, (hu u hr).2.1, (hu u hr).2.2.2⟩)
  have b' := abs_le.mp (hd' a ha (σ v) (by rw [hsame.size]; exact hsame.cells v hv) fun y hr => by
    have hy : y < P.n := by
      have := reach_lt (F := Q.forward) (by show σ v < Q.n; rw [hsame.size]; exact hsame.cells v hv) hr
      rwa [← hsame.size]
    obtain ⟨u, hun, rfl⟩ := surj hfwd y hy
    have hru : P.forward.Reach v u := (reach_renumber hfwd hv hun).mp hr
    obtain ⟨⟨s, hs, hsrc, hrs⟩, c2, c3, c4⟩ := hu u hru
    refine ⟨⟨σ s, by rw [hsame.size]; exact hsame.cells s hs, by rw [(SameFlow.source hsame hs).2]; exact hsrc,
      (reach_renumber hfwd hun hs).mpr hrs⟩, c3, ?_⟩
    rw [em u hun, et u hun]; exact c4)
  rw [em v hv, et v hv, eq v hv, ep v hv, ek v hv] at b'
  exact abs_le.mpr ⟨by linarith, by linarith⟩

end double

/-! ### Any permutation of the cells gives such a problem -/

section permutation
variable {K : Type} [Field K] [LinearOrder K] {P : Problem K} {σ : Equiv.Perm Nat}

theorem permuted_mem {l : List Nat} {v : Nat} : σ v ∈ (l.map σ).insertionSort (· ≤ ·) ↔ v ∈ l := by
  rw [List.mem_insertionSort, List.mem_map]
  exact ⟨fun ⟨u, hu, e⟩ => σ.injective e ▸ hu, fun h => ⟨v, h, rfl⟩⟩

/-- **C91** The problem in which cell `v` has the number `σ v` is valid and describes the same flow. -/
theorem C91_permutation (hP : P.Valid) (hσ : ∀ v < P.n, σ v < P.n) :
    (P.renumbered σ).Valid ∧ P.SameFlow σ (P.renumbered σ) := by
  constructor
  · refine ⟨hP.int, hP.pos, ?_, ?_, ?_, ?_, ?_, ?_⟩
    · simpa [Problem.renumbered] using hP.some_connection
    · intro e he
      obtain ⟨x, hx, rfl⟩ := List.mem_map.mp he
      exact ⟨hσ _ (hP.range x hx).1, hσ _ (hP.range x hx).2⟩
    · intro v hv
      obtain ⟨u, hu, e⟩ := Finset.surj_on_of_inj_on_of_card_le (s := range P.n) (t := range P.n) (fun v _ => σ v)
        (fun v hv => mem_range.mpr (hσ v (mem_range.mp hv))) (fun _ _ _ _ e => σ.injective e) (le_refl _) v (mem_range.mpr hv)
      show 0 ≤ P.pv (σ.symm v)
      rw [e, Equiv.symm_apply_apply]
      exact hP.pv u (mem_range.mp hu)
    · exact List.pairwise_map.mpr hP.wells_sorted
    · intro w hw
      obtain ⟨x, hx, rfl⟩ := List.mem_map.mp hw
      have hn : ((x.cells.map σ).insertionSort (· ≤ ·)).Nodup :=
        (List.perm_insertionSort _ _).nodup_iff.mpr
          (List.Nodup.map σ.injective ((hP.cells_sorted x hx).imp fun h => ne_of_lt h))
      exact ((List.pairwise_insertionSort (· ≤ ·) (x.cells.map σ)).and hn).imp fun h => lt_of_le_of_ne h.1 h.2
    · intro w hw v hv
      obtain ⟨x, hx, rfl⟩ := List.mem_map.mp hw
      obtain ⟨u, hu, rfl⟩ := List.mem_map.mp ((List.mem_insertionSort _).mp hv)
      exact hσ u (hP.cells_range x hx u hu)
  · refine ⟨rfl, hσ, fun _ _ _ _ e => σ.injective e, ?_, ?_, ?_⟩
    · intro u _ v _
      unfold Problem.flux
      refine sum_congr (by simp [Problem.renumbered]) fun c _ => ?_
      have hc : ∀ a b, (P.renumbered σ).conns[c]? = some (σ a, σ b) ↔ P.conns[c]? = some (a, b) := by
        intro a b
        show (P.conns.map fun e => (σ e.1, σ e.2))[c]? = _ ↔ _
        rw [List.getElem?_map]
        cases P.conns[c]? with
        | none => simp
        | some e => simp [Prod.ext_iff]
      unfold Problem.carried
      simp only [hc]
      rfl
    · intro v _
      show P.pv (σ.symm (σ v)) = P.pv v
      rw [Equiv.symm_apply_apply]
    · show List.Forall₂ _ P.wells (P.wells.map _)
      rw [List.forall₂_map_right_iff, List.forall₂_same]
      intro w _
      refine ⟨rfl, fun v _ => ?_⟩
      unfold Problem.wellAt
      simp only [permuted_mem, Equiv.symm_apply_apply]

end permutation

/-! ### Cases: cells 0 and 1 exchange their numbers -/

/-- Cells 0 and 1 exchange their numbers. -/
def exSwap : Equiv.Perm Nat := Equiv.swap 0 1

theorem exSwap_lt {n : Nat} (hn : 2 ≤ n) : ∀ v < n, exSwap v < n := by
  intro v hv
  unfold exSwap
  rcases Nat.lt_or_ge v 2 with h | h
  · interval_cases v <;> simp <;> omega
  · rw [Equiv.swap_apply_of_ne_of_ne (by omega) (by omega)]; exact hv

theorem exSwap_sets {i : CellSetID} {a b : Nat} (h : exSwap a = b) {l l' : List CellSet} (hl : SameSets exSwap l l') :
    SameSets exSwap (CellSet.ofCells i [a] :: l) (CellSet.ofCells i [b] :: l') := by
  refine .cons ⟨rfl, fun c => ?_⟩ hl
  simp [CellSet.ofCells, CellSet.cells, setInsert, h]

/-- C91, exact arithmetic: the example and the example with the numbers of cells 0 and 1 exchanged, with requests that return
    for both. -/
example : ∃ (g g' : ConnectivityGraph) (calls calls' : List (Call (X ℚ))) (istarts pstarts : List CellSet) (S T S' T' : Solution (X ℚ)),
    (exProblem.renumbered exSwap).Valid ∧ exProblem.SameFlow exSwap (exProblem.renumbered exSwap) ∧
    exProblem.GivenTo g calls ∧ (exProblem.renumbered exSwap).GivenTo g' calls' ∧ exProblem.forward.Acyclic ∧
    SameSets exSwap exInjectors istarts ∧ SameSets exSwap exProducers pstarts ∧
    InjectionReturns g calls exInjectors (.ok S) ∧ ProductionReturns g calls exProducers (.ok T) ∧
    InjectionReturns g' calls' istarts (.ok S') ∧ ProductionReturns g' calls' pstarts (.ok T') := by
  obtain ⟨hQ, hsame⟩ := C91_permutation (σ := exSwap) exProblem_valid (exSwap_lt (by decide))
  obtain ⟨g, calls, h⟩ := exProblem_given
  obtain ⟨g', calls', h'⟩ := exists_given hQ (by decide)
  obtain ⟨S, hS⟩ := (C40_valid_problem exProblem_valid h _).1 exInjectors_accepted
  obtain ⟨T, hT⟩ := (C40_valid_problem exProblem_valid h _).2.2.1 exProducers_accepted
  have hi : SameSets exSwap exInjectors [CellSet.ofCells ⟨[66]⟩ [1], CellSet.ofCells ⟨[65]⟩ []] :=
    exSwap_sets (by decide) (.cons ⟨rfl, fun c => by simp [CellSet.ofCells, CellSet.cells]⟩ .nil)
  have hp : SameSets exSwap exProducers [CellSet.ofCells ⟨[80]⟩ [3]] := exSwap_sets (by decide) .nil
  obtain ⟨S', hS', _⟩ := C91_injection exProblem_valid hQ hsame h h' exProblem_acyclic hi hS
  obtain ⟨T', hT', _⟩ := C91_production exProblem_valid hQ hsame h h' exProblem_acyclic hp hT
  exact ⟨g, g', calls, calls', _, _, S, T, S', T', hQ, hsame, h, h', exProblem_acyclic, hi, hp, hS, hT, hS', hT'⟩

/-- The flow with a cycle, the numbers of cells 0 and 1 exchanged, in `double`s. -/
def whirlGraph' : ConnectivityGraph := ⟨4, [1, 0, 0, 2, 2, 3, 3, 0]⟩

def whirlCalls' : List (Call Double) :=
  [.assignPoreVolume [Arith.lit 1, Arith.lit 1, Arith.lit 1, Arith.lit 1],
   .assignConnectionFlux ⟨4, 1, [Arith.lit 2, Arith.lit 3, Arith.lit 3, Arith.lit 1]⟩,
   .assignInflowFlux [(⟨[65]⟩, [(1, Arith.lit 2)]), (⟨[80]⟩, [(3, Arith.lit (-2))])]]

theorem whirl_same : (exWhirl.renumbered exSwap).Valid ∧ exWhirl.SameFlow exSwap (exWhirl.renumbered exSwap) :=
  C91_permutation exWhirl_valid (exSwap_lt (by decide))

theorem whirl_stored' : (exWhirl.renumbered exSwap).StoredIn whirlGraph' whirlCalls' where
  graph := {
    cells := rfl
    count := rfl
    connection := by
      intro i hi
      have hi : i < 4 := hi
      interval_cases i <;> rfl }
  pv := ⟨_, rfl, by decide +kernel⟩
  flux := by
    refine ⟨1, fun c _ => if c = 0 then Arith.lit 2 else if c = 3 then Arith.lit 1 else Arith.lit 3, ⟨_, rfl, rfl, rfl, ?_⟩, ?_⟩
    · intro c hc p hp
      have hp : p = 0 := by omega
      subst hp
      have hc : c < 4 := hc
      interval_cases c <;> rfl
    · intro c hc
      have hc : c < 4 := hc
      show _ = X.fin (exWhirl.net c)
      rw [whirl_net]
      interval_cases c <;> decide +kernel
  inflow := by decide +kernel

theorem whirl_ordinary' : (exWhirl.renumbered exSwap).OfOrdinarySize 4 where
  flux c hc := whirl_ordinary.flux c (by simpa [Problem.renumbered] using hc)
  well w hw v hv := by
    obtain ⟨x, hx, rfl⟩ := List.mem_map.mp hw
    obtain ⟨u, hu, rfl⟩ := List.mem_map.mp ((List.mem_insertionSort _).mp hv)
    show Ordinary (x.val (exSwap.symm (exSwap u)))
    rw [Equiv.symm_apply_apply]
    exact whirl_ordinary.well x hx u hu
  pv v hv := by
    right
    show (_ : ℚ) ≤ |1| ∧ |(1 : ℚ)| ≤ _
    norm_num
  degree v := (List.length_filter_le _ _).trans (by decide)
  wells v := (List.length_filter_le _ _).trans (by decide)
  bound := by norm_num

def shortTimes (r : Res (Solution Double)) : Bool := match r with
  | .ok s => (List.range 4).all fun v => decide (doubleIn s.tof v ≤ 10)
  | _ => false

theorem short_times {r : Res (Solution Double)} (h : shortTimes r = true) : ∃ s, r = .ok s ∧ ∀ v < 4, doubleIn s.tof v ≤ 10 := by
  unfold shortTimes at h
  split at h
  · exact ⟨_, rfl, fun v hv => by simpa using List.all_eq_true.mp h v (List.mem_range.mpr hv)⟩
  · cases h

set_option maxRecDepth 100000 in
theorem whirl_injection : ∃ S, InjectionReturns whirlGraph whirlCalls [CellSet.ofCells ⟨[65]⟩ [0]] (.ok S) ∧
    ∀ v < 4, doubleIn S.tof v ≤ 10 := by
  obtain ⟨S, hS, key⟩ := short_times
    (show shortTimes (injectionOutcome whirlGraph whirlCalls noFailure 100 [CellSet.ofCells ⟨[65]⟩ [0]]) = true by decide +kernel)
  exact ⟨S, (Fuel.injection_returns.mpr ⟨100, hS, by simp⟩).1, key⟩

set_option maxRecDepth 100000 in
theorem whirl_injection' : ∃ S, InjectionReturns whirlGraph' whirlCalls' [CellSet.ofCells ⟨[65]⟩ [1]] (.ok S) ∧
    ∀ v < 4, doubleIn S.tof v ≤ 10 := by
  obtain ⟨S, hS, key⟩ := short_times
    (show shortTimes (injectionOutcome whirlGraph' whirlCalls' noFailure 100 [CellSet.ofCells ⟨[65]⟩ [1]]) = true by decide +kernel)
  exact ⟨S, (Fuel.injection_returns.mpr ⟨100, hS, by simp⟩).1, key⟩

set_option maxRecDepth 100000 in
theorem whirl_production : (∃ T, ProductionReturns whirlGraph whirlCalls [CellSet.ofCells ⟨[80]⟩ [3]] (.ok T)) ∧
    ∃ T, ProductionReturns whirlGraph' whirlCalls' [CellSet.ofCells ⟨[80]⟩ [3]] (.ok T) := by
  obtain ⟨T, h2⟩ := isOk_spec
    (show isOk (productionOutcome whirlGraph whirlCalls noFailure 100 [CellSet.ofCells ⟨[80]⟩ [3]]) = true by decide +kernel)
  obtain ⟨T', h2'⟩ := isOk_spec
    (show isOk (productionOutcome whirlGraph' whirlCalls' noFailure 100 [CellSet.ofCells ⟨[80]⟩ [3]]) = true by decide +kernel)
  exact ⟨⟨T, (Fuel.production_returns.mpr ⟨100, h2, by simp⟩).1⟩, T', (Fuel.production_returns.mpr ⟨100, h2', by simp⟩).1⟩

theorem whirl_noLoop : ∀ v < exWhirl.n, ¬ exWhirl.forward.Loop v := by
  intro v hv hl
  refine hl.1 ?_
  change v < 4 at hv
  interval_cases v <;> simp [Problem.forward, Problem.flux, Problem.carried, exWhirl, sum_range_succ]

/-- C91, exact arithmetic, flow with a cycle: requests for the injector and for the producer return in both numberings. -/
example : ∃ (g g' : ConnectivityGraph) (calls calls' : List (Call (X ℚ))) (S T S' T' : Solution (X ℚ)),
    exWhirl.GivenTo g calls ∧ (exWhirl.renumbered exSwap).GivenTo g' calls' ∧
    InjectionReturns g calls [CellSet.ofCells ⟨[65]⟩ [0]] (.ok S) ∧ ProductionReturns g calls [CellSet.ofCells ⟨[80]⟩ [3]] (.ok T) ∧
    InjectionReturns g' calls' [CellSet.ofCells ⟨[65]⟩ [1]] (.ok S') ∧
    ProductionReturns g' calls' [CellSet.ofCells ⟨[80]⟩ [3]] (.ok T') := by
  obtain ⟨hQ, hsame⟩ := whirl_same
  obtain ⟨g, calls, h⟩ := exists_given exWhirl_valid (by decide)
  obtain ⟨g', calls', h'⟩ := exists_given hQ (by decide)
  have hi : InjectionAccepts exWhirl.inflowMap [CellSet.ofCells ⟨[65]⟩ [0]] := by
    have h2 : (Arith.lt Arith.zero (X.fin (2 : ℚ))) = true := by rw [X_zero, X_lt]; simp
    intro s hs
    simp only [List.mem_cons, List.not_mem_nil, or_false] at hs
    subst hs
    refine ⟨⟨_, .head _, rfl, _, .head _, h2⟩, ?_⟩
    intro c hc
    have : c = 0 := by simpa [CellSet.ofCells, CellSet.cells, setInsert] using hc
    subst this
    exact ⟨_, .head _, _, .head _, rfl, h2⟩
  have hp : ProductionAccepts exWhirl.inflowMap [CellSet.ofCells ⟨[80]⟩ [3]] := by
    have h2 : IsNegative (X.fin (-2 : ℚ)) := by
      unfold IsNegative; rw [X_zero, X_lt, X_lt]; simp
    intro s hs
    simp only [List.mem_cons, List.not_mem_nil, or_false] at hs
    subst hs
    refine ⟨⟨_, .tail _ (.head _), rfl, _, .head _, h2⟩, ?_⟩
    intro c hc
    have : c = 3 := by simpa [CellSet.ofCells, CellSet.cells, setInsert] using hc
    subst this
    exact ⟨_, .tail _ (.head _), _, .head _, rfl, h2⟩
  have si : SameSets exSwap [CellSet.ofCells ⟨[65]⟩ [0]] [CellSet.ofCells ⟨[65]⟩ [1]] := exSwap_sets (by decide) .nil
  have sp : SameSets exSwap [CellSet.ofCells ⟨[80]⟩ [3]] [CellSet.ofCells ⟨[80]⟩ [3]] := exSwap_sets (by decide) .nil
  obtain ⟨S, hS⟩ := (C40_valid_problem exWhirl_valid h _).1 hi
  obtain ⟨T, hT⟩ := (C40_valid_problem exWhirl_valid h _).2.2.1 hp
  obtain ⟨S', hS'⟩ := (C40_valid_problem hQ h' _).1 ((SameFlow.accepts exWhirl_valid hsame si).1 hi)
  obtain ⟨T', hT'⟩ := (C40_valid_problem hQ h' _).2.2.1 ((SameFlow.accepts exWhirl_valid hsame sp).2 hp)
  exact ⟨g, g', calls, calls', S, T, S', T', h, h', hS, hT, hS', hT'⟩

/-- C91, doubles: the flow with a cycle, in both numberings: requests return, and the condition on times holds in every cell,
    with `a` ten seconds. -/
example : ∃ S T S' T', InjectionReturns whirlGraph whirlCalls [CellSet.ofCells ⟨[65]⟩ [0]] (.ok S) ∧
    ProductionReturns whirlGraph whirlCalls [CellSet.ofCells ⟨[80]⟩ [3]] (.ok T) ∧
    InjectionReturns whirlGraph' whirlCalls' [CellSet.ofCells ⟨[65]⟩ [1]] (.ok S') ∧
    ProductionReturns whirlGraph' whirlCalls' [CellSet.ofCells ⟨[80]⟩ [3]] (.ok T') ∧
    SameSets exSwap [CellSet.ofCells ⟨[65]⟩ [0]] [CellSet.ofCells ⟨[65]⟩ [1]] ∧
    SameSets exSwap [CellSet.ofCells ⟨[80]⟩ [3]] [CellSet.ofCells ⟨[80]⟩ [3]] ∧
    (∀ v < exWhirl.n, ¬ exWhirl.forward.Loop v) ∧
    ∀ m t, exWhirl.forward.Carries ((List.range exWhirl.n).filter fun p => decide (0 < exWhirl.source p)) exWhirl.forward.cycleInflow m →
      exWhirl.forward.Carries ((List.range exWhirl.n).filter fun p => decide (0 < exWhirl.source p)) exWhirl.forward.total t →
      ∀ v < exWhirl.n, ∀ u, exWhirl.forward.Reach u v → (∃ p < exWhirl.n, 0 < exWhirl.source p ∧ exWhirl.forward.Reach p u) ∧
        doubleIn S.tof u ≤ 10 ∧ doubleIn S'.tof (exSwap u) ≤ 10 ∧
        1 / 1000000000 * m u + ((4 * 4 + 6 : Nat) : ℚ) / 2 ^ 51 * t u ≤ 1 / 2 := by
  obtain ⟨S, hS, key⟩ := whirl_injection
  obtain ⟨S', hS', key'⟩ := whirl_injection'
  obtain ⟨⟨T, hT⟩, ⟨T', hT'⟩⟩ := whirl_production
  refine ⟨S, T, S', T', hS, hT, hS', hT',
    exSwap_sets (by decide) .nil, exSwap_sets (by decide) .nil, whirl_noLoop, ?_⟩
  intro m t hm ht v hv u hr
  have hu : u < 4 := by
    rcases Relation.ReflTransGen.cases_head hr with rfl | ⟨y, he, _⟩
    · exact hv
    · exact he.1
  exact ⟨⟨0, by decide, whirl_source, whirl_reached u hu⟩, key u hu, key' _ (exSwap_lt (by decide) u hu), whirl_fields hm ht u hu⟩

end Verif.Props
