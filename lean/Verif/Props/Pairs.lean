/-
C49 to C51: volumes and fluxes of injector-producer pairs.
-/
import Verif.Props.ToolboxFlow
import Verif.Spec.Derived

namespace Verif.Props
open Verif.Spec Verif.Toolbox Verif.Solver Verif.Derived Finset

section exact
variable {K : Type} [Field K] [LinearOrder K]

/-- Sum over a list of cells. -/
theorem sum_cells {n : Nat} {cells : List Nat} (hs : cells.Pairwise (· < ·)) (hr : ∀ v ∈ cells, v < n) (q : Nat → K) :
    (cells.map q).sum = ∑ v ∈ range n, if v ∈ cells then q v else 0 := by
  have hnd : cells.Nodup := hs.imp fun h => ne_of_lt h
  rw [← List.sum_toFinset q hnd, ← sum_filter]
  apply sum_congr _ fun _ _ => rfl
  ext v
  simp only [List.mem_toFinset, mem_filter, mem_range]
  exact ⟨fun h => ⟨hr v h, h⟩, fun h => h.2⟩

theorem find_values {m : CellSetValues (X K)} {n : Nat} (h : IsTracer n m) (v : Nat) :
    (m.find (v : Int) = none ∧ valueAt m v = 0) ∨ m.find (v : Int) = some (X.fin (valueAt m v)) := by
  obtain ⟨cells, f, rfl, hs, _⟩ := h
  have hsorted : OMap.Sorted (valuesOf cells f) := by
    unfold OMap.Sorted valuesOf
    rw [List.pairwise_map]
    exact hs.imp fun hab => by simpa using hab
  by_cases hv : v ∈ cells
  · have e : (valuesOf cells f).find (v : Int) = some (X.fin (f v)) :=
      OMap.mem_find hsorted (List.mem_map.mpr ⟨v, hv, rfl⟩)
    right
    unfold valueAt; rw [e]
  · have e : (valuesOf cells f).find (v : Int) = none := by
      rw [OMap.find_none_iff]
      intro x hx
      obtain ⟨u, hu, rfl⟩ := List.mem_map.mp hx
      simp only [ne_eq, Int.natCast_inj]
      rintro rfl; exact hv hu
    left
    exact ⟨e, by unfold valueAt; rw [e]⟩

variable {S T : Solution (X K)} {n : Nat} {i p : CellSetID}

/-- **C49** The volume of a pair: the sum over all cells of pore volume times both concentrations. -/
theorem C49_value (hS : IsTracer n (S.concentration i)) (hT : IsTracer n (T.concentration p)) (pv : Nat → K) :
    pairVolume S T (arr n pv) i p =
      .ok (X.fin (∑ v ∈ range n, pv v * valueAt (S.concentration i) v * valueAt (T.concentration p) v)) := by
  obtain ⟨cells, f, e, hs, hr⟩ := hS
  have hval : ∀ v, valueAt (S.concentration i) v = if v ∈ cells then f v else 0 := by
    intro v; rw [e]; exact valueAt_valuesOf hs f v
  unfold pairVolume
  simp only [e]
  have key : ∀ (l : List Nat) (a : K), (∀ v ∈ l, v < n ∧ v ≤ INT_MAX) →
      forEach (valuesOf l f) (X.fin a) (addPairVolume (T.concentration p) (arr n pv))
      = .ok (X.fin (a + (l.map fun v => pv v * f v * valueAt (T.concentration p) v).sum)) := by
    intro l
    induction l with
    | nil => intro a _; simp [valuesOf]
    | cons v l ih =>
      intro a hl
      obtain ⟨hv, hvi⟩ := hl v (by simp)
      have hcons : valuesOf (v :: l) f = ((v : Int), X.fin (f v)) :: valuesOf l f := rfl
      rw [hcons, forEach_cons]
      have hstep : addPairVolume (T.concentration p) (arr n pv) (X.fin a) ((v : Int), X.fin (f v))
          = .ok (X.fin (a + pv v * f v * valueAt (T.concentration p) v)) := by
        unfold addPairVolume
        rcases find_values hT v with ⟨e1, e2⟩ | e1
        · simp only [e1, e2, mul_zero, add_zero]
        · simp only [e1]
          have hrd : rd (arr n pv) (sizeOfInt (v : Int)) = .ok (X.fin (pv v)) := by
            rw [sizeOfInt_nonneg (by omega) (by exact_mod_cast hvi)]
            apply rd_of_getElem?
            unfold arr
            simp [hv]
          rw [hrd]
          simp only [Res.bind_eq, Res.pure_eq, Res.ok_bind, X_mul, X_add]
      rw [hstep, Res.ok_bind, ih _ fun u hu => hl u (by simp [hu]), List.map_cons, List.sum_cons, add_assoc]
  have := key cells 0 fun v hv => ⟨(hr v hv).1, (hr v hv).2.1⟩
  rw [← X_zero, zero_add] at this
  refine this.trans ?_
  rw [sum_cells hs fun v hv => (hr v hv).1]
  congr 2
  apply sum_congr rfl
  intro v _
  rw [← e, hval v]
  split <;> simp

end exact

section ordered
variable {K : Type} [Field K] [LinearOrder K] [IsStrictOrderedRing K]
variable {S T : Solution (X K)} {n : Nat} {i p : CellSetID}

theorem tracer_nonneg {m : CellSetValues (X K)} (h : IsTracer n m) (v : Nat) : 0 ≤ valueAt m v := by
  obtain ⟨cells, f, rfl, hs, hr⟩ := h
  rw [valueAt_valuesOf hs]
  split
  · exact (hr v (by assumption)).2.2
  · exact le_rfl

/-- **C49** The volume of a pair is non-negative and does not change when the roles of the tracers are exchanged. -/
theorem C49_nonneg_symmetric (hS : IsTracer n (S.concentration i)) (hT : IsTracer n (T.concentration p)) {pv : Nat → K}
    (hpv : ∀ v < n, 0 ≤ pv v) :
    (∃ V, pairVolume S T (arr n pv) i p = .ok (X.fin V) ∧ 0 ≤ V) ∧
    pairVolume T S (arr n pv) p i = pairVolume S T (arr n pv) i p := by
  constructor
  · refine ⟨_, C49_value hS hT pv, ?_⟩
    apply sum_nonneg
    intro v hv
    exact mul_nonneg (mul_nonneg (hpv v (mem_range.mp hv)) (tracer_nonneg hS v)) (tracer_nonneg hT v)
  · rw [C49_value hS hT, C49_value hT hS]
    congr 2
    apply sum_congr rfl
    intros; ring

/-- **C49** The volume is zero if one of the ids is unknown, in any arithmetic. -/
theorem C49_unknown {R : Type} [Arith R] (S T : Solution R) (pv : List R) (i p : CellSetID)
    (h : i ∉ S.startPoints ∨ p ∉ T.startPoints) : pairVolume S T pv i p = .ok Arith.zero := by
  have hempty : ∀ (S : Solution R) i, i ∉ S.startPoints → S.concentration i = [] := by
    intro S i hi
    unfold Solution.concentration Solution.solutionValues
    have : S.tracer.find i = none := by
      rw [OMap.find_none_iff]
      intro x hx e
      exact hi (List.mem_map.mpr ⟨x, hx, e⟩)
    rw [this]
  unfold pairVolume
  rcases h with h | h
  · simp only [hempty S i h, forEach_nil]
  · simp only [hempty T p h]
    generalize S.concentration i = l
    induction l with
    | nil => rfl
    | cons x l ih =>
      rw [forEach_cons]
      exact ih

omit [IsStrictOrderedRing K] [LinearOrder K] in
theorem sum_list_mul (l : List CellSetID) (a : K) (q : CellSetID → K) : (l.map fun i => a * q i).sum = a * (l.map q).sum := by
  induction l with
  | nil => simp
  | cons x l ih => simp [ih, mul_add]

omit [IsStrictOrderedRing K] [LinearOrder K] in
theorem sum_list_range (l : List CellSetID) (n : Nat) (q : CellSetID → Nat → K) :
    (l.map fun i => ∑ v ∈ range n, q i v).sum = ∑ v ∈ range n, (l.map fun i => q i v).sum := by
  induction l with
  | nil => simp
  | cons x l ih => simp [ih, sum_add_distrib]

/-- **C49** Over all pairs the volumes add up to at most the total pore volume if both families of tracers add up to at
    most 1 in each cell, and to exactly the total if both add up to 1. -/
theorem C49_sum {I J : List CellSetID} (hS : ∀ i ∈ I, IsTracer n (S.concentration i))
    (hT : ∀ p ∈ J, IsTracer n (T.concentration p)) {pv : Nat → K} (hpv : ∀ v < n, 0 ≤ pv v) {V : CellSetID → CellSetID → K}
    (hV : ∀ i ∈ I, ∀ p ∈ J, pairVolume S T (arr n pv) i p = .ok (X.fin (V i p))) :
    ((∀ v < n, (I.map fun i => valueAt (S.concentration i) v).sum ≤ 1) →
      (∀ v < n, (J.map fun p => valueAt (T.concentration p) v).sum ≤ 1) →
      (I.map fun i => (J.map fun p => V i p).sum).sum ≤ ∑ v ∈ range n, pv v) ∧
    ((∀ v < n, (I.map fun i => valueAt (S.concentration i) v).sum = 1) →
      (∀ v < n, (J.map fun p => valueAt (T.concentration p) v).sum = 1) →
      (I.map fun i => (J.map fun p => V i p).sum).sum = ∑ v ∈ range n, pv v) := by
  have e : (I.map fun i => (J.map fun p => V i p).sum).sum
      = ∑ v ∈ range n, pv v * ((I.map fun i => valueAt (S.concentration i) v).sum
          * (J.map fun p => valueAt (T.concentration p) v).sum) := by
    have e1 : ∀ i ∈ I, (J.map fun p => V i p).sum
        = ∑ v ∈ range n, (pv v * (J.map fun p => valueAt (T.concentration p) v).sum) * valueAt (S.concentration i) v := by
      intro i hi
      have : (J.map fun p => V i p)
          = J.map fun p => ∑ v ∈ range n, pv v * valueAt (S.concentration i) v * valueAt (T.concentration p) v := by
        apply List.map_congr_left
        intro p hp
        have := (hV i hi p hp).symm.trans (C49_value (hS i hi) (hT p hp) pv)
        exact X.fin.inj (Res.ok.inj this)
      rw [this, sum_list_range]
      apply sum_congr rfl
      intro v _
      rw [sum_list_mul]; ring
    rw [List.map_congr_left e1, sum_list_range]
    apply sum_congr rfl
    intro v _
    rw [sum_list_mul]; ring
  constructor
  · intro h1 h2
    rw [e]
    apply sum_le_sum
    intro v hv
    have hv := mem_range.mp hv
    have hT0 : 0 ≤ (J.map fun p => valueAt (T.concentration p) v).sum := by
      apply List.sum_nonneg
      intro x hx
      obtain ⟨p, hp, rfl⟩ := List.mem_map.mp hx
      exact tracer_nonneg (hT p hp) v
    have : (I.map fun i => valueAt (S.concentration i) v).sum * (J.map fun p => valueAt (T.concentration p) v).sum ≤ 1 :=
      mul_le_one₀ (h1 v hv) hT0 (h2 v hv)
    calc _ ≤ pv v * 1 := mul_le_mul_of_nonneg_left this (hpv v hv)
      _ = pv v := mul_one _
  · intro h1 h2
    rw [e]
    apply sum_congr rfl
    intro v hv
    have hv := mem_range.mp hv
    rw [h1 v hv, h2 v hv]; ring

end ordered

/-! ### C50 -/

/-- **C50** `runtime_error` exactly when one of the ids is missing from the inflow map, in any arithmetic. -/
theorem C50_errors {R : Type} [Arith R] (S T : Solution R) (i p : CellSetID) (m : OMap CellSetID (CellSetValues R)) :
    ((m.find i = none ∨ m.find p = none) → pairFluxes S T i p m = .throw .runtimeError) ∧
    (m.find i ≠ none → m.find p ≠ none → ∃ x y, pairFluxes S T i p m = .ok (x, y)) := by
  unfold pairFluxes
  constructor
  · rintro (h | h)
    · simp only [h]
    · cases hi : m.find i <;> simp only [h]
  · intro h1 h2
    obtain ⟨a, ha⟩ := Option.ne_none_iff_exists'.mp h1
    obtain ⟨b, hb⟩ := Option.ne_none_iff_exists'.mp h2
    simp only [ha, hb]
    exact ⟨_, _, rfl⟩

section
variable {K : Type} [Field K] [LinearOrder K]

theorem pairFlux_value {n : Nat} {m : CellSetValues (X K)} (hm : IsTracer n m) (cells : List Nat) (f : Nat → K) (b : Bool) :
    pairFlux m (valuesOf cells f) b
      = X.fin (cells.map fun v => if decide (0 < f v) = b then f v * valueAt m v else 0).sum := by
  unfold pairFlux
  rw [X_zero]
  have key : ∀ (l : List Nat) (a : K), (valuesOf l f).foldl (addPairFlux m b) (X.fin a)
      = X.fin (a + (l.map fun v => if decide (0 < f v) = b then f v * valueAt m v else 0).sum) := by
    intro l
    induction l with
    | nil => intro a; simp [valuesOf]
    | cons v l ih =>
      intro a
      have hcons : valuesOf (v :: l) f = ((v : Int), X.fin (f v)) :: valuesOf l f := rfl
      rw [hcons, List.foldl_cons]
      have : addPairFlux m b (X.fin a) ((v : Int), X.fin (f v))
          = X.fin (a + if decide (0 < f v) = b then f v * valueAt m v else 0) := by
        unfold addPairFlux
        rcases find_values hm v with ⟨e1, e2⟩ | e1
        · simp only [e1, e2]; simp
        · simp only [e1]
          rw [X_zero, X_lt]
          by_cases h : decide (0 < f v) = b
          · rw [if_pos (by simp [h]), if_pos h, X_mul, X_add]
          · rw [if_neg (by simpa using h), if_neg h, add_zero]
      rw [this, ih, List.map_cons, List.sum_cons, add_assoc]
  rw [key, zero_add]

/-- The inflow map of a problem. -/
theorem inflowMap_find {P : Problem K} (hs : P.wells.Pairwise fun a b => a.id < b.id) {w : WellFlux K} (hw : w ∈ P.wells) :
    P.inflowMap.find w.id = some (valuesOf w.cells w.val) := by
  apply OMap.mem_find
  · unfold OMap.Sorted Problem.inflowMap
    rw [List.pairwise_map]; exact hs
  · exact List.mem_map.mpr ⟨w, hw, rfl⟩

end

section
variable {K : Type} [Field K] [LinearOrder K] [IsStrictOrderedRing K]
variable {P : Problem K} {S T : Solution (X K)} {w w' : WellFlux K}

/-- **C50** The two values: what the injector injects, weighted with the producer's concentrations, and what the producer
    produces, weighted with the injector's. -/
theorem C50_value (hP : P.Valid) (hw : w ∈ P.wells) (hw' : w' ∈ P.wells) (hS : IsTracer P.n (S.concentration w.id))
    (hT : IsTracer P.n (T.concentration w'.id)) :
    pairFluxes S T w.id w'.id P.inflowMap = .ok
      (X.fin (∑ v ∈ range P.n, max (Problem.wellAt w v) 0 * valueAt (T.concentration w'.id) v),
       X.fin (-∑ v ∈ range P.n, max (-Problem.wellAt w' v) 0 * valueAt (S.concentration w.id) v)) := by
  unfold pairFluxes
  rw [inflowMap_find hP.wells_sorted hw, inflowMap_find hP.wells_sorted hw']
  simp only
  rw [pairFlux_value hT, pairFlux_value hS, sum_cells (hP.cells_sorted w hw) (hP.cells_range w hw),
    sum_cells (hP.cells_sorted w' hw') (hP.cells_range w' hw'), ← sum_neg_distrib]
  congr 3
  · apply sum_congr rfl
    intro v _
    unfold Problem.wellAt
    by_cases h1 : v ∈ w.cells
    · by_cases h2 : 0 < w.val v
      · simp [h1, h2, max_eq_left h2.le]
      · simp [h1, h2, max_eq_right (not_lt.mp h2)]
    · simp [h1]
  · apply sum_congr rfl
    intro v _
    unfold Problem.wellAt
    by_cases h1 : v ∈ w'.cells
    · by_cases h2 : 0 < w'.val v
      · have : max (-w'.val v) 0 = 0 := max_eq_right (by linarith)
        simp [h1, h2, this]
      · have : max (-w'.val v) 0 = -w'.val v := max_eq_left (by linarith [not_lt.mp h2])
        simp [h1, h2, this]
    · simp [h1]

/-- **C50** The first value is non-negative and the second non-positive. -/
theorem C50_signs (hP : P.Valid) (hw : w ∈ P.wells) (hw' : w' ∈ P.wells) (hS : IsTracer P.n (S.concentration w.id))
    (hT : IsTracer P.n (T.concentration w'.id)) :
    ∃ x y, pairFluxes S T w.id w'.id P.inflowMap = .ok (X.fin x, X.fin y) ∧ 0 ≤ x ∧ y ≤ 0 := by
  refine ⟨_, _, C50_value hP hw hw' hS hT, ?_, ?_⟩
  · exact sum_nonneg fun v _ => mul_nonneg (le_max_right _ _) (tracer_nonneg hT v)
  · exact neg_nonpos.mpr (sum_nonneg fun v _ => mul_nonneg (le_max_right _ _) (tracer_nonneg hS v))

/-- **C50** Over producers `J` the first values add up to at most what the injector injects if the producers' concentrations
    add up to at most 1, and to exactly that if they add up to 1 in each cell into which it injects. -/
theorem C50_sum (hP : P.Valid) (hw : w ∈ P.wells) {J : List (WellFlux K)} (hJ : ∀ p ∈ J, p ∈ P.wells)
    (hS : IsTracer P.n (S.concentration w.id)) (hT : ∀ p ∈ J, IsTracer P.n (T.concentration p.id))
    {x y : WellFlux K → K} (hx : ∀ p ∈ J, pairFluxes S T w.id p.id P.inflowMap = .ok (X.fin (x p), X.fin (y p))) :
    ((∀ v ∈ posCells w, (J.map fun p => valueAt (T.concentration p.id) v).sum ≤ 1) →
      (J.map x).sum ≤ ((posCells w).map w.val).sum) ∧
    ((∀ v ∈ posCells w, (J.map fun p => valueAt (T.concentration p.id) v).sum = 1) →
      (J.map x).sum = ((posCells w).map w.val).sum) := by
  have hps : (posCells w).Pairwise (· < ·) := (hP.cells_sorted w hw).filter _
  have hpr : ∀ v ∈ posCells w, v < P.n := fun v hv => hP.cells_range w hw v (List.mem_filter.mp hv).1
  have e : (J.map x).sum = ∑ v ∈ range P.n, max (Problem.wellAt w v) 0 * (J.map fun p => valueAt (T.concentration p.id) v).sum := by
    have : J.map x = J.map fun p => ∑ v ∈ range P.n, max (Problem.wellAt w v) 0 * valueAt (T.concentration p.id) v := by
      apply List.map_congr_left
      intro p hp
      have := (hx p hp).symm.trans (C50_value hP hw (hJ p hp) hS (hT p hp))
      exact X.fin.inj (Prod.mk.inj (Res.ok.inj this)).1
    rw [this]
    clear this hx hT hJ
    induction J with
    | nil => simp
    | cons a l ih => simp [ih, mul_add, sum_add_distrib]
  have e2 : ((posCells w).map w.val).sum = ∑ v ∈ range P.n, max (Problem.wellAt w v) 0 := by
    rw [sum_cells hps hpr]
    apply sum_congr rfl
    intro v _
    rw [← injected_pos]; rfl
  have hz : ∀ v, v ∉ posCells w → max (Problem.wellAt w v) 0 = 0 := by
    intro v hv
    rw [← injected_pos]; unfold injected; rw [if_neg hv]
  rw [e, e2]
  constructor
  · intro h
    apply sum_le_sum
    intro v _
    by_cases hv : v ∈ posCells w
    · calc _ ≤ max (Problem.wellAt w v) 0 * 1 := mul_le_mul_of_nonneg_left (h v hv) (le_max_right _ _)
        _ = _ := mul_one _
    · rw [hz v hv, zero_mul]
  · intro h
    apply sum_congr rfl
    intro v _
    by_cases hv : v ∈ posCells w
    · rw [h v hv, mul_one]
    · rw [hz v hv, zero_mul]

end

/-! ### Computed diagnostics -/

section
variable {K : Type} [Field K] [LinearOrder K] [IsStrictOrderedRing K] [Archimedean K]

theorem Diag.tracer {F : Flow K} {wells : List (WellFlux K)} {cs : WellFlux K → List Nat} {f : WellFlux K → Nat → K}
    {starts : List CellSet} {sol : Solution (X K)} (D : Diag F wells cs f starts sol) (i : CellSetID) :
    IsTracer F.n (sol.concentration i) := by
  rcases D.well i with ⟨_, h⟩ | ⟨w, hw, rfl, _, hs⟩
  · exact ⟨[], fun _ => 0, by rw [h]; rfl, by simp, by simp⟩
  · obtain ⟨d, st, h1, h2, h3⟩ := D.solved
    obtain ⟨l, hl, _, e2⟩ := h3 w hw hs
    obtain ⟨τ, c, hf, hpos, cells, hsort, hm, rfl⟩ := local_ok h1 (D.side.range w hw) (fun p hp => (D.side.pos w hw p hp).le) hl
    refine ⟨cells, c, e2, hsort, ?_⟩
    intro v hv
    obtain ⟨p, hps, hreach⟩ := (hm v).mp hv
    have hlt := reach_lt (D.side.range w hw p hps) hreach
    exact ⟨hlt, by have := h1.1.int; omega, (hpos v ((hm v).mp hv)).le⟩

variable {P : Problem K} (hP : P.Valid) {g : ConnectivityGraph} {calls : List (Call (X K))} (h : P.GivenTo g calls)
  {istarts pstarts : List CellSet} {S T : Solution (X K)}
  (hi : InjectionReturns g calls istarts (.ok S)) (hp : ProductionReturns g calls pstarts (.ok T))
include hP h hi hp

/-- **C49** Volumes of the pairs of computed diagnostics: defined and non-negative for every pair of ids, and adding up
    to at most the total pore volume. -/
theorem C49_diagnostics :
    ∃ V : CellSetID → CellSetID → K, (∀ i p, pairVolume S T (arr P.n P.pv) i p = .ok (X.fin (V i p)) ∧ 0 ≤ V i p) ∧
      (S.startPoints.map fun i => (T.startPoints.map fun p => V i p).sum).sum ≤ ∑ v ∈ range P.n, P.pv v := by
  have DS := diag_injection hP h hi
  have DT := diag_production hP h hp
  have hV : ∀ i p, ∃ V, pairVolume S T (arr P.n P.pv) i p = .ok (X.fin V) ∧ 0 ≤ V :=
    fun i p => (C49_nonneg_symmetric (DS.tracer i) (DT.tracer p) hP.pv).1
  choose V hV using hV
  refine ⟨V, hV, ?_⟩
  exact (C49_sum (fun i _ => DS.tracer i) (fun p _ => DT.tracer p) hP.pv (fun i _ p _ => (hV i p).1)).1
    DS.sum_le_one DT.sum_le_one

/-- **C50** Fluxes of the pairs of computed diagnostics: signs, and what an injector sends to all requested producers is at most
    what it injects. -/
theorem C50_diagnostics {w : WellFlux K} (hw : w ∈ P.wells) :
    ∃ x y : WellFlux K → K, (∀ p ∈ P.wells, pairFluxes S T w.id p.id P.inflowMap = .ok (X.fin (x p), X.fin (y p)) ∧
      0 ≤ x p ∧ y p ≤ 0) ∧
      ((P.wells.filter fun p => decide (p.id ∈ T.startPoints)).map x).sum ≤ ((posCells w).map w.val).sum := by
  have DS := diag_injection hP h hi
  have DT := diag_production hP h hp
  have hex : ∀ p : WellFlux K, ∃ x y : K, p ∈ P.wells → pairFluxes S T w.id p.id P.inflowMap = .ok (X.fin x, X.fin y) ∧
      0 ≤ x ∧ y ≤ 0 := by
    intro p
    by_cases hpw : p ∈ P.wells
    · obtain ⟨x, y, h1, h2, h3⟩ := C50_signs hP hw hpw (DS.tracer w.id) (DT.tracer p.id)
      exact ⟨x, y, fun _ => ⟨h1, h2, h3⟩⟩
    · exact ⟨0, 0, fun h => absurd h hpw⟩
  choose x y hxy using hex
  refine ⟨x, y, hxy, ?_⟩
  refine (C50_sum (J := asked P.wells T) hP hw (fun p hp => (mem_asked.mp hp).1) (DS.tracer w.id) (fun p _ => DT.tracer p.id)
    (fun p hp => (hxy p (mem_asked.mp hp).1).1)).1 ?_
  intro v hv
  have := DT.sum_le_one v (hP.cells_range w hw v (List.mem_filter.mp hv).1)
  rw [DT.startPoints_eq, List.map_map] at this
  exact this

/-- **C51** If every cell's total inflow equals its total outflow and the flow has no cycles, the two fluxes of a pair are
    equal up to sign. -/
theorem C51_balanced (hacy : P.forward.Acyclic)
    (hinc : ∀ v < P.n, (∑ u ∈ range P.n, P.flux u v) + P.source v = (∑ u ∈ range P.n, P.flux v u) + P.sink v)
    {w w' : WellFlux K} (hw : w ∈ P.wells) (hws : w.id ∈ S.startPoints) (hw' : w' ∈ P.wells) (hws' : w'.id ∈ T.startPoints) :
    ∃ x, pairFluxes S T w.id w'.id P.inflowMap = .ok (X.fin x, X.fin (-x)) := by
  have DS := diag_injection hP h hi
  have DT := diag_production hP h hp
  refine ⟨∑ v ∈ range P.n, max (Problem.wellAt w v) 0 * valueAt (T.concentration w'.id) v,
    (C50_value hP hw hw' (DS.tracer w.id) (DT.tracer w'.id)).trans ?_⟩
  · congr 4
    have b1 := C26_toolbox_injection hP h hacy hi hw ((DS.points _).mp hws)
    have b2 := C26_toolbox_production hP h hacy hp hw' ((DT.points _).mp hws')
    set c := valueAt (S.concentration w.id) with hc
    set d := valueAt (T.concentration w'.id) with hd
    have s1 : ∑ v ∈ range P.n, ((∑ u ∈ range P.n, P.flux u v) + P.source v) * c v * d v
        = (∑ v ∈ range P.n, ∑ u ∈ range P.n, c u * P.flux u v * d v) + ∑ v ∈ range P.n, max (Problem.wellAt w v) 0 * d v := by
      rw [← sum_add_distrib]
      apply sum_congr rfl
      intro v hv
      rw [b1 v (mem_range.mp hv), add_mul, sum_mul]
    have s2 : ∑ v ∈ range P.n, ((∑ u ∈ range P.n, P.flux u v) + P.source v) * c v * d v
        = (∑ v ∈ range P.n, ∑ u ∈ range P.n, c v * P.flux v u * d u) + ∑ v ∈ range P.n, max (-Problem.wellAt w' v) 0 * c v := by
      rw [← sum_add_distrib]
      apply sum_congr rfl
      intro v hv
      rw [hinc v (mem_range.mp hv), mul_right_comm, b2 v (mem_range.mp hv), add_mul, sum_mul]
      congr 1
      apply sum_congr rfl
      intros; ring
    have s3 : (∑ v ∈ range P.n, ∑ u ∈ range P.n, c u * P.flux u v * d v)
        = ∑ v ∈ range P.n, ∑ u ∈ range P.n, c v * P.flux v u * d u := sum_comm
    linarith

end

/-! ### Non-vacuity -/

/-- The example problem is incompressible and cycle-free, and its diagnostics exist; injector 65 and producer 80 were
    asked for. -/
example : ∃ g, ∃ calls : List (Call (X ℚ)), ∃ S T, exProblem.Valid ∧ exProblem.GivenTo g calls ∧
    InjectionReturns g calls exInjectors (.ok S) ∧ ProductionReturns g calls exProducers (.ok T) ∧
    exProblem.forward.Acyclic ∧
    (∀ v < exProblem.n, (∑ u ∈ range exProblem.n, exProblem.flux u v) + exProblem.source v
      = (∑ u ∈ range exProblem.n, exProblem.flux v u) + exProblem.sink v) ∧
    (⟨[65]⟩ : CellSetID) ∈ S.startPoints ∧ (⟨[80]⟩ : CellSetID) ∈ T.startPoints ∧
    (∀ i, IsTracer exProblem.n (S.concentration i)) ∧ ∀ p, IsTracer exProblem.n (T.concentration p) := by
  obtain ⟨g, calls, h, ⟨S, hS⟩, T, hT⟩ := exProblem_returns
  have DS := diag_injection exProblem_valid h hS
  have DT := diag_production exProblem_valid h hT
  refine ⟨g, calls, S, T, exProblem_valid, h, hS, hT, exProblem_acyclic, exProblem_incompressible, ?_, ?_, DS.tracer, DT.tracer⟩
  · rw [DS.points]; exact ⟨_, .tail _ (.head _), rfl⟩
  · rw [DT.points]; exact ⟨_, .head _, rfl⟩

end Verif.Props
