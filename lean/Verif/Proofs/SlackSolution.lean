/-
Tracers of a whole diagnostics computation when it returns, in arithmetic with rounding.
-/
import Verif.Proofs.SlackLocal

namespace Verif.Rounding
open Finset Verif.Spec Verif.Solver Verif.Toolbox Verif.Tarjan

variable {R : Type} [Arith R] {K : Type} [Field K] [LinearOrder K] [IsStrictOrderedRing K] {ρ : Rounded R K} {q : K}
variable {D : List (Int × Int × R)} {pv : List R} {l : List (CellSetID × Int × R)} {F : Flow K}
  {DK : List (Nat × Nat × K)} {wells : List (WellFlux K)} {cs : WellFlux K → List Nat} {f : WellFlux K → Nat → K} {M : Nat}

/-- The fluxes stored for a well. -/
theorem stored_values (h : Inputs ρ D pv l F DK wells cs f M) {w : WellFlux K} (hw : w ∈ wells) :
    ∃ fR : Nat → R, OMap.at_ (gather l).byId w.id [] = (cs w).map (fun p : Nat => ((p : Int), fR p)) ∧
      ∀ p ∈ cs w, ρ.val (fR p) = X.fin (f w p) := by
  have hB : (OMap.at_ (gather l).byId w.id []).map (fun e => (e.1, ρ.val e.2)) = valuesOf (cs w) (f w) := by
    have := gather_byId_map ρ.val l w.id
    rw [h.sources] at this
    unfold OMap.at_
    by_cases hne : cs w = []
    · have hnone : OMap.find (gather (contributions wells cs f)).byId w.id = none := by
        by_contra hc
        obtain ⟨w', hw', e, hne'⟩ := h.side.of_find hc
        have : w' = w := by
          by_contra hd
          rcases List.mem_iff_getElem.mp hw with ⟨i, hi, rfl⟩
          rcases List.mem_iff_getElem.mp hw' with ⟨j, hj, rfl⟩
          rcases lt_trichotomy i j with hij | hij | hij
          · have h1 := List.pairwise_iff_getElem.mp h.side.ids i j hi hj hij
            rw [e] at h1
            exact absurd h1 (_root_.lt_irrefl _)
          · subst hij; exact hd rfl
          · have h1 := List.pairwise_iff_getElem.mp h.side.ids j i hj hi hij
            rw [e] at h1
            exact absurd h1 (_root_.lt_irrefl _)
        rw [this] at hne'
        exact hne' hne
      rw [hnone] at this
      cases hfi : OMap.find (gather l).byId w.id with
      | none => rw [hne]; rfl
      | some m => rw [hfi] at this; cases this
    · rw [h.side.byId hw hne] at this
      cases hfi : OMap.find (gather l).byId w.id with
      | none => rw [hfi] at this; cases this
      | some m =>
        rw [hfi] at this
        simp only [Option.map_some, Option.some.injEq] at this
        exact this.symm
  exact values_of_map ((h.side.sorted w hw).imp fun h => ne_of_lt h) hB

/-- The total flux into a cell is a number. -/
theorem finite_flow (hp : Precise ρ q) (hM : q ^ (2 * M + 2) * 200 < 201) {d : SolverData R} (hA : Approx ρ q d F M) (hF : F.Valid)
    (hm : ∀ v < F.n, Sized F v) : FiniteFlow ρ d F.n := by
  intro v hv a s ha hs
  obtain ⟨a', ha', hna⟩ := hA.influx v hv
  obtain ⟨s', hs', hns⟩ := hA.source v hv
  rw [ha] at ha'; cases ha'
  rw [hs] at hs'; cases hs'
  have hmv := hm v hv
  have hin : 0 ≤ F.inflow v := Finset.sum_nonneg fun u hu => hF.w_nonneg u v (Finset.mem_range.mp hu) hv
  have hle : q ^ (2 * M) ≤ 2 := by
    have h1 : q ^ (2 * M) ≤ q ^ (2 * M + 2) := pow_le_pow_right₀ hp.one_le (by omega)
    linarith
  obtain ⟨y, hy, _⟩ := near_add hp hle hna (hns.mono hp hmv.src.nonneg (by omega)) (hmv.total.mono (by omega) : Range 1000 (F.inflow v + F.src v))
  exact ⟨y, hy⟩

/-- Concentrations of a well that a computation returns. -/
theorem computeSolution_balance (hp : Precise ρ q) (hodd : ∀ x : K, ρ.rnd (X.fin (-x)) = X.neg (ρ.rnd (X.fin x)))
    (hM : q ^ (2 * M + 2) * 200 < 201) (hq2 : q ^ (4 * M + 4) ≤ 2) (hM1 : (M : K) + 1 ≤ 2 ^ 100)
    (h : Inputs ρ D pv l F DK wells cs f M) (hm : ∀ v < F.n, Sized F v) {starts : List CellSet} {sol : Solution R} {fuel : Nat}
    (hfuel : F.n + numEdges F.n (graphsOf F.n D).1.startPointers ≤ fuel)
    (hs : computeSolution (graphsOf F.n D).1 (graphsOf F.n D).2 pv (gather l).only (gather l).byId noFailure fuel starts = .ok sol)
    {w : WellFlux K} (hw : w ∈ wells) (hask : ∃ s ∈ starts, s.id = w.id) :
    (∀ v, F.Downstream (cs w) v ↔ ((sol.concentration w.id).find (v : Int)).isSome) ∧
    (∀ v < F.n, ∀ a, (sol.concentration w.id).find (v : Int) = some a → ∃ x, ρ.val a = X.fin x ∧ 0 ≤ x ∧ x ≤ 1) ∧
    ∀ v < F.n, ¬ F.Loop v →
      |(∑ u ∈ range F.n, numOf ρ ((sol.concentration w.id).find (u : Int)) * F.w u v) + injected (cs w) (f w) v
          - F.total v * numOf ρ ((sol.concentration w.id).find (v : Int))|
        ≤ (1 / 1000000000 * q + tiny K) * q * F.cycleInflow v + (q ^ (4 * M + 4) - 1 + 2 * slack K) * F.total v := by
  have hI := h.valid.int
  obtain ⟨hpl, hpn, hpg⟩ := h.nonneg_pv
  have hl : ∀ e ∈ l, 0 ≤ e.2.1 ∧ e.2.1 < F.n := fun e he => (h.nonneg_l e he).1
  have hln : ∀ e ∈ l, NotNegative e.2.2 := fun e he => (h.nonneg_l e he).2
  obtain ⟨d, st, tof, h1, h2, h3, rfl⟩ := (computeSolution_ok_iff (a := Alloc.good)).mp hs
  obtain ⟨hfit, hg, hsrcv, _⟩ := create_fits ρ hI h.range_D (fun c hc => (h.pos_D c hc).notNegative) hpl hpn hl hln h1
  obtain ⟨hA, hG, hE, hg, hls⟩ := h.solver hp hM hm h1
  rw [← hg] at hfuel
  obtain ⟨r1, r2, r3, _, _⟩ := recordAll_spec (okOf d st Alloc.good fuel (gather l).byId) (starts.map CellSet.id)
    ({ tof := tof } : Solution R)
  obtain ⟨s, hss, ew⟩ := hask
  obtain ⟨x, hx⟩ := h3 s hss
  rw [ew] at hx
  have hi' : w.id ∈ starts.map CellSet.id := List.mem_map.mpr ⟨s, hss, ew⟩
  obtain ⟨fR, hfR, hval⟩ := stored_values h hw
  have hrun : (solveLocal d Alloc.good fuel ((cs w).map fun p : Nat => ((p : Int), fR p)) st).2 = .ok x := by
    rw [← hfR]; exact hx
  have hokx : okOf d st Alloc.good fuel (gather l).byId w.id = x := by
    unfold okOf; rw [hx]
  have hconc : (recordAll (okOf d st Alloc.good fuel (gather l).byId) (starts.map CellSet.id)
      ({ tof := tof } : Solution R)).concentration w.id = x.concentration := by
    unfold Solution.concentration Solution.solutionValues
    rw [r2, if_pos hi', hokx]
  rw [hconc]
  refine local_balance hp hodd hA h.valid hq2 hM1 hm hG hE hfit (finite_flow hp hM hA h.valid hm) (h.side.range w hw)
    (fun p hp => (h.side.src_pos p).mpr ⟨w, hw, hp⟩) (fun p hpm => ?_) (fun p hpm v hv => ?_) hfuel hls hrun
  · have h0 := (h.side.pos w hw p hpm).le
    exact ⟨(near_exact (hval p hpm)).mono hp h0 (Nat.zero_le _), h0, h.side.le_src hw hpm⟩
  · have he : ((p : Int), fR p) ∈ OMap.at_ (gather l).byId w.id [] := by
      rw [hfR]; exact List.mem_map.mpr ⟨p, hpm, rfl⟩
    refine ⟨hln _ (byId_mem he), ?_⟩
    obtain ⟨y, hy⟩ := Option.isSome_iff_exists.mp (gather_ids_cells l w.id _ he)
    have hmm := OMap.find_some_mem hy
    have := hsrcv _ hmm
    simp only [Int.toNat_natCast] at this
    rw [this] at hv; cases hv
    exact (only_ge ρ hln hmm).2 w.id _ he

end Verif.Rounding
