/-
Times of flight of all sources together when the solver returns, in arithmetic with rounding.
-/
import Verif.Proofs.FillTime

namespace Verif.Rounding
open Finset Verif.Spec Verif.Solver Verif.Toolbox Verif.Tarjan

variable {R : Type} [Arith R]

theorem Settled.mono {d : SolverData R} {b : List Bool} {ls : List R} {Q Q' : List R × List R → Prop}
    {E : Nat → Nat → Prop} {z s : List R × List R} {C : List Nat} {v : Nat} (h : Settled d b ls Q E z C s v)
    (hQ : ∀ t, Q t → Q' t) : Settled d b ls Q' E z C s v := by
  obtain ⟨t, p, a1, a2⟩ := h
  exact ⟨t, p, hQ t a1, a2⟩

variable {K : Type} [Field K] [LinearOrder K] [IsStrictOrderedRing K] {ρ : Rounded R K} {q : K}

/-- Global times `t`, with concentrations `c` that are not returned, nearly balance. -/
structure GlobalBalance (F : Flow K) (M : Nat) (q : K) (t c : Nat → K) : Prop where
  unit : ∀ v < F.n, 0 ≤ c v ∧ c v ≤ 1
  balance : ∀ v < F.n, ¬ F.Loop v → |(∑ u ∈ range F.n, c u * F.w u v) + F.src v - F.total v * c v|
    ≤ (1 / 1000000000 * q + tiny K) * q * F.cycleInflow v + (q ^ (4 * M + 4) - 1 + 2 * slack K) * F.total v
  time : ∀ v < F.n, ∀ a : K, a < cap → (∀ u, F.Edge u v ∨ u = v → t u ≤ a) → 1 ≤ c v * 2 ^ 300 → 0 ≤ t v ∧ (¬ F.Loop v →
    |F.pv v * c v + (∑ u ∈ range F.n, t u * c u * F.w u v) - F.total v * (t v * c v)|
      ≤ (a * ((1 / 1000000000 * q + tiny K) * q) + timeTol K q) * F.cycleInflow v
        + (a * (q ^ (4 * M + 6) - 1) + 2 * timeSlack K) * F.total v)
  fill : ∀ v < F.n, 1 ≤ c v * 2 ^ 300 → t v = cap ∨ F.pv v ≤ F.total v * t v * q ^ (2 * M + 4)

/-- `solveGlobal()`. -/
theorem global_time (hp : Precise ρ q) (hGr : Gradual ρ) (hodd : ∀ x : K, ρ.rnd (X.fin (-x)) = X.neg (ρ.rnd (X.fin x)))
    (hinf : ρ.rnd X.ninf = X.ninf) {d : SolverData R}
    {F : Flow K} {M : Nat} (hA : Approx ρ q d F M) (hF : F.Valid) (hq2 : q ^ (4 * M + 6) ≤ 2) (hM : (M : K) + 1 ≤ 2 ^ 100)
    (hm : ∀ v < F.n, Sized F v) (hG : GraphPair d F.n) (hE : ∀ u v, Verif.Spec.Edge d F.n u v ↔ F.Edge u v)
    (hfit : Fits d F.n) (hflow : FiniteFlow ρ d F.n) (hrows : PositiveRows ρ d F.n) (hpvn : ∀ x ∈ d.pv, Num ρ x)
    {fuel : Nat} (hf : F.n + numEdges F.n d.g.startPointers ≤ fuel) {st : SolverState R} {tof : List R}
    (h : (solveGlobal d Alloc.good fuel st).2 = .ok tof) : ∃ c, GlobalBalance F M q (fun v => numOf ρ tof[v]?) c := by
  classical
  have hq := hp.one_le
  have hq1 : q ≤ 2 := by
    have : q ^ 1 ≤ q ^ (4 * M + 6) := pow_le_pow_right₀ hq (by omega)
    rw [pow_one] at this
    exact this.trans hq2
  have hq4 : q ^ (4 * M + 4) ≤ 2 := (pow_le_pow_right₀ hq (by omega)).trans hq2
  have hI := hfit.int
  have hEdge : HasEdge F.n d.g.startPointers d.g.neighbourhood = F.Edge := by funext u v; exact propext (hE u v)
  have hReach : ∀ u v, Reachable F.n d.g.startPointers d.g.neighbourhood u v ↔ F.Reach u v := by
    intro u v
    show Relation.ReflTransGen (HasEdge F.n d.g.startPointers d.g.neighbourhood) u v ↔ _
    rw [hEdge]
    rfl
  obtain ⟨comps, ht, horder⟩ := computeOrdering_spec hG.graph hG.size Alloc.good_good
  unfold solveGlobal prepareForSolve at h
  simp only [finish_snd, hfit.pvSize, Res.bind_ok_iff] at h
  obtain ⟨b, hb, o, ho, out, hout, e⟩ := h
  cases e
  rw [horder fuel hf] at ho
  cases ho
  have hsp := sourceArray_spec hG.pv hb
  have hlf : LocalFits d b d.sourceTerm := by
    intro v l s hb hl hs
    rw [hl] at hs; cases hs
    exact ⟨hfit.source l (List.mem_of_getElem? hl), lt_irrefl ρ l⟩
  have hln : ∀ (v : Nat) (l : R), b[v]? = some true → d.sourceTerm[v]? = some l → Num ρ l :=
    fun v l _ hlv => source_num ρ hfit hflow hlv
  obtain ⟨s, hout, hrs, hz, hset⟩ := solve_settled ρ ht (Q := Clocked ρ F.n) (b := b) (d := d) (ls := d.sourceTerm)
    (fun v hv => by omega) (huge_tol hp hq1) (by
      intro s s' v hvn hs' hstep
      have hso := single_sound ρ hGr hfit hflow hrows hpvn hlf hln hs'.2 ⟨by omega, by exact_mod_cast hvn⟩ hstep
      refine ⟨⟨hso.1, ?_, ?_⟩, hso⟩
      all_goals
        obtain ⟨p, _, _, _, rfl⟩ := single_ok_iff.mp hstep
        simp [hs'.1.tofLen, hs'.1.tracerLen])
    ⟨⟨initial_proper ρ F.n, by simp, by simp⟩, initial_sound ρ F.n⟩ hout
  subst hout
  have hbv : ∀ v < F.n, ∃ b', b[v]? = some b' ∧ (b' = false → F.src v = 0) ∧
      (b' = true → 0 < F.src v ∧ ∃ a, d.sourceTerm[v]? = some a ∧ Near ρ q M a (F.src v)) := by
    intro v hv
    obtain ⟨x, hx1, hx2⟩ := hsp v hv
    obtain ⟨a, ha, hna⟩ := hA.source v hv
    rw [ha] at hx1
    cases hx1
    obtain ⟨y, hy, hyc⟩ := hna
    have hs0 := hF.src_nonneg v hv
    have hpos := hyc.pos_iff hq hs0
    refine ⟨_, hx2, ?_, ?_⟩
    · intro hb
      rw [ρ.lt, hy, val_zero' ρ] at hb
      simp only [X.lt, decide_eq_false_iff_not] at hb
      exact le_antisymm (not_lt.mp fun h => hb (hpos.mpr h)) hs0
    · intro hb
      rw [ρ.lt, hy, val_zero' ρ] at hb
      simp only [X.lt, decide_eq_true_eq] at hb
      exact ⟨hpos.mp hb, _, ha, y, hy, hyc⟩
  have hcomp : ∀ v < F.n, ∃ C ∈ comps, v ∈ C := fun v hv => List.mem_flatten.mp ((ht.cover v).mpr hv)
  have hsame : ∀ C ∈ comps, ∀ v ∈ C, ∀ u ∈ C, F.SameCycle u v := fun C hC v hvC u hu =>
    ⟨(hReach u v).mp (ht.strong C hC u hu v hvC), (hReach v u).mp (ht.strong C hC v hvC u hu)⟩
  have hloop' : ∀ C ∈ comps, ∀ v ∈ C, ¬ F.Loop v → C = [v] → ¬ F.Edge v v := by
    intro C hC v hvC hloop hC1 hedge
    refine hloop ⟨hedge.2.2.ne', ?_⟩
    intro u hu
    have hun : u < F.n := reach_lt hedge.1 hu.2
    have := ht.weak C hC v hvC u hun ((hReach v u).mpr hu.2) ((hReach u v).mpr hu.1)
    rw [hC1] at this
    simpa using this
  refine ⟨fun v => numOf ρ s.2[v]?, ?_, ?_, ?_, ?_⟩
  · intro v hv
    obtain ⟨_, c, _, hc, h1, h2, h3⟩ := hrs.1.at hv
    exact ⟨h2, h3⟩
  · intro v hv hloop
    obtain ⟨C, hC, hvC⟩ := hcomp v hv
    obtain ⟨b', hb', h0, h1⟩ := hbv v hv
    exact settled_balance hp hodd hA hF hq4 hM hv (hm v hv) (hF.src_nonneg v hv) le_rfl hb' h0 h1
      (fun u hu => by rw [hEdge]; exact hu) hrs.1 ((hset C hC v hvC).mono fun t ht => ht.1) (hsame C hC v hvC) (hloop' C hC v hvC hloop)
  · intro v hv a ha hta hx
    have htime : ∀ u, F.Edge u v ∨ u = v → ∃ A, s.1[u]? = some A ∧ (s.1.map fun t => Arith.min t maxTof)[u]? = some A ∧
        ρ.val A = X.fin (numOf ρ s.1[u]?) ∧ 0 ≤ numOf ρ s.1[u]? ∧ numOf ρ s.1[u]? ≤ a := by
      intro u hu
      have hun : u < F.n := by
        rcases hu with hu | rfl
        · exact hu.1
        · exact hv
      obtain ⟨A, c, h1, h2, _⟩ := hrs.1.at hun
      have hb := hta u hu
      simp only [List.getElem?_map, h1, Option.map_some] at hb ⊢
      obtain ⟨e, y, hy, hy0, hya⟩ := below_cap hp.cap (hrs.1.proper.bounded.tof A (List.mem_of_getElem? h1)) (hrs.2.2.1 u A c h1 h2).1 ha hb
      rw [e, numOf_some hy]
      exact ⟨A, rfl, rfl, hy, hy0, hya⟩
    have hnum : ∀ u, F.Edge u v ∨ u = v → numOf ρ (s.1.map fun t => Arith.min t maxTof)[u]? = numOf ρ s.1[u]? := by
      intro u hu
      obtain ⟨A, h1, h2, _⟩ := htime u hu
      rw [h2, h1]
    refine ⟨?_, fun hloop => ?_⟩
    · obtain ⟨_, _, _, _, h0, _⟩ := htime v (Or.inr rfl)
      show 0 ≤ numOf ρ (s.1.map fun t => Arith.min t maxTof)[v]?
      rw [hnum v (Or.inr rfl)]
      exact h0
    · obtain ⟨C, hC, hvC⟩ := hcomp v hv
      obtain ⟨b', hb', h0, h1⟩ := hbv v hv
      have key := settled_time hp hodd hinf hA hF hq2 hM hv (hm v hv) hb' (fun hy => (h1 hy).1)
        (fun u hu => by rw [hEdge]; exact hu) hrs (hset C hC v hvC) (hsame C hC v hvC) (hloop' C hC v hvC hloop) ha
        (fun u hu => by
          obtain ⟨A, h1, _, h2, h3, h4⟩ := htime u hu
          exact ⟨A, h1, h2, h3, h4⟩) hx
      show |F.pv v * numOf ρ s.2[v]? + (∑ u ∈ range F.n, numOf ρ (s.1.map fun t => Arith.min t maxTof)[u]? * numOf ρ s.2[u]? * F.w u v)
        - F.total v * (numOf ρ (s.1.map fun t => Arith.min t maxTof)[v]? * numOf ρ s.2[v]?)| ≤ _
      rw [hnum v (Or.inr rfl), sum_congr rfl fun u hu => ?_]
      · exact key
      · have hun := mem_range.mp hu
        rcases (hF.w_nonneg u v hun hv).eq_or_lt with hw | hw
        · rw [← hw, mul_zero, mul_zero]
        · rw [hnum u (Or.inl ⟨hun, hv, hw⟩)]
  · intro v hv hx
    obtain ⟨C, hC, hvC⟩ := hcomp v hv
    obtain ⟨b', hb', _, h1⟩ := hbv v hv
    exact settled_fill hp hA hq2 hv (hm v hv) hb' (fun hy => (h1 hy).1) hrs (hset C hC v hvC) hx

variable {D : List (Int × Int × R)} {pv : List R} {l : List (CellSetID × Int × R)} {F : Flow K}
  {DK : List (Nat × Nat × K)} {wells : List (WellFlux K)} {cs : WellFlux K → List Nat} {f : WellFlux K → Nat → K} {M : Nat}

/-- The global times that a computation returns. -/
theorem computeSolution_global (hp : Precise ρ q) (hGr : Gradual ρ) (hodd : ∀ x : K, ρ.rnd (X.fin (-x)) = X.neg (ρ.rnd (X.fin x)))
    (hinf : ρ.rnd X.ninf = X.ninf)
    (hM : q ^ (2 * M + 2) * 200 < 201) (hq2 : q ^ (4 * M + 6) ≤ 2) (hM1 : (M : K) + 1 ≤ 2 ^ 100)
    (h : Inputs ρ D pv l F DK wells cs f M)
    (hm : ∀ v < F.n, Sized F v) {starts : List CellSet} {sol : Solution R} {fuel : Nat}
    (hfuel : F.n + numEdges F.n (graphsOf F.n D).1.startPointers ≤ fuel)
    (hs : computeSolution (graphsOf F.n D).1 (graphsOf F.n D).2 pv (gather l).only (gather l).byId noFailure fuel starts = .ok sol) :
    ∃ c, GlobalBalance F M q (fun v => numOf ρ sol.tof[v]?) c := by
  have hI := h.valid.int
  obtain ⟨hpl, hpn, hpg⟩ := h.nonneg_pv
  have hl : ∀ e ∈ l, 0 ≤ e.2.1 ∧ e.2.1 < F.n := fun e he => (h.nonneg_l e he).1
  have hln : ∀ e ∈ l, NotNegative e.2.2 := fun e he => (h.nonneg_l e he).2
  obtain ⟨d, st, tof, h1, h2, h3, rfl⟩ := (computeSolution_ok_iff (a := Alloc.good)).mp hs
  obtain ⟨hfit, hg, hsrcv, _⟩ := create_fits ρ hI h.range_D (fun c hc => (h.pos_D c hc).notNegative) hpl hpn hl hln h1
  obtain ⟨hA, hG, hE, hg, hls⟩ := h.solver hp hM hm h1
  rw [← hg] at hfuel
  have hdpv : d.pv = pv ∧ d.gReverse = (graphsOf F.n D).2 := by
    unfold Solver.create at h1
    simp only [Res.bind_eq, Res.pure_eq, Res.bind_ok_iff] at h1
    obtain ⟨_, _, _, _, e⟩ := h1
    cases e
    exact ⟨rfl, rfl⟩
  have hrows : PositiveRows ρ d F.n := by
    intro v hv nb hnb
    rw [hdpv.2, (graphsOf_rows hI h.range_D).2 v hv] at hnb
    cases hnb
    exact rowOfFlow_pos ρ (swapEnds_pos ρ h.pos_D) v
  obtain ⟨r1, _⟩ := recordAll_spec (okOf d st Alloc.good fuel (gather l).byId) (starts.map CellSet.id) ({ tof := tof } : Solution R)
  rw [r1]
  exact global_time hp hGr hodd hinf hA h.valid hq2 hM1 hm hG hE hfit (finite_flow hp hM hA h.valid hm) hrows
    (by rw [hdpv.1]; exact h.num_pv) hfuel h2

end Verif.Rounding
