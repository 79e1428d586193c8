/-
Times of flight of one start set when the solver returns, in arithmetic with rounding.
-/
import Verif.Proofs.SlackTimeSolve
import Verif.Proofs.SlackSolution

namespace Verif.Rounding
open Finset Verif.Spec Verif.Solver Verif.Toolbox Verif.Tarjan

variable {R : Type} [Arith R] {K : Type} [Field K] [LinearOrder K] [IsStrictOrderedRing K] {ρ : Rounded R K} {q : K}

omit [IsStrictOrderedRing K] in
/-- A time that the cap does not change. -/
theorem below_cap (hcap : ρ.val (capIn R) = X.fin cap) {T : R} (hn : NotNegative T) (hN : Num ρ T) {a : K} (ha : a < cap)
    (h : numOf ρ (some (Arith.min T maxTof)) ≤ a) :
    Arith.min T maxTof = T ∧ ∃ y, ρ.val T = X.fin y ∧ 0 ≤ y ∧ y ≤ a := by
  have hcapv : ρ.val (maxTof : R) = X.fin cap := hcap
  unfold Arith.min at h ⊢
  split at h
  · rw [numOf_some hcapv] at h
    exact absurd ha (not_lt.mpr h)
  · rename_i hlt
    rw [if_neg hlt]
    refine ⟨rfl, ?_⟩
    rw [ρ.lt, hcapv] at hlt
    rw [notNegative_iff ρ] at hn
    cases e : ρ.val T with
    | fin y =>
      rw [numOf_some e] at h
      rw [e] at hn
      exact ⟨y, rfl, by simpa [X.lt] using hn, h⟩
    | pinf => rw [e] at hlt; simp [X.lt] at hlt
    | ninf => rw [e] at hn; simp [X.lt] at hn
    | nan => exact absurd e hN

/-- `solveLocal()`: times of flight are nearly balanced, if none reaches 200 years and no concentration is tiny. -/
theorem local_time (hp : Precise ρ q) (hGr : Gradual ρ) (hodd : ∀ x : K, ρ.rnd (X.fin (-x)) = X.neg (ρ.rnd (X.fin x)))
    (hinf : ρ.rnd X.ninf = X.ninf) {d : SolverData R}
    {F : Flow K} {M : Nat} (hA : Approx ρ q d F M) (hF : F.Valid) (hq2 : q ^ (4 * M + 6) ≤ 2) (hM : (M : K) + 1 ≤ 2 ^ 100)
    (hm : ∀ v < F.n, Sized F v) (hG : GraphPair d F.n) (hE : ∀ u v, Verif.Spec.Edge d F.n u v ↔ F.Edge u v)
    (hfit : Fits d F.n) (hflow : FiniteFlow ρ d F.n) (hrows : PositiveRows ρ d F.n) (hpvn : ∀ x ∈ d.pv, Num ρ x)
    {starts : List Nat} (hs : ∀ p ∈ starts, p < F.n)
    (hsrc : ∀ p ∈ starts, 0 < F.src p) {f : Nat → R} {ls : Nat → K}
    (hfl : ∀ p ∈ starts, Near ρ q M (f p) (ls p) ∧ 0 ≤ ls p ∧ ls p ≤ F.src p)
    (hle : ∀ p ∈ starts, ∀ s, d.sourceTerm[p]? = some s → NotNegative (f p) ∧ Arith.lt s (f p) = false)
    {fuel : Nat} (hf : F.n + numEdges F.n d.g.startPointers ≤ fuel) {st : SolverState R} (hl : st.localSource.length = F.n)
    {sol : LocalSolution R} (h : (solveLocal d Alloc.good fuel (starts.map fun p : Nat => ((p : Int), f p)) st).2 = .ok sol)
    {a : K} (ha : a < cap) (hta : ∀ v, F.Downstream starts v → numOf ρ (sol.tof.find (v : Int)) ≤ a)
    (htiny : ∀ v, F.Downstream starts v → 1 ≤ numOf ρ (sol.concentration.find (v : Int)) * 2 ^ 300) :
    ∀ v, F.Downstream starts v → 0 ≤ numOf ρ (sol.tof.find (v : Int)) ∧ (¬ F.Loop v →
      |F.pv v * numOf ρ (sol.concentration.find (v : Int))
          + (∑ u ∈ range F.n, numOf ρ (sol.tof.find (u : Int)) * numOf ρ (sol.concentration.find (u : Int)) * F.w u v)
          - F.total v * (numOf ρ (sol.tof.find (v : Int)) * numOf ρ (sol.concentration.find (v : Int)))|
        ≤ (a * ((1 / 1000000000 * q + tiny K) * q) + timeTol K q) * F.cycleInflow v
          + (a * (q ^ (4 * M + 6) - 1) + 2 * timeSlack K) * F.total v) := by
  classical
  have hq := hp.one_le
  have hq1 : q ≤ 2 := by
    have : q ^ 1 ≤ q ^ (4 * M + 6) := pow_le_pow_right₀ hq (by omega)
    rw [pow_one] at this
    exact this.trans hq2
  have hI := hfit.int
  have hEeq : Verif.Spec.Edge d F.n = F.Edge := by funext u v; exact propext (hE u v)
  obtain ⟨comps, b, out, ht, hb, hu, ho, hfind⟩ := local_solve hG (by simp [List.map_map, Function.comp_def]) hs hf hl h
  have hEdge : HasEdge F.n d.g.startPointers d.g.neighbourhood = F.Edge := hEeq
  have hV : ∀ v, (∃ p ∈ starts, Reachable F.n d.g.startPointers d.g.neighbourhood p v) ↔ F.Downstream starts v := by
    intro v
    show (∃ p ∈ starts, Relation.ReflTransGen (HasEdge F.n d.g.startPointers d.g.neighbourhood) p v) ↔ _
    rw [hEdge]
    rfl
  have hReach : ∀ u v, Reachable F.n d.g.startPointers d.g.neighbourhood u v ↔ F.Reach u v := by
    intro u v
    show Relation.ReflTransGen (HasEdge F.n d.g.startPointers d.g.neighbourhood) u v ↔ _
    rw [hEdge]
    rfl
  have hVn : ∀ v, F.Downstream starts v → v < F.n := by
    intro v hv
    obtain ⟨p, hps, hr⟩ := (hV v).mpr hv
    exact reachable_lt hG.graph (hs p hps) hr
  have hbs := startArray_spec hI hs hb
  have hlsp := localSource_spec hI starts hs (f := f) (by
    intro p hpm
    obtain ⟨⟨y, hy, hyc⟩, h0, _⟩ := hfl p hpm
    rw [ρ.lt, hy, val_zero' ρ]
    simpa [X.lt] using hyc.nonneg hq h0) (List.replicate F.n Arith.zero) (by simp)
  set lsl := (setupLocalSource (List.replicate F.n Arith.zero) (starts.map fun p : Nat => ((p : Int), f p))).1 with hlsl
  have hstart : ∀ v x, b[v]? = some true → lsl[v]? = some x → v ∈ starts ∧ x = f v := by
    intro v x hbv hx
    have hvn : v < F.n := by
      by_contra hc
      have h1 := hlsp v
      have : v ∉ starts := fun hm => hc (hs v hm)
      rw [if_neg this, hx, List.getElem?_replicate, if_neg hc] at h1
      cases h1
    have h1 := hbs v hvn
    rw [hbv] at h1
    have hvs : v ∈ starts := by simpa using h1
    have h2 := hlsp v
    rw [if_pos hvs, hx] at h2
    exact ⟨hvs, by simpa using h2⟩
  have hlf : LocalFits d b lsl := by
    intro v l s hbv hlv hsv
    obtain ⟨hvs, rfl⟩ := hstart v l hbv hlv
    exact hle v hvs s hsv
  have hln : ∀ (v : Nat) (l : R), b[v]? = some true → lsl[v]? = some l → Num ρ l := by
    intro v l hbv hlv
    obtain ⟨hvs, rfl⟩ := hstart v l hbv hlv
    obtain ⟨⟨y, hy, _⟩, _⟩ := hfl v hvs
    unfold Num; rw [hy]; simp
  obtain ⟨s, hout, hrs, hz, hset⟩ := solve_settled ρ ht (Q := Clocked ρ F.n) (b := b) (d := d) (ls := lsl)
    (fun v hv => by
      have := hVn v ((hV v).mp hv)
      omega) (huge_tol hp hq1) (by
      intro s s' v hv hs' hstep
      have hvn := hVn v ((hV v).mp hv)
      have hso := single_sound ρ hGr hfit hflow hrows hpvn hlf hln hs'.2 ⟨by omega, by exact_mod_cast hvn⟩ hstep
      refine ⟨⟨hso.1, ?_, ?_⟩, hso⟩
      all_goals
        obtain ⟨p, _, _, _, rfl⟩ := single_ok_iff.mp hstep
        simp [hs'.1.tofLen, hs'.1.tracerLen])
    ⟨⟨initial_proper ρ F.n, by simp, by simp⟩, initial_sound ρ F.n⟩ ho
  have hmem : ∀ v, v ∈ comps.flatten ↔ F.Downstream starts v := fun v => (ht.cover v).trans (hV v)
  have hoff : ∀ u < F.n, ¬ F.Downstream starts u → s.1[u]? = some Arith.zero ∧ s.2[u]? = some Arith.zero := by
    intro u hu hn
    have e := hz u fun hc => hn ((hV u).mp hc)
    have e1 : s.1[u]? = (List.replicate F.n (Arith.zero : R))[u]? := congrArg Prod.fst e
    have e2 : s.2[u]? = (List.replicate F.n (Arith.zero : R))[u]? := congrArg Prod.snd e
    rw [e1, e2, List.getElem?_replicate, if_pos hu]
    exact ⟨rfl, rfl⟩
  have hnumc : ∀ v < F.n, numOf ρ (sol.concentration.find (v : Int)) = numOf ρ s.2[v]? := by
    intro v hv
    rw [(hfind v).2, hout]
    by_cases hd : v ∈ comps.flatten
    · rw [if_pos hd]
    · rw [if_neg hd, (hoff v hv fun hc => hd ((hmem v).mpr hc)).2, numOf_some (val_zero' ρ)]
      rfl
  -- times
  have htime : ∀ v < F.n, ∃ A, s.1[v]? = some A ∧ numOf ρ (sol.tof.find (v : Int)) = numOf ρ s.1[v]? ∧
      ρ.val A = X.fin (numOf ρ s.1[v]?) ∧ 0 ≤ numOf ρ s.1[v]? ∧ (F.Downstream starts v → numOf ρ s.1[v]? ≤ a) := by
    intro v hv
    by_cases hd : F.Downstream starts v
    · obtain ⟨A, c, h1, h2, _⟩ := hrs.1.at hv
      have hb := hta v hd
      rw [(hfind v).1, if_pos ((hmem v).mpr hd), hout] at hb ⊢
      simp only [List.getElem?_map, h1, Option.map_some] at hb ⊢
      obtain ⟨e, y, hy, hy0, hya⟩ := below_cap hp.cap (hrs.1.proper.bounded.tof A (List.mem_of_getElem? h1)) (hrs.2.2.1 v A c h1 h2).1 ha hb
      rw [e]
      rw [numOf_some hy]
      exact ⟨A, rfl, rfl, hy, hy0, fun _ => hya⟩
    · rw [(hfind v).1, if_neg fun hc => hd ((hmem v).mp hc), (hoff v hv hd).1, numOf_some (val_zero' ρ)]
      exact ⟨_, rfl, rfl, val_zero' ρ, le_rfl, fun hc => absurd hc hd⟩
  intro v hd
  have hv := hVn v hd
  have ha0 : 0 ≤ a := by
    obtain ⟨_, _, _, _, h0, h1⟩ := htime v hv
    exact h0.trans (h1 hd)
  have hnumt : ∀ u < F.n, numOf ρ (sol.tof.find (u : Int)) = numOf ρ s.1[u]? := fun u hu => by
    obtain ⟨_, _, h, _⟩ := htime u hu; exact h
  refine ⟨by obtain ⟨_, _, h, _, h0, _⟩ := htime v hv; rw [h]; exact h0, fun hloop => ?_⟩
  have hd' := (hmem v).mpr hd
  have hx := htiny v hd
  rw [hnumc v hv] at hx
  rw [hnumc v hv, hnumt v hv, sum_congr rfl fun u hu => by rw [hnumc u (mem_range.mp hu), hnumt u (mem_range.mp hu)]]
  obtain ⟨C, hC, hvC⟩ := List.mem_flatten.mp hd'
  have hbv := hbs v hv
  refine settled_time hp hodd hinf hA hF hq2 hM hv (hm v hv) (b := decide (v ∈ starts)) hbv ?_
    (fun u hu => by rw [hEdge]; exact hu) hrs (hset C hC v hvC) ?_ ?_ ha ?_ hx
  · intro hy
    exact hsrc v (by simpa using hy)
  · intro u hu
    exact ⟨(hReach u v).mp (ht.strong C hC u hu v hvC), (hReach v u).mp (ht.strong C hC v hvC u hu)⟩
  · intro hC1 hedge
    refine hloop ⟨hedge.2.2.ne', ?_⟩
    intro u hu
    have hdu : F.Downstream starts u := by
      obtain ⟨p, hps, hr⟩ := hd
      exact ⟨p, hps, hr.trans hu.2⟩
    have := ht.weak C hC v hvC u ((hV u).mpr hdu) ((hReach v u).mpr hu.2) ((hReach u v).mpr hu.1)
    rw [hC1] at this
    simpa using this
  · intro u hu
    have hun : u < F.n := by
      rcases hu with hu | rfl
      · exact hu.1
      · exact hv
    obtain ⟨A, h1, _, h2, h3, h4⟩ := htime u hun
    refine ⟨A, h1, h2, h3, ?_⟩
    by_cases hdu : F.Downstream starts u
    · exact h4 hdu
    · rw [(hoff u hun hdu).1, numOf_some (val_zero' ρ)]
      exact ha0

variable {D : List (Int × Int × R)} {pv : List R} {l : List (CellSetID × Int × R)} {F : Flow K}
  {DK : List (Nat × Nat × K)} {wells : List (WellFlux K)} {cs : WellFlux K → List Nat} {f : WellFlux K → Nat → K} {M : Nat}

omit [IsStrictOrderedRing K] in
theorem Inputs.num_pv (h : Inputs ρ D pv l F DK wells cs f M) : ∀ x ∈ pv, Num ρ x := by
  intro x hx
  have : ρ.val x ∈ arr F.n F.pv := by rw [← h.pv]; exact List.mem_map.mpr ⟨x, hx, rfl⟩
  unfold arr at this
  obtain ⟨v, _, e⟩ := List.mem_map.mp this
  unfold Num
  rw [← e]
  simp

/-- Times of flight of a well that a computation returns. -/
theorem computeSolution_time (hp : Precise ρ q) (hGr : Gradual ρ) (hodd : ∀ x : K, ρ.rnd (X.fin (-x)) = X.neg (ρ.rnd (X.fin x)))
    (hinf : ρ.rnd X.ninf = X.ninf)
    (hM : q ^ (2 * M + 2) * 200 < 201) (hq2 : q ^ (4 * M + 6) ≤ 2) (hM1 : (M : K) + 1 ≤ 2 ^ 100)
    (h : Inputs ρ D pv l F DK wells cs f M)
    (hm : ∀ v < F.n, Sized F v) {starts : List CellSet} {sol : Solution R} {fuel : Nat}
    (hfuel : F.n + numEdges F.n (graphsOf F.n D).1.startPointers ≤ fuel)
    (hs : computeSolution (graphsOf F.n D).1 (graphsOf F.n D).2 pv (gather l).only (gather l).byId noFailure fuel starts = .ok sol)
    {w : WellFlux K} (hw : w ∈ wells) (hask : ∃ s ∈ starts, s.id = w.id)
    {a : K} (ha : a < cap) (hta : ∀ v, F.Downstream (cs w) v → numOf ρ ((sol.timeOfFlightOf w.id).find (v : Int)) ≤ a)
    (htiny : ∀ v, F.Downstream (cs w) v → 1 ≤ numOf ρ ((sol.concentration w.id).find (v : Int)) * 2 ^ 300) :
    ∀ v, F.Downstream (cs w) v → 0 ≤ numOf ρ ((sol.timeOfFlightOf w.id).find (v : Int)) ∧ (¬ F.Loop v →
      |F.pv v * numOf ρ ((sol.concentration w.id).find (v : Int))
          + (∑ u ∈ range F.n, numOf ρ ((sol.timeOfFlightOf w.id).find (u : Int))
              * numOf ρ ((sol.concentration w.id).find (u : Int)) * F.w u v)
          - F.total v * (numOf ρ ((sol.timeOfFlightOf w.id).find (v : Int)) * numOf ρ ((sol.concentration w.id).find (v : Int)))|
        ≤ (a * ((1 / 1000000000 * q + tiny K) * q) + timeTol K q) * F.cycleInflow v
          + (a * (q ^ (4 * M + 6) - 1) + 2 * timeSlack K) * F.total v) := by
  have hI := h.valid.int
  obtain ⟨hpl, hpn, hpg⟩ := h.nonneg_pv
  have hl : ∀ e ∈ l, 0 ≤ e.2.1 ∧ e.2.1 < F.n := fun e he => (h.nonneg_l e he).1
  have hln : ∀ e ∈ l, NotNegative e.2.2 := fun e he => (h.nonneg_l e he).2
  obtain ⟨d, st, tof, h1, h2, h3, rfl⟩ := (computeSolution_ok_iff (a := Alloc.good)).mp hs
  obtain ⟨hfit, hg, hsrcv, _⟩ := create_fits ρ hI h.range_D (fun c hc => (h.pos_D c hc).notNegative) hpl hpn hl hln h1
  obtain ⟨hA, hG, hE, hg, hls⟩ := h.solver hp hM hm h1
  rw [← hg] at hfuel
  have hdpv : d.pv = pv ∧ d.gReverse = (graphsOf F.n D).2 := by
    unfold Solver.create at h1
    simp only [Res.bind_eq, Res.pure_eq, Res.bind_ok_iff] at h1
    obtain ⟨_, _, _, _, e⟩ := h1
    cases e
    exact ⟨rfl, rfl⟩
  have hrows : PositiveRows ρ d F.n := by
    intro v hv nb hnb
    rw [hdpv.2, (graphsOf_rows hI h.range_D).2 v hv] at hnb
    cases hnb
    exact rowOfFlow_pos ρ (swapEnds_pos ρ h.pos_D) v
  obtain ⟨r1, r2, r3, _, _⟩ := recordAll_spec (okOf d st Alloc.good fuel (gather l).byId) (starts.map CellSet.id)
    ({ tof := tof } : Solution R)
  obtain ⟨s, hss, ew⟩ := hask
  obtain ⟨x, hx⟩ := h3 s hss
  rw [ew] at hx
  have hi' : w.id ∈ starts.map CellSet.id := List.mem_map.mpr ⟨s, hss, ew⟩
  obtain ⟨fR, hfR, hval⟩ := stored_values h hw
  have hrun : (solveLocal d Alloc.good fuel ((cs w).map fun p : Nat => ((p : Int), fR p)) st).2 = .ok x := by
    rw [← hfR]; exact hx
  have hokx : okOf d st Alloc.good fuel (gather l).byId w.id = x := by
    unfold okOf; rw [hx]
  have hconc : (recordAll (okOf d st Alloc.good fuel (gather l).byId) (starts.map CellSet.id)
      ({ tof := tof } : Solution R)).concentration w.id = x.concentration := by
    unfold Solution.concentration Solution.solutionValues
    rw [r2, if_pos hi', hokx]
  have htof : (recordAll (okOf d st Alloc.good fuel (gather l).byId) (starts.map CellSet.id)
      ({ tof := tof } : Solution R)).timeOfFlightOf w.id = x.tof := by
    unfold Solution.timeOfFlightOf Solution.solutionValues
    rw [r3, if_pos hi', hokx]
  rw [hconc] at htiny ⊢
  rw [htof] at hta ⊢
  refine local_time (ls := f w) hp hGr hodd hinf hA h.valid hq2 hM1 hm hG hE hfit (finite_flow hp hM hA h.valid hm) hrows
    (by rw [hdpv.1]; exact h.num_pv) (h.side.range w hw)
    (fun p hp => (h.side.src_pos p).mpr ⟨w, hw, hp⟩) (fun p hpm => ?_) (fun p hpm v hv => ?_) hfuel hls hrun ha hta htiny
  · have h0 := (h.side.pos w hw p hpm).le
    exact ⟨(near_exact (hval p hpm)).mono hp h0 (Nat.zero_le _), h0, h.side.le_src hw hpm⟩
  · have he : ((p : Int), fR p) ∈ OMap.at_ (gather l).byId w.id [] := by
      rw [hfR]; exact List.mem_map.mpr ⟨p, hpm, rfl⟩
    refine ⟨hln _ (byId_mem he), ?_⟩
    obtain ⟨y, hy⟩ := Option.isSome_iff_exists.mp (gather_ids_cells l w.id _ he)
    have hmm := OMap.find_some_mem hy
    have := hsrcv _ hmm
    simp only [Int.toNat_natCast] at this
    rw [this] at hv; cases hv
    exact (only_ge ρ hln hmm).2 w.id _ he

end Verif.Rounding
