/-
Tracers of one start set when the solver returns, in arithmetic with rounding.
-/
import Verif.Proofs.SlackSolve
import Verif.Proofs.AccuracySolution

namespace Verif.Rounding
open Finset Verif.Spec Verif.Solver Verif.Toolbox Verif.Tarjan

variable {R : Type} [Arith R]

/-- `solveLocal()`: what the solution is made of. -/
theorem local_solve {d : SolverData R} {n : Nat} (hd : GraphPair d n) {startset : CellSetValues R} {starts : List Nat}
    (hk : (startset.map fun e => e.1) = starts.map fun v : Nat => (v : Int)) (hs : ∀ p ∈ starts, p < n) {fuel : Nat}
    (hf : n + numEdges n d.g.startPointers ≤ fuel) {st : SolverState R} (hl : st.localSource.length = n)
    {sol : LocalSolution R} (h : (solveLocal d Alloc.good fuel startset st).2 = .ok sol) :
    ∃ comps b out, Topo n d.g.startPointers d.g.neighbourhood
        (fun v => ∃ p ∈ starts, Reachable n d.g.startPointers d.g.neighbourhood p v) comps ∧
      setupStartArray (List.replicate n false) startset = .ok b ∧
      (setupLocalSource (List.replicate n Arith.zero) startset).2 = .ok () ∧
      solve d b (setupLocalSource (List.replicate n Arith.zero) startset).1 (cellsOf comps) (offsets comps) fuel
        (List.replicate n Arith.zero, List.replicate n Arith.zero) = .ok out ∧
      ∀ v : Nat, sol.tof.find (v : Int) = (if v ∈ comps.flatten then out.1[v]? else none) ∧
        sol.concentration.find (v : Int) = (if v ∈ comps.flatten then out.2[v]? else none) := by
  obtain ⟨comps, ht, horder⟩ := computeLocalOrdering_spec hd.graph hd.size Alloc.good_good starts hs
  have hIc : ∀ v ∈ comps.flatten, v ≤ INT_MAX := fun v hv => by
    obtain ⟨p, hps, hr⟩ := (ht.cover v).mp hv
    have := reachable_lt hd.graph (hs p hps) hr
    have := hd.graph.vertices_int
    omega
  rw [solveLocal_indep Alloc.good fuel startset st { localSource := List.replicate n Arith.zero } (by simp [hl])] at h
  unfold solveLocal prepareForSolve at h
  simp only [hd.pv, finish_snd, hk, horder fuel hf, Res.ok_bind] at h
  obtain ⟨b, hb, h⟩ := Res.bind_ok_iff.mp h
  obtain ⟨u, hu, h⟩ := Res.bind_ok_iff.mp h
  obtain ⟨out, ho, h⟩ := Res.bind_ok_iff.mp h
  obtain ⟨ls, _, h⟩ := Res.bind_ok_iff.mp h
  obtain ⟨sol', hco, h⟩ := Res.bind_ok_iff.mp h
  cases h
  refine ⟨comps, b, out, ht, hb, hu, ho, ?_⟩
  have hread : readCells (cellsOf comps) 0 comps.flatten.length = .ok (cellsOf comps) := by
    have hl : (cellsOf comps).length = comps.flatten.length := by unfold cellsOf; rw [List.length_map]
    unfold readCells
    rw [if_pos (by omega), List.drop_zero, ← hl, List.take_length]
  unfold collect at hco
  simp only [Res.bind_eq, back_offsets, Res.ok_bind, hread] at hco
  intro v
  have := collect_find _ _ comps.flatten hIc _ _ hco (v : Int)
  rw [this.1, this.2]
  simp [OMap.find_nil]

variable {K : Type} [Field K] [LinearOrder K] [IsStrictOrderedRing K] {ρ : Rounded R K} {q : K}

/-- `solveLocal()`: concentrations are from 0 to 1, and nearly balanced. -/
theorem local_balance (hp : Precise ρ q) (hodd : ∀ x : K, ρ.rnd (X.fin (-x)) = X.neg (ρ.rnd (X.fin x))) {d : SolverData R}
    {F : Flow K} {M : Nat} (hA : Approx ρ q d F M) (hF : F.Valid) (hq2 : q ^ (4 * M + 4) ≤ 2) (hM : (M : K) + 1 ≤ 2 ^ 100)
    (hm : ∀ v < F.n, Sized F v) (hG : GraphPair d F.n) (hE : ∀ u v, Verif.Spec.Edge d F.n u v ↔ F.Edge u v)
    (hfit : Fits d F.n) (hflow : FiniteFlow ρ d F.n) {starts : List Nat} (hs : ∀ p ∈ starts, p < F.n)
    (hsrc : ∀ p ∈ starts, 0 < F.src p) {f : Nat → R} {ls : Nat → K}
    (hfl : ∀ p ∈ starts, Near ρ q M (f p) (ls p) ∧ 0 ≤ ls p ∧ ls p ≤ F.src p)
    (hle : ∀ p ∈ starts, ∀ s, d.sourceTerm[p]? = some s → NotNegative (f p) ∧ Arith.lt s (f p) = false)
    {fuel : Nat} (hf : F.n + numEdges F.n d.g.startPointers ≤ fuel) {st : SolverState R} (hl : st.localSource.length = F.n)
    {sol : LocalSolution R} (h : (solveLocal d Alloc.good fuel (starts.map fun p : Nat => ((p : Int), f p)) st).2 = .ok sol) :
    (∀ v, F.Downstream starts v ↔ (sol.concentration.find (v : Int)).isSome) ∧
    (∀ v < F.n, ∀ a, sol.concentration.find (v : Int) = some a → ∃ x, ρ.val a = X.fin x ∧ 0 ≤ x ∧ x ≤ 1) ∧
    ∀ v < F.n, ¬ F.Loop v →
      |(∑ u ∈ range F.n, numOf ρ (sol.concentration.find (u : Int)) * F.w u v) + injected starts ls v
          - F.total v * numOf ρ (sol.concentration.find (v : Int))|
        ≤ (1 / 1000000000 * q + tiny K) * q * F.cycleInflow v + (q ^ (4 * M + 4) - 1 + 2 * slack K) * F.total v := by
  classical
  have hq := hp.one_le
  have hq1 : q ≤ 2 := by
    have : q ^ 1 ≤ q ^ (4 * M + 4) := pow_le_pow_right₀ hq (by omega)
    rw [pow_one] at this
    exact this.trans hq2
  have hI := hfit.int
  have hEeq : Verif.Spec.Edge d F.n = F.Edge := by funext u v; exact propext (hE u v)
  obtain ⟨comps, b, out, ht, hb, hu, ho, hfind⟩ := local_solve hG (by simp [List.map_map, Function.comp_def]) hs hf hl h
  have hEdge : HasEdge F.n d.g.startPointers d.g.neighbourhood = F.Edge := hEeq
  have hV : ∀ v, (∃ p ∈ starts, Reachable F.n d.g.startPointers d.g.neighbourhood p v) ↔ F.Downstream starts v := by
    intro v
    show (∃ p ∈ starts, Relation.ReflTransGen (HasEdge F.n d.g.startPointers d.g.neighbourhood) p v) ↔ _
    rw [hEdge]
    rfl
  have hReach : ∀ u v, Reachable F.n d.g.startPointers d.g.neighbourhood u v ↔ F.Reach u v := by
    intro u v
    show Relation.ReflTransGen (HasEdge F.n d.g.startPointers d.g.neighbourhood) u v ↔ _
    rw [hEdge]
    rfl
  have hVn : ∀ v, F.Downstream starts v → v < F.n := by
    intro v hv
    obtain ⟨p, hps, hr⟩ := (hV v).mpr hv
    exact reachable_lt hG.graph (hs p hps) hr
  have hbs := startArray_spec hI hs hb
  have hlsp := localSource_spec hI starts hs (f := f) (by
    intro p hpm
    obtain ⟨⟨y, hy, hyc⟩, h0, _⟩ := hfl p hpm
    rw [ρ.lt, hy, val_zero' ρ]
    simpa [X.lt] using hyc.nonneg hq h0) (List.replicate F.n Arith.zero) (by simp)
  set lsl := (setupLocalSource (List.replicate F.n Arith.zero) (starts.map fun p : Nat => ((p : Int), f p))).1 with hlsl
  have hstart : ∀ v x, b[v]? = some true → lsl[v]? = some x → v ∈ starts ∧ x = f v := by
    intro v x hbv hx
    have hvn : v < F.n := by
      by_contra hc
      have h1 := hlsp v
      have : v ∉ starts := fun hm => hc (hs v hm)
      rw [if_neg this, hx, List.getElem?_replicate, if_neg hc] at h1
      cases h1
    have h1 := hbs v hvn
    rw [hbv] at h1
    have hvs : v ∈ starts := by simpa using h1
    have h2 := hlsp v
    rw [if_pos hvs, hx] at h2
    exact ⟨hvs, by simpa using h2⟩
  have hlf : LocalFits d b lsl := by
    intro v l s hbv hlv hsv
    obtain ⟨hvs, rfl⟩ := hstart v l hbv hlv
    exact hle v hvs s hsv
  have hln : ∀ (v : Nat) (l : R), b[v]? = some true → lsl[v]? = some l → Num ρ l := by
    intro v l hbv hlv
    obtain ⟨hvs, rfl⟩ := hstart v l hbv hlv
    obtain ⟨⟨y, hy, _⟩, _⟩ := hfl v hvs
    unfold Num; rw [hy]; simp
  obtain ⟨s, hout, hrs, hz, hset⟩ := solve_settled ρ ht (Q := Ready ρ F.n) (b := b) (d := d) (ls := lsl)
    (fun v hv => by
      have := hVn v ((hV v).mp hv)
      omega) (huge_tol hp hq1) (by
      intro s s' v hv hs' hstep
      have hvn := hVn v ((hV v).mp hv)
      refine ⟨(single_calm ρ hfit hflow hlf hln hs'.proper ⟨by omega, by exact_mod_cast hvn⟩).2 s' hstep, ?_, ?_⟩
      all_goals
        obtain ⟨p, _, _, _, rfl⟩ := single_ok_iff.mp hstep
        simp [hs'.tofLen, hs'.tracerLen])
    ⟨initial_proper ρ F.n, by simp, by simp⟩ ho
  have hmem : ∀ v, v ∈ comps.flatten ↔ F.Downstream starts v := fun v => (ht.cover v).trans (hV v)
  have hconc : ∀ v : Nat, sol.concentration.find (v : Int) = if v ∈ comps.flatten then s.2[v]? else none := by
    intro v
    rw [(hfind v).2, hout]
  have hnum : ∀ v < F.n, numOf ρ (sol.concentration.find (v : Int)) = numOf ρ s.2[v]? := by
    intro v hv
    rw [hconc]
    by_cases hd : v ∈ comps.flatten
    · rw [if_pos hd]
    · rw [if_neg hd]
      have : s.2[v]? = (List.replicate F.n (Arith.zero : R))[v]? :=
        congrArg Prod.snd (hz v fun hc => hd ((ht.cover v).mpr hc))
      rw [this, List.getElem?_replicate, if_pos hv, numOf_some (val_zero' ρ)]
      rfl
  refine ⟨?_, ?_, ?_⟩
  · intro v
    rw [hconc, ← hmem]
    by_cases hd : v ∈ comps.flatten
    · obtain ⟨_, c, _, hc, _⟩ := hrs.at (hVn v ((hmem v).mp hd))
      simp [hd, hc]
    · simp [hd]
  · intro v hv a ha
    rw [hconc] at ha
    split at ha
    · obtain ⟨_, c, _, hc, h1, h2, h3⟩ := hrs.at hv
      rw [ha] at hc
      cases hc
      exact ⟨_, h1, h2, h3⟩
    · cases ha
  · intro v hv hloop
    rw [hnum v hv, sum_congr rfl fun u hu => by rw [hnum u (mem_range.mp hu)]]
    by_cases hd : v ∈ comps.flatten
    · obtain ⟨C, hC, hvC⟩ := List.mem_flatten.mp hd
      have hbv := hbs v hv
      refine settled_balance hp hodd hA hF hq2 hM hv (hm v hv) (inj := injected starts ls v) (b := decide (v ∈ starts)) ?_ ?_ hbv ?_ ?_
        (fun u hu => by rw [hEdge]; exact hu) hrs (hset C hC v hvC) ?_ ?_
      · unfold injected; split
        · exact (hfl v (by assumption)).2.1
        · exact le_rfl
      · unfold injected; split
        · exact (hfl v (by assumption)).2.2
        · exact hF.src_nonneg v hv
      · intro hn
        unfold injected
        rw [if_neg (by simpa using hn)]
      · intro hy
        have hy : v ∈ starts := by simpa using hy
        refine ⟨hsrc v hy, f v, by rw [hlsp v, if_pos hy], ?_⟩
        unfold injected; rw [if_pos hy]; exact (hfl v hy).1
      · intro u hu
        exact ⟨(hReach u v).mp (ht.strong C hC u hu v hvC), (hReach v u).mp (ht.strong C hC v hvC u hu)⟩
      · intro hC1 hedge
        refine hloop ⟨hedge.2.2.ne', ?_⟩
        intro u hu
        have hdu : F.Downstream starts u := by
          obtain ⟨p, hps, hr⟩ := (hmem v).mp hd
          exact ⟨p, hps, hr.trans hu.2⟩
        have := ht.weak C hC v hvC u ((hV u).mpr hdu) ((hReach v u).mpr hu.2) ((hReach u v).mpr hu.1)
        rw [hC1] at this
        simpa using this
    · -- nothing arrives
      have hzero : ∀ u < F.n, ¬ F.Downstream starts u → numOf ρ s.2[u]? = 0 := by
        intro u hu hn
        have : s.2[u]? = (List.replicate F.n (Arith.zero : R))[u]? :=
          congrArg Prod.snd (hz u fun hc => hn ((hV u).mp hc))
        rw [this, List.getElem?_replicate, if_pos hu, numOf_some (val_zero' ρ)]
      have hnd : ¬ F.Downstream starts v := fun hc => hd ((hmem v).mpr hc)
      have h0 : ∑ u ∈ range F.n, numOf ρ s.2[u]? * F.w u v = 0 := sum_eq_zero fun u hu => by
        have hun := mem_range.mp hu
        by_cases hw : 0 < F.w u v
        · have : ¬ F.Downstream starts u := by
            rintro ⟨p, hps, hr⟩
            exact hnd ⟨p, hps, hr.tail ⟨hun, hv, hw⟩⟩
          rw [hzero u hun this, zero_mul]
        · rw [le_antisymm (not_lt.mp hw) (hF.w_nonneg u v hun hv), mul_zero]
      have hi : injected starts ls v = 0 := by
        unfold injected
        rw [if_neg]
        exact fun hvs => hnd ⟨v, hvs, Relation.ReflTransGen.refl⟩
      rw [h0, hi, hzero v hv hnd, mul_zero, add_zero, sub_zero, abs_zero]
      have h1 : 0 ≤ F.cycleInflow v := by
        unfold Flow.cycleInflow
        exact sum_nonneg fun u hu => by
          split
          · exact hF.w_nonneg u v (mem_range.mp hu) hv
          · exact le_rfl
      have h2 : 0 ≤ F.total v := (hm v hv).total.nonneg
      have h3 : (1 : K) ≤ q ^ (4 * M + 4) := one_le_pow₀ hq
      have h4 := tiny_pos (K := K)
      have h5 := slack_pos (K := K)
      have h6 : 0 ≤ (1 / 1000000000 : K) * q := mul_nonneg (by norm_num) (by linarith)
      exact add_nonneg (mul_nonneg (mul_nonneg (by linarith) (by linarith)) h1) (mul_nonneg (by linarith) h2)

end Verif.Rounding
