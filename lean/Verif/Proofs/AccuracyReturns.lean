/-
Computations with rounding return a solution where the exact ones do.
-/
import Verif.Proofs.AccuracySolution

namespace Verif
open Verif.Spec Verif.Solver Verif.Toolbox Finset

/-- Ends with a value, if it does not end in undefined behaviour. -/
def Plain {α : Type} (r : Res α) : Prop := (∃ a, r = .ok a) ∨ ∃ u, r = .ub u

namespace Plain
variable {α β : Type}

theorem ok (a : α) : Plain (.ok a) := Or.inl ⟨a, rfl⟩

theorem bind {r : Res α} {k : α → Res β} (h : Plain r) (hk : ∀ a, Plain (k a)) : Plain (r.bind k) := by
  rcases h with ⟨a, rfl⟩ | ⟨u, rfl⟩
  · exact hk a
  · exact Or.inr ⟨u, rfl⟩

theorem rd (l : List α) (i : Nat) : Plain (Verif.rd l i) := by
  unfold Verif.rd; split
  · exact .ok _
  · exact Or.inr ⟨_, rfl⟩

theorem wr (l : List α) (i : Nat) (a : α) : Plain (Verif.wr l i a) := by
  unfold Verif.wr; split
  · exact .ok _
  · exact Or.inr ⟨_, rfl⟩

theorem assert (b : Bool) : Plain (assertThat b) := by
  cases b
  · exact Or.inr ⟨_, rfl⟩
  · exact .ok _

theorem forEach {σ : Type} {xs : List α} {f : σ → α → Res σ} (h : ∀ s, ∀ x ∈ xs, Plain (f s x)) (s : σ) :
    Plain (Verif.forEach xs s f) := by
  induction xs generalizing s with
  | nil => exact .ok _
  | cons x xs ih =>
    rw [forEach_cons]
    exact (h s x List.mem_cons_self).bind fun a => ih (fun s y hy => h s y (List.mem_cons_of_mem _ hy)) a

theorem ok_of {r : Res α} (h : Plain r) (hs : r.Safe) (hc : Rounding.Calm r) : ∃ a, r = .ok a := by
  rcases h with h | ⟨u, rfl⟩
  · exact h
  · cases hs
    exact absurd rfl hc

end Plain

namespace Rounding
variable {R : Type} [Arith R] {d : SolverData R} {n : Nat}

theorem plain_cell {isStart : List Bool} {ls : List R} {s : List R × List R} (v : Nat)
    (hnb : ∃ nb, d.gReverse.cellNeighbourhood (v : Int) = .ok nb) : Plain (solveSingleCell d isStart ls s (v : Int)) := by
  obtain ⟨nb, hnb⟩ := hnb
  unfold solveSingleCell
  simp only [Res.bind_eq, Res.pure_eq, hnb, Res.ok_bind]
  refine (Plain.rd _ _).bind fun src => (Plain.rd _ _).bind fun start => (Plain.rd _ _).bind fun infl => ?_
  refine (Plain.forEach ?_ _).bind fun up => ?_
  · intro s x _
    unfold addUpwind
    simp only [Res.bind_eq, Res.pure_eq]
    exact (Plain.rd _ _).bind fun _ => (Plain.rd _ _).bind fun _ => .ok _
  · refine Plain.bind ?_ fun c => (Plain.assert _).bind fun _ => (Plain.assert _).bind fun _ => Plain.bind ?_ fun c =>
      (Plain.wr _ _ _).bind fun _ => (Plain.rd _ _).bind fun _ => (Plain.wr _ _ _).bind fun _ => .ok _
    · unfold withLocalSource
      split
      · simp only [Res.bind_eq, Res.pure_eq]
        exact (Plain.rd _ _).bind fun _ => .ok _
      · exact .ok _
    · unfold cellTracer
      split
      · simp only [Res.bind_eq, Res.pure_eq]
        exact (Plain.assert _).bind fun _ => .ok _
      · exact .ok _

theorem plain_visit (hG : GraphPair d n) {isStart : List Bool} {ls : List R} {seq : List Nat} (hseq : ∀ v ∈ seq, v < n)
    (s : List R × List R) : Plain (visit d isStart ls seq s) := by
  refine Plain.forEach ?_ s
  intro s x hx
  obtain ⟨v, hv, rfl⟩ := List.mem_map.mp hx
  obtain ⟨nb, hnb, _⟩ := hG.upwind v (hseq v hv)
  exact plain_cell v ⟨nb, hnb⟩

/-- `solveGlobal()` on a cycle-free graph throws nothing and ends. -/
theorem plain_global (hG : GraphPair d n) (hacy : ∀ v, ¬ Relation.TransGen (Verif.Spec.Edge d n) v v)
    {fuel : Nat} (hf : n + numEdges n d.g.startPointers ≤ fuel) (st : SolverState R) : Plain (solveGlobal d Alloc.good fuel st).2 := by
  obtain ⟨comps, ht, horder⟩ := computeOrdering_spec hG.graph hG.size Alloc.good_good
  unfold solveGlobal prepareForSolve
  simp only [hG.pv, finish_snd, horder fuel hf, Res.ok_bind, solve_singles (singles_of_acyclic ht hacy)]
  refine Plain.bind ?_ fun b => Plain.bind ?_ fun _ => .ok _
  · unfold setupStartArrayFromSource
    refine Plain.forEach ?_ _
    intro s x _
    simp only [Res.bind_eq, Res.pure_eq]
    refine (Plain.rd _ _).bind fun _ => ?_
    split
    · exact .wr _ _ _
    · exact .ok _
  · exact (plain_visit hG (fun v hv => (ht.cover v).mp hv) _).bind fun _ => .ok _

theorem setupLocalSource_plain {startset : CellSetValues R} (h : ∀ e ∈ startset, Arith.lt e.2 Arith.zero = false) (ls : List R) :
    Plain (setupLocalSource ls startset).2 := by
  induction startset generalizing ls with
  | nil => exact .ok _
  | cons p ps ih =>
    unfold setupLocalSource
    rw [h p List.mem_cons_self]
    simp only [Bool.false_eq_true, if_false]
    have := ih fun e he => h e (List.mem_cons_of_mem _ he)
    split
    · exact this _
    · rename_i e; unfold wr at e; split at e <;> cases e
    · exact Or.inr ⟨_, rfl⟩
    · rename_i e; unfold wr at e; split at e <;> cases e

theorem collect_plain {tof tracer : List R} {seq : List Nat} (hI : ∀ v ∈ seq, v ≤ INT_MAX)
    (h : ∀ v ∈ seq, ∀ c, tracer[v]? = some c → Arith.le c Arith.zero = false) (r : LocalSolution R) :
    Plain (forEach (seq.map fun v : Nat => (v : Int)) r (collectCell tof tracer)) := by
  refine Plain.forEach ?_ r
  intro s x hx
  obtain ⟨v, hv, rfl⟩ := List.mem_map.mp hx
  have hsz : sizeOfInt (v : Int) = v := by
    rw [sizeOfInt_nonneg (by omega) (by exact_mod_cast hI v hv)]; simp
  unfold collectCell
  simp only [Res.bind_eq, Res.pure_eq, hsz]
  refine (Plain.rd _ _).bind fun _ => ?_
  cases hc : rd tracer v with
  | ok c =>
    rw [Res.ok_bind, h v hv c (rd_iff.mp hc)]
    exact .ok _
  | ub u => exact Or.inr ⟨u, rfl⟩
  | throw e => unfold rd at hc; split at hc <;> cases hc
  | diverge => unfold rd at hc; split at hc <;> cases hc

/-- `solveLocal()` on a cycle-free graph throws nothing and ends, if all concentrations are positive. -/
theorem plain_local (hG : GraphPair d n) (hacy : ∀ v, ¬ Relation.TransGen (Verif.Spec.Edge d n) v v)
    {startset : CellSetValues R} {starts : List Nat} (hk : (startset.map fun e => e.1) = starts.map fun v : Nat => (v : Int))
    (hp : ∀ p ∈ starts, p < n) {seq : List Nat}
    (hseq : TopologicalOrder (Verif.Spec.Edge d n) (fun v => ∃ p ∈ starts, Relation.ReflTransGen (Verif.Spec.Edge d n) p v) seq)
    {fuel : Nat} (hf : n + numEdges n d.g.startPointers ≤ fuel) {st : SolverState R} (hl : st.localSource.length = n)
    (hnn : ∀ e ∈ startset, Arith.lt e.2 Arith.zero = false)
    (hpos : ∀ isStart s, setupStartArray (List.replicate n false) startset = .ok isStart →
      visitCells d isStart (setupLocalSource (List.replicate n Arith.zero) startset).1 n seq = .ok s →
      ∀ v ∈ seq, ∀ c, s.2[v]? = some c → Arith.le c Arith.zero = false) :
    Plain (solveLocal d Alloc.good fuel startset st).2 := by
  obtain ⟨comps, ht, horder⟩ := computeLocalOrdering_spec hG.graph hG.size Alloc.good_good starts hp
  have hV : ∀ v, (∃ p ∈ starts, Relation.ReflTransGen (Verif.Spec.Edge d n) p v) → v < n := by
    rintro v ⟨p, hps, hr⟩
    rcases Relation.ReflTransGen.cases_tail hr with e | ⟨x, _, e⟩
    · rw [e]; exact hp p hps
    · have := hG.graph.range x e.1 _ e.2
      omega
  have htop := topologicalOrder_of_topo ht hacy
  have hperm : seq.Perm comps.flatten := (List.perm_ext_iff_of_nodup hseq.once ht.once).mpr fun v =>
    (hseq.cells v).trans (ht.cover v).symm
  have hIc : ∀ v ∈ comps.flatten, v ≤ INT_MAX := fun v hv => by
    have := hV v ((ht.cover v).mp hv)
    have := hG.graph.vertices_int
    omega
  rw [solveLocal_indep Alloc.good fuel startset st { localSource := List.replicate n Arith.zero } (by simp [hl])]
  unfold solveLocal prepareForSolve
  simp only [hG.pv, finish_snd, hk, horder fuel hf, Res.ok_bind, solve_singles (singles_of_acyclic ht hacy)]
  cases hs : setupStartArray (List.replicate n false) startset with
  | throw e =>
    have : Plain (setupStartArray (List.replicate n false) startset) := Plain.forEach (fun _ _ _ => .wr _ _ _) _
    rw [hs] at this
    rcases this with ⟨_, h⟩ | ⟨_, h⟩ <;> cases h
  | diverge =>
    have : Plain (setupStartArray (List.replicate n false) startset) := Plain.forEach (fun _ _ _ => .wr _ _ _) _
    rw [hs] at this
    rcases this with ⟨_, h⟩ | ⟨_, h⟩ <;> cases h
  | ub u => exact Or.inr ⟨u, rfl⟩
  | ok b =>
    rw [Res.ok_bind]
    refine (setupLocalSource_plain hnn _).bind fun _ => ?_
    cases hv : visit d b (setupLocalSource (List.replicate n Arith.zero) startset).1 comps.flatten
        (List.replicate n Arith.zero, List.replicate n Arith.zero) with
    | throw e =>
      have := plain_visit hG (isStart := b) (ls := (setupLocalSource (List.replicate n Arith.zero) startset).1)
        (fun v hv => hV v ((ht.cover v).mp hv)) (List.replicate n Arith.zero, List.replicate n Arith.zero)
      rw [hv] at this
      rcases this with ⟨_, h⟩ | ⟨_, h⟩ <;> cases h
    | diverge =>
      have := plain_visit hG (isStart := b) (ls := (setupLocalSource (List.replicate n Arith.zero) startset).1)
        (fun v hv => hV v ((ht.cover v).mp hv)) (List.replicate n Arith.zero, List.replicate n Arith.zero)
      rw [hv] at this
      rcases this with ⟨_, h⟩ | ⟨_, h⟩ <;> cases h
    | ub u => exact Or.inr ⟨u, rfl⟩
    | ok s =>
      simp only [Res.ok_bind]
      have hvis := visit_order hIc ht.once hperm (upwind_of_order hG hV htop) (upwind_of_order hG hV hseq) hv
      refine Plain.bind (Plain.forEach (fun _ _ _ => .wr _ _ _) _) fun _ => Plain.bind ?_ fun _ => .ok _
      have hread : readCells (cellsOf comps) 0 comps.flatten.length = .ok (cellsOf comps) := by
        have hl : (cellsOf comps).length = comps.flatten.length := by unfold cellsOf; rw [List.length_map]
        unfold readCells
        rw [if_pos (by omega), List.drop_zero, ← hl, List.take_length]
      unfold collect
      simp only [Res.bind_eq, back_offsets, Res.ok_bind, hread]
      exact collect_plain hIc (fun v hv c hc => hpos b s hs hvis v (hperm.mem_iff.mpr hv) c hc) _

variable {K : Type} [Field K] [LinearOrder K] [IsStrictOrderedRing K] {ρ : Rounded R K} {q : K}
variable {D : List (Int × Int × R)} {pv : List R} {l : List (CellSetID × Int × R)} {F : Flow K}
  {DK : List (Nat × Nat × K)} {wells : List (WellFlux K)} {cs : WellFlux K → List Nat} {f : WellFlux K → Nat → K} {M : Nat}

/-- Under the hypotheses of `computeSolution_accuracy`, the computation returns a solution. -/
theorem computeSolution_returns [Archimedean K] (hp : Precise ρ q) (hM : q ^ (2 * M + 2) * 200 < 201)
    (h : Inputs ρ D pv l F DK wells cs f M) (hm : ∀ v < F.n, Moderate F v) {depth : Nat → Nat}
    (hd : ∀ u v, F.Edge u v → depth u < depth v) (hd100 : ∀ v < F.n, depth v ≤ 2 ^ 100)
    (hdq : ∀ v < F.n, q ^ expT M (depth v) ≤ 2) {starts : List CellSet}
    {sol' : Solution (X K)} (hD : Props.Diag F wells cs f starts sol') (hvis : Visible sol') :
    ∃ N, ∀ fuel, N ≤ fuel → ∃ sol,
      computeSolution (graphsOf F.n D).1 (graphsOf F.n D).2 pv (gather l).only (gather l).byId noFailure fuel starts = .ok sol := by
  have hI := h.valid.int
  obtain ⟨hpl, hpn, hpg⟩ := h.nonneg_pv
  have hl : ∀ e ∈ l, 0 ≤ e.2.1 ∧ e.2.1 < F.n := fun e he => (h.nonneg_l e he).1
  have hln : ∀ e ∈ l, NotNegative e.2.2 := fun e he => (h.nonneg_l e he).2
  obtain ⟨hG0, hG1⟩ := graphsOf_good hI h.range_D
  obtain ⟨d, st, hcr, hready, hst⟩ := create_ready hI hG0 hG1 hpl (gather_range hl).1
  obtain ⟨hfit, hg, hsrc, hval⟩ := create_fits ρ hI h.range_D (fun c hc => (h.pos_D c hc).notNegative) hpl hpn hl hln hcr
  obtain ⟨hA, hG, hE, _, hls⟩ := h.solver hp hM (fun v hv => (hm v hv).toSized) hcr
  have hEeq : Verif.Spec.Edge d F.n = F.Edge := by funext u v; exact propext (hE u v)
  have hacy' : ∀ v, ¬ Relation.TransGen (Verif.Spec.Edge d F.n) v v := by rw [hEeq]; exact acyclic_of_depth hd
  have hgood : GoodGraph d.g F.n := hg ▸ hG0
  have hq1 := hp.one_le
  have hflow : FiniteFlow ρ d F.n := by
    intro v hv a s ha hs
    obtain ⟨a', ha', hna⟩ := hA.influx v hv
    obtain ⟨s', hs', hns⟩ := hA.source v hv
    rw [ha] at ha'; cases ha'
    rw [hs] at hs'; cases hs'
    have hmv := hm v hv
    have hin : 0 ≤ F.inflow v := Finset.sum_nonneg fun u hu => h.valid.w_nonneg u v (Finset.mem_range.mp hu) hv
    have hle : q ^ (2 * M) ≤ 2 := by
      have h1 : q ^ (2 * M) ≤ q ^ (2 * M + 2) := pow_le_pow_right₀ hq1 (by omega)
      linarith
    obtain ⟨y, hy, _⟩ := near_add hp hle hna (hns.mono hp hmv.src.nonneg (by omega)) (hmv.total.mono (by omega) : Range 1000 (F.inflow v + F.src v))
    exact ⟨y, hy⟩
  obtain ⟨N0, hN0⟩ := solveGlobal_safe hready
  have hone : ∀ s ∈ starts, ∃ N, ∀ fuel, N ≤ fuel → ∃ x, localOf d st Alloc.good fuel (gather l).byId s.id = .ok x := by
    intro s hss
    obtain ⟨w, hw, fR, τ, c, cells, hfR, hrg, hsr, hfl, hf, hcle, hcpos, hcmin, htmin, _, _, _⟩ := local_data hp h hD hvis hss
    obtain ⟨N1, hN1⟩ := solveLocal_safe hready ((gather_range hl).2 s.id)
    refine ⟨max N1 (F.n + numEdges F.n d.g.startPointers), fun fuel hfu => ?_⟩
    have hfu2 : F.n + numEdges F.n d.g.startPointers ≤ fuel := le_trans (le_max_right _ _) hfu
    have hnum : ∀ e ∈ OMap.at_ (gather l).byId s.id [], ∃ z, ρ.val e.2 = X.fin z ∧ 0 ≤ z := by
      intro e he
      rw [hfR] at he
      obtain ⟨p, hpm, rfl⟩ := List.mem_map.mp he
      obtain ⟨⟨y, hy, hyc⟩, h0⟩ := hfl p hpm
      exact ⟨y, hy, hyc.nonneg hp.one_le h0⟩
    have hcalm := (local_calm ρ hfit hflow hgood hfu2 (st := st) ((gather_range hl).2 s.id) (by
      intro e he
      obtain ⟨z, hz, _⟩ := hnum e he
      unfold Num; rw [hz]; simp) (by
      intro e he v hv
      refine ⟨hln _ (byId_mem he), ?_⟩
      have hsome := gather_ids_cells l s.id e he
      obtain ⟨w, hw⟩ := Option.isSome_iff_exists.mp hsome
      have hm := OMap.find_some_mem hw
      have := hsrc _ hm
      simp only at this
      rw [this] at hv; cases hv
      exact (only_ge ρ hln hm).2 s.id e.2 he)).1
    obtain ⟨comps, ht, _⟩ := computeLocalOrdering_spec hG.graph hG.size Alloc.good_good (cs w) hrg
    have htop := topologicalOrder_of_topo ht hacy'
    have htop' : TopologicalOrder (Verif.Spec.Edge d F.n) (F.Downstream (cs w)) comps.flatten := by
      refine ⟨htop.once, fun v => (htop.cells v).trans ?_, htop.order⟩
      show (∃ p ∈ cs w, Relation.ReflTransGen (Verif.Spec.Edge d F.n) p v) ↔ _
      rw [hEeq]
      rfl
    have hplain := plain_local hG hacy' (startset := OMap.at_ (gather l).byId s.id []) (starts := cs w)
      (by rw [hfR, List.map_map]; rfl) hrg htop hfu2 hls (by
        intro e he
        obtain ⟨z, hz, h0⟩ := hnum e he
        rw [ρ.lt, hz, val_zero' ρ]
        simpa [X.lt] using h0) (by
        intro isStart t h1 h2 v hv a ha
        have hdv := (htop'.cells v).mp hv
        rw [hfR] at h1 h2
        obtain ⟨_, a', _, ha', hna, _⟩ := local_fields hp hA hM hm hG h.valid hrg hsr hfl hf hcle hcmin htmin hd hd100 hdq
          htop' h1 h2 v hdv
        rw [ha] at ha'; cases ha'
        obtain ⟨y, hy, hyc⟩ := hna
        have hcp := hcpos v hdv
        have := (hyc.pos_iff hp.one_le hcp.le).mpr hcp
        rw [ρ.le, hy, val_zero' ρ]
        simp [X.le, X.lt, X.eq, this.le, this.ne'])
    exact hplain.ok_of (hN1 fuel (le_trans (le_max_left _ _) hfu) st hst) hcalm
  have hall : ∃ N, ∀ fuel, N ≤ fuel → ∀ s ∈ starts, ∃ x, localOf d st Alloc.good fuel (gather l).byId s.id = .ok x := by
    clear hD
    induction starts with
    | nil => exact ⟨0, by simp⟩
    | cons s rest ih =>
      obtain ⟨N, hN⟩ := ih fun s hs => hone s (List.mem_cons_of_mem _ hs)
      obtain ⟨N', hN'⟩ := hone s List.mem_cons_self
      refine ⟨max N N', fun fuel hfu s' hs' => ?_⟩
      rcases List.mem_cons.mp hs' with rfl | hs'
      · exact hN' fuel (le_trans (le_max_right _ _) hfu)
      · exact hN fuel (le_trans (le_max_left _ _) hfu) s' hs'
  obtain ⟨N1, hN1⟩ := hall
  refine ⟨max (max N0 N1) (F.n + numEdges F.n d.g.startPointers), fun fuel hfu => ?_⟩
  have hfu2 : F.n + numEdges F.n d.g.startPointers ≤ fuel := le_trans (le_max_right _ _) hfu
  obtain ⟨tof, htof⟩ := (plain_global hG hacy' hfu2 st).ok_of
    (hN0 fuel (le_trans (le_trans (le_max_left _ _) (le_max_left _ _)) hfu) st) (global_calm ρ hfit hflow hgood hfu2 st)
  exact ⟨_, (computeSolution_ok_iff (a := Alloc.good)).mpr ⟨d, st, tof, hcr, htof,
    hN1 fuel (le_trans (le_trans (le_max_right _ _) (le_max_left _ _)) hfu), rfl⟩⟩

end Rounding
end Verif
