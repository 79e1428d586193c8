/-
Rounding errors of the data a solver is created with.
-/
import Verif.Proofs.AccuracySolve
import Verif.Proofs.ToolboxExact
import Mathlib.Data.List.Basic
import Mathlib.Data.List.Perm.Subperm

namespace Verif.Rounding
open Finset Verif.Spec Verif.Solver Verif.Toolbox

variable {R : Type} [Arith R] {K : Type} [Field K] [LinearOrder K] [IsStrictOrderedRing K] {ρ : Rounded R K} {q : K}

/-! ### Sums -/

/-- A sum of exact values. -/
theorem near_sum (hp : Precise ρ q) {xs : List R} {ys : List K} (hxy : xs.map ρ.val = ys.map X.fin) {M : Nat}
    (hM : xs.length ≤ M) (hq : q ^ M ≤ 2) (hy : ∀ y ∈ ys, Range 100 y) (hs : ys.sum ≤ 2 ^ 100) :
    Near ρ q M (xs.foldl Arith.add Arith.zero) ys.sum := by
  have hlen : xs.length = ys.length := by simpa using congrArg List.length hxy
  have e1 : (xs.zip ys).map (fun p => p.1) = xs := List.map_fst_zip (by omega)
  have e2 : (xs.zip ys).map (fun p => p.2) = ys := List.map_snd_zip (by omega)
  have h := near_foldl hp (k := 0) (m := 0) (l := xs.zip ys) (a := Arith.zero) (s := 0) le_rfl
    ((pow_le_pow_right₀ hp.one_le (by simp; omega)).trans hq) (near_zero hp 0) (by
      intro p hpm
      obtain ⟨i, hi, rfl⟩ := List.mem_iff_getElem.mp hpm
      have h1 : i < xs.length := by simp at hi; omega
      have h2 : i < ys.length := by omega
      rw [List.getElem_zip]
      refine ⟨near_exact ?_, (hy _ (List.getElem_mem h2)).nonneg⟩
      have := congrArg (fun l => l[i]?) hxy
      simpa [h1, h2] using this) le_rfl (by
      intro i _
      rw [zero_add, List.map_take, e2]
      exact range_partial hy hs (by norm_num) (by norm_num) i)
  rw [e1, e2, zero_add, zero_add] at h
  refine h.mono hp (List.sum_nonneg fun y h => (hy y h).nonneg) ?_
  rw [List.length_zip]; omega

/-- What the graphs and the solver of a run are made from stands for `F`. -/
structure Inputs (ρ : Rounded R K) (D : List (Int × Int × R)) (pv : List R) (l : List (CellSetID × Int × R)) (F : Flow K)
    (DK : List (Nat × Nat × K)) (wells : List (WellFlux K)) (cs : WellFlux K → List Nat) (f : WellFlux K → Nat → K)
    (M : Nat) : Prop where
  valid : F.Valid
  conns : D.map (fun c => (c.1, c.2.1, ρ.val c.2.2)) = lift DK
  range : ∀ c ∈ DK, c.1 < F.n ∧ c.2.1 < F.n ∧ 0 < c.2.2 ∧ Range 100 c.2.2
  flux : ∀ u v, fluxOf DK u v = F.w u v
  degree : ∀ v, (DK.filter fun c => decide (c.2.1 = v)).length ≤ M
  pv : pv.map ρ.val = arr F.n F.pv
  sources : l.map (fun e => (e.1, e.2.1, ρ.val e.2.2)) = contributions wells cs f
  side : Side wells cs f F.n F.src
  wellRange : ∀ w ∈ wells, ∀ v ∈ cs w, Range 100 (f w v)
  wellCount : ∀ v, (wells.filter fun w => decide (v ∈ cs w)).length ≤ M

section inputs
variable {D : List (Int × Int × R)} {pv : List R} {l : List (CellSetID × Int × R)} {F : Flow K}
  {DK : List (Nat × Nat × K)} {wells : List (WellFlux K)} {cs : WellFlux K → List Nat} {f : WellFlux K → Nat → K} {M : Nat}

omit [IsStrictOrderedRing K] in
theorem Inputs.mem_D (h : Inputs ρ D pv l F DK wells cs f M) {c : Int × Int × R} (hc : c ∈ D) :
    ∃ e ∈ DK, c.1 = e.1 ∧ c.2.1 = e.2.1 ∧ ρ.val c.2.2 = X.fin e.2.2 := by
  have : (c.1, c.2.1, ρ.val c.2.2) ∈ lift DK := by rw [← h.conns]; exact List.mem_map.mpr ⟨c, hc, rfl⟩
  obtain ⟨e, he, e1⟩ := List.mem_map.mp this
  simp only [Prod.mk.injEq] at e1
  exact ⟨e, he, e1.1.symm, e1.2.1.symm, e1.2.2.symm⟩

omit [IsStrictOrderedRing K] in
theorem Inputs.mem_DK (h : Inputs ρ D pv l F DK wells cs f M) {e : Nat × Nat × K} (he : e ∈ DK) :
    ∃ c ∈ D, c.1 = e.1 ∧ c.2.1 = e.2.1 ∧ ρ.val c.2.2 = X.fin e.2.2 := by
  have : ((e.1 : Int), (e.2.1 : Int), X.fin e.2.2) ∈ D.map (fun c => (c.1, c.2.1, ρ.val c.2.2)) := by
    rw [h.conns]; exact List.mem_map.mpr ⟨e, he, rfl⟩
  obtain ⟨c, hc, e1⟩ := List.mem_map.mp this
  simp only [Prod.mk.injEq] at e1
  exact ⟨c, hc, e1.1, e1.2.1, e1.2.2⟩

omit [IsStrictOrderedRing K] in
theorem Inputs.range_D (h : Inputs ρ D pv l F DK wells cs f M) :
    ∀ c ∈ D, (0 ≤ c.1 ∧ c.1 < F.n) ∧ (0 ≤ c.2.1 ∧ c.2.1 < F.n) := by
  intro c hc
  obtain ⟨e, he, e1, e2, _⟩ := h.mem_D hc
  have := h.range e he
  rw [e1, e2]; omega

omit [IsStrictOrderedRing K] in
theorem Inputs.pos_D (h : Inputs ρ D pv l F DK wells cs f M) : ∀ c ∈ D, Pos ρ c.2.2 := by
  intro c hc
  obtain ⟨e, he, _, _, e3⟩ := h.mem_D hc
  unfold Pos
  rw [e3]
  simpa [X.lt] using (h.range e he).2.2.1

theorem fluxOf_pos_iff {DK : List (Nat × Nat × K)} (h : ∀ c ∈ DK, 0 < c.2.2) (u v : Nat) :
    0 < fluxOf DK u v ↔ ∃ x, (u, v, x) ∈ DK := by
  unfold fluxOf
  constructor
  · intro hpos
    by_contra hno
    have : DK.filter (fun c => decide (c.1 = u ∧ c.2.1 = v)) = [] := by
      rw [List.filter_eq_nil_iff]
      rintro ⟨a, b, x⟩ hx hd
      simp only [decide_eq_true_eq] at hd
      obtain ⟨rfl, rfl⟩ := hd
      exact hno ⟨x, hx⟩
    rw [this] at hpos
    simp at hpos
  · rintro ⟨x, hx⟩
    have hx' : x ∈ (DK.filter fun c => decide (c.1 = u ∧ c.2.1 = v)).map fun c => c.2.2 :=
      List.mem_map.mpr ⟨_, List.mem_filter.mpr ⟨hx, by simp⟩, rfl⟩
    refine lt_of_lt_of_le (h _ hx) (List.single_le_sum (l := (DK.filter fun c => decide (c.1 = u ∧ c.2.1 = v)).map fun c => c.2.2) ?_ x hx')
    intro y hy
    obtain ⟨c, hc, rfl⟩ := List.mem_map.mp hy
    exact (h c (List.mem_filter.mp hc).1).le

theorem Inputs.joins_iff (h : Inputs ρ D pv l F DK wells cs f M) (u v : Nat) :
    joins D u v = true ↔ 0 < F.w u v := by
  rw [Toolbox.joins_iff, ← h.flux, fluxOf_pos_iff fun c hc => (h.range c hc).2.2.1]
  constructor
  · rintro ⟨w, hw⟩
    obtain ⟨⟨a, b, x⟩, he, e1, e2, _⟩ := h.mem_D hw
    simp only [Nat.cast_inj] at e1 e2
    subst e1; subst e2
    exact ⟨x, he⟩
  · rintro ⟨x, hx⟩
    obtain ⟨⟨a, b, w⟩, hc, e1, e2, _⟩ := h.mem_DK hx
    simp only at e1 e2
    subst e1; subst e2
    exact ⟨w, hc⟩

omit [Arith R] in
theorem weightsOf_swap (D : List (Int × Int × R)) (i j : Int) : weightsOf (swapEnds D) i j = weightsOf D j i := by
  unfold weightsOf swapEnds
  rw [List.filter_map, List.map_map]
  have : ((fun c : Int × Int × R => c.1 == i && c.2.1 == j) ∘ fun c => (c.2.1, c.1, c.2.2))
      = fun c : Int × Int × R => c.1 == j && c.2.1 == i := by
    funext c; simp [Bool.and_comm]
  rw [this]; rfl

omit [Arith R] in
theorem joins_swap (D : List (Int × Int × R)) (u v : Nat) : joins (swapEnds D) u v = joins D v u := by
  unfold joins swapEnds
  rw [List.any_map]
  congr 1
  funext c; simp [Bool.and_comm]

theorem Inputs.w_le (h : Inputs ρ D pv l F DK wells cs f M) {u v : Nat} (hu : u < F.n) (hv : v < F.n) :
    F.w u v ≤ F.inflow v ∧ F.inflow v ≤ F.total v := by
  refine ⟨Finset.single_le_sum (f := fun u => F.w u v)
      (fun u hu => h.valid.w_nonneg u v (Finset.mem_range.mp hu) hv) (Finset.mem_range.mpr hu), ?_⟩
  have := h.valid.src_nonneg v hv
  unfold Flow.total; linarith

theorem Inputs.w_range (h : Inputs ρ D pv l F DK wells cs f M) (hm : ∀ v < F.n, Sized F v) {u v : Nat} (hu : u < F.n)
    (hv : v < F.n) : Range 100 (F.w u v) := by
  have hle := (hm v hv).total.le
  have := h.w_le hu hv
  rw [← h.flux] at this ⊢
  unfold fluxOf at this ⊢
  have := range_partial (i := 100) (j := 100) (k := 100) (l := (DK.filter fun c => decide (c.1 = u ∧ c.2.1 = v)).map fun c => c.2.2)
    (by
      intro x hx
      obtain ⟨c, hc, rfl⟩ := List.mem_map.mp hx
      exact (h.range c (List.mem_filter.mp hc).1).2.2.2) (by linarith) le_rfl le_rfl
      ((DK.filter fun c => decide (c.1 = u ∧ c.2.1 = v)).map fun c => c.2.2).length
  rwa [List.take_length] at this

theorem Inputs.flow_near (hp : Precise ρ q) (hq : q ^ M ≤ 2) (h : Inputs ρ D pv l F DK wells cs f M)
    (hm : ∀ v < F.n, Sized F v) {u v : Nat} (hu : u < F.n) (hv : v < F.n) : Near ρ q M (flowOf D u v) (F.w u v) := by
  have e : (weightsOf D (u : Int) (v : Int)).map ρ.val
      = ((DK.filter fun c => decide (c.1 = u ∧ c.2.1 = v)).map fun c => c.2.2).map X.fin := by
    have h1 := congrArg (fun l : List (Int × Int × X K) => (l.filter fun c => c.1 == (u : Int) && c.2.1 == (v : Int)).map
      fun c => c.2.2) h.conns
    simp only [lift, List.filter_map, List.map_map] at h1
    unfold weightsOf
    rw [List.map_map, List.map_map]
    have e2 : ((fun c : Int × Int × X K => c.1 == (u : Int) && c.2.1 == (v : Int)) ∘
        fun c : Nat × Nat × K => ((c.1 : Int), (c.2.1 : Int), X.fin c.2.2)) = fun c => decide (c.1 = u ∧ c.2.1 = v) := by
      funext c
      simp only [Function.comp, Bool.decide_and]
      congr 1 <;> rw [Bool.eq_iff_iff] <;> simp
    rw [e2] at h1
    exact h1
  have hle := (hm v hv).total.le
  have hw := h.w_le hu hv
  unfold flowOf
  rw [← h.flux] at hw ⊢
  refine near_sum hp e ?_ hq ?_ ?_
  · have hl := congrArg List.length e
    simp only [List.length_map] at hl
    rw [hl]
    refine le_trans (List.Sublist.length_le ?_) (h.degree v)
    have : DK.filter (fun c => decide (c.1 = u ∧ c.2.1 = v))
        = (DK.filter fun c => decide (c.2.1 = v)).filter fun c => decide (c.1 = u) := by
      rw [List.filter_filter]; congr 1; funext c; simp [Bool.decide_and]
    rw [this]
    exact List.filter_sublist
  · intro y hy
    obtain ⟨c, hc, rfl⟩ := List.mem_map.mp hy
    exact (h.range c (List.mem_filter.mp hc).1).2.2.2
  · unfold fluxOf at hw; linarith

/-- The cells upstream of `v`. -/
theorem Inputs.upstream_length (h : Inputs ρ D pv l F DK wells cs f M) (v : Nat) :
    ((List.range F.n).filter (joins (swapEnds D) v)).length ≤ M := by
  refine le_trans ?_ (h.degree v)
  have hnd : ((List.range F.n).filter (joins (swapEnds D) v)).Nodup := List.nodup_range.filter _
  have hsub : ((List.range F.n).filter (joins (swapEnds D) v)) ⊆ (DK.filter fun c => decide (c.2.1 = v)).map fun c => c.1 := by
    intro u hu
    have h1 := (List.mem_filter.mp hu).2
    rw [joins_swap, h.joins_iff, ← h.flux, fluxOf_pos_iff fun c hc => (h.range c hc).2.2.1] at h1
    obtain ⟨x, hx⟩ := h1
    exact List.mem_map.mpr ⟨_, List.mem_filter.mpr ⟨hx, by simp⟩, rfl⟩
  have := (List.subperm_of_subset hnd hsub).length_le
  simpa using this

theorem Inputs.sum_upstream (h : Inputs ρ D pv l F DK wells cs f M) {v : Nat} (hv : v < F.n) (g : Nat → K) :
    (((List.range F.n).filter (joins (swapEnds D) v)).map fun u => g u * F.w u v).sum = ∑ u ∈ Finset.range F.n, g u * F.w u v := by
  have e : ∑ u ∈ Finset.range F.n, g u * F.w u v = ((List.range F.n).map fun u => g u * F.w u v).sum := rfl
  rw [e]
  have key : ∀ l : List Nat, (∀ u ∈ l, u < F.n) →
      ((l.filter (joins (swapEnds D) v)).map fun u => g u * F.w u v).sum = (l.map fun u => g u * F.w u v).sum := by
    intro l
    induction l with
    | nil => intro _; rfl
    | cons u l ih =>
      intro hl
      have := ih fun x hx => hl x (List.mem_cons_of_mem _ hx)
      by_cases hj : joins (swapEnds D) v u = true
      · rw [List.filter_cons_of_pos hj]
        simp only [List.map_cons, List.sum_cons, this]
      · rw [List.filter_cons_of_neg hj]
        simp only [List.map_cons, List.sum_cons, this]
        rw [joins_swap, h.joins_iff] at hj
        have h0 := h.valid.w_nonneg u v (hl u List.mem_cons_self) hv
        rw [le_antisymm (not_lt.mp hj) h0, mul_zero, zero_add]
  exact key _ fun u hu => List.mem_range.mp hu

theorem Inputs.source_near (hp : Precise ρ q) (hq : q ^ M ≤ 2) (h : Inputs ρ D pv l F DK wells cs f M)
    (hm : ∀ v < F.n, Sized F v) {v : Nat} (hv : v < F.n) :
    Near ρ q M (((l.filter fun e => decide (e.2.1 = (v : Int))).map fun e => e.2.2).foldl Arith.add Arith.zero) (F.src v) := by
  have hnd : ∀ w ∈ wells, (cs w).Nodup := fun w hw => (h.side.sorted w hw).imp fun h => ne_of_lt h
  have e0 : ((l.filter fun e => decide (e.2.1 = (v : Int))).map fun e => e.2.2).map ρ.val
      = ((contributions wells cs f).filter fun e => decide (e.2.1 = (v : Int))).map fun e => e.2.2 := by
    rw [← h.sources, List.filter_map, List.map_map, List.map_map]
    rfl
  have e1 : (contributions wells cs f).filter (fun e => decide (e.2.1 = (v : Int)))
      = contributions wells (fun w => (cs w).filter fun u => decide (u = v)) f :=
    filter_cells wells _ (fun _ u => decide (u = v)) cs f (fun w _ u _ => by simp)
  have e2 : (contributions wells (fun w => (cs w).filter fun u => decide (u = v)) f).map (fun e => e.2.2)
      = ((wells.filter fun w => decide (v ∈ cs w)).map fun w => f w v).map X.fin := by
    clear e0 e1 h hm
    unfold contributions
    induction wells with
    | nil => rfl
    | cons w ws ih =>
      have hnw := hnd w List.mem_cons_self
      have := ih fun w' hw' => hnd w' (List.mem_cons_of_mem _ hw')
      rw [List.flatMap_cons, List.map_append, this]
      by_cases hvw : v ∈ cs w
      · rw [List.filter_cons_of_pos (by simpa using hvw)]
        have : (cs w).filter (fun u => decide (u = v)) = [v] := by
          have := List.filter_eq (l := cs w) v
          rw [List.count_eq_one_of_mem hnw hvw] at this
          simpa [eq_comm] using this
        simp only [this]; rfl
      · rw [List.filter_cons_of_neg (by simpa using hvw)]
        have : (cs w).filter (fun u => decide (u = v)) = [] := by
          rw [List.filter_eq_nil_iff]
          intro y hy hd
          simp only [decide_eq_true_eq] at hd
          exact hvw (hd ▸ hy)
        simp only [this]; rfl
  have e3 : F.src v = ((wells.filter fun w => decide (v ∈ cs w)).map fun w => f w v).sum := by
    rw [h.side.src v]
    clear e0 e1 e2 h hm hnd
    induction wells with
    | nil => rfl
    | cons w ws ih =>
      by_cases hvw : v ∈ cs w
      · rw [List.filter_cons_of_pos (by simpa using hvw)]
        simp only [List.map_cons, List.sum_cons, ih, if_pos hvw]
      · rw [List.filter_cons_of_neg (by simpa using hvw)]
        simp only [List.map_cons, List.sum_cons, ih, if_neg hvw, zero_add]
  rw [e1, e2] at e0
  have hle := (hm v hv).src.le
  rw [e3] at hle ⊢
  refine near_sum hp e0 ?_ hq ?_ hle
  · have hl := congrArg List.length e0
    simp only [List.length_map] at hl ⊢
    rw [hl]
    exact h.wellCount v
  · intro y hy
    obtain ⟨w, hw, rfl⟩ := List.mem_map.mp hy
    obtain ⟨h1, h2⟩ := List.mem_filter.mp hw
    exact h.wellRange w h1 v (by simpa using h2)

omit [IsStrictOrderedRing K] in
theorem Inputs.nonneg_l (h : Inputs ρ D pv l F DK wells cs f M) :
    ∀ e ∈ l, (0 ≤ e.2.1 ∧ e.2.1 < F.n) ∧ NotNegative e.2.2 := by
  intro e he
  have : (e.1, e.2.1, ρ.val e.2.2) ∈ contributions wells cs f := by
    rw [← h.sources]; exact List.mem_map.mpr ⟨e, he, rfl⟩
  obtain ⟨w, hw, v, hv, e1⟩ := mem_contributions.mp this
  simp only [Prod.mk.injEq] at e1
  obtain ⟨_, e2, e3⟩ := e1
  have := h.side.range w hw v hv
  refine ⟨by rw [e2]; omega, ?_⟩
  rw [notNegative_iff ρ, e3]
  simpa [X.lt] using (h.side.pos w hw v hv).le

omit [IsStrictOrderedRing K] in
theorem Inputs.nonneg_pv (h : Inputs ρ D pv l F DK wells cs f M) : pv.length = F.n ∧ (∀ x ∈ pv, NotNegative x) ∧
    ∀ v < F.n, ∃ a, pv[v]? = some a ∧ ρ.val a = X.fin (F.pv v) := by
  have hlen : pv.length = F.n := by
    have := congrArg List.length h.pv
    simpa [arr] using this
  have hget : ∀ v < F.n, ∃ a, pv[v]? = some a ∧ ρ.val a = X.fin (F.pv v) := by
    intro v hv
    have := congrArg (fun l => l[v]?) h.pv
    simp only [List.getElem?_map] at this
    rw [List.getElem?_eq_getElem (by omega)] at this ⊢
    refine ⟨_, rfl, ?_⟩
    simpa [arr, hv] using this
  refine ⟨hlen, ?_, hget⟩
  intro x hx
  obtain ⟨v, hv⟩ := List.getElem?_of_mem hx
  have hvn : v < F.n := by rw [← hlen]; exact (List.getElem?_eq_some_iff.mp hv).1
  obtain ⟨a, ha, hav⟩ := hget v hvn
  rw [hv] at ha
  cases ha
  rw [notNegative_iff ρ, hav]
  simpa [X.lt] using h.valid.pv_nonneg v hvn

/-- The solver of the run. -/
theorem Inputs.solver (hp : Precise ρ q) (hM : q ^ (2 * M + 2) * 200 < 201) (h : Inputs ρ D pv l F DK wells cs f M)
    (hm : ∀ v < F.n, Sized F v) {d : SolverData R} {st : SolverState R}
    (hc : Solver.create (graphsOf F.n D).1 (graphsOf F.n D).2 pv (gather l).only = .ok (d, st)) :
    Approx ρ q d F M ∧ GraphPair d F.n ∧ (∀ u v, Verif.Spec.Edge d F.n u v ↔ F.Edge u v) ∧ d.g = (graphsOf F.n D).1 ∧
      st.localSource.length = F.n := by
  have hI := h.valid.int
  have hq2 : q ^ (2 * M) ≤ 2 := by
    have h1 : q ^ (2 * M) ≤ q ^ (2 * M + 2) := pow_le_pow_right₀ hp.one_le (by omega)
    linarith
  have hq : q ^ M ≤ 2 := (pow_le_pow_right₀ hp.one_le (by omega)).trans hq2
  obtain ⟨hpl, hpn, hpg⟩ := h.nonneg_pv
  obtain ⟨hfit, hg, _, hval⟩ := create_fits ρ hI h.range_D (fun c hc => (h.pos_D c hc).notNegative) hpl hpn
    (fun e he => (h.nonneg_l e he).1) (fun e he => (h.nonneg_l e he).2) hc
  have hrest : d.pv = pv ∧ d.gReverse = (graphsOf F.n D).2 ∧ st.localSource.length = pv.length := by
    unfold Solver.create at hc
    simp only [Res.bind_eq, Res.pure_eq, Res.bind_ok_iff] at hc
    obtain ⟨_, _, _, _, e⟩ := hc
    cases e
    exact ⟨rfl, rfl, by simp⟩
  obtain ⟨hdpv, hrev, hls⟩ := hrest
  have hrows := (graphsOf_rows hI h.range_D).2
  have hEdge : ∀ u v, Verif.Spec.Edge d F.n u v ↔ F.Edge u v := by
    intro u v
    obtain ⟨g, h1, _, h3, _⟩ := compressStep_ok hI h.range_D
    unfold Verif.Spec.Edge HasEdge Flow.Edge
    rw [hg]
    unfold graphsOf
    rw [h1]
    constructor
    · rintro ⟨hu, hr⟩
      obtain ⟨w, hw⟩ := (h3.mem u hu _).mp hr
      have := h.range_D _ hw
      simp only at this
      exact ⟨hu, by omega, (h.joins_iff u v).mp (Toolbox.joins_iff.mpr ⟨w, hw⟩)⟩
    · rintro ⟨hu, _, hw⟩
      exact ⟨hu, (h3.mem u hu _).mpr (Toolbox.joins_iff.mp ((h.joins_iff u v).mpr hw))⟩
  have hgood : GoodGraph d.g F.n := hg ▸ (graphsOf_good hI h.range_D).1
  have hrow : ∀ v < F.n, rowOfFlow F.n (swapEnds D) v
      = (((List.range F.n).filter (joins (swapEnds D) v)).map fun u => (u, flowOf D u v)).map fun p : Nat × R => ((p.1 : Int), p.2) := by
    intro v _
    unfold rowOfFlow
    rw [List.map_map]
    apply List.map_congr_left
    intro u _
    simp only [Function.comp]
    unfold flowOf
    rw [weightsOf_swap]
  have hmem : ∀ v < F.n, ∀ u ∈ (List.range F.n).filter (joins (swapEnds D) v), F.Edge u v := by
    intro v hv u hu
    obtain ⟨h1, h2⟩ := List.mem_filter.mp hu
    rw [joins_swap, h.joins_iff] at h2
    exact ⟨List.mem_range.mp h1, hv, h2⟩
  refine ⟨⟨hI, ?_, ?_, ?_, ?_⟩, ⟨hgood.isGraph hI, hgood.size, by rw [hdpv, hpl], ?_⟩, hEdge, hg, by rw [hls, hpl]⟩
  · intro v hv
    refine ⟨((List.range F.n).filter (joins (swapEnds D) v)).map fun u => (u, flowOf D u v), ?_, ?_, ?_, ?_⟩
    · rw [hrev, hrows v hv, hrow v hv]
    · rw [List.length_map]; exact h.upstream_length v
    · intro p hpm
      obtain ⟨u, hu, rfl⟩ := List.mem_map.mp hpm
      have he := hmem v hv u hu
      exact ⟨he, h.flow_near hp hq hm he.1 hv, h.w_range hm he.1 hv⟩
    · intro g
      rw [List.map_map]
      exact h.sum_upstream hv g
  · intro v hv
    refine ⟨_, (hval v hv).1, ?_⟩
    rw [hrow v hv, List.map_map, List.map_map]
    have hsum := h.sum_upstream hv fun _ => 1
    simp only [one_mul] at hsum
    have hle := (hm v hv).total.le
    have hwl : F.inflow v ≤ F.total v := by
      have := h.valid.src_nonneg v hv
      unfold Flow.total; linarith
    have key := near_foldl hp (k := M) (m := M) (a := Arith.zero) (s := 0)
      (l := ((List.range F.n).filter (joins (swapEnds D) v)).map fun u => (flowOf D u v, F.w u v)) le_rfl
      ((pow_le_pow_right₀ hp.one_le (by
        have := h.upstream_length v
        rw [List.length_map]; omega)).trans hq2) (near_zero hp M) (by
        intro p hpm
        obtain ⟨u, hu, rfl⟩ := List.mem_map.mp hpm
        have he := hmem v hv u hu
        exact ⟨h.flow_near hp hq hm he.1 hv, (h.w_range hm he.1 hv).nonneg⟩) le_rfl (by
        intro i _
        rw [zero_add, List.map_take, List.map_map]
        refine range_partial (i := 100) (j := 100) ?_ ?_ (by norm_num) (by norm_num) i
        · intro x hx
          obtain ⟨u, hu, rfl⟩ := List.mem_map.mp hx
          exact h.w_range hm (hmem v hv u hu).1 hv
        · show (List.map (fun u => F.w u v) _).sum ≤ _
          rw [hsum]; exact hwl.trans hle)
    rw [zero_add, List.map_map, List.map_map] at key
    have e : ((List.range F.n).filter (joins (swapEnds D) v)).map ((fun p : R × K => p.2) ∘ fun u => (flowOf D u v, F.w u v))
        = ((List.range F.n).filter (joins (swapEnds D) v)).map fun u => F.w u v := rfl
    rw [e, hsum] at key
    refine Near.mono hp key (Finset.sum_nonneg fun u hu => h.valid.w_nonneg u v (Finset.mem_range.mp hu) hv) ?_
    have := h.upstream_length v
    rw [List.length_map]; omega
  · intro v hv
    exact ⟨_, (hval v hv).2, h.source_near hp hq hm hv⟩
  · intro v hv
    obtain ⟨a, ha, hav⟩ := hpg v hv
    exact ⟨a, by rw [hdpv]; exact ha, near_exact hav⟩
  · intro v hv
    refine ⟨_, by rw [hrev]; exact hrows v hv, ?_⟩
    intro e he
    rw [hrow v hv] at he
    obtain ⟨p, hpm, rfl⟩ := List.mem_map.mp he
    obtain ⟨u, hu, rfl⟩ := List.mem_map.mp hpm
    exact ⟨u, rfl, (hEdge u v).mpr (hmem v hv u hu)⟩

end inputs
end Verif.Rounding
