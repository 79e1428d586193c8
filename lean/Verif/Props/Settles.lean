/-
C86: with `double`s, the iterations end for flows with cycles that are not too long and not too weakly fed.
-/
import Mathlib.Data.Int.Interval
import Mathlib.Data.Set.Finite.Lattice
import Verif.Proofs.ClimbReturns
import Verif.Props.CyclicGlobal

namespace Verif.Props
open Verif.Spec Verif.Toolbox Verif.Solver Verif.Rounding Finset

/-- There are finitely many `double`s. -/
theorem finite_values : {x : ℚ | ∃ a : Double, Double.rounded.val a = X.fin x}.Finite := by
  refine Set.Finite.subset (Set.Finite.image
    (fun t : Bool × Nat × Int => Double.signed t.1 (t.2.1 * 2 ^ t.2.2))
    (((Set.finite_univ (α := Bool)).prod ((Set.finite_Iio (2 ^ 53)).prod (Set.finite_Icc (-1074 : Int) 971))))) ?_
  rintro x ⟨a, ha⟩
  change Double.val a = X.fin x at ha
  cases a with
  | finite neg m e h =>
    refine ⟨(neg, m, e), ⟨Set.mem_univ _, h.1, h.2.1, h.2.2.1⟩, ?_⟩
    exact X.fin.inj ha
  | infinite neg => cases neg <;> cases ha
  | nan => cases ha

theorem margins {M : Nat} {H φ μ : ℚ} {L : Nat} (B : TameBounds M H φ μ L) : Margins (1 + 1 / 2 ^ 52) M H φ μ L := by
  obtain ⟨h1, h2, h3, h4, hm, hf⟩ := B
  have hM0 : (0 : ℚ) ≤ M := Nat.cast_nonneg M
  have hH2 : H ≤ H ^ 2 := by rw [pow_two]; exact le_mul_of_one_le_right (by linarith) h1
  have hA : 1 ≤ (4 * φ + 1) * H ^ 2 := by
    have : 1 ≤ H ^ 2 := h1.trans hH2
    calc (1 : ℚ) = 1 * 1 := (one_mul 1).symm
      _ ≤ (4 * φ + 1) * H ^ 2 := mul_le_mul (by linarith) this zero_le_one (by linarith)
  have hMb : (4 * M + 6 : ℚ) ≤ 400000000000 := by
    refine le_trans ?_ hm
    exact le_mul_of_one_le_left (by linarith) hA
  have hMn : 4 * M + 6 ≤ 400000000000 := by exact_mod_cast hMb
  have hX : (4 * φ + 1) * H ^ 2 ≤ 400000000000 := by
    refine le_trans ?_ hm
    exact le_mul_of_one_le_right (by linarith) (by linarith)
  have hXH : (4 * φ + 1) * H ≤ 400000000000 := by
    refine le_trans ?_ hX
    exact mul_le_mul_of_nonneg_left hH2 (by linarith)
  have hHs : H ^ 2 * 6 ≤ 400000000000 := by
    refine le_trans ?_ hm
    have e1 : H ^ 2 ≤ (4 * φ + 1) * H ^ 2 := le_mul_of_one_le_left (by positivity) (by linarith)
    exact mul_le_mul e1 (by linarith) (by norm_num) (by positivity)
  have hHb : H ≤ 300000 := by
    by_contra hn
    have hn := (not_le.mp hn).le
    have : (300000 : ℚ) ^ 2 ≤ H ^ 2 := pow_le_pow_left₀ (by norm_num) hn 2
    norm_num at this
    linarith
  have hp := Double.pow_le (4 * M + 6) (by omega)
  have hp4 := Double.pow_le (4 * M + 4) (by omega)
  have hp0 : (1 : ℚ) ≤ (1 + 1 / 2 ^ 52) ^ (4 * M + 6) := one_le_pow₀ (by norm_num)
  have ht : tiny ℚ ≤ 1 / 2 ^ 60 := by
    unfold tiny
    exact one_div_le_one_div_of_le (by positivity) (pow_le_pow_right₀ one_le_two (by norm_num))
  have hs : slack ℚ ≤ 1 / 2 ^ 60 := by
    unfold slack
    exact one_div_le_one_div_of_le (by positivity) (pow_le_pow_right₀ one_le_two (by norm_num))
  have hcs : climbSlack ℚ ≤ 1 / 2 ^ 60 := by
    unfold climbSlack
    exact one_div_le_one_div_of_le (by positivity) (pow_le_pow_right₀ one_le_two (by norm_num))
  have ht0 := tiny_pos (K := ℚ)
  have hpow : ((1 + 1 / 2 ^ 52 : ℚ)) ^ (4 * M + 6) ≤ 2 := Double.pow_le_two (by omega)
  push_cast at hp hp4
  have hfloor : 1 ≤ 1 / (2 * H) * (μ / 4) ^ L * 2 ^ 500 := by
    rw [mul_assoc, one_div_mul_eq_div, le_div_iff₀ (by linarith), one_mul]
    exact hf
  have hmod : (4 * φ + 1) * H ≤ 2 ^ 130 := hXH.trans (by norm_num)
  have hcount : (M : ℚ) + 1 ≤ 2 ^ 100 := by
    have : (M : ℚ) ≤ 400000000000 := by linarith
    refine le_trans (add_le_add_left this 1) ?_
    norm_num
  have hdH : ((4 * M + 6 : ℚ)) * H ≤ 400000000000 := by
    refine le_trans ?_ hm
    rw [mul_comm]
    refine mul_le_mul_of_nonneg_right ?_ (by linarith)
    exact hH2.trans (le_mul_of_one_le_left (by positivity) (by linarith))
  clear hf
  refine ⟨h1, h2, h3, h4, hpow, hcount, ?_, ?_, hmod, ?_, hfloor⟩
  · clear hfloor hmod hcount
    generalize (1 + 1 / 2 ^ 52 : ℚ) ^ (4 * M + 6) = p at *
    calc (p - 1) * H ≤ ((4 * M + 6) / 2 ^ 51) * H := mul_le_mul_of_nonneg_right (by linarith) (by linarith)
      _ = (4 * M + 6) * H / 2 ^ 51 := by ring
      _ ≤ 400000000000 / 2 ^ 51 := by
        rw [div_le_div_iff_of_pos_right (by norm_num)]; exact hdH
      _ ≤ 1 / 8 := by norm_num
  · clear hfloor hmod hcount
    generalize (1 + 1 / 2 ^ 52 : ℚ) ^ (4 * M + 4) = p at *
    generalize tiny ℚ = t at *
    generalize slack ℚ = s at *
    have e1 : (1 / 1000000000 * (1 + 1 / 2 ^ 52) + t) * (1 + 1 / 2 ^ 52) ≤ (1 / 100000000 : ℚ) := by
      have : (1 / 1000000000 * (1 + 1 / 2 ^ 52) + t) * (1 + 1 / 2 ^ 52)
          ≤ (1 / 1000000000 * (1 + 1 / 2 ^ 52) + 1 / 2 ^ 60) * (1 + 1 / 2 ^ 52 : ℚ) :=
        mul_le_mul_of_nonneg_right (by linarith) (by norm_num)
      refine this.trans ?_
      norm_num
    have e2 : p - 1 + 2 * s ≤ (4 * M + 6) / 2 ^ 51 := by
      have : (2 : ℚ) * (1 / 2 ^ 60) ≤ 2 / 2 ^ 51 := by norm_num
      have e : ((4 * M + 6 : ℚ)) / 2 ^ 51 = (4 * M + 4) / 2 ^ 51 + 2 / 2 ^ 51 := by ring
      linarith
    calc _ ≤ (1 / 100000000 + (4 * M + 6) / 2 ^ 51) * H := mul_le_mul_of_nonneg_right (by linarith) (by linarith)
      _ = 1 / 100000000 * H + (4 * M + 6) * H / 2 ^ 51 := by ring
      _ ≤ 1 / 100000000 * 300000 + 400000000000 / 2 ^ 51 := by
        refine add_le_add (mul_le_mul_of_nonneg_left hHb (by norm_num)) ?_
        rw [div_le_div_iff_of_pos_right (by norm_num)]; exact hdH
      _ ≤ 1 / 2 := by norm_num
  · clear hfloor hmod hcount
    generalize (1 + 1 / 2 ^ 52 : ℚ) ^ (4 * M + 6) = p at *
    generalize climbSlack ℚ = s at *
    have e1 : 4 * ((4 * φ + 1) * H) * (p - 1) ≤ 4 * ((4 * φ + 1) * H) * ((4 * M + 6) / 2 ^ 51) :=
      mul_le_mul_of_nonneg_left (by linarith) (by positivity)
    calc 2 * H * (4 * ((4 * φ + 1) * H) * (p - 1) + 7 * s)
        ≤ 2 * H * (4 * ((4 * φ + 1) * H) * ((4 * M + 6) / 2 ^ 51) + 7 * (1 / 2 ^ 60)) :=
          mul_le_mul_of_nonneg_left (by linarith) (by linarith)
      _ = 8 / 2 ^ 51 * ((4 * φ + 1) * H ^ 2 * (4 * M + 6)) + 14 / 2 ^ 60 * H := by ring
      _ ≤ 8 / 2 ^ 51 * 400000000000 + 14 / 2 ^ 60 * 300000 :=
          add_le_add (mul_le_mul_of_nonneg_left hm (by norm_num)) (mul_le_mul_of_nonneg_left hHb (by norm_num))
      _ ≤ cap / 4000000000000 := by unfold cap; norm_num

theorem asked_inflow {P : Problem ℚ} {starts : List CellSet} (h : InjectionAccepts P.inflowMap starts) :
    ∀ s ∈ starts, ∃ w ∈ P.wells, s.id = w.id := by
  intro s hs
  obtain ⟨⟨set, hset, e, _⟩, _⟩ := h s hs
  obtain ⟨w, hw, rfl⟩ := List.mem_map.mp hset
  exact ⟨w, hw, e.symm⟩

theorem asked_outflow {P : Problem ℚ} {starts : List CellSet} (h : ProductionAccepts P.inflowMap starts) :
    ∀ s ∈ starts, ∃ w ∈ P.wells, s.id = w.id := by
  intro s hs
  obtain ⟨⟨set, hset, e, _⟩, _⟩ := h s hs
  obtain ⟨w, hw, rfl⟩ := List.mem_map.mp hset
  exact ⟨w, hw, e.symm⟩

variable {P : Problem ℚ} {M : Nat} {g : ConnectivityGraph} {calls : List (Call Double)} {starts : List CellSet}
  {H φ μ : ℚ} {L : Nat}

/-- **C86** With `double`s, a request for injectors returns a solution if the flow from all sources together, and the flow from each
    of these injectors, keeps within the bounds.  The flow may have cycles. -/
theorem C86_injection (hP : P.Valid) (hO : P.OfOrdinarySize M) (htotal : ∀ v < P.n, P.forward.total v ≤ 2 ^ 100)
    (hS : P.StoredIn g calls) (hacc : InjectionAccepts P.inflowMap starts) (hB : TameBounds M H φ μ L)
    (hall : P.forward.Tame P.forward.sources P.source H φ μ L)
    (hone : ∀ w ∈ P.wells, (∃ s ∈ starts, s.id = w.id) →
      P.forward.Tame (posCells w) (fun v => max (Problem.wellAt w v) 0) H φ μ L) :
    ∃ sol, InjectionReturns g calls starts (.ok sol) := by
  have hg := stored_connectivity hP hS
  obtain ⟨pv, hpv, hpvv⟩ := hS.pv
  obtain ⟨np, phi, hf, hphi⟩ := hS.flux
  have hI := inputs_forward hP hO hphi hpvv hS.inflow
  obtain ⟨N, hN⟩ := computeSolution_settles Double.precise double_odd finite_values (Double.pow_clear hO.bound) hI
    (sized_of hI htotal hO.pv) (margins hB) hall (asked_inflow hacc) (fun w hw ha => by
      have e : injected (posCells w) w.val = fun v => max (Problem.wellAt w v) 0 := funext fun v => injected_pos v
      rw [e]; exact hone w hw ha)
  obtain ⟨sol, hs⟩ := hN N le_rfl
  refine ⟨sol, (Fuel.injection_returns.mpr ⟨N, ?_, by simp⟩).1⟩
  rw [(outcomes_accepted hg (stored_complete hP hS) hpv hf N starts).1 ((accepts_val hS.inflow starts).1 hacc)]
  exact hs

/-- **C86** The same for producers, in the reversed flow. -/
theorem C86_production (hP : P.Valid) (hO : P.OfOrdinarySize M) (htotal : ∀ v < P.n, P.backward.total v ≤ 2 ^ 100)
    (hS : P.StoredIn g calls) (hacc : ProductionAccepts P.inflowMap starts) (hB : TameBounds M H φ μ L)
    (hall : P.backward.Tame P.backward.sources P.sink H φ μ L)
    (hone : ∀ w ∈ P.wells, (∃ s ∈ starts, s.id = w.id) →
      P.backward.Tame (negCells w) (fun v => max (-Problem.wellAt w v) 0) H φ μ L) :
    ∃ sol, ProductionReturns g calls starts (.ok sol) := by
  have hg := stored_connectivity hP hS
  obtain ⟨pv, hpv, hpvv⟩ := hS.pv
  obtain ⟨np, phi, hf, hphi⟩ := hS.flux
  have hI := inputs_backward hP hO hphi hpvv hS.inflow
  obtain ⟨N, hN⟩ := computeSolution_settles Double.precise double_odd finite_values (Double.pow_clear hO.bound) hI
    (sized_of hI htotal hO.pv) (margins hB) hall (asked_outflow hacc) (fun w hw ha => by
      have e : injected (negCells w) (fun v => - w.val v) = fun v => max (-Problem.wellAt w v) 0 :=
        funext fun v => injected_neg v
      rw [e]; exact hone w hw ha)
  obtain ⟨sol, hs⟩ := hN N le_rfl
  refine ⟨sol, (Fuel.production_returns.mpr ⟨N, ?_, by simp⟩).1⟩
  rw [(outcomes_accepted hg (stored_complete hP hS) hpv hf N starts).2 ((accepts_val hS.inflow starts).2 hacc)]
  exact hs

/-! ### A case -/

theorem whirl_backward : ∀ v < 4, exWhirl.backward.Reach 3 v := by
  obtain ⟨h1, h2, h3, _⟩ := whirl_flux
  have e10 : exWhirl.backward.Edge 1 0 := ⟨by decide, by decide, by show 0 < exWhirl.flux 0 1; rw [h1]; norm_num⟩
  have e21 : exWhirl.backward.Edge 2 1 := ⟨by decide, by decide, by show 0 < exWhirl.flux 1 2; rw [h2]; norm_num⟩
  have e32 : exWhirl.backward.Edge 3 2 := ⟨by decide, by decide, by show 0 < exWhirl.flux 2 3; rw [h3]; norm_num⟩
  intro v hv
  interval_cases v
  · exact ((Relation.ReflTransGen.single e32).tail e21).tail e10
  · exact (Relation.ReflTransGen.single e32).tail e21
  · exact Relation.ReflTransGen.single e32
  · exact Relation.ReflTransGen.refl

theorem reach_range {F : Flow ℚ} {u v : Nat} (hu : u < F.n) (h : F.Reach u v) : v < F.n := by
  rcases Relation.ReflTransGen.cases_tail h with rfl | ⟨y, _, he⟩
  · exact hu
  · exact he.2.1

/-- A list of cells on common cycles is no longer than the grid, if that has a cell. -/
theorem same_size {F : Flow ℚ} (hn : 0 < F.n) {C : List Nat} (hC : C.Nodup) (h : ∀ u ∈ C, ∀ v ∈ C, F.SameCycle u v) :
    C.length ≤ F.n := by
  by_cases hall : ∀ v ∈ C, v < F.n
  · have := List.Subperm.length_le (hC.subperm fun v hv => List.mem_range.mpr (hall v hv))
    simpa using this
  · push Not at hall
    obtain ⟨v, hv, hvn⟩ := hall
    have : ∀ u ∈ C, u = v := by
      intro u hu
      rcases Relation.ReflTransGen.cases_tail (h u hu v hv).1 with e | ⟨y, _, he⟩
      · exact e.symm
      · exact absurd he.2.1 (by omega)
    have hle : C ⊆ [v] := fun u hu => List.mem_singleton.mpr (this u hu)
    have := List.Subperm.length_le (hC.subperm hle)
    simp at this
    omega

theorem whirl_tame {F : Flow ℚ} {cells : List Nat} {inj x h : Nat → ℚ} (hn : F.n = 4) (hcell : ∀ p ∈ cells, p < 4)
    (hd : ∀ v < 4, F.Downstream cells v) (hx : ∀ v < 4, F.total v * x v = (∑ u ∈ range 4, x u * F.w u v) + inj v)
    (hh : ∀ v < 4, F.total v * h v = (∑ u ∈ range 4, h u * F.w u v) + F.total v) (hle : ∀ v < 4, h v ≤ 6 * x v)
    (hpv : ∀ v < 4, F.pv v ≤ 1 * F.total v) (hl : ∀ v < 4, F.w v v = 0)
    (hw : ∀ v < 4, ∀ u < 4, 0 < F.w u v → 1 / 3 * F.total v ≤ F.w u v)
    (hi : ∀ v < 4, 0 < inj v → 1 / 3 * F.total v ≤ inj v) : F.Tame cells inj 6 1 (1 / 3) 4 := by
  have hr : ∀ v, F.Downstream cells v → v < 4 := by
    rintro v ⟨p, hp, h⟩
    have := reach_range (by rw [hn]; exact hcell p hp) h
    rwa [hn] at this
  refine ⟨⟨x, h, ⟨fun v hv hv' => absurd (hd v (hn ▸ hv)) hv', fun v hv _ => ?_⟩,
    ⟨fun v hv hv' => absurd (hd v (hn ▸ hv)) hv', fun v hv _ => ?_⟩, fun v hv => hle v (hr v hv)⟩,
    fun v hv => hpv v (hr v hv), fun v hv h => h.1 (hl v (hr v hv)), fun v hv _ => ⟨fun u he => ?_, hi v (hr v hv)⟩,
    fun C hC h => hn ▸ same_size (by omega) hC h⟩
  · rw [hn]; exact hx v (hn ▸ hv)
  · rw [hn]; exact hh v (hn ▸ hv)
  · exact hw v (hr v hv) u (hn ▸ he.1) he.2.2

theorem whirl_bounds : TameBounds 4 6 1 (1 / 3) 4 := by
  have h : (2 : ℚ) ^ 100 ≤ 2 ^ 500 := pow_le_pow_right₀ one_le_two (by norm_num)
  refine ⟨by norm_num, by norm_num, by norm_num, by norm_num, by norm_num, ?_⟩
  generalize (2 : ℚ) ^ 500 = z at *
  norm_num at h ⊢
  linarith

theorem whirl_forward_tame {cells : List Nat} {inj : Nat → ℚ} (h0 : 0 ∈ cells) (hc : ∀ p ∈ cells, p < 4)
    (hi : ∀ v < 4, inj v = if v = 0 then 2 else 0) : exWhirl.forward.Tame cells inj 6 1 (1 / 3) 4 := by
  apply whirl_tame (x := fun _ => 1) (h := fun v => if v = 0 then 1 else if v = 1 then 7 / 2 else if v = 2 then 9 / 2 else 11 / 2)
    rfl hc (fun v hv => ⟨0, h0, whirl_reached v hv⟩)
  all_goals
    intro v hv
    have := hi v hv
    interval_cases v
  all_goals
    try intro u hu
    try interval_cases u
  all_goals
    simp [this, Flow.total, Flow.inflow, Problem.forward, exWhirl, Finset.sum_range_succ, Problem.source, Problem.wellAt, Problem.flux,
      Problem.carried, Problem.net]
  all_goals norm_num

theorem whirl_backward_tame {cells : List Nat} {inj : Nat → ℚ} (h0 : 3 ∈ cells) (hc : ∀ p ∈ cells, p < 4)
    (hi : ∀ v < 4, inj v = if v = 3 then 2 else 0) : exWhirl.backward.Tame cells inj 6 1 (1 / 3) 4 := by
  apply whirl_tame (x := fun _ => 1) (h := fun v => if v = 3 then 5 / 2 else if v = 2 then 7 / 2 else if v = 1 then 9 / 2 else 11 / 2)
    rfl hc (fun v hv => ⟨3, h0, whirl_backward v hv⟩)
  all_goals
    intro v hv
    have := hi v hv
    interval_cases v
  all_goals
    try intro u hu
    try interval_cases u
  all_goals
    simp [this, Flow.total, Flow.inflow, Problem.backward, exWhirl, Finset.sum_range_succ, Problem.sink, Problem.wellAt, Problem.flux,
      Problem.carried, Problem.net]
  all_goals norm_num

theorem whirl_asked : InjectionAccepts exWhirl.inflowMap [CellSet.ofCells ⟨[65]⟩ [0]] ∧
    ProductionAccepts exWhirl.inflowMap [CellSet.ofCells ⟨[80]⟩ [3]] := by
  constructor
  · have h2 : (Arith.lt Arith.zero (X.fin (2 : ℚ))) = true := by rw [X_zero, X_lt]; simp
    intro s hs
    simp only [List.mem_cons, List.not_mem_nil, or_false] at hs
    subst hs
    refine ⟨⟨_, .head _, rfl, _, .head _, h2⟩, ?_⟩
    intro c hc
    have : c = 0 := by simpa [CellSet.ofCells, CellSet.cells, setInsert] using hc
    subst this
    exact ⟨_, .head _, _, .head _, rfl, h2⟩
  · have h2 : IsNegative (X.fin (-2 : ℚ)) := by constructor <;> rw [X_zero, X_lt] <;> simp
    intro s hs
    simp only [List.mem_cons, List.not_mem_nil, or_false] at hs
    subst hs
    refine ⟨⟨_, .tail _ (.head _), rfl, _, .head _, h2⟩, ?_⟩
    intro c hc
    have : c = 3 := by simpa [CellSet.ofCells, CellSet.cells, setInsert] using hc
    subst this
    exact ⟨_, .tail _ (.head _), _, .head _, rfl, h2⟩

theorem whirl_tame_all : exWhirl.forward.Tame exWhirl.forward.sources exWhirl.source 6 1 (1 / 3) 4 ∧
    exWhirl.backward.Tame exWhirl.backward.sources exWhirl.sink 6 1 (1 / 3) 4 := by
  constructor
  · refine whirl_forward_tame ?_ ?_ ?_
    · exact List.mem_filter.mpr ⟨List.mem_range.mpr (by decide), decide_eq_true whirl_source⟩
    · intro p hp; exact List.mem_range.mp (List.mem_filter.mp hp).1
    · intro v hv
      interval_cases v <;> simp [exWhirl, Problem.source, Problem.wellAt]
  · refine whirl_backward_tame ?_ ?_ ?_
    · refine List.mem_filter.mpr ⟨List.mem_range.mpr (by decide), ?_⟩
      simp [exWhirl, Problem.backward, Problem.sink, Problem.wellAt]
    · intro p hp; exact List.mem_range.mp (List.mem_filter.mp hp).1
    · intro v hv
      interval_cases v <;> simp [exWhirl, Problem.sink, Problem.wellAt]

theorem whirl_tame_one : (∀ w ∈ exWhirl.wells, (∃ s ∈ [CellSet.ofCells ⟨[65]⟩ [0]], s.id = w.id) →
      exWhirl.forward.Tame (posCells w) (fun v => max (Problem.wellAt w v) 0) 6 1 (1 / 3) 4) ∧
    (∀ w ∈ exWhirl.wells, (∃ s ∈ [CellSet.ofCells ⟨[80]⟩ [3]], s.id = w.id) →
      exWhirl.backward.Tame (negCells w) (fun v => max (-Problem.wellAt w v) 0) 6 1 (1 / 3) 4) := by
  constructor
  · intro w hw ⟨s, hs, e⟩
    simp only [exWhirl, List.mem_cons, List.not_mem_nil, or_false] at hw hs
    subst hs
    rcases hw with rfl | rfl
    · refine whirl_forward_tame ?_ ?_ ?_
      · simp [posCells]
      · intro p hp
        simp [posCells] at hp
        omega
      · intro v hv
        interval_cases v <;> simp [Problem.wellAt]
    · exact absurd e (by decide)
  · intro w hw ⟨s, hs, e⟩
    simp only [exWhirl, List.mem_cons, List.not_mem_nil, or_false] at hw hs
    subst hs
    rcases hw with rfl | rfl
    · exact absurd e (by decide)
    · refine whirl_backward_tame ?_ ?_ ?_
      · simp [negCells]
      · intro p hp
        simp [negCells] at hp
        omega
      · intro v hv
        interval_cases v <;> simp [Problem.wellAt]

theorem whirl_cycle : ¬ exWhirl.forward.Acyclic := by
  obtain ⟨_, h2, h3, h4⟩ := whirl_flux
  have e12 : exWhirl.forward.Edge 1 2 := ⟨by decide, by decide, by show 0 < exWhirl.flux 1 2; rw [h2]; norm_num⟩
  have e23 : exWhirl.forward.Edge 2 3 := ⟨by decide, by decide, by show 0 < exWhirl.flux 2 3; rw [h3]; norm_num⟩
  have e31 : exWhirl.forward.Edge 3 1 := ⟨by decide, by decide, by show 0 < exWhirl.flux 3 1; rw [h4]; norm_num⟩
  exact fun ha => ha 1 (((Relation.TransGen.single e12).tail e23).tail e31)

/-- C86: the hypotheses hold for both wells of a flow with a cycle, so that both requests return. -/
example : (∃ sol, InjectionReturns whirlGraph whirlCalls [CellSet.ofCells ⟨[65]⟩ [0]] (.ok sol)) ∧
    (∃ sol, ProductionReturns whirlGraph whirlCalls [CellSet.ofCells ⟨[80]⟩ [3]] (.ok sol)) ∧ ¬ exWhirl.forward.Acyclic :=
  ⟨C86_injection exWhirl_valid whirl_ordinary whirl_total.1 whirl_stored whirl_asked.1 whirl_bounds whirl_tame_all.1 whirl_tame_one.1,
    C86_production exWhirl_valid whirl_ordinary whirl_total.2 whirl_stored whirl_asked.2 whirl_bounds whirl_tame_all.2 whirl_tame_one.2,
    whirl_cycle⟩

end Verif.Props
