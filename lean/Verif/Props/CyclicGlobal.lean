/-
C82: how far the global times of flight computed with `double`s are from the exact ones in flow with cycles.
-/
import Verif.Props.CyclicTime
import Verif.Proofs.SlackTimeGlobal

namespace Verif.Props
open Verif.Spec Verif.Toolbox Verif.Solver Verif.Rounding Finset

theorem numOf_doubleIn (l : List Double) (v : Nat) : numOf Double.rounded l[v]? = doubleIn l v := by
  unfold doubleIn numOf
  cases l[v]? with
  | none => rfl
  | some a =>
    simp only [Option.map_some]
    have : Double.rounded.val a = Double.val a := rfl
    rw [this]
    cases Double.val a <;> rfl

section global
variable {F : Flow ℚ} {M : Nat} {t c : Nat → ℚ}

/-- The concentrations that are not returned. -/
theorem global_concentration (hF : F.Valid) (hM : M ≤ 2 ^ 40) (B : GlobalBalance F M (1 + 1 / 2 ^ 52) t c)
    (hself : ∀ v < F.n, ¬ F.Loop v)
    {all : List Nat} (hall : ∀ p, p ∈ all ↔ p < F.n ∧ 0 < F.src p) {m h : Nat → ℚ}
    (hm : F.Carries all F.cycleInflow m) (hh : F.Carries all F.total h) {v : Nat} (hup : ∀ u, F.Reach u v → F.Downstream all u) :
    ∀ u < F.n, F.Reach u v → |c u - 1| ≤ 1 / 1000000000 * m u + ((4 * M + 6 : Nat) : ℚ) / 2 ^ 51 * h u := by
  have hsrcs : ∀ p ∈ all, p < F.n ∧ 0 < F.src p := fun p hp => (hall p).mp hp
  have hsrc : ∀ u < F.n, F.Reach u v → ∃ p, p < F.n ∧ 0 < F.src p ∧ F.Reach p u := fun u _ hr => by
    obtain ⟨p, h1, h2⟩ := hup u hr
    exact ⟨p, (hsrcs p h1).1, (hsrcs p h1).2, h2⟩
  exact field_error hF (S := fun u => F.Reach u v) (c := c) (x := fun _ => 1) (q := F.src)
    (r := fun u => 1 / 1000000000 * F.cycleInflow u + ((4 * M + 6 : Nat) : ℚ) / 2 ^ 51 * F.total u)
    (b := fun u => 1 / 1000000000 * m u + ((4 * M + 6 : Nat) : ℚ) / 2 ^ 51 * h u)
    (fun u hu _ => (B.balance u hu (hself u hu)).trans
      (residual_le hM (cycleInflow_bounds hF hu).1 (cycleInflow_bounds hF hu).2))
    (fun u hu _ => by
      unfold Flow.total Flow.inflow
      simp)
    (fun u hu hr => by
      have hd := hup u hr
      have e : ∑ y ∈ range F.n, (1 / 1000000000 * m y + ((4 * M + 6 : Nat) : ℚ) / 2 ^ 51 * h y) * F.w y u =
          1 / 1000000000 * (∑ y ∈ range F.n, m y * F.w y u) + ((4 * M + 6 : Nat) : ℚ) / 2 ^ 51 * ∑ y ∈ range F.n, h y * F.w y u := by
        rw [mul_sum, mul_sum, ← sum_add_distrib]
        exact sum_congr rfl fun u _ => by ring
      rw [e]
      linear_combination 1 / 1000000000 * hm.2 u hu hd + ((4 * M + 6 : Nat) : ℚ) / 2 ^ 51 * hh.2 u hu hd)
    (fun u hr y he => Or.inl (Relation.ReflTransGen.head he hr)) hsrc

/-- Global times against exact ones. -/
theorem global_error (hF : F.Valid) (hM : M ≤ 2 ^ 40) (B : GlobalBalance F M (1 + 1 / 2 ^ 52) t c) (hself : ∀ v < F.n, ¬ F.Loop v)
    {all : List Nat} (hall : ∀ p, p ∈ all ↔ p < F.n ∧ 0 < F.src p) {m h q p k : Nat → ℚ}
    (hm : F.Carries all F.cycleInflow m) (hh : F.Carries all F.total h)
    (hq : F.Carries all F.pv q) (hpm : F.Carries all (fun v => F.pv v * m v) p) (hk : F.Carries all (fun v => F.pv v * h v) k)
    {a : ℚ} (ha : a < 200 * 365 * 24 * 60 * 60) {v : Nat} (hv : v < F.n)
    (hup : ∀ u, F.Reach u v → F.Downstream all u ∧ t u ≤ a ∧ 1 / 1000000000 * m u + ((4 * M + 6 : Nat) : ℚ) / 2 ^ 51 * h u ≤ 1 / 2) :
    |t v - q v| ≤ 1 / 1000000000 * p v + (2 * a / 1000000000 + 200 * 365 * 24 * 60 * 60 / 1000000000000) * m v
        + ((4 * M + 8 : Nat) : ℚ) / 2 ^ 51 * (k v + (2 * a + 1) * h v) := by
  have hsrcs : ∀ p ∈ all, p < F.n ∧ 0 < F.src p := fun p hp => (hall p).mp hp
  have hin : ∀ u, F.Downstream all u → u < F.n := fun u ⟨p, h1, h2⟩ => reach_lt (hsrcs p h1).1 h2
  have hh0 := (C76_exact hF hsrcs F.total).2.2
    (fun v hv => (cycleInflow_bounds hF hv).1.trans (cycleInflow_bounds hF hv).2) h hh
  have hsrc : ∀ u < F.n, F.Reach u v → ∃ p, p < F.n ∧ 0 < F.src p ∧ F.Reach p u := fun u _ hr => by
    obtain ⟨p, h1, h2⟩ := (hup u hr).1
    exact ⟨p, (hsrcs p h1).1, (hsrcs p h1).2, h2⟩
  -- concentrations
  have hc := global_concentration hF hM B hself hall hm hh fun u hr => (hup u hr).1
  have hT : ∀ u < F.n, F.Reach u v → 0 ≤ t u ∧
      |F.pv u * c u + (∑ y ∈ range F.n, t y * c y * F.w y u) - F.total u * (t u * c u)|
        ≤ (a / 1000000000 + 200 * 365 * 24 * 60 * 60 / 1000000000000) * F.cycleInflow u
          + (a + 1) * (((4 * M + 8 : Nat) : ℚ) / 2 ^ 51) * F.total u := by
    intro u hu hr
    have h1 := (hc u hu hr).trans (hup u hr).2.2
    have h2 := (abs_le.mp h1).1
    have key := B.time u hu a ha (by
      rintro y (he | rfl)
      · exact (hup y (Relation.ReflTransGen.head he hr)).2.1
      · exact (hup y hr).2.1) (by
      have h3 : (1 : ℚ) / 2 ≤ c u := by linarith
      have h4 : (2 : ℚ) ≤ 2 ^ 300 := le_self_pow₀ (by norm_num) (by norm_num)
      calc (1 : ℚ) = 1 / 2 * 2 := by norm_num
        _ ≤ c u * 2 ^ 300 := mul_le_mul h3 h4 (by norm_num) (le_trans (by norm_num) h3))
    exact ⟨key.1, (key.2 (hself u hu)).trans (time_residual_le hM (key.1.trans (hup u hr).2.1)
      (cycleInflow_bounds hF hu).1 (cycleInflow_bounds hF hu).2)⟩
  have hle : ((4 * M + 6 : Nat) : ℚ) / 2 ^ 51 ≤ ((4 * M + 8 : Nat) : ℚ) / 2 ^ 51 :=
    div_le_div_of_nonneg_right (by exact_mod_cast by omega) (by positivity)
  have hd : ∀ u, F.Reach u v → F.Downstream all u := fun u hr => (hup u hr).1
  have hta : t v ≤ a := (hup v Relation.ReflTransGen.refl).2.1
  clear hup
  generalize ((4 * M + 8 : Nat) : ℚ) / 2 ^ 51 = ε at *
  have hc : ∀ u < F.n, F.Reach u v → |c u - 1| ≤ 1 / 1000000000 * m u + ε * h u := fun u hu hr =>
    (hc u hu hr).trans (by have := mul_le_mul_of_nonneg_right hle (hh0 u hu); linarith)
  have key := field_error hF (S := fun u => F.Reach u v) (c := fun u => t u * c u) (x := q) (q := F.pv)
    (r := fun u => (a / 1000000000 + 200 * 365 * 24 * 60 * 60 / 1000000000000) * F.cycleInflow u + (a + 1) * ε * F.total u
      + F.pv u * (1 / 1000000000 * m u + ε * h u))
    (b := fun u => 1 / 1000000000 * p u + (a / 1000000000 + 200 * 365 * 24 * 60 * 60 / 1000000000000) * m u
      + ε * (k u + (a + 1) * h u))
    (fun u hu hr => by
      have h1 := (hT u hu hr).2
      have h2 : |F.pv u * (1 - c u)| ≤ F.pv u * (1 / 1000000000 * m u + ε * h u) := by
        rw [abs_mul, abs_of_nonneg (hF.pv_nonneg u hu), abs_sub_comm]
        exact mul_le_mul_of_nonneg_left (hc u hu hr) (hF.pv_nonneg u hu)
      refine le_trans (le_of_eq_of_le ?_ (abs_add_le _ _)) (add_le_add h1 h2)
      congr 1
      ring) (fun u hu hr => hq.2 u hu (hd u hr))
    (fun u hu hr => by
      have hd := hd u hr
      have e : ∑ y ∈ range F.n, (1 / 1000000000 * p y + (a / 1000000000 + 200 * 365 * 24 * 60 * 60 / 1000000000000) * m y
            + ε * (k y + (a + 1) * h y)) * F.w y u =
          1 / 1000000000 * (∑ y ∈ range F.n, p y * F.w y u)
            + (a / 1000000000 + 200 * 365 * 24 * 60 * 60 / 1000000000000) * (∑ y ∈ range F.n, m y * F.w y u)
            + ε * ((∑ y ∈ range F.n, k y * F.w y u) + (a + 1) * ∑ y ∈ range F.n, h y * F.w y u) := by
        rw [mul_add, mul_sum, mul_sum, mul_sum, mul_sum, mul_sum, ← sum_add_distrib, ← sum_add_distrib, ← sum_add_distrib]
        exact sum_congr rfl fun u _ => by ring
      rw [e]
      linear_combination 1 / 1000000000 * hpm.2 u hu hd
        + (a / 1000000000 + 200 * 365 * 24 * 60 * 60 / 1000000000000) * hm.2 u hu hd
        + ε * hk.2 u hu hd + ε * (a + 1) * hh.2 u hu hd)
    (fun u hr y he => Or.inl (Relation.ReflTransGen.head he hr)) hsrc v hv Relation.ReflTransGen.refl
  have ht0 := (hT v hv Relation.ReflTransGen.refl).1
  have h2 : |t v * (1 - c v)| ≤ a * (1 / 1000000000 * m v + ε * h v) := by
    rw [abs_mul, abs_of_nonneg ht0, abs_sub_comm]
    exact mul_le_mul hta (hc v hv Relation.ReflTransGen.refl) (abs_nonneg _) (ht0.trans hta)
  have h3 : |t v - q v| ≤ |t v * c v - q v| + |t v * (1 - c v)| := by
    refine le_of_eq_of_le ?_ (abs_add_le _ _)
    congr 1
    ring
  refine (h3.trans (add_le_add key h2)).trans (le_of_eq ?_)
  ring

theorem global_of {D : List (Int × Int × Double)} {pv : List Double} {l : List (CellSetID × Int × Double)}
    {DK : List (Nat × Nat × ℚ)} {wells : List (WellFlux ℚ)} {cs : WellFlux ℚ → List Nat} {f : WellFlux ℚ → Nat → ℚ}
    {starts : List CellSet} {sol : Solution Double}
    (h : Inputs Double.rounded D pv l F DK wells cs f M) (hM : M ≤ 2 ^ 40) (hm : ∀ v < F.n, Sized F v) {fuel : Nat}
    (hfuel : F.n + numEdges F.n (graphsOf F.n D).1.startPointers ≤ fuel)
    (hs : computeSolution (graphsOf F.n D).1 (graphsOf F.n D).2 pv (gather l).only (gather l).byId noFailure fuel starts = .ok sol) :
    ∃ c, GlobalBalance F M (1 + 1 / 2 ^ 52) (doubleIn sol.tof) c := by
  have key := computeSolution_global Double.precise Double.gradual double_odd double_ninf (Double.pow_clear hM)
    (Double.pow_le_two (by omega)) (by
      have : (M : ℚ) ≤ 2 ^ 40 := by exact_mod_cast hM
      refine le_trans (add_le_add_left this 1) ?_
      norm_num) h hm hfuel hs
  simp only [numOf_doubleIn] at key
  exact key

end global

variable {P : Problem ℚ} {M : Nat} {g : ConnectivityGraph} {calls : List (Call Double)} {starts : List CellSet} {sol : Solution Double}

/-- **C82** (no cell has a self-connection as its only cycle) Global times-of-flight from injectors, computed with
    `double`s, against the exact ones `q`, which the flow carries from all sources when each cell adds its pore volume.
    The bound holds in a cell if each cell upstream of it is reached from a source, has a time of at most `a` < 200 years,
    and allows errors of concentrations, as bounded in C80 with the fields `m` and `h`, of at most a half. -/
theorem C82_injection (hP : P.Valid) (hO : P.OfOrdinarySize M) (htotal : ∀ v < P.n, P.forward.total v ≤ 2 ^ 100)
    (hself : ∀ v < P.n, ¬ P.forward.Loop v) (hS : P.StoredIn g calls) (hr : InjectionReturns g calls starts (.ok sol)) :
    ∃ m h q p k, P.forward.Carries ((List.range P.n).filter fun p => decide (0 < P.source p)) P.forward.cycleInflow m ∧
      P.forward.Carries ((List.range P.n).filter fun p => decide (0 < P.source p)) P.forward.total h ∧
      P.forward.Carries ((List.range P.n).filter fun p => decide (0 < P.source p)) P.pv q ∧
      P.forward.Carries ((List.range P.n).filter fun p => decide (0 < P.source p)) (fun v => P.pv v * m v) p ∧
      P.forward.Carries ((List.range P.n).filter fun p => decide (0 < P.source p)) (fun v => P.pv v * h v) k ∧
      ∀ a < 200 * 365 * 24 * 60 * 60, ∀ v < P.n,
        (∀ u, P.forward.Reach u v → (∃ p < P.n, 0 < P.source p ∧ P.forward.Reach p u) ∧ doubleIn sol.tof u ≤ a ∧
          1 / 1000000000 * m u + ((4 * M + 6 : Nat) : ℚ) / 2 ^ 51 * h u ≤ 1 / 2) →
        |doubleIn sol.tof v - q v| ≤ 1 / 1000000000 * p v
          + (2 * a / 1000000000 + 200 * 365 * 24 * 60 * 60 / 1000000000000) * m v
          + ((4 * M + 8 : Nat) : ℚ) / 2 ^ 51 * (k v + (2 * a + 1) * h v) := by
  have hg := stored_connectivity hP hS
  obtain ⟨pv, hpv, hpvv⟩ := hS.pv
  obtain ⟨np, phi, hf, hphi⟩ := hS.flux
  have hI := inputs_forward hP hO hphi hpvv hS.inflow
  obtain ⟨N, hN⟩ := hr
  obtain ⟨c, B⟩ := global_of hI hO.bound (sized_of hI htotal hO.pv) (le_max_right N _)
    ((outcomes_ok hg (stored_complete hP hS) hpv hf).1 (hN _ (le_max_left N _)))
  have hs : ∀ p, p ∈ (List.range P.n).filter (fun p => decide (0 < P.source p)) ↔ p < P.forward.n ∧ 0 < P.forward.src p := by
    intro p; rw [List.mem_filter, List.mem_range, decide_eq_true_eq]; exact Iff.rfl
  obtain ⟨m, hm⟩ := (C76_exact hI.valid (fun p => (hs p).mp) P.forward.cycleInflow).1
  obtain ⟨h, hh⟩ := (C76_exact hI.valid (fun p => (hs p).mp) P.forward.total).1
  obtain ⟨q, hq⟩ := (C76_exact hI.valid (fun p => (hs p).mp) P.pv).1
  obtain ⟨p, hpm⟩ := (C76_exact hI.valid (fun p => (hs p).mp) fun v => P.pv v * m v).1
  obtain ⟨k, hk⟩ := (C76_exact hI.valid (fun p => (hs p).mp) fun v => P.pv v * h v).1
  refine ⟨m, h, q, p, k, hm, hh, hq, hpm, hk, fun a ha v hv hup => ?_⟩
  refine global_error hI.valid hO.bound B hself hs hm hh hq hpm hk ha hv fun u hr => ⟨?_, (hup u hr).2⟩
  obtain ⟨p, h1, h2, h3⟩ := (hup u hr).1
  exact ⟨p, (hs p).mpr ⟨h1, h2⟩, h3⟩

/-- **C82** The same for producers: times from each cell, in the reversed flow. -/
theorem C82_production (hP : P.Valid) (hO : P.OfOrdinarySize M) (htotal : ∀ v < P.n, P.backward.total v ≤ 2 ^ 100)
    (hself : ∀ v < P.n, ¬ P.forward.Loop v) (hS : P.StoredIn g calls) (hr : ProductionReturns g calls starts (.ok sol)) :
    ∃ m h q p k, P.backward.Carries ((List.range P.n).filter fun p => decide (0 < P.sink p)) P.backward.cycleInflow m ∧
      P.backward.Carries ((List.range P.n).filter fun p => decide (0 < P.sink p)) P.backward.total h ∧
      P.backward.Carries ((List.range P.n).filter fun p => decide (0 < P.sink p)) P.pv q ∧
      P.backward.Carries ((List.range P.n).filter fun p => decide (0 < P.sink p)) (fun v => P.pv v * m v) p ∧
      P.backward.Carries ((List.range P.n).filter fun p => decide (0 < P.sink p)) (fun v => P.pv v * h v) k ∧
      ∀ a < 200 * 365 * 24 * 60 * 60, ∀ v < P.n,
        (∀ u, P.forward.Reach v u → (∃ p < P.n, 0 < P.sink p ∧ P.forward.Reach u p) ∧ doubleIn sol.tof u ≤ a ∧
          1 / 1000000000 * m u + ((4 * M + 6 : Nat) : ℚ) / 2 ^ 51 * h u ≤ 1 / 2) →
        |doubleIn sol.tof v - q v| ≤ 1 / 1000000000 * p v
          + (2 * a / 1000000000 + 200 * 365 * 24 * 60 * 60 / 1000000000000) * m v
          + ((4 * M + 8 : Nat) : ℚ) / 2 ^ 51 * (k v + (2 * a + 1) * h v) := by
  have hg := stored_connectivity hP hS
  obtain ⟨pv, hpv, hpvv⟩ := hS.pv
  obtain ⟨np, phi, hf, hphi⟩ := hS.flux
  have hI := inputs_backward hP hO hphi hpvv hS.inflow
  obtain ⟨N, hN⟩ := hr
  obtain ⟨c, B⟩ := global_of hI hO.bound (sized_of hI htotal hO.pv) (le_max_right N _)
    ((outcomes_ok hg (stored_complete hP hS) hpv hf).2 (hN _ (le_max_left N _)))
  have hs : ∀ p, p ∈ (List.range P.n).filter (fun p => decide (0 < P.sink p)) ↔ p < P.backward.n ∧ 0 < P.backward.src p := by
    intro p; rw [List.mem_filter, List.mem_range, decide_eq_true_eq]; exact Iff.rfl
  obtain ⟨m, hm⟩ := (C76_exact hI.valid (fun p => (hs p).mp) P.backward.cycleInflow).1
  obtain ⟨h, hh⟩ := (C76_exact hI.valid (fun p => (hs p).mp) P.backward.total).1
  obtain ⟨q, hq⟩ := (C76_exact hI.valid (fun p => (hs p).mp) P.pv).1
  obtain ⟨p, hpm⟩ := (C76_exact hI.valid (fun p => (hs p).mp) fun v => P.pv v * m v).1
  obtain ⟨k, hk⟩ := (C76_exact hI.valid (fun p => (hs p).mp) fun v => P.pv v * h v).1
  refine ⟨m, h, q, p, k, hm, hh, hq, hpm, hk, fun a ha v hv hup => ?_⟩
  refine global_error hI.valid hO.bound B (backward_not_loop hself) hs hm hh hq hpm hk ha hv fun u hr =>
    ⟨?_, (hup u (backward_reach.mp hr)).2⟩
  obtain ⟨p, h1, h2, h3⟩ := (hup u (backward_reach.mp hr)).1
  exact ⟨p, (hs p).mpr ⟨h1, h2⟩, backward_reach.mpr h3⟩

/-! ### A case -/

theorem whirl_flux : exWhirl.flux 0 1 = 2 ∧ exWhirl.flux 1 2 = 3 ∧ exWhirl.flux 2 3 = 3 ∧ exWhirl.flux 3 1 = 1 := by
  refine ⟨?_, ?_, ?_, ?_⟩ <;> simp [Problem.flux, Problem.carried, Problem.net, exWhirl, sum_range_succ]

theorem whirl_source : 0 < exWhirl.source 0 := by
  simp [exWhirl, Problem.source, Problem.wellAt]

theorem whirl_reached : ∀ v < 4, exWhirl.forward.Reach 0 v := by
  obtain ⟨h1, h2, h3, _⟩ := whirl_flux
  have e01 : exWhirl.forward.Edge 0 1 := ⟨by decide, by decide, by show 0 < exWhirl.flux 0 1; rw [h1]; norm_num⟩
  have e12 : exWhirl.forward.Edge 1 2 := ⟨by decide, by decide, by show 0 < exWhirl.flux 1 2; rw [h2]; norm_num⟩
  have e23 : exWhirl.forward.Edge 2 3 := ⟨by decide, by decide, by show 0 < exWhirl.flux 2 3; rw [h3]; norm_num⟩
  intro v hv
  interval_cases v
  · exact Relation.ReflTransGen.refl
  · exact Relation.ReflTransGen.single e01
  · exact (Relation.ReflTransGen.single e01).tail e12
  · exact ((Relation.ReflTransGen.single e01).tail e12).tail e23

theorem whirl_fields {m h : Nat → ℚ}
    (hm : exWhirl.forward.Carries ((List.range exWhirl.n).filter fun p => decide (0 < exWhirl.source p)) exWhirl.forward.cycleInflow m)
    (hh : exWhirl.forward.Carries ((List.range exWhirl.n).filter fun p => decide (0 < exWhirl.source p)) exWhirl.forward.total h) :
    ∀ v < 4, 1 / 1000000000 * m v + ((4 * 4 + 6 : Nat) : ℚ) / 2 ^ 51 * h v ≤ 1 / 2 := by
  have hs : ∀ p, p ∈ (List.range exWhirl.n).filter (fun p => decide (0 < exWhirl.source p)) ↔
      p < exWhirl.forward.n ∧ 0 < exWhirl.forward.src p := by
    intro p; rw [List.mem_filter, List.mem_range, decide_eq_true_eq]; exact Iff.rfl
  have hF : exWhirl.forward.Valid := forward_valid exWhirl_valid
  have hmh := carries_le hF (fun p => (hs p).mp) hm hh fun v hv => (cycleInflow_bounds hF hv).2
  have hd : ∀ v < 4, exWhirl.forward.Downstream ((List.range exWhirl.n).filter fun p => decide (0 < exWhirl.source p)) v :=
    fun v hv => ⟨0, (hs 0).mpr ⟨by decide, whirl_source⟩, whirl_reached v hv⟩
  have k : ∀ v < 4, h v ≤ 10 := by
    have e0 := hh.2 0 (by decide) (hd 0 (by norm_num))
    have e1 := hh.2 1 (by decide) (hd 1 (by norm_num))
    have e2 := hh.2 2 (by decide) (hd 2 (by norm_num))
    have e3 := hh.2 3 (by decide) (hd 3 (by norm_num))
    simp [Flow.total, Flow.inflow, Problem.forward, exWhirl, Finset.sum_range_succ, Problem.source, Problem.wellAt, Problem.flux,
      Problem.carried, Problem.net] at e0 e1 e2 e3
    intro v hv
    interval_cases v <;> linarith
  intro v hv
  have h1 := k v hv
  have h2 := hmh v hv
  norm_num
  linarith

set_option maxRecDepth 100000 in
/-- C82: the hypotheses hold in every cell of a flow with a cycle, with `a` ten seconds. -/
example : ∃ S, InjectionReturns whirlGraph whirlCalls [CellSet.ofCells ⟨[65]⟩ [0]] (.ok S) ∧
    ∀ m h, exWhirl.forward.Carries ((List.range exWhirl.n).filter fun p => decide (0 < exWhirl.source p)) exWhirl.forward.cycleInflow m →
      exWhirl.forward.Carries ((List.range exWhirl.n).filter fun p => decide (0 < exWhirl.source p)) exWhirl.forward.total h →
      ∀ v < exWhirl.n, ∀ u, exWhirl.forward.Reach u v → (∃ p < exWhirl.n, 0 < exWhirl.source p ∧ exWhirl.forward.Reach p u) ∧
        doubleIn S.tof u ≤ 10 ∧ 1 / 1000000000 * m u + ((4 * 4 + 6 : Nat) : ℚ) / 2 ^ 51 * h u ≤ 1 / 2 := by
  have key : (match injectionOutcome whirlGraph whirlCalls noFailure 100 [CellSet.ofCells ⟨[65]⟩ [0]] with
      | .ok s => (List.range 4).all fun v => decide (doubleIn s.tof v ≤ 10)
      | _ => false) = true := by decide +kernel
  split at key
  · rename_i S hS
    refine ⟨S, (Fuel.injection_returns.mpr ⟨100, hS, by simp⟩).1, ?_⟩
    intro m h hm hh v hv u hr
    have hu : u < 4 := by
      rcases Relation.ReflTransGen.cases_head hr with rfl | ⟨y, he, _⟩
      · exact hv
      · exact he.1
    refine ⟨⟨0, by decide, whirl_source, whirl_reached u hu⟩, ?_, whirl_fields hm hh u hu⟩
    have := List.all_eq_true.mp key u (List.mem_range.mpr hu)
    simpa using this
  · cases key

end Verif.Props
