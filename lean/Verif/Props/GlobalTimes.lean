/-
C77, C102: global times of flight in flow with cycles, against exact times and against mean times over all routes.
-/
import Verif.Props.RouteTimes

namespace Verif.Props
open Verif.Spec Verif.Toolbox Verif.Solver Verif.Derived Finset

section flow
variable {K : Type} [Field K] [LinearOrder K] [IsStrictOrderedRing K] {F : Flow K}

/-- `max_principle`, in a part of the grid that contains what is upstream of it. -/
theorem max_upstream (hF : F.Valid) {S : Nat → Prop} (hS : ∀ u v, S v → F.Edge u v → S u) {e : Nat → K}
    (hle : ∀ v < F.n, S v → F.total v * e v ≤ ∑ u ∈ range F.n, e u * F.w u v)
    (hsrc : ∀ v < F.n, S v → ∃ p, p < F.n ∧ 0 < F.src p ∧ F.Reach p v) : ∀ v < F.n, S v → e v ≤ 0 := by
  classical
  have := max_principle hF (S := S) (e := fun v => if S v then e v else 0) (fun v hv hn => by simp [hn]) (fun v hv hs => by
    have : ∑ u ∈ range F.n, (if S u then e u else 0) * F.w u v = ∑ u ∈ range F.n, e u * F.w u v := by
      refine sum_congr rfl fun u hu => ?_
      have hu := mem_range.mp hu
      rcases (hF.w_nonneg u v hu hv).eq_or_lt with hz | hz
      · rw [← hz, mul_zero, mul_zero]
      · rw [if_pos (hS u v hs ⟨hu, hv, hz⟩)]
    simp only [if_pos hs]
    rw [this]; exact hle v hv hs) hsrc
  intro v hv hs
  have := this v hv
  simpa only [if_pos hs] using this

variable [Archimedean K]

/-- **C77** (solver, no cell has a self-connection as its only cycle) Global times-of-flight against the exact ones `q`, which
    the flow carries from all sources when each cell adds its pore volume, in the cells for which no time upstream is above
    `a` < 200 years. -/
theorem C77_global_error {d : SolverData (X K)} {st : SolverState (X K)} (h : SolverFor F d st) (hself : ∀ v < F.n, ¬ F.Loop v)
    {tof : List (X K)} (hr : GlobalReturns d st (.ok tof)) {all : List Nat} (hall : ∀ p, p ∈ all ↔ p < F.n ∧ 0 < F.src p)
    {m q p : Nat → K} (hm : F.Carries all F.cycleInflow m) (hq : F.Carries all F.pv q)
    (hpm : F.Carries all (fun v => F.pv v * m v) p) {a : K} (ha : a < cap) {v : Nat} (hv : v < F.n)
    (hta : ∀ u, F.Reach u v → fieldAt tof u ≤ a) :
    fieldAt tof v - q v ≤ a / 1000000000 * m v ∧
    q v - fieldAt tof v ≤ 1 / 1000000000 * p v + (a / 1000000000 + cap / 1000000000000) * m v := by
  obtain ⟨τ, c, hr1, hc1, hf⟩ := global_facts h
  have hF := h.valid
  rw [Res.ok.inj (hr.unique hr1)] at hta ⊢
  set S : Nat → Prop := fun v => v < F.n ∧ ∀ u, F.Reach u v → u < F.n → min (τ u) cap ≤ a with hS
  have hup : ∀ u v, S v → F.Edge u v → S u := fun u v hv he =>
    ⟨he.1, fun x hx hxn => hv.2 x (hx.tail he) hxn⟩
  have hSv : S v := ⟨hv, fun u hu hun => by have := hta u hu; rwa [arr_fieldAt _ _ hun] at this⟩
  have hτ : ∀ v, S v → τ v ≤ a := fun v hs => by
    rcases min_le_iff.mp (hs.2 v .refl hs.1) with e | e
    · exact e
    · exact absurd ha (not_lt.mpr e)
  have hfast : ∀ v, S v → ¬ F.total v < F.pv v / cap ∧ 0 < c v := fun v hs => by
    have : ¬ (F.total v < F.pv v / cap ∨ c v = 0) := fun e => by
      have := hτ v hs
      rw [hf.capped v hs.1 e] at this
      exact absurd ha (not_lt.mpr this)
    rw [not_or] at this
    exact ⟨this.1, (hf.nonneg v hs.1).2.lt_of_ne fun e => this.2 e.symm⟩
  have hd : ∀ v, S v → F.Downstream all v := fun v hs => by
    obtain ⟨p, h1, _, _, h4, h5⟩ := hf.source v hs.1 (hfast v hs).2
    exact ⟨p, (hall p).mpr ⟨h1, h4⟩, h5⟩
  have hsrc : ∀ v < F.n, S v → ∃ p, p < F.n ∧ 0 < F.src p ∧ F.Reach p v := fun v _ hs => by
    obtain ⟨p, h1, h2⟩ := hd v hs
    exact ⟨p, ((hall p).mp h1).1, ((hall p).mp h1).2, h2⟩
  have hlive : ∀ v, ¬ (0 < F.src v ∧ F.src v = 0) := fun v e => e.1.ne' e.2
  have eT : (tolC : K) = 1 / 1000000000 := rfl
  have e2 : ∀ (a b : Nat → K) v, ∑ u ∈ range F.n, (a u - b u) * F.w u v
      = (∑ u ∈ range F.n, a u * F.w u v) - ∑ u ∈ range F.n, b u * F.w u v := by
    intro a b v
    rw [← sum_sub_distrib]; exact sum_congr rfl fun u _ => by ring
  have em : ∀ (k : K) (b : Nat → K) v, ∑ u ∈ range F.n, k * b u * F.w u v = k * ∑ u ∈ range F.n, b u * F.w u v := by
    intro k b v
    rw [mul_sum]; exact sum_congr rfl fun u _ => by ring
  -- the concentrations of the solve
  have hconc := max_upstream hF hup (e := fun v => (1 - c v) - 1 / 1000000000 * m v) (fun v hvn hs => by
    have h1 := hf.res v hvn (hlive v) (hself v hvn)
    rw [eT] at h1
    have h2 := hm.2 v hvn (hd v hs)
    rw [e2 (fun u => 1 - c u) (fun u => 1 / 1000000000 * m u), e2 (fun _ => 1) c, em]
    have h3 : ∑ u ∈ range F.n, 1 * F.w u v = F.inflow v := sum_congr rfl fun u _ => one_mul _
    have h4 : F.total v * ((1 - c v) - 1 / 1000000000 * m v)
        = F.total v - F.total v * c v - 1 / 1000000000 * (F.total v * m v) := by ring
    rw [h3, h4, h2]
    have h5 : F.total v = F.inflow v + F.src v := rfl
    linarith) hsrc
  have hcm : ∀ v, S v → 1 - c v ≤ 1 / 1000000000 * m v := fun v hs => sub_nonpos.mp (hconc v hs.1 hs)
  have hm0 : ∀ v, S v → 0 ≤ 1 / 1000000000 * m v := fun v hs => le_trans (sub_nonneg.mpr (hc1 v hs.1)) (hcm v hs)
  have h1 := max_upstream hF hup (e := fun v => τ v * c v - q v) (fun v hvn hs => by
    rw [e2 (fun u => τ u * c u) q, mul_sub, hq.2 v hvn (hd v hs)]
    have h2 := hf.tsub v hvn (hfast v hs).1 (hfast v hs).2
    have h3 : F.pv v * c v ≤ F.pv v := mul_le_of_le_one_right (hF.pv_nonneg v hvn) (hc1 v hvn)
    have h4 : F.total v * (τ v * c v) = F.total v * c v * τ v := by ring
    rw [h4]; linarith) hsrc v hv hSv
  set B : K := a / 1000000000 + cap / 1000000000000 with hB
  have h2 := max_upstream hF hup (e := fun v => (q v - τ v * c v) - (1 / 1000000000 * p v + B * m v)) (fun v hvn hs => by
    have e3 : ∑ u ∈ range F.n, (1 / 1000000000 * p u + B * m u) * F.w u v
        = 1 / 1000000000 * (∑ u ∈ range F.n, p u * F.w u v) + B * ∑ u ∈ range F.n, m u * F.w u v := by
      rw [← em, ← em, ← sum_add_distrib]; exact sum_congr rfl fun u _ => by ring
    rw [e2 (fun u => q u - τ u * c u) (fun u => 1 / 1000000000 * p u + B * m u), e2 q (fun u => τ u * c u), e3]
    have ha0 : 0 ≤ a := (hf.nonneg v hvn).1.trans (hτ v hs)
    have h3 := hf.tres v hvn (hfast v hs).1 (hfast v hs).2 (hself v hvn) a 1 ha0 zero_le_one fun u hu => by
      have hun : u < F.n := by
        rcases Relation.ReflTransGen.cases_head hu.1 with e | ⟨x, e, _⟩
        · rw [e]; exact hvn
        · exact e.1
      exact ⟨hτ u ⟨hun, fun x hx => hs.2 x (hx.trans hu.1)⟩, hc1 u hun⟩
    have e4 : (a * tolC + 1 * tolT : K) = B := by
      rw [hB]; unfold tolC tolT; ring
    rw [e4] at h3
    have h4 : F.pv v - F.pv v * c v ≤ 1 / 1000000000 * (F.pv v * m v) := by
      have := mul_le_mul_of_nonneg_left (hcm v hs) (hF.pv_nonneg v hvn)
      linarith
    have h5 : F.total v * ((q v - τ v * c v) - (1 / 1000000000 * p v + B * m v))
        = F.total v * q v - F.total v * c v * τ v - 1 / 1000000000 * (F.total v * p v) - B * (F.total v * m v) := by ring
    rw [h5, hq.2 v hvn (hd v hs), hpm.2 v hvn (hd v hs), hm.2 v hvn (hd v hs)]
    linarith) hsrc v hv hSv
  rw [arr_fieldAt _ _ hv, min_eq_left ((hτ v hSv).trans ha.le)]
  have t0 := (hf.nonneg v hv).1
  have k0 := hcm v hSv
  have k1 : τ v * (1 - c v) ≤ a / 1000000000 * m v := by
    refine (mul_le_mul (hτ v hSv) k0 (sub_nonneg.mpr (hc1 v hv)) (t0.trans (hτ v hSv))).trans (le_of_eq ?_)
    ring
  have k2 : τ v * c v ≤ τ v := mul_le_of_le_one_right t0 (hc1 v hv)
  constructor <;> linarith

/-- From the errors of the times to their distance from the means over routes, where a source reaches every cell. -/
theorem global_mean (hF : F.Valid) {all : List Nat} (hall : ∀ p, p ∈ all ↔ p < F.n ∧ 0 < F.src p)
    (hd : ∀ v < F.n, F.Downstream all v) (hslow : ∀ v < F.n, ¬ F.Slow v) {y : Nat → K} (hy : F.Carries all F.pv y) {v : Nat}
    (hv : v < F.n) {τ e₁ e₂ : K} (p1 : 0 ≤ e₁) (p2 : 0 ≤ e₂) (h1 : τ - y v ≤ e₁) (h2 : y v - τ ≤ e₂) :
    ∀ ε > 0, ∃ N₀, ∀ N ≥ N₀, τ - F.meanTime F.src N v ≤ e₁ + ε ∧ F.meanTime F.src N v - τ ≤ e₂ + ε := by
  have hp := fun p => (hall p).mp
  have hq : ∀ v < F.n, 0 ≤ F.src v ∧ (F.src v ≠ 0 → v ∈ all) := fun v hv =>
    ⟨hF.src_nonneg v hv, fun h => (hall v).mpr ⟨hv, (hF.src_nonneg v hv).lt_of_ne h.symm⟩⟩
  have hx : F.Carries all F.src fun _ => 1 := by
    refine ⟨fun v hv hn => absurd (hd v hv) hn, fun v _ _ => ?_⟩
    rw [mul_one]
    exact congrArg (· + F.src v) (sum_congr rfl fun u _ => (one_mul _).symm)
  have hin : ∀ v, F.Downstream all v → v < F.n := fun v ⟨p, h1, h2⟩ => reach_lt (hp p h1).1 h2
  intro ε hε
  have hE : 0 < 4 * (e₁ + e₂ + ε) := by linarith
  obtain ⟨N₁, k1⟩ := mean_error hF hp hq (fun v hd => hslow v (hin v hd)) (x := fun _ => 1) (y := y) hx
    (by simpa only [mul_one] using hy) hv (τ := τ) (e₁ := e₁) (e₂ := e₂) (by rwa [mul_one]) (by rwa [mul_one])
    (ε / 4) (by linarith)
  obtain ⟨N₂, k2⟩ := (arrived_limit hF hp hq hx hv).2 (min (1 / 2) (ε / (4 * (e₁ + e₂ + ε))))
    (lt_min (by norm_num) (div_pos hε hE))
  refine ⟨max N₁ N₂, fun N hN => ?_⟩
  obtain ⟨a1, a2⟩ := k1 N (le_trans (le_max_left _ _) hN)
  have a3 := k2 N (le_trans (le_max_right _ _) hN)
  set A := F.arrived F.src N v
  have a4 : 1 / 2 ≤ A := by have := min_le_left (1 / 2) (ε / (4 * (e₁ + e₂ + ε))); linarith
  have a5 : 1 - A ≤ ε / (4 * (e₁ + e₂ + ε)) := by have := min_le_right (1 / 2) (ε / (4 * (e₁ + e₂ + ε))); linarith
  have key : ∀ z e : K, 0 ≤ e → e ≤ e₁ + e₂ → z * A ≤ e + ε / 4 → z ≤ e + ε := by
    intro z e he hle hz
    rcases le_or_gt z 0 with h0 | h0
    · linarith
    · have b1 : z ≤ 2 * (e + ε / 4) := by nlinarith
      have b2 : z * (1 - A) ≤ 2 * (e + ε / 4) * (ε / (4 * (e₁ + e₂ + ε))) := by
        refine (mul_le_mul_of_nonneg_left a5 h0.le).trans (mul_le_mul_of_nonneg_right b1 (div_pos hε hE).le)
      have b3 : 2 * (e + ε / 4) * (ε / (4 * (e₁ + e₂ + ε))) ≤ ε / 2 := by
        rw [← mul_div_assoc, div_le_iff₀ hE]
        nlinarith
      linarith
  exact ⟨key _ _ p1 (by linarith) a1, key _ _ p2 (by linarith) a2⟩

end flow

/-! ### Exact arithmetic -/

section runs
variable {K : Type} [Field K] [LinearOrder K] [IsStrictOrderedRing K] [Archimedean K] {F : Flow K} {wells : List (WellFlux K)}
  {cs : WellFlux K → List Nat} {f : WellFlux K → Nat → K} {starts : List CellSet} {sol : Solution (X K)}

theorem Diag.global_time_error (D : Diag F wells cs f starts sol) (hself : ∀ v < F.n, ¬ F.Loop v) {all : List Nat}
    (hall : ∀ p, p ∈ all ↔ p < F.n ∧ 0 < F.src p) {m q p : Nat → K} (hm : F.Carries all F.cycleInflow m)
    (hq : F.Carries all F.pv q) (hpm : F.Carries all (fun v => F.pv v * m v) p) {a : K} (ha : a < cap) {v : Nat} (hv : v < F.n)
    (hta : ∀ u, F.Reach u v → fieldAt sol.timeOfFlight u ≤ a) :
    fieldAt sol.timeOfFlight v - q v ≤ a / 1000000000 * m v ∧
    q v - fieldAt sol.timeOfFlight v ≤ 1 / 1000000000 * p v + (a / 1000000000 + cap / 1000000000000) * m v := by
  obtain ⟨d, st, h1, h2, _⟩ := D.solved
  exact C77_global_error h1 hself h2 hall hm hq hpm ha hv hta

/-- Cells with a time below 200 years are reached from a source and not slow. -/
theorem Diag.global_fast (D : Diag F wells cs f starts sol) {all : List Nat} (hall : ∀ p, p ∈ all ↔ p < F.n ∧ 0 < F.src p) {v : Nat}
    (hv : v < F.n) (hlt : fieldAt sol.timeOfFlight v < cap) :
    F.Downstream all v ∧ ¬ F.Slow v ∧ 0 ≤ fieldAt sol.timeOfFlight v := by
  obtain ⟨d, st, h1, h2, _⟩ := D.solved
  obtain ⟨τ, c, hr1, _, hf⟩ := global_facts h1
  rw [Res.ok.inj (h2.unique hr1), arr_fieldAt _ _ hv] at hlt ⊢
  have h3 : τ v < cap := by
    rcases min_lt_iff.mp hlt with e | e
    · exact e
    · exact absurd e (lt_irrefl _)
  refine ⟨?_, fun hs => h3.ne (hf.capped v hv (.inl hs)), le_min (hf.nonneg v hv).1 cap_pos.le⟩
  have h4 : 0 < c v := (hf.nonneg v hv).2.lt_of_ne fun e => h3.ne (hf.capped v hv (.inr e.symm))
  obtain ⟨p, a, _, _, b, e⟩ := hf.source v hv h4
  exact ⟨p, (hall p).mpr ⟨a, b⟩, e⟩

theorem Diag.routes_global_cyclic (D : Diag F wells cs f starts sol) (hself : ∀ v < F.n, ¬ F.Loop v) {all : List Nat}
    (hall : ∀ p, p ∈ all ↔ p < F.n ∧ 0 < F.src p) {m p : Nat → K} (hm : F.Carries all F.cycleInflow m)
    (hpm : F.Carries all (fun v => F.pv v * m v) p) {a : K} (ha : a < cap) (hta : ∀ u < F.n, fieldAt sol.timeOfFlight u ≤ a)
    {v : Nat} (hv : v < F.n) :
    ∀ ε > 0, ∃ N₀, ∀ N ≥ N₀,
      fieldAt sol.timeOfFlight v - F.meanTime F.src N v ≤ a / 1000000000 * m v + ε ∧
      F.meanTime F.src N v - fieldAt sol.timeOfFlight v
        ≤ 1 / 1000000000 * p v + (a / 1000000000 + cap / 1000000000000) * m v + ε := by
  have hF : F.Valid := by obtain ⟨d, st, h1, _⟩ := D.solved; exact h1.valid
  have hp := fun p => (hall p).mp
  obtain ⟨q, hq⟩ := (C76_exact hF hp F.pv).1
  have fast := fun v hv => D.global_fast hall hv ((hta v hv).trans_lt ha)
  obtain ⟨h1, h2⟩ := D.global_time_error hself hall hm hq hpm ha hv fun u hu => hta u (by
    rcases Relation.ReflTransGen.cases_head hu with e | ⟨x, e, _⟩
    · rw [e]; exact hv
    · exact e.1)
  have m0 := (C76_exact hF hp _).2.2 (fun v hv => by
    unfold Flow.cycleInflow
    exact sum_nonneg fun u hu => by split; exacts [hF.w_nonneg u v (mem_range.mp hu) hv, le_refl _]) m hm
  have p0 := (C76_exact hF hp _).2.2 (fun v hv => mul_nonneg (hF.pv_nonneg v hv) (m0 v hv)) p hpm v hv
  have a0 : 0 ≤ a := (fast v hv).2.2.trans (hta v hv)
  have c0 : (0 : K) ≤ cap := cap_pos.le
  exact global_mean hF hall (fun v hv => (fast v hv).1) (fun v hv => (fast v hv).2.1) hq hv
    (mul_nonneg (div_nonneg a0 (by norm_num)) (m0 v hv))
    (add_nonneg (mul_nonneg (by norm_num) p0)
      (mul_nonneg (add_nonneg (div_nonneg a0 (by norm_num)) (div_nonneg c0 (by norm_num))) (m0 v hv))) h1 h2

end runs

section exact
variable {K : Type} [Field K] [LinearOrder K] [IsStrictOrderedRing K] [Archimedean K] {P : Problem K} (hP : P.Valid)
  {g : ConnectivityGraph} {calls : List (Call (X K))} (h : P.GivenTo g calls) (hself : ∀ v < P.n, ¬ P.forward.Loop v)
  {starts : List CellSet} {sol : Solution (X K)}
include hP h hself

/-- **C77** (exact arithmetic, no cell has a self-connection as its only cycle) Global times-of-flight from injectors against the
    exact ones `q`, which the flow carries from all sources when each cell adds its pore volume. The bound holds in a cell
    if no time upstream of it is above `a` < 200 years. -/
theorem C77_injection_global (hr : InjectionReturns g calls starts (.ok sol)) :
    ∃ m q p, P.forward.Carries ((List.range P.n).filter fun p => decide (0 < P.source p)) P.forward.cycleInflow m ∧
      P.forward.Carries ((List.range P.n).filter fun p => decide (0 < P.source p)) P.pv q ∧
      P.forward.Carries ((List.range P.n).filter fun p => decide (0 < P.source p)) (fun v => P.pv v * m v) p ∧
      ∀ a < 200 * 365 * 24 * 60 * 60, ∀ v < P.n, (∀ u, P.forward.Reach u v → fieldAt sol.timeOfFlight u ≤ a) →
        fieldAt sol.timeOfFlight v - q v ≤ a / 1000000000 * m v ∧
        q v - fieldAt sol.timeOfFlight v
          ≤ 1 / 1000000000 * p v + (a / 1000000000 + 200 * 365 * 24 * 60 * 60 / 1000000000000) * m v := by
  have D := diag_injection hP h hr
  have hall : ∀ p, p ∈ (List.range P.n).filter (fun p => decide (0 < P.source p)) ↔ p < P.forward.n ∧ 0 < P.forward.src p := by
    intro p; rw [List.mem_filter, List.mem_range, decide_eq_true_eq]; exact Iff.rfl
  have hF := forward_valid hP
  obtain ⟨m, hm⟩ := (C76_exact hF (fun p => (hall p).mp) P.forward.cycleInflow).1
  obtain ⟨q, hq⟩ := (C76_exact hF (fun p => (hall p).mp) P.pv).1
  obtain ⟨p, hpm⟩ := (C76_exact hF (fun p => (hall p).mp) fun v => P.pv v * m v).1
  exact ⟨m, q, p, hm, hq, hpm, fun a ha v hv hta => D.global_time_error hself hall hm hq hpm ha hv hta⟩

/-- **C77** The same for producers, in the reversed flow. -/
theorem C77_production_global (hr : ProductionReturns g calls starts (.ok sol)) :
    ∃ m q p, P.backward.Carries ((List.range P.n).filter fun p => decide (0 < P.sink p)) P.backward.cycleInflow m ∧
      P.backward.Carries ((List.range P.n).filter fun p => decide (0 < P.sink p)) P.pv q ∧
      P.backward.Carries ((List.range P.n).filter fun p => decide (0 < P.sink p)) (fun v => P.pv v * m v) p ∧
      ∀ a < 200 * 365 * 24 * 60 * 60, ∀ v < P.n, (∀ u, P.forward.Reach v u → fieldAt sol.timeOfFlight u ≤ a) →
        fieldAt sol.timeOfFlight v - q v ≤ a / 1000000000 * m v ∧
        q v - fieldAt sol.timeOfFlight v
          ≤ 1 / 1000000000 * p v + (a / 1000000000 + 200 * 365 * 24 * 60 * 60 / 1000000000000) * m v := by
  have D := diag_production hP h hr
  have hall : ∀ p, p ∈ (List.range P.n).filter (fun p => decide (0 < P.sink p)) ↔ p < P.backward.n ∧ 0 < P.backward.src p := by
    intro p; rw [List.mem_filter, List.mem_range, decide_eq_true_eq]; exact Iff.rfl
  have hF := backward_valid hP
  obtain ⟨m, hm⟩ := (C76_exact hF (fun p => (hall p).mp) P.backward.cycleInflow).1
  obtain ⟨q, hq⟩ := (C76_exact hF (fun p => (hall p).mp) P.pv).1
  obtain ⟨p, hpm⟩ := (C76_exact hF (fun p => (hall p).mp) fun v => P.pv v * m v).1
  exact ⟨m, q, p, hm, hq, hpm, fun a ha v hv hta =>
    D.global_time_error (backward_not_loop hself) hall hm hq hpm ha hv fun u hu => hta u (backward_reach.mp hu)⟩

/-- **C102** (exact arithmetic, any cycles, no cell has a self-connection as its only cycle, global times of at most `a` < 200
    years) The global time of flight of a cell against the mean time of all fluid that came on routes with less than `N`
    connections: when `N` grows, the difference becomes at most the tolerance of the solver. -/
theorem C102_injection_global_cyclic (hret : InjectionReturns g calls starts (.ok sol)) {a : K} (ha : a < 200 * 365 * 24 * 60 * 60)
    (hta : ∀ v < P.n, fieldAt sol.timeOfFlight v ≤ a) {m p : Nat → K}
    (hm : P.forward.Carries ((List.range P.n).filter fun p => decide (0 < P.source p)) P.forward.cycleInflow m)
    (hpm : P.forward.Carries ((List.range P.n).filter fun p => decide (0 < P.source p)) (fun v => P.pv v * m v) p) :
    ∀ v < P.n, ∀ ε > 0, ∃ N₀, ∀ N ≥ N₀,
      fieldAt sol.timeOfFlight v - P.forward.meanTime P.source N v ≤ a / 1000000000 * m v + ε ∧
      P.forward.meanTime P.source N v - fieldAt sol.timeOfFlight v
        ≤ 1 / 1000000000 * p v + (a / 1000000000 + 200 * 365 * 24 * 60 * 60 / 1000000000000) * m v + ε := fun _ hv =>
  (diag_injection hP h hret).routes_global_cyclic hself
    (fun p => by rw [List.mem_filter, List.mem_range, decide_eq_true_eq]; exact Iff.rfl) hm hpm ha hta hv

/-- **C102** The same for production. -/
theorem C102_production_global_cyclic (hret : ProductionReturns g calls starts (.ok sol)) {a : K} (ha : a < 200 * 365 * 24 * 60 * 60)
    (hta : ∀ v < P.n, fieldAt sol.timeOfFlight v ≤ a) {m p : Nat → K}
    (hm : P.backward.Carries ((List.range P.n).filter fun p => decide (0 < P.sink p)) P.backward.cycleInflow m)
    (hpm : P.backward.Carries ((List.range P.n).filter fun p => decide (0 < P.sink p)) (fun v => P.pv v * m v) p) :
    ∀ v < P.n, ∀ ε > 0, ∃ N₀, ∀ N ≥ N₀,
      fieldAt sol.timeOfFlight v - P.backward.meanTime P.sink N v ≤ a / 1000000000 * m v + ε ∧
      P.backward.meanTime P.sink N v - fieldAt sol.timeOfFlight v
        ≤ 1 / 1000000000 * p v + (a / 1000000000 + 200 * 365 * 24 * 60 * 60 / 1000000000000) * m v + ε := fun _ hv =>
  (diag_production hP h hret).routes_global_cyclic (backward_not_loop hself)
    (fun p => by rw [List.mem_filter, List.mem_range, decide_eq_true_eq]; exact Iff.rfl) hm hpm ha hta hv

/-- **C102** (exact arithmetic, any cycles) The fluxes of a pair of wells against the sums over the routes with less than `N`
    connections: these exceed the fluxes by not more than the tolerance of the solver, and when `N` grows they fall below them by
    as little as desired. -/
theorem C102_pairs_cyclic {pstarts : List CellSet} {T : Solution (X K)}
    (hS : InjectionReturns g calls starts (.ok sol)) (hT : ProductionReturns g calls pstarts (.ok T)) {w y : WellFlux K}
    (hw : w ∈ P.wells) (hy : y ∈ P.wells) (hs : ∃ s ∈ starts, s.id = w.id) (hs' : ∃ s ∈ pstarts, s.id = y.id) {m m' : Nat → K}
    (hm : P.forward.Carries (posCells w) P.forward.cycleInflow m)
    (hm' : P.backward.Carries (negCells y) P.backward.cycleInflow m') :
    ∃ a b, pairFluxes sol T w.id y.id P.inflowMap = .ok (X.fin a, X.fin (-b)) ∧
      (∀ N, ∑ v ∈ range P.n, max (Problem.wellAt w v) 0 * P.backward.arrived (fun v => max (-Problem.wellAt y v) 0) N v
          ≤ a + 1 / 1000000000 * ∑ v ∈ range P.n, max (Problem.wellAt w v) 0 * m' v) ∧
      (∀ N, ∑ v ∈ range P.n, max (-Problem.wellAt y v) 0 * P.forward.arrived (fun v => max (Problem.wellAt w v) 0) N v
          ≤ b + 1 / 1000000000 * ∑ v ∈ range P.n, max (-Problem.wellAt y v) 0 * m v) ∧
      ∀ ε > 0, ∃ N₀, ∀ N ≥ N₀,
        a ≤ ∑ v ∈ range P.n, max (Problem.wellAt w v) 0 * P.backward.arrived (fun v => max (-Problem.wellAt y v) 0) N v + ε ∧
        b ≤ ∑ v ∈ range P.n, max (-Problem.wellAt y v) 0 * P.forward.arrived (fun v => max (Problem.wellAt w v) 0) N v + ε := by
  have up : ∀ {c A e W : Nat → K}, (∀ v < P.n, 0 ≤ W v) → (∀ v < P.n, A v ≤ c v + 1 / 1000000000 * e v) →
      ∑ v ∈ range P.n, W v * A v ≤ ∑ v ∈ range P.n, W v * c v + 1 / 1000000000 * ∑ v ∈ range P.n, W v * e v := by
    intro c A e W hW hA
    rw [mul_sum, ← sum_add_distrib]
    exact sum_le_sum fun v hv => (mul_le_mul_of_nonneg_left (hA v (mem_range.mp hv)) (hW v (mem_range.mp hv))).trans (le_of_eq (by ring))
  have low : ∀ {c W : Nat → K} {A : Nat → Nat → K}, (∀ v < P.n, 0 ≤ W v) →
      (∀ v < P.n, ∀ ε > 0, ∃ N₀, ∀ N ≥ N₀, c v ≤ A N v + ε) →
      ∀ ε > 0, ∃ N₀, ∀ N ≥ N₀, ∑ v ∈ range P.n, W v * c v ≤ ∑ v ∈ range P.n, W v * A N v + ε := by
    intro c W A hW hA ε hε
    have h0 : 0 ≤ ∑ v ∈ range P.n, W v := sum_nonneg fun v hv => hW v (mem_range.mp hv)
    have : ∀ v, ∃ N₀, v < P.n → ∀ N ≥ N₀, c v ≤ A N v + ε / (1 + ∑ v ∈ range P.n, W v) := fun v => by
      by_cases hv : v < P.n
      · obtain ⟨N₀, h⟩ := hA v hv _ (div_pos hε (by linarith : 0 < 1 + ∑ v ∈ range P.n, W v))
        exact ⟨N₀, fun _ => h⟩
      · exact ⟨0, fun h => absurd h hv⟩
    choose N₀ hN using this
    refine ⟨(range P.n).sup N₀, fun N hle => ?_⟩
    have s1 : ∑ v ∈ range P.n, W v * c v
        ≤ ∑ v ∈ range P.n, (W v * A N v + W v * (ε / (1 + ∑ v ∈ range P.n, W v))) :=
      sum_le_sum fun v hv => by
        rw [← mul_add]
        exact mul_le_mul_of_nonneg_left (hN v (mem_range.mp hv) N ((le_sup hv).trans hle)) (hW v (mem_range.mp hv))
    rw [sum_add_distrib, ← sum_mul] at s1
    have s2 : (∑ v ∈ range P.n, W v) * (ε / (1 + ∑ v ∈ range P.n, W v)) ≤ ε := by
      rw [← mul_div_assoc, div_le_iff₀ (by linarith)]
      nlinarith
    linarith
  have e1 := C102_production_cyclic hP h hself hT hy hs' hm'
  have e2 := C102_injection_cyclic hP h hself hS hw hs hm
  have p1 : ∀ v < P.n, 0 ≤ max (Problem.wellAt w v) 0 := fun v _ => le_max_right _ _
  have p2 : ∀ v < P.n, 0 ≤ max (-Problem.wellAt y v) 0 := fun v _ => le_max_right _ _
  refine ⟨_, _, C50_value hP hw hy ((diag_injection hP h hS).tracer _) ((diag_production hP h hT).tracer _), ?_, ?_, ?_⟩
  · exact fun N => up p1 fun v hv => (e1 v hv).1 N
  · exact fun N => up p2 fun v hv => (e2 v hv).1 N
  · intro ε hε
    obtain ⟨N₁, h1⟩ := low p1 (fun v hv => (e1 v hv).2) ε hε
    obtain ⟨N₂, h2⟩ := low p2 (fun v hv => (e2 v hv).2) ε hε
    exact ⟨max N₁ N₂, fun N hN => ⟨h1 N ((le_max_left _ _).trans hN), h2 N ((le_max_right _ _).trans hN)⟩⟩

end exact

/-! ### Doubles -/

section double
variable {P : Problem ℚ} (hP : P.Valid) {M : Nat} (hO : P.OfOrdinarySize M) {g : ConnectivityGraph} {calls : List (Call Double)}
  (h : P.StoredIn g calls) (hself : ∀ v < P.n, ¬ P.forward.Loop v) {starts : List CellSet} {sol : Solution Double}
include hP hO h hself

/-- **C102** (doubles, any cycles, every cell reached from a source, no cell that takes more than 200 years to fill, errors of
    concentrations of at most a half, times of at most `a` < 200 years) The same for global times of flight computed with `double`s:
    the difference becomes at most the tolerance and the rounding errors bounded in C82. -/
theorem C102_injection_global_double (htotal : ∀ v < P.n, P.forward.total v ≤ 2 ^ 100) (hret : InjectionReturns g calls starts (.ok sol))
    {m t p k : Nat → ℚ} (hm : P.forward.Carries ((List.range P.n).filter fun p => decide (0 < P.source p)) P.forward.cycleInflow m)
    (ht : P.forward.Carries ((List.range P.n).filter fun p => decide (0 < P.source p)) P.forward.total t)
    (hpm : P.forward.Carries ((List.range P.n).filter fun p => decide (0 < P.source p)) (fun v => P.pv v * m v) p)
    (hk : P.forward.Carries ((List.range P.n).filter fun p => decide (0 < P.source p)) (fun v => P.pv v * t v) k)
    {a : ℚ} (ha : a < 200 * 365 * 24 * 60 * 60)
    (hta : ∀ v < P.n, (∃ p < P.n, 0 < P.source p ∧ P.forward.Reach p v) ∧ ¬ P.forward.Slow v ∧
      doubleIn sol.tof v ≤ a ∧ 1 / 1000000000 * m v + ((4 * M + 6 : Nat) : ℚ) / 2 ^ 51 * t v ≤ 1 / 2) :
    ∀ v < P.n, ∀ ε > 0, ∃ N₀, ∀ N ≥ N₀,
      |doubleIn sol.tof v - P.forward.meanTime P.source N v|
        ≤ 1 / 1000000000 * p v + (2 * a / 1000000000 + 200 * 365 * 24 * 60 * 60 / 1000000000000) * m v
          + ((4 * M + 8 : Nat) : ℚ) / 2 ^ 51 * (k v + (2 * a + 1) * t v) + ε := by
  have hall : ∀ p, p ∈ (List.range P.n).filter (fun p => decide (0 < P.source p)) ↔ p < P.forward.n ∧ 0 < P.forward.src p := by
    intro p; rw [List.mem_filter, List.mem_range, decide_eq_true_eq]; exact Iff.rfl
  have hF := forward_valid hP
  have hp := fun p => (hall p).mp
  obtain ⟨m', t', q, p', k', c1, c2, c3, c4, c5, c6⟩ := C82_injection hP hO htotal hself h hret
  have em := (C76_exact hF hp _).2.1 m' m c1 hm
  have et := (C76_exact hF hp _).2.1 t' t c2 ht
  have ep := (C76_exact hF hp fun v => P.pv v * m v).2.1 p' p
    ⟨c4.1, fun v hv hd => (c4.2 v hv hd).trans (by simp only [em v hv])⟩ hpm
  have ek := (C76_exact hF hp fun v => P.pv v * t v).2.1 k' k
    ⟨c5.1, fun v hv hd => (c5.2 v hv hd).trans (by simp only [et v hv])⟩ hk
  have hd : ∀ v < P.n, P.forward.Downstream ((List.range P.n).filter fun p => decide (0 < P.source p)) v := fun v hv => by
    obtain ⟨p, h1, h2, h3⟩ := (hta v hv).1
    exact ⟨p, (hall p).mpr ⟨h1, h2⟩, h3⟩
  intro v hv
  have e := c6 a ha v hv fun u hu => by
    have hun : u < P.n := by
      rcases Relation.ReflTransGen.cases_head hu with e | ⟨x, e, _⟩
      · rw [e]; exact hv
      · exact e.1
    rw [em u hun, et u hun]
    exact ⟨(hta u hun).1, (hta u hun).2.2⟩
  rw [em v hv, et v hv, ep v hv, ek v hv] at e
  have p0 := (abs_nonneg _).trans e
  obtain ⟨e1, e2⟩ := abs_le.mp e
  have e1 := neg_le.mp e1
  rw [neg_sub] at e1
  intro ε hε
  obtain ⟨N₀, hN⟩ := global_mean hF hall hd (fun v hv => (hta v hv).2.1) c3 hv p0 p0 e2 e1 ε hε
  refine ⟨N₀, fun N hn => abs_le.mpr ?_⟩
  obtain ⟨a1, a2⟩ := hN N hn
  have g1 : P.forward.src = P.source := rfl
  rw [g1] at a1 a2
  constructor <;> linarith

/-- **C102** The same for production. -/
theorem C102_production_global_double (htotal : ∀ v < P.n, P.backward.total v ≤ 2 ^ 100) (hret : ProductionReturns g calls starts (.ok sol))
    {m t p k : Nat → ℚ} (hm : P.backward.Carries ((List.range P.n).filter fun p => decide (0 < P.sink p)) P.backward.cycleInflow m)
    (ht : P.backward.Carries ((List.range P.n).filter fun p => decide (0 < P.sink p)) P.backward.total t)
    (hpm : P.backward.Carries ((List.range P.n).filter fun p => decide (0 < P.sink p)) (fun v => P.pv v * m v) p)
    (hk : P.backward.Carries ((List.range P.n).filter fun p => decide (0 < P.sink p)) (fun v => P.pv v * t v) k)
    {a : ℚ} (ha : a < 200 * 365 * 24 * 60 * 60)
    (hta : ∀ v < P.n, (∃ p < P.n, 0 < P.sink p ∧ P.forward.Reach v p) ∧ ¬ P.backward.Slow v ∧
      doubleIn sol.tof v ≤ a ∧ 1 / 1000000000 * m v + ((4 * M + 6 : Nat) : ℚ) / 2 ^ 51 * t v ≤ 1 / 2) :
    ∀ v < P.n, ∀ ε > 0, ∃ N₀, ∀ N ≥ N₀,
      |doubleIn sol.tof v - P.backward.meanTime P.sink N v|
        ≤ 1 / 1000000000 * p v + (2 * a / 1000000000 + 200 * 365 * 24 * 60 * 60 / 1000000000000) * m v
          + ((4 * M + 8 : Nat) : ℚ) / 2 ^ 51 * (k v + (2 * a + 1) * t v) + ε := by
  have hall : ∀ p, p ∈ (List.range P.n).filter (fun p => decide (0 < P.sink p)) ↔ p < P.backward.n ∧ 0 < P.backward.src p := by
    intro p; rw [List.mem_filter, List.mem_range, decide_eq_true_eq]; exact Iff.rfl
  have hF := backward_valid hP
  have hp := fun p => (hall p).mp
  obtain ⟨m', t', q, p', k', c1, c2, c3, c4, c5, c6⟩ := C82_production hP hO htotal hself h hret
  have em := (C76_exact hF hp _).2.1 m' m c1 hm
  have et := (C76_exact hF hp _).2.1 t' t c2 ht
  have ep := (C76_exact hF hp fun v => P.pv v * m v).2.1 p' p
    ⟨c4.1, fun v hv hd => (c4.2 v hv hd).trans (by simp only [em v hv])⟩ hpm
  have ek := (C76_exact hF hp fun v => P.pv v * t v).2.1 k' k
    ⟨c5.1, fun v hv hd => (c5.2 v hv hd).trans (by simp only [et v hv])⟩ hk
  have hd : ∀ v < P.n, P.backward.Downstream ((List.range P.n).filter fun p => decide (0 < P.sink p)) v := fun v hv => by
    obtain ⟨p, h1, h2, h3⟩ := (hta v hv).1
    exact ⟨p, (hall p).mpr ⟨h1, h2⟩, backward_reach.mpr h3⟩
  intro v hv
  have e := c6 a ha v hv fun u hu => by
    have hun : u < P.n := reach_lt (F := P.forward) hv hu
    rw [em u hun, et u hun]
    exact ⟨(hta u hun).1, (hta u hun).2.2⟩
  rw [em v hv, et v hv, ep v hv, ek v hv] at e
  have p0 := (abs_nonneg _).trans e
  obtain ⟨e1, e2⟩ := abs_le.mp e
  have e1 := neg_le.mp e1
  rw [neg_sub] at e1
  intro ε hε
  obtain ⟨N₀, hN⟩ := global_mean hF hall hd (fun v hv => (hta v hv).2.1) c3 hv p0 p0 e2 e1 ε hε
  refine ⟨N₀, fun N hn => abs_le.mpr ?_⟩
  obtain ⟨a1, a2⟩ := hN N hn
  have g1 : P.backward.src = P.sink := rfl
  rw [g1] at a1 a2
  constructor <;> linarith

omit hP hO h hself in
/-- Sums of fields that come close to each other. -/
theorem near_sum_limit {n : Nat} {c W E : Nat → ℚ} {A : Nat → Nat → ℚ} (hW : ∀ v < n, 0 ≤ W v)
    (hA : ∀ v < n, ∀ ε > 0, ∃ N₀, ∀ N ≥ N₀, |c v - A N v| ≤ E v + ε) :
    ∀ ε > 0, ∃ N₀, ∀ N ≥ N₀, |∑ v ∈ range n, W v * c v - ∑ v ∈ range n, W v * A N v| ≤ ∑ v ∈ range n, W v * E v + ε := by
  intro ε hε
  have h0 : 0 ≤ ∑ v ∈ range n, W v := sum_nonneg fun v hv => hW v (mem_range.mp hv)
  have : ∀ v, ∃ N₀, v < n → ∀ N ≥ N₀, |c v - A N v| ≤ E v + ε / (1 + ∑ v ∈ range n, W v) := fun v => by
    by_cases hv : v < n
    · obtain ⟨N₀, h⟩ := hA v hv _ (div_pos hε (by linarith : 0 < 1 + ∑ v ∈ range n, W v))
      exact ⟨N₀, fun _ => h⟩
    · exact ⟨0, fun h => absurd h hv⟩
  choose N₀ hN using this
  refine ⟨(range n).sup N₀, fun N hle => ?_⟩
  rw [← sum_sub_distrib]
  refine (abs_sum_le_sum_abs _ _).trans ?_
  have s1 : ∑ v ∈ range n, |W v * c v - W v * A N v|
      ≤ ∑ v ∈ range n, (W v * E v + W v * (ε / (1 + ∑ v ∈ range n, W v))) :=
    sum_le_sum fun v hv => by
      rw [← mul_add, ← mul_sub, abs_mul, abs_of_nonneg (hW v (mem_range.mp hv))]
      exact mul_le_mul_of_nonneg_left (hN v (mem_range.mp hv) N ((le_sup hv).trans hle)) (hW v (mem_range.mp hv))
  rw [sum_add_distrib, ← sum_mul] at s1
  have s2 : (∑ v ∈ range n, W v) * (ε / (1 + ∑ v ∈ range n, W v)) ≤ ε := by
    rw [← mul_div_assoc, div_le_iff₀ (by linarith)]
    nlinarith
  linarith

/-- **C102** (doubles, any cycles) The fluxes of a pair of wells against the sums over the routes with less than `N` connections: when
    `N` grows, the difference becomes at most the tolerance of the solver and the rounding errors bounded in C80 and C89. -/
theorem C102_pairs_double (hin : ∀ v < P.n, P.forward.total v ≤ 2 ^ 100) (hout : ∀ v < P.n, P.backward.total v ≤ 2 ^ 100)
    {pstarts : List CellSet} {T : Solution Double} (hS : InjectionReturns g calls starts (.ok sol))
    (hT : ProductionReturns g calls pstarts (.ok T)) {w y : WellFlux ℚ} (hw : w ∈ P.wells) (hy : y ∈ P.wells)
    (hs : ∃ s ∈ starts, s.id = w.id) (hs' : ∃ s ∈ pstarts, s.id = y.id) {inflow : InflowFlux Double}
    (hflux : inflow.map (fun set => (set.1, set.2.map fun e => (e.1, Double.val e.2))) = P.inflowMap) {m t m' t' : Nat → ℚ}
    (hm : P.forward.Carries (posCells w) P.forward.cycleInflow m) (ht : P.forward.Carries (posCells w) P.forward.total t)
    (hm' : P.backward.Carries (negCells y) P.backward.cycleInflow m') (ht' : P.backward.Carries (negCells y) P.backward.total t') :
    ∃ d e a b, pairFluxes sol T w.id y.id inflow = .ok (d, e) ∧ d.val = X.fin a ∧ e.val = X.fin (-b) ∧
      ∀ ε > 0, ∃ N₀, ∀ N ≥ N₀,
        |a - ∑ v ∈ range P.n, max (Problem.wellAt w v) 0 * P.backward.arrived (fun v => max (-Problem.wellAt y v) 0) N v|
          ≤ ∑ v ∈ range P.n, max (Problem.wellAt w v) 0 * (1 / 1000000000 * m' v + ((4 * M + 6 : Nat) : ℚ) / 2 ^ 51 * t' v)
            + (((P.n + 1 : Nat) : ℚ) / 2 ^ 51 * (∑ v ∈ range P.n, max (Problem.wellAt w v) 0 * doubleAt (T.concentration y.id) v)
              + 1 / 2 ^ 800 * ∑ v ∈ range P.n, max (Problem.wellAt w v) 0) + ε ∧
        |b - ∑ v ∈ range P.n, max (-Problem.wellAt y v) 0 * P.forward.arrived (fun v => max (Problem.wellAt w v) 0) N v|
          ≤ ∑ v ∈ range P.n, max (-Problem.wellAt y v) 0 * (1 / 1000000000 * m v + ((4 * M + 6 : Nat) : ℚ) / 2 ^ 51 * t v)
            + (((P.n + 1 : Nat) : ℚ) / 2 ^ 51 * (∑ v ∈ range P.n, max (-Problem.wellAt y v) 0 * doubleAt (sol.concentration w.id) v)
              + 1 / 2 ^ 800 * ∑ v ∈ range P.n, max (-Problem.wellAt y v) 0) + ε := by
  obtain ⟨d, e, a, b, k1, k2, k3, _, _, k4, k5⟩ := C89_fluxes hP hO hin hout h hS hT hw hy hs hs' hflux
  refine ⟨d, e, a, -b, k1, k2, by rwa [neg_neg], fun ε hε => ?_⟩
  obtain ⟨N₁, h1⟩ := near_sum_limit (W := fun v => max (Problem.wellAt w v) 0) (fun v _ => le_max_right _ _)
    (C102_production_double hP hO h hself hy hs' hout hT hm' ht') ε hε
  obtain ⟨N₂, h2⟩ := near_sum_limit (W := fun v => max (-Problem.wellAt y v) 0) (fun v _ => le_max_right _ _)
    (C102_injection_double hP hO h hself hw hs hin hS hm ht) ε hε
  have tri : ∀ {x X' Y E E' ε : ℚ}, |x - X'| ≤ E → |X' - Y| ≤ E' + ε → |x - Y| ≤ E' + E + ε := fun {x X' Y E E' ε} u v => by
    have := abs_sub_le x X' Y
    linarith
  refine ⟨max N₁ N₂, fun N hN => ⟨tri k4 (h1 N ((le_max_left _ _).trans hN)), tri ?_ (h2 N ((le_max_right _ _).trans hN))⟩⟩
  refine le_of_eq_of_le ?_ k5
  rw [show ∀ s : ℚ, -b - s = -(b + s) by intro s; ring, abs_neg]

end double

/-! ### Examples -/

def globalBelow (a : ℚ) (r : Res (Solution (X ℚ))) : Bool := match r with
  | .ok s => (List.range 4).all fun v => decide (fieldAt s.timeOfFlight v ≤ a)
  | _ => false

theorem globalBelow_spec {a : ℚ} {r : Res (Solution (X ℚ))} (h : globalBelow a r = true) :
    ∃ s, r = .ok s ∧ ∀ v < 4, fieldAt s.timeOfFlight v ≤ a := by
  unfold globalBelow at h
  split at h
  · refine ⟨_, rfl, fun v hv => ?_⟩
    have := List.all_eq_true.mp h v (List.mem_range.mpr hv)
    simpa using this
  · cases h

theorem whirl_given : exWhirl.GivenTo whirlGraph (whirlExact 1) := by
  have e : exWhirl.withPoreVolume (fun _ => ((1 : Int) : ℚ)) = exWhirl := by
    unfold Problem.withPoreVolume exWhirl; simp
  have g1 := whirlExact_given 1
  rwa [e] at g1

set_option maxRecDepth 100000 in
/-- C77, C102, global times with a cycle, in exact arithmetic, in both directions; and the fluxes of the pair of wells. -/
example : ∃ s t, InjectionReturns whirlGraph (whirlExact 1) [CellSet.ofCells ⟨[65]⟩ [0]] (.ok s) ∧
    ProductionReturns whirlGraph (whirlExact 1) [CellSet.ofCells ⟨[80]⟩ [3]] (.ok t) ∧
    (∃ m q p : Nat → ℚ, ∀ v < 4, fieldAt s.timeOfFlight v - q v ≤ 3 / 1000000000 * m v ∧
      q v - fieldAt s.timeOfFlight v
        ≤ 1 / 1000000000 * p v + (3 / 1000000000 + 200 * 365 * 24 * 60 * 60 / 1000000000000) * m v) ∧
    (∃ m q p : Nat → ℚ, ∀ v < 4, fieldAt t.timeOfFlight v - q v ≤ 3 / 1000000000 * m v ∧
      q v - fieldAt t.timeOfFlight v
        ≤ 1 / 1000000000 * p v + (3 / 1000000000 + 200 * 365 * 24 * 60 * 60 / 1000000000000) * m v) ∧
    (∃ m p : Nat → ℚ, ∀ v < 4, ∀ ε > 0, ∃ N₀, ∀ N ≥ N₀,
      fieldAt s.timeOfFlight v - exWhirl.forward.meanTime exWhirl.source N v ≤ 3 / 1000000000 * m v + ε ∧
      exWhirl.forward.meanTime exWhirl.source N v - fieldAt s.timeOfFlight v
        ≤ 1 / 1000000000 * p v + (3 / 1000000000 + 200 * 365 * 24 * 60 * 60 / 1000000000000) * m v + ε) ∧
    (∃ m p : Nat → ℚ, ∀ v < 4, ∀ ε > 0, ∃ N₀, ∀ N ≥ N₀,
      fieldAt t.timeOfFlight v - exWhirl.backward.meanTime exWhirl.sink N v ≤ 3 / 1000000000 * m v + ε ∧
      exWhirl.backward.meanTime exWhirl.sink N v - fieldAt t.timeOfFlight v
        ≤ 1 / 1000000000 * p v + (3 / 1000000000 + 200 * 365 * 24 * 60 * 60 / 1000000000000) * m v + ε) ∧
    ∃ a b, pairFluxes s t ⟨[65]⟩ ⟨[80]⟩ exWhirl.inflowMap = .ok (X.fin a, X.fin (-b)) ∧
      ∀ ε > 0, ∃ N₀, ∀ N ≥ N₀,
        a ≤ ∑ v ∈ range 4, max (Problem.wellAt ⟨⟨[65]⟩, [0], fun _ => (2 : ℚ)⟩ v) 0
          * exWhirl.backward.arrived (fun v => max (-Problem.wellAt ⟨⟨[80]⟩, [3], fun _ => (-2 : ℚ)⟩ v) 0) N v + ε ∧
        b ≤ ∑ v ∈ range 4, max (-Problem.wellAt ⟨⟨[80]⟩, [3], fun _ => (-2 : ℚ)⟩ v) 0
          * exWhirl.forward.arrived (fun v => max (Problem.wellAt ⟨⟨[65]⟩, [0], fun _ => (2 : ℚ)⟩ v) 0) N v + ε := by
  obtain ⟨s, h1, b1⟩ := globalBelow_spec (a := 3)
    (r := injectionOutcome whirlGraph (whirlExact 1) noFailure 100 [CellSet.ofCells ⟨[65]⟩ [0]]) (by decide +kernel)
  obtain ⟨t, h2, b2⟩ := globalBelow_spec (a := 3)
    (r := productionOutcome whirlGraph (whirlExact 1) noFailure 100 [CellSet.ofCells ⟨[80]⟩ [3]]) (by decide +kernel)
  have hs := (Fuel.injection_returns.mpr ⟨100, h1, by simp⟩).1
  have ht := (Fuel.production_returns.mpr ⟨100, h2, by simp⟩).1
  have V := exWhirl_valid
  have G := whirl_given
  have L := whirl_not_loop
  refine ⟨s, t, hs, ht, ?_, ?_, ?_, ?_, ?_⟩
  · obtain ⟨m, q, p, _, _, _, k⟩ := C77_injection_global V G L hs
    exact ⟨m, q, p, fun v hv => k 3 (by norm_num) v hv fun u hu => b1 u (by
      rcases Relation.ReflTransGen.cases_head hu with e | ⟨x, e, _⟩
      · rw [e]; exact hv
      · exact e.1)⟩
  · obtain ⟨m, q, p, _, _, _, k⟩ := C77_production_global V G L ht
    exact ⟨m, q, p, fun v hv => k 3 (by norm_num) v hv fun u hu => b2 u (reach_lt (F := exWhirl.forward) hv hu)⟩
  · obtain ⟨m, q, p, hm, _, hp, _⟩ := C77_injection_global V G L hs
    exact ⟨m, p, C102_injection_global_cyclic V G L hs (a := 3) (by norm_num) b1 hm hp⟩
  · obtain ⟨m, q, p, hm, _, hp, _⟩ := C77_production_global V G L ht
    exact ⟨m, p, C102_production_global_cyclic V G L ht (a := 3) (by norm_num) b2 hm hp⟩
  · have hp := side_sources (H := exWhirl.forward) (pos_side V) (x := ⟨⟨[65]⟩, [0], fun _ => 2⟩) (.head _)
    have hp' := side_sources (diag_production V G ht).side (x := ⟨⟨[80]⟩, [3], fun _ => -2⟩) (.tail _ (.head _))
    obtain ⟨m, hm⟩ := (C76_exact (forward_valid V) hp exWhirl.forward.cycleInflow).1
    obtain ⟨m', hm'⟩ := (C76_exact (backward_valid V) hp' exWhirl.backward.cycleInflow).1
    obtain ⟨a, b, e, _, _, k⟩ := C102_pairs_cyclic V G L hs ht (w := ⟨⟨[65]⟩, [0], fun _ => 2⟩) (y := ⟨⟨[80]⟩, [3], fun _ => -2⟩)
      (.head _) (.tail _ (.head _)) ⟨_, .head _, rfl⟩ ⟨_, .head _, rfl⟩ hm hm'
    exact ⟨a, b, e, k⟩

set_option maxRecDepth 100000 in
/-- C102, global times with a cycle, with `double`s. -/
example : ∃ S, InjectionReturns whirlGraph whirlCalls [CellSet.ofCells ⟨[65]⟩ [0]] (.ok S) ∧
    ∃ m t p k : Nat → ℚ, ∀ v < 4, ∀ ε > 0, ∃ N₀, ∀ N ≥ N₀,
      |doubleIn S.tof v - exWhirl.forward.meanTime exWhirl.source N v|
        ≤ 1 / 1000000000 * p v + (2 * 10 / 1000000000 + 200 * 365 * 24 * 60 * 60 / 1000000000000) * m v
          + ((4 * 4 + 8 : Nat) : ℚ) / 2 ^ 51 * (k v + (2 * 10 + 1) * t v) + ε := by
  have key : (match injectionOutcome whirlGraph whirlCalls noFailure 100 [CellSet.ofCells ⟨[65]⟩ [0]] with
      | .ok s => (List.range 4).all fun v => decide (doubleIn s.tof v ≤ 10)
      | _ => false) = true := by decide +kernel
  split at key
  · rename_i S hS
    have hr := (Fuel.injection_returns.mpr ⟨100, hS, by simp⟩).1
    refine ⟨S, hr, ?_⟩
    obtain ⟨m, t, q, p, k, hm, ht, _, hp, hk, _⟩ := C82_injection exWhirl_valid whirl_ordinary whirl_total.1 whirl_not_loop whirl_stored hr
    refine ⟨m, t, p, k, C102_injection_global_double exWhirl_valid whirl_ordinary whirl_stored whirl_not_loop whirl_total.1 hr hm ht hp hk
      (a := 10) (by norm_num) fun v hv => ⟨⟨0, by decide, whirl_source, whirl_reached v hv⟩, (whirl_fast v hv).1, ?_,
        whirl_fields hm ht v hv⟩⟩
    have := List.all_eq_true.mp key v (List.mem_range.mpr hv)
    simpa using this
  · cases key

set_option maxRecDepth 100000 in
/-- C102, the fluxes of a pair of wells with a cycle, with `double`s. -/
example : ∃ S T d e a b, InjectionReturns whirlGraph whirlCalls [CellSet.ofCells ⟨[65]⟩ [0]] (.ok S) ∧
    ProductionReturns whirlGraph whirlCalls [CellSet.ofCells ⟨[80]⟩ [3]] (.ok T) ∧
    pairFluxes S T ⟨[65]⟩ ⟨[80]⟩ whirlInflow = .ok (d, e) ∧ d.val = X.fin a ∧ e.val = X.fin (-b) ∧
    ∃ E E' : ℚ, ∀ ε > 0, ∃ N₀, ∀ N ≥ N₀,
      |a - ∑ v ∈ range 4, max (Problem.wellAt ⟨⟨[65]⟩, [0], fun _ => (2 : ℚ)⟩ v) 0
          * exWhirl.backward.arrived (fun v => max (-Problem.wellAt ⟨⟨[80]⟩, [3], fun _ => (-2 : ℚ)⟩ v) 0) N v| ≤ E + ε ∧
      |b - ∑ v ∈ range 4, max (-Problem.wellAt ⟨⟨[80]⟩, [3], fun _ => (-2 : ℚ)⟩ v) 0
          * exWhirl.forward.arrived (fun v => max (Problem.wellAt ⟨⟨[65]⟩, [0], fun _ => (2 : ℚ)⟩ v) 0) N v| ≤ E' + ε := by
  obtain ⟨S, h1, _⟩ := quick_spec (i := ⟨[65]⟩)
    (r := injectionOutcome whirlGraph whirlCalls noFailure 100 [CellSet.ofCells ⟨[65]⟩ [0]]) (by decide +kernel)
  obtain ⟨T, h2, _⟩ := quick_spec (i := ⟨[80]⟩)
    (r := productionOutcome whirlGraph whirlCalls noFailure 100 [CellSet.ofCells ⟨[80]⟩ [3]]) (by decide +kernel)
  have hS := (Fuel.injection_returns.mpr ⟨100, h1, by simp⟩).1
  have hT := (Fuel.production_returns.mpr ⟨100, h2, by simp⟩).1
  have V := exWhirl_valid
  have hp := side_sources (H := exWhirl.forward) (pos_side V) (x := ⟨⟨[65]⟩, [0], fun _ => 2⟩) (.head _)
  have hp' := (nearly_production V whirl_ordinary whirl_total.2 whirl_stored hT).sources
    (w := ⟨⟨[80]⟩, [3], fun _ => -2⟩) (.tail _ (.head _))
  obtain ⟨m, hm⟩ := (C76_exact (forward_valid V) hp exWhirl.forward.cycleInflow).1
  obtain ⟨t, ht⟩ := (C76_exact (forward_valid V) hp exWhirl.forward.total).1
  obtain ⟨m', hm'⟩ := (C76_exact (backward_valid V) hp' exWhirl.backward.cycleInflow).1
  obtain ⟨t', ht'⟩ := (C76_exact (backward_valid V) hp' exWhirl.backward.total).1
  obtain ⟨d, e, a, b, k1, k2, k3, k4⟩ := C102_pairs_double V whirl_ordinary whirl_stored whirl_not_loop whirl_total.1 whirl_total.2 hS hT
    (w := ⟨⟨[65]⟩, [0], fun _ => 2⟩) (y := ⟨⟨[80]⟩, [3], fun _ => -2⟩) (.head _) (.tail _ (.head _)) ⟨_, .head _, rfl⟩ ⟨_, .head _, rfl⟩
    (inflow := whirlInflow) (by decide +kernel) hm ht hm' ht'
  exact ⟨S, T, d, e, a, b, hS, hT, k1, k2, k3, _, _, k4⟩

end Verif.Props
