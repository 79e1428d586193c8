/-
C102: times of flight in flow with cycles, as mean times over all routes.
-/
import Verif.Props.Routes
import Verif.Props.MonotoneCyclic

namespace Verif.Props
open Verif.Spec Verif.Toolbox Verif.Solver Verif.Derived Finset

/-! ### Sums over routes -/

section flow
variable {K : Type} [Field K] [LinearOrder K] [IsStrictOrderedRing K] {F : Flow K} {q : Nat → K} {starts : List Nat}

theorem flow_total_nonneg (hF : F.Valid) : ∀ v < F.n, 0 ≤ F.total v := fun v hv =>
  add_nonneg (sum_nonneg fun u hu => hF.w_nonneg u v (mem_range.mp hu) hv) (hF.src_nonneg v hv)

theorem fraction_nonneg (hF : F.Valid) (hq : ∀ v < F.n, 0 ≤ q v) {k v : Nat} {r : List Nat} (hr : r ∈ F.routesTo k v) (hv : v < F.n) :
    0 ≤ F.fraction q r := by
  induction k generalizing v r with
  | zero =>
    cases List.mem_singleton.mp hr
    exact div_nonneg (hq v hv) (flow_total_nonneg hF v hv)
  | succ k ih =>
    obtain ⟨u, hu, h2⟩ := List.mem_flatMap.mp hr
    obtain ⟨r', h3, rfl⟩ := List.mem_map.mp h2
    obtain ⟨r'', rfl⟩ := routes_head h3
    have hun := List.mem_range.mp hu
    exact mul_nonneg (div_nonneg (hF.w_nonneg u v hun hv) (flow_total_nonneg hF v hv)) (ih h3 hun)

theorem onRoutes_nonneg (hF : F.Valid) (hq : ∀ v < F.n, 0 ≤ q v) {v : Nat} (hv : v < F.n) (k : Nat) : 0 ≤ onRoutes F q k v :=
  List.sum_nonneg fun _ hx => by
    obtain ⟨r, hr, rfl⟩ := List.mem_map.mp hx
    exact fraction_nonneg hF hq hr hv

theorem list_sum_zero {l : List K} (h0 : ∀ x ∈ l, 0 ≤ x) (hs : l.sum = 0) : ∀ x ∈ l, x = 0 := by
  induction l with
  | nil => intro x hx; cases hx
  | cons a l ih =>
    have h1 := h0 a (List.mem_cons_self ..)
    have h2 : 0 ≤ l.sum := List.sum_nonneg fun x hx => h0 x (List.mem_cons_of_mem _ hx)
    rw [List.sum_cons] at hs
    intro x hx
    rcases List.mem_cons.mp hx with rfl | hx
    · linarith
    · exact ih (fun x hx => h0 x (List.mem_cons_of_mem _ hx)) (by linarith) x hx

/-- The mean time, times the amount. -/
theorem mean_mul (hF : F.Valid) (hq : ∀ v < F.n, 0 ≤ q v) {v : Nat} (hv : v < F.n) (N : Nat) :
    F.meanTime q N v * F.arrived q N v = ∑ k ∈ range N, timeOnRoutes F q k v := by
  show (∑ k ∈ range N, timeOnRoutes F q k v) / F.arrived q N v * F.arrived q N v = _
  by_cases h0 : F.arrived q N v = 0
  · rw [h0, mul_zero]
    have h1 : ∀ k ∈ range N, onRoutes F q k v = 0 :=
      (sum_eq_zero_iff_of_nonneg fun k _ => onRoutes_nonneg hF hq hv k).mp h0
    refine (sum_eq_zero fun k hk => (routes_zero fun r hr => ?_).2).symm
    exact list_sum_zero (fun x hx => by obtain ⟨r, hr, rfl⟩ := List.mem_map.mp hx; exact fraction_nonneg hF hq hr hv) (h1 k hk) _
      (List.mem_map.mpr ⟨r, hr, rfl⟩)
  · exact div_mul_cancel₀ _ h0

variable (hF : F.Valid) (hp : ∀ p ∈ starts, p < F.n ∧ 0 < F.src p)

include hF hp in
theorem carries_law {q x : Nat → K} (hx : F.Carries starts q x) {v : Nat} (hv : v < F.n) (hd : F.Downstream starts v) :
    x v = q v / F.total v + ∑ u ∈ range F.n, F.w u v / F.total v * x u := by
  have h0 := downstream_total hF hp hd
  have e : ∑ u ∈ range F.n, F.w u v / F.total v * x u = (∑ u ∈ range F.n, x u * F.w u v) / F.total v := by
    rw [sum_div]; exact sum_congr rfl fun u _ => by ring
  rw [e, ← add_div, eq_div_iff h0.ne', add_comm (q v), ← hx.2 v hv hd, mul_comm]

include hF hp in
/-- What is at most the sum of what the flow carries from the preceding step and `δ`: it becomes small if `δ` is. -/
theorem decays [Archimedean K] : ∃ H : K, 0 < H ∧ ∀ (e : Nat → Nat → K) (E δ : K), 0 ≤ E → 0 ≤ δ →
    (∀ k, ∀ v < F.n, ¬ F.Downstream starts v → e k v ≤ 0) → (∀ v < F.n, e 0 v ≤ E) →
    (∀ k, ∀ v < F.n, F.Downstream starts v → e (k + 1) v ≤ ∑ u ∈ range F.n, F.w u v / F.total v * e k u + δ) →
    ∀ ε > 0, ∃ k₀, ∀ k ≥ k₀, ∀ v < F.n, e k v ≤ δ * H + ε := by
  obtain ⟨h, hh⟩ := (C76_exact hF hp F.total).1
  have ht := flow_total_nonneg hF
  have hh0 := (C76_exact hF hp F.total).2.2 ht h hh
  have b1 : ∀ v < F.n, h v ≤ 1 + ∑ u ∈ range F.n, h u := fun v hv => by
    have := single_le_sum (f := h) (fun u hu => hh0 u (mem_range.mp hu)) (mem_range.mpr hv)
    linarith
  have hH : (1 : K) ≤ 1 + ∑ u ∈ range F.n, h u := by
    have := sum_nonneg fun u (hu : u ∈ range F.n) => hh0 u (mem_range.mp hu)
    linarith
  set H := 1 + ∑ u ∈ range F.n, h u
  have law : ∀ v < F.n, F.Downstream starts v → ∑ u ∈ range F.n, F.w u v / F.total v * h u = h v - 1 := fun v hv hd => by
    have := carries_law hF hp hh hv hd
    rw [div_self (downstream_total hF hp hd).ne'] at this
    linarith
  have hw : ∀ v < F.n, ∀ u ∈ range F.n, 0 ≤ F.w u v / F.total v := fun v hv u hu =>
    div_nonneg (hF.w_nonneg u v (mem_range.mp hu) hv) (ht v hv)
  have h1 : ∀ v < F.n, F.Downstream starts v → 1 ≤ h v := fun v hv hd => by
    have : 0 ≤ ∑ u ∈ range F.n, F.w u v / F.total v * h u := sum_nonneg fun u hu => mul_nonneg (hw v hv u hu) (hh0 u (mem_range.mp hu))
    have := law v hv hd
    linarith
  have hρ : 0 ≤ 1 - 1 / H := sub_nonneg.mpr (by rw [div_le_one (by linarith)]; exact hH)
  have hρ1 : 1 - 1 / H < 1 := by
    have : 0 < 1 / H := one_div_pos.mpr (by linarith)
    linarith
  refine ⟨H, by linarith, fun e E δ hE hδ hoff hzero hstep ε hε => ?_⟩
  have key : ∀ k, ∀ v < F.n, e k v ≤ ((1 - 1 / H) ^ k * E + δ) * h v := by
    intro k
    induction k with
    | zero =>
      intro v hv
      by_cases hd : F.Downstream starts v
      · have := hzero v hv
        have := h1 v hv hd
        rw [pow_zero, one_mul]
        nlinarith
      · refine (hoff 0 v hv hd).trans (mul_nonneg ?_ (hh0 v hv))
        rw [pow_zero, one_mul]; exact add_nonneg hE hδ
    | succ k ih =>
      intro v hv
      have hk := pow_nonneg hρ k
      by_cases hd : F.Downstream starts v
      · refine (hstep k v hv hd).trans ?_
        have s1 : ∑ u ∈ range F.n, F.w u v / F.total v * e k u ≤ ((1 - 1 / H) ^ k * E + δ) * (h v - 1) := by
          rw [← law v hv hd, mul_sum]
          refine sum_le_sum fun u hu => (mul_le_mul_of_nonneg_left (ih u (mem_range.mp hu)) (hw v hv u hu)).trans (le_of_eq ?_)
          ring
        have s2 : h v - 1 ≤ (1 - 1 / H) * h v := by
          have : 1 / H * h v ≤ 1 := by rw [one_div_mul_eq_div, div_le_one (by linarith)]; exact b1 v hv
          linarith
        have s3 := mul_le_mul_of_nonneg_left s2 (mul_nonneg hk hE)
        rw [pow_succ]
        linarith
      · exact (hoff _ v hv hd).trans (mul_nonneg (add_nonneg (mul_nonneg (pow_nonneg hρ _) hE) hδ) (hh0 v hv))
  obtain ⟨k₀, hk₀⟩ := exists_pow_lt_of_lt_one (div_pos hε (by nlinarith : 0 < E * H + 1)) hρ1
  refine ⟨k₀, fun k hle v hv => (key k v hv).trans ?_⟩
  have p0 := pow_nonneg hρ k
  have p1 : (1 - 1 / H) ^ k * (E * H + 1) ≤ ε := by
    have := ((pow_le_pow_of_le_one hρ hρ1.le hle).trans_lt hk₀).le
    rwa [le_div_iff₀ (by nlinarith)] at this
  have p2 := mul_le_mul_of_nonneg_left (b1 v hv) (add_nonneg (mul_nonneg p0 hE) hδ)
  linarith

include hF hp in
/-- What has arrived is close to what the flow carries, in all cells. -/
theorem arrived_uniform [Archimedean K] (hq : ∀ v < F.n, 0 ≤ q v ∧ (q v ≠ 0 → v ∈ starts)) {x : Nat → K}
    (hx : F.Carries starts q x) : ∀ ε > 0, ∃ N₀, ∀ N ≥ N₀, ∀ v < F.n, x v ≤ F.arrived q N v + ε := by
  intro ε hε
  have : ∀ v, ∃ N₀, v < F.n → ∀ N ≥ N₀, x v ≤ F.arrived q N v + ε := fun v => by
    by_cases hv : v < F.n
    · obtain ⟨N₀, h⟩ := (arrived_limit hF hp hq hx hv).2 ε hε
      exact ⟨N₀, fun _ => h⟩
    · exact ⟨0, fun h => absurd h hv⟩
  choose N₀ hN using this
  exact ⟨(range F.n).sup N₀, fun N h v hv => hN v hv N ((le_sup (mem_range.mpr hv)).trans h)⟩

include hF hp in
/-- The times, weighted with the amounts, converge to what the flow carries if each cell adds its pore volume times the share. -/
theorem times_limit [Archimedean K] (hq : ∀ v < F.n, 0 ≤ q v ∧ (q v ≠ 0 → v ∈ starts))
    (hslow : ∀ v, F.Downstream starts v → ¬ F.Slow v) {x y : Nat → K} (hx : F.Carries starts q x)
    (hy : F.Carries starts (fun v => F.pv v * x v) y) :
    (∀ N, ∀ v < F.n, ∑ k ∈ range N, timeOnRoutes F q k v ≤ y v) ∧
    ∀ ε > 0, ∃ N₀, ∀ N ≥ N₀, ∀ v < F.n, y v ≤ ∑ k ∈ range N, timeOnRoutes F q k v + ε := by
  have ht := flow_total_nonneg hF
  have hx0 := (C76_exact hF hp q).2.2 (fun v hv => (hq v hv).1) x hx
  have hpv := hF.pv_nonneg
  have hy0 := (C76_exact hF hp _).2.2 (fun v hv => mul_nonneg (hpv v hv) (hx0 v hv)) y hy
  have hw : ∀ v < F.n, ∀ u ∈ range F.n, 0 ≤ F.w u v / F.total v := fun v hv u hu =>
    div_nonneg (hF.w_nonneg u v (mem_range.mp hu) hv) (ht v hv)
  have off : ∀ N, ∀ v < F.n, ¬ F.Downstream starts v → ∑ k ∈ range N, timeOnRoutes F q k v = 0 := fun N v hv hd =>
    sum_eq_zero fun k _ => (onRoutes_off hF (fun v hv => (hq v hv).2) hv hd k).2
  have step : ∀ N, ∀ v < F.n, F.Downstream starts v → y v - ∑ k ∈ range (N + 1), timeOnRoutes F q k v
      = ∑ u ∈ range F.n, F.w u v / F.total v * (y u - ∑ k ∈ range N, timeOnRoutes F q k u)
        + F.pv v / F.total v * (x v - F.arrived q (N + 1) v) := fun N v hv hd => by
    rw [times_succ (hslow v hd), carries_law hF hp hy hv hd]
    simp only [mul_sub, sum_sub_distrib]
    ring
  have low : ∀ N, ∀ v < F.n, ∑ k ∈ range N, timeOnRoutes F q k v ≤ y v := by
    intro N
    induction N with
    | zero => intro v hv; simpa using hy0 v hv
    | succ N ih =>
      intro v hv
      by_cases hd : F.Downstream starts v
      · rw [← sub_nonneg, step N v hv hd]
        exact add_nonneg (sum_nonneg fun u hu => mul_nonneg (hw v hv u hu) (sub_nonneg.mpr (ih u (mem_range.mp hu))))
          (mul_nonneg (div_nonneg (hpv v hv) (ht v hv)) (sub_nonneg.mpr ((arrived_limit hF hp hq hx hv).1 _)))
      · rw [off _ v hv hd, hy.1 v hv hd]
  refine ⟨low, fun ε hε => ?_⟩
  obtain ⟨H, hH, dec⟩ := decays hF hp
  have hφ : ∀ v < F.n, F.pv v / F.total v ≤ ∑ u ∈ range F.n, F.pv u / F.total u := fun v hv =>
    single_le_sum (f := fun u => F.pv u / F.total u) (fun u hu => div_nonneg (hpv u (mem_range.mp hu)) (ht u (mem_range.mp hu)))
      (mem_range.mpr hv)
  have hφ0 : 0 ≤ ∑ u ∈ range F.n, F.pv u / F.total u := sum_nonneg fun u hu =>
    div_nonneg (hpv u (mem_range.mp hu)) (ht u (mem_range.mp hu))
  set φ := ∑ u ∈ range F.n, F.pv u / F.total u
  have hc : 0 < φ * H + 1 := by nlinarith
  set η := ε / 2 / (φ * H + 1) with hη
  have hη0 : 0 < η := div_pos (by linarith) hc
  obtain ⟨N₁, hN₁⟩ := arrived_uniform hF hp hq hx η hη0
  obtain ⟨k₀, hk₀⟩ := dec (fun k v => y v - ∑ j ∈ range (N₁ + k), timeOnRoutes F q j v)
    (∑ v ∈ range F.n, (y v - ∑ j ∈ range N₁, timeOnRoutes F q j v)) (φ * η)
    (sum_nonneg fun v hv => sub_nonneg.mpr (low _ v (mem_range.mp hv))) (mul_nonneg hφ0 hη0.le)
    (fun k v hv hd => by rw [off _ v hv hd, hy.1 v hv hd, sub_zero])
    (fun v hv => single_le_sum (f := fun v => y v - ∑ j ∈ range N₁, timeOnRoutes F q j v)
      (fun u hu => sub_nonneg.mpr (low _ u (mem_range.mp hu))) (mem_range.mpr hv))
    (fun k v hv hd => by
      rw [← Nat.add_assoc, step (N₁ + k) v hv hd]
      have h1 : x v - F.arrived q (N₁ + k + 1) v ≤ η := by linarith [hN₁ (N₁ + k + 1) (by omega) v hv]
      have h2 := mul_le_mul (hφ v hv) h1 (sub_nonneg.mpr ((arrived_limit hF hp hq hx hv).1 _)) hφ0
      linarith) (ε / 2) (by linarith)
  refine ⟨N₁ + k₀, fun N hN v hv => ?_⟩
  have h3 := hk₀ (N - N₁) (by omega) v hv
  simp only [show N₁ + (N - N₁) = N by omega] at h3
  have h4 : φ * η * H ≤ ε / 2 := by
    have : η * (φ * H + 1) = ε / 2 := by rw [hη]; field_simp
    nlinarith
  linarith

include hF hp in
/-- From the errors of the times to their distance from the means over routes. -/
theorem mean_error [Archimedean K] (hq : ∀ v < F.n, 0 ≤ q v ∧ (q v ≠ 0 → v ∈ starts))
    (hslow : ∀ v, F.Downstream starts v → ¬ F.Slow v) {x y : Nat → K} (hx : F.Carries starts q x)
    (hy : F.Carries starts (fun v => F.pv v * x v) y) {v : Nat} (hv : v < F.n) {τ e₁ e₂ : K}
    (h1 : τ * x v - y v ≤ e₁) (h2 : y v - τ * x v ≤ e₂) :
    ∀ ε > 0, ∃ N₀, ∀ N ≥ N₀, (τ - F.meanTime q N v) * F.arrived q N v ≤ e₁ + ε ∧
      (F.meanTime q N v - τ) * F.arrived q N v ≤ e₂ + ε := by
  intro ε hε
  have hτ := abs_nonneg τ
  have hη : 0 < ε / (1 + |τ|) := div_pos hε (by linarith)
  obtain ⟨l1, l2⟩ := times_limit hF hp hq hslow hx hy
  obtain ⟨a1, a2⟩ := arrived_limit hF hp hq hx hv
  obtain ⟨N₁, h3⟩ := l2 _ hη
  obtain ⟨N₂, h4⟩ := a2 _ hη
  refine ⟨max N₁ N₂, fun N hN => ?_⟩
  have k1 := h3 N (le_trans (le_max_left _ _) hN) v hv
  have k2 := h4 N (le_trans (le_max_right _ _) hN)
  have k3 := l1 N v hv
  have k4 : |τ * (x v - F.arrived q N v)| ≤ |τ| * (ε / (1 + |τ|)) := by
    rw [abs_mul, abs_of_nonneg (sub_nonneg.mpr (a1 N))]
    exact mul_le_mul_of_nonneg_left (by linarith) hτ
  obtain ⟨k5, k6⟩ := abs_le.mp k4
  have e : ε / (1 + |τ|) * (1 + |τ|) = ε := div_mul_cancel₀ _ (by linarith : (1 + |τ|) ≠ 0)
  have k7 : 0 ≤ ε / (1 + |τ|) * |τ| := mul_nonneg hη.le hτ
  rw [sub_mul, sub_mul, mean_mul hF (fun v hv => (hq v hv).1) hv]
  constructor <;> linarith

end flow

/-! ### Exact arithmetic -/

section runs
variable {K : Type} [Field K] [LinearOrder K] [IsStrictOrderedRing K] [Archimedean K] {F : Flow K} {wells : List (WellFlux K)}
  {cs : WellFlux K → List Nat} {f : WellFlux K → Nat → K} {starts : List CellSet} {sol : Solution (X K)}

theorem Diag.not_slow (D : Diag F wells cs f starts sol) {w : WellFlux K} (hw : w ∈ wells) (hs : ∃ s ∈ starts, s.id = w.id) {a : K}
    (ha : a < cap) (hta : ∀ v, F.Downstream (cs w) v → valueAt (sol.timeOfFlightOf w.id) v ≤ a) :
    ∀ v, F.Downstream (cs w) v → ¬ F.Slow v := by
  intro v hd hsl
  obtain ⟨d, st, h1, h2, h3⟩ := D.solved
  obtain ⟨l, hl, e1, e2⟩ := h3 w hw hs
  obtain ⟨τ, ht⟩ := C27_tof_balance_cyclic h1 (D.side.range w hw) (fun p hp => ⟨(D.side.pos w hw p hp).le, D.le_src hw hp⟩) hl
  have h4 := ht v hd
  have := hta v hd
  rw [e1, h4.1, h4.2.1 hsl, min_self] at this
  exact absurd ha (not_lt.mpr this)

theorem Diag.time_nonneg (D : Diag F wells cs f starts sol) (i : CellSetID) (v : Nat) : 0 ≤ valueAt (sol.timeOfFlightOf i) v := by
  unfold valueAt
  split
  · rename_i x hx
    obtain ⟨t, ht, h0, _⟩ := D.range.2 i _ (OMap.find_some_mem hx)
    rwa [X.fin.inj ht]
  · exact le_rfl

theorem Diag.routes_times (D : Diag F wells cs f starts sol) (hself : ∀ v < F.n, ¬ F.Loop v) {w : WellFlux K} (hw : w ∈ wells)
    (hs : ∃ s ∈ starts, s.id = w.id) {a : K} (ha : a < cap)
    (hta : ∀ v, F.Downstream (cs w) v → valueAt (sol.timeOfFlightOf w.id) v ≤ a) {m p : Nat → K}
    (hm : F.Carries (cs w) F.cycleInflow m) (hpm : F.Carries (cs w) (fun v => F.pv v * m v) p)
    {v : Nat} (hd : F.Downstream (cs w) v) :
    ∀ ε > 0, ∃ N₀, ∀ N ≥ N₀,
      (valueAt (sol.timeOfFlightOf w.id) v - F.meanTime (injected (cs w) (f w)) N v) * F.arrived (injected (cs w) (f w)) N v
        ≤ a / 1000000000 * m v + ε ∧
      (F.meanTime (injected (cs w) (f w)) N v - valueAt (sol.timeOfFlightOf w.id) v) * F.arrived (injected (cs w) (f w)) N v
        ≤ 1 / 1000000000 * p v + (a / 1000000000 + cap / 1000000000000) * m v + ε := by
  have hF : F.Valid := by obtain ⟨d, st, h1, _⟩ := D.solved; exact h1.valid
  have hp := side_sources D.side hw
  have hv : v < F.n := by obtain ⟨p, h1, h2⟩ := hd; exact reach_lt (hp p h1).1 h2
  obtain ⟨x, hx⟩ := (C76_exact hF hp (injected (cs w) (f w))).1
  obtain ⟨y, hy⟩ := (C76_exact hF hp fun v => F.pv v * x v).1
  obtain ⟨h1, h2⟩ := D.time_error hself hw hs hx hm hy hpm ha hta v hd
  exact mean_error hF hp (side_injects D.side hw) (D.not_slow hw hs ha hta) hx hy hv h1 h2

end runs

section exact
variable {K : Type} [Field K] [LinearOrder K] [IsStrictOrderedRing K] [Archimedean K] {P : Problem K} (hP : P.Valid)
  {g : ConnectivityGraph} {calls : List (Call (X K))} (h : P.GivenTo g calls) {starts : List CellSet} {sol : Solution (X K)}
include hP h

/-- **C102** (exact arithmetic, any cycles, no cell has a self-connection as its only cycle, times of at most `a` < 200 years) The time
    of flight of an injector against the mean time of the fluid that came on routes with less than `N` connections: when `N` grows,
    the difference, times the share of this fluid, becomes at most the tolerance of the solver.  Here `m` is what the flow
    carries when each cell adds the flux it gets from its own cycle, and `p` what it carries when each cell adds its pore volume
    times `m`. -/
theorem C102_injection_times_cyclic (hself : ∀ v < P.n, ¬ P.forward.Loop v) (hret : InjectionReturns g calls starts (.ok sol))
    {w : WellFlux K} (hw : w ∈ P.wells) (hs : ∃ s ∈ starts, s.id = w.id) {a : K} (ha : a < 200 * 365 * 24 * 60 * 60)
    (hta : ∀ v, P.forward.Downstream (posCells w) v → valueAt (sol.timeOfFlightOf w.id) v ≤ a) {m p : Nat → K}
    (hm : P.forward.Carries (posCells w) P.forward.cycleInflow m)
    (hpm : P.forward.Carries (posCells w) (fun v => P.pv v * m v) p) :
    ∀ v, P.forward.Downstream (posCells w) v → ∀ ε > 0, ∃ N₀, ∀ N ≥ N₀,
      let q := fun v => max (Problem.wellAt w v) 0
      (valueAt (sol.timeOfFlightOf w.id) v - P.forward.meanTime q N v) * P.forward.arrived q N v ≤ a / 1000000000 * m v + ε ∧
      (P.forward.meanTime q N v - valueAt (sol.timeOfFlightOf w.id) v) * P.forward.arrived q N v
        ≤ 1 / 1000000000 * p v + (a / 1000000000 + 200 * 365 * 24 * 60 * 60 / 1000000000000) * m v + ε := by
  intro v hd
  have := (diag_injection hP h hret).routes_times hself hw hs ha hta hm hpm hd
  rwa [injected_pos_fun] at this

/-- **C102** The same for production. -/
theorem C102_production_times_cyclic (hself : ∀ v < P.n, ¬ P.forward.Loop v) (hret : ProductionReturns g calls starts (.ok sol))
    {w : WellFlux K} (hw : w ∈ P.wells) (hs : ∃ s ∈ starts, s.id = w.id) {a : K} (ha : a < 200 * 365 * 24 * 60 * 60)
    (hta : ∀ v, P.backward.Downstream (negCells w) v → valueAt (sol.timeOfFlightOf w.id) v ≤ a) {m p : Nat → K}
    (hm : P.backward.Carries (negCells w) P.backward.cycleInflow m)
    (hpm : P.backward.Carries (negCells w) (fun v => P.pv v * m v) p) :
    ∀ v, P.backward.Downstream (negCells w) v → ∀ ε > 0, ∃ N₀, ∀ N ≥ N₀,
      let q := fun v => max (-Problem.wellAt w v) 0
      (valueAt (sol.timeOfFlightOf w.id) v - P.backward.meanTime q N v) * P.backward.arrived q N v ≤ a / 1000000000 * m v + ε ∧
      (P.backward.meanTime q N v - valueAt (sol.timeOfFlightOf w.id) v) * P.backward.arrived q N v
        ≤ 1 / 1000000000 * p v + (a / 1000000000 + 200 * 365 * 24 * 60 * 60 / 1000000000000) * m v + ε := by
  intro v hd
  have := (diag_production hP h hret).routes_times (backward_not_loop hself) hw hs ha hta hm hpm hd
  rwa [injected_neg_fun] at this

end exact

/-! ### Doubles -/

section double

theorem Nearly.routes_times {F : Flow ℚ} {wells : List (WellFlux ℚ)} {cs : WellFlux ℚ → List Nat} {f : WellFlux ℚ → Nat → ℚ}
    {starts : List CellSet} {sol : Solution Double} {M : Nat} (N : Nearly F wells cs f starts sol M)
    (T : Timely F wells cs starts sol M) (hself : ∀ v < F.n, ¬ F.Loop v) {w : WellFlux ℚ} (hw : w ∈ wells)
    (hs : ∃ s ∈ starts, s.id = w.id) {a : ℚ} (ha : a < 200 * 365 * 24 * 60 * 60)
    (hta : ∀ v, F.Downstream (cs w) v → ¬ F.Slow v ∧ doubleAt (sol.timeOfFlightOf w.id) v ≤ a)
    (htiny : ∀ v, F.Downstream (cs w) v → 1 / 2 ^ 300 ≤ doubleAt (sol.concentration w.id) v) {m t p k : Nat → ℚ}
    (hm : F.Carries (cs w) F.cycleInflow m) (ht : F.Carries (cs w) F.total t)
    (hpm : F.Carries (cs w) (fun v => F.pv v * m v) p) (hk : F.Carries (cs w) (fun v => F.pv v * t v) k)
    {v : Nat} (hd : F.Downstream (cs w) v) :
    ∀ ε > 0, ∃ N₀, ∀ N ≥ N₀,
      |doubleAt (sol.timeOfFlightOf w.id) v - F.meanTime (injected (cs w) (f w)) N v| * F.arrived (injected (cs w) (f w)) N v
      ≤ 1 / 1000000000 * p v + (2 * a / 1000000000 + 200 * 365 * 24 * 60 * 60 / 1000000000000) * m v
        + ((4 * M + 8 : Nat) : ℚ) / 2 ^ 51 * (k v + (2 * a + 1) * t v) + ε := by
  have hp := N.sources hw
  have hv : v < F.n := by obtain ⟨p, h1, h2⟩ := hd; exact reach_lt (hp p h1).1 h2
  obtain ⟨x, hx⟩ := (C76_exact N.valid hp (injected (cs w) (f w))).1
  obtain ⟨y, hy⟩ := (C76_exact N.valid hp fun v => F.pv v * x v).1
  have e := abs_le.mp (N.time_error T hself hw hs ha (fun v hv => (hta v hv).2) htiny hx hm ht hy hpm hk v hd)
  have e1 := neg_le.mp e.1
  rw [neg_sub] at e1
  intro ε hε
  obtain ⟨N₀, hN⟩ := mean_error N.valid hp (side_injects N.side hw) (fun v hv => (hta v hv).1) hx hy hv e.2 e1 ε hε
  refine ⟨N₀, fun n hn => ?_⟩
  obtain ⟨a1, a2⟩ := hN n hn
  have a0 : 0 ≤ F.arrived (injected (cs w) (f w)) n v :=
    sum_nonneg fun k _ => onRoutes_nonneg N.valid (fun v hv => (side_injects N.side hw v hv).1) hv k
  have e2 := abs_mul (doubleAt (sol.timeOfFlightOf w.id) v - F.meanTime (injected (cs w) (f w)) n v)
    (F.arrived (injected (cs w) (f w)) n v)
  rw [abs_of_nonneg a0] at e2
  rw [← e2, abs_le]
  constructor <;> linarith

variable {P : Problem ℚ} (hP : P.Valid) {M : Nat} (hO : P.OfOrdinarySize M) {g : ConnectivityGraph} {calls : List (Call Double)}
  (h : P.StoredIn g calls) (hself : ∀ v < P.n, ¬ P.forward.Loop v) {w : WellFlux ℚ} (hw : w ∈ P.wells) {starts : List CellSet}
  {sol : Solution Double} (hs : ∃ s ∈ starts, s.id = w.id) {a : ℚ} (ha : a < 200 * 365 * 24 * 60 * 60)
include hP hO h hself hw hs ha

/-- **C102** (doubles, any cycles, no cell that takes more than 200 years to fill, times of at most `a` < 200 years, no concentrations
    below 2^-300) The same for times of flight computed with `double`s: the difference becomes at most that tolerance and the
    rounding errors bounded in C81. -/
theorem C102_injection_times_double (htotal : ∀ v < P.n, P.forward.total v ≤ 2 ^ 100) (hret : InjectionReturns g calls starts (.ok sol))
    (hta : ∀ v, P.forward.Downstream (posCells w) v → ¬ P.forward.Slow v ∧ doubleAt (sol.timeOfFlightOf w.id) v ≤ a)
    (htiny : ∀ v, P.forward.Downstream (posCells w) v → 1 / 2 ^ 300 ≤ doubleAt (sol.concentration w.id) v) {m t p k : Nat → ℚ}
    (hm : P.forward.Carries (posCells w) P.forward.cycleInflow m) (ht : P.forward.Carries (posCells w) P.forward.total t)
    (hpm : P.forward.Carries (posCells w) (fun v => P.pv v * m v) p)
    (hk : P.forward.Carries (posCells w) (fun v => P.pv v * t v) k) :
    ∀ v, P.forward.Downstream (posCells w) v → ∀ ε > 0, ∃ N₀, ∀ N ≥ N₀,
      let q := fun v => max (Problem.wellAt w v) 0
      |doubleAt (sol.timeOfFlightOf w.id) v - P.forward.meanTime q N v| * P.forward.arrived q N v
        ≤ 1 / 1000000000 * p v + (2 * a / 1000000000 + 200 * 365 * 24 * 60 * 60 / 1000000000000) * m v
          + ((4 * M + 8 : Nat) : ℚ) / 2 ^ 51 * (k v + (2 * a + 1) * t v) + ε := by
  intro v hd
  have := (nearly_injection hP hO htotal h hret).routes_times (timely_injection hP hO htotal h hret) hself hw hs ha hta htiny hm ht
    hpm hk hd
  rwa [injected_pos_fun] at this

/-- **C102** The same for production. -/
theorem C102_production_times_double (htotal : ∀ v < P.n, P.backward.total v ≤ 2 ^ 100)
    (hret : ProductionReturns g calls starts (.ok sol))
    (hta : ∀ v, P.backward.Downstream (negCells w) v → ¬ P.backward.Slow v ∧ doubleAt (sol.timeOfFlightOf w.id) v ≤ a)
    (htiny : ∀ v, P.backward.Downstream (negCells w) v → 1 / 2 ^ 300 ≤ doubleAt (sol.concentration w.id) v) {m t p k : Nat → ℚ}
    (hm : P.backward.Carries (negCells w) P.backward.cycleInflow m) (ht : P.backward.Carries (negCells w) P.backward.total t)
    (hpm : P.backward.Carries (negCells w) (fun v => P.pv v * m v) p)
    (hk : P.backward.Carries (negCells w) (fun v => P.pv v * t v) k) :
    ∀ v, P.backward.Downstream (negCells w) v → ∀ ε > 0, ∃ N₀, ∀ N ≥ N₀,
      let q := fun v => max (-Problem.wellAt w v) 0
      |doubleAt (sol.timeOfFlightOf w.id) v - P.backward.meanTime q N v| * P.backward.arrived q N v
        ≤ 1 / 1000000000 * p v + (2 * a / 1000000000 + 200 * 365 * 24 * 60 * 60 / 1000000000000) * m v
          + ((4 * M + 8 : Nat) : ℚ) / 2 ^ 51 * (k v + (2 * a + 1) * t v) + ε := by
  intro v hd
  have := (nearly_production hP hO htotal h hret).routes_times (timely_production hP hO htotal h hret) (backward_not_loop hself) hw hs
    ha hta htiny hm ht hpm hk hd
  rwa [injected_neg_fun] at this

end double

/-! ### Examples -/

theorem whirl_fast : ∀ v < 4, ¬ exWhirl.forward.Slow v ∧ ¬ exWhirl.backward.Slow v := by
  intro v hv
  obtain ⟨h1, h2⟩ := whirl_totals v hv
  have e1 : exWhirl.forward.pv v = 1 := rfl
  have e2 : exWhirl.backward.pv v = 1 := rfl
  unfold Flow.Slow
  rw [h1, h2, e1, e2]
  unfold cap
  split <;> norm_num

theorem whirl_from : (∀ v, exWhirl.forward.Downstream (posCells ⟨⟨[65]⟩, [0], fun _ => (2 : ℚ)⟩) v → v < 4) ∧
    ∀ v, exWhirl.backward.Downstream (negCells ⟨⟨[80]⟩, [3], fun _ => (-2 : ℚ)⟩) v → v < 4 := by
  constructor
  · rintro v ⟨p, h1, h2⟩
    have : p = 0 := by simpa [posCells] using h1
    subst this
    exact reach_lt (F := exWhirl.forward) (by decide) h2
  · rintro v ⟨p, h1, h2⟩
    have : p = 3 := by simpa [negCells] using h1
    subst this
    exact reach_lt (F := exWhirl.backward) (by decide) h2

/-- C102, times with a cycle, in exact arithmetic: the fluid in cell 3 of the whirl came on routes that go round the cycle any number
    of times. -/
example : ∃ s m p, InjectionReturns whirlGraph (whirlExact 1) [CellSet.ofCells ⟨[65]⟩ [0]] (.ok s) ∧
    exWhirl.forward.Carries (posCells ⟨⟨[65]⟩, [0], fun _ => (2 : ℚ)⟩) exWhirl.forward.cycleInflow m ∧
    exWhirl.forward.Carries (posCells ⟨⟨[65]⟩, [0], fun _ => (2 : ℚ)⟩) (fun v => exWhirl.pv v * m v) p ∧
    ∀ ε > 0, ∃ N₀, ∀ N ≥ N₀,
      let q := fun v => max (Problem.wellAt ⟨⟨[65]⟩, [0], fun _ => (2 : ℚ)⟩ v) 0
      (valueAt (s.timeOfFlightOf ⟨[65]⟩) 3 - exWhirl.forward.meanTime q N 3) * exWhirl.forward.arrived q N 3
        ≤ 3 / 1000000000 * m 3 + ε ∧
      (exWhirl.forward.meanTime q N 3 - valueAt (s.timeOfFlightOf ⟨[65]⟩) 3) * exWhirl.forward.arrived q N 3
        ≤ 1 / 1000000000 * p 3 + (3 / 1000000000 + 200 * 365 * 24 * 60 * 60 / 1000000000000) * m 3 + ε := by
  obtain ⟨s, h1, b1⟩ := whirlExact_one
  have e : exWhirl.withPoreVolume (fun _ => ((1 : Int) : ℚ)) = exWhirl := by
    unfold Problem.withPoreVolume exWhirl; simp
  have g1 := whirlExact_given 1
  rw [e] at g1
  have hp := side_sources (H := exWhirl.forward) (pos_side exWhirl_valid) (x := ⟨⟨[65]⟩, [0], fun _ => 2⟩) (.head _)
  obtain ⟨m, hm⟩ := (C76_exact (forward_valid exWhirl_valid) hp exWhirl.forward.cycleInflow).1
  obtain ⟨p, hpm⟩ := (C76_exact (forward_valid exWhirl_valid) hp fun v => exWhirl.pv v * m v).1
  exact ⟨s, m, p, h1, hm, hpm, C102_injection_times_cyclic exWhirl_valid g1 whirl_not_loop h1
    (w := ⟨⟨[65]⟩, [0], fun _ => 2⟩) (.head _) ⟨_, .head _, rfl⟩ (a := 3) (by norm_num) (fun v hv => b1 v (whirl_from.1 v hv)) hm hpm 3
    ⟨0, by simp [posCells], whirl_reached 3 (by decide)⟩⟩

set_option maxRecDepth 100000 in
/-- C102, times with a cycle, with `double`s, in both directions. -/
example : ∃ S T, InjectionReturns whirlGraph whirlCalls [CellSet.ofCells ⟨[65]⟩ [0]] (.ok S) ∧
    ProductionReturns whirlGraph whirlCalls [CellSet.ofCells ⟨[80]⟩ [3]] (.ok T) ∧
    (∃ m t p k : Nat → ℚ, ∀ ε > 0, ∃ N₀, ∀ N ≥ N₀,
      let q := fun v => max (Problem.wellAt ⟨⟨[65]⟩, [0], fun _ => (2 : ℚ)⟩ v) 0
      |doubleAt (S.timeOfFlightOf ⟨[65]⟩) 3 - exWhirl.forward.meanTime q N 3| * exWhirl.forward.arrived q N 3
        ≤ 1 / 1000000000 * p 3 + (2 * 10 / 1000000000 + 200 * 365 * 24 * 60 * 60 / 1000000000000) * m 3
          + ((4 * 5 + 8 : Nat) : ℚ) / 2 ^ 51 * (k 3 + (2 * 10 + 1) * t 3) + ε) ∧
    ∃ m t p k : Nat → ℚ, ∀ ε > 0, ∃ N₀, ∀ N ≥ N₀,
      let q := fun v => max (-Problem.wellAt ⟨⟨[80]⟩, [3], fun _ => (-2 : ℚ)⟩ v) 0
      |doubleAt (T.timeOfFlightOf ⟨[80]⟩) 3 - exWhirl.backward.meanTime q N 3| * exWhirl.backward.arrived q N 3
        ≤ 1 / 1000000000 * p 3 + (2 * 10 / 1000000000 + 200 * 365 * 24 * 60 * 60 / 1000000000000) * m 3
          + ((4 * 5 + 8 : Nat) : ℚ) / 2 ^ 51 * (k 3 + (2 * 10 + 1) * t 3) + ε := by
  obtain ⟨S, h1, h3⟩ := quick_spec (i := ⟨[65]⟩)
    (r := injectionOutcome whirlGraph whirlCalls noFailure 100 [CellSet.ofCells ⟨[65]⟩ [0]]) (by decide +kernel)
  obtain ⟨T, h2, h4⟩ := quick_spec (i := ⟨[80]⟩)
    (r := productionOutcome whirlGraph whirlCalls noFailure 100 [CellSet.ofCells ⟨[80]⟩ [3]]) (by decide +kernel)
  have hS := (Fuel.injection_returns.mpr ⟨100, h1, by simp⟩).1
  have hT := (Fuel.production_returns.mpr ⟨100, h2, by simp⟩).1
  refine ⟨S, T, hS, hT, ?_, ?_⟩
  · have hF := forward_valid exWhirl_valid
    have hp := side_sources (H := exWhirl.forward) (pos_side exWhirl_valid) (x := ⟨⟨[65]⟩, [0], fun _ => 2⟩) (.head _)
    obtain ⟨m, hm⟩ := (C76_exact hF hp exWhirl.forward.cycleInflow).1
    obtain ⟨t, ht⟩ := (C76_exact hF hp exWhirl.forward.total).1
    obtain ⟨p, hpm⟩ := (C76_exact hF hp fun v => exWhirl.pv v * m v).1
    obtain ⟨k, hk⟩ := (C76_exact hF hp fun v => exWhirl.pv v * t v).1
    exact ⟨m, t, p, k, C102_injection_times_double exWhirl_valid whirl_ordinary_five whirl_stored whirl_not_loop
      (w := ⟨⟨[65]⟩, [0], fun _ => 2⟩) (.head _) ⟨_, .head _, rfl⟩ (a := 10) (by norm_num) whirl_total.1 hS
      (fun v hv => ⟨(whirl_fast v (whirl_from.1 v hv)).1, (h3 v (whirl_from.1 v hv)).1⟩)
      (fun v hv => le_trans (one_div_le_one_div_of_le two_pos (le_self_pow₀ one_le_two (by decide))) (h3 v (whirl_from.1 v hv)).2) hm ht hpm hk 3
      ⟨0, by simp [posCells], whirl_reached 3 (by decide)⟩⟩
  · have hF := (nearly_production exWhirl_valid whirl_ordinary_five whirl_total.2 whirl_stored hT).valid
    have hp := (nearly_production exWhirl_valid whirl_ordinary_five whirl_total.2 whirl_stored hT).sources
      (w := ⟨⟨[80]⟩, [3], fun _ => -2⟩) (.tail _ (.head _))
    obtain ⟨m, hm⟩ := (C76_exact hF hp exWhirl.backward.cycleInflow).1
    obtain ⟨t, ht⟩ := (C76_exact hF hp exWhirl.backward.total).1
    obtain ⟨p, hpm⟩ := (C76_exact hF hp fun v => exWhirl.pv v * m v).1
    obtain ⟨k, hk⟩ := (C76_exact hF hp fun v => exWhirl.pv v * t v).1
    exact ⟨m, t, p, k, C102_production_times_double exWhirl_valid whirl_ordinary_five whirl_stored whirl_not_loop
      (w := ⟨⟨[80]⟩, [3], fun _ => -2⟩) (.tail _ (.head _)) ⟨_, .head _, rfl⟩ (a := 10) (by norm_num) whirl_total.2 hT
      (fun v hv => ⟨(whirl_fast v (whirl_from.2 v hv)).2, (h4 v (whirl_from.2 v hv)).1⟩)
      (fun v hv => le_trans (one_div_le_one_div_of_le two_pos (le_self_pow₀ one_le_two (by decide))) (h4 v (whirl_from.2 v hv)).2) hm ht hpm hk 3
      ⟨3, by simp [negCells], .refl⟩⟩

end Verif.Props
