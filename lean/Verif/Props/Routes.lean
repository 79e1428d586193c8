/-
C102: concentrations and times of flight are those of fluid that follows all routes through the cells.
-/
import Verif.Props.Refine
import Verif.Spec.Routes

namespace Verif.Props
open Verif.Spec Verif.Toolbox Verif.Solver Verif.Derived Finset

/-! ### Sums over routes -/

theorem sum_flatMap_range {K : Type} [AddCommMonoid K] {α : Type} (g : Nat → List α) (f : α → K) (n : Nat) :
    (((List.range n).flatMap g).map f).sum = ∑ u ∈ range n, ((g u).map f).sum := by
  induction n with
  | zero => simp
  | succ n ih => rw [List.range_succ, List.flatMap_append, List.map_append, List.sum_append, ih, sum_range_succ]; simp

section flow
variable {K : Type} [Field K] [LinearOrder K] {F : Flow K} {q : Nat → K}

omit [Field K] [LinearOrder K] in
theorem routes_head {k v : Nat} {r : List Nat} (h : r ∈ F.routesTo k v) : ∃ r', r = v :: r' := by
  cases k with
  | zero => exact ⟨[], List.mem_singleton.mp h⟩
  | succ k =>
    obtain ⟨u, _, h2⟩ := List.mem_flatMap.mp h
    obtain ⟨r', _, rfl⟩ := List.mem_map.mp h2
    exact ⟨r', rfl⟩

/-- What comes on routes of `k` connections. -/
def onRoutes (F : Flow K) (q : Nat → K) (k v : Nat) : K := ((F.routesTo k v).map fun r => F.fraction q r).sum

/-- The times it took, weighted with the amounts. -/
noncomputable def timeOnRoutes (F : Flow K) (q : Nat → K) (k v : Nat) : K :=
  ((F.routesTo k v).map fun r => F.fraction q r * F.duration r).sum

omit [LinearOrder K] in
theorem onRoutes_zero (v : Nat) : onRoutes F q 0 v = q v / F.total v := by
  simp [onRoutes, Flow.routesTo, Flow.fraction]

omit [LinearOrder K] in
theorem onRoutes_succ (k v : Nat) : onRoutes F q (k + 1) v = ∑ u ∈ range F.n, F.w u v / F.total v * onRoutes F q k u := by
  unfold onRoutes
  rw [Flow.routesTo, sum_flatMap_range]
  refine sum_congr rfl fun u _ => ?_
  rw [List.map_map, ← List.sum_map_mul_left]
  refine congrArg List.sum (List.map_congr_left fun r hr => ?_)
  obtain ⟨r', rfl⟩ := routes_head hr
  rfl

theorem timeOnRoutes_slow {v : Nat} (hs : F.Slow v) (k : Nat) : timeOnRoutes F q k v = cap * onRoutes F q k v := by
  unfold timeOnRoutes onRoutes
  rw [← List.sum_map_mul_left]
  refine congrArg List.sum (List.map_congr_left fun r hr => ?_)
  obtain ⟨r', rfl⟩ := routes_head hr
  simp only [Flow.duration, if_pos hs]
  rw [mul_comm]
  rfl

theorem timeOnRoutes_zero {v : Nat} (hs : ¬ F.Slow v) : timeOnRoutes F q 0 v = F.pv v / F.total v * onRoutes F q 0 v := by
  unfold timeOnRoutes onRoutes
  simp [Flow.routesTo, Flow.fraction, Flow.duration, if_neg hs, mul_comm]

theorem timeOnRoutes_succ {v : Nat} (hs : ¬ F.Slow v) (k : Nat) : timeOnRoutes F q (k + 1) v
    = ∑ u ∈ range F.n, F.w u v / F.total v * timeOnRoutes F q k u + F.pv v / F.total v * onRoutes F q (k + 1) v := by
  rw [onRoutes_succ, mul_sum, ← sum_add_distrib]
  unfold onRoutes timeOnRoutes
  rw [Flow.routesTo, sum_flatMap_range]
  refine sum_congr rfl fun u _ => ?_
  rw [List.map_map, ← List.sum_map_mul_left, ← List.sum_map_mul_left, ← List.sum_map_mul_left, ← List.sum_map_add]
  refine congrArg List.sum (List.map_congr_left fun r hr => ?_)
  obtain ⟨r', rfl⟩ := routes_head hr
  simp only [Function.comp, Flow.fraction, Flow.duration, if_neg hs]
  ring

omit [LinearOrder K] in
theorem arrived_succ (N v : Nat) :
    F.arrived q (N + 1) v = q v / F.total v + ∑ u ∈ range F.n, F.w u v / F.total v * F.arrived q N u := by
  show ∑ k ∈ range (N + 1), onRoutes F q k v = _ + ∑ u ∈ range F.n, F.w u v / F.total v * ∑ k ∈ range N, onRoutes F q k u
  rw [sum_range_succ', onRoutes_zero, add_comm]
  simp only [onRoutes_succ, mul_sum]
  rw [sum_comm]

theorem times_succ {v : Nat} (hs : ¬ F.Slow v) (N : Nat) : ∑ k ∈ range (N + 1), timeOnRoutes F q k v
    = ∑ u ∈ range F.n, F.w u v / F.total v * (∑ k ∈ range N, timeOnRoutes F q k u) + F.pv v / F.total v * F.arrived q (N + 1) v := by
  rw [show F.arrived q (N + 1) v = ∑ k ∈ range (N + 1), onRoutes F q k v from rfl, sum_range_succ', timeOnRoutes_zero hs,
    sum_range_succ' (fun k => onRoutes F q k v)]
  simp only [timeOnRoutes_succ hs, mul_sum, sum_add_distrib, mul_add]
  rw [sum_comm]
  ring

variable {starts : List Nat}

/-- A route on which something comes to `v` starts at a source, and is not longer than the ranks along the edges allow. -/
theorem fraction_ne (hF : F.Valid) (hq : ∀ v < F.n, q v ≠ 0 → v ∈ starts) {rank : Nat → Nat}
    {k v : Nat} {r : List Nat} (hr : r ∈ F.routesTo k v) (hv : v < F.n) (hne : F.fraction q r ≠ 0) :
    F.Downstream starts v ∧ ((∀ u v, F.Edge u v → rank u < rank v) → k ≤ rank v) := by
  induction k generalizing v r with
  | zero =>
    cases List.mem_singleton.mp hr
    exact ⟨⟨v, hq v hv fun e => hne (by rw [Flow.fraction, e, zero_div]), .refl⟩, fun _ => Nat.zero_le _⟩
  | succ k ih =>
    obtain ⟨u, hu, h2⟩ := List.mem_flatMap.mp hr
    obtain ⟨r', h3, rfl⟩ := List.mem_map.mp h2
    obtain ⟨r'', rfl⟩ := routes_head h3
    have hun := List.mem_range.mp hu
    rw [Flow.fraction] at hne
    obtain ⟨⟨p, a, b⟩, h5⟩ := ih h3 hun (right_ne_zero_of_mul hne)
    have he : F.Edge u v := ⟨hun, hv, lt_of_le_of_ne (hF.w_nonneg u v hun hv) fun e => hne (by rw [← e, zero_div, zero_mul])⟩
    exact ⟨⟨p, a, b.tail he⟩, fun h => by have := h5 h; have := h u v he; omega⟩

theorem routes_zero {k v : Nat} (h : ∀ r ∈ F.routesTo k v, F.fraction q r = 0) : onRoutes F q k v = 0 ∧ timeOnRoutes F q k v = 0 := by
  constructor
  · exact List.sum_eq_zero fun x hx => by obtain ⟨r, hr, rfl⟩ := List.mem_map.mp hx; exact h r hr
  · exact List.sum_eq_zero fun x hx => by obtain ⟨r, hr, rfl⟩ := List.mem_map.mp hx; simp only [h r hr, zero_mul]

theorem onRoutes_off (hF : F.Valid) (hq : ∀ v < F.n, q v ≠ 0 → v ∈ starts) {v : Nat} (hv : v < F.n) (hd : ¬ F.Downstream starts v)
    (k : Nat) : onRoutes F q k v = 0 ∧ timeOnRoutes F q k v = 0 :=
  routes_zero fun r hr => by
    by_contra hne
    exact hd (fraction_ne (rank := fun _ => 0) hF hq hr hv hne).1

variable [IsStrictOrderedRing K] (hF : F.Valid) (hp : ∀ p ∈ starts, p < F.n ∧ 0 < F.src p)

include hF hp in
/-- What has not arrived yet decreases geometrically. -/
theorem remaining (hq : ∀ v < F.n, 0 ≤ q v ∧ (q v ≠ 0 → v ∈ starts)) {x h : Nat → K} (hx : F.Carries starts q x)
    (hh : F.Carries starts F.total h) {H X : K} (hH : ∀ v < F.n, h v ≤ H) (hX : ∀ v < F.n, x v ≤ X) (hH1 : 1 ≤ H) (hX0 : 0 ≤ X) (N : Nat) :
    ∀ v < F.n, 0 ≤ x v - F.arrived q N v ∧ x v - F.arrived q N v ≤ (1 - 1 / H) ^ N * (X * h v) := by
  have ht : ∀ v < F.n, 0 ≤ F.total v := fun v hv =>
    add_nonneg (sum_nonneg fun u hu => hF.w_nonneg u v (mem_range.mp hu) hv) (hF.src_nonneg v hv)
  have hx0 := (C76_exact hF hp q).2.2 (fun v hv => (hq v hv).1) x hx
  have hh0 := (C76_exact hF hp F.total).2.2 ht h hh
  have law : ∀ {q x : Nat → K}, F.Carries starts q x → ∀ v < F.n, F.Downstream starts v →
      x v = q v / F.total v + ∑ u ∈ range F.n, F.w u v / F.total v * x u := by
    intro q x hx v hv hd
    have h0 := downstream_total hF hp hd
    have e : ∑ u ∈ range F.n, F.w u v / F.total v * x u = (∑ u ∈ range F.n, x u * F.w u v) / F.total v := by
      rw [sum_div]; exact sum_congr rfl fun u _ => by ring
    rw [e, ← add_div, eq_div_iff h0.ne', add_comm (q v), ← hx.2 v hv hd, mul_comm]
  have h1 : ∀ v < F.n, F.Downstream starts v → 1 ≤ h v := by
    intro v hv hd
    rw [law hh v hv hd, div_self (downstream_total hF hp hd).ne']
    have : 0 ≤ ∑ u ∈ range F.n, F.w u v / F.total v * h u := sum_nonneg fun u hu =>
      mul_nonneg (div_nonneg (hF.w_nonneg u v (mem_range.mp hu) hv) (ht v hv)) (hh0 u (mem_range.mp hu))
    linarith
  have hρ : 0 ≤ 1 - 1 / H := sub_nonneg.mpr (by rw [div_le_one (by linarith)]; exact hH1)
  have off : ∀ N, ∀ v < F.n, ¬ F.Downstream starts v → F.arrived q N v = 0 := fun N v hv hd =>
    sum_eq_zero fun k _ => (onRoutes_off hF (fun v hv => (hq v hv).2) hv hd k).1
  induction N with
  | zero =>
    intro v hv
    rw [show F.arrived q 0 v = 0 from rfl, sub_zero, pow_zero, one_mul]
    refine ⟨hx0 v hv, ?_⟩
    by_cases hd : F.Downstream starts v
    · nlinarith [hX v hv, h1 v hv hd]
    · rw [hx.1 v hv hd, hh.1 v hv hd, mul_zero]
  | succ N ih =>
    intro v hv
    by_cases hd : F.Downstream starts v
    · have e : x v - F.arrived q (N + 1) v = ∑ u ∈ range F.n, F.w u v / F.total v * (x u - F.arrived q N u) := by
        rw [arrived_succ, law hx v hv hd]
        simp only [mul_sub, sum_sub_distrib]
        ring
      have hw : ∀ u ∈ range F.n, 0 ≤ F.w u v / F.total v := fun u hu => div_nonneg (hF.w_nonneg u v (mem_range.mp hu) hv) (ht v hv)
      rw [e]
      refine ⟨sum_nonneg fun u hu => mul_nonneg (hw u hu) (ih u (mem_range.mp hu)).1, ?_⟩
      refine (sum_le_sum fun u hu => mul_le_mul_of_nonneg_left (ih u (mem_range.mp hu)).2 (hw u hu)).trans ?_
      have e2 : ∑ u ∈ range F.n, F.w u v / F.total v * ((1 - 1 / H) ^ N * (X * h u))
          = (1 - 1 / H) ^ N * (X * ∑ u ∈ range F.n, F.w u v / F.total v * h u) := by
        rw [mul_sum, mul_sum]; exact sum_congr rfl fun u _ => by ring
      have e3 := law hh v hv hd
      rw [div_self (downstream_total hF hp hd).ne'] at e3
      rw [e2, show ∑ u ∈ range F.n, F.w u v / F.total v * h u = h v - 1 by linarith, pow_succ, mul_assoc]
      refine mul_le_mul_of_nonneg_left ?_ (pow_nonneg hρ N)
      rw [mul_left_comm]
      refine mul_le_mul_of_nonneg_left ?_ hX0
      have : 1 / H * h v ≤ 1 := by rw [one_div_mul_eq_div, div_le_one (by linarith)]; exact hH v hv
      linarith
    · rw [hx.1 v hv hd, off _ v hv hd, hh.1 v hv hd]
      simp

include hF hp in
/-- What has arrived converges to what the flow carries. -/
theorem arrived_limit [Archimedean K] (hq : ∀ v < F.n, 0 ≤ q v ∧ (q v ≠ 0 → v ∈ starts)) {x : Nat → K} (hx : F.Carries starts q x)
    {v : Nat} (hv : v < F.n) :
    (∀ N, F.arrived q N v ≤ x v) ∧ ∀ ε > 0, ∃ N₀, ∀ N ≥ N₀, x v ≤ F.arrived q N v + ε := by
  have ht : ∀ v < F.n, 0 ≤ F.total v := fun v hv =>
    add_nonneg (sum_nonneg fun u hu => hF.w_nonneg u v (mem_range.mp hu) hv) (hF.src_nonneg v hv)
  obtain ⟨h, hh⟩ := (C76_exact hF hp F.total).1
  have hx0 := (C76_exact hF hp q).2.2 (fun v hv => (hq v hv).1) x hx
  have hh0 := (C76_exact hF hp F.total).2.2 ht h hh
  have b1 : ∀ v < F.n, h v ≤ 1 + ∑ u ∈ range F.n, h u := fun v hv => by
    have := single_le_sum (f := h) (fun u hu => hh0 u (mem_range.mp hu)) (mem_range.mpr hv)
    linarith
  have b2 : ∀ v < F.n, x v ≤ ∑ u ∈ range F.n, x u := fun v hv =>
    single_le_sum (f := x) (fun u hu => hx0 u (mem_range.mp hu)) (mem_range.mpr hv)
  have hH : (1 : K) ≤ 1 + ∑ u ∈ range F.n, h u := by
    have := sum_nonneg fun u (hu : u ∈ range F.n) => hh0 u (mem_range.mp hu)
    linarith
  have hX : 0 ≤ ∑ u ∈ range F.n, x u := sum_nonneg fun u hu => hx0 u (mem_range.mp hu)
  set H := 1 + ∑ u ∈ range F.n, h u
  set X := ∑ u ∈ range F.n, x u
  have key := fun N => remaining hF hp hq hx hh b1 b2 hH hX N v hv
  refine ⟨fun N => sub_nonneg.mp (key N).1, fun ε hε => ?_⟩
  have hρ : 0 ≤ 1 - 1 / H := sub_nonneg.mpr (by rw [div_le_one (by linarith)]; exact hH)
  have hρ1 : 1 - 1 / H < 1 := by
    have : 0 < 1 / H := one_div_pos.mpr (by linarith)
    linarith
  have hc : 0 ≤ X * h v := mul_nonneg hX (hh0 v hv)
  obtain ⟨N₀, hN⟩ := exists_pow_lt_of_lt_one (div_pos hε (by linarith : 0 < X * h v + 1)) hρ1
  refine ⟨N₀, fun N hle => ?_⟩
  have h1 : (1 - 1 / H) ^ N ≤ (1 - 1 / H) ^ N₀ := pow_le_pow_of_le_one hρ hρ1.le hle
  have h2 : (1 - 1 / H) ^ N * (X * h v) ≤ ε := by
    have h3 := (h1.trans_lt hN).le
    have h4 := mul_le_mul h3 (by linarith : X * h v ≤ X * h v + 1) hc (div_pos hε (by linarith : 0 < X * h v + 1)).le
    rwa [div_mul_cancel₀ _ (by linarith : X * h v + 1 ≠ 0)] at h4
  linarith [(key N).2]

omit [IsStrictOrderedRing K] in
/-- In cycle-free flow the cells have ranks that increase along the flow. -/
theorem acyclic_rank (hacy : F.Acyclic) : ∃ rank : Nat → Nat, (∀ u v, F.Edge u v → rank u < rank v) ∧ ∀ v < F.n, rank v < F.n := by
  classical
  refine ⟨fun v => #{u ∈ range F.n | Relation.TransGen F.Edge u v}, fun u v he => card_lt_card ?_, fun v hv => ?_⟩
  · rw [ssubset_iff_of_subset fun x hx => mem_filter.mpr ⟨(mem_filter.mp hx).1, (mem_filter.mp hx).2.tail he⟩]
    exact ⟨u, mem_filter.mpr ⟨mem_range.mpr he.1, .single he⟩, fun hc => hacy u (mem_filter.mp hc).2⟩
  · have : #{u ∈ range F.n | Relation.TransGen F.Edge u v} < #(range F.n) := by
      refine card_lt_card ?_
      rw [ssubset_iff_of_subset (filter_subset _ _)]
      exact ⟨v, mem_range.mpr hv, fun hc => hacy v (mem_filter.mp hc).2⟩
    rwa [card_range] at this

omit [IsStrictOrderedRing K] in
/-- In cycle-free flow no route is longer than the number of cells. -/
theorem onRoutes_long (hF : F.Valid) (hacy : F.Acyclic) {v k : Nat} (hv : v < F.n) (hk : F.n ≤ k) :
    onRoutes F q k v = 0 ∧ timeOnRoutes F q k v = 0 := by
  obtain ⟨rank, h1, h2⟩ := acyclic_rank hacy
  refine routes_zero fun r hr => ?_
  by_contra hne
  have := (fraction_ne (starts := List.range F.n) hF (fun v hv _ => List.mem_range.mpr hv) hr hv hne).2 h1
  have := h2 v hv
  omega

omit [IsStrictOrderedRing K] in
/-- Longer routes do not matter. -/
theorem arrived_stable (hF : F.Valid) (hacy : F.Acyclic) {v N : Nat} (hv : v < F.n) (hN : F.n ≤ N) :
    F.arrived q N v = F.arrived q F.n v ∧
    ∑ k ∈ range N, timeOnRoutes F q k v = ∑ k ∈ range F.n, timeOnRoutes F q k v := by
  constructor
  · exact (sum_subset (range_subset_range.mpr hN) fun k _ hk =>
      (onRoutes_long hF hacy hv (not_lt.mp fun hc => hk (mem_range.mpr hc))).1).symm
  · exact (sum_subset (range_subset_range.mpr hN) fun k _ hk =>
      (onRoutes_long hF hacy hv (not_lt.mp fun hc => hk (mem_range.mpr hc))).2).symm

include hF hp in
theorem arrived_carries (hacy : F.Acyclic) (hq : ∀ v < F.n, q v ≠ 0 → v ∈ starts) : F.Carries starts q (F.arrived q F.n) := by
  refine ⟨fun v hv hd => sum_eq_zero fun k _ => (onRoutes_off hF hq hv hd k).1, fun v hv hd => ?_⟩
  have h0 := downstream_total hF hp hd
  have e := (arrived_stable (q := q) hF hacy hv (Nat.le_succ F.n)).1
  have e2 : ∑ u ∈ range F.n, F.w u v / F.total v * F.arrived q F.n u = (∑ u ∈ range F.n, F.arrived q F.n u * F.w u v) / F.total v := by
    rw [sum_div]; exact sum_congr rfl fun u _ => by ring
  rw [arrived_succ, e2, ← add_div] at e
  rw [← e, mul_div_cancel₀ _ h0.ne', add_comm]

include hF hp in
/-- Times that obey the balance are mean times. -/
theorem times_mean (hacy : F.Acyclic) (hq : ∀ v < F.n, q v ≠ 0 → v ∈ starts) {c τ : Nat → K}
    (hc : ∀ v < F.n, c v = F.arrived q F.n v) (hslow : ∀ v < F.n, F.Downstream starts v → F.Slow v → τ v = cap)
    (ht : ∀ v < F.n, F.Downstream starts v → ¬ F.Slow v →
      F.total v * c v * τ v = F.pv v * c v + ∑ u ∈ range F.n, τ u * c u * F.w u v) :
    ∀ v < F.n, ∑ k ∈ range F.n, timeOnRoutes F q k v = c v * τ v := by
  refine acyclic_induction hacy (P := fun v => ∑ k ∈ range F.n, timeOnRoutes F q k v = c v * τ v) fun v hv ih => ?_
  by_cases hd : F.Downstream starts v
  · by_cases hs : F.Slow v
    · rw [hslow v hv hd hs, hc v hv]
      simp only [timeOnRoutes_slow hs, ← mul_sum]
      exact mul_comm _ _
    · have h0 := downstream_total hF hp hd
      rw [← (arrived_stable (q := q) hF hacy hv (Nat.le_succ F.n)).2, times_succ hs, (arrived_stable hF hacy hv (Nat.le_succ F.n)).1,
        ← hc v hv]
      have e : ∑ u ∈ range F.n, F.w u v / F.total v * ∑ k ∈ range F.n, timeOnRoutes F q k u
          = (∑ u ∈ range F.n, τ u * c u * F.w u v) / F.total v := by
        rw [sum_div]
        refine sum_congr rfl fun u hu => ?_
        rcases (hF.w_nonneg u v (mem_range.mp hu) hv).lt_or_eq with h1 | h1
        · rw [ih u ⟨mem_range.mp hu, hv, h1⟩]; ring
        · rw [← h1]; simp
      have := ht v hv hd hs
      rw [e, ← mul_left_cancel_iff_of_pos h0, mul_add, mul_div_cancel₀ _ h0.ne']
      field_simp
      linarith
  · rw [hc v hv, (arrived_carries hF hp hacy hq).1 v hv hd, zero_mul]
    exact sum_eq_zero fun k _ => (onRoutes_off hF hq hv hd k).2

end flow

/-! ### Runs -/

section runs
variable {K : Type} [Field K] [LinearOrder K] [IsStrictOrderedRing K] {F : Flow K} {wells : List (WellFlux K)}
  {cs : WellFlux K → List Nat} {f : WellFlux K → Nat → K} {starts : List CellSet} {sol : Solution (X K)}

theorem side_injects (S : Side wells cs f F.n F.src) {w : WellFlux K} (hw : w ∈ wells) :
    ∀ v < F.n, 0 ≤ injected (cs w) (f w) v ∧ (injected (cs w) (f w) v ≠ 0 → v ∈ cs w) := fun v _ =>
  ⟨(side_injected S hw v).1, fun h => (injected_mem (S.pos w hw) v).mpr ((side_injected S hw v).1.lt_of_ne h.symm)⟩

variable [Archimedean K]

theorem Diag.routes (D : Diag F wells cs f starts sol) (hacy : F.Acyclic) {w : WellFlux K} (hw : w ∈ wells)
    (hs : ∃ s ∈ starts, s.id = w.id) {v : Nat} (hv : v < F.n) :
    valueAt (sol.concentration w.id) v = F.arrived (injected (cs w) (f w)) F.n v ∧
    valueAt (sol.timeOfFlightOf w.id) v = min (F.meanTime (injected (cs w) (f w)) F.n v) cap := by
  have hF : F.Valid := by obtain ⟨d, st, h1, _⟩ := D.solved; exact h1.valid
  have hq := fun v hv => (side_injects D.side hw v hv).2
  have hp := side_sources D.side hw
  have hA := arrived_carries hF hp hacy hq
  have hc : ∀ v < F.n, valueAt (sol.concentration w.id) v = F.arrived (injected (cs w) (f w)) F.n v := by
    intro v hv
    obtain ⟨a, b⟩ := D.error (acyclic_no_loop hF hacy) hw hs hA (acyclic_carries_zero hF hacy _) v hv
    exact le_antisymm a (by linarith)
  refine ⟨hc v hv, ?_⟩
  have e : F.meanTime (injected (cs w) (f w)) F.n v
      = (∑ k ∈ Finset.range F.n, timeOnRoutes F (injected (cs w) (f w)) k v) / F.arrived (injected (cs w) (f w)) F.n v := rfl
  by_cases hd : F.Downstream (cs w) v
  · obtain ⟨τ, ht⟩ := D.tof_balance hacy hw hs
    rw [(ht v hd).1, e, times_mean hF hp hacy hq hc (fun v _ hd => (ht v hd).2.1) (fun v _ hd => (ht v hd).2.2) v hv, ← hc v hv,
      mul_div_cancel_left₀ _ ((D.conc_pos hw hs v).mpr hd).ne']
  · rw [D.time_off hw hs hd, e, hA.1 v hv hd, div_zero, min_eq_left cap_pos.le]

theorem Diag.routes_global (D : Diag F wells cs f starts sol) (hacy : F.Acyclic) {v : Nat} (hv : v < F.n) :
    fieldAt sol.timeOfFlight v = if 0 < F.arrived F.src F.n v then min (F.meanTime F.src F.n v) cap else cap := by
  classical
  obtain ⟨d, st, h1, h2, _⟩ := D.solved
  obtain ⟨τ, c, hr1, _, hf⟩ := global_facts h1
  have hF := h1.valid
  rw [Res.ok.inj (h2.unique hr1), arr_fieldAt _ _ hv]
  let src : List Nat := (List.range F.n).filter fun v => 0 < F.src v
  have hmem : ∀ v, v ∈ src ↔ v < F.n ∧ 0 < F.src v := fun v => by simp [src]
  have hp : ∀ p ∈ src, p < F.n ∧ 0 < F.src p := fun p h => (hmem p).mp h
  have hq : ∀ v < F.n, F.src v ≠ 0 → v ∈ src := fun v hv h => (hmem v).mpr ⟨hv, (hF.src_nonneg v hv).lt_of_ne h.symm⟩
  have hdown : ∀ v < F.n, 0 < c v → F.Downstream src v := fun v hv h => by
    obtain ⟨q, a, _, _, b, e⟩ := hf.source v hv h
    exact ⟨q, (hmem q).mpr ⟨a, b⟩, e⟩
  have hcar : F.Carries src F.src c := by
    refine ⟨fun v hv hn => ?_, fun v hv _ => hf.exact v hv (fun hc => hc.1.ne' hc.2) (hacy v)⟩
    rcases (hf.nonneg v hv).2.lt_or_eq with e | e
    · exact absurd (hdown v hv e) hn
    · exact e.symm
  have hc := (C76_exact hF hp F.src).2.1 _ _ hcar (arrived_carries hF hp hacy hq)
  have hcpos : ∀ v < F.n, F.Downstream src v → 0 < c v := by
    intro v hv ⟨p, a, hr⟩
    clear hv
    induction hr with
    | refl => exact hf.pos p (hp p a).1 (fun hc => hc.1.ne' hc.2) (.inl (hp p a).2)
    | tail _ he ih => exact hf.pos _ he.2.1 (fun hc => hc.1.ne' hc.2) (.inr ⟨_, he.1, ih, he.2.2⟩)
  rw [← hc v hv]
  split
  · rename_i h0
    have e : F.meanTime F.src F.n v
        = (∑ k ∈ Finset.range F.n, timeOnRoutes F F.src k v) / F.arrived F.src F.n v := rfl
    rw [e, times_mean hF hp hacy hq hc (fun v hv _ hs => hf.capped v hv (.inl hs))
      (fun v hv hd hs => hf.texact v hv hs (hcpos v hv hd) (hacy v)) v hv, ← hc v hv, mul_div_cancel_left₀ _ h0.ne']
  · rename_i h0
    rw [hf.capped v hv (.inr (le_antisymm (not_lt.mp h0) (hf.nonneg v hv).2)), min_self]

theorem Diag.routes_cyclic (D : Diag F wells cs f starts sol) (hself : ∀ v < F.n, ¬ F.Loop v) {w : WellFlux K} (hw : w ∈ wells)
    (hs : ∃ s ∈ starts, s.id = w.id) {m : Nat → K} (hm : F.Carries (cs w) F.cycleInflow m) {v : Nat} (hv : v < F.n) :
    (∀ N, F.arrived (injected (cs w) (f w)) N v ≤ valueAt (sol.concentration w.id) v + 1 / 1000000000 * m v) ∧
    ∀ ε > 0, ∃ N₀, ∀ N ≥ N₀, valueAt (sol.concentration w.id) v ≤ F.arrived (injected (cs w) (f w)) N v + ε := by
  have hF : F.Valid := by obtain ⟨d, st, h1, _⟩ := D.solved; exact h1.valid
  have hp := side_sources D.side hw
  obtain ⟨x, hx⟩ := (C76_exact hF hp (injected (cs w) (f w))).1
  obtain ⟨a, b⟩ := D.error hself hw hs hx hm v hv
  obtain ⟨l1, l2⟩ := arrived_limit hF hp (side_injects D.side hw) hx hv
  refine ⟨fun N => by linarith [l1 N], fun ε hε => ?_⟩
  obtain ⟨N₀, hN⟩ := l2 ε hε
  exact ⟨N₀, fun N h => by linarith [hN N h]⟩

end runs

/-! ### Exact arithmetic -/

section exact
variable {K : Type} [Field K] [LinearOrder K] [IsStrictOrderedRing K]

/-- What a well injects in a cell. -/
theorem injected_pos_fun (w : WellFlux K) : injected (posCells w) w.val = fun v => max (Problem.wellAt w v) 0 :=
  funext fun v => injected_pos v

theorem injected_neg_fun (w : WellFlux K) : injected (negCells w) (fun v => - w.val v) = fun v => max (-Problem.wellAt w v) 0 :=
  funext fun v => injected_neg v

variable [Archimedean K] {P : Problem K} (hP : P.Valid)
  {g : ConnectivityGraph} {calls : List (Call (X K))} (h : P.GivenTo g calls) {starts : List CellSet} {sol : Solution (X K)}
include hP h

/-- **C102** (exact arithmetic, cycle-free flows) The concentration of an injector in a cell is the sum, over all routes to the cell,
    of the fractions of the fluid in the cell that the well injected and that has followed the route.  The time of flight of
    the injector is the mean time this fluid took, and not more than 200 years. -/
theorem C102_injection (hacy : P.forward.Acyclic) (hret : InjectionReturns g calls starts (.ok sol)) {w : WellFlux K}
    (hw : w ∈ P.wells) (hs : ∃ s ∈ starts, s.id = w.id) :
    ∀ v < P.n, valueAt (sol.concentration w.id) v = P.forward.arrived (fun v => max (Problem.wellAt w v) 0) P.n v ∧
      valueAt (sol.timeOfFlightOf w.id) v = min (P.forward.meanTime (fun v => max (Problem.wellAt w v) 0) P.n v) cap := by
  intro v hv
  have := (diag_injection hP h hret).routes hacy hw hs hv
  rwa [injected_pos_fun] at this

/-- **C102** The same for production: the routes lead from the cell to the producer, against the reversed flow. -/
theorem C102_production (hacy : P.forward.Acyclic) (hret : ProductionReturns g calls starts (.ok sol)) {w : WellFlux K}
    (hw : w ∈ P.wells) (hs : ∃ s ∈ starts, s.id = w.id) :
    ∀ v < P.n, valueAt (sol.concentration w.id) v = P.backward.arrived (fun v => max (-Problem.wellAt w v) 0) P.n v ∧
      valueAt (sol.timeOfFlightOf w.id) v = min (P.backward.meanTime (fun v => max (-Problem.wellAt w v) 0) P.n v) cap := by
  intro v hv
  have := (diag_production hP h hret).routes (backward_acyclic hacy) hw hs hv
  rwa [injected_neg_fun] at this

/-- **C102** The global time of flight is the mean over all routes from any injector, where some fluid comes. -/
theorem C102_injection_global (hacy : P.forward.Acyclic) (hret : InjectionReturns g calls starts (.ok sol)) :
    ∀ v < P.n, fieldAt sol.timeOfFlight v
      = if 0 < P.forward.arrived P.source P.n v then min (P.forward.meanTime P.source P.n v) cap else cap := fun _ hv =>
  (diag_injection hP h hret).routes_global hacy hv

/-- **C102** The same for production. -/
theorem C102_production_global (hacy : P.forward.Acyclic) (hret : ProductionReturns g calls starts (.ok sol)) :
    ∀ v < P.n, fieldAt sol.timeOfFlight v
      = if 0 < P.backward.arrived P.sink P.n v then min (P.backward.meanTime P.sink P.n v) cap else cap := fun _ hv =>
  (diag_production hP h hret).routes_global (backward_acyclic hacy) hv

/-- **C102** (exact arithmetic, cycle-free flows) The second flux of a pair of wells is what the injector injected of the fluid
    that arrives in the cells of the producer on all routes, and the first is what flows from the cells of the injector to
    the producer on all routes. -/
theorem C102_pairs (hacy : P.forward.Acyclic) {pstarts : List CellSet} {T : Solution (X K)}
    (hS : InjectionReturns g calls starts (.ok sol)) (hT : ProductionReturns g calls pstarts (.ok T)) {w y : WellFlux K}
    (hw : w ∈ P.wells) (hy : y ∈ P.wells) (hs : ∃ s ∈ starts, s.id = w.id) (hs' : ∃ s ∈ pstarts, s.id = y.id) :
    pairFluxes sol T w.id y.id P.inflowMap = .ok
      (X.fin (∑ v ∈ range P.n, max (Problem.wellAt w v) 0 * P.backward.arrived (fun v => max (-Problem.wellAt y v) 0) P.n v),
       X.fin (-∑ v ∈ range P.n, max (-Problem.wellAt y v) 0 * P.forward.arrived (fun v => max (Problem.wellAt w v) 0) P.n v)) := by
  rw [C50_value hP hw hy ((diag_injection hP h hS).tracer _) ((diag_production hP h hT).tracer _)]
  have g1 : ∑ v ∈ range P.n, max (Problem.wellAt w v) 0 * valueAt (T.concentration y.id) v
      = ∑ v ∈ range P.n, max (Problem.wellAt w v) 0 * P.backward.arrived (fun v => max (-Problem.wellAt y v) 0) P.n v :=
    sum_congr rfl fun v hv => by rw [(C102_production hP h hacy hT hy hs' v (mem_range.mp hv)).1]
  have g2 : ∑ v ∈ range P.n, max (-Problem.wellAt y v) 0 * valueAt (sol.concentration w.id) v
      = ∑ v ∈ range P.n, max (-Problem.wellAt y v) 0 * P.forward.arrived (fun v => max (Problem.wellAt w v) 0) P.n v :=
    sum_congr rfl fun v hv => by rw [(C102_injection hP h hacy hS hw hs v (mem_range.mp hv)).1]
  rw [g1, g2]

/-- **C102** (exact arithmetic, any cycles, no cell has a self-connection as its only cycle) The sums over the routes with less than
    `N` connections exceed the concentration by not more than the tolerance of the solver, `1e-9` times what the flow carries when
    each cell adds the flux it gets from its own cycle; and when `N` grows they fall below it by as little as desired. -/
theorem C102_injection_cyclic (hself : ∀ v < P.n, ¬ P.forward.Loop v) (hret : InjectionReturns g calls starts (.ok sol))
    {w : WellFlux K} (hw : w ∈ P.wells) (hs : ∃ s ∈ starts, s.id = w.id) {m : Nat → K}
    (hm : P.forward.Carries (posCells w) P.forward.cycleInflow m) :
    ∀ v < P.n,
      (∀ N, P.forward.arrived (fun v => max (Problem.wellAt w v) 0) N v
        ≤ valueAt (sol.concentration w.id) v + 1 / 1000000000 * m v) ∧
      ∀ ε > 0, ∃ N₀, ∀ N ≥ N₀,
        valueAt (sol.concentration w.id) v ≤ P.forward.arrived (fun v => max (Problem.wellAt w v) 0) N v + ε := by
  intro v hv
  have := (diag_injection hP h hret).routes_cyclic hself hw hs hm hv
  rwa [injected_pos_fun] at this

/-- **C102** The same for production. -/
theorem C102_production_cyclic (hself : ∀ v < P.n, ¬ P.forward.Loop v) (hret : ProductionReturns g calls starts (.ok sol))
    {w : WellFlux K} (hw : w ∈ P.wells) (hs : ∃ s ∈ starts, s.id = w.id) {m : Nat → K}
    (hm : P.backward.Carries (negCells w) P.backward.cycleInflow m) :
    ∀ v < P.n,
      (∀ N, P.backward.arrived (fun v => max (-Problem.wellAt w v) 0) N v
        ≤ valueAt (sol.concentration w.id) v + 1 / 1000000000 * m v) ∧
      ∀ ε > 0, ∃ N₀, ∀ N ≥ N₀,
        valueAt (sol.concentration w.id) v ≤ P.backward.arrived (fun v => max (-Problem.wellAt w v) 0) N v + ε := by
  intro v hv
  have := (diag_production hP h hret).routes_cyclic (backward_not_loop hself) hw hs hm hv
  rwa [injected_neg_fun] at this

end exact

/-! ### Doubles -/

section double

theorem Nearly.routes {F : Flow ℚ} {wells : List (WellFlux ℚ)} {cs : WellFlux ℚ → List Nat} {f : WellFlux ℚ → Nat → ℚ}
    {starts : List CellSet} {sol : Solution Double} {M : Nat} (N : Nearly F wells cs f starts sol M)
    (hself : ∀ v < F.n, ¬ F.Loop v) {w : WellFlux ℚ} (hw : w ∈ wells) (hs : ∃ s ∈ starts, s.id = w.id) {m t : Nat → ℚ}
    (hm : F.Carries (cs w) F.cycleInflow m) (ht : F.Carries (cs w) F.total t) {v : Nat} (hv : v < F.n) :
    ∀ ε > 0, ∃ N₀, ∀ N ≥ N₀, |doubleAt (sol.concentration w.id) v - F.arrived (injected (cs w) (f w)) N v|
      ≤ 1 / 1000000000 * m v + ((4 * M + 6 : Nat) : ℚ) / 2 ^ 51 * t v + ε := by
  obtain ⟨x, hx⟩ := (C76_exact N.valid (N.sources hw) (injected (cs w) (f w))).1
  have a := abs_le.mp (N.error hself hw hs hx hm ht v hv)
  obtain ⟨l1, l2⟩ := arrived_limit N.valid (N.sources hw) (side_injects N.side hw) hx hv
  intro ε hε
  obtain ⟨N₀, hN⟩ := l2 ε hε
  refine ⟨N₀, fun n hn => ?_⟩
  have := hN n hn
  have := l1 n
  rw [abs_le]
  constructor <;> linarith

variable {P : Problem ℚ} (hP : P.Valid) {M : Nat} (hO : P.OfOrdinarySize M) {g : ConnectivityGraph} {calls : List (Call Double)}
  (h : P.StoredIn g calls) (hself : ∀ v < P.n, ¬ P.forward.Loop v) {w : WellFlux ℚ} (hw : w ∈ P.wells) {starts : List CellSet}
  {sol : Solution Double} (hs : ∃ s ∈ starts, s.id = w.id)
include hP hO h hself hw hs

/-- **C102** (doubles, any cycles) When `N` grows the sums over the routes with less than `N` connections come as close to the
    concentration as that tolerance and the rounding errors bounded in C80 allow. -/
theorem C102_injection_double (htotal : ∀ v < P.n, P.forward.total v ≤ 2 ^ 100) (hret : InjectionReturns g calls starts (.ok sol))
    {m t : Nat → ℚ} (hm : P.forward.Carries (posCells w) P.forward.cycleInflow m)
    (ht : P.forward.Carries (posCells w) P.forward.total t) :
    ∀ v < P.n, ∀ ε > 0, ∃ N₀, ∀ N ≥ N₀,
      |doubleAt (sol.concentration w.id) v - P.forward.arrived (fun v => max (Problem.wellAt w v) 0) N v|
        ≤ 1 / 1000000000 * m v + ((4 * M + 6 : Nat) : ℚ) / 2 ^ 51 * t v + ε := by
  intro v hv
  have := (nearly_injection hP hO htotal h hret).routes hself hw hs hm ht hv
  rwa [injected_pos_fun] at this

/-- **C102** The same for production. -/
theorem C102_production_double (htotal : ∀ v < P.n, P.backward.total v ≤ 2 ^ 100)
    (hret : ProductionReturns g calls starts (.ok sol)) {m t : Nat → ℚ}
    (hm : P.backward.Carries (negCells w) P.backward.cycleInflow m) (ht : P.backward.Carries (negCells w) P.backward.total t) :
    ∀ v < P.n, ∀ ε > 0, ∃ N₀, ∀ N ≥ N₀,
      |doubleAt (sol.concentration w.id) v - P.backward.arrived (fun v => max (-Problem.wellAt w v) 0) N v|
        ≤ 1 / 1000000000 * m v + ((4 * M + 6 : Nat) : ℚ) / 2 ^ 51 * t v + ε := by
  intro v hv
  have := (nearly_production hP hO htotal h hret).routes (backward_not_loop hself) hw hs hm ht hv
  rwa [injected_neg_fun] at this

end double

/-! ### Examples -/

theorem exFine_totals : (exFine (1 / 3)).forward.total 0 = 2 ∧ (exFine (1 / 3)).forward.total 1 = 1 ∧
    (exFine (1 / 3)).forward.total 2 = 2 ∧ (exFine (1 / 3)).forward.total 3 = 3 := by
  have e : ∀ v, (exFine (1 / 3)).forward.total v = (∑ u ∈ range 4, (exFine (1 / 3)).flux u v) + (exFine (1 / 3)).source v := fun v => rfl
  have hs : ∀ v, (exFine (1 / 3)).source v = max (if v ∈ [0] then 2 else 0) 0 + (max (if v ∈ [1, 3] then if v = 1 then 1 / 3 else 1 - 1 / 3
      else 0) 0 + (max (if v ∈ [3] then -3 else 0) 0 + 0)) := fun v => rfl
  simp only [e, hs, exFine_flux (show (0 : ℚ) ≤ 1 / 3 by norm_num) (show (1 / 3 : ℚ) ≤ 1 by norm_num), sum_range_succ, sum_range_zero]
  norm_num

/-- In `exFine (1/3)` fluid of well 65, which injects in cell 0, comes to cell 3 on two routes: `0 → 2 → 3` takes 13/18 and makes up
    4/9 of the fluid in cell 3, and `0 → 2 → 1 → 3` takes 19/18 and makes up 2/9. -/
theorem exFine_routes :
    (exFine (1 / 3)).forward.arrived (fun v => max (Problem.wellAt ⟨⟨[65]⟩, [0], fun _ => 2⟩ v) 0) 4 3 = 4 / 9 + 2 / 9 ∧
    (exFine (1 / 3)).forward.meanTime (fun v => max (Problem.wellAt ⟨⟨[65]⟩, [0], fun _ => 2⟩ v) 0) 4 3
      = (4 / 9 * (13 / 18) + 2 / 9 * (19 / 18)) / (4 / 9 + 2 / 9) := by
  obtain ⟨t0, t1, t2, t3⟩ := exFine_totals
  have hw : ∀ u v, (exFine (1 / 3)).forward.w u v = _ := fun u v =>
    exFine_flux (show (0 : ℚ) ≤ 1 / 3 by norm_num) (show (1 / 3 : ℚ) ≤ 1 by norm_num) u v
  have hq : ∀ v, max (Problem.wellAt ⟨⟨[65]⟩, [0], fun _ => (2 : ℚ)⟩ v) 0 = if v = 0 then 2 else 0 := fun v => by
    unfold Problem.wellAt
    by_cases h : v = 0 <;> simp [h]
  have hpv : ∀ v, (exFine (1 / 3)).forward.pv v = if v = 0 ∨ v = 2 then 1 / 2 else if v = 1 then 1 / 3 else 2 / 3 := fun v => rfl
  have hs := fun v hv => ((exFine_fast (a := 1 / 3) le_rfl (by norm_num)).2 v hv).1
  have s0 := hs 0 (by decide)
  have s1 := hs 1 (by decide)
  have s2 := hs 2 (by decide)
  have s3 := hs 3 (by decide)
  have hn : (exFine (1 / 3)).forward.n = 4 := rfl
  have ha : (exFine (1 / 3)).forward.arrived (fun v => max (Problem.wellAt ⟨⟨[65]⟩, [0], fun _ => 2⟩ v) 0) 4 3 = 4 / 9 + 2 / 9 := by
    show ∑ k ∈ range 4, onRoutes _ _ k 3 = _
    simp only [sum_range_succ, sum_range_zero, onRoutes_succ, onRoutes_zero, hn, hw, hq, t0, t1, t2, t3]
    norm_num
  refine ⟨ha, ?_⟩
  show (∑ k ∈ range 4, timeOnRoutes _ _ k 3) / _ = _
  rw [ha]
  congr 1
  simp only [sum_range_succ, sum_range_zero, timeOnRoutes_succ s3, timeOnRoutes_succ s2, timeOnRoutes_succ s1, timeOnRoutes_succ s0,
    timeOnRoutes_zero s3, timeOnRoutes_zero s2, timeOnRoutes_zero s1, timeOnRoutes_zero s0, onRoutes_succ, onRoutes_zero, hn, hw, hq,
    hpv, t0, t1, t2, t3]
  norm_num

/-- C102: all hypotheses hold, and the results are those of the two routes. -/
example : ∃ g calls S T, (exFine (1 / 3)).GivenTo g calls ∧
    InjectionReturns g calls [⟨⟨[65]⟩, []⟩, ⟨⟨[66]⟩, []⟩] (.ok S) ∧ ProductionReturns g calls [⟨⟨[80]⟩, []⟩] (.ok T) ∧
    valueAt (S.concentration ⟨[65]⟩) 3 = 2 / 3 ∧ valueAt (S.timeOfFlightOf ⟨[65]⟩) 3 = 5 / 6 ∧
    (∀ v < 4, valueAt (T.concentration ⟨[80]⟩) v
      = (exFine (1 / 3)).backward.arrived (fun v => max (-Problem.wellAt ⟨⟨[80]⟩, [3], fun _ => -3⟩ v) 0) 4 v) ∧
    (∀ v < 4, fieldAt S.timeOfFlight v = if 0 < (exFine (1 / 3)).forward.arrived (exFine (1 / 3)).source 4 v
      then min ((exFine (1 / 3)).forward.meanTime (exFine (1 / 3)).source 4 v) cap else cap) ∧
    (∀ v < 4, fieldAt T.timeOfFlight v = if 0 < (exFine (1 / 3)).backward.arrived (exFine (1 / 3)).sink 4 v
      then min ((exFine (1 / 3)).backward.meanTime (exFine (1 / 3)).sink 4 v) cap else cap) ∧
    ∃ a, pairFluxes S T ⟨[65]⟩ ⟨[80]⟩ (exFine (1 / 3)).inflowMap = .ok (a, X.fin (-2)) := by
  have V := exFine_valid (1 / 3)
  obtain ⟨g, calls, h⟩ := exists_given V (by unfold exFine; simp; decide)
  obtain ⟨S, hS⟩ := (C40_valid_problem V h _).1 (exFine_accepted (by norm_num)).1
  obtain ⟨T, hT⟩ := (C40_valid_problem V h _).2.2.1 (exFine_accepted (by norm_num)).2
  have acy : (exFine (1 / 3)).forward.Acyclic := exFine_acyclic (by norm_num) (by norm_num)
  have w65 : (⟨⟨[65]⟩, [0], fun _ => 2⟩ : WellFlux ℚ) ∈ (exFine (1 / 3)).wells := .head _
  have w80 : (⟨⟨[80]⟩, [3], fun _ => -3⟩ : WellFlux ℚ) ∈ (exFine (1 / 3)).wells := .tail _ (.tail _ (.head _))
  have key := C102_injection V h acy hS w65 ⟨_, .head _, rfl⟩ 3 (by show 3 < 4; decide)
  rw [show (exFine (1 / 3)).n = 4 from rfl, exFine_routes.1, exFine_routes.2] at key
  refine ⟨g, calls, S, T, h, hS, hT, key.1.trans (by norm_num), key.2.trans ?_,
    fun v hv => (C102_production V h acy hT w80 ⟨_, .head _, rfl⟩ v hv).1, C102_injection_global V h acy hS,
    C102_production_global V h acy hT, ?_⟩
  · rw [min_eq_left (by unfold cap; norm_num)]
    norm_num
  · have e : ∑ v ∈ range (exFine (1 / 3)).n, max (-Problem.wellAt ⟨⟨[80]⟩, [3], fun _ => -3⟩ v) 0
        * (exFine (1 / 3)).forward.arrived (fun v => max (Problem.wellAt ⟨⟨[65]⟩, [0], fun _ => 2⟩ v) 0) (exFine (1 / 3)).n v = 2 := by
      rw [show (exFine (1 / 3)).n = 4 from rfl, sum_range_succ, exFine_routes.1]
      simp only [sum_range_succ, sum_range_zero, Problem.wellAt]
      norm_num
    have k2 := C102_pairs V h acy hS hT w65 w80 ⟨_, .head _, rfl⟩ ⟨_, .head _, rfl⟩
    rw [e] at k2
    exact ⟨_, k2⟩

/-- C102 with a cycle, with `double`s. -/
example : ∃ S T, InjectionReturns whirlGraph whirlCalls [CellSet.ofCells ⟨[65]⟩ [0]] (.ok S) ∧
    ProductionReturns whirlGraph whirlCalls [CellSet.ofCells ⟨[80]⟩ [3]] (.ok T) ∧
    (∀ m t, exWhirl.forward.Carries (posCells ⟨⟨[65]⟩, [0], fun _ => (2 : ℚ)⟩) exWhirl.forward.cycleInflow m →
      exWhirl.forward.Carries (posCells ⟨⟨[65]⟩, [0], fun _ => (2 : ℚ)⟩) exWhirl.forward.total t →
      ∀ ε > 0, ∃ N₀, ∀ N ≥ N₀, |doubleAt (S.concentration ⟨[65]⟩) 2
          - exWhirl.forward.arrived (fun v => max (Problem.wellAt ⟨⟨[65]⟩, [0], fun _ => 2⟩ v) 0) N 2|
        ≤ 1 / 1000000000 * m 2 + ((4 * 5 + 6 : Nat) : ℚ) / 2 ^ 51 * t 2 + ε) ∧
    ∀ m t, exWhirl.backward.Carries (negCells ⟨⟨[80]⟩, [3], fun _ => (-2 : ℚ)⟩) exWhirl.backward.cycleInflow m →
      exWhirl.backward.Carries (negCells ⟨⟨[80]⟩, [3], fun _ => (-2 : ℚ)⟩) exWhirl.backward.total t →
      ∀ ε > 0, ∃ N₀, ∀ N ≥ N₀, |doubleAt (T.concentration ⟨[80]⟩) 2
          - exWhirl.backward.arrived (fun v => max (-Problem.wellAt ⟨⟨[80]⟩, [3], fun _ => -2⟩ v) 0) N 2|
        ≤ 1 / 1000000000 * m 2 + ((4 * 5 + 6 : Nat) : ℚ) / 2 ^ 51 * t 2 + ε := by
  obtain ⟨S, hS, _⟩ := whirl_injection
  obtain ⟨⟨T, hT⟩, _⟩ := whirl_production
  exact ⟨S, T, hS, hT,
    fun m t hm ht => C102_injection_double exWhirl_valid whirl_ordinary_five whirl_stored whirl_noLoop
      (w := ⟨⟨[65]⟩, [0], fun _ => 2⟩) (.head _) ⟨_, .head _, rfl⟩ whirl_total.1 hS hm ht 2 (by decide),
    fun m t hm ht => C102_production_double exWhirl_valid whirl_ordinary_five whirl_stored whirl_noLoop
      (w := ⟨⟨[80]⟩, [3], fun _ => -2⟩) (.tail _ (.head _)) ⟨_, .head _, rfl⟩ whirl_total.2 hT hm ht 2 (by decide)⟩

/-- C102 with a cycle, in exact arithmetic: the results can be computed, and the tolerance is that of some `m`. -/
example : ∃ g, ∃ calls : List (Call (X ℚ)), exWhirl.GivenTo g calls ∧ (∀ v < exWhirl.n, ¬ exWhirl.forward.Loop v) ∧
    ∃ m, exWhirl.forward.Carries (posCells ⟨⟨[65]⟩, [0], fun _ => (2 : ℚ)⟩) exWhirl.forward.cycleInflow m := by
  obtain ⟨g, calls, h⟩ := exists_given exWhirl_valid (by decide)
  exact ⟨g, calls, h, whirl_noLoop, (C76_exact (forward_valid exWhirl_valid)
    (side_sources (pos_side exWhirl_valid) (.head _)) exWhirl.forward.cycleInflow).1⟩

end Verif.Props
