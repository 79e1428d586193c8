/-
C70 in flow with cycles: the global time-of-flight against the mean of the times-of-flight of the wells, in exact arithmetic
and with `double`s.
-/
import Verif.Props.GlobalTimes
import Verif.Props.Grouping
import Verif.Props.CyclicGlobal

namespace Verif.Props
open Verif.Spec Verif.Toolbox Verif.Solver Verif.Derived Finset

section flow
variable {K : Type} [Field K] [LinearOrder K] [IsStrictOrderedRing K] {F : Flow K} {l : List (WellFlux K)}
  {cs : WellFlux K → List Nat} {f : WellFlux K → Nat → K}

omit [IsStrictOrderedRing K] in
theorem upstream_lt {u v : Nat} (hv : v < F.n) (h : F.Reach u v) : u < F.n := by
  rcases Relation.ReflTransGen.cases_head h with e | ⟨x, e, _⟩
  · rw [e]; exact hv
  · exact e.1

/-- Two fields with the same balance are equal where all is reached from sources. -/
theorem upstream_unique (hF : F.Valid) {v : Nat} (hup : ∀ u, F.Reach u v → ∃ p, p < F.n ∧ 0 < F.src p ∧ F.Reach p u)
    {x y q : Nat → K}
    (hx : ∀ u < F.n, F.Reach u v → F.total u * x u = (∑ s ∈ range F.n, x s * F.w s u) + q u)
    (hy : ∀ u < F.n, F.Reach u v → F.total u * y u = (∑ s ∈ range F.n, y s * F.w s u) + q u) :
    ∀ u < F.n, F.Reach u v → x u = y u := by
  have key : ∀ x y : Nat → K,
      (∀ u < F.n, F.Reach u v → F.total u * x u = (∑ s ∈ range F.n, x s * F.w s u) + q u) →
      (∀ u < F.n, F.Reach u v → F.total u * y u = (∑ s ∈ range F.n, y s * F.w s u) + q u) →
      ∀ u < F.n, F.Reach u v → x u ≤ y u := by
    intro x y hx hy u hu hr
    have := max_upstream hF (S := fun u => F.Reach u v) (e := fun u => x u - y u) (fun a b hb e => Relation.ReflTransGen.head e hb)
      (fun u hu hr => by
        have e : ∑ s ∈ range F.n, (x s - y s) * F.w s u = (∑ s ∈ range F.n, x s * F.w s u) - ∑ s ∈ range F.n, y s * F.w s u := by
          rw [← sum_sub_distrib]; exact sum_congr rfl fun s _ => by ring
        rw [e, mul_sub, hx u hu hr, hy u hu hr]
        exact le_of_eq (by ring)) (fun u _ hr => hup u hr) u hu hr
    exact sub_nonpos.mp this
  exact fun u hu hr => le_antisymm (key x y hx hy u hu hr) (key y x hy hx u hu hr)

/-- The exact times of the wells, times their exact concentrations, add up to the exact global times. -/
theorem exact_mean (hF : F.Valid) {all : List Nat} (hall : ∀ p, p ∈ all ↔ p < F.n ∧ 0 < F.src p)
    (hcs : ∀ w ∈ l, ∀ p ∈ cs w, p < F.n ∧ 0 < F.src p)
    (hsrc : ∀ v < F.n, F.src v = (l.map fun w => injected (cs w) (f w) v).sum)
    {x q : WellFlux K → Nat → K} (hx : ∀ w ∈ l, F.Carries (cs w) (injected (cs w) (f w)) (x w))
    (hq : ∀ w ∈ l, F.Carries (cs w) (fun v => F.pv v * x w v) (q w)) {Q : Nat → K} (hQ : F.Carries all F.pv Q)
    {v : Nat} (hv : v < F.n) (hup : ∀ u, F.Reach u v → F.Downstream all u) :
    (l.map fun w => q w v).sum = Q v := by
  have hs : ∀ v, F.Downstream all v ↔ ∃ w ∈ l, F.Downstream (cs w) v := by
    intro v
    constructor
    · rintro ⟨p, h1, h2⟩
      obtain ⟨h3, h4⟩ := (hall p).mp h1
      rw [hsrc p h3] at h4
      by_contra hn
      have : (l.map fun w => injected (cs w) (f w) p).sum = 0 := by
        refine List.sum_eq_zero fun y hy => ?_
        obtain ⟨w, hw, rfl⟩ := List.mem_map.mp hy
        show (if _ then _ else _) = _
        rw [if_neg]
        exact fun hc => hn ⟨w, hw, p, hc, h2⟩
      rw [this] at h4; exact lt_irrefl _ h4
    · rintro ⟨w, hw, p, h1, h2⟩
      exact ⟨p, (hall p).mpr (hcs w hw p h1), h2⟩
  have hup' : ∀ u, F.Reach u v → ∃ p, p < F.n ∧ 0 < F.src p ∧ F.Reach p u := fun u hr => by
    obtain ⟨p, h1, h2⟩ := hup u hr
    exact ⟨p, ((hall p).mp h1).1, ((hall p).mp h1).2, h2⟩
  have X := carries_sum hF hs (fun w hw v _ hd => by
    show (if _ then _ else _) = _
    rw [if_neg]; exact fun hc => hd ⟨v, hc, .refl⟩) hx
  have Y := carries_sum hF hs (fun w hw v hv hd => by
    show F.pv v * x w v = 0
    rw [(hx w hw).1 v hv hd, mul_zero]) hq
  have one := upstream_unique hF hup' (x := fun v => (l.map fun w => x w v).sum) (y := fun _ => 1) (q := F.src)
    (fun u hu hr => by rw [X.2 u hu (hup u hr), hsrc u hu])
    (fun u _ _ => by unfold Flow.total Flow.inflow; simp)
  refine upstream_unique hF hup' (x := fun v => (l.map fun w => q w v).sum) (y := Q) (q := F.pv) (fun u hu hr => ?_)
    (fun u hu hr => hQ.2 u hu (hup u hr)) v hv .refl
  rw [Y.2 u hu (hup u hr)]
  beta_reduce
  rw [List.sum_map_mul_left, one u hu hr, mul_one]

/-- If the times of the wells, times the concentrations, and the global time are near the exact ones, the global time is near
    the mean of those of the wells. -/
theorem wells_mean_error (hF : F.Valid) {all : List Nat} (hall : ∀ p, p ∈ all ↔ p < F.n ∧ 0 < F.src p)
    (hcs : ∀ w ∈ l, ∀ p ∈ cs w, p < F.n ∧ 0 < F.src p)
    (hsrc : ∀ v < F.n, F.src v = (l.map fun w => injected (cs w) (f w) v).sum)
    {v : Nat} (hv : v < F.n) (hup : ∀ u, F.Reach u v → F.Downstream all u) {c : WellFlux K → K} {T E : K}
    (hw : ∀ w ∈ l, ∀ x q, F.Carries (cs w) (injected (cs w) (f w)) x → F.Carries (cs w) (fun v => F.pv v * x v) q →
      |c w - q v| ≤ E)
    (hT : ∀ Q, F.Carries all F.pv Q → |T - Q v| ≤ E) : |(l.map c).sum - T| ≤ (l.length + 1) * E := by
  have hx : ∀ w, ∃ x, w ∈ l → F.Carries (cs w) (injected (cs w) (f w)) x := fun w => by
    by_cases h : w ∈ l
    · obtain ⟨x, hx⟩ := (C76_exact hF (hcs w h) (injected (cs w) (f w))).1
      exact ⟨x, fun _ => hx⟩
    · exact ⟨fun _ => 0, fun h' => absurd h' h⟩
  choose x hx using hx
  have hq : ∀ w, ∃ q, w ∈ l → F.Carries (cs w) (fun v => F.pv v * x w v) q := fun w => by
    by_cases h : w ∈ l
    · obtain ⟨q, hq⟩ := (C76_exact hF (hcs w h) fun v => F.pv v * x w v).1
      exact ⟨q, fun _ => hq⟩
    · exact ⟨fun _ => 0, fun h' => absurd h' h⟩
  choose q hq using hq
  obtain ⟨Q, hQ⟩ := (C76_exact hF (fun p => (hall p).mp) F.pv).1
  have h1 := exact_mean hF hall hcs hsrc hx hq hQ hv hup
  have h2 : ∀ l' : List (WellFlux K), (∀ w ∈ l', w ∈ l) → |(l'.map c).sum - (l'.map fun w => q w v).sum| ≤ l'.length * E := by
    intro l' hl'
    induction l' with
    | nil => simp
    | cons w l' ih =>
      have a1 := ih fun w hw => hl' w (.tail _ hw)
      have a2 := hw w (hl' w (.head _)) (x w) (q w) (hx w (hl' w (.head _))) (hq w (hl' w (.head _)))
      rw [List.map_cons, List.sum_cons, List.map_cons, List.sum_cons, List.length_cons, Nat.cast_succ]
      have a3 := abs_add_le (c w - q w v) ((l'.map c).sum - (l'.map fun w => q w v).sum)
      rw [show c w + (l'.map c).sum - (q w v + (l'.map fun w => q w v).sum)
        = c w - q w v + ((l'.map c).sum - (l'.map fun w => q w v).sum) by ring]
      linarith
  have h3 := h2 l fun _ h => h
  rw [h1] at h3
  have h4 := hT Q hQ
  have h5 := abs_sub_le (l.map c).sum (Q v) T
  rw [abs_sub_comm] at h4
  linarith

end flow

section diag
variable {K : Type} [Field K] [LinearOrder K] [IsStrictOrderedRing K] [Archimedean K] {F : Flow K} {wells : List (WellFlux K)}
  {cs : WellFlux K → List Nat} {f : WellFlux K → Nat → K} {starts : List CellSet} {sol : Solution (X K)}

/-- The time of one well, times its concentration, against the exact one, bounded with fields carried from these and other sources. -/
theorem Diag.well_time (D : Diag F wells cs f starts sol) (hF : F.Valid) (hself : ∀ v < F.n, ¬ F.Loop v) {w : WellFlux K}
    (hw : w ∈ wells) (hs : ∃ s ∈ starts, s.id = w.id) {a : K} (ha0 : 0 ≤ a) (ha : a < cap)
    (hta : ∀ v < F.n, valueAt (sol.timeOfFlightOf w.id) v ≤ a) {all : List Nat} (hsrcs : ∀ p ∈ all, p < F.n ∧ 0 < F.src p)
    (hsub : ∀ p ∈ cs w, p ∈ all) {m p : Nat → K} (hm : F.Carries all F.cycleInflow m)
    (hpm : F.Carries all (fun v => F.pv v * m v) p) {x q : Nat → K} (hx : F.Carries (cs w) (injected (cs w) (f w)) x)
    (hq : F.Carries (cs w) (fun v => F.pv v * x v) q) {v : Nat} (hv : v < F.n) :
    |valueAt (sol.concentration w.id) v * valueAt (sol.timeOfFlightOf w.id) v - q v|
      ≤ 1 / 1000000000 * p v + (2 * a / 1000000000 + cap / 1000000000000) * m v := by
  have hcs : ∀ p ∈ cs w, p < F.n ∧ 0 < F.src p := side_sources D.side hw
  have hcy : ∀ v < F.n, 0 ≤ F.cycleInflow v := fun v hv => by
    classical
    unfold Flow.cycleInflow
    refine sum_nonneg fun u hu => ?_
    split
    · exact hF.w_nonneg u v (mem_range.mp hu) hv
    · exact le_rfl
  have hm0 := (C76_exact hF hsrcs F.cycleInflow).2.2 hcy m hm
  have hp0 := (C76_exact hF hsrcs fun v => F.pv v * m v).2.2 (fun v hv => mul_nonneg (hF.pv_nonneg v hv) (hm0 v hv)) p hpm v hv
  have hm0 := hm0 v hv
  have hcap : (0 : K) ≤ cap := by unfold cap; norm_num
  obtain ⟨mw, hmw⟩ := (C76_exact hF hcs F.cycleInflow).1
  obtain ⟨pw, hpw⟩ := (C76_exact hF hcs fun v => F.pv v * mw v).1
  have b1 := carries_subset hF hsub hsrcs hcy hmw hm
  have mw0 := (C76_exact hF hcs F.cycleInflow).2.2 hcy mw hmw
  obtain ⟨pa, hpa⟩ := (C76_exact hF hsrcs fun v => F.pv v * mw v).1
  have b2 := carries_subset hF hsub hsrcs (fun v hv => mul_nonneg (hF.pv_nonneg v hv) (mw0 v hv)) hpw hpa
  have b3 := carries_le hF hsrcs hpa hpm fun v hv => mul_le_mul_of_nonneg_left (b1 v hv) (hF.pv_nonneg v hv)
  obtain ⟨e1, e2⟩ := D.error hself hw hs hx hmw v hv
  by_cases hd : F.Downstream (cs w) v
  · obtain ⟨e3, e4⟩ := D.time_error hself hw hs hx hmw hq hpw ha
      (fun v hd => hta v (by obtain ⟨p, h1, h2⟩ := hd; exact reach_lt (hcs p h1).1 h2)) v hd
    have t0 := D.time_nonneg w.id v
    have t1 := hta v hv
    have b1 := b1 v hv
    have b2 := (b2 v hv).trans (b3 v hv)
    have mw0 := mw0 v hv
    generalize valueAt (sol.concentration w.id) v = c at *
    generalize valueAt (sol.timeOfFlightOf w.id) v = t at *
    have e5 : 0 ≤ t * (x v - c) := mul_nonneg t0 (sub_nonneg.mpr e1)
    have e6 : t * (x v - c) ≤ a * (1 / 1000000000 * mw v) := mul_le_mul t1 e2 (sub_nonneg.mpr e1) ha0
    have e7 : (2 * a / 1000000000 + cap / 1000000000000) * mw v ≤ (2 * a / 1000000000 + cap / 1000000000000) * m v :=
      mul_le_mul_of_nonneg_left b1 (by positivity)
    have e8 : 0 ≤ cap / 1000000000000 * mw v := by positivity
    have e9 : 0 ≤ a / 1000000000 * mw v := by positivity
    have e11 : 0 ≤ (2 * a / 1000000000 + cap / 1000000000000) * m v := by positivity
    rw [abs_le]
    constructor
    · nlinarith
    · nlinarith
  · have c0 := D.conc_nonneg w.id v hv
    rw [hx.1 v hv hd] at e1
    rw [le_antisymm e1 c0, hq.1 v hv hd, zero_mul, sub_zero, abs_zero]
    positivity

theorem Diag.mean_cyclic (D : Diag F wells cs f starts sol) (hF : F.Valid) (hself : ∀ v < F.n, ¬ F.Loop v)
    (hask : ∀ w ∈ wells, cs w ≠ [] → w.id ∈ sol.startPoints) {all : List Nat} (hall : ∀ p, p ∈ all ↔ p < F.n ∧ 0 < F.src p)
    {m p : Nat → K} (hm : F.Carries all F.cycleInflow m) (hpm : F.Carries all (fun v => F.pv v * m v) p) {a : K} (ha : a < cap)
    (hta : ∀ i ∈ sol.startPoints, ∀ v < F.n, valueAt (sol.timeOfFlightOf i) v ≤ a) {v : Nat} (hv : v < F.n)
    (hT : ∀ u, F.Reach u v → fieldAt sol.timeOfFlight u ≤ a) :
    |(sol.startPoints.map fun i => valueAt (sol.concentration i) v * valueAt (sol.timeOfFlightOf i) v).sum
        - fieldAt sol.timeOfFlight v|
      ≤ (sol.startPoints.length + 1) * (1 / 1000000000 * p v + (2 * a / 1000000000 + cap / 1000000000000) * m v) := by
  have hsrcs : ∀ p ∈ all, p < F.n ∧ 0 < F.src p := fun p => (hall p).mp
  have hmem : ∀ w ∈ asked wells sol, w ∈ wells ∧ w.id ∈ sol.startPoints := fun w => mem_asked.mp
  have hcs : ∀ w ∈ asked wells sol, ∀ p ∈ cs w, p < F.n ∧ 0 < F.src p := fun w hw => side_sources D.side (hmem w hw).1
  have hup : ∀ u, F.Reach u v → F.Downstream all u := fun u hr =>
    (D.global_fast hall (upstream_lt hv hr) (lt_of_le_of_lt (hT u hr) ha)).1
  have ha0 : 0 ≤ a := (D.global_fast hall hv (lt_of_le_of_lt (hT v .refl) ha)).2.2.trans (hT v .refl)
  have hcy : ∀ v < F.n, 0 ≤ F.cycleInflow v := fun v hv => by
    classical
    unfold Flow.cycleInflow
    refine sum_nonneg fun u hu => ?_
    split
    · exact hF.w_nonneg u v (mem_range.mp hu) hv
    · exact le_rfl
  have hm0 := (C76_exact hF hsrcs F.cycleInflow).2.2 hcy m hm
  have hp0 := (C76_exact hF hsrcs fun v => F.pv v * m v).2.2 (fun v hv => mul_nonneg (hF.pv_nonneg v hv) (hm0 v hv)) p hpm
  have hcap : (0 : K) ≤ cap := by unfold cap; norm_num
  rw [D.startPoints_eq, List.map_map, List.length_map]
  refine wells_mean_error hF hall hcs (fun v _ => ((D.injected_sum v).2.2 hask).symm) hv hup (fun w hw x q hx hq => ?_) fun Q hQ => ?_
  · exact D.well_time hF hself (hmem w hw).1 ((D.points _).mp (hmem w hw).2) ha0 ha (hta _ (hmem w hw).2) hsrcs
      (fun p hp => (hall p).mpr (hcs w hw p hp)) hm hpm hx hq hv
  · obtain ⟨e1, e2⟩ := D.global_time_error hself hall hm hQ hpm ha hv hT
    have e3 : a / 1000000000 * m v + a / 1000000000 * m v + cap / 1000000000000 * m v
      = (2 * a / 1000000000 + cap / 1000000000000) * m v := by ring
    have e4 : 0 ≤ a / 1000000000 * m v := mul_nonneg (by positivity) (hm0 v hv)
    have e5 : 0 ≤ cap / 1000000000000 * m v := mul_nonneg (by positivity) (hm0 v hv)
    have e6 := hp0 v hv
    rw [abs_le]
    constructor <;> linarith

end diag

section double
variable {F : Flow ℚ} {wells : List (WellFlux ℚ)} {cs : WellFlux ℚ → List Nat} {f : WellFlux ℚ → Nat → ℚ}
  {starts : List CellSet} {sol : Solution Double} {M : Nat}

/-- The time of one well, times its concentration, against the exact one, bounded with fields carried from these and other sources. -/
theorem Nearly.well_time (N : Nearly F wells cs f starts sol M) (T : Timely F wells cs starts sol M)
    (hself : ∀ v < F.n, ¬ F.Loop v) {w : WellFlux ℚ} (hw : w ∈ wells) (hask : ∃ s ∈ starts, s.id = w.id) {a : ℚ} (ha0 : 0 ≤ a)
    (ha : a < 200 * 365 * 24 * 60 * 60) (hta : ∀ v, F.Downstream (cs w) v → doubleAt (sol.timeOfFlightOf w.id) v ≤ a)
    (htiny : ∀ v, F.Downstream (cs w) v → 1 / 2 ^ 300 ≤ doubleAt (sol.concentration w.id) v)
    {all : List Nat} (hsrcs : ∀ p ∈ all, p < F.n ∧ 0 < F.src p) (hsub : ∀ p ∈ cs w, p ∈ all) {m h p k : Nat → ℚ}
    (hm : F.Carries all F.cycleInflow m) (hh : F.Carries all F.total h)
    (hpm : F.Carries all (fun v => F.pv v * m v) p) (hk : F.Carries all (fun v => F.pv v * h v) k)
    {x q : Nat → ℚ} (hx : F.Carries (cs w) (injected (cs w) (f w)) x) (hq : F.Carries (cs w) (fun v => F.pv v * x v) q)
    {v : Nat} (hv : v < F.n) :
    |doubleAt (sol.concentration w.id) v * doubleAt (sol.timeOfFlightOf w.id) v - q v|
      ≤ 1 / 1000000000 * p v + (3 * a / 1000000000 + 200 * 365 * 24 * 60 * 60 / 1000000000000) * m v
        + ((4 * M + 8 : Nat) : ℚ) / 2 ^ 51 * (k v + (3 * a + 1) * h v) := by
  have hF := N.valid
  have hcs := N.sources hw
  have hcy : ∀ v < F.n, 0 ≤ F.cycleInflow v := fun v hv => (cycleInflow_bounds hF hv).1
  have hto : ∀ v < F.n, 0 ≤ F.total v := fun v hv => (hcy v hv).trans (cycleInflow_bounds hF hv).2
  have hm0 := (C76_exact hF hsrcs F.cycleInflow).2.2 hcy m hm
  have hh0 := (C76_exact hF hsrcs F.total).2.2 hto h hh
  have hp0 := (C76_exact hF hsrcs fun v => F.pv v * m v).2.2 (fun v hv => mul_nonneg (hF.pv_nonneg v hv) (hm0 v hv)) p hpm v hv
  have hk0 := (C76_exact hF hsrcs fun v => F.pv v * h v).2.2 (fun v hv => mul_nonneg (hF.pv_nonneg v hv) (hh0 v hv)) k hk v hv
  have field : ∀ {g y : Nat → ℚ}, (∀ v < F.n, 0 ≤ g v) → F.Carries all g y → ∀ {z : Nat → ℚ}, F.Carries all (fun v => F.pv v * y v) z →
      ∃ y' z', F.Carries (cs w) g y' ∧ F.Carries (cs w) (fun v => F.pv v * y' v) z' ∧ (∀ v < F.n, 0 ≤ y' v ∧ y' v ≤ y v) ∧
        ∀ v < F.n, z' v ≤ z v := by
    intro g y hg hy z hz
    obtain ⟨y', hy'⟩ := (C76_exact hF hcs g).1
    obtain ⟨z', hz'⟩ := (C76_exact hF hcs fun v => F.pv v * y' v).1
    have b1 := carries_subset hF hsub hsrcs hg hy' hy
    have y0 := (C76_exact hF hcs g).2.2 hg y' hy'
    obtain ⟨za, hza⟩ := (C76_exact hF hsrcs fun v => F.pv v * y' v).1
    have b2 := carries_subset hF hsub hsrcs (fun v hv => mul_nonneg (hF.pv_nonneg v hv) (y0 v hv)) hz' hza
    have b3 := carries_le hF hsrcs hza hz fun v hv => mul_le_mul_of_nonneg_left (b1 v hv) (hF.pv_nonneg v hv)
    exact ⟨y', z', hy', hz', fun v hv => ⟨y0 v hv, b1 v hv⟩, fun v hv => (b2 v hv).trans (b3 v hv)⟩
  obtain ⟨mw, pw, hmw, hpw, b1, b2⟩ := field hcy hm hpm
  obtain ⟨hw', kw, hhw, hkw, b3, b4⟩ := field hto hh hk
  have hε : (0 : ℚ) ≤ ((4 * M + 8 : Nat) : ℚ) / 2 ^ 51 := by positivity
  have hm0 := hm0 v hv
  have hh0 := hh0 v hv
  by_cases hd : F.Downstream (cs w) v
  · have e1 := N.error hself hw hask hx hmw hhw v hv
    have e2 := N.time_error T hself hw hask ha hta htiny hx hmw hhw hq hpw hkw v hd
    have t0 := (T w hw hask a ha hta htiny v hd).1
    have t1 := hta v hd
    have hle : ((4 * M + 6 : Nat) : ℚ) / 2 ^ 51 ≤ ((4 * M + 8 : Nat) : ℚ) / 2 ^ 51 :=
      div_le_div_of_nonneg_right (by exact_mod_cast by omega) (by positivity)
    have b1 := b1 v hv
    have b2 := b2 v hv
    have b3 := b3 v hv
    have b4 := b4 v hv
    generalize ((4 * M + 8 : Nat) : ℚ) / 2 ^ 51 = ε at *
    generalize ((4 * M + 6 : Nat) : ℚ) / 2 ^ 51 = ε' at *
    generalize doubleAt (sol.concentration w.id) v = c at *
    generalize doubleAt (sol.timeOfFlightOf w.id) v = t at *
    have e3 : |c - x v| ≤ 1 / 1000000000 * mw v + ε * hw' v :=
      e1.trans (add_le_add_right (mul_le_mul_of_nonneg_right hle b3.1) _)
    have e4 : |t * (c - x v)| ≤ a * (1 / 1000000000 * mw v + ε * hw' v) := by
      rw [abs_mul, abs_of_nonneg t0]
      exact mul_le_mul t1 e3 (abs_nonneg _) ha0
    have e5 := abs_add_le (t * (c - x v)) (t * x v - q v)
    rw [show t * (c - x v) + (t * x v - q v) = c * t - q v by ring] at e5
    have e6 : (3 * a / 1000000000 + 200 * 365 * 24 * 60 * 60 / 1000000000000) * mw v
        ≤ (3 * a / 1000000000 + 200 * 365 * 24 * 60 * 60 / 1000000000000) * m v := mul_le_mul_of_nonneg_left b1.2 (by positivity)
    have e7 : ε * (kw v + (3 * a + 1) * hw' v) ≤ ε * (k v + (3 * a + 1) * h v) :=
      mul_le_mul_of_nonneg_left (add_le_add b4 (mul_le_mul_of_nonneg_left b3.2 (by positivity))) hε
    linarith
  · rw [N.zero hw hask hd, hq.1 v hv hd, zero_mul, sub_zero, abs_zero]
    positivity

theorem Nearly.mean (N : Nearly F wells cs f starts sol M) (T : Timely F wells cs starts sol M) (hself : ∀ v < F.n, ¬ F.Loop v)
    {l : List (WellFlux ℚ)} (hl : ∀ w ∈ l, w ∈ wells ∧ ∃ s ∈ starts, s.id = w.id)
    (hsrc : ∀ v < F.n, F.src v = (l.map fun w => injected (cs w) (f w) v).sum) {a : ℚ} (ha0 : 0 ≤ a)
    (ha : a < 200 * 365 * 24 * 60 * 60)
    (hta : ∀ w ∈ l, ∀ v, F.Downstream (cs w) v → doubleAt (sol.timeOfFlightOf w.id) v ≤ a)
    (htiny : ∀ w ∈ l, ∀ v, F.Downstream (cs w) v → 1 / 2 ^ 300 ≤ doubleAt (sol.concentration w.id) v)
    {all : List Nat} (hall : ∀ p, p ∈ all ↔ p < F.n ∧ 0 < F.src p) {m h p k : Nat → ℚ}
    (hm : F.Carries all F.cycleInflow m) (hh : F.Carries all F.total h)
    (hpm : F.Carries all (fun v => F.pv v * m v) p) (hk : F.Carries all (fun v => F.pv v * h v) k)
    {v : Nat} (hv : v < F.n) (hup : ∀ u, F.Reach u v → F.Downstream all u) {t : ℚ}
    (ht : ∀ Q, F.Carries all F.pv Q → |t - Q v| ≤ 1 / 1000000000 * p v
      + (2 * a / 1000000000 + 200 * 365 * 24 * 60 * 60 / 1000000000000) * m v
      + ((4 * M + 8 : Nat) : ℚ) / 2 ^ 51 * (k v + (2 * a + 1) * h v)) :
    |(l.map fun w => doubleAt (sol.concentration w.id) v * doubleAt (sol.timeOfFlightOf w.id) v).sum - t|
      ≤ (l.length + 1) * (1 / 1000000000 * p v
        + (3 * a / 1000000000 + 200 * 365 * 24 * 60 * 60 / 1000000000000) * m v
        + ((4 * M + 8 : Nat) : ℚ) / 2 ^ 51 * (k v + (3 * a + 1) * h v)) := by
  have hF := N.valid
  have hsrcs : ∀ p ∈ all, p < F.n ∧ 0 < F.src p := fun p => (hall p).mp
  have hcy : ∀ v < F.n, 0 ≤ F.cycleInflow v := fun v hv => (cycleInflow_bounds hF hv).1
  have hto : ∀ v < F.n, 0 ≤ F.total v := fun v hv => (hcy v hv).trans (cycleInflow_bounds hF hv).2
  have hm0 := (C76_exact hF hsrcs F.cycleInflow).2.2 hcy m hm v hv
  have hh0 := (C76_exact hF hsrcs F.total).2.2 hto h hh v hv
  refine wells_mean_error hF hall (fun w hw => N.sources (hl w hw).1) hsrc hv hup (fun w hw x q hx hq =>
    N.well_time T hself (hl w hw).1 (hl w hw).2 ha0 ha (hta w hw) (htiny w hw) hsrcs
      (fun p hp => (hall p).mpr (N.sources (hl w hw).1 p hp)) hm hh hpm hk hx hq hv) fun Q hQ => ?_
  refine (ht Q hQ).trans ?_
  have hε : (0 : ℚ) ≤ ((4 * M + 8 : Nat) : ℚ) / 2 ^ 51 := by positivity
  generalize ((4 * M + 8 : Nat) : ℚ) / 2 ^ 51 = ε at *
  have e1 : 0 ≤ a / 1000000000 * m v := by positivity
  have e2 : 0 ≤ ε * (a * h v) := by positivity
  linarith

end double

section toolbox
variable {K : Type} [Field K] [LinearOrder K] [IsStrictOrderedRing K] [Archimedean K] {P : Problem K} (hP : P.Valid)
  {g : ConnectivityGraph} {calls : List (Call (X K))} (h : P.GivenTo g calls) (hself : ∀ v < P.n, ¬ P.forward.Loop v)
  {starts : List CellSet} {sol : Solution (X K)}
include hP h hself

/-- **C70** (exact arithmetic, flow with cycles, no cell has a self-connection as its only cycle) If all injectors are asked for,
    none of their times is above `a` < 200 years and no global time upstream of a cell is, then its global time-of-flight is
    near the mean of the times-of-flight of the injectors, weighted with their concentrations.  The bound uses what the flow
    carries from all sources when each cell adds its inflow from its cycle, `m`, and its pore volume times `m`, `p`; both are
    zero if there is no cycle. -/
theorem C70_injection_cyclic (hr : InjectionReturns g calls starts (.ok sol))
    (hask : ∀ w ∈ P.wells, (∃ v ∈ w.cells, 0 < w.val v) → ∃ s ∈ starts, s.id = w.id) :
    ∃ m p, P.forward.Carries ((List.range P.n).filter fun p => decide (0 < P.source p)) P.forward.cycleInflow m ∧
      P.forward.Carries ((List.range P.n).filter fun p => decide (0 < P.source p)) (fun v => P.pv v * m v) p ∧
      ∀ a < 200 * 365 * 24 * 60 * 60, (∀ i ∈ sol.startPoints, ∀ v < P.n, valueAt (sol.timeOfFlightOf i) v ≤ a) →
        ∀ v < P.n, (∀ u, P.forward.Reach u v → fieldAt sol.timeOfFlight u ≤ a) →
          |(sol.startPoints.map fun i => valueAt (sol.concentration i) v * valueAt (sol.timeOfFlightOf i) v).sum
              - fieldAt sol.timeOfFlight v|
            ≤ (sol.startPoints.length + 1)
              * (1 / 1000000000 * p v + (2 * a / 1000000000 + 200 * 365 * 24 * 60 * 60 / 1000000000000) * m v) := by
  have D := diag_injection hP h hr
  have hF := forward_valid hP
  have hall : ∀ p, p ∈ (List.range P.n).filter (fun p => decide (0 < P.source p)) ↔ p < P.forward.n ∧ 0 < P.forward.src p := by
    intro p; rw [List.mem_filter, List.mem_range, decide_eq_true_eq]; exact Iff.rfl
  obtain ⟨m, hm⟩ := (C76_exact hF (fun p => (hall p).mp) P.forward.cycleInflow).1
  obtain ⟨p, hpm⟩ := (C76_exact hF (fun p => (hall p).mp) fun v => P.pv v * m v).1
  refine ⟨m, p, hm, hpm, fun a ha hta v hv hT => D.mean_cyclic hF hself (fun w hw hne => ?_) hall hm hpm ha hta hv hT⟩
  rw [D.points]
  apply hask w hw
  obtain ⟨v, hv⟩ := List.exists_mem_of_ne_nil _ hne
  obtain ⟨a, b⟩ := List.mem_filter.mp hv
  exact ⟨v, a, by simpa using b⟩

/-- **C70** The same for producers, in the reversed flow. -/
theorem C70_production_cyclic (hr : ProductionReturns g calls starts (.ok sol))
    (hask : ∀ w ∈ P.wells, (∃ v ∈ w.cells, w.val v < 0) → ∃ s ∈ starts, s.id = w.id) :
    ∃ m p, P.backward.Carries ((List.range P.n).filter fun p => decide (0 < P.sink p)) P.backward.cycleInflow m ∧
      P.backward.Carries ((List.range P.n).filter fun p => decide (0 < P.sink p)) (fun v => P.pv v * m v) p ∧
      ∀ a < 200 * 365 * 24 * 60 * 60, (∀ i ∈ sol.startPoints, ∀ v < P.n, valueAt (sol.timeOfFlightOf i) v ≤ a) →
        ∀ v < P.n, (∀ u, P.forward.Reach v u → fieldAt sol.timeOfFlight u ≤ a) →
          |(sol.startPoints.map fun i => valueAt (sol.concentration i) v * valueAt (sol.timeOfFlightOf i) v).sum
              - fieldAt sol.timeOfFlight v|
            ≤ (sol.startPoints.length + 1)
              * (1 / 1000000000 * p v + (2 * a / 1000000000 + 200 * 365 * 24 * 60 * 60 / 1000000000000) * m v) := by
  have D := diag_production hP h hr
  have hF := backward_valid hP
  have hall : ∀ p, p ∈ (List.range P.n).filter (fun p => decide (0 < P.sink p)) ↔ p < P.backward.n ∧ 0 < P.backward.src p := by
    intro p; rw [List.mem_filter, List.mem_range, decide_eq_true_eq]; exact Iff.rfl
  obtain ⟨m, hm⟩ := (C76_exact hF (fun p => (hall p).mp) P.backward.cycleInflow).1
  obtain ⟨p, hpm⟩ := (C76_exact hF (fun p => (hall p).mp) fun v => P.pv v * m v).1
  refine ⟨m, p, hm, hpm, fun a ha hta v hv hT => D.mean_cyclic hF (backward_not_loop hself) (fun w hw hne => ?_) hall hm hpm ha hta hv
    fun u hu => hT u (backward_reach.mp hu)⟩
  rw [D.points]
  apply hask w hw
  obtain ⟨v, hv⟩ := List.exists_mem_of_ne_nil _ hne
  obtain ⟨a, b⟩ := List.mem_filter.mp hv
  exact ⟨v, a, by simpa using b⟩

end toolbox

section stored
variable {P : Problem ℚ} {M : Nat} {g : ConnectivityGraph} {calls : List (Call Double)} {starts : List CellSet} {sol : Solution Double}

/-- **C70** (`double`s, flow with cycles, no cell has a self-connection as its only cycle) If all injectors are asked for, none
    of their times is above `a` < 200 years and none of their concentrations below 2^-300 where they arrive, then the global
    time-of-flight of a cell is near the mean of the times-of-flight of the injectors, weighted with their concentrations, if
    what is upstream of the cell is as in C82. -/
theorem C70_injection_double (hP : P.Valid) (hO : P.OfOrdinarySize M) (htotal : ∀ v < P.n, P.forward.total v ≤ 2 ^ 100)
    (hself : ∀ v < P.n, ¬ P.forward.Loop v) (hS : P.StoredIn g calls) (hr : InjectionReturns g calls starts (.ok sol))
    (hask : ∀ w ∈ P.injectors, ∃ s ∈ starts, s.id = w.id) {a : ℚ} (ha0 : 0 ≤ a) (ha : a < 200 * 365 * 24 * 60 * 60)
    (hta : ∀ w ∈ P.injectors, ∀ v, P.forward.Downstream (posCells w) v → doubleAt (sol.timeOfFlightOf w.id) v ≤ a)
    (htiny : ∀ w ∈ P.injectors, ∀ v, P.forward.Downstream (posCells w) v → 1 / 2 ^ 300 ≤ doubleAt (sol.concentration w.id) v) :
    ∃ m h p k, P.forward.Carries ((List.range P.n).filter fun p => decide (0 < P.source p)) P.forward.cycleInflow m ∧
      P.forward.Carries ((List.range P.n).filter fun p => decide (0 < P.source p)) P.forward.total h ∧
      P.forward.Carries ((List.range P.n).filter fun p => decide (0 < P.source p)) (fun v => P.pv v * m v) p ∧
      P.forward.Carries ((List.range P.n).filter fun p => decide (0 < P.source p)) (fun v => P.pv v * h v) k ∧
      ∀ v < P.n, (∀ u, P.forward.Reach u v → (∃ p < P.n, 0 < P.source p ∧ P.forward.Reach p u) ∧ doubleIn sol.tof u ≤ a ∧
          1 / 1000000000 * m u + ((4 * M + 6 : Nat) : ℚ) / 2 ^ 51 * h u ≤ 1 / 2) →
        |(P.injectors.map fun w => doubleAt (sol.concentration w.id) v * doubleAt (sol.timeOfFlightOf w.id) v).sum
            - doubleIn sol.tof v|
          ≤ (P.injectors.length + 1) * (1 / 1000000000 * p v
            + (3 * a / 1000000000 + 200 * 365 * 24 * 60 * 60 / 1000000000000) * m v
            + ((4 * M + 8 : Nat) : ℚ) / 2 ^ 51 * (k v + (3 * a + 1) * h v)) := by
  have N := nearly_injection hP hO htotal hS hr
  have T := timely_injection hP hO htotal hS hr
  obtain ⟨m, h, q, p, k, hm, hh, hq, hpm, hk, key⟩ := C82_injection hP hO htotal hself hS hr
  have hall : ∀ p, p ∈ (List.range P.n).filter (fun p => decide (0 < P.source p)) ↔ p < P.forward.n ∧ 0 < P.forward.src p := by
    intro p; rw [List.mem_filter, List.mem_range, decide_eq_true_eq]; exact Iff.rfl
  refine ⟨m, h, p, k, hm, hh, hpm, hk, fun v hv hup => N.mean T hself (fun w hw => ⟨(List.mem_filter.mp hw).1, hask w hw⟩) ?_ ha0 ha
    hta htiny hall hm hh hpm hk hv (fun u hr => ?_) fun Q hQ => ?_⟩
  · intro v _
    rw [N.side.src]
    refine (sum_filter fun w _ hn => ?_).symm
    rw [if_neg]
    intro hc
    obtain ⟨h1, h2⟩ := List.mem_filter.mp hc
    rw [List.any_eq_false] at hn
    exact hn v h1 h2
  · obtain ⟨p, h1, h2, h3⟩ := (hup u hr).1
    exact ⟨p, (hall p).mpr ⟨h1, h2⟩, h3⟩
  · rw [(C76_exact N.valid (fun p => (hall p).mp) P.pv).2.1 Q q hQ hq v hv]
    exact key a ha v hv hup

/-- **C70** The same for producers, in the reversed flow. -/
theorem C70_production_double (hP : P.Valid) (hO : P.OfOrdinarySize M) (htotal : ∀ v < P.n, P.backward.total v ≤ 2 ^ 100)
    (hself : ∀ v < P.n, ¬ P.forward.Loop v) (hS : P.StoredIn g calls) (hr : ProductionReturns g calls starts (.ok sol))
    (hask : ∀ w ∈ P.producers, ∃ s ∈ starts, s.id = w.id) {a : ℚ} (ha0 : 0 ≤ a) (ha : a < 200 * 365 * 24 * 60 * 60)
    (hta : ∀ w ∈ P.producers, ∀ v, P.backward.Downstream (negCells w) v → doubleAt (sol.timeOfFlightOf w.id) v ≤ a)
    (htiny : ∀ w ∈ P.producers, ∀ v, P.backward.Downstream (negCells w) v → 1 / 2 ^ 300 ≤ doubleAt (sol.concentration w.id) v) :
    ∃ m h p k, P.backward.Carries ((List.range P.n).filter fun p => decide (0 < P.sink p)) P.backward.cycleInflow m ∧
      P.backward.Carries ((List.range P.n).filter fun p => decide (0 < P.sink p)) P.backward.total h ∧
      P.backward.Carries ((List.range P.n).filter fun p => decide (0 < P.sink p)) (fun v => P.pv v * m v) p ∧
      P.backward.Carries ((List.range P.n).filter fun p => decide (0 < P.sink p)) (fun v => P.pv v * h v) k ∧
      ∀ v < P.n, (∀ u, P.forward.Reach v u → (∃ p < P.n, 0 < P.sink p ∧ P.forward.Reach u p) ∧ doubleIn sol.tof u ≤ a ∧
          1 / 1000000000 * m u + ((4 * M + 6 : Nat) : ℚ) / 2 ^ 51 * h u ≤ 1 / 2) →
        |(P.producers.map fun w => doubleAt (sol.concentration w.id) v * doubleAt (sol.timeOfFlightOf w.id) v).sum
            - doubleIn sol.tof v|
          ≤ (P.producers.length + 1) * (1 / 1000000000 * p v
            + (3 * a / 1000000000 + 200 * 365 * 24 * 60 * 60 / 1000000000000) * m v
            + ((4 * M + 8 : Nat) : ℚ) / 2 ^ 51 * (k v + (3 * a + 1) * h v)) := by
  have N := nearly_production hP hO htotal hS hr
  have T := timely_production hP hO htotal hS hr
  obtain ⟨m, h, q, p, k, hm, hh, hq, hpm, hk, key⟩ := C82_production hP hO htotal hself hS hr
  have hall : ∀ p, p ∈ (List.range P.n).filter (fun p => decide (0 < P.sink p)) ↔ p < P.backward.n ∧ 0 < P.backward.src p := by
    intro p; rw [List.mem_filter, List.mem_range, decide_eq_true_eq]; exact Iff.rfl
  refine ⟨m, h, p, k, hm, hh, hpm, hk, fun v hv hup => N.mean T (backward_not_loop hself)
    (fun w hw => ⟨(List.mem_filter.mp hw).1, hask w hw⟩) ?_ ha0 ha hta htiny hall hm hh hpm hk hv (fun u hr => ?_) fun Q hQ => ?_⟩
  · intro v _
    rw [N.side.src]
    refine (sum_filter fun w _ hn => ?_).symm
    rw [if_neg]
    intro hc
    obtain ⟨h1, h2⟩ := List.mem_filter.mp hc
    rw [List.any_eq_false] at hn
    exact hn v h1 h2
  · obtain ⟨p, h1, h2, h3⟩ := (hup u (backward_reach.mp hr)).1
    exact ⟨p, (hall p).mpr ⟨h1, h2⟩, backward_reach.mpr h3⟩
  · rw [(C76_exact N.valid (fun p => (hall p).mp) P.pv).2.1 Q q hQ hq v hv]
    exact key a ha v hv hup

end stored

/-! ### A case

The whirl with its injector in two parts. -/

theorem whirlParts_forward : exWhirlParts.source = exWhirl.source ∧ exWhirlParts.forward = exWhirl.forward := by
  have e : exWhirlParts.source = exWhirl.source := by
    funext v
    by_cases h : v = 0 <;> by_cases h' : v = 3 <;> simp [Problem.source, exWhirlParts, exWhirl, Problem.wellAt, h, h']
    all_goals norm_num
  refine ⟨e, ?_⟩
  have : exWhirlParts.forward = { exWhirl.forward with src := exWhirlParts.source } := rfl
  rw [this, e]
  rfl

theorem whirlParts_points {m h : Nat → ℚ}
    (hm : exWhirlParts.forward.Carries ((List.range exWhirlParts.n).filter fun p => decide (0 < exWhirlParts.source p))
      exWhirlParts.forward.cycleInflow m)
    (hh : exWhirlParts.forward.Carries ((List.range exWhirlParts.n).filter fun p => decide (0 < exWhirlParts.source p))
      exWhirlParts.forward.total h) {v u : Nat} (hv : v < 4) (hr : exWhirlParts.forward.Reach u v) :
    u < 4 ∧ (∃ p < exWhirlParts.n, 0 < exWhirlParts.source p ∧ exWhirlParts.forward.Reach p u) ∧
      1 / 1000000000 * m u + ((4 * 4 + 6 : Nat) : ℚ) / 2 ^ 51 * h u ≤ 1 / 2 := by
  obtain ⟨e1, e2⟩ := whirlParts_forward
  rw [e1, e2] at hm hh
  rw [e2] at hr ⊢
  rw [e1]
  have hu : u < 4 := upstream_lt (F := exWhirl.forward) hv hr
  exact ⟨hu, ⟨0, by decide, whirl_source, whirl_reached u hu⟩, whirl_fields hm hh u hu⟩

set_option maxRecDepth 100000 in
/-- C70, `double`s, flow with a cycle, two injectors. -/
example : ∃ S, InjectionReturns whirlGraph whirlPartsCalls [CellSet.ofCells ⟨[65]⟩ [0], CellSet.ofCells ⟨[66]⟩ [0]] (.ok S) ∧
    ∃ m h p k : Nat → ℚ, ∀ v < 4,
      |doubleAt (S.concentration ⟨[65]⟩) v * doubleAt (S.timeOfFlightOf ⟨[65]⟩) v
          + doubleAt (S.concentration ⟨[66]⟩) v * doubleAt (S.timeOfFlightOf ⟨[66]⟩) v - doubleIn S.tof v|
        ≤ 3 * (1 / 1000000000 * p v + (3 * 10 / 1000000000 + 200 * 365 * 24 * 60 * 60 / 1000000000000) * m v
            + ((4 * 4 + 8 : Nat) : ℚ) / 2 ^ 51 * (k v + (3 * 10 + 1) * h v)) := by
  have key : (match injectionOutcome whirlGraph whirlPartsCalls noFailure 100 [CellSet.ofCells ⟨[65]⟩ [0], CellSet.ofCells ⟨[66]⟩ [0]] with
      | .ok s => (List.range 4).all fun v => decide (doubleIn s.tof v ≤ 10) && (decide (doubleAt (s.timeOfFlightOf ⟨[65]⟩) v ≤ 10)
        && decide (1 / 4 ≤ doubleAt (s.concentration ⟨[65]⟩) v) && (decide (doubleAt (s.timeOfFlightOf ⟨[66]⟩) v ≤ 10)
        && decide (1 / 4 ≤ doubleAt (s.concentration ⟨[66]⟩) v)))
      | _ => false) = true := by decide +kernel
  split at key
  · rename_i S hS
    have hr := (Fuel.injection_returns.mpr ⟨100, hS, by simp⟩).1
    refine ⟨S, hr, ?_⟩
    have B : ∀ v < 4, doubleIn S.tof v ≤ 10 ∧ (doubleAt (S.timeOfFlightOf ⟨[65]⟩) v ≤ 10 ∧ 1 / 4 ≤ doubleAt (S.concentration ⟨[65]⟩) v) ∧
        doubleAt (S.timeOfFlightOf ⟨[66]⟩) v ≤ 10 ∧ 1 / 4 ≤ doubleAt (S.concentration ⟨[66]⟩) v := by
      intro v hv
      have := List.all_eq_true.mp key v (List.mem_range.mpr hv)
      simpa only [Bool.and_eq_true, decide_eq_true_eq] using this
    have hinj : exWhirlParts.injectors = [⟨⟨[65]⟩, [0], fun _ => 1⟩, ⟨⟨[66]⟩, [0], fun _ => 1⟩] := by
      simp [Problem.injectors, exWhirlParts]
    have small : (1 : ℚ) / 2 ^ 300 ≤ 1 / 4 :=
      one_div_le_one_div_of_le (by norm_num) (le_trans (by norm_num) (pow_le_pow_right₀ one_le_two (show 2 ≤ 300 by norm_num)))
    have hd : ∀ w ∈ exWhirlParts.injectors, ∀ v, exWhirlParts.forward.Downstream (posCells w) v → v < 4 := by
      rw [hinj]
      rintro w hw v ⟨p, h1, h2⟩
      refine reach_lt (F := exWhirlParts.forward) ?_ h2
      have := (List.mem_filter.mp h1).1
      simp only [List.mem_cons, List.not_mem_nil, or_false] at hw
      rcases hw with rfl | rfl
      all_goals
        have : p = 0 := by simpa using this
        subst this; decide
    obtain ⟨m, h, p, k, hm, hh, hp, hk, e⟩ := C70_injection_double exWhirlParts_valid whirlParts_ordinary
      (by rw [whirlParts_forward.2]; exact whirl_total.1) (by rw [whirlParts_forward.2]; exact whirl_not_loop) whirlParts_stored hr
      (by
        rw [hinj]; intro w hw
        simp only [List.mem_cons, List.not_mem_nil, or_false] at hw
        rcases hw with rfl | rfl
        · exact ⟨_, .head _, rfl⟩
        · exact ⟨_, .tail _ (.head _), rfl⟩) (a := 10) (by norm_num) (by norm_num)
      (fun w hw v hdw => by
        have hv := hd w hw v hdw
        rw [hinj] at hw
        simp only [List.mem_cons, List.not_mem_nil, or_false] at hw
        rcases hw with rfl | rfl
        · exact (B v hv).2.1.1
        · exact (B v hv).2.2.1)
      (fun w hw v hdw => by
        have hv := hd w hw v hdw
        rw [hinj] at hw
        simp only [List.mem_cons, List.not_mem_nil, or_false] at hw
        rcases hw with rfl | rfl
        · exact small.trans (B v hv).2.1.2
        · exact small.trans (B v hv).2.2.2)
    refine ⟨m, h, p, k, fun v hv => ?_⟩
    have := e v hv fun u hu => by
      obtain ⟨h1, h2, h3⟩ := whirlParts_points hm hh hv hu
      exact ⟨h2, (B u h1).1, h3⟩
    rw [hinj] at this
    simp only [List.map_cons, List.map_nil, List.sum_cons, List.sum_nil, add_zero, List.length_cons, List.length_nil] at this
    norm_num at this ⊢
    exact this
  · cases key

def whirlPartsExact : List (Call (X ℚ)) :=
  [.assignPoreVolume [Arith.lit 1, Arith.lit 1, Arith.lit 1, Arith.lit 1],
   .assignConnectionFlux ⟨4, 1, [Arith.lit 2, Arith.lit 3, Arith.lit 3, Arith.lit 1]⟩,
   .assignInflowFlux [(⟨[65]⟩, [(0, Arith.lit 1)]), (⟨[66]⟩, [(0, Arith.lit 1)]), (⟨[80]⟩, [(3, Arith.lit (-2))])]]

theorem whirlPartsExact_given : exWhirlParts.GivenTo whirlGraph whirlPartsExact where
  graph := whirl_stored.graph
  pv := whirl_given.pv
  flux := by
    refine ⟨_, rfl, rfl, rfl, ?_⟩
    intro c hc p hp
    have hp : p = 0 := by have : p < 1 := hp; omega
    subst hp
    have hc : c < 4 := hc
    interval_cases c <;> rfl
  inflow := Or.inl rfl

set_option maxRecDepth 100000 in
/-- C70, exact arithmetic, flow with a cycle, two injectors. -/
example : ∃ s, InjectionReturns whirlGraph whirlPartsExact [CellSet.ofCells ⟨[65]⟩ [0], CellSet.ofCells ⟨[66]⟩ [0]] (.ok s) ∧
    ∃ m p : Nat → ℚ, ∀ v < 4,
      |(s.startPoints.map fun i => valueAt (s.concentration i) v * valueAt (s.timeOfFlightOf i) v).sum - fieldAt s.timeOfFlight v|
        ≤ (s.startPoints.length + 1)
          * (1 / 1000000000 * p v + (2 * 3 / 1000000000 + 200 * 365 * 24 * 60 * 60 / 1000000000000) * m v) := by
  obtain ⟨s, h1, b1⟩ := globalBelow_spec (a := 3)
    (r := injectionOutcome whirlGraph whirlPartsExact noFailure 100 [CellSet.ofCells ⟨[65]⟩ [0], CellSet.ofCells ⟨[66]⟩ [0]])
    (by decide +kernel)
  obtain ⟨s', h2, b2⟩ := okBelow_spec (i := ⟨[65]⟩) (a := 3)
    (r := injectionOutcome whirlGraph whirlPartsExact noFailure 100 [CellSet.ofCells ⟨[65]⟩ [0], CellSet.ofCells ⟨[66]⟩ [0]])
    (by decide +kernel)
  obtain ⟨s'', h3, b3⟩ := okBelow_spec (i := ⟨[66]⟩) (a := 3)
    (r := injectionOutcome whirlGraph whirlPartsExact noFailure 100 [CellSet.ofCells ⟨[65]⟩ [0], CellSet.ofCells ⟨[66]⟩ [0]])
    (by decide +kernel)
  obtain rfl : s = s' := Res.ok.inj (h1.symm.trans h2)
  obtain rfl : s = s'' := Res.ok.inj (h1.symm.trans h3)
  have hr := (Fuel.injection_returns.mpr ⟨100, h1, by simp⟩).1
  obtain ⟨m, p, _, _, e⟩ := C70_injection_cyclic exWhirlParts_valid whirlPartsExact_given
    (by rw [whirlParts_forward.2]; exact whirl_not_loop) hr (by
      intro w hw hpos
      simp only [exWhirlParts, List.mem_cons, List.not_mem_nil, or_false] at hw
      rcases hw with rfl | rfl | rfl
      · exact ⟨_, .head _, rfl⟩
      · exact ⟨_, .tail _ (.head _), rfl⟩
      · obtain ⟨v, _, h⟩ := hpos
        norm_num at h)
  refine ⟨s, hr, m, p, fun v hv => e 3 (by norm_num) (fun i hi u hu => ?_) v hv fun u hu => ?_⟩
  · obtain ⟨c, hc, rfl⟩ := ((diag_injection exWhirlParts_valid whirlPartsExact_given hr).points i).mp hi
    simp only [List.mem_cons, List.not_mem_nil, or_false] at hc
    rcases hc with rfl | rfl
    · exact b2 u hu
    · exact b3 u hu
  · exact b1 u (upstream_lt (F := exWhirlParts.forward) hv hu)

end Verif.Props
