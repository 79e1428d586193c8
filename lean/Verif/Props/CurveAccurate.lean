/-
C84, C108: the points of the F-Phi curve computed with doubles are close to the exact curve.
-/
import Verif.Props.CurveNear
import Verif.Props.LorenzAccurate

namespace Verif.Props
open Verif.Spec Verif.Toolbox Verif.Solver Verif.Derived Verif.Rounding Finset

section
variable {K : Type} [Field K] [LinearOrder K] [IsStrictOrderedRing K]
variable {I : CurveInput K} {sort : List (X K × X K) → List (X K × X K)}

theorem rank_pos (h : I.Valid) (v : Nat) : 0 < I.rank v := by
  unfold CurveInput.rank
  split
  · exact h.time v ‹_›
  · positivity

/-- The point of an order in which travel times nearly increase is hardly below the curve. -/
theorem onLine_order {ε : K} (hε : 0 ≤ ε) (h : I.Valid) (hs : StdSort sort) {g : Graph (X K)} (hg : I.curve sort = .ok g) {σ : Nat → Nat}
    (hσ : Order I.n σ) (hm : ∀ i j, i ≤ j → j < I.n → I.rank (σ i) ≤ I.rank (σ j) * (1 + ε)) {i : Nat} (hi : i ≤ I.n) :
    ∃ y, OnLine g (S (fun j => I.keptPv (σ j)) i / S (fun j => I.keptPv (σ j)) I.n) y ∧
      S (rt (fun j => I.rank (σ j)) fun j => I.keptPv (σ j)) i / S (rt (fun j => I.rank (σ j)) fun j => I.keptPv (σ j)) I.n ≤ y ∧
      y ≤ S (rt (fun j => I.rank (σ j)) fun j => I.keptPv (σ j)) i / S (rt (fun j => I.rank (σ j)) fun j => I.keptPv (σ j)) I.n + ε := by
  obtain ⟨V0, R0⟩ := volume_pos h
  have p0 : ∀ j < I.n, 0 ≤ I.keptPv (σ j) := fun j hj => keptPv_nonneg h (hσ.1 j hj)
  have sV := S_volume (I := I) hσ
  have sR := S_rate (I := I) hσ
  have hn : 0 < I.n := by obtain ⟨v, hv, _⟩ := h.some_pv; exact lt_of_le_of_lt (Nat.zero_le v) hv.1
  set p : Nat → K := fun j => I.keptPv (σ j) with hp
  set t : Nat → K := fun j => I.rank (σ j) with ht
  have t0 : ∀ j, 0 < t j := fun j => rank_pos h _
  have hS0 : 0 ≤ S p i := by have := S_mono p0 (Nat.zero_le i) hi; simpa [S] using this
  obtain ⟨y, hy⟩ := exists_onLine h hs hg (x := S p i / S p I.n) (by rw [sV]; exact div_nonneg hS0 V0.le)
    (by rw [sV, div_le_one V0, ← sV]; exact S_mono p0 hi le_rfl)
  have e : ∀ T : K, ∑ v ∈ range I.n with I.Kept v, I.pv v * max 0 (1 / I.time v - 1 / T) = ∑ j ∈ range I.n, p j * max 0 (1 / t j - 1 / T) := by
    intro T
    rw [order_sum hσ fun v => I.keptPv v * max 0 (1 / I.rank v - 1 / T), Finset.sum_filter]
    apply sum_congr rfl
    intro v _
    unfold CurveInput.keptPv CurveInput.rank
    by_cases hk : I.Kept v <;> simp [hk]
  obtain ⟨_, _, hall, T, hT, hon⟩ := (onLine_curve h hs hg).mp hy
  have ex : ∀ T : K, I.volume * (S p i / S p I.n) / T = ∑ j ∈ range i, p j * (1 / T) := by
    intro T
    rw [sV, mul_div_cancel₀ _ V0.ne', ← sum_mul, mul_one_div]; rfl
  have er : S (rt t p) i = ∑ j ∈ range i, p j * (1 / t j) := sum_congr rfl fun j _ => by unfold rt; rw [mul_one_div]
  have split : ∀ f : Nat → K, ∑ j ∈ range I.n, f j = ∑ j ∈ range i, f j + ∑ j ∈ Ico i I.n, f j := fun f => (sum_range_add_sum_Ico f hi).symm
  refine ⟨y, hy, ?_, ?_⟩
  · rw [sR, div_le_iff₀ R0, mul_comm y, hon, e, ex, er, split, ← add_assoc, ← sum_add_distrib]
    have a1 : ∑ j ∈ range i, p j * (1 / t j) ≤ ∑ j ∈ range i, (p j * (1 / T) + p j * max 0 (1 / t j - 1 / T)) := by
      refine sum_le_sum fun j hj => ?_
      rw [← mul_add]
      refine mul_le_mul_of_nonneg_left ?_ (p0 j (lt_of_lt_of_le (mem_range.mp hj) hi))
      have := le_max_right 0 (1 / t j - 1 / T)
      linarith
    have a2 : 0 ≤ ∑ j ∈ Ico i I.n, p j * max 0 (1 / t j - 1 / T) :=
      sum_nonneg fun j hj => mul_nonneg (p0 j (mem_Ico.mp hj).2) (le_max_left _ _)
    linarith
  · obtain ⟨T, hT, hb, hc⟩ : ∃ T, 0 < T ∧ (∀ j < i, t j ≤ T) ∧ ∀ k, i ≤ k → k < I.n → T ≤ t k * (1 + ε) := by
      rcases Nat.eq_zero_or_pos i with rfl | hi0
      · exact ⟨t 0, t0 0, fun j hj => absurd hj (Nat.not_lt_zero j), fun k hk hk' => hm 0 k hk hk'⟩
      · obtain ⟨m, hmem, hmax⟩ := exists_max_image (range i) t ⟨0, mem_range.mpr hi0⟩
        have hmi := mem_range.mp hmem
        exact ⟨t m, t0 m, fun j hj => hmax j (mem_range.mpr hj), fun k hk hk' => hm m k (by omega) hk'⟩
    have hle := hall T hT
    rw [e, ex, split, ← add_assoc, ← sum_add_distrib] at hle
    have a1 : ∑ j ∈ range i, (p j * (1 / T) + p j * max 0 (1 / t j - 1 / T)) = S (rt t p) i := by
      rw [er]
      refine sum_congr rfl fun j hj => ?_
      rw [max_eq_right (sub_nonneg.mpr (one_div_le_one_div_of_le (t0 j) (hb j (mem_range.mp hj))))]
      ring
    have a2 : ∑ j ∈ Ico i I.n, p j * max 0 (1 / t j - 1 / T) ≤ ε * I.rate := by
      have b1 : ∑ j ∈ Ico i I.n, p j * max 0 (1 / t j - 1 / T) ≤ ∑ j ∈ Ico i I.n, ε * (p j * (1 / t j)) := by
        refine sum_le_sum fun k hk => ?_
        obtain ⟨h1, h2⟩ := mem_Ico.mp hk
        have c1 : max 0 (1 / t k - 1 / T) ≤ ε * (1 / t k) := by
          refine max_le (mul_nonneg hε (one_div_nonneg.mpr (t0 k).le)) ?_
          have c2 : (1 - ε) * (1 / t k) ≤ 1 / T := by
            rw [le_div_iff₀ hT, mul_one_div, div_mul_eq_mul_div, div_le_iff₀ (t0 k), one_mul]
            rcases le_total ε 1 with h' | h'
            · calc (1 - ε) * T ≤ (1 - ε) * (t k * (1 + ε)) := mul_le_mul_of_nonneg_left (hc k h1 h2) (sub_nonneg.mpr h')
                _ = t k - ε ^ 2 * t k := by ring
                _ ≤ t k := sub_le_self _ (mul_nonneg (sq_nonneg ε) (t0 k).le)
            · exact (mul_nonpos_of_nonpos_of_nonneg (sub_nonpos.mpr h') hT.le).trans (t0 k).le
          linarith
        calc p k * max 0 (1 / t k - 1 / T) ≤ p k * (ε * (1 / t k)) := mul_le_mul_of_nonneg_left c1 (p0 k h2)
          _ = _ := by ring
      have b2 : ∑ j ∈ Ico i I.n, ε * (p j * (1 / t j)) ≤ ε * I.rate := by
        rw [← mul_sum]
        refine mul_le_mul_of_nonneg_left ?_ hε
        rw [← sR]
        have b3 : S (rt t p) I.n = ∑ j ∈ range I.n, p j * (1 / t j) := sum_congr rfl fun j _ => by unfold rt; rw [mul_one_div]
        rw [b3, split]
        exact le_add_of_nonneg_left (sum_nonneg fun j hj => mul_nonneg (p0 j (lt_of_lt_of_le (mem_range.mp hj) hi)) (one_div_nonneg.mpr (t0 j).le))
      exact b1.trans b2
    rw [a1] at hle
    rw [sR]
    have : y = I.rate * y / I.rate := by rw [mul_div_cancel_left₀ _ R0.ne']
    rw [this, div_add' _ _ _ R0.ne']
    exact div_le_div_of_nonneg_right (by linarith) R0.le

/-- Flow capacities on the curve are at most one. -/
theorem onLine_le_one (h : I.Valid) (hs : StdSort sort) {g : Graph (X K)} (hg : I.curve sort = .ok g) {x y : K} (hy : OnLine g x y) : y ≤ 1 := by
  obtain ⟨V0, R0⟩ := volume_pos h
  obtain ⟨x0, x1, hall, _⟩ := (onLine_curve h hs hg).mp hy
  obtain ⟨T, hT, hmax⟩ : ∃ T, 0 < T ∧ ∀ v < I.n, I.rank v ≤ T := by
    have hn : 0 < I.n := by obtain ⟨v, hv, _⟩ := h.some_pv; exact lt_of_le_of_lt (Nat.zero_le v) hv.1
    obtain ⟨m, _, hm⟩ := exists_max_image (range I.n) I.rank ⟨0, mem_range.mpr hn⟩
    exact ⟨I.rank m, rank_pos h m, fun v hv => hm v (mem_range.mpr hv)⟩
  have a := hall T hT
  have b : ∑ v ∈ range I.n with I.Kept v, I.pv v * max 0 (1 / I.time v - 1 / T) = I.rate - I.volume / T := by
    unfold CurveInput.rate CurveInput.volume
    rw [sum_div, ← sum_sub_distrib]
    refine sum_congr rfl fun v hv => ?_
    obtain ⟨h1, h2⟩ := mem_filter.mp hv
    have h3 := hmax v (mem_range.mp h1)
    unfold CurveInput.rank at h3
    rw [if_pos h2] at h3
    rw [max_eq_right (sub_nonneg.mpr (one_div_le_one_div_of_le (h.time v h2) h3))]
    ring
  rw [b] at a
  have c : I.volume * x / T ≤ I.volume / T := div_le_div_of_nonneg_right (mul_le_of_le_one_right V0.le x1) hT.le
  have d : I.rate * y ≤ I.rate * 1 := by linarith
  exact le_of_mul_le_mul_left d R0

end

/-- **C84** With `double`s of ordinary magnitude: for a cutoff within `(n + 1) / 2^51` of the one asked for, each computed point of the
    curve differs from a point on the exact curve by at most `(2 n + 5) / 2^51` in storage capacity and `(2 n + 7) / 2^51` in flow capacity. -/
theorem C84_line {I : CurveInput ℚ} {inj prod pv : List Double} {frac : Double} (h : I.OfOrdinarySize) (hd : I.StoredAs inj prod pv frac)
    {sort : List (Double × Double) → List (Double × Double)} (hs : SortsPairs sort)
    {sort' : List (X ℚ × X ℚ) → List (X ℚ × X ℚ)} (hs' : StdSort sort') :
    ∃ θ, |θ - I.frac| ≤ (I.n + 1) / 2 ^ 51 * I.frac ∧ ∃ Phi F g, Derived.curve sort inj prod pv frac = .ok (Phi, F) ∧
      (I.withFraction θ).curve sort' = .ok g ∧ Rising I.n Phi ∧ Rising I.n F ∧
      ∀ i ≤ I.n, ∃ x y, OnLine g x y ∧ |doubleIn Phi i - x| ≤ (2 * I.n + 5) / 2 ^ 51 ∧ |doubleIn F i - y| ≤ (2 * I.n + 7) / 2 ^ 51 := by
  obtain ⟨θ, hθ, Phi, F, hc, r1, r2, σ, hσ, hm, _, hnear⟩ := curve_near h hd hs
  have hv := withFraction_valid h hθ
  obtain ⟨g, hg, _⟩ := C83_meanDifference hv hs'
  refine ⟨θ, hθ, Phi, F, g, hc, hg, r1, r2, fun i hi => ?_⟩
  obtain ⟨h1, h2⟩ := hnear i hi
  obtain ⟨y, hy, lo, hi'⟩ := onLine_order (I := I.withFraction θ) (ε := 1 / 2 ^ 50) (by positivity) hv hs' hg hσ hm hi
  rw [show (I.withFraction θ).n = I.n from rfl] at lo hi'
  refine ⟨_, y, hy, h1, ?_⟩
  have a := abs_le.mp h2
  have e : ((2 : ℚ) * I.n + 7) / 2 ^ 51 = (2 * I.n + 5) / 2 ^ 51 + 1 / 2 ^ 50 := by ring
  rw [e]
  have pos : (0 : ℚ) ≤ 1 / 2 ^ 50 := by positivity
  exact abs_le.mpr ⟨by linarith [a.1, a.2, lo, hi'], by linarith [a.1, a.2, lo, hi']⟩

/-- **C108** Under the conditions of `C108_lorenz` all points of the curve computed with doubles from the data are close to points of the exact
    curve: storage capacities differ by at most `(2 n + 5) / 2^51`, flow capacities by at most `(6 A + 2 n + 7) / 2^51`. -/
theorem C108_curve {P : Problem ℚ} (hP : P.Valid) {M A : Nat} (hO : P.OfOrdinarySize M) {layer layer' : Nat → Nat}
    (hL : P.forward.Layered layer) (hL' : P.backward.Layered layer')
    (hA : ∀ v < P.n, (layer v + 2) ^ 2 * (4 * M + 6) ≤ A ∧ (layer' v + 2) ^ 2 * (4 * M + 6) ≤ A) (hA' : A ≤ 2 ^ 50)
    {g : ConnectivityGraph} {calls : List (Call Double)} (hS : P.StoredIn g calls)
    {g' : ConnectivityGraph} {calls' : List (Call (X ℚ))} (hG : P.GivenTo g' calls') {istarts pstarts : List CellSet}
    {E F : Solution (X ℚ)} (hE : InjectionReturns g' calls' istarts (.ok E)) (hF : ProductionReturns g' calls' pstarts (.ok F))
    (tE : NotTiny E) (tF : NotTiny F)
    (hlow : ∀ v < P.n, 1 / 2 ^ 99 ≤ fieldAt E.timeOfFlight v ∧ 1 / 2 ^ 99 ≤ fieldAt F.timeOfFlight v)
    (hpv : ∀ v < P.n, 0 < P.pv v) {pv : List Double} (hpvs : pv.map Double.val = arr P.n P.pv) {frac : ℚ} {fraction : Double}
    (hfrac : fraction.val = X.fin frac) (hfo : 0 < frac ∧ Ordinary frac)
    (hsome : ∃ v < P.n, 2 * P.pv v ≤ frac * ∑ u ∈ range P.n, P.pv u)
    (hclear : ∀ v < P.n, ∀ θ, |θ - frac| ≤ (P.n + 1) / 2 ^ 51 * frac →
      (P.pv v ≤ θ * ∑ u ∈ range P.n, P.pv u ↔ P.pv v ≤ frac * ∑ u ∈ range P.n, P.pv u))
    {sort : List (X ℚ × X ℚ) → List (X ℚ × X ℚ)} (hsort : StdSort sort)
    {sort' : List (Double × Double) → List (Double × Double)} (hsort' : SortsPairs sort') :
    ∃ S T Phi Fl C, InjectionReturns g calls istarts (.ok S) ∧ ProductionReturns g calls pstarts (.ok T) ∧
      curveOf sort' S T pv fraction = .ok (Phi, Fl) ∧ curveOf sort E F (arr P.n P.pv) (X.fin frac) = .ok C ∧
      Rising P.n Phi ∧ Rising P.n Fl ∧
      ∀ i ≤ P.n, ∃ x y, OnLine C x y ∧ |doubleIn Phi i - x| ≤ (2 * P.n + 5) / 2 ^ 51 ∧ |doubleIn Fl i - y| ≤ (6 * A + 2 * P.n + 7) / 2 ^ 51 := by
  obtain ⟨S, T, rS, rT, hI, oJ, sJ, tJ⟩ := computed_inputs hP hO hL hL' hA hA' hS hG hE hF tE tF hlow hpv hpvs hfrac hfo hsome
  obtain ⟨eI, _, _⟩ := C63_curve hP hG hE hF sort frac
  obtain ⟨θ, hθ, Phi, Fl, C', c1, c2, c3, c4, c5⟩ := C84_line oJ sJ hsort' hsort
  have vJ := withFraction_valid oJ hθ
  have hε0 : (0 : ℚ) ≤ (A : ℚ) / 2 ^ 51 := by positivity
  have hε := half_bound hA'
  obtain ⟨C, C2, e1, e2, ex, e3⟩ := C107_curve (s := 1) hI vJ (by linarith : (1 : ℚ) ≤ 1 + 2 * ((A : ℚ) / 2 ^ 51)) le_rfl rfl
    (fun v => and_congr_right fun hv => hclear v hv θ hθ)
    (fun v hv => WithinFactor.refl le_rfl (hpv v hv.1).le) (fun v hv => tJ v hv.1) hsort hsort
  rw [c2] at e2; cases e2
  refine ⟨S, T, Phi, Fl, C, rS, rT, c1, eI.trans e1, c3, c4, fun i hi => ?_⟩
  obtain ⟨x, y', h1, h2, h3⟩ := c5 i hi
  obtain ⟨x0, x1, _⟩ := (onLine_curve vJ hsort c2).mp h1
  obtain ⟨y, _, hy, _⟩ := ex x x0 x1
  refine ⟨x, y, hy, h2, ?_⟩
  have hw := e3 x y y' hy h1
  have sq : (1 : ℚ) ^ 2 * (1 + 2 * (A / 2 ^ 51)) ^ 2 - 1 ≤ 6 * (A / 2 ^ 51) := by
    have := mul_nonneg hε0 (sub_nonneg.mpr hε)
    nlinarith
  have hr1 : (1 : ℚ) ≤ 1 ^ 2 * (1 + 2 * (A / 2 ^ 51)) ^ 2 := by nlinarith
  have y1 := onLine_le_one hI hsort e1 hy
  have y1' := onLine_le_one vJ hsort c2 h1
  have d1 : y' - y ≤ 6 * (A / 2 ^ 51) := by
    have := mul_le_mul_of_nonneg_left y1 (sub_nonneg.mpr hr1)
    linarith [hw.2]
  have d2 : y - y' ≤ 6 * (A / 2 ^ 51) := by
    have := mul_le_mul_of_nonneg_left y1' (sub_nonneg.mpr hr1)
    linarith [hw.1]
  rw [show (computedInput P S T frac).n = P.n from rfl] at h3
  have a := abs_le.mp h3
  have e : (6 * (A : ℚ) + 2 * P.n + 7) / 2 ^ 51 = 6 * (A / 2 ^ 51) + (2 * P.n + 7) / 2 ^ 51 := by ring
  rw [e]
  exact abs_le.mpr ⟨by linarith [a.1, a.2, d1, d2], by linarith [a.1, a.2, d1, d2]⟩

/-- C84: the hypotheses hold, for two sorting functions, and one cell is ignored. -/
example : exCurve.OfOrdinarySize ∧ exCurve.StoredAs [Arith.lit 1, Arith.lit 2, Arith.lit 1] [Arith.lit 1, Arith.lit 1, Arith.lit 5]
    [Arith.lit 2, Arith.lit 1, Arith.lit 100] (Arith.lit (1 / 2)) ∧ SortsPairs (sortBy Double.rounded) ∧ StdSort (mergeSort (K := ℚ)) ∧
    ¬ exCurve.Kept 2 :=
  ⟨exCurve_ordinary, exCurve_stored, sortsPairs_sortBy _, stdSort_mergeSort, by rw [exCurve_kept]; omega⟩

set_option maxRecDepth 100000 in
/-- C108: for `accProblem` all hypotheses hold. -/
example : ∃ S T Phi Fl C, InjectionReturns accGraph accCalls accInjectors (.ok S) ∧ ProductionReturns accGraph accCalls accProducers (.ok T) ∧
    curveOf (sortBy Double.rounded) S T [Arith.lit 1, Arith.lit 2, Arith.lit 2] (Arith.lit 1) = .ok (Phi, Fl) ∧
    ∀ i ≤ 3, ∃ x y, OnLine C x y ∧ |doubleIn Phi i - x| ≤ ((2 * 3 + 5) / 2 ^ 51 : ℚ) ∧ |doubleIn Fl i - y| ≤ ((6 * 288 + 2 * 3 + 7) / 2 ^ 51 : ℚ) := by
  obtain ⟨E, h3, t3, l3⟩ := okLarge_spec
    (show okLarge (injectionOutcome accGraph accExact noFailure 100 accInjectors) = true by decide +kernel)
  obtain ⟨F, h4, t4, l4⟩ := okLarge_spec
    (show okLarge (productionOutcome accGraph accExact noFailure 100 accProducers) = true by decide +kernel)
  have n3 : E.timeOfFlight.length = 3 := (C41_ids _ _ _ _ _ _ (.inl h3)).2.2.1
  have n4 : F.timeOfFlight.length = 3 := (C41_ids _ _ _ _ _ _ (.inr h4)).2.2.1
  have h3 := (Fuel.injection_returns.mpr ⟨100, h3, by simp⟩).1
  have h4 := (Fuel.production_returns.mpr ⟨100, h4, by simp⟩).1
  have hsum : ∑ u ∈ range accProblem.n, accProblem.pv u = 5 := by
    show ∑ u ∈ range 3, _ = _
    simp [accProblem, sum_range_succ]; norm_num
  have hle : ∀ v, accProblem.pv v ≤ 2 := fun v => by
    show (if v = 0 then (1 : ℚ) else 2) ≤ 2
    split <;> norm_num
  obtain ⟨S, T, Phi, Fl, C, r1, r2, r3, _, _, _, r6⟩ := C108_curve (A := 288) (frac := 1) accProblem_valid acc_ordinary acc_forward acc_backward
    (fun v hv => by
      have hv : v < 3 := hv
      constructor
      · show (v + 2) ^ 2 * (4 * 3 + 6) ≤ 288
        interval_cases v <;> norm_num
      · show (2 - v + 2) ^ 2 * (4 * 3 + 6) ≤ 288
        interval_cases v <;> norm_num)
    (by norm_num) acc_stored acc_given h3 h4 t3 t4 (fun v hv => ⟨l3 v (by rw [n3]; exact hv), l4 v (by rw [n4]; exact hv)⟩)
    (fun v _ => by show (0 : ℚ) < if v = 0 then 1 else 2; split <;> norm_num)
    (pv := [Arith.lit 1, Arith.lit 2, Arith.lit 2]) (by decide +kernel) (fraction := Arith.lit 1) (by decide +kernel)
    ⟨one_pos, .inr (by norm_num)⟩ ⟨0, by decide, by rw [hsum]; norm_num [accProblem]⟩
    (fun v hv θ hθ => by
      rw [hsum]
      have a := abs_le.mp hθ
      change -((((3 : ℕ) : ℚ) + 1) / 2 ^ 51 * 1) ≤ θ - 1 ∧ _ at a
      norm_num at a
      have := hle v
      exact iff_of_true (by linarith) (by linarith))
    stdSort_mergeSort (sortsPairs_sortBy Double.rounded)
  refine ⟨S, T, Phi, Fl, C, r1, r2, r3, fun i hi => ?_⟩
  obtain ⟨x, y, a, b, c⟩ := r6 i hi
  exact ⟨x, y, a, by exact_mod_cast b, by exact_mod_cast c⟩

end Verif.Props
