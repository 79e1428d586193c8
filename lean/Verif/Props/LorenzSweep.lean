/-
C110: Lorenz coefficient and sweep efficiency bound one another.
-/
import Verif.Props.SweepCurve

namespace Verif.Props
open Verif.Spec Verif.Derived Verif.Solver Finset

variable {K : Type} [Field K] [LinearOrder K] [IsStrictOrderedRing K]
variable {I : CurveInput K} {sort : List (X K × X K) → List (X K × X K)}

theorem abs_sub_min (a b : K) : |a - b| = a + b - 2 * min a b := by
  rcases le_total a b with h | h
  · rw [min_eq_left h, abs_of_nonpos (sub_nonpos.mpr h)]; ring
  · rw [min_eq_right h, abs_of_nonneg (sub_nonneg.mpr h)]; ring

/-- How far the inverse time of a cell is from the others on average. -/
theorem difference (_h : I.Valid) (u : Nat) : I.volume * (1 / I.time u) - I.rate
    = ∑ v ∈ range I.n with I.Kept v, I.pv v * (1 / I.time u - 1 / I.time v) := by
  have hV : ∑ v ∈ range I.n with I.Kept v, I.pv v = I.volume := rfl
  have hR : ∑ v ∈ range I.n with I.Kept v, I.pv v * (1 / I.time v) = I.rate := sum_congr rfl fun v _ => by rw [mul_one_div]
  rw [← hV, ← hR, sum_mul, ← sum_sub_distrib]
  exact sum_congr rfl fun v _ => by ring

/-- The mean deviation of inverse times from their mean tells the volume that has not been swept. -/
theorem unswept (h : I.Valid) : ∑ u ∈ range I.n with I.Kept u, I.pv u * |I.volume * (1 / I.time u) - I.rate|
    = 2 * I.rate * (I.volume - I.swept (I.volume / I.rate)) := by
  obtain ⟨V0, R0⟩ := volume_pos h
  have hV : ∑ v ∈ range I.n with I.Kept v, I.pv v = I.volume := rfl
  have hR : ∑ v ∈ range I.n with I.Kept v, I.pv v * (1 / I.time v) = I.rate := sum_congr rfl fun v _ => by rw [mul_one_div]
  have hS : ∑ v ∈ range I.n with I.Kept v, I.pv v * min 1 (I.volume / I.rate / I.time v) = I.swept (I.volume / I.rate) := rfl
  have e2 : ∀ u ∈ (range I.n).filter I.Kept, I.pv u * |I.volume * (1 / I.time u) - I.rate|
      = I.volume * (I.pv u * (1 / I.time u)) + I.rate * I.pv u - 2 * I.rate * (I.pv u * min 1 (I.volume / I.rate / I.time u)) := by
    intro u hu
    have e3 : min (I.volume * (1 / I.time u)) I.rate = I.rate * min 1 (I.volume / I.rate / I.time u) := by
      have t0 := h.time u (mem_filter.mp hu).2
      rw [mul_min_of_nonneg _ _ R0.le, mul_one, min_comm]
      congr 1
      field_simp
    rw [abs_sub_min, e3]
    ring
  rw [sum_congr rfl e2, sum_sub_distrib, sum_add_distrib, ← mul_sum, ← mul_sum, ← mul_sum, hR, hV, hS]
  ring

/-- **C110** Let `e` be sweep efficiency when one pore volume has been injected.  Then the Lorenz coefficient lies between `1 - e` and `1 - e²`. -/
theorem C110_lorenz (h : I.Valid) (hn : I.n < INT_MAX) (hs : StdSort sort) :
    ∃ g w e L, I.curve sort = .ok g ∧ sweepEfficiency g = .ok w ∧ OnLine w 1 e ∧ lorenzCoefficient g = .ok (X.fin L) ∧
      1 - e ≤ L ∧ L ≤ 1 - e ^ 2 := by
  obtain ⟨g, w, e, hg, hw, he, _⟩ := C109_distance h hn hs
  obtain ⟨g2, w2, hg2, hw2, hl, _⟩ := C47_line h hn hs
  obtain ⟨g3, hg3, hL⟩ := C83_meanDifference h hs
  rw [hg] at hg2 hg3; cases hg2; cases hg3
  rw [hw] at hw2; cases hw2
  refine ⟨g, w, e, _, hg, hw, he, hL, ?_⟩
  obtain ⟨_, he'⟩ := hl 1 e he
  obtain ⟨V0, R0⟩ := volume_pos h
  have hD : 0 < 2 * I.volume * I.rate := by positivity
  rw [one_mul] at he'
  have hsw : I.swept (I.volume / I.rate) = e * I.volume := by rw [he', div_mul_cancel₀ _ V0.ne']
  have mem : ∀ v ∈ (range I.n).filter I.Kept, 0 ≤ I.pv v ∧ 0 < I.time v := fun v hv =>
    ⟨h.pv v (mem_range.mp (mem_filter.mp hv).1), h.time v (mem_filter.mp hv).2⟩
  have hV : ∑ v ∈ range I.n with I.Kept v, I.pv v = I.volume := rfl
  have hR : ∑ v ∈ range I.n with I.Kept v, I.pv v * (1 / I.time v) = I.rate := sum_congr rfl fun v _ => by rw [mul_one_div]
  have hS : ∑ v ∈ range I.n with I.Kept v, I.pv v * min 1 (I.volume / I.rate / I.time v) = e * I.volume := hsw
  constructor
  · rw [le_div_iff₀ hD]
    have hd := unswept h
    rw [hsw] at hd
    refine le_trans (le_of_eq ?_) (hd.symm.trans_le (sum_le_sum fun u hu => ?_))
    · ring
    rw [difference h u]
    refine (mul_le_mul_of_nonneg_left (abs_sum_le_sum_abs _ _) (mem u hu).1).trans (le_of_eq ?_)
    rw [mul_sum]
    refine sum_congr rfl fun v hv => ?_
    rw [abs_mul, abs_of_nonneg (mem v hv).1, mul_assoc]
  · rw [div_le_iff₀ hD]
    have step : ∀ u ∈ (range I.n).filter I.Kept, ∀ v ∈ (range I.n).filter I.Kept, I.pv u * I.pv v * |1 / I.time u - 1 / I.time v|
        ≤ I.pv u * (1 / I.time u) * I.pv v + I.pv u * (I.pv v * (1 / I.time v))
          - 2 * (I.rate / I.volume) * (I.pv u * min 1 (I.volume / I.rate / I.time u)) * (I.pv v * min 1 (I.volume / I.rate / I.time v)) := by
      intro u hu v hv
      obtain ⟨pu, tu⟩ := mem u hu
      obtain ⟨pw, tw⟩ := mem v hv
      have c0 : 0 < I.volume / I.rate := div_pos V0 R0
      have au : 0 ≤ I.volume / I.rate / I.time u := div_nonneg c0.le tu.le
      have av : 0 ≤ I.volume / I.rate / I.time v := div_nonneg c0.le tw.le
      have prod : min 1 (I.volume / I.rate / I.time u) * min 1 (I.volume / I.rate / I.time v)
          ≤ min (I.volume / I.rate / I.time u) (I.volume / I.rate / I.time v) := by
        refine le_min ?_ ?_
        · exact (mul_le_of_le_one_right (le_min zero_le_one au) (min_le_left _ _)).trans (min_le_right _ _)
        · exact (mul_le_of_le_one_left (le_min zero_le_one av) (min_le_left _ _)).trans (min_le_right _ _)
      have scale : min (I.volume / I.rate / I.time u) (I.volume / I.rate / I.time v) = I.volume / I.rate * min (1 / I.time u) (1 / I.time v) := by
        rw [mul_min_of_nonneg _ _ c0.le, mul_one_div, mul_one_div]
      rw [scale] at prod
      have key : I.rate / I.volume * (min 1 (I.volume / I.rate / I.time u) * min 1 (I.volume / I.rate / I.time v))
          ≤ min (1 / I.time u) (1 / I.time v) := by
        refine (mul_le_mul_of_nonneg_left prod (div_nonneg R0.le V0.le)).trans (le_of_eq ?_)
        rw [← mul_assoc, div_mul_div_cancel₀ V0.ne', div_self R0.ne', one_mul]
      rw [abs_sub_min]
      have := mul_le_mul_of_nonneg_left key (mul_nonneg pu pw)
      linarith
    refine (sum_le_sum fun u hu => sum_le_sum (step u hu)).trans (le_of_eq ?_)
    simp only [sum_sub_distrib, sum_add_distrib, ← mul_sum, ← sum_mul]
    rw [hR, hV, hS]
    field_simp
    ring

/-- C110: three cells of different travel times and pore volumes, one of which is ignored. -/
example : ∃ g w e L, exCurve.curve mergeSort = .ok g ∧ sweepEfficiency g = .ok w ∧ OnLine w 1 e ∧ lorenzCoefficient g = .ok (X.fin L) ∧
    1 - e ≤ L ∧ L ≤ 1 - e ^ 2 ∧ exCurve.Kept 0 ∧ exCurve.Kept 1 ∧ exCurve.time 0 ≠ exCurve.time 1 ∧ ¬ exCurve.Kept 2 := by
  obtain ⟨g, w, e, L, a, b, c, d, l, u⟩ := C110_lorenz exCurve_valid (by decide) (stdSort_mergeSort (K := ℚ))
  exact ⟨g, w, e, L, a, b, c, d, l, u, by rw [exCurve_kept]; omega, by rw [exCurve_kept]; omega, by norm_num [CurveInput.time, exCurve],
    by rw [exCurve_kept]; omega⟩

/-- **C110** If the volume has only two travel times, the Lorenz coefficient is exactly the fraction of the volume that has not been swept when one pore volume has been injected: the lower bound is sharp. -/
theorem C110_two (h : I.Valid) (hn : I.n < INT_MAX) (hs : StdSort sort) {a b : K}
    (hab : ∀ v, I.Kept v → 0 < I.pv v → I.time v = a ∨ I.time v = b) :
    ∃ g w e, I.curve sort = .ok g ∧ sweepEfficiency g = .ok w ∧ OnLine w 1 e ∧ lorenzCoefficient g = .ok (X.fin (1 - e)) := by
  wlog hle : a ≤ b generalizing a b
  · exact this (fun v k p => (hab v k p).symm) (le_of_not_ge hle)
  obtain ⟨g, w, e, hg, hw, he, _⟩ := C109_distance h hn hs
  obtain ⟨g2, w2, hg2, hw2, hl, _⟩ := C47_line h hn hs
  obtain ⟨g3, hg3, hL⟩ := C83_meanDifference h hs
  rw [hg] at hg2 hg3; cases hg2; cases hg3
  rw [hw] at hw2; cases hw2
  refine ⟨g, w, e, hg, hw, he, ?_⟩
  rw [hL]
  congr 2
  obtain ⟨_, he'⟩ := hl 1 e he
  obtain ⟨V0, R0⟩ := volume_pos h
  rw [one_mul] at he'
  have hsw : I.swept (I.volume / I.rate) = e * I.volume := by rw [he', div_mul_cancel₀ _ V0.ne']
  have hd := unswept h
  rw [hsw] at hd
  refine (div_eq_iff (by positivity)).mpr ?_
  have e1 : ∀ u ∈ (range I.n).filter I.Kept, ∑ v ∈ range I.n with I.Kept v, I.pv u * I.pv v * |1 / I.time u - 1 / I.time v|
      = I.pv u * |I.volume * (1 / I.time u) - I.rate| := by
    intro u hu
    rcases (h.pv u (mem_range.mp (mem_filter.mp hu).1)).eq_or_lt with p0 | p0
    · rw [← p0, zero_mul]; exact sum_eq_zero fun v _ => by ring
    rw [difference h u, ← abs_of_pos p0, ← abs_mul, abs_of_pos p0, mul_sum]
    rcases hab u (mem_filter.mp hu).2 p0 with ta | ta
    · have sg : ∀ v ∈ (range I.n).filter I.Kept, 0 ≤ I.pv u * (I.pv v * (1 / I.time u - 1 / I.time v)) := by
        intro v hv
        rcases (h.pv v (mem_range.mp (mem_filter.mp hv).1)).eq_or_lt with q0 | q0
        · rw [← q0]; simp
        refine mul_nonneg p0.le (mul_nonneg q0.le (sub_nonneg.mpr (one_div_le_one_div_of_le (h.time u (mem_filter.mp hu).2) ?_)))
        rcases hab v (mem_filter.mp hv).2 q0 with tb | tb <;> rw [ta, tb]
        exact hle
      rw [abs_of_nonneg (sum_nonneg sg)]
      refine sum_congr rfl fun v hv => ?_
      have pv0 := h.pv v (mem_range.mp (mem_filter.mp hv).1)
      rw [← abs_of_nonneg (sg v hv), abs_mul, abs_mul, abs_of_pos p0, abs_of_nonneg pv0, mul_assoc]
    · have sg : ∀ v ∈ (range I.n).filter I.Kept, I.pv u * (I.pv v * (1 / I.time u - 1 / I.time v)) ≤ 0 := by
        intro v hv
        rcases (h.pv v (mem_range.mp (mem_filter.mp hv).1)).eq_or_lt with q0 | q0
        · rw [← q0]; simp
        refine mul_nonpos_of_nonneg_of_nonpos p0.le (mul_nonpos_of_nonneg_of_nonpos q0.le
          (sub_nonpos.mpr (one_div_le_one_div_of_le (h.time v (mem_filter.mp hv).2) ?_)))
        rcases hab v (mem_filter.mp hv).2 q0 with tb | tb <;> rw [ta, tb]
        exact hle
      rw [abs_of_nonpos (sum_nonpos sg), ← sum_neg_distrib]
      refine sum_congr rfl fun v hv => ?_
      have pv0 := h.pv v (mem_range.mp (mem_filter.mp hv).1)
      rw [← abs_of_nonpos (sg v hv), abs_mul, abs_mul, abs_of_pos p0, abs_of_nonneg pv0, mul_assoc]
  rw [sum_congr rfl e1, hd]
  ring

/-- C110: the two cells of the example that are not ignored have different travel times. -/
example : ∃ g w e, exCurve.curve mergeSort = .ok g ∧ sweepEfficiency g = .ok w ∧ OnLine w 1 e ∧ lorenzCoefficient g = .ok (X.fin (1 - e)) ∧
    exCurve.Kept 0 ∧ exCurve.Kept 1 ∧ exCurve.time 0 ≠ exCurve.time 1 := by
  obtain ⟨g, w, e, a, b, c, d⟩ := C110_two exCurve_valid (by decide) (stdSort_mergeSort (K := ℚ)) (a := exCurve.time 0) (b := exCurve.time 1)
    (fun v k _ => by
      rw [exCurve_kept] at k
      have : v = 0 ∨ v = 1 := by omega
      rcases this with rfl | rfl <;> simp)
  exact ⟨g, w, e, a, b, c, d, by rw [exCurve_kept]; omega, by rw [exCurve_kept]; omega, by norm_num [CurveInput.time, exCurve]⟩

/-- **C110** All volume is swept by the first pore volume injected exactly if the Lorenz coefficient is zero. -/
theorem C110_piston (h : I.Valid) (hn : I.n < INT_MAX) (hs : StdSort sort) :
    ∃ g w e L, I.curve sort = .ok g ∧ sweepEfficiency g = .ok w ∧ OnLine w 1 e ∧ lorenzCoefficient g = .ok (X.fin L) ∧
      (e = 1 ↔ L = 0) ∧ (e = 1 ↔ ∀ u v, I.Kept u → I.Kept v → 0 < I.pv u → 0 < I.pv v → I.time u = I.time v) := by
  obtain ⟨g, w, e, L, hg, hw, he, hL, l1, l2⟩ := C110_lorenz h hn hs
  obtain ⟨g2, x, hg2, hx, x0, _, xi⟩ := C44_range h hs
  rw [hg] at hg2; cases hg2
  rw [hL] at hx; cases hx
  obtain ⟨g3, w3, hg3, hw3, hl, _⟩ := C47_line h hn hs
  rw [hg] at hg3; cases hg3
  rw [hw] at hw3; cases hw3
  have e1 : e ≤ 1 := by
    obtain ⟨_, e'⟩ := hl 1 e he
    obtain ⟨V0, R0⟩ := volume_pos h
    rw [e', div_le_one V0]
    refine sum_le_sum fun v hv => mul_le_of_le_one_right (h.pv v (mem_range.mp (mem_filter.mp hv).1)) (min_le_left _ _)
  have key : e = 1 ↔ L = 0 := by
    constructor
    · rintro rfl; norm_num at l2; exact le_antisymm l2 x0
    · intro z; rw [z] at l1; linarith
  exact ⟨g, w, e, L, hg, hw, he, hL, key, key.trans xi⟩

/-- C110: the example is not piston-like. -/
example : ∃ g w e, exCurve.curve mergeSort = .ok g ∧ sweepEfficiency g = .ok w ∧ OnLine w 1 e ∧ e ≠ 1 := by
  obtain ⟨g, w, e, L, a, b, c, _, _, i⟩ := C110_piston exCurve_valid (by decide) (stdSort_mergeSort (K := ℚ))
  refine ⟨g, w, e, a, b, c, fun z => ?_⟩
  have := i.mp z 0 1 (by rw [exCurve_kept]; omega) (by rw [exCurve_kept]; omega) (by norm_num [exCurve]) (by norm_num [exCurve])
  norm_num [CurveInput.time, exCurve] at this

/-- **C110** The Lorenz coefficient is at most one less the dimensionless time of breakthrough. -/
theorem C110_breakthrough (h : I.Valid) (hs : StdSort sort) :
    ∃ g L, I.curve sort = .ok g ∧ lorenzCoefficient g = .ok (X.fin L) ∧
      ∀ τ, (∀ v, I.Kept v → 0 < I.pv v → τ ≤ I.time v * I.rate / I.volume) → L ≤ 1 - τ := by
  obtain ⟨g, hg, hL⟩ := C83_meanDifference h hs
  obtain ⟨g2, x, hg2, hx, _, x1, _⟩ := C44_range h hs
  rw [hg] at hg2; cases hg2
  obtain ⟨V0, R0⟩ := volume_pos h
  refine ⟨g, _, hg, hL, fun τ hτ => ?_⟩
  rcases le_or_gt τ 0 with t0 | t0
  · rw [hL] at hx
    cases hx
    linarith
  have hV : ∑ v ∈ range I.n with I.Kept v, I.pv v = I.volume := rfl
  have hR : ∑ v ∈ range I.n with I.Kept v, I.pv v * (1 / I.time v) = I.rate := sum_congr rfl fun v _ => by rw [mul_one_div]
  have hD : 0 < 2 * I.volume * I.rate := by positivity
  rw [div_le_iff₀ hD]
  have step : ∀ u ∈ (range I.n).filter I.Kept, ∀ v ∈ (range I.n).filter I.Kept, I.pv u * I.pv v * |1 / I.time u - 1 / I.time v|
      ≤ I.pv u * (1 / I.time u) * I.pv v + I.pv u * (I.pv v * (1 / I.time v))
        - 2 * (I.volume * τ / I.rate) * (I.pv u * (1 / I.time u)) * (I.pv v * (1 / I.time v)) := by
    intro u hu v hv
    have hu' := mem_filter.mp hu
    have hv' := mem_filter.mp hv
    rcases (h.pv u (mem_range.mp hu'.1)).eq_or_lt with pu | pu
    · rw [← pu]; simp
    rcases (h.pv v (mem_range.mp hv'.1)).eq_or_lt with pw | pw
    · rw [← pw]; simp
    have tu := h.time u hu'.2
    have tw := h.time v hv'.2
    have early : ∀ w, I.Kept w → 0 < I.pv w → I.volume * τ / I.rate * (1 / I.time w) ≤ 1 := fun w hw pw => by
      have := hτ w hw pw
      rw [le_div_iff₀ V0] at this
      rw [mul_one_div, div_le_one (h.time w hw), div_le_iff₀ R0]
      linarith
    have key : I.volume * τ / I.rate * (1 / I.time u) * (1 / I.time v) ≤ min (1 / I.time u) (1 / I.time v) := by
      refine le_min ?_ ?_
      · rw [mul_right_comm]
        exact mul_le_of_le_one_left (by positivity) (early v hv'.2 pw)
      · exact mul_le_of_le_one_left (by positivity) (early u hu'.2 pu)
    rw [abs_sub_min]
    have := mul_le_mul_of_nonneg_left key (mul_pos pu pw).le
    linarith
  refine (sum_le_sum fun u hu => sum_le_sum (step u hu)).trans (le_of_eq ?_)
  simp only [sum_sub_distrib, sum_add_distrib, ← mul_sum, ← sum_mul]
  rw [hR, hV]
  field_simp
  ring

/-- C110: breakthrough in the example comes with the first cell, after the dimensionless time 8/9. -/
example : ∃ g L, exCurve.curve mergeSort = .ok g ∧ lorenzCoefficient g = .ok (X.fin L) ∧ L ≤ 1 - 8 / 9 := by
  obtain ⟨g, L, a, b, c⟩ := C110_breakthrough exCurve_valid (stdSort_mergeSort (K := ℚ))
  refine ⟨g, L, a, b, c _ fun v k _ => ?_⟩
  have hV : exCurve.volume = 3 := by
    unfold CurveInput.volume
    rw [Finset.sum_filter]
    show ∑ u ∈ range 3, _ = _
    rw [sum_range_succ, sum_range_succ, sum_range_one]
    simp only [exCurve_kept]
    norm_num [exCurve]
  have hR : exCurve.rate = 4 / 3 := by
    unfold CurveInput.rate
    rw [Finset.sum_filter]
    show ∑ u ∈ range 3, _ = _
    rw [sum_range_succ, sum_range_succ, sum_range_one]
    simp only [exCurve_kept]
    norm_num [exCurve, CurveInput.time]
  rw [hV, hR]
  rw [exCurve_kept] at k
  interval_cases v <;> norm_num [exCurve, CurveInput.time]

end Verif.Props
