/-
C109: sweep efficiency and the F-Phi curve determine one another.
-/
import Verif.Props.SweepNear
import Verif.Props.CurveBest

namespace Verif.Props
open Verif.Spec Verif.Derived Verif.Solver Finset

variable {K : Type} [Field K] [LinearOrder K] [IsStrictOrderedRing K]
variable {I : CurveInput K} {sort : List (X K × X K) → List (X K × X K)}

/-- What is filled at the time `T`. -/
theorem swept_rest (h : I.Valid) {T : K} (hT : 0 < T) :
    ∑ v ∈ range I.n with I.Kept v, I.pv v * max 0 (1 / I.time v - 1 / T) = I.rate - I.swept T / T := by
  unfold CurveInput.rate CurveInput.swept
  rw [sum_div, ← sum_sub_distrib]
  refine sum_congr rfl fun v hv => ?_
  have t0 := h.time v (mem_filter.mp hv).2
  rcases le_total (I.time v) T with ht | ht
  · rw [max_eq_right (sub_nonneg.mpr (one_div_le_one_div_of_le t0 ht)), min_eq_left ((one_le_div t0).mpr ht)]
    ring
  · rw [max_eq_left (sub_nonpos.mpr (one_div_le_one_div_of_le hT ht)), min_eq_right ((div_le_one t0).mpr ht)]
    field_simp
    ring

/-- **C109** Sweep efficiency after the dimensionless time `τ` is the smallest value of `x + τ (1 - y)` over all points `(x, y)` of the F-Phi
    curve: parts of storage capacity `x` count as swept, the others as filled at the rate of their flow capacity `1 - y`. -/
theorem C109_sweep (h : I.Valid) (hn : I.n < INT_MAX) (hs : StdSort sort) :
    ∃ g w, I.curve sort = .ok g ∧ sweepEfficiency g = .ok w ∧ ∀ τ e, OnLine w τ e →
      (∀ x y, OnLine g x y → e ≤ x + τ * (1 - y)) ∧ ∃ x y, OnLine g x y ∧ e = x + τ * (1 - y) := by
  obtain ⟨g, w, hg, hw, hl, _⟩ := C47_line h hn hs
  obtain ⟨g2, hg2, _, hbest⟩ := C43_largest h hs
  rw [hg] at hg2; cases hg2
  obtain ⟨V0, R0⟩ := volume_pos h
  refine ⟨g, w, hg, hw, fun τ e hτe => ?_⟩
  obtain ⟨hτ, he⟩ := hl τ e hτe
  rcases hτ.eq_or_lt with rfl | hτ
  · rw [zero_mul, zero_div, swept_zero, zero_div] at he
    subst he
    refine ⟨fun x y hxy => ?_, ?_⟩
    · rw [zero_mul, add_zero]; exact ((onLine_curve h hs hg).mp hxy).1
    · obtain ⟨y, hy⟩ := exists_onLine h hs hg (x := 0) le_rfl zero_le_one
      exact ⟨0, y, hy, by ring⟩
  have hT : 0 < τ * I.volume / I.rate := div_pos (mul_pos hτ V0) R0
  have hsum := swept_rest h hT
  have hswept : I.swept (τ * I.volume / I.rate) / (τ * I.volume / I.rate) = e * I.rate / τ := by
    rw [he]
    field_simp
  have hx : ∀ x, I.volume * x / (τ * I.volume / I.rate) = x * I.rate / τ := fun x => by field_simp
  have upper : ∀ x y, OnLine g x y → e ≤ x + τ * (1 - y) := by
    intro x y hxy
    have a := ((onLine_curve h hs hg).mp hxy).2.2.1 _ hT
    rw [hsum, hswept, hx] at a
    have b : I.rate * e ≤ I.rate * (x + τ * (1 - y)) := by
      have c := mul_le_mul_of_nonneg_left a hτ.le
      have d : τ * (x * I.rate / τ + (I.rate - e * I.rate / τ)) = x * I.rate + τ * I.rate - e * I.rate := by field_simp; ring
      rw [d] at c
      linarith
    exact le_of_mul_le_mul_left b R0
  refine ⟨upper, ?_⟩
  set T := τ * I.volume / I.rate with hTdef
  let u : Nat → K := fun v => if I.time v ≤ T then 1 else 0
  have u01 : ∀ v, 0 ≤ u v ∧ u v ≤ 1 := fun v => by
    show 0 ≤ (if I.time v ≤ T then (1 : K) else 0) ∧ (if I.time v ≤ T then (1 : K) else 0) ≤ 1
    split
    · exact ⟨zero_le_one, le_rfl⟩
    · exact ⟨le_rfl, zero_le_one⟩
  have up : ∀ v ∈ (range I.n).filter I.Kept, 0 ≤ u v * I.pv v ∧ u v * I.pv v ≤ I.pv v := fun v hv => by
    have p0 := h.pv v (mem_range.mp (mem_filter.mp hv).1)
    exact ⟨mul_nonneg (u01 v).1 p0, mul_le_of_le_one_left p0 (u01 v).2⟩
  set m := ∑ v ∈ range I.n with I.Kept v, u v * I.pv v with hm
  have m0 : 0 ≤ m := sum_nonneg fun v hv => (up v hv).1
  have m1 : m ≤ I.volume := sum_le_sum fun v hv => (up v hv).2
  obtain ⟨y, hy⟩ := exists_onLine h hs hg (x := m / I.volume) (div_nonneg m0 V0.le) ((div_le_one V0).mpr m1)
  refine ⟨m / I.volume, y, hy, le_antisymm (upper _ _ hy) ?_⟩
  have low := (hbest _ _ hy).1 u (fun v _ => u01 v) (by rw [div_mul_cancel₀ _ V0.ne'])
  have split : ∑ v ∈ range I.n with I.Kept v, u v * (I.pv v / I.time v) = m / T + (I.rate - e * I.rate / τ) := by
    rw [← hswept, ← hsum, hm, sum_div, ← sum_add_distrib]
    refine sum_congr rfl fun v hv => ?_
    have t0 := h.time v (mem_filter.mp hv).2
    show (if I.time v ≤ T then (1 : K) else 0) * _ = (if I.time v ≤ T then (1 : K) else 0) * _ / T + _
    split
    · rename_i ht
      rw [max_eq_right (sub_nonneg.mpr (one_div_le_one_div_of_le t0 ht))]
      ring
    · rename_i ht
      rw [max_eq_left (sub_nonpos.mpr (one_div_le_one_div_of_le hT (not_le.mp ht).le))]
      ring
  rw [split] at low
  have e1 : m / T = m / I.volume * I.rate / τ := by rw [hTdef]; field_simp
  rw [e1] at low
  have c := mul_le_mul_of_nonneg_left low hτ.le
  have d : τ * (m / I.volume * I.rate / τ + (I.rate - e * I.rate / τ)) = m / I.volume * I.rate + τ * I.rate - e * I.rate := by field_simp; ring
  rw [d] at c
  have b : I.rate * (m / I.volume + τ * (1 - y)) ≤ I.rate * e := by linarith
  exact le_of_mul_le_mul_left b R0

/-- **C109** The largest excess of flow capacity over storage capacity is the fraction of the volume that is not swept when one pore volume has
    been injected. -/
theorem C109_distance (h : I.Valid) (hn : I.n < INT_MAX) (hs : StdSort sort) :
    ∃ g w e, I.curve sort = .ok g ∧ sweepEfficiency g = .ok w ∧ OnLine w 1 e ∧
      (∀ x y, OnLine g x y → y - x ≤ 1 - e) ∧ ∃ x y, OnLine g x y ∧ y - x = 1 - e := by
  obtain ⟨g, w, hg, hw, hmin⟩ := C109_sweep h hn hs
  obtain ⟨g2, w2, hg2, hw2, _, hex⟩ := C47_line h hn hs
  rw [hg] at hg2; cases hg2
  rw [hw] at hw2; cases hw2
  obtain ⟨V0, R0⟩ := volume_pos h
  obtain ⟨v, hv, hp, hle⟩ : ∃ v, I.Kept v ∧ 0 < I.pv v ∧ 1 ≤ I.time v * I.rate / I.volume := by
    by_contra hno
    push Not at hno
    have hlt : ∀ v, I.Kept v → 0 < I.pv v → I.time v * I.rate < I.volume := fun v hv hp => by
      have := hno v hv hp
      rwa [div_lt_one V0] at this
    have key : I.volume * I.volume⁻¹ < I.rate * I.rate⁻¹ := by
      obtain ⟨v0, hv0, hp0⟩ := h.some_pv
      have : ∑ v ∈ range I.n with I.Kept v, I.pv v * I.volume⁻¹ < ∑ v ∈ range I.n with I.Kept v, I.pv v / I.time v * I.rate⁻¹ := by
        have inv : ∀ v, I.Kept v → 0 < I.pv v → I.volume⁻¹ < (I.time v)⁻¹ * I.rate⁻¹ := fun v hv hp => by
          rw [← mul_inv]
          exact inv_strictAnti₀ (mul_pos (h.time v hv) R0) (hlt v hv hp)
        refine sum_lt_sum (fun v hv => ?_) ⟨v0, mem_filter.mpr ⟨mem_range.mpr hv0.1, hv0⟩, ?_⟩
        · obtain ⟨h1, h2⟩ := mem_filter.mp hv
          rcases (h.pv v (mem_range.mp h1)).eq_or_lt with hz | hz
          · rw [← hz]; simp
          · rw [div_eq_mul_inv, mul_assoc]
            exact mul_le_mul_of_nonneg_left (inv v h2 hz).le hz.le
        · rw [div_eq_mul_inv, mul_assoc]
          exact mul_lt_mul_of_pos_left (inv v0 hv0 hp0) hp0
      rwa [← sum_mul, ← sum_mul] at this
    rw [mul_inv_cancel₀ V0.ne', mul_inv_cancel₀ R0.ne'] at key
    exact lt_irrefl _ key
  obtain ⟨e, he⟩ := hex v hv hp 1 zero_le_one hle
  obtain ⟨h1, x, y, h2, h3⟩ := hmin 1 e he
  refine ⟨g, w, e, hg, hw, he, fun x y hxy => ?_, x, y, h2, ?_⟩
  · have := h1 x y hxy
    linarith
  · linarith

/-- **C109** Sweep efficiency is at most the dimensionless time, and equal to it up to breakthrough: exactly if no contributing cell has a
    travel time, in units of volume by rate, below that time. -/
theorem C109_breakthrough (h : I.Valid) (hn : I.n < INT_MAX) (hs : StdSort sort) :
    ∃ g w, I.curve sort = .ok g ∧ sweepEfficiency g = .ok w ∧ ∀ τ e, OnLine w τ e →
      e ≤ τ ∧ e ≤ 1 ∧ (e = τ ↔ ∀ v, I.Kept v → 0 < I.pv v → τ ≤ I.time v * I.rate / I.volume) := by
  obtain ⟨g, w, hg, hw, hl, _⟩ := C47_line h hn hs
  obtain ⟨V0, R0⟩ := volume_pos h
  refine ⟨g, w, hg, hw, fun τ e hτe => ?_⟩
  obtain ⟨hτ, rfl⟩ := hl τ e hτe
  set T := τ * I.volume / I.rate with hT
  have eτ : τ = (∑ v ∈ range I.n with I.Kept v, I.pv v * (T / I.time v)) / I.volume := by
    have : ∑ v ∈ range I.n with I.Kept v, I.pv v * (T / I.time v) = T * I.rate := by
      unfold CurveInput.rate
      rw [mul_sum]
      exact sum_congr rfl fun v _ => by ring
    rw [this, hT]
    field_simp
  have term : ∀ v ∈ (range I.n).filter I.Kept, I.pv v * min 1 (T / I.time v) ≤ I.pv v * (T / I.time v) := fun v hv =>
    mul_le_mul_of_nonneg_left (min_le_right _ _) (h.pv v (mem_range.mp (mem_filter.mp hv).1))
  have time : ∀ v, I.Kept v → (τ ≤ I.time v * I.rate / I.volume ↔ T / I.time v ≤ 1) := fun v hv => by
    rw [le_div_iff₀ V0, div_le_one (h.time v hv), hT, div_le_iff₀ R0]
  refine ⟨?_, ?_, ?_⟩
  · conv_rhs => rw [eτ]
    exact div_le_div_of_nonneg_right (sum_le_sum term) V0.le
  · rw [div_le_one V0]
    exact sum_le_sum fun v hv => mul_le_of_le_one_right (h.pv v (mem_range.mp (mem_filter.mp hv).1)) (min_le_left _ _)
  · constructor
    · intro he v hv hp
      rw [time v hv]
      by_contra hlt
      push Not at hlt
      have : I.swept T < ∑ v ∈ range I.n with I.Kept v, I.pv v * (T / I.time v) := by
        refine sum_lt_sum term ⟨v, mem_filter.mpr ⟨mem_range.mpr hv.1, hv⟩, ?_⟩
        rw [min_eq_left hlt.le]
        exact mul_lt_mul_of_pos_left hlt hp
      rw [eτ, div_left_inj' V0.ne'] at he
      exact absurd he this.ne
    · intro hall
      conv_rhs => rw [eτ]
      rw [div_left_inj' V0.ne']
      refine sum_congr rfl fun v hv => ?_
      obtain ⟨h1, h2⟩ := mem_filter.mp hv
      rcases (h.pv v (mem_range.mp h1)).eq_or_lt with hz | hz
      · rw [← hz, zero_mul, zero_mul]
      · rw [min_eq_right ((time v h2).mp (hall v h2 hz))]

/-- C109: three cells of different travel times and pore volumes, one of which is ignored. -/
example : exCurve.Valid ∧ exCurve.n < INT_MAX ∧ StdSort (mergeSort (K := ℚ)) ∧ exCurve.Kept 0 ∧ exCurve.Kept 1 ∧ exCurve.time 0 ≠ exCurve.time 1 ∧
    ¬ exCurve.Kept 2 :=
  ⟨exCurve_valid, by decide, stdSort_mergeSort, by rw [exCurve_kept]; omega, by rw [exCurve_kept]; omega, by norm_num [CurveInput.time, exCurve],
    by rw [exCurve_kept]; omega⟩

end Verif.Props
