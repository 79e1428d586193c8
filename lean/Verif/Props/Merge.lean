/-
C111: averaging over cells hides heterogeneity, it never adds any.
-/
import Verif.Props.SweepCurve
import Verif.Spec.Merge

namespace Verif.Props
open Verif.Spec Verif.Derived Verif.Solver Finset

variable {K : Type} [Field K] [LinearOrder K] [IsStrictOrderedRing K]
variable {I J : CurveInput K} {whole : Nat → Nat} {sort sort' : List (X K × X K) → List (X K × X K)}

omit [IsStrictOrderedRing K] in
theorem _root_.Verif.Spec.CurveInput.Merged.sum (h : J.Merged whole I) (f : Nat → K) :
    ∑ u ∈ range J.n with J.Kept u, f u = ∑ v ∈ range I.n with I.Kept v, ∑ u ∈ range J.n with whole u = v, f u := by
  rw [← sum_fiberwise_of_maps_to (g := whole) (t := (range I.n).filter fun v => I.Kept v)]
  · apply sum_congr rfl
    intro v hv
    rw [mem_filter, mem_range] at hv
    apply sum_congr _ fun _ _ => rfl
    ext u
    simp only [mem_filter, mem_range]
    constructor
    · rintro ⟨⟨a, _⟩, b⟩; exact ⟨a, b⟩
    · rintro ⟨a, b⟩; exact ⟨⟨a, (h.kept u a).mpr (b ▸ hv.2)⟩, b⟩
  · intro u hu
    rw [mem_filter, mem_range] at hu ⊢
    exact ⟨h.cell u hu.1, (h.kept u hu.1).mp hu.2⟩

omit [IsStrictOrderedRing K] in
theorem _root_.Verif.Spec.CurveInput.Merged.volume (h : J.Merged whole I) : J.volume = I.volume := by
  unfold CurveInput.volume
  rw [h.sum]
  exact sum_congr rfl fun v hv => h.pv_sum v (mem_range.mp (mem_filter.mp hv).1)

omit [IsStrictOrderedRing K] in
theorem _root_.Verif.Spec.CurveInput.Merged.rate (h : J.Merged whole I) : J.rate = I.rate := by
  unfold CurveInput.rate
  rw [h.sum]
  exact sum_congr rfl fun v hv => h.rate_sum v (mem_filter.mp hv).2

/-- What has been swept in a merged cell is no less than in its parts. -/
theorem _root_.Verif.Spec.CurveInput.Merged.swept (h : J.Merged whole I) (hI : I.Valid) (hJ : J.Valid) (t : K) :
    J.swept t ≤ I.swept t := by
  unfold CurveInput.swept
  rw [h.sum]
  refine sum_le_sum fun v hv => ?_
  obtain ⟨h1, h2⟩ := mem_filter.mp hv
  have p0 : ∀ u ∈ (range J.n).filter (fun u => whole u = v), 0 ≤ J.pv u := fun u hu => hJ.pv u (mem_range.mp (mem_filter.mp hu).1)
  have q0 := hI.pv v (mem_range.mp h1)
  rw [mul_min_of_nonneg _ _ q0, mul_one]
  refine le_min ?_ ?_
  · rw [← h.pv_sum v (mem_range.mp h1)]
    exact sum_le_sum fun u hu => mul_le_of_le_one_right (p0 u hu) (min_le_left _ _)
  · have : I.pv v * (t / I.time v) = t * (I.pv v / I.time v) := by ring
    rw [this, ← h.rate_sum v h2, mul_sum]
    refine sum_le_sum fun u hu => (mul_le_mul_of_nonneg_left (min_le_right _ _) (p0 u hu)).trans (le_of_eq ?_)
    ring

/-- **C111** The F-Phi curve of the coarser grid lies nowhere above that of the finer one. -/
theorem C111_curve (h : J.Merged whole I) (hI : I.Valid) (hJ : J.Valid) (hs : StdSort sort) (hs' : StdSort sort') :
    ∃ g g', J.curve sort = .ok g ∧ I.curve sort' = .ok g' ∧ ∀ x y y', OnLine g x y → OnLine g' x y' → y' ≤ y := by
  obtain ⟨g, hg, _⟩ := C83_meanDifference hJ hs
  obtain ⟨g', hg', _⟩ := C83_meanDifference hI hs'
  refine ⟨g, g', hg, hg', fun x y y' hy hy' => ?_⟩
  obtain ⟨_, _, _, T, hT, ey⟩ := (onLine_curve hJ hs hg).mp hy
  have a := ((onLine_curve hI hs' hg').mp hy').2.2.1 T hT
  obtain ⟨_, R0⟩ := volume_pos hI
  rw [swept_rest hJ hT, h.rate, h.volume] at ey
  rw [swept_rest hI hT] at a
  have b := div_le_div_of_nonneg_right (h.swept hI hJ T) hT.le
  exact le_of_mul_le_mul_left (by linarith) R0

/-- **C111** Its Lorenz coefficient is no larger. -/
theorem C111_lorenz (h : J.Merged whole I) (hI : I.Valid) (hJ : J.Valid) (hs : StdSort sort) (hs' : StdSort sort') :
    ∃ g g' L L', J.curve sort = .ok g ∧ I.curve sort' = .ok g' ∧ lorenzCoefficient g = .ok (X.fin L) ∧
      lorenzCoefficient g' = .ok (X.fin L') ∧ L' ≤ L := by
  obtain ⟨g, hg, hl⟩ := C83_meanDifference hJ hs
  obtain ⟨g', hg', hl'⟩ := C83_meanDifference hI hs'
  refine ⟨g, g', _, _, hg, hg', hl, hl', ?_⟩
  obtain ⟨V0, R0⟩ := volume_pos hI
  rw [h.volume, h.rate]
  refine div_le_div_of_nonneg_right ?_ (by positivity)
  rw [h.sum]
  refine sum_le_sum fun v hv => ?_
  simp only [h.sum]
  rw [sum_comm]
  refine sum_le_sum fun w hw => ?_
  have hv' := mem_filter.mp hv
  have hw' := mem_filter.mp hw
  have e : I.pv v * I.pv w * |1 / I.time v - 1 / I.time w| = |I.pv v / I.time v * I.pv w - I.pv v * (I.pv w / I.time w)| := by
    rw [← abs_of_nonneg (mul_nonneg (hI.pv v (mem_range.mp hv'.1)) (hI.pv w (mem_range.mp hw'.1))), ← abs_mul]
    congr 1
    ring
  rw [e, ← h.rate_sum v hv'.2, ← h.rate_sum w hw'.2, ← h.pv_sum v (mem_range.mp hv'.1), ← h.pv_sum w (mem_range.mp hw'.1), sum_mul_sum, sum_mul_sum,
    ← sum_sub_distrib]
  refine (abs_sum_le_sum_abs _ _).trans (sum_le_sum fun a ha => ?_)
  rw [← sum_sub_distrib]
  refine (abs_sum_le_sum_abs _ _).trans (le_of_eq (sum_congr rfl fun b hb => ?_))
  have pa := hJ.pv a (mem_range.mp (mem_filter.mp ha).1)
  have pb := hJ.pv b (mem_range.mp (mem_filter.mp hb).1)
  rw [show J.pv a / J.time a * J.pv b - J.pv a * (J.pv b / J.time b) = J.pv a * J.pv b * (1 / J.time a - 1 / J.time b) by ring, abs_mul,
    abs_of_nonneg (mul_nonneg pa pb)]

/-- **C111** Its sweep efficiency is no smaller at any time. -/
theorem C111_sweep (h : J.Merged whole I) (hI : I.Valid) (hJ : J.Valid) (hi : I.n < INT_MAX) (hj : J.n < INT_MAX) (hs : StdSort sort)
    (hs' : StdSort sort') :
    ∃ g g' w w', J.curve sort = .ok g ∧ I.curve sort' = .ok g' ∧ sweepEfficiency g = .ok w ∧ sweepEfficiency g' = .ok w' ∧
      ∀ t e e', OnLine w t e → OnLine w' t e' → e ≤ e' := by
  obtain ⟨g, w, hg, hw, hl, _⟩ := C47_line hJ hj hs
  obtain ⟨g', w', hg', hw', hl', _⟩ := C47_line hI hi hs'
  refine ⟨g, g', w, w', hg, hg', hw, hw', fun t e e' he he' => ?_⟩
  obtain ⟨_, rfl⟩ := hl t e he
  obtain ⟨_, rfl⟩ := hl' t e' he'
  obtain ⟨V0, _⟩ := volume_pos hI
  rw [h.volume, h.rate]
  exact div_le_div_of_nonneg_right (h.swept hI hJ _) V0.le

/-- Four cells, none of them above the cutoff. -/
def exUnmerged : CurveInput ℚ where
  n := 4
  inj _ := 1
  prod v := if v = 3 then 1 else 0
  pv v := if v < 2 then 2 else 1
  frac := 1 / 2

/-- The first two of them merged: the new cell is above the cutoff. -/
def exTooLarge : CurveInput ℚ where
  n := 3
  inj _ := 1
  prod v := if v = 2 then 1 else 0
  pv v := if v = 0 then 4 else 1
  frac := 1 / 2

theorem exUnmerged_kept (v : Nat) : exUnmerged.Kept v ↔ v < 4 := by
  unfold CurveInput.Kept exUnmerged
  simp only [sum_range_succ, sum_range_zero]
  refine ⟨fun h => h.1, fun h => ⟨h, ?_⟩⟩
  interval_cases v <;> norm_num

theorem exTooLarge_kept (v : Nat) : exTooLarge.Kept v ↔ v < 3 ∧ v ≠ 0 := by
  unfold CurveInput.Kept exTooLarge
  simp only [sum_range_succ, sum_range_zero]
  refine and_congr_right fun h => ?_
  interval_cases v <;> norm_num

theorem exUnmerged_valid : exUnmerged.Valid where
  int := by decide
  pv v _ := by show (0 : ℚ) ≤ if v < 2 then 2 else 1; split <;> norm_num
  time v _ := by show (0 : ℚ) < 1 + if v = 3 then 1 else 0; split <;> norm_num
  some_pv := ⟨0, (exUnmerged_kept 0).mpr (by decide), by norm_num [exUnmerged]⟩

theorem exTooLarge_valid : exTooLarge.Valid where
  int := by decide
  pv v _ := by show (0 : ℚ) ≤ if v = 0 then 4 else 1; split <;> norm_num
  time v _ := by show (0 : ℚ) < 1 + if v = 2 then 1 else 0; split <;> norm_num
  some_pv := ⟨1, (exTooLarge_kept 1).mpr (by decide), by norm_num [exTooLarge]⟩

/-- **C111** The cutoff must ignore the same volume: if a merged cell is above the cutoff and its parts are not, the Lorenz coefficient can rise,
    here from 5/66 to 1/6. -/
theorem C111_cutoff : ∃ (I J : CurveInput ℚ) (whole : Nat → Nat), I.Valid ∧ J.Valid ∧ I.frac = J.frac ∧ (∀ u < J.n, whole u < I.n) ∧
    (∀ v < I.n, ∑ u ∈ range J.n with whole u = v, J.pv u = I.pv v ∧
      ∑ u ∈ range J.n with whole u = v, J.pv u / J.time u = I.pv v / I.time v) ∧
    ∀ sort, StdSort sort → ∃ g g', J.curve sort = .ok g ∧ I.curve sort = .ok g' ∧ lorenzCoefficient g = .ok (X.fin (5 / 66)) ∧
      lorenzCoefficient g' = .ok (X.fin (1 / 6)) := by
  refine ⟨exTooLarge, exUnmerged, fun u => u - 1, exTooLarge_valid, exUnmerged_valid, rfl, ?_, ?_, fun sort hs => ?_⟩
  · intro u hu
    have : u < 4 := hu
    show u - 1 < 3
    omega
  · intro v hv
    have : v < 3 := hv
    rw [Finset.sum_filter, Finset.sum_filter]
    show ∑ u ∈ range 4, _ = _ ∧ ∑ u ∈ range 4, _ = _
    simp only [sum_range_succ, sum_range_zero]
    interval_cases v <;> norm_num [exUnmerged, exTooLarge, CurveInput.time]
  · obtain ⟨g, c1, l1⟩ := C83_meanDifference exUnmerged_valid hs
    obtain ⟨g', c2, l2⟩ := C83_meanDifference exTooLarge_valid hs
    refine ⟨g, g', c1, c2, ?_, ?_⟩
    · rw [l1]
      have hf : (range exUnmerged.n).filter exUnmerged.Kept = range 4 := by
        ext v
        rw [mem_filter, mem_range, mem_range, exUnmerged_kept]
        exact and_self_iff
      simp only [CurveInput.volume, CurveInput.rate, hf]
      congr 2
      simp only [sum_range_succ, sum_range_zero, CurveInput.time, exUnmerged]
      norm_num [abs_of_pos, abs_of_neg]
    · rw [l2]
      have hf : (range exTooLarge.n).filter exTooLarge.Kept = {1, 2} := by
        ext v
        rw [mem_filter, mem_range, exTooLarge_kept]
        show v < 3 ∧ _ ↔ _
        simp only [mem_insert, mem_singleton]
        omega
      simp only [CurveInput.volume, CurveInput.rate, hf]
      congr 2
      simp only [sum_pair (show (1 : Nat) ≠ 2 by decide), CurveInput.time, exTooLarge]
      norm_num [abs_of_pos, abs_of_neg]

/-! ### Non-vacuity -/

/-- The first two of the three cells of the earlier examples merged. -/
def exMergedCurve : CurveInput ℚ :=
  { n := 2
    inj := fun v => if v = 0 then 5 / 4 else 1
    prod := fun v => if v = 0 then 1 else 5
    pv := fun v => if v = 0 then 3 else 100
    frac := 1 / 2 }

theorem exMergedCurve_kept (v : Nat) : exMergedCurve.Kept v ↔ v = 0 := by
  unfold CurveInput.Kept
  have : ∑ u ∈ range exMergedCurve.n, exMergedCurve.pv u = 103 := by
    show ∑ u ∈ range 2, _ = _
    rw [sum_range_succ, sum_range_one]; norm_num [exMergedCurve]
  rw [this]
  constructor
  · rintro ⟨h1, h2⟩
    change v < 2 at h1
    interval_cases v
    · rfl
    · norm_num [exMergedCurve] at h2
  · rintro rfl
    norm_num [exMergedCurve]

example : exCurve.Merged (fun u => if u = 2 then 1 else 0) exMergedCurve ∧ exMergedCurve.Valid ∧ exCurve.Valid ∧ exMergedCurve.n < INT_MAX ∧ exCurve.n < INT_MAX ∧
    StdSort (mergeSort (K := ℚ)) ∧ exCurve.Kept 0 ∧ exCurve.Kept 1 ∧ exCurve.time 0 ≠ exCurve.time 1 := by
  refine ⟨⟨?_, ?_, ?_, ?_⟩, ⟨by decide, ?_, ?_, 0, (exMergedCurve_kept 0).mpr rfl, by norm_num [exMergedCurve]⟩, exCurve_valid, by decide, by decide,
    stdSort_mergeSort, by rw [exCurve_kept]; omega, by rw [exCurve_kept]; omega, by norm_num [CurveInput.time, exCurve]⟩
  · intro u hu
    have : u < 3 := hu
    interval_cases u <;> decide
  · intro u hu
    rw [exCurve_kept, exMergedCurve_kept]
    have : u < 3 := hu
    interval_cases u <;> decide
  · intro v hv
    have : v < 2 := hv
    rw [Finset.sum_filter]
    show ∑ u ∈ range 3, _ = _
    rw [sum_range_succ, sum_range_succ, sum_range_one]
    interval_cases v <;> norm_num [exCurve, exMergedCurve]
  · intro v hv
    rw [exMergedCurve_kept] at hv
    subst hv
    rw [Finset.sum_filter]
    show ∑ u ∈ range 3, _ = _
    rw [sum_range_succ, sum_range_succ, sum_range_one]
    norm_num [exCurve, exMergedCurve, CurveInput.time]
  · intro v _; simp only [exMergedCurve]; split <;> norm_num
  · intro v hv
    rw [exMergedCurve_kept] at hv
    subst hv
    norm_num [CurveInput.time, exMergedCurve]

end Verif.Props
