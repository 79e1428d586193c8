/-
C43: what the F-Phi curve means: the largest flow capacity that a part of the pore volume can have.
-/
import Verif.Props.Subdivide
import Verif.Props.LorenzNear

namespace Verif.Props
open Verif.Spec Verif.Derived Verif.Solver Finset

variable {K : Type} [Field K] [LinearOrder K] [IsStrictOrderedRing K]
variable {I : CurveInput K} {sort : List (X K × X K) → List (X K × X K)}

omit [LinearOrder K] [IsStrictOrderedRing K] in
/-- The sum over the first `i` terms and a part of the next one. -/
theorem sum_first {n i : Nat} (hi : i < n) (s : K) (q : Nat → K) :
    ∑ j ∈ range n, (if j < i then 1 else if j = i then s else 0) * q j = S q i + s * q i := by
  have e : ∀ j, (if j < i then 1 else if j = i then s else 0) * q j = (if j < i then q j else 0) + if j = i then s * q j else 0 := by
    intro j
    by_cases h : j < i
    · simp [h, h.ne]
    · by_cases h' : j = i <;> simp [h, h']
  simp only [e]
  rw [sum_add_distrib, sum_ite_eq' , if_pos (mem_range.mpr hi), ← Finset.sum_filter]
  congr 1
  unfold S
  refine sum_congr ?_ fun _ _ => rfl
  ext j
  simp only [mem_filter, mem_range]
  omega

/-- **C43** What the curve means.  Take a fraction `w v` of each cell that is not ignored, a fraction `x` of the pore volume altogether.  Then these
    parts have at most the fraction `y` of the flow that the curve shows for `x`, and for some choice of parts they have just that. -/
theorem C43_largest (h : I.Valid) (hs : StdSort sort) :
    ∃ g, I.curve sort = .ok g ∧ (∀ x, 0 ≤ x → x ≤ 1 → ∃ y, OnLine g x y) ∧ ∀ x y, OnLine g x y →
      (∀ w : Nat → K, (∀ v, I.Kept v → 0 ≤ w v ∧ w v ≤ 1) → ∑ v ∈ range I.n with I.Kept v, w v * I.pv v = x * I.volume →
        ∑ v ∈ range I.n with I.Kept v, w v * (I.pv v / I.time v) ≤ y * I.rate) ∧
      ∃ w : Nat → K, (∀ v, I.Kept v → 0 ≤ w v ∧ w v ≤ 1) ∧ ∑ v ∈ range I.n with I.Kept v, w v * I.pv v = x * I.volume ∧
        ∑ v ∈ range I.n with I.Kept v, w v * (I.pv v / I.time v) = y * I.rate := by
  obtain ⟨g, hg, _⟩ := C83_meanDifference h hs
  refine ⟨g, hg, fun x h0 h1 => exists_onLine h hs hg h0 h1, fun x y hxy => ⟨fun w hw hx => ?_, ?_⟩⟩
  · obtain ⟨_, _, _, T, hT, hy⟩ := (onLine_curve h hs hg).mp hxy
    rw [mul_comm y, hy, mul_comm I.volume, ← hx, sum_div, ← sum_add_distrib]
    refine sum_le_sum fun v hv => ?_
    obtain ⟨h1, h2⟩ := mem_filter.mp hv
    obtain ⟨w0, w1⟩ := hw v h2
    have hp := h.pv v (mem_range.mp h1)
    have e : w v * (I.pv v / I.time v) = w v * I.pv v / T + I.pv v * (w v * (1 / I.time v - 1 / T)) := by ring
    rw [e]
    refine add_le_add le_rfl (mul_le_mul_of_nonneg_left ?_ hp)
    rcases le_total 0 (1 / I.time v - 1 / T) with hd | hd
    · rw [max_eq_right hd]; exact mul_le_of_le_one_left hd w1
    · rw [max_eq_left hd]; exact mul_nonpos_of_nonneg_of_nonpos w0 hd
  · obtain ⟨σ, hσ, hseq, hc⟩ := curve_valid h hs
    rw [hg] at hc
    cases hc
    have hP : 0 < S (fun j => I.keptPv (σ j)) I.n := hseq.pos
    have hQ := Q_pos hseq
    obtain ⟨i, a, b, c, d, s, ha, hb, hc, hd, h0, h1, rfl, rfl⟩ := hxy
    have hi : i < I.n := by
      by_contra hlt
      rw [List.getElem?_eq_none (by rw [arr_length]; omega)] at hb
      cases hb
    rw [arr_getElem? _ (by omega)] at ha hb hc hd
    cases ha; cases hb; cases hc; cases hd
    let f : Nat → K := fun j => if j < i then 1 else if j = i then s else 0
    have hf : ∀ j, 0 ≤ f j ∧ f j ≤ 1 := by
      intro j
      show 0 ≤ (if j < i then 1 else if j = i then s else 0) ∧ (if j < i then 1 else if j = i then s else 0) ≤ 1
      split
      · exact ⟨zero_le_one, le_rfl⟩
      · split
        · exact ⟨h0, h1⟩
        · exact ⟨le_rfl, zero_le_one⟩
    let w : Nat → K := fun v => ∑ j ∈ range I.n, if σ j = v then f j else 0
    have hwσ : ∀ k < I.n, w (σ k) = f k := by
      intro k hk
      show ∑ j ∈ range I.n, (if σ j = σ k then f j else 0) = f k
      rw [sum_eq_single k]
      · rw [if_pos rfl]
      · intro j hj hjk
        rw [if_neg fun e => hjk (hσ.2 j (mem_range.mp hj) k hk e)]
      · intro hk'; exact absurd (mem_range.mpr hk) hk'
    have key : ∀ q : Nat → K, ∑ v ∈ range I.n, w v * q v = S (fun j => q (σ j)) i + s * q (σ i) := by
      intro q
      rw [← order_sum hσ fun v => w v * q v]
      rw [← sum_first hi s fun j => q (σ j)]
      exact sum_congr rfl fun j hj => by rw [hwσ j (mem_range.mp hj)]
    have e1 : ∑ v ∈ range I.n with I.Kept v, w v * I.pv v = ∑ v ∈ range I.n, w v * I.keptPv v := by
      rw [Finset.sum_filter]
      refine sum_congr rfl fun v _ => ?_
      unfold CurveInput.keptPv
      by_cases hk : I.Kept v <;> simp [hk]
    have e2 : ∑ v ∈ range I.n with I.Kept v, w v * (I.pv v / I.time v) = ∑ v ∈ range I.n, w v * (I.keptPv v / I.rank v) := by
      rw [Finset.sum_filter]
      refine sum_congr rfl fun v _ => ?_
      unfold CurveInput.keptPv CurveInput.rank
      by_cases hk : I.Kept v <;> simp [hk]
    refine ⟨w, fun v hv => ?_, ?_, ?_⟩
    · obtain ⟨j, hj, rfl⟩ := order_surj hσ hv.1
      rw [hwσ j hj]; exact hf j
    · rw [e1, key, ← S_volume hσ]
      unfold Φ
      rw [S_succ]
      field_simp
      ring
    · rw [e2, key, ← S_rate hσ]
      have e3 : S (fun j => I.keptPv (σ j) / I.rank (σ j)) i = S (rt (fun j => I.rank (σ j)) fun j => I.keptPv (σ j)) i := rfl
      have e4 : I.keptPv (σ i) / I.rank (σ i) = rt (fun j => I.rank (σ j)) (fun j => I.keptPv (σ j)) i := rfl
      rw [e3, e4]
      unfold Φ
      rw [S_succ]
      field_simp
      ring

/-- C43: three cells of different travel times and pore volumes, one of which is ignored; half of the pore volume of the others. -/
example : ∃ g y, exCurve.curve mergeSort = .ok g ∧ OnLine g (1 / 2) y ∧ ¬ exCurve.Kept 2 := by
  obtain ⟨g, h1, h2, _⟩ := C43_largest exCurve_valid (stdSort_mergeSort (K := ℚ))
  obtain ⟨y, hy⟩ := h2 (1 / 2) (by norm_num) (by norm_num)
  exact ⟨g, y, h1, hy, by rw [exCurve_kept]; omega⟩

end Verif.Props
