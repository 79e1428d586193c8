/-
C83 and C84: the Lorenz coefficient as a mean difference, and the accuracy of curve and coefficient in `double`s.
-/
import Verif.Proofs.LorenzCurve
import Verif.Proofs.RoundingSort
import Verif.Props.Derived

namespace Verif.Props
open Verif.Spec Verif.Derived Verif.Rounding Finset

/-- **C83** The Lorenz coefficient of the F-Phi curve is the mean difference between the inverse travel times of two cells,
    both drawn by pore volume, by twice their mean. -/
theorem C83_meanDifference {K : Type} [Field K] [LinearOrder K] [IsStrictOrderedRing K] {I : CurveInput K}
    {sort : List (X K × X K) → List (X K × X K)} (h : I.Valid) (hs : StdSort sort) :
    ∃ g, I.curve sort = .ok g ∧ lorenzCoefficient g = .ok (X.fin ((∑ u ∈ range I.n with I.Kept u,
      ∑ v ∈ range I.n with I.Kept v, I.pv u * I.pv v * |1 / I.time u - 1 / I.time v|) / (2 * I.volume * I.rate))) :=
  lorenz_valid h hs

/-- The input of the earlier examples is valid, and its coefficient is not zero. -/
example : exCurve.Valid ∧ StdSort (mergeSort (K := ℚ)) ∧ exCurve.meanDifference = 1 / 12 := by
  refine ⟨exCurve_valid, stdSort_mergeSort, ?_⟩
  have hf : (range exCurve.n).filter (fun u => exCurve.Kept u) = range 2 := by
    ext v
    rw [mem_filter, mem_range, mem_range, exCurve_kept]
    constructor
    · exact fun h => h.2
    · exact fun h => ⟨lt_trans h (by decide), h⟩
  unfold CurveInput.meanDifference CurveInput.volume CurveInput.rate
  rw [hf]
  simp only [sum_range_succ, sum_range_zero]
  norm_num [exCurve, CurveInput.time, abs_of_nonneg, abs_of_neg]

variable {I : CurveInput ℚ} {inj prod pv : List Double} {frac : Double} {sort : List (Double × Double) → List (Double × Double)}

/-- **C84** With `double`s of ordinary magnitude: for a cutoff within `(n + 1) / 2^51` of the one asked for, the entries of the
    curve differ by at most `(2 n + 5) / 2^51` from those computed without rounding, for an order of the cells in which travel
    times decrease by at most `2^-50` of them. -/
theorem C84_curve (h : I.OfOrdinarySize) (hd : I.StoredAs inj prod pv frac) (hs : SortsPairs sort) :
    ∃ θ, |θ - I.frac| ≤ (I.n + 1) / 2 ^ 51 * I.frac ∧ ∃ Phi F, Derived.curve sort inj prod pv frac = .ok (Phi, F) ∧
      Rising I.n Phi ∧ Rising I.n F ∧ ∃ σ, Order I.n σ ∧
      (∀ i j, i ≤ j → j < I.n → (I.withFraction θ).rank (σ i) ≤ (I.withFraction θ).rank (σ j) * (1 + 1 / 2 ^ 50)) ∧
      ∀ i ≤ I.n,
        |doubleIn Phi i - (∑ j ∈ range i with (I.withFraction θ).Kept (σ j), I.pv (σ j)) / (I.withFraction θ).volume|
          ≤ (2 * I.n + 5) / 2 ^ 51 ∧
        |doubleIn F i - (∑ j ∈ range i with (I.withFraction θ).Kept (σ j), I.pv (σ j) / I.time (σ j)) / (I.withFraction θ).rate|
          ≤ (2 * I.n + 5) / 2 ^ 51 := by
  obtain ⟨θ, hθ, Phi, F, hc, r1, r2, σ, hσ, hm, _, hnear⟩ := curve_near h hd hs
  refine ⟨θ, hθ, Phi, F, hc, r1, r2, σ, hσ, hm, ?_⟩
  intro i hi
  obtain ⟨h1, h2⟩ := hnear i hi
  have hσ' : Order (I.withFraction θ).n σ := hσ
  have e1 := S_volume (I := I.withFraction θ) hσ'
  have e2 := S_rate (I := I.withFraction θ) hσ'
  rw [show (I.withFraction θ).n = I.n from rfl] at e1 e2
  rw [e1] at h1
  rw [e2] at h2
  have e3 : ∑ j ∈ range i with (I.withFraction θ).Kept (σ j), I.pv (σ j) = S (fun j => (I.withFraction θ).keptPv (σ j)) i := by
    rw [sum_filter]; rfl
  have e4 : ∑ j ∈ range i with (I.withFraction θ).Kept (σ j), I.pv (σ j) / I.time (σ j)
      = S (rt (fun j => (I.withFraction θ).rank (σ j)) fun j => (I.withFraction θ).keptPv (σ j)) i := by
    rw [sum_filter]
    refine sum_congr rfl fun j _ => ?_
    unfold rt CurveInput.rank CurveInput.keptPv
    by_cases hk : (I.withFraction θ).Kept (σ j)
    · simp only [if_pos hk]; rfl
    · simp only [if_neg hk, zero_div]
  rw [e3, e4]
  exact ⟨h1, h2⟩

/-- **C84** The Lorenz coefficient computed from a curve of `double`s that rises from 0 to 1 differs by at most `(2 n + 24) / 2^51`
    from twice the area between curve and diagonal. -/
theorem C84_area {n : Nat} (hn : n ≤ INT_MAX) {Phi F : List Double} (h1 : Rising n Phi) (h2 : Rising n F) :
    ∃ d x, lorenzCoefficient (Phi, F) = .ok d ∧ d.val = X.fin x ∧
      |x - 2 * ((∑ i ∈ range n, (doubleIn Phi (i + 1) - doubleIn Phi i) * ((doubleIn F i + doubleIn F (i + 1)) / 2)) - 1 / 2)|
        ≤ (2 * n + 24) / 2 ^ 51 := by
  obtain ⟨d, x, e1, e2, e3⟩ := lorenz_close hn (values_of_rising h1) (values_of_rising h2)
  refine ⟨d, x, e1, e2, ?_⟩
  have e : 2 * ((∑ i ∈ range n, (doubleIn Phi (i + 1) - doubleIn Phi i) * ((doubleIn F i + doubleIn F (i + 1)) / 2)) - 1 / 2)
      = area (doubleIn Phi) (doubleIn F) n - 1 := by
    unfold area
    rw [mul_sub, mul_sum]
    congr 1
    · refine sum_congr rfl fun i _ => by ring
    · norm_num
  rw [e]
  exact e3

/-- **C84** The Lorenz coefficient computed with `double`s of ordinary magnitude differs by at most `(10 n + 50) / 2^51` from the
    mean difference of inverse travel times, for a cutoff within `(n + 1) / 2^51` of the one asked for. -/
theorem C84_lorenz (h : I.OfOrdinarySize) (hd : I.StoredAs inj prod pv frac) (hs : SortsPairs sort) :
    ∃ θ, |θ - I.frac| ≤ (I.n + 1) / 2 ^ 51 * I.frac ∧ ∃ g d x, Derived.curve sort inj prod pv frac = .ok g ∧
      lorenzCoefficient g = .ok d ∧ d.val = X.fin x ∧ |x - (I.withFraction θ).meanDifference| ≤ (10 * I.n + 50) / 2 ^ 51 :=
  lorenz_near h hd hs

set_option maxRecDepth 100000 in
/-- The three cells of the earlier examples in `double`s. -/
theorem exCurve_stored : exCurve.StoredAs [Arith.lit 1, Arith.lit 2, Arith.lit 1] [Arith.lit 1, Arith.lit 1, Arith.lit 5]
    [Arith.lit 2, Arith.lit 1, Arith.lit 100] (Arith.lit (1 / 2)) := by
  have e : ∀ f : Nat → ℚ, arr exCurve.n f = [X.fin (f 0), X.fin (f 1), X.fin (f 2)] := fun f => rfl
  constructor
  · rw [e]; decide +kernel
  · rw [e]; decide +kernel
  · rw [e]; decide +kernel
  · decide +kernel

theorem exCurve_ordinary : exCurve.OfOrdinarySize := by
  have ord : ∀ x : ℚ, 1 / 2 ≤ x → x ≤ 100 → 0 ≤ x ∧ Ordinary x := by
    intro x h1 h2
    refine ⟨by linarith, Or.inr ?_⟩
    rw [abs_of_nonneg (by linarith)]
    norm_num
    constructor <;> linarith
  have hs : ∑ u ∈ range exCurve.n, exCurve.pv u = 103 := by
    show ∑ u ∈ range 3, _ = _
    rw [sum_range_succ, sum_range_succ, sum_range_one]; norm_num [exCurve]
  refine ⟨by decide, ?_, ?_, ?_, ?_, ?_, 0, by decide, by norm_num [exCurve], by rw [hs]; norm_num [exCurve]⟩
  · intro v _; exact ord _ (by simp only [exCurve]; split <;> (try split) <;> norm_num) (by simp only [exCurve]; split <;> (try split) <;> norm_num)
  · intro v _; exact ord _ (by simp only [exCurve]; split <;> norm_num) (by simp only [exCurve]; split <;> norm_num)
  · intro v _; exact ord _ (by simp only [exCurve]; split <;> (try split) <;> norm_num) (by simp only [exCurve]; split <;> (try split) <;> norm_num)
  · intro v _
    simp only [CurveInput.time, exCurve]
    split <;> split <;> (try split) <;> norm_num
  · exact ⟨by norm_num [exCurve], (ord _ (by norm_num [exCurve]) (by norm_num [exCurve])).2⟩

/-- The hypotheses hold, for a sorting function, and one cell is ignored. -/
example : exCurve.OfOrdinarySize ∧ exCurve.StoredAs [Arith.lit 1, Arith.lit 2, Arith.lit 1] [Arith.lit 1, Arith.lit 1, Arith.lit 5]
    [Arith.lit 2, Arith.lit 1, Arith.lit 100] (Arith.lit (1 / 2)) ∧ SortsPairs (sortBy Double.rounded) ∧ ¬ exCurve.Kept 2 :=
  ⟨exCurve_ordinary, exCurve_stored, sortsPairs_sortBy _, by rw [exCurve_kept]; omega⟩

end Verif.Props
