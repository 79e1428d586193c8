/-
The area below the F-Phi curve as a sum over pairs of cells.
-/
import Verif.Spec.Lorenz
import Verif.Proofs.DerivedValid

namespace Verif.Derived
open Finset Verif.Spec
variable {K : Type} [Field K] [LinearOrder K] [IsStrictOrderedRing K]

/-- Sum over pairs of cells, the later one first. -/
def pairSum (g : Nat → Nat → K) (n : Nat) : K := ∑ i ∈ range n, ∑ j ∈ range i, g i j

omit [LinearOrder K] [IsStrictOrderedRing K] in
theorem sum_pairs (g : Nat → Nat → K) (hs : ∀ i j, g i j = g j i) (h0 : ∀ i, g i i = 0) (n : Nat) :
    ∑ i ∈ range n, ∑ j ∈ range n, g i j = 2 * pairSum g n := by
  unfold pairSum
  induction n with
  | zero => simp
  | succ n ih =>
    rw [sum_range_succ, sum_range_succ (fun i => ∑ j ∈ range i, g i j), mul_add, ← ih]
    have h1 : ∑ i ∈ range n, ∑ j ∈ range (n + 1), g i j = ∑ i ∈ range n, ∑ j ∈ range n, g i j + ∑ j ∈ range n, g n j := by
      rw [← sum_add_distrib]
      refine sum_congr rfl fun i _ => ?_
      rw [sum_range_succ, hs i n]
    rw [h1, sum_range_succ, h0]
    ring

theorem area_pairs (p r : Nat → K) (n : Nat) :
    ∑ i ∈ range n, (S r i + S r (i + 1)) * p i - S p n * S r n = pairSum (fun i j => p i * r j - p j * r i) n := by
  unfold pairSum
  induction n with
  | zero => simp [S]
  | succ n ih =>
    rw [sum_range_succ, sum_range_succ, ← ih, S_succ, S_succ, sum_sub_distrib]
    have h1 : ∑ j ∈ range n, p n * r j = p n * S r n := by unfold S; rw [mul_sum]
    have h2 : ∑ j ∈ range n, p j * r n = S p n * r n := by unfold S; rw [sum_mul]
    rw [h1, h2]; ring

/-- Twice the area between the curve and the diagonal. -/
theorem area_curve {p r : Nat → K} {n : Nat} (hP : S p n ≠ 0) (hR : S r n ≠ 0) :
    area (fun i => S p i / S p n) (fun i => S r i / S r n) n - 1
      = pairSum (fun i j => p i * r j - p j * r i) n / (S p n * S r n) := by
  rw [← area_pairs]
  unfold area
  rw [sub_div, div_self (mul_ne_zero hP hR), sum_div]
  congr 1
  refine sum_congr rfl fun i _ => ?_
  beta_reduce
  rw [S_succ p i]
  field_simp
  ring

theorem pairSum_mono {g h : Nat → Nat → K} {n : Nat} (e : ∀ i j, j < i → i < n → g i j ≤ h i j) : pairSum g n ≤ pairSum h n := by
  unfold pairSum
  refine sum_le_sum fun i hi => sum_le_sum fun j hj => e i j (mem_range.mp hj) (mem_range.mp hi)

theorem pairSum_le_prod {p r : Nat → K} {n : Nat} (hp : ∀ i < n, 0 ≤ p i) (hr : ∀ i < n, 0 ≤ r i) :
    pairSum (fun i j => p i * r j) n ≤ S p n * S r n := by
  unfold pairSum S
  rw [sum_mul]
  refine sum_le_sum fun i hi => ?_
  rw [mem_range] at hi
  rw [← mul_sum]
  refine mul_le_mul_of_nonneg_left ?_ (hp i hi)
  refine sum_le_sum_of_subset_of_nonneg ?_ ?_
  · intro k hk; rw [mem_range] at *; omega
  · intro k hk _; exact hr k (mem_range.mp hk)

/-- Sum over pairs of the differences of inverse travel times. -/
def spread (n : Nat) (t p : Nat → K) : K := pairSum (fun i j => p i * p j * |1 / t i - 1 / t j|) n

/-- Cells ordered by travel time, up to a factor: the area differs little from the sum over pairs. -/
theorem area_spread {n : Nat} {t p : Nat → K} {η : K} (hη : 0 ≤ η) (hp : ∀ i < n, 0 ≤ p i) (ht : ∀ i < n, 0 < t i)
    (hm : ∀ i j, j < i → i < n → t j ≤ t i * (1 + η)) (hP : 0 < S p n) (hR : 0 < S (rt t p) n) :
    spread n t p / (S p n * S (rt t p) n) - 2 * η ≤ area (fun i => S p i / S p n) (fun i => S (rt t p) i / S (rt t p) n) n - 1 ∧
    area (fun i => S p i / S p n) (fun i => S (rt t p) i / S (rt t p) n) n - 1 ≤ spread n t p / (S p n * S (rt t p) n) := by
  have hr : ∀ i < n, 0 ≤ rt t p i := fun i hi => div_nonneg (hp i hi) (ht i hi).le
  have hPR : 0 < S p n * S (rt t p) n := mul_pos hP hR
  rw [area_curve hP.ne' hR.ne']
  have e : ∀ i j, p i * rt t p j - p j * rt t p i = p i * p j * (1 / t j - 1 / t i) := by
    intro i j; unfold rt; ring
  have h1 : pairSum (fun i j => p i * rt t p j - p j * rt t p i) n ≤ spread n t p := by
    unfold spread
    refine pairSum_mono fun i j hj hi => ?_
    rw [e]
    refine mul_le_mul_of_nonneg_left ?_ (mul_nonneg (hp i hi) (hp j (by omega)))
    rw [abs_sub_comm]; exact le_abs_self _
  have h2 : spread n t p ≤ pairSum (fun i j => p i * rt t p j - p j * rt t p i) n + 2 * η * (S p n * S (rt t p) n) := by
    have h3 : spread n t p ≤ pairSum (fun i j => (p i * rt t p j - p j * rt t p i) + 2 * η * (p i * rt t p j)) n := by
      unfold spread
      refine pairSum_mono fun i j hj hi => ?_
      rw [e]
      have hti := ht i hi
      have htj := ht j (by omega)
      have hpp := mul_nonneg (hp i hi) (hp j (by omega))
      have e2 : p i * rt t p j = p i * p j * (1 / t j) := by unfold rt; ring
      rw [e2]
      have key : |1 / t i - 1 / t j| ≤ (1 / t j - 1 / t i) + 2 * η * (1 / t j) := by
        have hij : 1 / t i ≤ 1 / t j * (1 + η) := by
          rw [div_mul_eq_mul_div, one_mul, div_le_div_iff₀ hti htj]
          have := hm i j hj hi
          linarith
        have : 0 ≤ η * (1 / t j) := mul_nonneg hη (by positivity)
        rw [abs_le]
        constructor <;> linarith
      calc _ ≤ p i * p j * ((1 / t j - 1 / t i) + 2 * η * (1 / t j)) := mul_le_mul_of_nonneg_left key hpp
        _ = _ := by ring
    refine h3.trans ?_
    have h4 : pairSum (fun i j => (p i * rt t p j - p j * rt t p i) + 2 * η * (p i * rt t p j)) n
        = pairSum (fun i j => p i * rt t p j - p j * rt t p i) n + 2 * η * pairSum (fun i j => p i * rt t p j) n := by
      unfold pairSum
      simp only [sum_add_distrib, mul_sum]
    rw [h4]
    have := mul_le_mul_of_nonneg_left (pairSum_le_prod hp hr) (by linarith : (0 : K) ≤ 2 * η)
    linarith
  constructor
  · rw [sub_le_iff_le_add, div_le_iff₀ hPR, add_mul, div_mul_cancel₀ _ hPR.ne']
    exact h2
  · exact div_le_div_of_nonneg_right h1 hPR.le

/-- The sum over pairs does not depend on the order. -/
theorem spread_order {I : CurveInput K} {σ : Nat → Nat} (hσ : Order I.n σ) :
    spread I.n (fun j => I.rank (σ j)) (fun j => I.keptPv (σ j))
      / (S (fun j => I.keptPv (σ j)) I.n * S (rt (fun j => I.rank (σ j)) fun j => I.keptPv (σ j)) I.n) = I.meanDifference := by
  rw [S_volume hσ, S_rate hσ]
  unfold CurveInput.meanDifference
  have h1 : (∑ u ∈ range I.n with I.Kept u, ∑ v ∈ range I.n with I.Kept v, I.pv u * I.pv v * |1 / I.time u - 1 / I.time v|)
      = ∑ u ∈ range I.n, ∑ v ∈ range I.n, I.keptPv u * I.keptPv v * |1 / I.rank u - 1 / I.rank v| := by
    rw [sum_filter]
    refine sum_congr rfl fun u _ => ?_
    by_cases hu : I.Kept u
    · rw [if_pos hu, sum_filter]
      refine sum_congr rfl fun v _ => ?_
      by_cases hv : I.Kept v <;> simp [CurveInput.keptPv, CurveInput.rank, hu, hv]
    · rw [if_neg hu]
      symm
      refine sum_eq_zero fun v _ => ?_
      simp [CurveInput.keptPv, hu]
  rw [h1]
  have h2 : ∑ u ∈ range I.n, ∑ v ∈ range I.n, I.keptPv u * I.keptPv v * |1 / I.rank u - 1 / I.rank v|
      = ∑ i ∈ range I.n, ∑ j ∈ range I.n, I.keptPv (σ i) * I.keptPv (σ j) * |1 / I.rank (σ i) - 1 / I.rank (σ j)| := by
    rw [← order_sum hσ]
    refine sum_congr rfl fun i _ => ?_
    exact (order_sum hσ fun v => I.keptPv (σ i) * I.keptPv v * |1 / I.rank (σ i) - 1 / I.rank v|).symm
  rw [h2, sum_pairs (fun i j => I.keptPv (σ i) * I.keptPv (σ j) * |1 / I.rank (σ i) - 1 / I.rank (σ j)|)]
  · rw [mul_assoc, mul_div_mul_left _ _ two_ne_zero]; rfl
  · intro i j; rw [abs_sub_comm]; ring
  · intro i; simp

/-- The Lorenz coefficient of an exact curve. -/
theorem lorenz_valid {I : CurveInput K} (h : I.Valid) {sort : List (X K × X K) → List (X K × X K)} (hs : StdSort sort) :
    ∃ g, I.curve sort = .ok g ∧ lorenzCoefficient g = .ok (X.fin I.meanDifference) := by
  obtain ⟨σ, hσ, hseq, hc⟩ := curve_valid h hs
  refine ⟨_, hc, ?_⟩
  rw [lorenz_finite _ h.int]
  have h1 := area_spread (n := I.n) (t := fun j => I.rank (σ j)) (p := fun j => I.keptPv (σ j)) (le_refl (0 : K)) hseq.p0 hseq.t0
    (fun i j hj hi => by rw [add_zero, mul_one]; exact hseq.mono j i hj.le hi) hseq.pos (Q_pos hseq)
  rw [spread_order hσ, mul_zero, sub_zero] at h1
  rw [← le_antisymm h1.2 h1.1]
  rfl

end Verif.Derived
