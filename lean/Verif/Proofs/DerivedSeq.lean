/-
Mathematics of the F-Phi curve: cumulative sums of `p` and of `p / t` for an increasing sequence `t`.
-/
import Mathlib.Algebra.BigOperators.Ring.Finset
import Mathlib.Algebra.BigOperators.Field
import Mathlib.Algebra.Order.BigOperators.Ring.Finset
import Mathlib.Algebra.Order.BigOperators.Group.Finset
import Mathlib.Algebra.Order.Field.Basic
import Mathlib.Tactic.FieldSimp
import Mathlib.Tactic.Linarith
import Mathlib.Tactic.Ring
import Mathlib.Algebra.BigOperators.Intervals

namespace Verif.Derived
open Finset
variable {K : Type} [Field K] [LinearOrder K] [IsStrictOrderedRing K]

/-- Pore volumes and increasing travel times. -/
structure Seq (n : Nat) (t p : Nat → K) : Prop where
  p0 : ∀ j < n, 0 ≤ p j
  t0 : ∀ j < n, 0 < t j
  mono : ∀ i j, i ≤ j → j < n → t i ≤ t j
  pos : 0 < ∑ j ∈ range n, p j

/-- Cumulative sum. -/
def S (p : Nat → K) (i : Nat) : K := ∑ j ∈ range i, p j

/-- Pore volume by travel time. -/
def rt (t p : Nat → K) (j : Nat) : K := p j / t j

variable {n : Nat} {t p : Nat → K}

theorem S_succ (p : Nat → K) (i : Nat) : S p (i + 1) = S p i + p i := by unfold S; rw [sum_range_succ]

theorem S_mono (h : ∀ j < n, 0 ≤ p j) {i j : Nat} (hij : i ≤ j) (hj : j ≤ n) : S p i ≤ S p j := by
  unfold S
  apply sum_le_sum_of_subset_of_nonneg
  · intro k hk; rw [mem_range] at *; omega
  · intro k hk _; rw [mem_range] at hk; exact h k (by omega)

theorem rt_nonneg (h : Seq n t p) : ∀ j < n, 0 ≤ rt t p j := fun j hj => div_nonneg (h.p0 j hj) (h.t0 j hj).le

theorem exists_pos (h : Seq n t p) : ∃ j < n, 0 < p j := by
  by_contra hc
  push Not at hc
  have := h.pos
  have h2 : ∑ j ∈ range n, p j ≤ 0 := sum_nonpos fun j hj => hc j (mem_range.mp hj)
  linarith

theorem S_lt (h : ∀ j < n, 0 ≤ p j) {j : Nat} (hj : j < n) (hp : 0 < p j) : S p j < S p (j + 1) := by
  rw [S_succ]; linarith

theorem Q_pos (h : Seq n t p) : 0 < S (rt t p) n := by
  obtain ⟨j, hj, hp⟩ := exists_pos h
  have h1 : S (rt t p) (j + 1) ≤ S (rt t p) n := S_mono (rt_nonneg h) (by omega) le_rfl
  have h2 : S (rt t p) 0 ≤ S (rt t p) j := S_mono (rt_nonneg h) (by omega) (by omega)
  have h3 : 0 < rt t p j := div_pos hp (h.t0 j hj)
  rw [S_succ] at h1
  have : S (rt t p) 0 = 0 := by simp [S]
  linarith

/-- Difference of cumulative sums. -/
theorem S_sub (p : Nat → K) {i j : Nat} (h : i ≤ j) : S p j - S p i = ∑ k ∈ Ico i j, p k := by
  unfold S; rw [sum_Ico_eq_sub _ h]

/-- The curve lies above the diagonal. -/
theorem above (h : Seq n t p) {i : Nat} (hi : i ≤ n) :
    S p i / S p n ≤ S (rt t p) i / S (rt t p) n := by
  have hP : 0 < S p n := h.pos
  rw [div_le_div_iff₀ hP (Q_pos h)]
  rcases Nat.lt_or_eq_of_le hi with hlt | rfl
  · have h1 : S p i ≤ t i * S (rt t p) i := by
      unfold S; rw [mul_sum]
      apply sum_le_sum
      intro j hj
      rw [mem_range] at hj
      have tj := h.t0 j (by omega)
      have := h.mono j i (by omega) hlt
      unfold rt
      rw [← mul_div_assoc, le_div_iff₀ tj, mul_comm]
      exact mul_le_mul_of_nonneg_right this (h.p0 j (by omega))
    have h2 : t i * (S (rt t p) n - S (rt t p) i) ≤ S p n - S p i := by
      rw [S_sub _ hi, S_sub _ hi, mul_sum]
      apply sum_le_sum
      intro j hj
      rw [mem_Ico] at hj
      have tj := h.t0 j (by omega)
      have := h.mono i j (by omega) hj.2
      unfold rt
      rw [← mul_div_assoc, div_le_iff₀ tj, mul_comm]
      exact mul_le_mul_of_nonneg_left this (h.p0 j (by omega))
    have h3 : 0 ≤ S (rt t p) n - S (rt t p) i := sub_nonneg.mpr (S_mono (rt_nonneg h) hi le_rfl)
    have h4 : 0 ≤ S (rt t p) i := by
      have := S_mono (rt_nonneg h) (Nat.zero_le i) hi
      simpa [S] using this
    have e1 := mul_le_mul_of_nonneg_right h1 h3
    have e2 := mul_le_mul_of_nonneg_left h2 h4
    nlinarith
  · rw [mul_comm]

/-- The slopes of the curve decrease. -/
theorem slopes (h : Seq n t p) {i j : Nat} (hij : i ≤ j) (hj : j < n) : rt t p j * p i ≤ rt t p i * p j := by
  unfold rt
  have ti := h.t0 i (by omega)
  have tj := h.t0 j hj
  have := h.mono i j hij hj
  rw [div_mul_eq_mul_div, div_mul_eq_mul_div, div_le_div_iff₀ tj ti]
  have := mul_le_mul_of_nonneg_left this (mul_nonneg (h.p0 i (by omega)) (h.p0 j hj))
  nlinarith

/-! ### The Lorenz coefficient -/

/-- Twice the area below the curve. -/
def area (Φ F : Nat → K) (n : Nat) : K := ∑ i ∈ range n, (F i + F (i + 1)) * (Φ (i + 1) - Φ i)

theorem area_diag (Φ : Nat → K) (n : Nat) : area Φ Φ n = Φ n * Φ n - Φ 0 * Φ 0 := by
  unfold area
  induction n with
  | zero => simp
  | succ n ih => rw [sum_range_succ, ih]; ring

/-- The storage capacity. -/
def Φ (n : Nat) (p : Nat → K) (i : Nat) : K := S p i / S p n

theorem Φ_zero : Φ n p 0 = 0 := by simp [Φ, S]
theorem Φ_last (h : S p n ≠ 0) : Φ n p n = 1 := div_self h
theorem Φ_step (i : Nat) : Φ n p (i + 1) - Φ n p i = p i / S p n := by
  unfold Φ; rw [← sub_div, S_succ, add_sub_cancel_left]
theorem Φ_mono (h : ∀ j < n, 0 ≤ p j) {i j : Nat} (hij : i ≤ j) (hj : j ≤ n) : Φ n p i ≤ Φ n p j := by
  unfold Φ
  apply div_le_div_of_nonneg_right (S_mono h hij hj)
  have := S_mono h (Nat.zero_le n) le_rfl
  simpa [S] using this

theorem lorenz_nonneg (h : Seq n t p) : 1 ≤ area (Φ n p) (Φ n (rt t p)) n := by
  have e := area_diag (Φ n p) n
  rw [Φ_zero, Φ_last h.pos.ne'] at e
  have : area (Φ n p) (Φ n p) n ≤ area (Φ n p) (Φ n (rt t p)) n := by
    unfold area
    apply sum_le_sum
    intro i hi
    rw [mem_range] at hi
    have h1 : Φ n p i ≤ Φ n (rt t p) i := above h (by omega)
    have h2 : Φ n p (i + 1) ≤ Φ n (rt t p) (i + 1) := above h (by omega)
    have h3 := Φ_mono h.p0 (Nat.le_succ i) hi
    exact mul_le_mul_of_nonneg_right (by linarith) (by linarith)
  linarith

theorem lorenz_lt (h : Seq n t p) : area (Φ n p) (Φ n (rt t p)) n < 2 := by
  have hF1 : ∀ i ≤ n, Φ n (rt t p) i ≤ 1 := by
    intro i hi
    have := Φ_mono (rt_nonneg h) hi le_rfl
    rwa [Φ_last (Q_pos h).ne'] at this
  have e : ∑ i ∈ range n, 2 * (Φ n p (i + 1) - Φ n p i) = 2 := by
    rw [← mul_sum, sum_range_sub, Φ_zero, Φ_last h.pos.ne']; ring
  rw [← e]
  unfold area
  obtain ⟨j, hj, hp⟩ := exists_pos h
  apply sum_lt_sum
  · intro i hi
    rw [mem_range] at hi
    have h3 := Φ_mono h.p0 (Nat.le_succ i) hi
    have := hF1 i (by omega)
    have := hF1 (i + 1) (by omega)
    exact mul_le_mul_of_nonneg_right (by linarith) (by linarith)
  · refine ⟨j, mem_range.mpr hj, ?_⟩
    have h1 : 0 < Φ n p (j + 1) - Φ n p j := by rw [Φ_step]; exact div_pos hp h.pos
    have h2 : 0 < Φ n (rt t p) (j + 1) - Φ n (rt t p) j := by
      rw [Φ_step]; exact div_pos (div_pos hp (h.t0 j hj)) (Q_pos h)
    have := hF1 (j + 1) (by omega)
    exact mul_lt_mul_of_pos_right (by linarith) h1

theorem lorenz_zero (h : Seq n t p) :
    area (Φ n p) (Φ n (rt t p)) n = 1 ↔ ∀ i < n, ∀ j < n, 0 < p i → 0 < p j → t i = t j := by
  have e := area_diag (Φ n p) n
  rw [Φ_zero, Φ_last h.pos.ne'] at e
  constructor
  · intro ha
    have hz : ∑ i ∈ range n, ((Φ n (rt t p) i + Φ n (rt t p) (i + 1)) - (Φ n p i + Φ n p (i + 1)))
        * (Φ n p (i + 1) - Φ n p i) = 0 := by
      have : area (Φ n p) (Φ n (rt t p)) n - area (Φ n p) (Φ n p) n = 0 := by rw [ha, e]; ring
      unfold area at this
      rw [← sum_sub_distrib] at this
      rw [← this]
      apply sum_congr rfl; intros; ring
    have hterm := (sum_eq_zero_iff_of_nonneg (fun i hi => by
      rw [mem_range] at hi
      have h1 : Φ n p i ≤ Φ n (rt t p) i := above h (by omega)
      have h2 : Φ n p (i + 1) ≤ Φ n (rt t p) (i + 1) := above h (by omega)
      have h3 := Φ_mono h.p0 (Nat.le_succ i) hi
      exact mul_nonneg (by linarith) (by linarith))).mp hz
    have key : ∀ i < n, 0 < p i → t i = S p n / S (rt t p) n := by
      intro i hi hp
      have h1 : Φ n p i ≤ Φ n (rt t p) i := above h (by omega)
      have h2 : Φ n p (i + 1) ≤ Φ n (rt t p) (i + 1) := above h (by omega)
      have h3 : 0 < Φ n p (i + 1) - Φ n p i := by rw [Φ_step]; exact div_pos hp h.pos
      have h4 := (mul_eq_zero.mp (hterm i (mem_range.mpr hi))).resolve_right h3.ne'
      have h5 : Φ n (rt t p) (i + 1) - Φ n (rt t p) i = Φ n p (i + 1) - Φ n p i := by linarith
      rw [Φ_step, Φ_step] at h5
      unfold rt at h5
      have ti := (h.t0 i hi).ne'
      have hP := h.pos.ne'
      have hP' : S p n ≠ 0 := hP
      have hQ := (Q_pos h).ne'
      change p i / t i / S (rt t p) n = p i / S p n at h5
      rw [eq_div_iff hQ]
      rw [div_div, div_eq_div_iff (mul_ne_zero ti hQ) hP'] at h5
      exact (mul_left_cancel₀ hp.ne' h5).symm
    intro i hi j hj hpi hpj
    rw [key i hi hpi, key j hj hpj]
  · intro hall
    obtain ⟨j, hj, hp⟩ := exists_pos h
    have hq : ∀ i < n, rt t p i = p i / t j := by
      intro i hi
      unfold rt
      rcases (h.p0 i hi).lt_or_eq with hpi | hpi
      · rw [hall i hi j hj hpi hp]
      · rw [← hpi]; simp
    have hS : ∀ i ≤ n, S (rt t p) i = S p i / t j := by
      intro i hi
      unfold S; rw [sum_div]
      apply sum_congr rfl
      intro k hk
      rw [mem_range] at hk
      exact hq k (by omega)
    have hΦ : ∀ i ≤ n, Φ n (rt t p) i = Φ n p i := by
      intro i hi
      unfold Φ
      rw [hS i hi, hS n le_rfl, div_div_div_cancel_right₀ (h.t0 j hj).ne']
    have : area (Φ n p) (Φ n (rt t p)) n = area (Φ n p) (Φ n p) n := by
      unfold area
      apply sum_congr rfl
      intro i hi
      rw [mem_range] at hi
      rw [hΦ i (by omega), hΦ (i + 1) (by omega)]
    rw [this, e]; ring

/-! ### Sweep efficiency -/

/-- The pore volume filled at time `τ`. -/
def fill (n : Nat) (t p : Nat → K) (τ : K) : K := ∑ u ∈ range n, p u * min 1 (τ / t u)

theorem fill_mono (h : Seq n t p) {a b : K} (hab : a ≤ b) : fill n t p a ≤ fill n t p b := by
  unfold fill
  apply sum_le_sum
  intro u hu
  rw [mem_range] at hu
  apply mul_le_mul_of_nonneg_left _ (h.p0 u hu)
  exact min_le_min le_rfl (div_le_div_of_nonneg_right hab (h.t0 u hu).le)

theorem fill_le (h : Seq n t p) (a : K) : fill n t p a ≤ S p n := by
  unfold fill S
  apply sum_le_sum
  intro u hu
  rw [mem_range] at hu
  calc p u * min 1 (a / t u) ≤ p u * 1 := mul_le_mul_of_nonneg_left (min_le_left _ _) (h.p0 u hu)
    _ = p u := mul_one _

theorem fill_nonneg (h : Seq n t p) {a : K} (ha : 0 ≤ a) : 0 ≤ fill n t p a := by
  unfold fill
  apply sum_nonneg
  intro u hu
  rw [mem_range] at hu
  exact mul_nonneg (h.p0 u hu) (le_min zero_le_one (div_nonneg ha (h.t0 u hu).le))

theorem fill_all (h : Seq n t p) {a : K} (ha : ∀ j < n, 0 < p j → t j ≤ a) : fill n t p a = S p n := by
  unfold fill S
  apply sum_congr rfl
  intro u hu
  rw [mem_range] at hu
  rcases (h.p0 u hu).lt_or_eq with hp | hp
  · rw [min_eq_left, mul_one]
    rw [le_div_iff₀ (h.t0 u hu), one_mul]
    exact ha u hu hp
  · rw [← hp, zero_mul]

/-- What the loop computes is the filled fraction. -/
theorem ev_eq (h : Seq n t p) {j : Nat} (hj : j < n) :
    Φ n p (j + 1) + (1 - Φ n (rt t p) (j + 1)) * (t j * S (rt t p) n / S p n) = fill n t p (t j) / S p n := by
  have hP : S p n ≠ 0 := h.pos.ne'
  have hQ := (Q_pos h).ne'
  have e1 : fill n t p (t j) = S p (j + 1) + t j * (S (rt t p) n - S (rt t p) (j + 1)) := by
    rw [S_sub _ (by omega : j + 1 ≤ n), mul_sum]
    unfold fill S
    rw [← sum_range_add_sum_Ico _ (by omega : j + 1 ≤ n)]
    congr 1
    · apply sum_congr rfl
      intro u hu
      rw [mem_range] at hu
      rw [min_eq_left, mul_one]
      rw [le_div_iff₀ (h.t0 u (by omega)), one_mul]
      exact h.mono u j (by omega) hj
    · apply sum_congr rfl
      intro u hu
      rw [mem_Ico] at hu
      rw [min_eq_right]
      · unfold rt; ring
      · rw [div_le_iff₀ (h.t0 u (by omega)), one_mul]
        exact h.mono j u (by omega) hu.2
  rw [e1]
  unfold Φ
  field_simp

end Verif.Derived
