/-
Rounding errors of sweep efficiency.
-/
import Verif.Proofs.LorenzCurve
import Verif.Proofs.DerivedSweep

namespace Verif.Rounding
open Verif.Spec Verif.Derived Finset

/-- Quotient of numbers with relative errors. -/
theorem rel_div {x y z w a : ℚ} (ha0 : 0 ≤ a) (ha : a ≤ 1 / 5) (hy : 0 ≤ y) (hw : 0 < w) (h1 : |x - y| ≤ a * y) (h2 : |z - w| ≤ a * w) :
    0 < z ∧ |x / z - y / w| ≤ 5 / 2 * a * (y / w) := by
  obtain ⟨l1, u1⟩ := abs_le.mp h1
  obtain ⟨l2, u2⟩ := abs_le.mp h2
  have haw : a * w ≤ 1 / 5 * w := mul_le_mul_of_nonneg_right ha hw.le
  have hz : 0 < z := by linarith
  refine ⟨hz, ?_⟩
  have hyw : 0 ≤ y / w := div_nonneg hy hw.le
  have e : y = y / w * w := (div_mul_cancel₀ y hw.ne').symm
  generalize hr : y / w = r at hyw e
  subst e
  have hrw : 0 ≤ r * w := hy
  have haa : a * a ≤ 1 / 5 * a := mul_le_mul_of_nonneg_right ha ha0
  have hrwa : 0 ≤ a * (r * w) := mul_nonneg ha0 hrw
  have hrwaa : a * a * (r * w) ≤ 1 / 5 * a * (r * w) := mul_le_mul_of_nonneg_right haa hrw
  have hraa0 : 0 ≤ a * a * (r * w) := mul_nonneg (mul_nonneg ha0 ha0) hrw
  rw [abs_le]
  constructor
  · rw [neg_le_sub_iff_le_add, ← sub_le_iff_le_add, le_div_iff₀ hz]
    -- (r - 5/2 a r) z ≤ x
    have h3 : (r - 5 / 2 * a * r) * z ≤ (r - 5 / 2 * a * r) * (w + a * w) := by
      refine mul_le_mul_of_nonneg_left (by linarith) ?_
      have : 5 / 2 * a * r ≤ 1 * r := mul_le_mul_of_nonneg_right (by linarith) hyw
      linarith
    refine h3.trans ?_
    have : (r - 5 / 2 * a * r) * (w + a * w) = r * w - 3 / 2 * (a * (r * w)) - 5 / 2 * (a * a * (r * w)) := by ring
    rw [this]
    linarith
  · rw [sub_le_iff_le_add, div_le_iff₀ hz]
    have h3 : (5 / 2 * a * r + r) * (w - a * w) ≤ (5 / 2 * a * r + r) * z := by
      refine mul_le_mul_of_nonneg_left (by linarith) ?_
      have : 0 ≤ 5 / 2 * a * r := by positivity
      linarith
    refine le_trans ?_ h3
    have : (5 / 2 * a * r + r) * (w - a * w) = r * w + 3 / 2 * (a * (r * w)) - 5 / 2 * (a * a * (r * w)) := by ring
    rw [this]
    linarith

/-- Rounding of a number that is not tiny. -/
theorem rnd_relative {x : ℚ} (h1 : 1 / 2 ^ 60 ≤ x) (h2 : x ≤ 2 ^ 60) :
    ∃ y, Double.rounded.rnd (X.fin x) = X.fin y ∧ |y - x| ≤ 1 / 2 ^ 51 * x := by
  obtain ⟨y, e, hc⟩ := Double.precise.rel x (by
    rw [div_le_iff₀ (by positivity)] at h1
    refine h1.trans (mul_le_mul_of_nonneg_left (pow_le_pow_right₀ (by norm_num) (by norm_num)) ?_)
    by_contra hn
    push Not at hn
    have : x * 2 ^ 60 < 0 := mul_neg_of_neg_of_pos hn (by positivity)
    linarith) (h2.trans (pow_le_pow_right₀ (by norm_num) (by norm_num)))
  refine ⟨y, e, ?_⟩
  have hx : 0 ≤ x := le_trans (by norm_num) h1
  have := Double.close_abs (k := 1) (by norm_num) hx hc
  simpa using this

/-- Difference of two entries of the curve. -/
theorem step_near {a b : Double} {x y X' Y' κ μ δ : ℚ} (ha : a.val = X.fin x) (hb : b.val = X.fin y) (hx : |x - X'| ≤ δ)
    (hy : |y - Y'| ≤ δ) (hμ0 : 1 / 2 ^ 48 ≤ μ) (hμ : μ ≤ Y' - X') (h1 : Y' - X' ≤ 1) (hδ : 2 * δ = κ * μ) (hκ : κ ≤ 1 / 8) (hκ1 : 14 / 2 ^ 51 ≤ κ) :
    ∃ z, (Arith.sub b a).val = X.fin z ∧ |z - (Y' - X')| ≤ 8 / 7 * κ * (Y' - X') := by
  have hκ0 : 0 ≤ κ := le_trans (by norm_num) hκ1
  have hd0 : 0 ≤ Y' - X' := le_trans (le_trans (by norm_num) hμ0) hμ
  have h2 : |(y - x) - (Y' - X')| ≤ κ * (Y' - X') := by
    have : κ * μ ≤ κ * (Y' - X') := mul_le_mul_of_nonneg_left hμ hκ0
    rw [abs_le] at hx hy ⊢
    constructor <;> linarith
  have h3 : κ * (Y' - X') ≤ 1 / 8 * (Y' - X') := mul_le_mul_of_nonneg_right hκ hd0
  obtain ⟨l, u⟩ := abs_le.mp h2
  obtain ⟨z, z1, z2⟩ := rnd_relative (x := y - x) (by norm_num at hμ0 ⊢; linarith) (by norm_num; linarith)
  refine ⟨z, ?_, ?_⟩
  · show Double.rounded.val _ = _
    rw [Double.rounded.sub, show Double.rounded.val b = X.fin y from hb, show Double.rounded.val a = X.fin x from ha]
    rw [show X.sub (X.fin y) (X.fin x) = X.fin (y - x) from Solver.X_sub y x]
    exact z1
  · have h4 : 1 / 2 ^ 51 * (y - x) ≤ 1 / 2 ^ 51 * (2 * (Y' - X')) := mul_le_mul_of_nonneg_left (by linarith) (by norm_num)
    have h5 : 14 / 2 ^ 51 * (Y' - X') ≤ κ * (Y' - X') := mul_le_mul_of_nonneg_right hκ1 hd0
    have h6 : |z - (Y' - X')| ≤ |z - (y - x)| + |(y - x) - (Y' - X')| := abs_sub_le _ _ _
    have h7 : 8 / 7 * κ * (Y' - X') = κ * (Y' - X') + 1 / 7 * (κ * (Y' - X')) := by ring
    rw [h7]
    norm_num at h4 h5 z2 ⊢
    linarith

/-- One point of sweep efficiency. -/
theorem point_near {a0 a1 b0 b1 : Double} {s0 s1 f0 f1 Φ0 Φ1 F0 F1 κ μ δ η : ℚ} (ha0 : a0.val = X.fin s0) (ha1 : a1.val = X.fin s1)
    (hb0 : b0.val = X.fin f0) (hb1 : b1.val = X.fin f1) (es0 : |s0 - Φ0| ≤ δ) (es1 : |s1 - Φ1| ≤ δ) (ef0 : |f0 - F0| ≤ δ) (ef1 : |f1 - F1| ≤ δ)
    (hμ0 : 1 / 2 ^ 48 ≤ μ) (hμΦ : μ ≤ Φ1 - Φ0) (hμF : μ ≤ F1 - F0) (hΦ : Φ1 - Φ0 ≤ 1) (hF : F1 - F0 ≤ 1)
    (hf1 : 0 ≤ f1) (hf1' : f1 ≤ 1) (hs1 : 0 ≤ s1) (hs1' : s1 ≤ 1) (hF1 : F1 ≤ 1)
    (hδ : 2 * δ = κ * μ) (hκ : κ ≤ 1 / 8) (hκ1 : 14 / 2 ^ 51 ≤ κ) (hδ1 : 7 / 2 ^ 51 ≤ δ) (hμ1 : μ ≤ 1)
    (hη : η ≤ 1 / 2 ^ 40) (htail : (1 - F1) * ((Φ1 - Φ0) / (F1 - F0)) ≤ 1 + η) :
    (∃ z, (Arith.sub b1 b0).val = X.fin z ∧ z ≠ 0) ∧
    ∃ t, (Arith.div (Arith.sub a1 a0) (Arith.sub b1 b0)).val = X.fin t ∧ |t - (Φ1 - Φ0) / (F1 - F0)| ≤ 3 * κ * ((Φ1 - Φ0) / (F1 - F0)) ∧
    ∃ w, (Arith.add a1 (Arith.mul (Arith.sub (Arith.lit 1) b1) (Arith.div (Arith.sub a1 a0) (Arith.sub b1 b0)))).val = X.fin w ∧
      |w - (Φ1 + (1 - F1) * ((Φ1 - Φ0) / (F1 - F0)))| ≤ 23 / 4 * κ := by
  have hκ0 : 0 ≤ κ := le_trans (by norm_num) hκ1
  have hμp : 0 < μ := lt_of_lt_of_le (by norm_num) hμ0
  have hFp : 0 < F1 - F0 := lt_of_lt_of_le hμp hμF
  obtain ⟨x, x1, x2⟩ := step_near ha0 ha1 es0 es1 hμ0 hμΦ hΦ hδ hκ hκ1
  obtain ⟨z, z1, z2⟩ := step_near hb0 hb1 ef0 ef1 hμ0 hμF hF hδ hκ hκ1
  obtain ⟨hz, hq⟩ := rel_div (by linarith) (by linarith) (le_trans hμp.le hμΦ) hFp x2 z2
  refine ⟨⟨z, z1, hz.ne'⟩, ?_⟩
  set τ := (Φ1 - Φ0) / (F1 - F0) with hτ
  have hτ0 : 0 ≤ τ := div_nonneg (le_trans hμp.le hμΦ) hFp.le
  have hτlo : μ ≤ τ := by
    rw [hτ, le_div_iff₀ hFp]
    calc μ * (F1 - F0) ≤ μ * 1 := mul_le_mul_of_nonneg_left hF hμp.le
      _ = μ := mul_one μ
      _ ≤ Φ1 - Φ0 := hμΦ
  have hτhi : τ * μ ≤ 1 := by
    rw [hτ, div_mul_eq_mul_div, div_le_iff₀ hFp, one_mul]
    calc (Φ1 - Φ0) * μ ≤ 1 * μ := mul_le_mul_of_nonneg_right hΦ hμp.le
      _ = μ := one_mul μ
      _ ≤ F1 - F0 := hμF
  have hτbig : τ ≤ 2 ^ 48 := by
    have h1 : τ * (1 / 2 ^ 48) ≤ 1 := (mul_le_mul_of_nonneg_left hμ0 hτ0).trans hτhi
    rw [mul_one_div, div_le_iff₀ (by positivity), one_mul] at h1
    exact h1
  have hκτ : κ * τ ≤ 1 / 8 * τ := mul_le_mul_of_nonneg_right hκ hτ0
  have hκτ0 : 0 ≤ κ * τ := mul_nonneg hκ0 hτ0
  have hq' : |x / z - τ| ≤ 20 / 7 * (κ * τ) := by
    refine hq.trans (le_of_eq ?_); ring
  obtain ⟨ql, qu⟩ := abs_le.mp hq'
  obtain ⟨t, t1, t2⟩ := rnd_relative (x := x / z) (by norm_num at hμ0 ⊢; linarith) (by norm_num at hτbig ⊢; linarith)
  have hval : (Arith.div (Arith.sub a1 a0) (Arith.sub b1 b0)).val = X.fin t := by
    show Double.rounded.val _ = _
    rw [Double.rounded.div _ _ (by rw [show Double.rounded.val (Arith.sub b1 b0) = X.fin z from z1]; simpa using hz.ne'),
      show Double.rounded.val (Arith.sub b1 b0) = X.fin z from z1, show Double.rounded.val (Arith.sub a1 a0) = X.fin x from x1]
    simp only [X.div, hz.ne', if_false]
    exact t1
  have hκt : 14 / 2 ^ 51 * τ ≤ κ * τ := mul_le_mul_of_nonneg_right hκ1 hτ0
  have ht : |t - τ| ≤ 3 * (κ * τ) := by
    have h4 : 1 / 2 ^ 51 * (x / z) ≤ 1 / 2 ^ 51 * (11 / 8 * τ) := mul_le_mul_of_nonneg_left (by linarith) (by norm_num)
    have h6 : |t - τ| ≤ |t - x / z| + |x / z - τ| := abs_sub_le _ _ _
    norm_num at h4 hκt t2 ⊢
    linarith
  refine ⟨t, hval, by rw [mul_assoc]; exact ht, ?_⟩
  obtain ⟨tl, tu⟩ := abs_le.mp ht
  have ht0 : 0 ≤ t := by linarith
  -- 1 - f1
  obtain ⟨e, e1, e2⟩ := rnd_abs (x := 1 - f1) (by rw [abs_of_nonneg (by linarith)]; linarith)
  have he : |e - (1 - F1)| ≤ 2 * δ := by
    have h6 : |e - (1 - F1)| ≤ |e - (1 - f1)| + |(1 - f1) - (1 - F1)| := abs_sub_le _ _ _
    have h7 : |(1 - f1) - (1 - F1)| ≤ δ := by
      rw [show (1 - f1) - (1 - F1) = -(f1 - F1) by ring, abs_neg]; exact ef1
    norm_num at e2 hδ1 ⊢
    linarith
  rw [hδ] at he
  have lit1 : Double.rounded.val (Arith.lit 1) = X.fin 1 := val_one Double.rounded
  have hsubv : Double.rounded.val (Arith.sub (Arith.lit 1) b1) = X.fin e := by
    rw [Double.rounded.sub, lit1, show Double.rounded.val b1 = X.fin f1 from hb1,
      show X.sub (X.fin 1) (X.fin f1) = X.fin (1 - f1) from Solver.X_sub 1 f1]
    exact e1
  -- the product
  have hF1' : 0 ≤ 1 - F1 := by linarith
  have hprod : |e * t - (1 - F1) * τ| ≤ 9 / 2 * κ := by
    have e3 : e * t - (1 - F1) * τ = (e - (1 - F1)) * t + (1 - F1) * (t - τ) := by ring
    rw [e3]
    refine (abs_add_le _ _).trans ?_
    rw [abs_mul, abs_mul, abs_of_nonneg ht0, abs_of_nonneg hF1']
    have k1 : |e - (1 - F1)| * t ≤ κ * μ * (11 / 8 * τ) := mul_le_mul he (by linarith) ht0 (mul_nonneg hκ0 hμp.le)
    have k2 : κ * μ * (11 / 8 * τ) = 11 / 8 * (κ * (τ * μ)) := by ring
    have k3 : κ * (τ * μ) ≤ κ * 1 := mul_le_mul_of_nonneg_left hτhi hκ0
    have k4 : (1 - F1) * |t - τ| ≤ (1 - F1) * (3 * (κ * τ)) := mul_le_mul_of_nonneg_left ht hF1'
    have k5 : (1 - F1) * (3 * (κ * τ)) = 3 * (κ * ((1 - F1) * τ)) := by ring
    have k6 : κ * ((1 - F1) * τ) ≤ κ * (1 + η) := mul_le_mul_of_nonneg_left htail hκ0
    have k7 : κ * η ≤ κ * (1 / 2 ^ 40) := mul_le_mul_of_nonneg_left hη hκ0
    norm_num at k7
    linarith
  have hge : 0 ≤ (1 - F1) * τ := mul_nonneg hF1' hτ0
  obtain ⟨pl, pu⟩ := abs_le.mp hprod
  obtain ⟨m, m1, m2⟩ := rnd_abs (x := e * t) (by rw [abs_le]; norm_num at hη; constructor <;> linarith)
  obtain ⟨ml, mu⟩ := abs_le.mp m2
  have hmulv : Double.rounded.val (Arith.mul (Arith.sub (Arith.lit 1) b1) (Arith.div (Arith.sub a1 a0) (Arith.sub b1 b0))) = X.fin m := by
    rw [Double.rounded.mul, hsubv, show Double.rounded.val (Arith.div (Arith.sub a1 a0) (Arith.sub b1 b0)) = X.fin t from hval]
    exact m1
  obtain ⟨w, w1, w2⟩ := rnd_abs (x := s1 + m) (by rw [abs_le]; norm_num at hη ml mu; constructor <;> linarith)
  refine ⟨w, ?_, ?_⟩
  · show Double.rounded.val _ = _
    rw [Double.rounded.add, hmulv, show Double.rounded.val a1 = X.fin s1 from ha1]
    exact w1
  · have hδκ : 2 * δ ≤ κ := by
      rw [hδ]
      calc κ * μ ≤ κ * 1 := mul_le_mul_of_nonneg_left hμ1 hκ0
        _ = κ := mul_one κ
    rw [abs_le] at w2 es1 ⊢
    norm_num at w2 ml mu hκ1 ⊢
    constructor <;> linarith [w2.1, w2.2, es1.1, es1.2]

end Verif.Rounding
