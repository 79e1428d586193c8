/-
The relative error of rounding in binary64.
-/
import Verif.Proofs.Double
import Verif.Proofs.Near

namespace Verif.Double
open Verif.Spec Verif.Rounding

theorem roundEven_dist (x : ℚ) : |(roundEven x : ℚ) - x| ≤ 1 / 2 := by
  have h0 := Int.floor_le x
  have h1 := Int.lt_floor_add_one x
  rw [abs_le]
  unfold roundEven
  split
  · constructor <;> linarith
  · split
    · push_cast; constructor <;> linarith
    · split
      · constructor <;> linarith
      · push_cast; constructor <;> linarith

theorem log_bounds {x : ℚ} (hx : 0 < x) : (2 : ℚ) ^ Int.log 2 x ≤ x ∧ x < 2 ^ (Int.log 2 x + 1) := by
  constructor
  · simpa using Int.zpow_log_le_self (b := 2) (by norm_num) hx
  · simpa using Int.lt_zpow_succ_log_self (b := 2) (by norm_num) x

/-- Rounding of a number whose magnitude is that of a normal number. -/
theorem near_close {x : ℚ} (hx : 0 < x) (hlog : -1022 ≤ Int.log 2 x) : Close (1 + 1 / 2 ^ 52) 1 (near x) x := by
  obtain ⟨h1, _⟩ := log_bounds hx
  have hexp : expOf x = Int.log 2 x - 52 := by unfold expOf; exact max_eq_left (by omega)
  rw [near_eq hx.le]
  set e := expOf x with he
  have h2e := two_zpow_pos e
  have hz : (2 : ℚ) ^ 52 ≤ x / 2 ^ e := by
    rw [le_div_iff₀ h2e, ← zpow_natCast, ← zpow_add₀ (by norm_num), hexp]
    rw [show ((52 : ℕ) : ℤ) + (Int.log 2 x - 52) = Int.log 2 x by push_cast; ring]
    exact h1
  have hd := abs_le.mp (roundEven_dist (x / 2 ^ e))
  generalize (roundEven (x / 2 ^ e) : ℚ) = r at hd ⊢
  obtain ⟨z, hzx⟩ : ∃ z, z = x / 2 ^ e := ⟨_, rfl⟩
  have hxz : x = z * 2 ^ e := by rw [hzx, div_mul_cancel₀ _ h2e.ne']
  rw [← hzx] at hd hz
  unfold Close
  rw [pow_one, hxz]
  constructor
  · have : z ≤ r * (1 + 1 / 2 ^ 52) := by
      have : (1 : ℚ) ≤ r * (1 / 2 ^ 51) := by
        rw [mul_one_div, le_div_iff₀ (by positivity)]
        norm_num at hz ⊢
        linarith
      linarith
    calc z * 2 ^ e ≤ r * (1 + 1 / 2 ^ 52) * 2 ^ e := mul_le_mul_of_nonneg_right this h2e.le
      _ = r * 2 ^ e * (1 + 1 / 2 ^ 52) := by ring
  · have : r ≤ z * (1 + 1 / 2 ^ 52) := by
      have : (1 : ℚ) ≤ z * (1 / 2 ^ 52) := by
        rw [mul_one_div, le_div_iff₀ (by positivity)]
        linarith
      linarith
    calc r * 2 ^ e ≤ z * (1 + 1 / 2 ^ 52) * 2 ^ e := mul_le_mul_of_nonneg_right this h2e.le
      _ = z * 2 ^ e * (1 + 1 / 2 ^ 52) := by ring

theorem rnd_rel {x : ℚ} (h1 : 1 ≤ x * 2 ^ 1001) (h2 : x ≤ 2 ^ 1001) :
    ∃ y, rnd (X.fin x) = X.fin y ∧ Close (1 + 1 / 2 ^ 52) 1 y x := by
  have hp : (0 : ℚ) < 2 ^ 1001 := by positivity
  have hx : 0 < x := by
    by_contra hn
    have : x * 2 ^ 1001 ≤ 0 := mul_nonpos_of_nonpos_of_nonneg (not_lt.mp hn) hp.le
    exact absurd (h1.trans this) (by norm_num)
  have hlog : -1022 ≤ Int.log 2 x := by
    have h3 : (2 : ℚ) ^ (-1001 : ℤ) ≤ x := by
      have e : (2 : ℚ) ^ (-1001 : ℤ) = (2 ^ 1001)⁻¹ := by rw [zpow_neg]; rfl
      rw [e, inv_eq_one_div, div_le_iff₀ hp]
      exact h1
    have h4 : (2 : ℚ) ^ (-1001 : ℤ) < 2 ^ (Int.log 2 x + 1) := lt_of_le_of_lt h3 (log_bounds hx).2
    have := (zpow_lt_zpow_iff_right₀ (by norm_num : (1 : ℚ) < 2)).mp h4
    omega
  have hc := near_close hx hlog
  refine ⟨near x, ?_, hc⟩
  have hlt : near x < huge := by
    have h3 := hc.2
    rw [pow_one] at h3
    have h4 : x * (1 + 1 / 2 ^ 52) ≤ 2 ^ 1001 * 2 := by
      apply mul_le_mul h2 _ (by positivity) hp.le
      norm_num
    have h5 : (2 : ℚ) ^ 1001 * 2 = 2 ^ 1002 := (pow_succ _ _).symm
    have h6 : (2 : ℚ) ^ 1002 < huge := by
      unfold huge
      rw [← zpow_natCast]
      exact zpow_lt_zpow_right₀ (by norm_num) (by norm_num)
    rw [h5] at h4
    exact lt_of_le_of_lt (h3.trans h4) h6
  show val (ofRat false x) = _
  rw [val_pos false hx, cut, if_pos hlt]

/-- Small integers are exact. -/
theorem rnd_nat {n : ℕ} (h0 : 0 < n) (hn : n ≤ 2 ^ 50) : rnd (X.fin (n : ℚ)) = X.fin (n : ℚ) := by
  have hx : (0 : ℚ) < n := by exact_mod_cast h0
  obtain ⟨h1, h2⟩ := log_bounds hx
  have hl0 : 0 ≤ Int.log 2 (n : ℚ) := by
    have h3 : (1 : ℚ) < 2 ^ (Int.log 2 (n : ℚ) + 1) := lt_of_le_of_lt (by exact_mod_cast h0) h2
    have := (one_lt_zpow_iff_right₀ (by norm_num : (1 : ℚ) < 2)).mp h3
    omega
  have hl50 : Int.log 2 (n : ℚ) ≤ 50 := by
    have h3 : (2 : ℚ) ^ Int.log 2 (n : ℚ) ≤ 2 ^ (50 : ℤ) := h1.trans (by
      rw [show (2 : ℚ) ^ (50 : ℤ) = ((2 ^ 50 : ℕ) : ℚ) by norm_num]
      exact_mod_cast hn)
    exact (zpow_le_zpow_iff_right₀ (by norm_num : (1 : ℚ) < 2)).mp h3
  have hnear : near (n : ℚ) = n := by
    rw [near_eq hx.le]
    have hexp : expOf (n : ℚ) = Int.log 2 (n : ℚ) - 52 := by unfold expOf; exact max_eq_left (by omega)
    obtain ⟨k, hk⟩ : ∃ k : ℕ, expOf (n : ℚ) = -(k : ℤ) := ⟨(-(expOf (n : ℚ))).toNat, by omega⟩
    rw [hk, zpow_neg, zpow_natCast, div_inv_eq_mul]
    have e : (n : ℚ) * 2 ^ k = (((n * 2 ^ k : ℕ) : ℤ) : ℚ) := by push_cast; ring
    rw [e, roundEven_int, ← e]
    field_simp
  show val (ofRat false (n : ℚ)) = _
  rw [val_pos false hx, hnear, cut, if_pos]
  calc (n : ℚ) ≤ 2 ^ (50 : ℤ) := by
        rw [show (2 : ℚ) ^ (50 : ℤ) = ((2 ^ 50 : ℕ) : ℚ) by norm_num]
        exact_mod_cast hn
    _ < huge := zpow_lt_zpow_right₀ (by norm_num) (by norm_num)

theorem lit_nat {n : ℕ} (h0 : 0 < n) (hn : n ≤ 2 ^ 50) : val (Arith.lit (n : ℚ)) = X.fin (n : ℚ) := by
  have := rounded.lit (n : ℚ)
  rw [show rounded.val (Arith.lit (n : ℚ)) = val (Arith.lit (n : ℚ)) from rfl] at this
  rw [this]
  show rnd (X.fin (((n : ℚ)) : ℚ)) = _
  simpa using rnd_nat h0 hn

theorem mul_nat {a b : Double} {m n : ℕ} (ha : val a = X.fin (m : ℚ)) (hb : val b = X.fin (n : ℚ)) (h0 : 0 < m * n)
    (hn : m * n ≤ 2 ^ 50) : val (Arith.mul a b) = X.fin ((m * n : ℕ) : ℚ) := by
  have := rounded.mul a b
  rw [show rounded.val (Arith.mul a b) = val (Arith.mul a b) from rfl] at this
  rw [this]
  show rnd (X.mul (val a) (val b)) = _
  rw [ha, hb, ← rnd_nat h0 hn]
  simp [X.mul]

theorem val_cap : val (capIn Double) = X.fin cap := by
  unfold capIn
  have h := mul_nat (mul_nat (mul_nat (mul_nat (lit_nat (n := 200) (by norm_num) (by norm_num))
    (lit_nat (n := 365) (by norm_num) (by norm_num)) (by norm_num) (by norm_num))
    (lit_nat (n := 24) (by norm_num) (by norm_num)) (by norm_num) (by norm_num))
    (lit_nat (n := 60) (by norm_num) (by norm_num)) (by norm_num) (by norm_num))
    (lit_nat (n := 60) (by norm_num) (by norm_num)) (by norm_num) (by norm_num)
  push_cast at h
  rw [h]
  unfold cap
  norm_num

/-- In binary64 the relative rounding error of numbers of moderate magnitude is at most `2^-52`. -/
theorem precise : Precise rounded (1 + 1 / 2 ^ 52 : ℚ) where
  one_le := by norm_num
  rel := fun _ h1 h2 => rnd_rel h1 h2
  cap := val_cap

theorem pow_mul_le (k : ℕ) : k ≤ 2 ^ 52 → (1 + 1 / 2 ^ 52 : ℚ) ^ k * (1 - k / 2 ^ 52) ≤ 1 := by
  induction k with
  | zero => simp
  | succ k ih =>
    intro hk
    have h1 := ih (by omega)
    have hq : (0 : ℚ) < (1 + 1 / 2 ^ 52) ^ k := by positivity
    have h2 : (1 + 1 / 2 ^ 52 : ℚ) * (1 - ((k + 1 : ℕ) : ℚ) / 2 ^ 52) ≤ 1 - k / 2 ^ 52 := by
      push_cast
      have : (0 : ℚ) ≤ k := Nat.cast_nonneg k
      have h3 : (0 : ℚ) ≤ 1 / 2 ^ 52 * (k + 1) / 2 ^ 52 := by positivity
      have h4 : (1 + 1 / 2 ^ 52 : ℚ) * (1 - (k + 1) / 2 ^ 52) = 1 - k / 2 ^ 52 - 1 / 2 ^ 52 * (k + 1) / 2 ^ 52 := by ring
      rw [h4]; linarith
    rw [pow_succ, mul_assoc]
    exact (mul_le_mul_of_nonneg_left h2 hq.le).trans h1

theorem pow_le (k : ℕ) (hk : k ≤ 2 ^ 51) : (1 + 1 / 2 ^ 52 : ℚ) ^ k ≤ 1 + k / 2 ^ 51 := by
  have h := pow_mul_le k (by omega)
  have hk' : (k : ℚ) ≤ 2 ^ 51 := by exact_mod_cast hk
  have h0 : (0 : ℚ) ≤ k := Nat.cast_nonneg k
  have ha : (0 : ℚ) < 1 - k / 2 ^ 52 := by
    have : (k : ℚ) / 2 ^ 52 ≤ 1 / 2 := by rw [div_le_iff₀ (by positivity)]; norm_num at hk' ⊢; linarith
    linarith
  have h1 : (1 : ℚ) ≤ (1 + k / 2 ^ 51) * (1 - k / 2 ^ 52) := by
    have e : (1 + k / 2 ^ 51 : ℚ) * (1 - k / 2 ^ 52) = 1 + k / 2 ^ 103 * (2 ^ 51 - k) := by ring
    rw [e]
    have : (0 : ℚ) ≤ k / 2 ^ 103 * (2 ^ 51 - k) := mul_nonneg (by positivity) (by linarith)
    linarith
  exact le_of_mul_le_mul_right (h.trans h1) ha

theorem pow_le_two {k : ℕ} (hk : k ≤ 2 ^ 51) : (1 + 1 / 2 ^ 52 : ℚ) ^ k ≤ 2 := by
  have h := pow_le k hk
  have hk' : (k : ℚ) ≤ 2 ^ 51 := by exact_mod_cast hk
  have : (k : ℚ) / 2 ^ 51 ≤ 1 := by rw [_root_.div_le_one (by positivity)]; exact hk'
  linarith

theorem pow_clear {M : ℕ} (hM : M ≤ 2 ^ 40) : (1 + 1 / 2 ^ 52 : ℚ) ^ (2 * M + 2) * 200 < 201 := by
  have h := pow_le (2 * M + 2) (by omega)
  have hk' : ((2 * M + 2 : ℕ) : ℚ) ≤ 2 ^ 42 := by exact_mod_cast (show 2 * M + 2 ≤ 2 ^ 42 by omega)
  have : ((2 * M + 2 : ℕ) : ℚ) / 2 ^ 51 ≤ 1 / 2 ^ 9 := by
    rw [div_le_iff₀ (by positivity)]; norm_num at hk' ⊢; linarith
  norm_num at this
  norm_num at h ⊢
  linarith

theorem close_abs {k : ℕ} (hk : k ≤ 2 ^ 51) {x y : ℚ} (hy : 0 ≤ y) (h : Close (1 + 1 / 2 ^ 52) k x y) :
    |x - y| ≤ k / 2 ^ 51 * y := by
  have h0 : (0 : ℚ) ≤ k := Nat.cast_nonneg k
  have hq : (0 : ℚ) < (1 + 1 / 2 ^ 52) ^ k := by positivity
  rw [abs_le]
  constructor
  · have h1 := pow_mul_le k (by omega)
    have h2 : y * (1 - k / 2 ^ 52) ≤ x := by
      have h3 : y * (1 - k / 2 ^ 52) * (1 + 1 / 2 ^ 52) ^ k ≤ x * (1 + 1 / 2 ^ 52) ^ k := by
        calc y * (1 - k / 2 ^ 52) * (1 + 1 / 2 ^ 52) ^ k = y * ((1 + 1 / 2 ^ 52) ^ k * (1 - k / 2 ^ 52)) := by ring
          _ ≤ y * 1 := mul_le_mul_of_nonneg_left h1 hy
          _ ≤ x * (1 + 1 / 2 ^ 52) ^ k := by rw [mul_one]; exact h.1
      exact le_of_mul_le_mul_right h3 hq
    have h4 : (k : ℚ) / 2 ^ 52 * y ≤ k / 2 ^ 51 * y := by
      apply mul_le_mul_of_nonneg_right _ hy
      apply div_le_div_of_nonneg_left h0 (by positivity) (by norm_num)
    linarith
  · have h1 := pow_le k hk
    have h2 : x ≤ y * (1 + k / 2 ^ 51) := h.2.trans (mul_le_mul_of_nonneg_left h1 hy)
    linarith

end Verif.Double
