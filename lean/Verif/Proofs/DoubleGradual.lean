/-
`double` has gradual underflow: a quotient that is not zero does not vanish when multiplied with its divisor.
-/
import Verif.Proofs.RoundingTime
import Verif.Proofs.DoubleSign

namespace Verif.Double
open Verif.Spec Verif.Rounding

/-- A finite number above zero. -/
theorem pos_form {a : Double} (hf : Rounding.Fin rounded a) (hp : Pos rounded a) :
    ∃ (m : ℕ) (e : ℤ), m ≠ 0 ∧ m < 2 ^ 53 ∧ -1074 ≤ e ∧ val a = X.fin ((m : ℚ) * 2 ^ e) := by
  obtain ⟨k, hk⟩ := hf
  change val a = _ at hk
  unfold Pos at hp
  change X.lt _ (val a) = true at hp
  cases a with
  | nan => simp [val] at hk
  | infinite s => cases s <;> simp [val] at hk
  | finite s m e h =>
    rw [val_finite] at hp ⊢
    have h2 := two_zpow_pos e
    simp only [X.lt, decide_eq_true_eq] at hp
    have hm : m ≠ 0 := by
      rintro rfl
      simp [signed_zero] at hp
    cases s
    · exact ⟨m, e, hm, h.1, h.2.1, rfl⟩
    · exfalso
      simp only [signed, if_true] at hp
      have : (0 : ℚ) ≤ m * 2 ^ e := by positivity
      linarith

/-- No positive number is below the least subnormal number. -/
theorem form_ge {m : ℕ} {e : ℤ} (hm : m ≠ 0) (he : -1074 ≤ e) : (2 : ℚ) ^ (-1074 : ℤ) ≤ m * 2 ^ e := by
  have h1 : (1 : ℚ) ≤ m := by exact_mod_cast Nat.one_le_iff_ne_zero.mpr hm
  have h2 : (2 : ℚ) ^ (-1074 : ℤ) ≤ 2 ^ e := zpow_le_zpow_right₀ (by norm_num) he
  have h3 := two_zpow_pos e
  nlinarith

theorem back {c t : Double} (hcf : Rounding.Fin rounded c) (hcp : Pos rounded c) (htf : Rounding.Fin rounded t)
    (htp : Pos rounded t) (hq : Pos rounded (Arith.div c t)) : Pos rounded (Arith.mul t (Arith.div c t)) := by
  obtain ⟨mc, ec, c1, c2, c3, c4⟩ := pos_form hcf hcp
  obtain ⟨mt, et, t1, t2, t3, t4⟩ := pos_form htf htp
  have hcge := form_ge c1 c3
  have htge := form_ge t1 t3
  set x := (mc : ℚ) * 2 ^ ec with hx
  set y := (mt : ℚ) * 2 ^ et with hy
  have hη := two_zpow_pos (-1074)
  have hxp : 0 < x := by linarith
  have hyp : 0 < y := by linarith
  have hxy : 0 < x / y := div_pos hxp hyp
  have hval : val (div c t) = cut (near (x / y)) := by
    rw [val_div _ _ (by rw [t4]; simpa using hyp.ne'), c4, t4]
    simp only [X.div, hyp.ne', if_false]
    exact val_pos false hxy
  have hmul : rounded.val (Arith.mul t (Arith.div c t)) = rnd (X.mul (X.fin y) (val (div c t))) := by
    change val (mul t (div c t)) = _
    rw [val_mul, t4]
  unfold Pos at *
  rw [hmul]
  by_cases hfin : near (x / y) < huge
  · -- the quotient is finite
    have hqv : val (div c t) = X.fin (near (x / y)) := by rw [hval, cut, if_pos hfin]
    obtain ⟨m, e, q1, q2, q3, q4⟩ := pos_form (a := div c t) ⟨_, hqv⟩ hq
    rw [hqv] at q4
    simp only [X.fin.injEq] at q4
    rw [hqv]
    set q := near (x / y) with hqdef
    have hqp : 0 < q := by
      have := form_ge q1 q3
      linarith
    have hyq : 0 < y * q := mul_pos hyp hqp
    simp only [X.mul]
    change X.lt (X.fin 0) (val (ofRat false (y * q))) = true
    rw [val_pos false hyq]
    -- suppose the product vanishes
    by_contra hno
    have hz : near (y * q) = 0 := by
      unfold cut at hno
      split at hno
      · simp only [X.lt, decide_eq_true_eq, not_lt] at hno
        exact le_antisymm hno (near_nonneg _)
      · simp [X.lt] at hno
    -- then it is at most half of the least subnormal number
    have h1 := near_nearest hyq (m := 1) (e := -1074) (by norm_num) (by norm_num)
    rw [hz, sub_zero, abs_of_pos hyq, Nat.cast_one, one_mul] at h1
    have h2 : y * q ≤ 2 ^ (-1074 : ℤ) / 2 := by
      by_contra hlt
      rw [not_le] at hlt
      rcases le_total (y * q) (2 ^ (-1074 : ℤ)) with h | h
      · rw [abs_of_nonpos (by linarith)] at h1; linarith
      · rw [abs_of_nonneg (by linarith)] at h1; linarith
    -- so twice the quotient is nearer to `x / y`
    have h3 : 2 * q ≤ x / y := by
      rw [le_div_iff₀ hyp]
      nlinarith
    have h4 := near_nearest hxy (m := m) (e := e + 1) q2 (by omega)
    have h5 : (m : ℚ) * 2 ^ (e + 1) = 2 * q := by
      rw [zpow_add₀ (by norm_num), q4]; ring
    rw [h5, ← hqdef, abs_of_nonneg (by linarith), abs_of_nonneg (by linarith)] at h4
    linarith
  · have hqv : val (div c t) = X.pinf := by rw [hval, cut, if_neg hfin]
    rw [hqv]
    simp only [X.mul, X.infSign, if_pos hyp]
    rfl

theorem cap_finite : IsFinite (capIn Double) := by
  unfold IsFinite
  decide +kernel

theorem gradual : Gradual rounded where
  cap := (isFinite_iff rounded).mp cap_finite
  back c t h1 h2 h3 h4 h5 := back h1 h2 h3 h4 h5

end Verif.Double
