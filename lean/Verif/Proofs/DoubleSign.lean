/-
Signs and nearness of `double` operations.
-/
import Verif.Proofs.Double
import Verif.Spec.Toolbox

namespace Verif.Double
open Verif.Spec

theorem neg_round (s : Bool) (x : ℚ) : neg (round s x) = round (!s) x := by
  unfold round make
  split
  · rfl
  split <;> rfl

theorem neg_ofRat (s t : Bool) {x : ℚ} (hx : x ≠ 0) : ofRat s (-x) = neg (ofRat t x) := by
  unfold ofRat
  rw [if_neg (by simpa using hx), if_neg hx, neg_round, abs_neg]
  congr 1
  rw [Bool.eq_iff_iff]
  simp only [Left.neg_neg_iff, decide_eq_true_eq, Bool.not_eq_true', decide_eq_false_iff_not, not_lt]
  exact ⟨fun h => h.le, fun h => lt_of_le_of_ne h (Ne.symm hx)⟩

theorem signed_not (s : Bool) (x : ℚ) : signed (!s) x = -signed s x := by cases s <;> simp [signed]

theorem eq_zero (x : Double) : Arith.eq x Arith.zero = true ↔ val x = X.fin 0 := by
  show X.eq (val x) (val (ofRat false ((0 : ℚ)))) = true ↔ _
  rw [val_ofRat_zero]
  cases val x <;> simp [X.eq]

theorem val_lit_zero : val (Arith.zero : Double) = X.fin 0 := val_ofRat_zero false

/-- The sign laws hold. -/
theorem signLaws : SignLaws Double where
  neg_neg x := by
    show neg (neg x) = x
    cases x <;> simp [neg]
  neg_pos x := by
    show X.lt (val Arith.zero) (val (neg x)) = X.lt (val x) (val Arith.zero)
    rw [val_neg', val_lit_zero]
    cases val x <;> simp [X.neg, X.lt]
  neg_lt x := by
    show X.lt (val (neg x)) (val Arith.zero) = X.lt (val Arith.zero) (val x)
    rw [val_neg', val_lit_zero]
    cases val x <;> simp [X.neg, X.lt]
  one_sign x h := by
    change X.lt (val Arith.zero) (val x) = true at h
    show X.lt (val x) (val Arith.zero) = false
    rw [val_lit_zero] at *
    cases e : val x <;> rw [e] at h <;> simp_all [X.lt]
    exact h.le
  zero_eq := by rw [eq_zero, val_lit_zero]
  zero_sign x h := by
    rw [eq_zero] at h
    show X.lt (val Arith.zero) (val x) = false ∧ X.lt (val x) (val Arith.zero) = false
    rw [val_lit_zero, h]; simp [X.lt]
  neg_add x y := by
    rw [eq_zero, eq_zero]
    show add (neg x) (neg y) = neg (add x y) ∨ (val (add x y) = _ ∧ val (add (neg x) (neg y)) = _)
    cases x with
    | nan => left; cases y <;> rfl
    | infinite s =>
      left
      cases y with
      | nan => rfl
      | infinite t => cases s <;> cases t <;> rfl
      | finite => rfl
    | finite s m e h =>
      cases y with
      | nan => left; rfl
      | infinite t => left; rfl
      | finite t k f h' =>
        simp only [neg, add, signed_not]
        rw [← _root_.neg_add]
        by_cases hz : signed s ((m : ℚ) * 2 ^ e) + signed t ((k : ℚ) * 2 ^ f) = 0
        · right
          rw [hz, neg_zero, val_ofRat_zero, val_ofRat_zero]
          exact ⟨rfl, rfl⟩
        · left
          exact neg_ofRat _ _ hz
  zero_add x y z hx hy := by
    rw [eq_zero] at hx hy
    rw [eq_zero, eq_zero]
    show add y (neg z) = neg (add x z) ∨ (val (add x z) = _ ∧ val (add y (neg z)) = _)
    cases x with
    | nan => simp [val] at hx
    | infinite s => cases s <;> simp [val] at hx
    | finite s m e h =>
      cases y with
      | nan => simp [val] at hy
      | infinite s => cases s <;> simp [val] at hy
      | finite t k f h' =>
        obtain rfl := finite_zero h hx
        obtain rfl := finite_zero h' hy
        cases z with
        | nan => left; rfl
        | infinite u => left; rfl
        | finite u j i h'' =>
          simp only [neg, add, signed_not, Nat.cast_zero, zero_mul, signed_zero, zero_add]
          by_cases hz : signed u ((j : ℚ) * 2 ^ i) = 0
          · right
            rw [hz, neg_zero, val_ofRat_zero, val_ofRat_zero]
            exact ⟨rfl, rfl⟩
          · left
            exact neg_ofRat _ _ hz

/-! ### Nearness -/

theorem roundEven_near (x : ℚ) (n : ℤ) : |x - roundEven x| ≤ |x - n| := by
  have h0 := Int.floor_le x
  have h1 := Int.lt_floor_add_one x
  have hn : |x - ⌊x⌋| = x - ⌊x⌋ := abs_of_nonneg (by linarith)
  have hn1 : |x - (⌊x⌋ + 1 : ℤ)| = ⌊x⌋ + 1 - x := by
    rw [abs_of_nonpos] <;> push_cast <;> linarith
  have key : min (x - ⌊x⌋) (⌊x⌋ + 1 - x) ≤ |x - n| := by
    rcases le_or_gt n ⌊x⌋ with h | h
    · have : (n : ℚ) ≤ ⌊x⌋ := by exact_mod_cast h
      exact le_trans (min_le_left _ _) (by rw [abs_of_nonneg] <;> linarith)
    · have : (⌊x⌋ : ℚ) + 1 ≤ n := by exact_mod_cast h
      exact le_trans (min_le_right _ _) (by rw [abs_of_nonpos] <;> linarith)
  refine le_trans ?_ key
  unfold roundEven
  split
  · rw [hn]; exact le_min le_rfl (by linarith)
  split
  · rw [hn1]; exact le_min (by linarith) le_rfl
  have he : x - ⌊x⌋ = 1 / 2 := by linarith
  split
  · rw [hn]; exact le_min le_rfl (by linarith)
  · rw [hn1]; exact le_min (by linarith) le_rfl

/-- No number with 53 significant bits (or a multiple of the least number) is closer. -/
theorem near_nearest {x : ℚ} (hx : 0 < x) {m : ℕ} {e : ℤ} (hm : m < 2 ^ 53) (he : -1074 ≤ e) :
    |x - near x| ≤ |x - m * 2 ^ e| := by
  have hxp := two_zpow_pos (expOf x)
  -- multiples of the last bit
  have hmul : ∀ n : ℤ, |x - near x| ≤ |x - n * 2 ^ expOf x| := by
    intro n
    rw [near_eq hx.le]
    have h := roundEven_near (x / 2 ^ expOf x) n
    have e1 : ∀ q : ℚ, |x - q * 2 ^ expOf x| = |x / 2 ^ expOf x - q| * 2 ^ expOf x := by
      intro q
      rw [← abs_of_pos hxp, ← abs_mul, abs_of_pos hxp]
      congr 1
      field_simp
    rw [e1, e1]
    exact mul_le_mul_of_nonneg_right h hxp.le
  by_cases hef : expOf x ≤ e
  · have := hmul (m * 2 ^ (e - expOf x).toNat : ℕ)
    convert this using 3
    push_cast
    rw [← zpow_natCast, Int.toNat_of_nonneg (by omega), mul_assoc, ← zpow_add₀ (by norm_num), sub_add_cancel]
  · -- fewer bits: the number is below the binade of `x`
    rw [not_le] at hef
    have hexp : expOf x = Int.log 2 x - 52 := by
      unfold expOf at *
      rcases max_choice (Int.log 2 x - 52) (-1074) with h | h
      · exact h
      · rw [h] at hef; linarith
    have h1 : (2 : ℚ) ^ Int.log 2 x ≤ x := by
      have := Int.zpow_log_le_self (b := 2) (by norm_num) hx
      simpa using this
    have h2 : (m : ℚ) * 2 ^ e ≤ 2 ^ Int.log 2 x := by
      have a : (m : ℚ) ≤ 2 ^ (53 : ℤ) := by
        have : (m : ℚ) < ((2 ^ 53 : ℕ) : ℚ) := by exact_mod_cast hm
        norm_num at this ⊢
        exact this.le
      calc (m : ℚ) * 2 ^ e ≤ 2 ^ (53 : ℤ) * 2 ^ e := mul_le_mul_of_nonneg_right a (two_zpow_pos _).le
        _ = 2 ^ (53 + e) := (zpow_add₀ (by norm_num) _ _).symm
        _ ≤ 2 ^ Int.log 2 x := zpow_le_zpow_right₀ (by norm_num) (by linarith)
    have h3 := hmul (2 ^ 52 : ℕ)
    have h4 : ((((2 ^ 52 : ℕ) : ℤ)) : ℚ) * 2 ^ expOf x = 2 ^ Int.log 2 x := by
      have e : ((((2 ^ 52 : ℕ) : ℤ) : ℚ)) = (2 : ℚ) ^ (52 : ℤ) := by norm_num
      rw [e, ← zpow_add₀ (by norm_num), hexp, show (52 : ℤ) + (Int.log 2 x - 52) = Int.log 2 x by ring]
    rw [h4, abs_of_nonneg (by linarith : (0 : ℚ) ≤ x - 2 ^ Int.log 2 x)] at h3
    rw [abs_of_nonneg (by linarith : (0 : ℚ) ≤ x - m * 2 ^ e)]
    linarith

/-- Rounding is correct: a finite result of an operation is as near to the exact result as any finite number. -/
theorem rnd_nearest {x y : ℚ} (h : rnd (X.fin x) = X.fin y) (a : Double) {z : ℚ} (ha : val a = X.fin z) :
    |x - y| ≤ |x - z| := by
  cases a with
  | nan => simp [val] at ha
  | infinite s => cases s <;> simp [val] at ha
  | finite s m e hd =>
    rw [val_finite] at ha
    cases ha
    have hnn : (0 : ℚ) ≤ m * 2 ^ e := by have := two_zpow_pos e; positivity
    change val (ofRat false x) = X.fin y at h
    have tri : ∀ {x w : ℚ}, 0 < x → 0 ≤ w → |x - near x| ≤ |x - w| → ∀ s, |x - near x| ≤ |x - signed s w| := by
      intro x w hx hw hle s
      cases s
      · exact hle
      · refine le_trans hle ?_
        simp only [signed, if_true, sub_neg_eq_add]
        rw [abs_of_pos (by linarith : 0 < x + w)]
        rw [abs_le]; constructor <;> linarith
    rcases lt_trichotomy x 0 with hx | hx | hx
    · rw [val_neg false hx] at h
      unfold cut at h
      split at h
      · simp only [X.neg, X.fin.injEq] at h
        subst h
        have h1 := tri (by linarith : (0 : ℚ) < -x) hnn (near_nearest (by linarith : (0 : ℚ) < -x) hd.1 hd.2.1) (!s)
        rw [signed_not] at h1
        have e1 : |x - -near (-x)| = |-x - near (-x)| := by rw [← abs_neg]; congr 1; ring
        have e2 : |x - signed s ((m : ℚ) * 2 ^ e)| = |-x - -signed s ((m : ℚ) * 2 ^ e)| := by rw [← abs_neg]; congr 1; ring
        rw [e1, e2]; exact h1
      · simp [X.neg] at h
    · subst hx
      rw [val_ofRat_zero] at h
      cases h
      simp
    · rw [val_pos false hx] at h
      unfold cut at h
      split at h
      · simp only [X.fin.injEq] at h
        subst h
        exact tri hx hnn (near_nearest hx hd.1 hd.2.1) s
      · cases h

end Verif.Double
