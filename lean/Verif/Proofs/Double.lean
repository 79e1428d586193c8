/-
`double` is a floating-point arithmetic in the sense of `Rounded`, and satisfies the sign laws.
-/
import Verif.Model.Double
import Verif.Spec.Rounding
import Verif.Proofs.Rounding
import Mathlib.Tactic.Linarith
import Mathlib.Tactic.FieldSimp
import Mathlib.Tactic.NormNum
import Mathlib.Tactic.Positivity
import Mathlib.Tactic.Ring

namespace Verif.Double
open Verif.Spec

/-! ### Rounding to an integer -/

theorem roundEven_cases (x : ℚ) : roundEven x = ⌊x⌋ ∨ roundEven x = ⌊x⌋ + 1 := by
  unfold roundEven
  split
  · exact Or.inl rfl
  split
  · exact Or.inr rfl
  split
  · exact Or.inl rfl
  · exact Or.inr rfl

theorem roundEven_int (n : ℤ) : roundEven (n : ℚ) = n := by
  unfold roundEven; simp

theorem roundEven_mono {x y : ℚ} (h : x ≤ y) : roundEven x ≤ roundEven y := by
  have hf := Int.floor_le_floor h
  rcases lt_or_eq_of_le hf with hlt | heq
  · rcases roundEven_cases x with e1 | e1 <;> rcases roundEven_cases y with e2 | e2 <;> omega
  · have hx : x - ⌊x⌋ ≤ y - ⌊x⌋ := by linarith
    unfold roundEven
    rw [← heq]
    by_cases h1 : x - ⌊x⌋ < 1 / 2
    · rw [if_pos h1]
      split
      · exact le_rfl
      · split
        · omega
        · split <;> omega
    · rw [if_neg h1, if_neg (show ¬ y - ⌊x⌋ < 1 / 2 by linarith)]
      by_cases h2 : 1 / 2 < x - ⌊x⌋
      · rw [if_pos h2, if_pos (by linarith)]
      · rw [if_neg h2]
        split <;> split <;> omega

theorem roundEven_le {x : ℚ} {n : ℤ} (h : x ≤ n) : roundEven x ≤ n := by
  have := roundEven_mono h; rwa [roundEven_int] at this

theorem le_roundEven {x : ℚ} {n : ℤ} (h : n ≤ x) : n ≤ roundEven x := by
  have := roundEven_mono h; rwa [roundEven_int] at this

/-! ### Rounding of positive numbers -/

/-- The rounded number, with no limit on its size. -/
def near (x : ℚ) : ℚ := sigOf x * 2 ^ expOf x

theorem two_zpow_pos (e : ℤ) : (0 : ℚ) < 2 ^ e := zpow_pos (by norm_num) e

theorem expOf_ge (x : ℚ) : -1074 ≤ expOf x := le_max_right _ _

theorem sigOf_cast {x : ℚ} (hx : 0 ≤ x) : (sigOf x : ℤ) = roundEven (x / 2 ^ expOf x) := by
  unfold sigOf
  apply Int.toNat_of_nonneg
  apply le_roundEven
  simp only [Int.cast_zero]
  have := two_zpow_pos (expOf x)
  positivity

theorem near_eq {x : ℚ} (hx : 0 ≤ x) : near x = (roundEven (x / 2 ^ expOf x) : ℚ) * 2 ^ expOf x := by
  unfold near
  rw [← sigOf_cast hx]; simp

theorem sigOf_le {x : ℚ} (hx : 0 < x) : sigOf x ≤ 2 ^ 53 := by
  have h : roundEven (x / 2 ^ expOf x) ≤ ((2 ^ 53 : ℕ) : ℤ) := by
    apply roundEven_le
    rw [div_le_iff₀ (two_zpow_pos _)]
    have h1 : x < 2 ^ (Int.log 2 x + 1) := by
      have := Int.lt_zpow_succ_log_self (b := 2) (by norm_num) x
      simpa using this
    have h2 : (2 : ℚ) ^ (Int.log 2 x + 1) ≤ 2 ^ (53 + expOf x) := by
      apply zpow_le_zpow_right₀ (by norm_num)
      have : Int.log 2 x - 52 ≤ expOf x := le_max_left _ _
      omega
    rw [zpow_add₀ (by norm_num) 53] at h2
    have e : ((((2 ^ 53 : ℕ) : ℤ) : ℚ)) = (2 : ℚ) ^ (53 : ℤ) := by norm_num
    rw [e]
    linarith
  have h' := sigOf_cast hx.le
  omega

theorem sigOf_ge {x : ℚ} (hx : 0 < x) (he : expOf x ≠ -1074) : 2 ^ 52 ≤ sigOf x := by
  have hexp : expOf x = Int.log 2 x - 52 := by
    unfold expOf at he ⊢
    rcases max_choice (Int.log 2 x - 52) (-1074) with h | h
    · exact h
    · exact absurd h he
  have h : ((2 ^ 52 : ℕ) : ℤ) ≤ roundEven (x / 2 ^ expOf x) := by
    apply le_roundEven
    rw [le_div_iff₀ (two_zpow_pos _)]
    have h1 : (2 : ℚ) ^ Int.log 2 x ≤ x := by
      have := Int.zpow_log_le_self (b := 2) (by norm_num) hx
      simpa using this
    have e : ((((2 ^ 52 : ℕ) : ℤ) : ℚ)) = (2 : ℚ) ^ (52 : ℤ) := by norm_num
    rw [e, ← zpow_add₀ (by norm_num), hexp, show (52 : ℤ) + (Int.log 2 x - 52) = Int.log 2 x by ring]
    exact h1
  have h' := sigOf_cast hx.le
  omega

/-- `2^1024`, above the largest finite number. -/
def huge : ℚ := 2 ^ (1024 : ℤ)

theorem val_finite (s : Bool) (m : ℕ) (e : ℤ) (h : IsDouble m e) : val (finite s m e h) = X.fin (signed s (m * 2 ^ e)) := rfl

theorem make_val (s : Bool) {x : ℚ} (hx : 0 < x) :
    val (round s x) = if near x < huge then X.fin (signed s (near x)) else if s then X.ninf else X.pinf := by
  have h1 := sigOf_le hx
  have h2 := sigOf_ge hx
  have h3 := expOf_ge x
  unfold round make near
  generalize sigOf x = m at *
  generalize expOf x = e at *
  by_cases hd : IsDouble m e
  · rw [dif_pos hd]
    have hlt : (m : ℚ) * 2 ^ e < huge := by
      have a : (m : ℚ) < 2 ^ (53 : ℤ) := by
        have := hd.1
        have : (m : ℚ) < ((2 ^ 53 : ℕ) : ℚ) := by exact_mod_cast this
        norm_num at this ⊢
        exact this
      have b : (2 : ℚ) ^ e ≤ 2 ^ (971 : ℤ) := zpow_le_zpow_right₀ (by norm_num) hd.2.2.1
      calc (m : ℚ) * 2 ^ e < 2 ^ (53 : ℤ) * 2 ^ e := by
            exact mul_lt_mul_of_pos_right a (two_zpow_pos e)
        _ ≤ 2 ^ (53 : ℤ) * 2 ^ (971 : ℤ) := by
            exact mul_le_mul_of_nonneg_left b (two_zpow_pos _).le
        _ = huge := by rw [← zpow_add₀ (by norm_num)]; rfl
    rw [if_pos hlt]
    rfl
  · rw [dif_neg hd]
    by_cases hm : m = 2 ^ 53
    · subst hm
      by_cases he : e + 1 ≤ 971
      · have hd' : IsDouble (2 ^ 52) (e + 1) := ⟨by norm_num, by omega, he, Or.inl le_rfl⟩
        rw [dif_pos ⟨rfl, hd'⟩]
        have hv : (((2 ^ 53 : ℕ) : ℚ)) * 2 ^ e = ((2 ^ 52 : ℕ) : ℚ) * 2 ^ (e + 1) := by
          rw [zpow_add₀ (by norm_num)]; push_cast; ring
        rw [hv, if_pos]
        · rfl
        · have b : (2 : ℚ) ^ (e + 1) ≤ 2 ^ (971 : ℤ) := zpow_le_zpow_right₀ (by norm_num) he
          calc ((2 ^ 52 : ℕ) : ℚ) * 2 ^ (e + 1) = 2 ^ (52 : ℤ) * 2 ^ (e + 1) := by norm_num
            _ ≤ 2 ^ (52 : ℤ) * 2 ^ (971 : ℤ) := mul_le_mul_of_nonneg_left b (two_zpow_pos _).le
            _ = 2 ^ (1023 : ℤ) := by rw [← zpow_add₀ (by norm_num)]; rfl
            _ < huge := zpow_lt_zpow_right₀ (by norm_num) (by norm_num)
      · rw [dif_neg (fun h => he h.2.2.2.1), if_neg]
        · rfl
        · rw [not_lt]
          have b : (2 : ℚ) ^ (971 : ℤ) ≤ 2 ^ e := zpow_le_zpow_right₀ (by norm_num) (by omega)
          calc huge = 2 ^ (53 : ℤ) * 2 ^ (971 : ℤ) := by rw [← zpow_add₀ (by norm_num)]; rfl
            _ ≤ 2 ^ (53 : ℤ) * 2 ^ e := mul_le_mul_of_nonneg_left b (two_zpow_pos _).le
            _ = ((2 ^ 53 : ℕ) : ℚ) * 2 ^ e := by norm_num
    · rw [dif_neg (fun h => hm h.1), if_neg]
      · rfl
      · have hm' : m < 2 ^ 53 := lt_of_le_of_ne h1 hm
        have he : 971 < e ∧ 2 ^ 52 ≤ m := by
          unfold IsDouble at hd
          by_cases h4 : e = -1074
          · exact absurd ⟨hm', h3, by omega, Or.inr h4⟩ hd
          · have := h2 h4
            refine ⟨?_, this⟩
            by_contra h5
            exact hd ⟨hm', h3, by omega, Or.inl this⟩
        rw [not_lt]
        have b : (2 : ℚ) ^ (972 : ℤ) ≤ 2 ^ e := zpow_le_zpow_right₀ (by norm_num) (by omega)
        have a : (2 : ℚ) ^ (52 : ℤ) ≤ m := by
          have : ((2 ^ 52 : ℕ) : ℚ) ≤ m := by exact_mod_cast he.2
          norm_num at this ⊢
          exact this
        calc huge = 2 ^ (52 : ℤ) * 2 ^ (972 : ℤ) := by rw [← zpow_add₀ (by norm_num)]; rfl
          _ ≤ m * 2 ^ e := mul_le_mul a b (two_zpow_pos _).le (by positivity)

theorem near_nonneg (x : ℚ) : 0 ≤ near x := by
  unfold near
  have := two_zpow_pos (expOf x)
  positivity

theorem near_mono {x y : ℚ} (hx : 0 < x) (h : x ≤ y) : near x ≤ near y := by
  have hy : 0 < y := lt_of_lt_of_le hx h
  have hlog : Int.log 2 x ≤ Int.log 2 y := Int.log_mono_right hx h
  rcases eq_or_ne (expOf x) (expOf y) with he | he
  · rw [near_eq hx.le, near_eq hy.le, he]
    apply mul_le_mul_of_nonneg_right _ (two_zpow_pos _).le
    have : roundEven (x / 2 ^ expOf y) ≤ roundEven (y / 2 ^ expOf y) :=
      roundEven_mono (div_le_div_of_nonneg_right h (two_zpow_pos _).le)
    exact_mod_cast this
  · have hy52 : expOf y = Int.log 2 y - 52 := by unfold expOf at he ⊢; omega
    have hx52 : Int.log 2 x < Int.log 2 y ∧ expOf x ≤ Int.log 2 y := by unfold expOf at he ⊢; omega
    have h1 : near x ≤ 2 ^ Int.log 2 y := by
      rw [near_eq hx.le]
      have hb : x / 2 ^ expOf x ≤ (((2 : ℕ) ^ (Int.log 2 y - expOf x).toNat : ℕ) : ℤ) := by
        rw [div_le_iff₀ (two_zpow_pos _)]
        have e : ((((2 : ℕ) ^ (Int.log 2 y - expOf x).toNat : ℕ) : ℤ) : ℚ) = 2 ^ (Int.log 2 y - expOf x) := by
          push_cast
          rw [← zpow_natCast, Int.toNat_of_nonneg (by omega)]
        rw [e, ← zpow_add₀ (by norm_num), sub_add_cancel]
        have h3 := Int.lt_zpow_succ_log_self (b := 2) (by norm_num) x
        have h4 : (2 : ℚ) ^ (Int.log 2 x + 1) ≤ 2 ^ Int.log 2 y := zpow_le_zpow_right₀ (by norm_num) (by omega)
        simp only [Nat.cast_ofNat] at h3
        linarith
      have hr := roundEven_le hb
      have hr' : (roundEven (x / 2 ^ expOf x) : ℚ) ≤ 2 ^ (Int.log 2 y - expOf x) := by
        have e : ((((2 : ℕ) ^ (Int.log 2 y - expOf x).toNat : ℕ) : ℤ) : ℚ) = 2 ^ (Int.log 2 y - expOf x) := by
          push_cast
          rw [← zpow_natCast, Int.toNat_of_nonneg (by omega)]
        rw [← e]
        exact_mod_cast hr
      calc _ ≤ (2 : ℚ) ^ (Int.log 2 y - expOf x) * 2 ^ expOf x := mul_le_mul_of_nonneg_right hr' (two_zpow_pos _).le
        _ = 2 ^ Int.log 2 y := by rw [← zpow_add₀ (by norm_num), sub_add_cancel]
    have h2 : 2 ^ Int.log 2 y ≤ near y := by
      by_cases hne : expOf y = -1074
      · exfalso
        have := expOf_ge x
        unfold expOf at *
        omega
      · have := sigOf_ge hy hne
        unfold near
        have a : (2 : ℚ) ^ (52 : ℤ) ≤ sigOf y := by
          have : ((2 ^ 52 : ℕ) : ℚ) ≤ sigOf y := by exact_mod_cast this
          norm_num at this ⊢
          exact this
        calc (2 : ℚ) ^ Int.log 2 y = 2 ^ (52 : ℤ) * 2 ^ expOf y := by
              rw [← zpow_add₀ (by norm_num), hy52]; congr 1; omega
          _ ≤ _ := mul_le_mul_of_nonneg_right a (two_zpow_pos _).le
    exact le_trans h1 h2

theorem near_double {m : ℕ} {e : ℤ} (h : IsDouble m e) (hm : m ≠ 0) : near (m * 2 ^ e) = m * 2 ^ e := by
  have hpos : (0 : ℚ) < m * 2 ^ e := by
    have := two_zpow_pos e
    have : 0 < m := Nat.pos_of_ne_zero hm
    positivity
  have hexp : expOf (m * 2 ^ e) ≤ e := by
    unfold expOf
    apply max_le _ h.2.1
    have hlt : (m : ℚ) * 2 ^ e < ((2 : ℕ) : ℚ) ^ (e + 53) := by
      rw [add_comm, zpow_add₀ (by norm_num)]
      apply mul_lt_mul_of_pos_right _ (two_zpow_pos _)
      have : (m : ℚ) < ((2 ^ 53 : ℕ) : ℚ) := by exact_mod_cast h.1
      norm_num at this ⊢
      exact this
    have := (Int.lt_zpow_iff_log_lt (b := 2) (by norm_num) hpos).mp hlt
    omega
  rw [near_eq hpos.le]
  generalize expOf (m * 2 ^ e) = f at *
  have e1 : (m : ℚ) * 2 ^ e / 2 ^ f = (((m * 2 ^ (e - f).toNat : ℕ) : ℤ) : ℚ) := by
    push_cast
    rw [← zpow_natCast, Int.toNat_of_nonneg (by omega), mul_div_assoc, zpow_sub₀ (by norm_num)]
  rw [e1, roundEven_int, ← e1]
  field_simp

/-! ### Rounding of any number -/

/-- A magnitude, infinite if too large. -/
def cut (r : ℚ) : X ℚ := if r < huge then X.fin r else X.pinf

theorem huge_pos : 0 < huge := two_zpow_pos _

theorem signed_zero (s : Bool) : signed s 0 = 0 := by cases s <;> simp [signed]

theorem val_zero (s : Bool) : val (zero s) = X.fin 0 := by
  unfold zero val; simp [signed_zero]

theorem val_ofRat_sign (s t : Bool) (x : ℚ) : val (ofRat s x) = val (ofRat t x) := by
  unfold ofRat; split
  · rw [val_zero, val_zero]
  · rfl

theorem val_pos (s : Bool) {x : ℚ} (h : 0 < x) : val (ofRat s x) = cut (near x) := by
  unfold ofRat
  rw [if_neg h.ne', abs_of_pos h, make_val _ h]
  simp [cut, signed, not_lt.mpr h.le]

theorem val_neg (s : Bool) {x : ℚ} (h : x < 0) : val (ofRat s x) = X.neg (cut (near (-x))) := by
  unfold ofRat
  rw [if_neg h.ne, abs_of_neg h, make_val _ (by linarith)]
  simp only [h, decide_true, signed, if_true, cut]
  split <;> rfl

theorem val_ofRat_zero (s : Bool) : val (ofRat s 0) = X.fin 0 := by
  unfold ofRat; rw [if_pos rfl, val_zero]

theorem cut_mono {a b : ℚ} (h : a ≤ b) : X.lt (cut b) (cut a) = false := by
  unfold cut
  split <;> split
  · simpa [X.lt] using h
  · exfalso; linarith
  · rfl
  · rfl

theorem cut_nonneg {a : ℚ} (h : 0 ≤ a) : X.lt (cut a) (X.fin 0) = false := by
  unfold cut; split
  · simpa [X.lt] using h
  · rfl

theorem cut_ne_nan (a : ℚ) : cut a ≠ X.nan := by unfold cut; split <;> simp

theorem neg_ne_nan {x : X ℚ} (h : x ≠ X.nan) : X.neg x ≠ X.nan := by cases x <;> simp_all [X.neg]

theorem neg_lt_neg (x y : X ℚ) : X.lt (X.neg x) (X.neg y) = X.lt y x := by
  cases x <;> cases y <;> simp [X.lt, X.neg]

theorem val_ofRat_ne_nan (s : Bool) (x : ℚ) : val (ofRat s x) ≠ X.nan := by
  rcases lt_trichotomy x 0 with h | h | h
  · rw [val_neg s h]; exact neg_ne_nan (cut_ne_nan _)
  · rw [h, val_ofRat_zero]; simp
  · rw [val_pos s h]; exact cut_ne_nan _

theorem val_ofRat_mono (s t : Bool) {x y : ℚ} (h : x ≤ y) : X.lt (val (ofRat t y)) (val (ofRat s x)) = false := by
  have hneg : ∀ {x : ℚ}, x < 0 → X.lt (X.fin 0) (val (ofRat s x)) = false := by
    intro x hx
    rw [val_neg s hx]
    have := cut_nonneg (near_nonneg (-x))
    rw [← neg_lt_neg] at this
    simpa [X.neg] using this
  have hpos : ∀ {x : ℚ}, 0 < x → X.lt (val (ofRat t x)) (X.fin 0) = false := by
    intro x hx
    rw [val_pos t hx]
    exact cut_nonneg (near_nonneg x)
  rcases lt_trichotomy x 0 with hx | hx | hx
  · rcases lt_trichotomy y 0 with hy | hy | hy
    · rw [val_neg s hx, val_neg t hy, neg_lt_neg]
      exact cut_mono (near_mono (by linarith) (by linarith))
    · rw [hy, val_ofRat_zero]; exact hneg hx
    · exact X.lt_false_trans (hneg hx) (hpos hy) (by simp)
  · rcases lt_trichotomy y 0 with hy | hy | hy
    · linarith
    · rw [hx, hy, val_ofRat_zero, val_ofRat_zero]; simp [X.lt]
    · rw [hx, val_ofRat_zero]; exact hpos hy
  · have hy : 0 < y := by linarith
    rw [val_pos s hx, val_pos t hy]
    exact cut_mono (near_mono hx h)

theorem val_finite_ofRat (s t : Bool) {m : ℕ} {e : ℤ} (h : IsDouble m e) :
    val (ofRat t (signed s (m * 2 ^ e))) = val (finite s m e h) := by
  have h2 := two_zpow_pos e
  by_cases hm : m = 0
  · subst hm
    simp only [Nat.cast_zero, zero_mul, signed_zero, val_ofRat_zero, val_finite]
  · have hp : (0 : ℚ) < m * 2 ^ e := by
      have : 0 < m := Nat.pos_of_ne_zero hm
      positivity
    have hlt : (m : ℚ) * 2 ^ e < huge := by
      have a : (m : ℚ) < 2 ^ (53 : ℤ) := by
        have : (m : ℚ) < ((2 ^ 53 : ℕ) : ℚ) := by exact_mod_cast h.1
        norm_num at this ⊢
        exact this
      have b : (2 : ℚ) ^ e ≤ 2 ^ (971 : ℤ) := zpow_le_zpow_right₀ (by norm_num) h.2.2.1
      calc (m : ℚ) * 2 ^ e < 2 ^ (53 : ℤ) * 2 ^ e := mul_lt_mul_of_pos_right a h2
        _ ≤ 2 ^ (53 : ℤ) * 2 ^ (971 : ℤ) := mul_le_mul_of_nonneg_left b (two_zpow_pos _).le
        _ = huge := by rw [← zpow_add₀ (by norm_num)]; rfl
    cases s
    · simp only [signed, Bool.false_eq_true, if_false, val_finite]
      rw [val_pos t hp, near_double h hm, cut, if_pos hlt]
    · simp only [signed, if_true, val_finite]
      rw [val_neg t (by linarith), neg_neg, near_double h hm, cut, if_pos hlt]
      rfl

theorem rnd_val (a : Double) : rnd (val a) = val a := by
  cases a with
  | finite s m e h => exact val_finite_ofRat s false h
  | infinite s => cases s <;> rfl
  | nan => rfl

theorem rnd_mono (x y : X ℚ) (h : X.le x y = true) : X.le (rnd x) (rnd y) = true := by
  rw [X.le_iff] at h ⊢
  obtain ⟨h1, h2, h3⟩ := h
  cases x <;> cases y <;> simp_all [rnd, X.lt]
  · exact ⟨val_ofRat_mono _ _ h1, val_ofRat_ne_nan _ _, val_ofRat_ne_nan _ _⟩
  · refine ⟨?_, val_ofRat_ne_nan _ _⟩
    split <;> simp_all
  · refine ⟨?_, val_ofRat_ne_nan _ _⟩
    rename_i k
    cases val (ofRat false k) <;> rfl

theorem val_neg' (a : Double) : val (neg a) = X.neg (val a) := by
  cases a with
  | finite s m e h => cases s <;> simp [val, neg, signed, X.neg]
  | infinite s => cases s <;> rfl
  | nan => rfl

theorem val_fabs (a : Double) : val (fabs a) = X.fabs (val a) := by
  cases a with
  | finite s m e h =>
    have : (0 : ℚ) ≤ m * 2 ^ e := by have := two_zpow_pos e; positivity
    cases s
    · simp [val, fabs, signed, X.fabs, not_lt.mpr this]
    · simp only [val, fabs, signed, X.fabs, Bool.false_eq_true, if_false, if_true]
      by_cases h0 : (m : ℚ) * 2 ^ e = 0
      · simp [h0]
      · rw [if_pos (by have := lt_of_le_of_ne this (Ne.symm h0); linarith), neg_neg]
  | infinite s => cases s <;> rfl
  | nan => rfl

theorem val_ofRat (s : Bool) (x : ℚ) : val (ofRat s x) = rnd (X.fin x) := val_ofRat_sign s false x

theorem val_add (a b : Double) : val (add a b) = rnd (X.add (val a) (val b)) := by
  cases a with
  | nan => cases b <;> rfl
  | infinite s =>
    cases b with
    | nan => cases s <;> rfl
    | infinite t => cases s <;> cases t <;> rfl
    | finite => cases s <;> rfl
  | finite s m e h =>
    cases b with
    | nan => rfl
    | infinite t => cases t <;> rfl
    | finite t k f h' => exact val_ofRat _ _

theorem infSign_signed (s : Bool) {m : ℕ} (e : ℤ) (hm : m ≠ 0) :
    X.infSign (signed s (m * 2 ^ e)) = if s then X.ninf else X.pinf := by
  have hp : (0 : ℚ) < m * 2 ^ e := by
    have : 0 < m := Nat.pos_of_ne_zero hm
    have := two_zpow_pos e
    positivity
  cases s
  · simp [X.infSign, signed, hp]
  · simp only [X.infSign, signed, if_true]
    rw [if_neg (by linarith), if_pos (by linarith)]

theorem infSign_neg (s : Bool) {m : ℕ} (e : ℤ) (hm : m ≠ 0) :
    X.infSign (-signed s (m * 2 ^ e)) = if s then X.pinf else X.ninf := by
  have : -signed s ((m : ℚ) * 2 ^ e) = signed (!s) (m * 2 ^ e) := by cases s <;> simp [signed]
  rw [this, infSign_signed (!s) e hm]
  cases s <;> rfl

theorem infSign_zero : X.infSign (0 : ℚ) = X.nan := by simp [X.infSign]

theorem val_mul (a b : Double) : val (mul a b) = rnd (X.mul (val a) (val b)) := by
  cases a with
  | nan => cases b <;> rfl
  | infinite s =>
    cases b with
    | nan => cases s <;> rfl
    | infinite t => cases s <;> cases t <;> rfl
    | finite t k f h =>
      by_cases hk : k = 0
      · subst hk
        cases s <;> simp [mul, val, X.mul, signed_zero, infSign_zero, rnd]
      · cases s <;> simp only [mul, val, X.mul, if_neg hk, if_true, Bool.false_eq_true, if_false] <;>
          (first | rw [infSign_signed t f hk] | rw [infSign_neg t f hk]) <;> cases t <;> rfl
  | finite s m e h =>
    cases b with
    | nan => rfl
    | infinite t =>
      by_cases hk : m = 0
      · subst hk
        cases t <;> simp [mul, val, X.mul, signed_zero, infSign_zero, rnd]
      · cases t <;> simp only [mul, val, X.mul, if_neg hk, if_true, Bool.false_eq_true, if_false] <;>
          (first | rw [infSign_signed s e hk] | rw [infSign_neg s e hk]) <;> cases s <;> rfl
    | finite t k f h' => exact val_ofRat _ _

theorem signed_ne_zero (s : Bool) {m : ℕ} (e : ℤ) (hm : m ≠ 0) : signed s ((m : ℚ) * 2 ^ e) ≠ 0 := by
  have hp : (0 : ℚ) < m * 2 ^ e := by
    have : 0 < m := Nat.pos_of_ne_zero hm
    have := two_zpow_pos e
    positivity
  cases s
  · simp only [signed, Bool.false_eq_true, if_false]; exact hp.ne'
  · simp only [signed, if_true]; linarith

theorem signed_nonneg (s : Bool) {m : ℕ} (e : ℤ) (hm : m ≠ 0) : 0 ≤ signed s ((m : ℚ) * 2 ^ e) ↔ s = false := by
  have hp : (0 : ℚ) < m * 2 ^ e := by
    have : 0 < m := Nat.pos_of_ne_zero hm
    have := two_zpow_pos e
    positivity
  cases s
  · simp [signed, hp.le]
  · simp [signed, hp]

theorem val_div (a b : Double) (hb : val b ≠ X.fin 0) : val (div a b) = rnd (X.div (val a) (val b)) := by
  cases b with
  | nan => cases a <;> (try rfl); rename_i s; cases s <;> rfl
  | infinite t =>
    cases a with
    | nan => cases t <;> rfl
    | infinite s => cases s <;> cases t <;> rfl
    | finite s m e h =>
      have h1 : val (div (finite s m e h) (infinite t)) = X.fin 0 := val_zero _
      have h2 : X.div (val (finite s m e h)) (val (infinite t)) = X.fin 0 := by cases t <;> rfl
      rw [h1, h2]
      exact (val_ofRat_zero false).symm
  | finite t k f h' =>
    have hk : k ≠ 0 := by
      rintro rfl
      apply hb
      simp [val, signed_zero]
    cases a with
    | nan => rfl
    | infinite s =>
      have := signed_nonneg t f hk
      have h1 : val (div (infinite s) (finite t k f h')) = val (infinite (s ^^ t)) := rfl
      have h2 : X.div (val (infinite s)) (val (finite t k f h')) = val (infinite (s ^^ t)) := by
        rw [val_finite]
        generalize signed t ((k : ℚ) * 2 ^ f) = q at this
        have h3 : X.div X.pinf (X.fin q) = if 0 ≤ q then X.pinf else X.ninf := rfl
        have h4 : X.div X.ninf (X.fin q) = if 0 ≤ q then X.ninf else X.pinf := rfl
        cases t
        · rw [if_pos (this.mpr rfl)] at h3 h4
          cases s
          · exact h3
          · exact h4
        · rw [if_neg (fun h => by simp [this] at h)] at h3 h4
          cases s
          · exact h3
          · exact h4
      rw [h1, h2]
      generalize (s ^^ t) = u
      cases u <;> rfl
    | finite s m e h =>
      simp only [div, val, X.div, if_neg hk, if_neg (signed_ne_zero t f hk)]
      exact val_ofRat _ _

theorem finite_zero {t : Bool} {k : ℕ} {f : ℤ} (h : IsDouble k f) (hb : val (finite t k f h) = X.fin 0) : k = 0 := by
  by_contra hk
  apply signed_ne_zero t f hk
  simpa [val] using hb

theorem val_div_zero (a b : Double) (hb : val b = X.fin 0) :
    val (div a b) = (if sign b then X.neg (X.div (val a) (X.fin 0)) else X.div (val a) (X.fin 0)) := by
  cases b with
  | nan => simp [val] at hb
  | infinite t => cases t <;> simp [val] at hb
  | finite t k f h' =>
    obtain rfl := finite_zero h' hb
    cases a with
    | nan => cases t <;> rfl
    | infinite s => cases s <;> cases t <;> simp [div, val, X.div, sign, X.neg]
    | finite s m e h =>
      by_cases hm : m = 0
      · subst hm
        cases t <;> simp [div, val, X.div, sign, X.neg, signed_zero, infSign_zero]
      · simp only [div, val, X.div, sign, if_true, if_neg hm, infSign_signed s e hm]
        cases s <;> cases t <;> rfl

theorem sign_pos {a : Double} (h : X.lt (X.fin 0) (val a) = true) : sign a = false := by
  cases a with
  | nan => rfl
  | infinite s => cases s <;> simp_all [val, X.lt, sign]
  | finite s m e h' =>
    cases s
    · rfl
    · have : (0 : ℚ) ≤ m * 2 ^ e := by have := two_zpow_pos e; positivity
      simp only [val, X.lt, signed, if_true, decide_eq_true_eq] at h
      linarith

theorem sign_round (s : Bool) (x : ℚ) : sign (round s x) = s := by
  unfold round make
  split
  · rfl
  split <;> rfl

theorem sign_mul_pos {b c : Double} (hb : X.lt (X.fin 0) (val b) = true) (hc : X.lt (X.fin 0) (val c) = true) :
    sign (mul b c) = false := by
  have h1 := sign_pos hb
  have h2 := sign_pos hc
  cases b with
  | nan => rfl
  | infinite s =>
    cases c with
    | nan => rfl
    | infinite t => simp_all [sign, mul]
    | finite t k f h =>
      simp only [sign] at h1 h2
      subst h1 h2
      simp only [mul]
      split <;> rfl
  | finite s m e h =>
    cases c with
    | nan => rfl
    | infinite t =>
      simp only [sign] at h1 h2
      subst h1 h2
      simp only [mul]
      split <;> rfl
    | finite t k f h' =>
      simp only [sign] at h1 h2
      subst h1 h2
      have hp : (0 : ℚ) ≤ m * 2 ^ e := by have := two_zpow_pos e; positivity
      have hq : (0 : ℚ) ≤ k * 2 ^ f := by have := two_zpow_pos f; positivity
      simp only [mul, signed, Bool.false_eq_true, if_false]
      unfold ofRat
      split
      · rfl
      · rw [sign_round]
        simpa using mul_nonneg hp hq

theorem rnd_div_zero (x : X ℚ) : rnd (X.div x (X.fin 0)) = X.div x (X.fin 0) := by
  cases x with
  | fin k =>
    have h : X.div (X.fin k) (X.fin (0 : ℚ)) = X.infSign k := by simp [X.div]
    rw [h]
    unfold X.infSign
    by_cases h1 : 0 < k
    · rw [if_pos h1]; rfl
    · rw [if_neg h1]
      by_cases h2 : k < 0
      · rw [if_pos h2]; rfl
      · rw [if_neg h2]; rfl
  | pinf =>
    have h : X.div X.pinf (X.fin (0 : ℚ)) = X.pinf := by simp [X.div]
    rw [h]; rfl
  | ninf =>
    have h : X.div X.ninf (X.fin (0 : ℚ)) = X.ninf := by simp [X.div]
    rw [h]; rfl
  | nan => rfl

/-- `double` is a floating-point arithmetic. -/
def rounded : Rounded Double ℚ where
  val := val
  rnd := rnd
  lt _ _ := rfl
  le _ _ := rfl
  eq _ _ := rfl
  add := val_add
  sub a b := by
    show val (add a (neg b)) = _
    rw [val_add, val_neg']; rfl
  mul := val_mul
  div := val_div
  div_zero a b h := by
    have := val_div_zero a b h
    split at this
    · exact Or.inr this
    · exact Or.inl this
  div_mul a b c hb hc := by
    show val (div a (mul b c)) = rnd (X.div (val a) (val (mul b c)))
    by_cases h : val (mul b c) = X.fin 0
    · rw [val_div_zero a _ h, sign_mul_pos hb hc, h]
      simp only [Bool.false_eq_true, if_false]
      exact (rnd_div_zero _).symm
    · exact val_div a _ h
  neg := val_neg'
  fabs := val_fabs
  inf := rfl
  lit q := by
    show val (ofRat false q) = _
    rw [val_ofRat]; simp
  rnd_mono := rnd_mono
  rnd_nan := rfl
  rnd_val := rnd_val
  rnd_zero := val_ofRat_zero false
  rnd_one := by
    show val (ofRat false 1) = _
    have h : IsDouble (2 ^ 52) (-52) := by decide
    have := val_finite_ofRat false false h
    simp only [signed, val, Bool.false_eq_true, if_false] at this
    have e : ((2 ^ 52 : ℕ) : ℚ) * 2 ^ (-52 : ℤ) = 1 := by norm_num
    rw [e] at this
    exact this

end Verif.Double
