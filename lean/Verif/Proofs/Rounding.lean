/-
Consequences of rounding being monotone.
-/
import Verif.Spec.Rounding
import Mathlib.Tactic.Linarith
import Mathlib.Tactic.FieldSimp
import Mathlib.Data.Rat.Cast.Order

namespace Verif
open Verif.Spec

namespace X
variable {K : Type} [Field K] [LinearOrder K]

theorem le_iff {x y : X K} : X.le x y = true ↔ X.lt y x = false ∧ x ≠ nan ∧ y ≠ nan := by
  cases x <;> cases y <;> simp [X.le, X.lt, X.eq]
  rw [← le_iff_lt_or_eq]

theorem lt_irrefl (x : X K) : X.lt x x = false := by cases x <;> simp [X.lt]

theorem lt_false_trans {x y z : X K} (h1 : X.lt y x = false) (h2 : X.lt z y = false) (hy : y ≠ nan) : X.lt z x = false := by
  cases x <;> cases y <;> cases z <;> simp_all [X.lt]
  exact le_trans h1 h2

variable [IsStrictOrderedRing K]

theorem add_mono {a b c d : X K} (h1 : X.lt b a = false) (h2 : X.lt d c = false) : X.lt (X.add b d) (X.add a c) = false := by
  cases a <;> cases b <;> cases c <;> cases d <;> simp_all [X.lt, X.add]
  exact add_le_add h1 h2

theorem le_add {a b c : X K} (h1 : X.lt a b = false) (h2 : X.lt c (fin 0) = false) : X.lt (X.add a c) b = false := by
  cases a <;> cases b <;> cases c <;> simp_all [X.lt, X.add]
  linarith

theorem mul_le {c w : X K} (h1 : X.lt (fin 1) c = false) (h2 : X.lt w (fin 0) = false) : X.lt w (X.mul c w) = false := by
  cases c <;> cases w <;> simp_all [X.lt, X.mul, X.infSign]
  · nlinarith
  · split_ifs <;> rfl
  · split_ifs <;> first | rfl | (exfalso; linarith)

theorem mul_nonneg {a b : X K} (h1 : X.lt a (fin 0) = false) (h2 : X.lt b (fin 0) = false) :
    X.lt (X.mul a b) (fin 0) = false := by
  cases a <;> cases b <;> simp_all [X.lt, X.mul, X.infSign]
  · exact _root_.mul_nonneg h1 h2
  · split_ifs <;> first | rfl | (exfalso; linarith)
  · split_ifs <;> first | rfl | (exfalso; linarith)

theorem div_le_one {a b : X K} (h1 : X.lt b a = false) (h2 : X.lt b (fin 0) = false) (h3 : b ≠ fin 0) :
    X.lt (fin 1) (X.div a b) = false := by
  cases a <;> cases b <;> simp_all [X.lt, X.div]
  rename_i a b
  have : 0 < b := lt_of_le_of_ne h2 (Ne.symm h3)
  exact (_root_.div_le_one this).mpr h1

theorem div_nonneg {a b : X K} (h1 : X.lt a (fin 0) = false) (h2 : X.lt b (fin 0) = false) :
    X.lt (X.div a b) (fin 0) = false := by
  cases a <;> cases b <;> simp_all [X.lt, X.div, X.infSign]
  · rename_i a b
    by_cases hb : b = 0
    · rw [if_pos hb]
      split_ifs <;> first | rfl | (exfalso; linarith)
    · rw [if_neg hb]
      simpa using _root_.div_nonneg h1 h2

end X

namespace Rounding
variable {R : Type} [Arith R] {K : Type} [Field K] [LinearOrder K] (ρ : Rounded R K)
include ρ

theorem val_zero : ρ.val (Arith.lit 0) = X.fin 0 := by rw [ρ.lit]; simp [ρ.rnd_zero]
theorem val_zero' : ρ.val Arith.zero = X.fin 0 := val_zero ρ
theorem val_one : ρ.val (Arith.lit 1) = X.fin 1 := by rw [ρ.lit]; simp [ρ.rnd_one]

theorem rnd_ne_nan {x : X K} (h : x ≠ X.nan) : ρ.rnd x ≠ X.nan := by
  have : X.le x x = true := X.le_iff.mpr ⟨X.lt_irrefl x, h, h⟩
  exact (X.le_iff.mp (ρ.rnd_mono x x this)).2.1

theorem rnd_lt {x y : X K} (h : X.lt y x = false) : X.lt (ρ.rnd y) (ρ.rnd x) = false := by
  by_cases hx : x = X.nan
  · rw [hx, ρ.rnd_nan]; cases ρ.rnd y <;> rfl
  by_cases hy : y = X.nan
  · rw [hy, ρ.rnd_nan]; cases ρ.rnd x <;> rfl
  exact (X.le_iff.mp (ρ.rnd_mono x y (X.le_iff.mpr ⟨h, hx, hy⟩))).1

/-- Rounding stays above values of the format. -/
theorem rnd_ge {x : X K} {a : R} (h : X.lt x (ρ.val a) = false) : X.lt (ρ.rnd x) (ρ.val a) = false := by
  rw [← ρ.rnd_val a]; exact rnd_lt ρ h

/-- Rounding stays below values of the format. -/
theorem rnd_le {x : X K} {a : R} (h : X.lt (ρ.val a) x = false) : X.lt (ρ.val a) (ρ.rnd x) = false := by
  rw [← ρ.rnd_val a]; exact rnd_lt ρ h

theorem lt_irrefl (a : R) : Arith.lt a a = false := by rw [ρ.lt]; exact X.lt_irrefl _

theorem notNegative_iff {x : R} : NotNegative x ↔ X.lt (ρ.val x) (X.fin 0) = false := by
  unfold NotNegative; rw [ρ.lt, val_zero]

theorem pos_notNegative {x : R} (h : Arith.lt Arith.zero x = true) : NotNegative x := by
  rw [notNegative_iff ρ]
  rw [ρ.lt, val_zero'] at h
  cases hx : ρ.val x <;> simp_all [X.lt]
  exact h.le

theorem inf_lt (x : R) : Arith.lt Arith.inf x = false := by
  rw [ρ.lt, ρ.inf]; cases ρ.val x <;> rfl

variable [IsStrictOrderedRing K]

theorem neg_notNegative {x : R} (h : Arith.lt x Arith.zero = true) : NotNegative (Arith.neg x) := by
  rw [notNegative_iff ρ, ρ.neg]
  rw [ρ.lt, val_zero'] at h
  cases hx : ρ.val x <;> simp_all [X.lt, X.neg]
  exact h.le

theorem lit_notNegative {q : Rat} (h : 0 ≤ q) : NotNegative (Arith.lit q : R) := by
  rw [notNegative_iff ρ, ← val_zero ρ, ρ.lit q]
  apply rnd_ge
  rw [val_zero]
  simpa [X.lt] using h

theorem zero_notNegative : NotNegative (Arith.zero : R) := lit_notNegative ρ le_rfl

theorem add_mono {a b c d : R} (h1 : Arith.lt b a = false) (h2 : Arith.lt d c = false) :
    Arith.lt (Arith.add b d) (Arith.add a c) = false := by
  rw [ρ.lt] at *
  rw [ρ.add, ρ.add]
  exact rnd_lt ρ (X.add_mono h1 h2)

theorem le_add {a b c : R} (h1 : Arith.lt a b = false) (h2 : NotNegative c) : Arith.lt (Arith.add a c) b = false := by
  rw [notNegative_iff ρ] at h2
  rw [ρ.lt] at *
  rw [ρ.add]
  exact rnd_ge ρ (X.le_add h1 h2)

theorem add_notNegative {a b : R} (h1 : NotNegative a) (h2 : NotNegative b) : NotNegative (Arith.add a b) :=
  le_add ρ h1 h2

theorem mul_le {c w : R} (h1 : Arith.lt (Arith.lit 1) c = false) (h2 : NotNegative w) :
    Arith.lt w (Arith.mul c w) = false := by
  rw [notNegative_iff ρ] at h2
  rw [ρ.lt] at *
  rw [val_one] at h1
  rw [ρ.mul]
  exact rnd_le ρ (X.mul_le h1 h2)

theorem mul_notNegative {a b : R} (h1 : NotNegative a) (h2 : NotNegative b) : NotNegative (Arith.mul a b) := by
  rw [notNegative_iff ρ] at *
  rw [ρ.mul, ← val_zero ρ]
  apply rnd_ge
  rw [val_zero]
  exact X.mul_nonneg h1 h2

theorem ne_zero {b : R} (h : Arith.eq b Arith.zero = false) : ρ.val b ≠ X.fin 0 := by
  rw [ρ.eq, val_zero'] at h
  intro e; rw [e] at h; simp [X.eq] at h

theorem div_le_one {a b : R} (h1 : Arith.lt b a = false) (h2 : NotNegative b) (h3 : Arith.eq b Arith.zero = false) :
    Arith.lt (Arith.lit 1) (Arith.div a b) = false := by
  have h3 := ne_zero ρ h3
  rw [notNegative_iff ρ] at h2
  rw [ρ.lt] at *
  rw [ρ.div _ _ h3]
  apply rnd_le
  rw [val_one]
  exact X.div_le_one h1 h2 h3

theorem div_notNegative {a b : R} (h1 : NotNegative a) (h2 : NotNegative b) (h3 : Arith.eq b Arith.zero = false) :
    NotNegative (Arith.div a b) := by
  have h3 := ne_zero ρ h3
  rw [notNegative_iff ρ] at *
  rw [ρ.div _ _ h3, ← val_zero ρ]
  apply rnd_ge
  rw [val_zero]
  exact X.div_nonneg h1 h2

theorem div_mul_notNegative {a b c : R} (h1 : NotNegative a) (h2 : NotNegative b) (h3 : Arith.eq b Arith.zero = false)
    (h4 : Arith.lt Arith.zero c = true) : NotNegative (Arith.div a (Arith.mul b c)) := by
  have h3 := ne_zero ρ h3
  rw [notNegative_iff ρ] at *
  rw [ρ.lt, val_zero'] at h4
  have key : X.lt (ρ.val (Arith.mul b c)) (X.fin 0) = false := by
    rw [← notNegative_iff ρ]
    apply mul_notNegative ρ
    · rw [notNegative_iff ρ]; exact h2
    · apply pos_notNegative ρ; rw [ρ.lt, val_zero']; exact h4
  have hd : X.lt (ρ.rnd (X.div (ρ.val a) (ρ.val (Arith.mul b c)))) (X.fin 0) = false := by
    rw [← val_zero ρ]
    apply rnd_ge
    rw [val_zero]
    exact X.div_nonneg h1 key
  by_cases hb : X.lt (X.fin 0) (ρ.val b) = true
  · rw [ρ.div_mul _ _ _ hb h4]; exact hd
  · have hn : ρ.val b = X.nan := by
      cases hx : ρ.val b <;> simp_all [X.lt]
      exact absurd (le_antisymm hb h2) h3
    have hm : ρ.val (Arith.mul b c) = X.nan := by
      rw [ρ.mul, hn]
      cases ρ.val c <;> exact ρ.rnd_nan
    rw [ρ.div _ _ (by rw [hm]; simp)]; exact hd

theorem capIn_notNegative : NotNegative (capIn R) := by
  unfold capIn
  have h : ∀ q : Rat, 0 ≤ q → NotNegative (Arith.lit q : R) := fun q hq => lit_notNegative ρ hq
  exact mul_notNegative ρ (mul_notNegative ρ (mul_notNegative ρ (mul_notNegative ρ (h _ (by norm_num)) (h _ (by norm_num)))
    (h _ (by norm_num))) (h _ (by norm_num))) (h _ (by norm_num))

end Rounding
end Verif
