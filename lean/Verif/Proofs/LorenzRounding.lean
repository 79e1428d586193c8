/-
Rounding errors of the Lorenz coefficient of a given curve.
-/
import Verif.Spec.CyclicDouble
import Verif.Proofs.LorenzPairs
import Verif.Proofs.RoundingCurve
import Verif.Proofs.PairAccuracy
import Verif.Proofs.Slack
import Mathlib.Tactic.LinearCombination

namespace Verif.Derived
open Finset
section
variable {K : Type} [Field K] [LinearOrder K] [IsStrictOrderedRing K]

theorem area_parts (e F : Nat → K) (n : Nat) : area e F n + area F e n = 2 * (F n * e n - F 0 * e 0) := by
  unfold area
  induction n with
  | zero => simp
  | succ n ih =>
    rw [sum_range_succ, sum_range_succ]
    linear_combination ih

theorem area_abs {F e : Nat → K} {n : Nat} {δ : K} (hm : ∀ i < n, F i ≤ F (i + 1)) (he : ∀ i ≤ n, |e i| ≤ δ) :
    |area F e n| ≤ 2 * δ * (F n - F 0) := by
  unfold area
  have h1 : ∀ m ≤ n, |∑ i ∈ range m, (e i + e (i + 1)) * (F (i + 1) - F i)| ≤ 2 * δ * (F m - F 0) := by
    intro m
    induction m with
    | zero => intro _; simp
    | succ m ih =>
      intro hm'
      rw [sum_range_succ]
      refine (abs_add_le _ _).trans ?_
      have h2 := ih (by omega)
      have h3 : |(e m + e (m + 1)) * (F (m + 1) - F m)| ≤ 2 * δ * (F (m + 1) - F m) := by
        rw [abs_mul, abs_of_nonneg (sub_nonneg.mpr (hm m (by omega)))]
        refine mul_le_mul_of_nonneg_right ?_ (sub_nonneg.mpr (hm m (by omega)))
        refine (abs_add_le _ _).trans ?_
        have := he m (by omega)
        have := he (m + 1) hm'
        linarith
      linarith
  exact h1 n le_rfl

/-- Curves that rise from 0 to 1 and differ little have nearly the same area. -/
theorem area_near {Φ F Φ' F' : Nat → K} {n : Nat} {δ : K} (hΦ : ∀ i < n, Φ i ≤ Φ (i + 1)) (hF : ∀ i < n, F' i ≤ F' (i + 1))
    (h0 : Φ 0 = 0) (hn : Φ n = 1) (h0' : Φ' 0 = 0) (hn' : Φ' n = 1) (g0 : F' 0 = 0) (gn : F' n = 1)
    (d1 : ∀ i ≤ n, |Φ' i - Φ i| ≤ δ) (d2 : ∀ i ≤ n, |F' i - F i| ≤ δ) : |area Φ' F' n - area Φ F n| ≤ 4 * δ := by
  have e1 : area Φ' F' n - area Φ F n = area (fun i => Φ' i - Φ i) F' n + area Φ (fun i => F' i - F i) n := by
    unfold area
    rw [← sum_sub_distrib, ← sum_add_distrib]
    refine sum_congr rfl fun i _ => by ring
  have e2 := area_parts (fun i => Φ' i - Φ i) F' n
  have h1 := area_abs hF d1
  have h2 := area_abs hΦ d2
  simp only [h0, hn, h0', hn', g0, gn, sub_zero, sub_self, mul_zero] at e2 h1 h2
  have e3 : area (fun i => Φ' i - Φ i) F' n = - area F' (fun i => Φ' i - Φ i) n := by linear_combination e2
  rw [e1, e3]
  refine (abs_add_le _ _).trans ?_
  rw [abs_neg]
  linarith
end
end Verif.Derived

namespace Verif.Rounding
open Verif.Spec Verif.Derived Finset

/-- Rounding of a number of moderate size. -/
theorem rnd_abs {x : ℚ} (hx : |x| ≤ 8) : ∃ y, Double.rounded.rnd (X.fin x) = X.fin y ∧ |y - x| ≤ 1 / 2 ^ 49 + 1 / 2 ^ 60 := by
  have key : ∀ x : ℚ, 0 ≤ x → x ≤ 8 → ∃ y, Double.rounded.rnd (X.fin x) = X.fin y ∧ |y - x| ≤ 1 / 2 ^ 49 + 1 / 2 ^ 60 := by
    intro x h0 h8
    obtain ⟨y, h1, h2, h3, h4⟩ := off_rnd Double.precise h0 (h8.trans (by
      calc (8 : ℚ) = 2 ^ 3 := by norm_num
        _ ≤ 2 ^ 1001 := pow_le_pow_right₀ (by norm_num) (by norm_num)))
    refine ⟨y, h1, ?_⟩
    have ht0 := tiny_pos (K := ℚ)
    have ht : tiny ℚ ≤ 1 / 2 ^ 70 := by
      unfold tiny
      exact one_div_le_one_div_of_le (by positivity) (pow_le_pow_right₀ (by norm_num) (by norm_num))
    generalize tiny ℚ = t at h3 h4 ht ht0
    rw [pow_one] at h3 h4
    have hy : y ≤ 9 := by
      norm_num at h4 ht; linarith
    rw [abs_le]
    norm_num at h3 h4 ht ⊢
    constructor <;> linarith
  rcases le_total 0 x with h0 | h0
  · rw [abs_of_nonneg h0] at hx
    exact key x h0 hx
  · rw [abs_of_nonpos h0] at hx
    obtain ⟨y, h1, h2⟩ := key (-x) (by linarith) hx
    refine ⟨-y, ?_, ?_⟩
    · have := rnd_neg_fin (-x)
      rw [neg_neg] at this
      rw [this, h1]; rfl
    · rw [show -y - x = -(y - -x) by ring, abs_neg]; exact h2

theorem tiny_le : tiny ℚ ≤ 1 / 2 ^ 100 := by
  unfold tiny
  exact one_div_le_one_div_of_le (by positivity) (pow_le_pow_right₀ (by norm_num) (by norm_num))

theorem le_huge {x : ℚ} (hx : x ≤ 2 ^ 100) : x ≤ 2 ^ 1000 := hx.trans (pow_le_pow_right₀ (by norm_num) (by norm_num))

/-- The values of a curve with `n` intervals. -/
structure Values (n : Nat) (L : List Double) (f : Nat → ℚ) : Prop where
  length : L.length = n + 1
  val : ∀ i ≤ n, ∃ a, L[i]? = some a ∧ a.val = X.fin (f i)
  mono : ∀ i < n, f i ≤ f (i + 1)
  zero : f 0 = 0
  one : f n = 1

theorem Values.bounds {n : Nat} {L : List Double} {f : Nat → ℚ} (h : Values n L f) : ∀ i ≤ n, 0 ≤ f i ∧ f i ≤ 1 := by
  have up : ∀ i ≤ n, 0 ≤ f i := by
    intro i
    induction i with
    | zero => intro _; rw [h.zero]
    | succ i ih => intro hi; exact (ih (by omega)).trans (h.mono i (by omega))
  have down : ∀ j ≤ n, f (n - j) ≤ 1 := by
    intro j
    induction j with
    | zero => intro _; rw [Nat.sub_zero, h.one]
    | succ j ih =>
      intro hj
      have := h.mono (n - (j + 1)) (by omega)
      rw [show n - (j + 1) + 1 = n - j by omega] at this
      exact this.trans (ih (by omega))
  intro i hi
  refine ⟨up i hi, ?_⟩
  have := down (n - i) (by omega)
  rwa [show n - (n - i) = i by omega] at this

/-- A term of the sum. -/
theorem lorenz_term {a0 a1 b0 b1 : Double} {s0 s1 f0 f1 : ℚ} (ha0 : a0.val = X.fin s0) (ha1 : a1.val = X.fin s1)
    (hb0 : b0.val = X.fin f0) (hb1 : b1.val = X.fin f1) (h0 : 0 ≤ s0) (h01 : s0 ≤ s1) (h1 : s1 ≤ 1) (g0 : 0 ≤ f0) (g01 : f0 ≤ f1)
    (g1 : f1 ≤ 1) : NearE Double.rounded q52 4 (9 * tiny ℚ)
      (Arith.div (Arith.mul (Arith.add b0 b1) (Arith.sub a1 a0)) (Arith.lit 2)) ((f0 + f1) * (s1 - s0) / 2) := by
  have hp := Double.precise
  have hq : (1 : ℚ) ≤ q52 := hp.one_le
  have ht0 := tiny_pos (K := ℚ)
  have ht := tiny_le
  have ht1 : tiny ℚ ≤ 1 := ht.trans (by norm_num)
  have hoff : ∀ x : ℚ, Off q52 0 0 x x := fun x => (close_refl q52 x).off
  have n1 : NearE Double.rounded q52 (0 + 1) (0 + tiny ℚ) (Arith.sub a1 a0) (s1 - s0) := by
    refine nearE_rnd hp (Double.pow_le_two (by omega)) (x := s1 - s0) ?_ (by linarith) (hoff _) le_rfl (le_huge ?_)
    · rw [Double.rounded.sub, show Double.rounded.val a1 = X.fin s1 from ha1, show Double.rounded.val a0 = X.fin s0 from ha0]
      exact congrArg Double.rounded.rnd (Solver.X_sub s1 s0)
    · norm_num; linarith
  have n2 : NearE Double.rounded q52 (0 + 1) (0 + tiny ℚ) (Arith.add b0 b1) (f0 + f1) := by
    refine nearE_rnd hp (Double.pow_le_two (by omega)) (x := f0 + f1) ?_ (by linarith) (hoff _) le_rfl (le_huge ?_)
    · rw [Double.rounded.add, show Double.rounded.val b1 = X.fin f1 from hb1, show Double.rounded.val b0 = X.fin f0 from hb0]; rfl
    · norm_num; linarith
  rw [zero_add, zero_add] at n1 n2
  obtain ⟨x, x1, x2, x3, x4⟩ := n1
  obtain ⟨y, y1, y2, y3, y4⟩ := n2
  rw [pow_one] at x3 x4 y3 y4
  have hq2 : q52 ≤ 11 / 10 := by norm_num
  have hle : ∀ {a b : ℚ}, 0 ≤ b → a ≤ b * q52 → b ≤ 2 + tiny ℚ → a ≤ 3 := by
    intro a b hb h1 h2
    have : b * q52 ≤ b * (11 / 10) := mul_le_mul_of_nonneg_left hq2 hb
    have h3 := h1.trans this
    clear * - h3 h2 ht
    norm_num at ht
    linarith
  have hx3 : x ≤ 3 := hle (by linarith) x4 (by linarith)
  have hy3 : y ≤ 3 := hle (by linarith) y4 (by linarith)
  have hmul : Off q52 2 (7 * tiny ℚ) (y * x) ((f0 + f1) * (s1 - s0)) := by
    have hprod : ∀ a b : ℚ, 0 ≤ a → a ≤ 3 → 0 ≤ b → b ≤ 3 → (a + tiny ℚ) * (b + tiny ℚ) ≤ a * b + 7 * tiny ℚ := by
      intro a b ha ha3 hb hb3
      have e1 := mul_le_mul_of_nonneg_left ha3 ht0.le
      have e2 := mul_le_mul_of_nonneg_left hb3 ht0.le
      have e3 := mul_le_mul_of_nonneg_left ht1 ht0.le
      linarith
    have hq0 : (0 : ℚ) ≤ q52 := by linarith
    constructor
    · calc (f0 + f1) * (s1 - s0) ≤ ((y + tiny ℚ) * q52) * ((x + tiny ℚ) * q52) :=
            mul_le_mul y3 x3 (by linarith) (mul_nonneg (by linarith) hq0)
        _ = ((y + tiny ℚ) * (x + tiny ℚ)) * q52 ^ 2 := by ring
        _ ≤ (y * x + 7 * tiny ℚ) * q52 ^ 2 := mul_le_mul_of_nonneg_right (hprod y x y2 hy3 x2 hx3) (pow_nonneg hq0 2)
    · calc y * x ≤ ((f0 + f1 + tiny ℚ) * q52) * ((s1 - s0 + tiny ℚ) * q52) :=
            mul_le_mul y4 x4 x2 (mul_nonneg (by linarith) hq0)
        _ = ((f0 + f1 + tiny ℚ) * (s1 - s0 + tiny ℚ)) * q52 ^ 2 := by ring
        _ ≤ ((f0 + f1) * (s1 - s0) + 7 * tiny ℚ) * q52 ^ 2 :=
            mul_le_mul_of_nonneg_right (hprod _ _ (by linarith) (by linarith) (by linarith) (by linarith)) (pow_nonneg hq0 2)
  have hle1 : (f0 + f1) * (s1 - s0) ≤ 2 * 1 := mul_le_mul (by linarith) (by linarith) (by linarith) (by norm_num)
  have hge0 : 0 ≤ (f0 + f1) * (s1 - s0) := mul_nonneg (by linarith) (by linarith)
  have n3 : NearE Double.rounded q52 (2 + 1) (7 * tiny ℚ + tiny ℚ) (Arith.mul (Arith.add b0 b1) (Arith.sub a1 a0)) ((f0 + f1) * (s1 - s0)) := by
    refine nearE_rnd hp (Double.pow_le_two (by omega)) (x := y * x) ?_ (mul_nonneg y2 x2) hmul (by linarith) (le_huge ?_)
    · rw [Double.rounded.mul, x1, y1]; rfl
    · norm_num; linarith
  have h2 : Near Double.rounded q52 0 (Arith.lit 2) 2 := near_exact (ρ := Double.rounded) (by
    have := Double.lit_nat (n := 2) (by norm_num) (by norm_num)
    norm_num at this
    exact this)
  have n4 := nearE_div hp (Double.pow_le_two (by omega)) n3 h2 (by linarith) hge0 (by norm_num) (le_huge (by norm_num; linarith))
  rw [show 9 * tiny ℚ = 2 * (7 * tiny ℚ + tiny ℚ) / 2 + tiny ℚ by ring]
  exact n4

theorem area_bound {s f : Nat → ℚ} {n : Nat} (hs : ∀ i < n, s i ≤ s (i + 1)) (hs0 : s 0 = 0) (hf : ∀ i ≤ n, 0 ≤ f i ∧ f i ≤ 1) :
    ∀ m ≤ n, 0 ≤ area s f m ∧ area s f m ≤ 2 * s m := by
  intro m
  induction m with
  | zero => intro _; simp [area, hs0]
  | succ m ih =>
    intro hm
    obtain ⟨h1, h2⟩ := ih (by omega)
    have e : area s f (m + 1) = area s f m + (f m + f (m + 1)) * (s (m + 1) - s m) := by unfold area; rw [sum_range_succ]
    have hd := sub_nonneg.mpr (hs m (by omega))
    have f1 := hf m (by omega)
    have f2 := hf (m + 1) hm
    have h3 : 0 ≤ (f m + f (m + 1)) * (s (m + 1) - s m) := mul_nonneg (by linarith) hd
    have h4 : (f m + f (m + 1)) * (s (m + 1) - s m) ≤ 2 * (s (m + 1) - s m) := mul_le_mul_of_nonneg_right (by linarith) hd
    rw [e]
    constructor <;> linarith

theorem lorenz_loop {n : Nat} (hn : n ≤ INT_MAX) {Phi F : List Double} {s f : Nat → ℚ} (h1 : Values n Phi s) (h2 : Values n F f) :
    ∀ m ≤ n, ∃ d, forEach (List.range m) (Arith.zero : Double) (lorenzStep Phi F) = .ok d ∧
      NearE Double.rounded q52 (m + 4) (10 * m * tiny ℚ) d (area s f m / 2) := by
  have hp := Double.precise
  have hI : INT_MAX = 2147483647 := rfl
  have ht0 := tiny_pos (K := ℚ)
  have ht := tiny_le
  intro m
  induction m with
  | zero =>
    intro _
    refine ⟨_, rfl, 0, val_zero' Double.rounded, le_rfl, ?_⟩
    simp [area, Off]
  | succ m ih =>
    intro hm
    obtain ⟨d, e1, e2⟩ := ih (by omega)
    obtain ⟨a0, p0, v0⟩ := h1.val m (by omega)
    obtain ⟨a1, p1, v1⟩ := h1.val (m + 1) hm
    obtain ⟨b0, r0, w0⟩ := h2.val m (by omega)
    obtain ⟨b1, r1, w1⟩ := h2.val (m + 1) hm
    have ba := h1.bounds m (by omega)
    have ba1 := h1.bounds (m + 1) hm
    have bb := h2.bounds m (by omega)
    have bb1 := h2.bounds (m + 1) hm
    have am := h1.mono m (by omega)
    have bm := h2.mono m (by omega)
    have hterm := lorenz_term v0 v1 w0 w1 ba.1 am ba1.2 bb.1 bm bb1.2
    have hge0 : 0 ≤ (f m + f (m + 1)) * (s (m + 1) - s m) / 2 := div_nonneg (mul_nonneg (by linarith) (by linarith)) (by norm_num)
    obtain ⟨ar0, ar1⟩ := area_bound h1.mono h1.zero h2.bounds m (by omega)
    have e : area s f (m + 1) = area s f m + (f m + f (m + 1)) * (s (m + 1) - s m) := by unfold area; rw [sum_range_succ]
    obtain ⟨ar2, ar3⟩ := area_bound h1.mono h1.zero h2.bounds (m + 1) hm
    have hmq : (m : ℚ) ≤ 2 ^ 31 := by exact_mod_cast (by omega : m ≤ 2 ^ 31)
    have hm0 : (0 : ℚ) ≤ m := Nat.cast_nonneg m
    have hmt : 10 * m * tiny ℚ ≤ 1 := by
      calc 10 * m * tiny ℚ ≤ 10 * 2 ^ 31 * (1 / 2 ^ 100) := mul_le_mul (by linarith) ht ht0.le (by norm_num)
        _ ≤ 1 := by norm_num
    have hmt0 : 0 ≤ 10 * m * tiny ℚ := by positivity
    have n5 := nearE_add hp (Double.pow_le_two (by omega : m + 4 ≤ 2 ^ 51)) e2 (hterm.mono hp hge0 (by linarith) (by omega : 4 ≤ m + 4) le_rfl) hmt0 (by linarith)
      (le_huge (by norm_num at ht ⊢; linarith))
    refine ⟨Arith.add d (Arith.div (Arith.mul (Arith.add b0 b1) (Arith.sub a1 a0)) (Arith.lit 2)), ?_, ?_⟩
    · rw [List.range_succ, forEach_append, e1]
      simp only [Res.ok_bind, forEach_cons, forEach_nil, lorenzStep, Res.bind_eq, Res.pure_eq]
      rw [rd_of_getElem? p0, rd_of_getElem? p1, rd_of_getElem? r0, rd_of_getElem? r1]
      simp only [Res.ok_bind]
    · have e3 : area s f (m + 1) / 2 = area s f m / 2 + (f m + f (m + 1)) * (s (m + 1) - s m) / 2 := by rw [e]; ring
      rw [e3, show m + 1 + 4 = m + 4 + 1 by omega]
      have e4 : 10 * ((m + 1 : ℕ) : ℚ) * tiny ℚ = 10 * m * tiny ℚ + 9 * tiny ℚ + tiny ℚ := by push_cast; ring
      rw [e4]
      exact n5

/-- The Lorenz coefficient computed from a curve of `double`s. -/
theorem lorenz_close {n : Nat} (hn : n ≤ INT_MAX) {Phi F : List Double} {s f : Nat → ℚ} (h1 : Values n Phi s) (h2 : Values n F f) :
    ∃ d x, lorenzCoefficient (Phi, F) = .ok d ∧ d.val = X.fin x ∧ |x - (area s f n - 1)| ≤ (2 * n + 24) / 2 ^ 51 := by
  have hp := Double.precise
  have hI : INT_MAX = 2147483647 := rfl
  obtain ⟨d, e1, z, z1, z2, z3⟩ := lorenz_loop hn h1 h2 n le_rfl
  obtain ⟨a0, a1⟩ := area_bound h1.mono h1.zero h2.bounds n le_rfl
  rw [h1.one] at a1
  have hnq : (n : ℚ) ≤ 2 ^ 31 := by exact_mod_cast (by omega : n ≤ 2 ^ 31)
  have hn0 : (0 : ℚ) ≤ n := Nat.cast_nonneg n
  have ht0 := tiny_pos (K := ℚ)
  have hE : 10 * n * tiny ℚ ≤ 1 / 2 ^ 60 := by
    calc 10 * n * tiny ℚ ≤ 10 * 2 ^ 31 * (1 / 2 ^ 100) := mul_le_mul (by linarith) tiny_le ht0.le (by norm_num)
      _ ≤ 1 / 2 ^ 60 := by norm_num
  have hE0 : 0 ≤ 10 * n * tiny ℚ := by positivity
  generalize 10 * n * tiny ℚ = E at z3 hE hE0
  have hpow : q52 ^ (n + 4) ≤ 1 + ((n + 4 : ℕ) : ℚ) / 2 ^ 51 := Double.pow_le (n + 4) (by omega)
  have hpow1 : (1 : ℚ) ≤ q52 ^ (n + 4) := one_le_pow' hp.one_le _
  push_cast at hpow
  have hsmall : ((n : ℚ) + 4) / 2 ^ 51 ≤ 1 / 2 ^ 19 := by
    rw [div_le_iff₀ (by positivity)]
    calc (n : ℚ) + 4 ≤ 2 ^ 31 + 4 := by linarith
      _ ≤ _ := by norm_num
  obtain ⟨z3, z4⟩ := z3
  generalize q52 ^ (n + 4) = Q at z3 z4 hpow hpow1
  have hδ : ((n : ℚ) + 4) / 2 ^ 51 = (n + 4) * (1 / 2 ^ 51) := by ring
  generalize hδ' : ((n : ℚ) + 4) / 2 ^ 51 = δ at hpow hsmall
  have hδ0 : 0 ≤ δ := by rw [← hδ']; positivity
  -- the integral
  have hz : |z - area s f n / 2| ≤ δ + 1 / 2 ^ 52 := by
    have hzu : z ≤ 2 := by
      have : (area s f n / 2 + E) * Q ≤ (1 + 1 / 2 ^ 60) * (1 + 1 / 2 ^ 19) :=
        mul_le_mul (by linarith) (by linarith) (by linarith) (by norm_num)
      norm_num at this
      linarith
    have k1 : (area s f n / 2 + E) * Q ≤ (area s f n / 2 + E) * (1 + δ) := mul_le_mul_of_nonneg_left hpow (by linarith)
    have k3 : (area s f n / 2 + E) * δ ≤ (1 + 1 / 2 ^ 60) * δ := mul_le_mul_of_nonneg_right (by linarith) hδ0
    have k5 : (1 / 2 ^ 60) * δ ≤ 1 / 2 ^ 60 * (1 / 2 ^ 19) := mul_le_mul_of_nonneg_left hsmall (by norm_num)
    rw [abs_le]
    constructor
    · -- area/2 ≤ (z + E) Q, and area/2 ≤ 1
      by_contra hc
      have hlt : z + E < area s f n / 2 - δ := by
        norm_num at hc hE ⊢
        linarith
      have h5 : (z + E) * Q ≤ (area s f n / 2 - δ) * (1 + δ) := by
        calc (z + E) * Q ≤ (z + E) * (1 + δ) := mul_le_mul_of_nonneg_left hpow (by linarith)
          _ ≤ (area s f n / 2 - δ) * (1 + δ) := mul_le_mul_of_nonneg_right hlt.le (by linarith)
      have h6 : (area s f n / 2 - δ) * (1 + δ) ≤ area s f n / 2 - δ * δ := by
        have : (area s f n / 2) * δ ≤ 1 * δ := mul_le_mul_of_nonneg_right (by linarith) hδ0
        linarith
      have h8 : (z + E) * Q < area s f n / 2 := by
        have : (z + E) * Q ≤ (z + E) * (1 + δ) := mul_le_mul_of_nonneg_left hpow (by linarith)
        have h9 : (z + E) * (1 + δ) < (area s f n / 2 - δ) * (1 + δ) := mul_lt_mul_of_pos_right hlt (by linarith)
        have := mul_nonneg hδ0 hδ0
        linarith
      linarith
    · norm_num at hE k5 ⊢
      linarith
  have hzabs : |z - 1 / 2| ≤ 2 := by
    rw [abs_le] at hz ⊢
    norm_num at hsmall hz ⊢
    constructor <;> linarith
  obtain ⟨w, w1, w2⟩ := rnd_abs (hzabs.trans (by norm_num))
  have hw : |2 * w| ≤ 8 := by
    rw [abs_le] at hzabs w2 ⊢
    norm_num at w2 ⊢
    constructor <;> linarith
  obtain ⟨x, x1, x2⟩ := rnd_abs hw
  have lit2 : Double.rounded.val (Arith.lit 2) = X.fin 2 := by
    have := Double.lit_nat (n := 2) (by norm_num) (by norm_num)
    norm_num at this
    exact this
  have lith : Double.rounded.val (Arith.lit (1 / 2)) = X.fin (1 / 2) := by
    show Double.val (Arith.lit (1 / 2)) = X.fin (1 / 2)
    decide +kernel
  refine ⟨Arith.mul (Arith.lit 2) (Arith.sub d (Arith.lit (1 / 2))), x, ?_, ?_, ?_⟩
  · unfold lorenzCoefficient
    have hn' : narrowInt ((n + 1 + (SIZE_MOD - 1)) % SIZE_MOD) = n := by
      have : (n + 1 + (SIZE_MOD - 1)) % SIZE_MOD = n := by
        have hm : SIZE_MOD = 18446744073709551616 := by rfl
        rw [hm]; omega
      rw [this, narrowInt_small hn]
    simp only [h1.length, h2.length, ne_eq, not_true_eq_false, if_false, hn', Int.toNat_natCast]
    rw [e1]; rfl
  · show Double.rounded.val _ = _
    rw [Double.rounded.mul, lit2, Double.rounded.sub, z1, lith]
    have : Double.rounded.rnd (X.sub (X.fin z) (X.fin (1 / 2))) = X.fin w := by rw [show X.sub (X.fin z) (X.fin (1 / 2)) = X.fin (z - 1 / 2) from Solver.X_sub z (1 / 2)]; exact w1
    rw [this]
    exact x1
  · rw [abs_le] at hz w2 x2 ⊢
    have hgoal : (2 * (n : ℚ) + 24) / 2 ^ 51 = 2 * δ + 16 / 2 ^ 51 := by rw [← hδ']; ring
    rw [hgoal]
    norm_num at hz w2 x2 ⊢
    constructor <;> linarith

end Verif.Rounding
