/-
Errors that are relative up to a tiny amount: sums, products and quotients of any numbers between 0 and a bound.
-/
import Verif.Proofs.Accuracy
import Verif.Proofs.Settled
import Mathlib.Tactic.Linarith

namespace Verif.Rounding
open Verif.Spec Verif.Solver Verif.Toolbox

section exact
variable {K : Type} [Field K] [LinearOrder K] [IsStrictOrderedRing K]

/-- `x` and `y` differ by at most the factor `q ^ k`, apart from `e`. -/
def Off (q : K) (k : Nat) (e x y : K) : Prop := y ≤ (x + e) * q ^ k ∧ x ≤ (y + e) * q ^ k

variable {q : K} (hq : 1 ≤ q)

omit [IsStrictOrderedRing K] in
theorem Close.off {k : Nat} {x y : K} (h : Close q k x y) : Off q k 0 x y := by
  unfold Off; rw [add_zero, add_zero]; exact h

include hq

theorem Off.trans {k l : Nat} {e f x y z : K} (he : 0 ≤ e) (hf : 0 ≤ f) (h1 : Off q k e x y) (h2 : Off q l f y z) :
    Off q (k + l) (e + f) x z := by
  have hk := (pow_pos' hq k).le
  have hl := (pow_pos' hq l).le
  have hk1 := one_le_pow' hq k
  have hl1 := one_le_pow' hq l
  constructor
  · calc z ≤ (y + f) * q ^ l := h2.1
      _ ≤ ((x + e) * q ^ k + f * q ^ k) * q ^ l := by
        apply mul_le_mul_of_nonneg_right _ hl
        have := le_mul_of_one_le_right hf hk1
        linarith [h1.1]
      _ = (x + (e + f)) * q ^ (k + l) := by rw [pow_add]; ring
  · calc x ≤ (y + e) * q ^ k := h1.2
      _ ≤ ((z + f) * q ^ l + e * q ^ l) * q ^ k := by
        apply mul_le_mul_of_nonneg_right _ hk
        have := le_mul_of_one_le_right he hl1
        linarith [h2.2]
      _ = (z + (e + f)) * q ^ (k + l) := by rw [pow_add]; ring

theorem Off.mono {k l : Nat} {e f x y : K} (h : Off q k e x y) (hx : 0 ≤ x) (hy : 0 ≤ y) (he : 0 ≤ e) (hkl : k ≤ l)
    (hef : e ≤ f) : Off q l f x y := by
  have hp := pow_le_pow_right₀ hq hkl
  have h0 := (pow_pos' hq k).le
  constructor
  · exact h.1.trans (mul_le_mul (by linarith) hp h0 (by linarith))
  · exact h.2.trans (mul_le_mul (by linarith) hp h0 (by linarith))

omit hq in
theorem Off.add {k : Nat} {e f a b x y : K} (h1 : Off q k e a x) (h2 : Off q k f b y) :
    Off q k (e + f) (a + b) (x + y) := by
  obtain ⟨h1, h3⟩ := h1
  obtain ⟨h2, h4⟩ := h2
  constructor
  · have e1 : (a + b + (e + f)) * q ^ k = (a + e) * q ^ k + (b + f) * q ^ k := by ring
    rw [e1]; linarith
  · have e1 : (x + y + (e + f)) * q ^ k = (x + e) * q ^ k + (y + f) * q ^ k := by ring
    rw [e1]; linarith

omit hq in
theorem Off.scale {k : Nat} {e a x c : K} (h : Off q k e a x) (hc : 0 ≤ c) : Off q k (c * e) (c * a) (c * x) := by
  constructor
  · calc c * x ≤ c * ((a + e) * q ^ k) := mul_le_mul_of_nonneg_left h.1 hc
      _ = (c * a + c * e) * q ^ k := by ring
  · calc c * a ≤ c * ((x + e) * q ^ k) := mul_le_mul_of_nonneg_left h.2 hc
      _ = (c * x + c * e) * q ^ k := by ring

theorem Off.div {k l : Nat} {e a x b y : K} (h : Off q k e a x) (hb : Close q l b y) (he : 0 ≤ e) (hx : 0 ≤ x) (hy : 0 < y) :
    Off q (k + l) (e / b) (a / b) (x / y) := by
  have hb0 := (hb.pos_iff hq hy.le).mpr hy
  have h1 := h.scale (inv_pos.mpr hb0).le
  have h2 : Close q l (x / b) (x / y) := by
    have := (close_refl q x).div hq hb hx hy
    rwa [Nat.zero_add] at this
  rw [inv_mul_eq_div, inv_mul_eq_div, inv_mul_eq_div] at h1
  have := h1.trans hq (div_nonneg he hb0.le) le_rfl h2.off
  rwa [add_zero] at this

/-- The difference of two numbers that are at most 1. -/
theorem Off.abs {k : Nat} {e x y : K} (h : Off q k e x y) (hk : q ^ k ≤ 2) (hx0 : 0 ≤ x) (hx : x ≤ 1) (hy0 : 0 ≤ y)
    (hy : y ≤ 1) (he : 0 ≤ e) : |x - y| ≤ q ^ k - 1 + 2 * e := by
  have h1 := one_le_pow' hq k
  have key : ∀ z : K, 0 ≤ z → z ≤ 1 → (z + e) * q ^ k ≤ z + (q ^ k - 1 + 2 * e) := by
    intro z hz0 hz
    have h2 : z * (q ^ k - 1) ≤ 1 * (q ^ k - 1) := mul_le_mul_of_nonneg_right hz (by linarith)
    have h3 : e * q ^ k ≤ e * 2 := mul_le_mul_of_nonneg_left hk he
    linarith
  rw [abs_le]
  constructor
  · have := key x hx0 hx; linarith [h.1]
  · have := key y hy0 hy; linarith [h.2]

end exact

section near
variable {R : Type} [Arith R] {K : Type} [Field K] [LinearOrder K] [IsStrictOrderedRing K] (ρ : Rounded R K)

/-- Below this magnitude nothing is assumed about rounding. -/
def tiny (K : Type) [Field K] : K := 1 / 2 ^ 1001

/-- The value stands for a number, not negative, that differs from `y` by at most the factor `q ^ k`, apart from `e`. -/
def NearE (q : K) (k : Nat) (e : K) (a : R) (y : K) : Prop := ∃ x, ρ.val a = X.fin x ∧ 0 ≤ x ∧ Off q k e x y

theorem tiny_pos : 0 < tiny K := by unfold tiny; positivity

variable {ρ} {q : K} (hp : Precise ρ q)
include hp

/-- Rounding of a number that need not be of moderate size. -/
theorem off_rnd {x : K} (h0 : 0 ≤ x) (h1 : x ≤ 2 ^ 1001) :
    ∃ y, ρ.rnd (X.fin x) = X.fin y ∧ 0 ≤ y ∧ Off q 1 (tiny K) y x := by
  have hq := hp.one_le
  have hP : (0 : K) < 2 ^ 1001 := two_pow_pos' 1001
  have hty : tiny K * 2 ^ 1001 = 1 := by unfold tiny; rw [one_div, inv_mul_cancel₀ hP.ne']
  have ht0 := tiny_pos (K := K)
  by_cases hx : 1 ≤ x * 2 ^ 1001
  · obtain ⟨y, hy, hc⟩ := hp.rel x hx h1
    have hy0 := hc.nonneg hq h0
    exact ⟨y, hy, hy0, hc.off.mono hq hy0 h0 le_rfl le_rfl ht0.le⟩
  · rw [not_le, ← hty] at hx
    have hx' : x < tiny K := lt_of_mul_lt_mul_right hx hP.le
    have ht1 : tiny K ≤ 2 ^ 1001 := by
      have h2 : tiny K ≤ 1 := by
        rw [← hty]; exact le_mul_of_one_le_right ht0.le (one_le_pow₀ one_le_two)
      exact h2.trans (one_le_pow₀ one_le_two)
    obtain ⟨z, hz, hc⟩ := hp.rel (tiny K) hty.ge ht1
    have hm1 := ρ.rnd_mono (X.fin 0) (X.fin x) (X.le_iff.mpr ⟨by simpa [X.lt] using h0, by simp, by simp⟩)
    have hm2 := ρ.rnd_mono (X.fin x) (X.fin (tiny K)) (X.le_iff.mpr ⟨by simpa [X.lt] using hx'.le, by simp, by simp⟩)
    rw [ρ.rnd_zero] at hm1
    rw [hz] at hm2
    rw [X.le_iff] at hm1 hm2
    cases hr : ρ.rnd (X.fin x) with
    | fin y =>
      rw [hr] at hm1 hm2
      have hm1 : 0 ≤ y := by simpa [X.lt] using hm1.1
      have hm2 : y ≤ z := by simpa [X.lt] using hm2.1
      refine ⟨y, rfl, hm1, ?_, ?_⟩
      · rw [pow_one]
        calc x ≤ y + tiny K := hx'.le.trans (le_add_of_nonneg_left hm1)
          _ ≤ (y + tiny K) * q := le_mul_of_one_le_right (by linarith) hq
      · rw [pow_one]
        have h3 := hc.2
        rw [pow_one] at h3
        calc y ≤ tiny K * q := hm2.trans h3
          _ ≤ (x + tiny K) * q := mul_le_mul_of_nonneg_right (by linarith) (by linarith)
    | pinf => rw [hr] at hm2; simp [X.lt] at hm2
    | ninf => rw [hr] at hm1; simp [X.lt] at hm1
    | nan => rw [hr] at hm1; simp [X.lt] at hm1

theorem nearE_rnd {k : Nat} (hk : q ^ k ≤ 2) {a : R} {x y e : K} (ha : ρ.val a = ρ.rnd (X.fin x)) (hx : 0 ≤ x)
    (h : Off q k e x y) (he : 0 ≤ e) (hy : y + e ≤ 2 ^ 1000) : NearE ρ q (k + 1) (e + tiny K) a y := by
  have hq := hp.one_le
  have h1 : x ≤ 2 ^ 1001 := by
    rw [pow_succ]
    exact h.2.trans (mul_le_mul hy hk (pow_pos' hq k).le (two_pow_pos' 1000).le)
  obtain ⟨z, hz, hz0, hc⟩ := off_rnd hp hx h1
  refine ⟨z, by rw [ha, hz], hz0, ?_⟩
  have := hc.trans hq tiny_pos.le he h
  rwa [Nat.add_comm 1, add_comm (tiny K)] at this

theorem Near.slack {k : Nat} {a : R} {y : K} (h : Near ρ q k a y) (hy : 0 ≤ y) : NearE ρ q k 0 a y := by
  obtain ⟨x, h1, h2⟩ := h
  exact ⟨x, h1, h2.nonneg hp.one_le hy, h2.off⟩

theorem NearE.mono {k l : Nat} {e f : K} {a : R} {y : K} (h : NearE ρ q k e a y) (hy : 0 ≤ y) (he : 0 ≤ e) (hkl : k ≤ l)
    (hef : e ≤ f) : NearE ρ q l f a y := by
  obtain ⟨x, h1, h2, h3⟩ := h
  exact ⟨x, h1, h2, h3.mono hp.one_le h2 hy he hkl hef⟩

theorem nearE_add {k : Nat} (hk : q ^ k ≤ 2) {a b : R} {x y e f : K} (ha : NearE ρ q k e a x) (hb : NearE ρ q k f b y)
    (he : 0 ≤ e) (hf : 0 ≤ f) (h : x + y + (e + f) ≤ 2 ^ 1000) :
    NearE ρ q (k + 1) (e + f + tiny K) (Arith.add a b) (x + y) := by
  obtain ⟨a', ha, ha0, hac⟩ := ha
  obtain ⟨b', hb, hb0, hbc⟩ := hb
  exact nearE_rnd hp hk (x := a' + b') (by rw [ρ.add, ha, hb]; rfl) (add_nonneg ha0 hb0) (hac.add hbc) (add_nonneg he hf) h

/-- The product of a known number and an approximate one. -/
theorem nearE_mul {k : Nat} (hk : q ^ k ≤ 2) {a b : R} {c y : K} (ha : ρ.val a = X.fin c) (hb : Near ρ q k b y)
    (hc : 0 ≤ c) (hy : 0 ≤ y) (h : c * y ≤ 2 ^ 1000) : NearE ρ q (k + 1) (tiny K) (Arith.mul a b) (c * y) := by
  obtain ⟨b', hb, hbc⟩ := hb
  have hb0 := hbc.nonneg hp.one_le hy
  have hcb : Close q k (c * b') (c * y) := by
    have := (close_refl q c).mul hp.one_le hbc hc hy
    rwa [Nat.zero_add] at this
  have := nearE_rnd hp hk (a := Arith.mul a b) (x := c * b') (by rw [ρ.mul, ha, hb]; rfl) (mul_nonneg hc hb0) hcb.off le_rfl (by rw [add_zero]; exact h)
  rwa [zero_add] at this

/-- A sum, from left to right. -/
theorem nearE_foldl {k : Nat} {e : K} (he : 0 ≤ e) {B : K} {l : List (R × K)} : ∀ {m : Nat} {σ : K} {a : R} {s : K}, k ≤ m →
    q ^ (m + l.length) ≤ 2 → 0 ≤ σ → NearE ρ q m σ a s → (∀ p ∈ l, NearE ρ q k e p.1 p.2 ∧ 0 ≤ p.2) → 0 ≤ s →
    s + (l.map fun p => p.2).sum ≤ B → B + (σ + l.length * (e + tiny K)) ≤ 2 ^ 1000 →
    NearE ρ q (m + l.length) (σ + l.length * (e + tiny K)) ((l.map fun p => p.1).foldl Arith.add a)
      (s + (l.map fun p => p.2).sum) := by
  have ht := tiny_pos (K := K)
  induction l with
  | nil => intro m σ a s _ _ _ h _ _ _ _; simpa using h
  | cons p l ih =>
    intro m σ a s hkm hm hσ h hl hs hB hr
    obtain ⟨hp1, hp2⟩ := hl p List.mem_cons_self
    have hrest : 0 ≤ (l.map fun p => p.2).sum := List.sum_nonneg fun x hx => by
      obtain ⟨y, hy, rfl⟩ := List.mem_map.mp hx
      exact (hl y (List.mem_cons_of_mem _ hy)).2
    have hlen : (0 : K) ≤ (l.length : K) * (e + tiny K) := mul_nonneg (Nat.cast_nonneg _) (by linarith)
    rw [List.map_cons, List.sum_cons] at hB
    rw [List.length_cons] at hr hm
    have hcast : ((l.length + 1 : ℕ) : K) * (e + tiny K) = (e + tiny K) + l.length * (e + tiny K) := by push_cast; ring
    rw [hcast] at hr
    have hstep : NearE ρ q (m + 1) (σ + e + tiny K) (Arith.add a p.1) (s + p.2) := by
      refine nearE_add hp ?_ h (hp1.mono hp hp2 he hkm le_rfl) hσ he ?_
      · exact (pow_le_pow_right₀ hp.one_le (by omega)).trans hm
      · exact le_trans (by linarith) hr
    have := ih (m := m + 1) (σ := σ + e + tiny K) (a := Arith.add a p.1) (s := s + p.2) (by omega)
      (by rw [show m + 1 + l.length = m + (l.length + 1) by omega]; exact hm) (by linarith) hstep
      (fun x hx => hl x (List.mem_cons_of_mem _ hx)) (add_nonneg hs hp2) (by linarith) (le_trans (by linarith) hr)
    rw [List.map_cons, List.foldl_cons, List.map_cons, List.sum_cons, List.length_cons, hcast]
    rw [show m + (l.length + 1) = m + 1 + l.length by omega, ← add_assoc s,
      show σ + (e + tiny K + l.length * (e + tiny K)) = σ + e + tiny K + l.length * (e + tiny K) by ring]
    exact this

/-- A quotient. -/
theorem nearE_div {k l : Nat} (hk : q ^ (k + l) ≤ 2) {a b : R} {x y e : K} (ha : NearE ρ q k e a x) (hb : Near ρ q l b y)
    (he : 0 ≤ e) (hx : 0 ≤ x) (hy : 0 < y) (h : x / y + 2 * e / y ≤ 2 ^ 1000) :
    NearE ρ q (k + l + 1) (2 * e / y + tiny K) (Arith.div a b) (x / y) := by
  have hq := hp.one_le
  obtain ⟨a', ha, ha0, hac⟩ := ha
  obtain ⟨b', hb, hbc⟩ := hb
  have hb0 := (hbc.pos_iff hq hy.le).mpr hy
  have hxy := div_nonneg hx hy.le
  have he2 : e / b' ≤ 2 * e / y := by
    rw [div_le_div_iff₀ hb0 hy]
    have h1 : y ≤ b' * 2 := hbc.1.trans (mul_le_mul_of_nonneg_left ((pow_le_pow_right₀ hq (by omega)).trans hk) hb0.le)
    calc e * y ≤ e * (b' * 2) := mul_le_mul_of_nonneg_left h1 he
      _ = 2 * e * b' := by ring
  have hoff := (hac.div hq hbc he hx hy).mono hq (div_nonneg ha0 hb0.le) hxy (div_nonneg he hb0.le) le_rfl he2
  refine nearE_rnd hp hk (x := a' / b') ?_ (div_nonneg ha0 hb0.le) hoff ?_ h
  · rw [ρ.div _ _ (by rw [hb]; simpa using hb0.ne'), ha, hb]
    simp [X.div, hb0.ne']
  · exact (div_nonneg he hb0.le).trans he2

end near
end Verif.Rounding
