/-
Relative errors: products, quotients and sums of numbers that are not negative.
-/
import Verif.Proofs.RoundingTime
import Mathlib.Algebra.Order.Ring.Pow
import Mathlib.Tactic.Ring
import Mathlib.Tactic.Positivity
import Mathlib.Tactic.NormNum
import Mathlib.Algebra.BigOperators.Group.List.Basic

namespace Verif.Rounding
open Verif.Spec Verif.Solver Verif.Toolbox

section exact
variable {K : Type} [Field K] [LinearOrder K] [IsStrictOrderedRing K]

/-- `x` and `y` differ by at most the factor `q ^ k`. -/
def Close (q : K) (k : Nat) (x y : K) : Prop := y ≤ x * q ^ k ∧ x ≤ y * q ^ k

variable {q : K} (hq : 1 ≤ q)
include hq

omit [IsStrictOrderedRing K] hq in
theorem close_refl (q x : K) : Close q 0 x x := by unfold Close; simp

theorem one_le_pow' (k : Nat) : 1 ≤ q ^ k := one_le_pow₀ hq

theorem pow_pos' (k : Nat) : 0 < q ^ k := lt_of_lt_of_le one_pos (one_le_pow' hq k)

theorem Close.nonneg {k : Nat} {x y : K} (h : Close q k x y) (hy : 0 ≤ y) : 0 ≤ x := by
  by_contra hx
  have := mul_neg_of_neg_of_pos (not_le.mp hx) (pow_pos' hq k)
  linarith [h.1]

theorem Close.pos_iff {k : Nat} {x y : K} (h : Close q k x y) (hy : 0 ≤ y) : 0 < x ↔ 0 < y := by
  have hx := h.nonneg hq hy
  have hp := pow_pos' hq k
  constructor
  · intro h0
    rcases lt_or_eq_of_le hy with h1 | h1
    · exact h1
    · rw [← h1, Close, zero_mul] at h; exact absurd h.2 (not_le.mpr h0)
  · intro h0
    rcases lt_or_eq_of_le hx with h1 | h1
    · exact h1
    · rw [← h1, Close, zero_mul] at h; exact absurd h.1 (not_le.mpr h0)

theorem Close.zero_iff {k : Nat} {x y : K} (h : Close q k x y) (hy : 0 ≤ y) : x = 0 ↔ y = 0 := by
  have h1 := h.pos_iff hq hy
  have h2 := h.nonneg hq hy
  constructor
  · intro e; by_contra hne
    exact absurd (h1.mpr (lt_of_le_of_ne hy (Ne.symm hne))) (by rw [e]; exact _root_.lt_irrefl _)
  · intro e; by_contra hne
    exact absurd (h1.mp (lt_of_le_of_ne h2 (Ne.symm hne))) (by rw [e]; exact _root_.lt_irrefl _)

theorem Close.mono {k l : Nat} {x y : K} (h : Close q k x y) (hy : 0 ≤ y) (hkl : k ≤ l) : Close q l x y := by
  have hx := h.nonneg hq hy
  have hp := pow_le_pow_right₀ hq hkl
  exact ⟨h.1.trans (mul_le_mul_of_nonneg_left hp hx), h.2.trans (mul_le_mul_of_nonneg_left hp hy)⟩

theorem Close.trans {k l : Nat} {x y z : K} (h1 : Close q k x y) (h2 : Close q l y z) : Close q (k + l) x z := by
  have hk := (pow_pos' hq k).le
  have hl := (pow_pos' hq l).le
  constructor
  · calc z ≤ y * q ^ l := h2.1
      _ ≤ (x * q ^ k) * q ^ l := mul_le_mul_of_nonneg_right h1.1 hl
      _ = x * q ^ (k + l) := by rw [pow_add]; ring
  · calc x ≤ y * q ^ k := h1.2
      _ ≤ (z * q ^ l) * q ^ k := mul_le_mul_of_nonneg_right h2.2 hk
      _ = z * q ^ (k + l) := by rw [pow_add]; ring

omit hq in
theorem Close.add {k : Nat} {a b x y : K} (h1 : Close q k a x) (h2 : Close q k b y) : Close q k (a + b) (x + y) := by
  obtain ⟨h1, h3⟩ := h1
  obtain ⟨h2, h4⟩ := h2
  constructor <;> rw [add_mul] <;> linarith

theorem Close.mul {k l : Nat} {a b x y : K} (h1 : Close q k a x) (h2 : Close q l b y) (hx : 0 ≤ x) (hy : 0 ≤ y) :
    Close q (k + l) (a * b) (x * y) := by
  have ha := h1.nonneg hq hx
  have hb := h2.nonneg hq hy
  have hk := (pow_pos' hq k).le
  constructor
  · calc x * y ≤ (a * q ^ k) * (b * q ^ l) := mul_le_mul h1.1 h2.1 hy (mul_nonneg ha hk)
      _ = a * b * q ^ (k + l) := by rw [pow_add]; ring
  · calc a * b ≤ (x * q ^ k) * (y * q ^ l) := mul_le_mul h1.2 h2.2 hb (mul_nonneg hx hk)
      _ = x * y * q ^ (k + l) := by rw [pow_add]; ring

theorem Close.inv {k : Nat} {a x : K} (h : Close q k a x) (hx : 0 < x) : Close q k a⁻¹ x⁻¹ := by
  have ha := (h.pos_iff hq hx.le).mpr hx
  have hk := pow_pos' hq k
  constructor
  · rw [inv_mul_eq_div, le_div_iff₀ ha, inv_mul_eq_div, div_le_iff₀ hx, mul_comm]; exact h.2
  · rw [inv_mul_eq_div, le_div_iff₀ hx, inv_mul_eq_div, div_le_iff₀ ha, mul_comm]; exact h.1

theorem Close.div {k l : Nat} {a b x y : K} (h1 : Close q k a x) (h2 : Close q l b y) (hx : 0 ≤ x) (hy : 0 < y) :
    Close q (k + l) (a / b) (x / y) := by
  rw [div_eq_mul_inv, div_eq_mul_inv]
  exact h1.mul hq (h2.inv hq hy) hx (inv_pos.mpr hy).le

theorem Close.min {k : Nat} {x y c : K} (h : Close q k x y) (hc : 0 ≤ c) : Close q k (min x c) (min y c) := by
  have hk := one_le_pow' hq k
  have hcc : c ≤ c * q ^ k := le_mul_of_one_le_right hc hk
  unfold Close
  constructor
  · rcases le_total x c with e | e
    · rw [min_eq_left e]; exact (min_le_left _ _).trans h.1
    · rw [min_eq_right e]; exact (min_le_right _ _).trans hcc
  · rcases le_total y c with e | e
    · rw [min_eq_left e]; exact (min_le_left _ _).trans h.2
    · rw [min_eq_right e]; exact (min_le_right _ _).trans hcc

end exact

/-! ### Orders of magnitude -/

section range
variable {K : Type} [Field K] [LinearOrder K] [IsStrictOrderedRing K]

/-- Zero, or between `2^-i` and `2^i`. -/
def Range (i : Nat) (x : K) : Prop := x = 0 ∨ (1 ≤ x * 2 ^ i ∧ x ≤ 2 ^ i)

theorem two_pow_pos' (i : Nat) : (0 : K) < 2 ^ i := pow_pos two_pos i

theorem Range.nonneg {i : Nat} {x : K} (h : Range i x) : 0 ≤ x := by
  rcases h with rfl | ⟨h, _⟩
  · exact le_rfl
  · by_contra hx
    have := mul_neg_of_neg_of_pos (not_le.mp hx) (two_pow_pos' (K := K) i)
    linarith

theorem Range.le {i : Nat} {x : K} (h : Range i x) : x ≤ 2 ^ i := by
  rcases h with rfl | ⟨_, h⟩
  · exact (two_pow_pos' i).le
  · exact h

theorem Range.mono {i j : Nat} {x : K} (h : Range i x) (hij : i ≤ j) : Range j x := by
  have h0 := h.nonneg
  have hp : (2 : K) ^ i ≤ 2 ^ j := pow_le_pow_right₀ one_le_two hij
  rcases h with h | ⟨h1, h2⟩
  · exact Or.inl h
  · exact Or.inr ⟨h1.trans (mul_le_mul_of_nonneg_left hp h0), h2.trans hp⟩

theorem Range.mul {i j : Nat} {x y : K} (hx : Range i x) (hy : Range j y) : Range (i + j) (x * y) := by
  have hx0 := hx.nonneg
  have hy0 := hy.nonneg
  rcases hx with rfl | ⟨h1, h2⟩
  · exact Or.inl (zero_mul _)
  rcases hy with rfl | ⟨h3, h4⟩
  · exact Or.inl (mul_zero _)
  refine Or.inr ⟨?_, ?_⟩
  · calc (1 : K) = 1 * 1 := (one_mul 1).symm
      _ ≤ (x * 2 ^ i) * (y * 2 ^ j) := mul_le_mul h1 h3 zero_le_one (le_trans zero_le_one h1)
      _ = x * y * 2 ^ (i + j) := by rw [pow_add]; ring
  · rw [pow_add]; exact mul_le_mul h2 h4 hy0 (two_pow_pos' i).le

theorem Range.inv {i : Nat} {x : K} (hx : Range i x) : Range i x⁻¹ := by
  rcases hx with rfl | ⟨h1, h2⟩
  · exact Or.inl inv_zero
  have hp := two_pow_pos' (K := K) i
  have h0 : 0 < x := by
    by_contra h
    have := mul_nonpos_of_nonpos_of_nonneg (not_lt.mp h) hp.le
    linarith
  refine Or.inr ⟨?_, ?_⟩
  · rw [inv_mul_eq_div, le_div_iff₀ h0, one_mul]; exact h2
  · rw [inv_le_comm₀ h0 hp, inv_eq_one_div, div_le_iff₀ hp]; exact h1

theorem Range.div {i j : Nat} {x y : K} (hx : Range i x) (hy : Range j y) : Range (i + j) (x / y) := by
  rw [div_eq_mul_inv]; exact hx.mul hy.inv

theorem Range.add {i : Nat} {x y : K} (hx : Range i x) (hy : Range i y) : Range (i + 1) (x + y) := by
  have hx0 := hx.nonneg
  have hy0 := hy.nonneg
  have hxl := hx.le
  have hyl := hy.le
  have hp := two_pow_pos' (K := K) i
  rcases hx with rfl | ⟨h1, h2⟩
  · rw [zero_add]; exact hy.mono (Nat.le_succ _)
  refine Or.inr ⟨?_, ?_⟩
  · rw [add_mul, pow_succ]
    have : 0 ≤ y * (2 ^ i * 2) := mul_nonneg hy0 (by positivity)
    have : x * 2 ^ i * 1 ≤ x * 2 ^ i * 2 := mul_le_mul_of_nonneg_left one_le_two (by positivity)
    linarith
  · rw [pow_succ]; linarith

/-- Bounds of a number that is zero or large enough. -/
theorem Range.of_le {i j k : Nat} {x y : K} (hx : Range i x) (h : x = 0 → y = 0) (hxy : x ≤ y) (hy : y ≤ 2 ^ j)
    (hi : i ≤ k) (hj : j ≤ k) : Range k y := by
  rcases hx with hx | ⟨h1, _⟩
  · exact Or.inl (h hx)
  · refine Or.inr ⟨?_, hy.trans (pow_le_pow_right₀ one_le_two hj)⟩
    have hx0 : 0 ≤ x := Range.nonneg (Or.inr ⟨h1, by assumption⟩)
    calc 1 ≤ x * 2 ^ i := h1
      _ ≤ y * 2 ^ k := mul_le_mul hxy (pow_le_pow_right₀ one_le_two hi) (two_pow_pos' i).le (hx0.trans hxy)

end range

/-! ### Rounded operations -/

section near
variable {R : Type} [Arith R] {K : Type} [Field K] [LinearOrder K] [IsStrictOrderedRing K] (ρ : Rounded R K)

/-- In a wide range around 1, rounding changes a number by at most the factor `q`; 200 years are represented exactly. -/
structure Precise (q : K) : Prop where
  one_le : 1 ≤ q
  rel : ∀ x : K, 1 ≤ x * 2 ^ 1001 → x ≤ 2 ^ 1001 → ∃ y, ρ.rnd (X.fin x) = X.fin y ∧ Close q 1 y x
  cap : ρ.val (capIn R) = X.fin cap

/-- The value stands for a number that differs from `y` by at most the factor `q ^ k`. -/
def Near (q : K) (k : Nat) (a : R) (y : K) : Prop := ∃ x, ρ.val a = X.fin x ∧ Close q k x y

variable {ρ} {q : K} (hp : Precise ρ q)

omit [IsStrictOrderedRing K] in
theorem near_exact {q : K} {a : R} {y : K} (h : ρ.val a = X.fin y) : Near ρ q 0 a y := ⟨y, h, by unfold Close; simp⟩

include hp

theorem Near.mono {k l : Nat} {a : R} {y : K} (h : Near ρ q k a y) (hy : 0 ≤ y) (hkl : k ≤ l) : Near ρ q l a y := by
  obtain ⟨x, h1, h2⟩ := h
  exact ⟨x, h1, h2.mono hp.one_le hy hkl⟩

theorem near_zero (k : Nat) : Near ρ q k (Arith.zero : R) 0 := (near_exact (val_zero' ρ)).mono hp le_rfl (Nat.zero_le k)

/-- Rounding of a number near `y`. -/
theorem near_rnd {k : Nat} (hk : q ^ k ≤ 2) {a : R} {x y : K} (ha : ρ.val a = ρ.rnd (X.fin x)) (h : Close q k x y)
    (hy : Range 1000 y) : Near ρ q (k + 1) a y := by
  have hq := hp.one_le
  have hx := h.nonneg hq hy.nonneg
  rcases hy with rfl | ⟨h1, h2⟩
  · have : x = 0 := (h.zero_iff hq le_rfl).mpr rfl
    subst this
    rw [ρ.rnd_zero] at ha
    exact (near_exact ha).mono hp le_rfl (Nat.zero_le _)
  · have hy0 : 0 ≤ y := Range.nonneg (Or.inr ⟨h1, h2⟩)
    have e : (2 : K) ^ 1001 = 2 ^ 1000 * 2 := pow_succ 2 1000
    obtain ⟨z, hz, hc⟩ := hp.rel x (by
      rw [e]
      calc 1 ≤ y * 2 ^ 1000 := h1
        _ ≤ (x * q ^ k) * 2 ^ 1000 := mul_le_mul_of_nonneg_right h.1 (two_pow_pos' 1000).le
        _ ≤ (x * 2) * 2 ^ 1000 := mul_le_mul_of_nonneg_right (mul_le_mul_of_nonneg_left hk hx) (two_pow_pos' 1000).le
        _ = x * (2 ^ 1000 * 2) := by ring) (by
      rw [e]
      exact h.2.trans (mul_le_mul h2 hk (pow_pos' hq k).le (two_pow_pos' 1000).le))
    refine ⟨z, by rw [ha, hz], ?_⟩
    rw [Nat.add_comm]
    exact hc.trans hq h

theorem near_add {k : Nat} (hk : q ^ k ≤ 2) {a b : R} {x y : K} (ha : Near ρ q k a x) (hb : Near ρ q k b y)
    (h : Range 1000 (x + y)) : Near ρ q (k + 1) (Arith.add a b) (x + y) := by
  obtain ⟨a', ha, hac⟩ := ha
  obtain ⟨b', hb, hbc⟩ := hb
  exact near_rnd hp hk (x := a' + b') (by rw [ρ.add, ha, hb]; rfl) (hac.add hbc) h

theorem near_mul {k l : Nat} (hk : q ^ (k + l) ≤ 2) {a b : R} {x y : K} (ha : Near ρ q k a x) (hb : Near ρ q l b y)
    (hx : 0 ≤ x) (hy : 0 ≤ y) (h : Range 1000 (x * y)) : Near ρ q (k + l + 1) (Arith.mul a b) (x * y) := by
  obtain ⟨a', ha, hac⟩ := ha
  obtain ⟨b', hb, hbc⟩ := hb
  exact near_rnd hp hk (x := a' * b') (by rw [ρ.mul, ha, hb]; rfl) (hac.mul hp.one_le hbc hx hy) h

theorem near_div {k l : Nat} (hk : q ^ (k + l) ≤ 2) {a b : R} {x y : K} (ha : Near ρ q k a x) (hb : Near ρ q l b y)
    (hx : 0 ≤ x) (hy : 0 < y) (h : Range 1000 (x / y)) : Near ρ q (k + l + 1) (Arith.div a b) (x / y) := by
  obtain ⟨a', ha, hac⟩ := ha
  obtain ⟨b', hb, hbc⟩ := hb
  have hb0 : b' ≠ 0 := ((hbc.pos_iff hp.one_le hy.le).mpr hy).ne'
  refine near_rnd hp hk (x := a' / b') ?_ (hac.div hp.one_le hbc hx hy) h
  rw [ρ.div _ _ (by rw [hb]; simpa using hb0), ha, hb]
  simp [X.div, hb0]

theorem near_min {k : Nat} {a : R} {y : K} (h : Near ρ q k a y) : Near ρ q k (Arith.min a (capIn R)) (min y cap) := by
  obtain ⟨x, hx, hc⟩ := h
  have hcap : (0 : K) ≤ cap := by unfold cap; positivity
  refine ⟨min x cap, ?_, hc.min hp.one_le hcap⟩
  unfold Arith.min
  rw [ρ.lt, hp.cap, hx]
  simp only [X.lt, decide_eq_true_eq]
  split
  · rename_i h
    rw [hp.cap, min_eq_right h.le]
  · rename_i h
    rw [hx, min_eq_left (not_lt.mp h)]

/-- A sum, from left to right. -/
theorem near_foldl {k : Nat} {l : List (R × K)} : ∀ {m : Nat} {a : R} {s : K}, k ≤ m → q ^ (m + l.length) ≤ 2 →
    Near ρ q m a s → (∀ p ∈ l, Near ρ q k p.1 p.2 ∧ 0 ≤ p.2) →
    0 ≤ s → (∀ i, i ≤ l.length → Range 1000 (s + ((l.take i).map fun p => p.2).sum)) →
    Near ρ q (m + l.length) ((l.map fun p => p.1).foldl Arith.add a) (s + (l.map fun p => p.2).sum) := by
  induction l with
  | nil => intro m a s _ _ h _ _ _; simpa using h
  | cons p l ih =>
    intro m a s hkm hm h hl hs hr
    obtain ⟨hp1, hp2⟩ := hl p List.mem_cons_self
    have hstep : Near ρ q (m + 1) (Arith.add a p.1) (s + p.2) := by
      refine near_add hp ?_ h (hp1.mono hp hp2 hkm) ?_
      · exact (pow_le_pow_right₀ hp.one_le (by simp)).trans hm
      · have := hr 1 (by simp); simpa using this
    have := ih (m := m + 1) (a := Arith.add a p.1) (s := s + p.2) (by omega)
      (by rw [List.length_cons] at hm; rw [show m + 1 + l.length = m + (l.length + 1) by omega]; exact hm) hstep
      (fun x hx => hl x (List.mem_cons_of_mem _ hx)) (add_nonneg hs hp2) (by
        intro i hi
        have := hr (i + 1) (by simpa using hi)
        simpa [List.take_succ_cons, add_assoc] using this)
    simpa [add_assoc, Nat.add_comm, Nat.add_left_comm] using this

omit hp in
/-- Partial sums have the magnitude of the sum. -/
theorem range_partial {i j k : Nat} {l : List K} (hl : ∀ x ∈ l, Range i x) (hs : l.sum ≤ 2 ^ j) (hi : i ≤ k) (hj : j ≤ k)
    (t : Nat) : Range k ((l.take t).sum) := by
  have h0 : ∀ x ∈ l, 0 ≤ x := fun x hx => (hl x hx).nonneg
  have hle : (l.take t).sum ≤ l.sum := by
    have e : (l.take t).sum + (l.drop t).sum = l.sum := by rw [← List.sum_append, List.take_append_drop]
    have : 0 ≤ (l.drop t).sum := List.sum_nonneg fun x hx => h0 x (List.mem_of_mem_drop hx)
    linarith
  have hall : ∀ x ∈ l.take t, Range i x := fun x hx => hl x (List.mem_of_mem_take hx)
  generalize l.take t = l' at hle hall
  have hup : l'.sum ≤ 2 ^ j := hle.trans hs
  clear hle hs h0 hl
  by_cases hz : ∀ x ∈ l', x = 0
  · exact Or.inl (List.sum_eq_zero hz)
  · push Not at hz
    obtain ⟨x, hx, hne⟩ := hz
    have hxs : x ≤ l'.sum := List.single_le_sum (fun y hy => (hall y hy).nonneg) x hx
    exact Range.of_le (hall x hx) (fun e => absurd e hne) hxs hup hi hj

end near
end Verif.Rounding
