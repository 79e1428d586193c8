/-
Balance of tracers when the solver returns, in arithmetic with rounding.
-/
import Verif.Proofs.SlackCell
import Verif.Proofs.AccuracySolve

namespace Verif.Rounding
open Finset Verif.Spec Verif.Solver Verif.Toolbox Verif.Tarjan

variable {R : Type} [Arith R] {K : Type} [Field K] [LinearOrder K] [IsStrictOrderedRing K] {ρ : Rounded R K} {q : K}

/-- The number that a stored value stands for; 0 if there is none. -/
def numOf (ρ : Rounded R K) : Option R → K
  | some a => match ρ.val a with
    | X.fin x => x
    | _ => 0
  | none => 0

omit [IsStrictOrderedRing K] in
theorem numOf_some {a : R} {x : K} (h : ρ.val a = X.fin x) : numOf ρ (some a) = x := by
  simp only [numOf, h]

/-- Proper fields of `n` values. -/
structure Ready (ρ : Rounded R K) (n : Nat) (s : List R × List R) : Prop where
  proper : Proper ρ s
  tofLen : s.1.length = n
  tracerLen : s.2.length = n

omit [IsStrictOrderedRing K] in
theorem Ready.at {n : Nat} {s : List R × List R} (h : Ready ρ n s) {u : Nat} (hu : u < n) :
    ∃ t c, s.1[u]? = some t ∧ s.2[u]? = some c ∧ ρ.val c = X.fin (numOf ρ s.2[u]?) ∧ 0 ≤ numOf ρ s.2[u]? ∧
      numOf ρ s.2[u]? ≤ 1 := by
  have h1 : s.1[u]? = some (s.1[u]'(by rw [h.tofLen]; exact hu)) := List.getElem?_eq_getElem _
  have h2 : s.2[u]? = some (s.2[u]'(by rw [h.tracerLen]; exact hu)) := List.getElem?_eq_getElem _
  generalize s.1[u]'(by rw [h.tofLen]; exact hu) = t at h1
  generalize s.2[u]'(by rw [h.tracerLen]; exact hu) = c at h2
  have hm := List.mem_of_getElem? h2
  obtain ⟨x, hx⟩ := h.proper.fin c hm
  have h3 := h.proper.bounded.nonneg c hm
  have h4 := h.proper.bounded.le_one c hm
  rw [notNegative_iff ρ, hx] at h3
  rw [ρ.lt, val_one ρ, hx] at h4
  have e : numOf ρ s.2[u]? = x := by rw [h2, numOf_some hx]
  refine ⟨t, c, h1, h2, by rw [e]; exact hx, ?_, ?_⟩
  · rw [e]; simpa [X.lt] using h3
  · rw [e]; simpa [X.lt] using h4

section
variable (hp : Precise ρ q)
include hp

theorem tol_val : ∃ t, ρ.val (tracerTol : R) = X.fin t ∧ Close q 1 t (1 / 1000000000 : K) := by
  obtain ⟨t, h1, h2⟩ := hp.rel (1 / 1000000000) (by
    have h1 : (1000000000 : K) ≤ 2 ^ 1001 := by
      have h2 : (1000000000 : K) ≤ 2 ^ 30 := by norm_num
      exact h2.trans (pow_le_pow_right₀ one_le_two (by norm_num))
    rw [one_div_mul_eq_div, le_div_iff₀ (by norm_num), one_mul]; exact h1) (by
    have h1 : (1 / 1000000000 : K) ≤ 1 := by norm_num
    exact h1.trans (one_le_pow₀ one_le_two))
  refine ⟨t, ?_, h2⟩
  unfold tracerTol
  rw [ρ.lit, ← h1]
  norm_num

/-- The first sweep takes place. -/
theorem huge_tol (hq2 : q ≤ 2) : Arith.lt (tracerTol : R) huge = true := by
  obtain ⟨t, h1, h2⟩ := tol_val hp
  obtain ⟨y, h3, h4⟩ := hp.rel (10 ^ 100) (by
    have h1 : (1 : K) ≤ 10 ^ 100 := one_le_pow₀ (by norm_num)
    have h2 : (1 : K) ≤ 2 ^ 1001 := one_le_pow₀ one_le_two
    calc (1 : K) = 1 * 1 := (one_mul 1).symm
      _ ≤ _ := mul_le_mul h1 h2 zero_le_one (by positivity)) (by
    have h1 : (10 : K) ^ 100 ≤ 2 ^ 400 := by
      rw [show (400 : ℕ) = 4 * 100 by norm_num, pow_mul]
      exact pow_le_pow_left₀ (by norm_num) (by norm_num) 100
    exact h1.trans (pow_le_pow_right₀ one_le_two (by norm_num)))
  have e : ρ.val (huge : R) = X.fin y := by
    unfold huge
    rw [ρ.lit, ← h3]
    norm_num
  rw [ρ.lt, h1, e]
  simp only [X.lt, decide_eq_true_eq]
  have h5 := h2.2
  have h6 := h4.1
  rw [pow_one] at h5 h6
  have h7 : (1 / 1000000000 : K) * q ≤ 1 / 1000000000 * 2 := mul_le_mul_of_nonneg_left hq2 (by norm_num)
  have h8 : (10 : K) ≤ 10 ^ 100 := le_self_pow₀ (by norm_num) (by norm_num)
  have hy0 : 0 ≤ y := h4.nonneg hp.one_le (by positivity)
  have h9 : y * q ≤ y * 2 := mul_le_mul_of_nonneg_left hq2 hy0
  generalize (10 : K) ^ 100 = T at *
  linarith

/-- A change that the solver takes for slight is slight. -/
theorem slight_le (hodd : ∀ x : K, ρ.rnd (X.fin (-x)) = X.neg (ρ.rnd (X.fin x))) (hq2 : q ≤ 2) {b b' : R} {x y : K}
    (hb : ρ.val b = X.fin x) (hb' : ρ.val b' = X.fin y) (hx0 : 0 ≤ x) (hx1 : x ≤ 1) (hy0 : 0 ≤ y) (hy1 : y ≤ 1)
    (h : Arith.lt tracerTol (tracerChange b b') = false) : |y - x| ≤ (1 / 1000000000 * q + tiny K) * q := by
  have hq := hp.one_le
  obtain ⟨t, ht, htc⟩ := tol_val hp
  have ht1 := htc.2
  rw [pow_one] at ht1
  have ht2 : (1 / 1000000000 : K) * q ≤ 1 / 1000000000 * 2 := mul_le_mul_of_nonneg_left hq2 (by norm_num)
  unfold tracerChange at h
  split at h
  · rw [ρ.lt, ht, val_one ρ] at h
    simp only [X.lt, decide_eq_false_iff_not, not_lt] at h
    exfalso
    linarith
  · rw [ρ.lt, ht, ρ.fabs, ρ.sub, hb, hb'] at h
    have hle : |y - x| ≤ 2 ^ 1001 := by
      have h1 : |y - x| ≤ 1 := by rw [abs_le]; constructor <;> linarith
      exact h1.trans (one_le_pow₀ one_le_two)
    obtain ⟨r, hr, hr0, hoff⟩ := off_rnd hp (abs_nonneg (y - x)) hle
    have hrt : r ≤ t := by
      rcases le_total 0 (y - x) with h0 | h0
      · rw [abs_of_nonneg h0] at hr
        simp only [X.sub, X.add, X.neg, ← sub_eq_add_neg] at h
        rw [hr] at h
        simpa [X.fabs, X.lt, not_lt.mpr hr0] using h
      · rw [abs_of_nonpos h0] at hr
        simp only [X.sub, X.add, X.neg, ← sub_eq_add_neg] at h
        have : ρ.rnd (X.fin (y - x)) = X.fin (-r) := by
          rw [← neg_neg (y - x), hodd, hr]; rfl
        rw [this] at h
        simp only [X.fabs, X.lt, neg_lt_zero, decide_eq_false_iff_not, not_lt] at h
        split at h
        · simpa using h
        · have : r = 0 := le_antisymm (not_lt.mp (by assumption)) hr0
          simpa [this] using h
    have h3 := hoff.1
    rw [pow_one] at h3
    refine h3.trans (mul_le_mul_of_nonneg_right ?_ (by linarith))
    linarith

/-- The balance of a cell in the final state. -/
theorem settled_balance (hodd : ∀ x : K, ρ.rnd (X.fin (-x)) = X.neg (ρ.rnd (X.fin x))) {d : SolverData R} {F : Flow K} {M : Nat}
    (hA : Approx ρ q d F M) (hF : F.Valid) (hq2 : q ^ (4 * M + 4) ≤ 2) (hM : (M : K) + 1 ≤ 2 ^ 100) {v : Nat} (hv : v < F.n)
    (hm : Sized F v) {inj : K} (hinj0 : 0 ≤ inj) (hinj : inj ≤ F.src v) {isStart : List Bool} {ls : List R} {b : Bool}
    (hb : isStart[v]? = some b) (hb0 : b = false → inj = 0)
    (hb1 : b = true → 0 < F.src v ∧ ∃ a, ls[v]? = some a ∧ Near ρ q M a inj) {E : Nat → Nat → Prop}
    (hE : ∀ u, F.Edge u v → E u v) {z s : List R × List R} {C : List Nat} (hs : Ready ρ F.n s)
    (h : Settled d isStart ls (Ready ρ F.n) E z C s v) (hC : ∀ u ∈ C, F.SameCycle u v) (hloop : C = [v] → ¬ F.Edge v v) :
    |(∑ u ∈ range F.n, numOf ρ s.2[u]? * F.w u v) + inj - F.total v * numOf ρ s.2[v]?|
      ≤ (1 / 1000000000 * q + tiny K) * q * F.cycleInflow v + (q ^ (4 * M + 4) - 1 + 2 * slack K) * F.total v := by
  classical
  have hq := hp.one_le
  have hq1 : q ≤ 2 := by
    have : q ^ 1 ≤ q ^ (4 * M + 4) := pow_le_pow_right₀ hq (by omega)
    rw [pow_one] at this
    exact this.trans hq2
  obtain ⟨t, p, ht, hp', hsv, hout, hin⟩ := h
  have hlen := fun u (hu : u < F.n) => ht.at hu
  have hw0 : ∀ u < F.n, 0 ≤ F.w u v := fun u hu => hF.w_nonneg u v hu hv
  -- the visit
  obtain ⟨x, hx, hx0, hz, hpos⟩ := cell_conc hp hA hq2 hM hv hm hinj0 hinj hb hb0 hb1 (s := t)
    (T := fun u => (t.1[u]?).getD Arith.zero) (C := fun u => (t.2[u]?).getD Arith.zero) (by
      intro u hu
      obtain ⟨a, c, h1, h2, _⟩ := hlen u hu.1
      rw [h1, h2]; simp) (c := fun u => numOf ρ t.2[u]?) (by
      intro u hu
      obtain ⟨a, c, h1, h2, h3, h4, h5⟩ := hlen u hu.1
      refine ⟨?_, h4, h5⟩
      rw [← h3, h2]; rfl) hp'
  have hxs : numOf ρ s.2[v]? = x := by
    have : s.2[v]? = some p.2 := by
      have := congrArg Prod.snd hsv; exact this
    rw [this, numOf_some hx]
  have hx1 : x ≤ 1 := by
    obtain ⟨_, _, _, _, _, _, h5⟩ := hs.at hv
    rwa [hxs] at h5
  -- the change since the visit
  have hchg : ∀ u < F.n, |numOf ρ s.2[u]? * F.w u v - numOf ρ t.2[u]? * F.w u v|
      ≤ (1 / 1000000000 * q + tiny K) * q * (if F.SameCycle u v then F.w u v else 0) := by
    intro u hu
    have hδ : 0 ≤ (1 / 1000000000 * q + tiny K) * q := by
      have := tiny_pos (K := K)
      have : 0 ≤ (1 / 1000000000 : K) * q := mul_nonneg (by norm_num) (by linarith)
      exact mul_nonneg (by linarith) (by linarith)
    have hzero : numOf ρ s.2[u]? = numOf ρ t.2[u]? → |numOf ρ s.2[u]? * F.w u v - numOf ρ t.2[u]? * F.w u v|
        ≤ (1 / 1000000000 * q + tiny K) * q * (if F.SameCycle u v then F.w u v else 0) := by
      intro e
      rw [e, sub_self, abs_zero]
      refine mul_nonneg hδ ?_
      split
      · exact hw0 u hu
      · exact le_rfl
    by_cases hw : 0 < F.w u v
    swap
    · have e : F.w u v = 0 := le_antisymm (not_lt.mp hw) (hw0 u hu)
      rw [e]; simp
    have hedge : F.Edge u v := ⟨hu, hv, hw⟩
    by_cases huC : u ∈ C
    swap
    · exact hzero (by rw [show t.2[u]? = s.2[u]? from congrArg Prod.snd (hout u (hE u hedge) huC)])
    rcases hin with ⟨hC1, _⟩ | ⟨_, hin⟩
    · have e : u = v := by rw [hC1] at huC; simpa using huC
      rw [e] at hedge
      exact absurd hedge (hloop hC1)
    rcases hin u huC with e | ⟨a, c, a', c', e1, e2, _, e3⟩
    · exact hzero (by rw [show t.2[u]? = s.2[u]? from congrArg Prod.snd e])
    · rw [if_pos (hC u huC), ← sub_mul, abs_mul, abs_of_pos hw]
      refine mul_le_mul_of_nonneg_right ?_ hw.le
      have e1 : t.2[u]? = some c := congrArg Prod.snd e1
      have e2 : s.2[u]? = some c' := congrArg Prod.snd e2
      obtain ⟨_, _, _, k1, k2, k3, k4⟩ := ht.at hu
      obtain ⟨_, _, _, j1, j2, j3, j4⟩ := hs.at hu
      rw [e1] at k1; cases k1
      rw [e2] at j1; cases j1
      exact slight_le hp hodd hq1 k2 j2 k3 k4 j3 j4 e3
  have hsum : |(∑ u ∈ range F.n, numOf ρ s.2[u]? * F.w u v) - ∑ u ∈ range F.n, numOf ρ t.2[u]? * F.w u v|
      ≤ (1 / 1000000000 * q + tiny K) * q * F.cycleInflow v := by
    rw [← sum_sub_distrib]
    refine (abs_sum_le_sum_abs _ _).trans ?_
    unfold Flow.cycleInflow
    rw [mul_sum]
    exact sum_le_sum fun u hu => hchg u (mem_range.mp hu)
  -- the mixture
  have hmix : |(∑ u ∈ range F.n, numOf ρ t.2[u]? * F.w u v) + inj - F.total v * x|
      ≤ (q ^ (4 * M + 4) - 1 + 2 * slack K) * F.total v := by
    rcases hm.total.nonneg.eq_or_lt with h0 | h0
    · have hin0 : 0 ≤ F.inflow v := sum_nonneg fun u hu => hw0 u (mem_range.mp hu)
      have hs0 := hF.src_nonneg v hv
      have ht : F.total v = F.inflow v + F.src v := rfl
      have hi : F.inflow v = 0 := by linarith
      have hj : inj = 0 := by linarith
      have hw : ∀ u ∈ range F.n, F.w u v = 0 := (sum_eq_zero_iff_of_nonneg fun u hu => hw0 u (mem_range.mp hu)).mp hi
      rw [sum_eq_zero fun u hu => by rw [hw u hu, mul_zero], hj, ← h0]
      simp
    · obtain ⟨g0, g1, g2⟩ := hpos h0
      have := g2.abs hq hq2 hx0 hx1 (div_nonneg g0 h0.le) (by rw [_root_.div_le_one h0]; exact g1) slack_pos.le
      have e : (∑ u ∈ range F.n, numOf ρ t.2[u]? * F.w u v) + inj - F.total v * x
          = -((x - ((∑ u ∈ range F.n, numOf ρ t.2[u]? * F.w u v) + inj) / F.total v) * F.total v) := by
        rw [sub_mul, div_mul_cancel₀ _ h0.ne']; ring
      rw [e, abs_neg, abs_mul, abs_of_pos h0]
      exact mul_le_mul_of_nonneg_right this h0.le
  rw [hxs]
  have e : (∑ u ∈ range F.n, numOf ρ s.2[u]? * F.w u v) + inj - F.total v * x
      = ((∑ u ∈ range F.n, numOf ρ s.2[u]? * F.w u v) - ∑ u ∈ range F.n, numOf ρ t.2[u]? * F.w u v)
        + ((∑ u ∈ range F.n, numOf ρ t.2[u]? * F.w u v) + inj - F.total v * x) := by ring
  rw [e]
  exact (abs_add_le _ _).trans (add_le_add hsum hmix)

end
end Verif.Rounding
