/-
Balance of times of flight when the solver returns, in arithmetic with rounding.
-/
import Verif.Proofs.SlackTime

namespace Verif.Rounding
open Finset Verif.Spec Verif.Solver Verif.Toolbox Verif.Tarjan

variable {R : Type} [Arith R] {K : Type} [Field K] [LinearOrder K] [IsStrictOrderedRing K] {ρ : Rounded R K} {q : K}
variable (hp : Precise ρ q)
include hp

theorem tofTol_val (hq2 : q ^ 2 ≤ 2) : ∃ t, ρ.val (tofTol : R) = X.fin t ∧ Close q 2 t (cap / 1000000000000 : K) := by
  have hq := hp.one_le
  have hcap0 : (0 : K) < cap := by unfold cap; positivity
  have hcapr : Range 40 (cap : K) := by right; unfold cap; constructor <;> norm_num
  have h12 : Range 40 (1000000000000 : K) := by right; constructor <;> norm_num
  have hl : Near ρ q 1 (Arith.lit 1000000000000 : R) (1000000000000 : K) := by
    obtain ⟨t, h1, h2⟩ := hp.rel 1000000000000 (by
      have h1 : (1 : K) ≤ 2 ^ 1001 := one_le_pow₀ one_le_two
      calc (1 : K) = 1 * 1 := (one_mul 1).symm
        _ ≤ _ := mul_le_mul (by norm_num) h1 zero_le_one (by norm_num)) (by
      have h1 : (1000000000000 : K) ≤ 2 ^ 40 := by norm_num
      exact h1.trans (pow_le_pow_right₀ one_le_two (by norm_num)))
    refine ⟨t, ?_, h2⟩
    rw [ρ.lit, ← h1]
    norm_num
  have hcap : Near ρ q 0 (maxTof : R) cap := near_exact hp.cap
  have := near_div hp ((pow_le_pow_right₀ hq (by norm_num)).trans hq2) hcap hl hcap0.le (by norm_num : (0 : K) < 1000000000000)
    ((hcapr.div h12).mono (by omega))
  exact this

/-- How far apart times of flight are that the solver takes for equal. -/
def timeTol (K : Type) [Field K] (q : K) : K := (cap / 1000000000000 * q ^ 2 + tiny K) * q

omit hp in
theorem timeTol_nonneg (hq : 1 ≤ q) : 0 ≤ timeTol K q := by
  have hcap0 : (0 : K) < cap := by unfold cap; positivity
  have := tiny_pos (K := K)
  have hq0 : 0 ≤ q := by linarith
  unfold timeTol
  exact mul_nonneg (add_nonneg (mul_nonneg (by positivity) (pow_nonneg hq0 2)) this.le) hq0

omit hp in
theorem timeTol_le (hq : 1 ≤ q) (hq2 : q ^ 3 ≤ 2) : timeTol K q ≤ 1 := by
  have h1 : q ≤ 2 := by
    have : q ^ 1 ≤ q ^ 3 := pow_le_pow_right₀ hq (by norm_num)
    rw [pow_one] at this; exact this.trans hq2
  have h2 : tiny K ≤ 1 / 8 := by
    unfold tiny
    exact one_div_le_one_div_of_le (by norm_num) (by
      have : (8 : K) = 2 ^ 3 := by norm_num
      rw [this]; exact pow_le_pow_right₀ one_le_two (by norm_num))
  have ht := tiny_pos (K := K)
  unfold timeTol cap
  have e : (200 * 365 * 24 * 60 * 60 / 1000000000000 * q ^ 2 + tiny K) * q
      = 200 * 365 * 24 * 60 * 60 / 1000000000000 * q ^ 3 + tiny K * q := by ring
  rw [e]
  have h3 : tiny K * q ≤ 1 / 8 * 2 := mul_le_mul h2 h1 (by linarith) (by norm_num)
  have h4 : (200 * 365 * 24 * 60 * 60 / 1000000000000 : K) * q ^ 3 ≤ 200 * 365 * 24 * 60 * 60 / 1000000000000 * 2 :=
    mul_le_mul_of_nonneg_left hq2 (by norm_num)
  have h5 : (200 * 365 * 24 * 60 * 60 / 1000000000000 * 2 : K) ≤ 1 / 2 := by norm_num
  linarith

/-- A change of the time of flight that the solver takes for slight is slight. -/
theorem slight_time (hodd : ∀ x : K, ρ.rnd (X.fin (-x)) = X.neg (ρ.rnd (X.fin x))) (hq2 : q ^ 3 ≤ 2) {b b' : R} {y : K}
    (hbn : NotNegative b) (hbv : Num ρ b) (hb' : ρ.val b' = X.fin y) (hinf : ρ.rnd X.ninf = X.ninf)
    (h : Arith.lt tofTol (Arith.fabs (Arith.sub b' b)) = false) :
    ∃ x, ρ.val b = X.fin x ∧ 0 ≤ x ∧ |y - x| ≤ timeTol K q := by
  have hq := hp.one_le
  have hq0 : 0 < q := by linarith
  obtain ⟨t, ht, htc⟩ := tofTol_val hp ((pow_le_pow_right₀ hq (by norm_num)).trans hq2)
  have ht1 := htc.2
  rw [ρ.lt, ht, ρ.fabs, ρ.sub, hb'] at h
  rw [notNegative_iff ρ] at hbn
  unfold Num at hbv
  cases hb : ρ.val b with
  | nan => exact absurd hb hbv
  | ninf => rw [hb] at hbn; simp [X.lt] at hbn
  | pinf =>
    rw [hb] at h
    simp [X.sub, X.add, X.neg, hinf, X.fabs, X.lt] at h
  | fin x =>
    rw [hb] at h hbn
    have hx0 : 0 ≤ x := by simpa [X.lt] using hbn
    refine ⟨x, rfl, hx0, ?_⟩
    -- the rounded difference
    have key : ∀ r, ρ.rnd (X.fin |y - x|) = r → X.lt (X.fin t) r = false := by
      intro r hr
      rcases le_total 0 (y - x) with h0 | h0
      · rw [abs_of_nonneg h0] at hr
        simp only [X.sub, X.add, X.neg, ← sub_eq_add_neg] at h
        rw [hr] at h
        cases r with
        | fin r =>
          have hr0 : 0 ≤ r := by
            have hm := ρ.rnd_mono (X.fin 0) (X.fin (y - x)) (X.le_iff.mpr ⟨by simpa [X.lt] using h0, by simp, by simp⟩)
            rw [ρ.rnd_zero, hr, X.le_iff] at hm
            simpa [X.lt] using hm.1
          simpa [X.fabs, X.lt, not_lt.mpr hr0] using h
        | pinf => simp [X.fabs, X.lt] at h
        | ninf => simp [X.lt]
        | nan => simp [X.lt]
      · rw [abs_of_nonpos h0] at hr
        simp only [X.sub, X.add, X.neg, ← sub_eq_add_neg] at h
        have : ρ.rnd (X.fin (y - x)) = X.neg r := by
          rw [← neg_neg (y - x), hodd, hr]
        rw [this] at h
        cases r with
        | fin r =>
          have hr0 : 0 ≤ r := by
            have hm := ρ.rnd_mono (X.fin 0) (X.fin (-(y - x))) (X.le_iff.mpr ⟨by simp only [X.lt, decide_eq_false_iff_not, not_lt]; linarith, by simp, by simp⟩)
            rw [ρ.rnd_zero, hr, X.le_iff] at hm
            simpa [X.lt] using hm.1
          simp only [X.neg, X.fabs, X.lt, neg_lt_zero, decide_eq_false_iff_not, not_lt] at h ⊢
          split at h
          · simpa using h
          · have : r = 0 := le_antisymm (not_lt.mp (by assumption)) hr0
            simpa [this] using h
        | pinf => simp [X.neg, X.fabs, X.lt] at h
        | ninf => simp [X.lt]
        | nan => simp [X.lt]
    by_cases hbig : |y - x| ≤ 1
    · obtain ⟨r, hr, hr0, hoff⟩ := off_rnd hp (abs_nonneg (y - x)) (hbig.trans (one_le_pow₀ one_le_two))
      have := key _ hr
      have hrt : r ≤ t := by simpa [X.lt] using this
      have h3 := hoff.1
      rw [pow_one] at h3
      unfold timeTol
      refine h3.trans (mul_le_mul_of_nonneg_right ?_ hq0.le)
      linarith
    · exfalso
      rw [not_le] at hbig
      have hm := ρ.rnd_mono (X.fin 1) (X.fin |y - x|) (X.le_iff.mpr ⟨by simpa [X.lt] using hbig.le, by simp, by simp⟩)
      rw [ρ.rnd_one, X.le_iff] at hm
      have hk := key _ rfl
      have ht2 : t < 1 := by
        have h3 := timeTol_le hq hq2
        unfold timeTol at h3
        have h5 := tiny_pos (K := K)
        have h4 : cap / 1000000000000 * q ^ 2 + tiny K ≤ (cap / 1000000000000 * q ^ 2 + tiny K) * q := by
          have hcap0 : (0 : K) < cap := by unfold cap; positivity
          exact le_mul_of_one_le_right (add_nonneg (mul_nonneg (by positivity) (pow_nonneg hq0.le 2)) h5.le) hq
        linarith
      cases hr : ρ.rnd (X.fin |y - x|) with
      | fin r =>
        rw [hr] at hm hk
        have h1 : 1 ≤ r := by simpa [X.lt] using hm.1
        have h2 : r ≤ t := by simpa [X.lt] using hk
        linarith
      | pinf => rw [hr] at hk; simp [X.lt] at hk
      | ninf => rw [hr] at hm; simp [X.lt] at hm
      | nan => rw [hr] at hm; simp [X.lt] at hm

/-- Fields of `n` values, with times of flight that are numbers. -/
def Clocked (ρ : Rounded R K) (n : Nat) (s : List R × List R) : Prop := Ready ρ n s ∧ Sound ρ s

/-- The balance of the time of flight of a cell in the final state. -/
theorem settled_time (hodd : ∀ x : K, ρ.rnd (X.fin (-x)) = X.neg (ρ.rnd (X.fin x))) (hinf : ρ.rnd X.ninf = X.ninf)
    {d : SolverData R} {F : Flow K} {M : Nat}
    (hA : Approx ρ q d F M) (hF : F.Valid) (hq2 : q ^ (4 * M + 6) ≤ 2) (hM : (M : K) + 1 ≤ 2 ^ 100) {v : Nat} (hv : v < F.n)
    (hm : Sized F v) {isStart : List Bool} {ls : List R} {b : Bool}
    (hb : isStart[v]? = some b) (hb1 : b = true → 0 < F.src v) {E : Nat → Nat → Prop}
    (hE : ∀ u, F.Edge u v → E u v) {z s : List R × List R} {C : List Nat} (hs : Clocked ρ F.n s)
    (h : Settled d isStart ls (Clocked ρ F.n) E z C s v) (hC : ∀ u ∈ C, F.SameCycle u v) (hloop : C = [v] → ¬ F.Edge v v)
    {a : K} (ha : a < cap)
    (hta : ∀ u, F.Edge u v ∨ u = v → ∃ A, s.1[u]? = some A ∧ ρ.val A = X.fin (numOf ρ s.1[u]?) ∧ 0 ≤ numOf ρ s.1[u]? ∧
      numOf ρ s.1[u]? ≤ a)
    (hx : 1 ≤ numOf ρ s.2[v]? * 2 ^ 300) :
    |F.pv v * numOf ρ s.2[v]? + (∑ u ∈ range F.n, numOf ρ s.1[u]? * numOf ρ s.2[u]? * F.w u v)
        - F.total v * (numOf ρ s.1[v]? * numOf ρ s.2[v]?)|
      ≤ (a * ((1 / 1000000000 * q + tiny K) * q) + timeTol K q) * F.cycleInflow v
        + (a * (q ^ (4 * M + 6) - 1) + 2 * timeSlack K) * F.total v := by
  classical
  have hq := hp.one_le
  have hq3 : q ^ 3 ≤ 2 := (pow_le_pow_right₀ hq (by omega)).trans hq2
  have hq1 : q ≤ 2 := by
    have : q ^ 1 ≤ q ^ (4 * M + 6) := pow_le_pow_right₀ hq (by omega)
    rw [pow_one] at this
    exact this.trans hq2
  have hcap40 : (cap : K) + 1 ≤ 2 ^ 40 := by unfold cap; norm_num
  obtain ⟨t, p, ht, hp', hsv, hout, hin⟩ := h
  have hw0 : ∀ u < F.n, 0 ≤ F.w u v := fun u hu => hF.w_nonneg u v hu hv
  obtain ⟨Av, hAv, hAvv, hyv0, hyva⟩ := hta v (Or.inr rfl)
  have ha0 : 0 ≤ a := hyv0.trans hyva
  have hδc : 0 ≤ (1 / 1000000000 * q + tiny K) * q := by
    have := tiny_pos (K := K)
    have : 0 ≤ (1 / 1000000000 : K) * q := mul_nonneg (by norm_num) (by linarith)
    exact mul_nonneg (by linarith) (by linarith)
  have hδt := timeTol_nonneg (K := K) hq
  have hsv1 : s.1[v]? = some p.1 := congrArg Prod.fst hsv
  have hsv2 : s.2[v]? = some p.2 := congrArg Prod.snd hsv
  -- what was known of the cells upstream at the time of the visit
  have hold : ∀ u, F.Edge u v → ρ.val ((t.1[u]?).getD Arith.zero) = X.fin (numOf ρ t.1[u]?) ∧ 0 ≤ numOf ρ t.1[u]? ∧
      |numOf ρ s.1[u]? - numOf ρ t.1[u]?| ≤ timeTol K q ∧
      |numOf ρ s.2[u]? - numOf ρ t.2[u]?| ≤ (1 / 1000000000 * q + tiny K) * q ∧
      (u ∉ C → numOf ρ s.1[u]? = numOf ρ t.1[u]? ∧ numOf ρ s.2[u]? = numOf ρ t.2[u]?) := by
    intro u hedge
    obtain ⟨A, hA1, hA2, hA3, _⟩ := hta u (Or.inl hedge)
    have hsame : cellAt t u = cellAt s u → ρ.val ((t.1[u]?).getD Arith.zero) = X.fin (numOf ρ t.1[u]?) ∧ 0 ≤ numOf ρ t.1[u]? ∧
        |numOf ρ s.1[u]? - numOf ρ t.1[u]?| ≤ timeTol K q ∧
        |numOf ρ s.2[u]? - numOf ρ t.2[u]?| ≤ (1 / 1000000000 * q + tiny K) * q ∧
        (u ∉ C → numOf ρ s.1[u]? = numOf ρ t.1[u]? ∧ numOf ρ s.2[u]? = numOf ρ t.2[u]?) := by
      intro e
      have e1 : t.1[u]? = s.1[u]? := congrArg Prod.fst e
      have e2 : t.2[u]? = s.2[u]? := congrArg Prod.snd e
      rw [e1, e2]
      refine ⟨?_, hA3, by simpa using hδt, by simpa using hδc, fun _ => ⟨rfl, rfl⟩⟩
      rw [hA1] at hA2 ⊢
      exact hA2
    by_cases huC : u ∈ C
    swap
    · exact hsame (hout u (hE u hedge) huC)
    rcases hin with ⟨hC1, _⟩ | ⟨_, hin⟩
    · have e : u = v := by rw [hC1] at huC; simpa using huC
      rw [e] at hedge
      exact absurd hedge (hloop hC1)
    rcases hin u huC with e | ⟨a1, c, a', c', e1, e2, e4, e3⟩
    · exact hsame e
    · have f1 : t.1[u]? = some a1 := congrArg Prod.fst e1
      have f2 : s.1[u]? = some a' := congrArg Prod.fst e2
      have g1 : t.2[u]? = some c := congrArg Prod.snd e1
      have g2 : s.2[u]? = some c' := congrArg Prod.snd e2
      rw [f2] at hA1; cases hA1
      have hn := ht.1.proper.bounded.tof a1 (List.mem_of_getElem? f1)
      have hnum := (ht.2.2.1 u a1 c f1 g1).1
      obtain ⟨x, x1, x2, x3⟩ := slight_time hp hodd hq3 hn hnum hA2 hinf e4
      have ex : numOf ρ t.1[u]? = x := by rw [f1, numOf_some x1]
      obtain ⟨_, _, _, k1, k2, k3, k4⟩ := ht.1.at hedge.1
      obtain ⟨_, _, _, j1, j2, j3, j4⟩ := hs.1.at hedge.1
      rw [g1] at k1; cases k1
      rw [g2] at j1; cases j1
      refine ⟨?_, by rw [ex]; exact x2, by rw [ex]; exact x3, slight_le hp hodd hq1 k2 j2 k3 k4 j3 j4 e3, fun hn => absurd huC hn⟩
      rw [ex, f1]; exact x1
  -- the visit
  have hpx : ρ.val p.2 = X.fin (numOf ρ s.2[v]?) ∧ numOf ρ s.2[v]? ≤ 1 ∧ 0 ≤ numOf ρ s.2[v]? := by
    obtain ⟨_, c, _, h1, h2, h3, h4⟩ := hs.1.at hv
    rw [hsv2] at h1; cases h1
    exact ⟨h2, h4, h3⟩
  have hpy : ρ.val p.1 = X.fin (numOf ρ s.1[v]?) := by
    rw [hsv1] at hAv; cases hAv
    exact hAvv
  obtain ⟨htp, _, hvisit⟩ := cell_time hp hA hq2 hM hv hm hb hb1 (s := t)
    (T := fun u => (t.1[u]?).getD Arith.zero) (C := fun u => (t.2[u]?).getD Arith.zero) (by
      intro u hu
      obtain ⟨a, c, h1, h2, _⟩ := ht.1.at hu.1
      rw [h1, h2]; simp) (c := fun u => numOf ρ t.2[u]?) (τ := fun u => numOf ρ t.1[u]?) (by
      intro u hu
      obtain ⟨a, c, h1, h2, h3, h4, h5⟩ := ht.1.at hu.1
      refine ⟨?_, h4, h5⟩
      rw [← h3, h2]; rfl) (by
      intro u hu
      obtain ⟨h1, h2, h3, _⟩ := hold u hu
      refine ⟨h1, h2, ?_⟩
      obtain ⟨_, _, _, _, h4⟩ := hta u (Or.inl hu)
      have h5 := timeTol_le hq hq3
      have h6 := (abs_le.mp h3).1
      linarith) hp' hpx.1 hpx.2.1 hx hpy (hyva.trans_lt ha)
  set x := numOf ρ s.2[v]? with hxd
  set y := numOf ρ s.1[v]? with hyd
  -- the change since the visit
  have hchg : ∀ u < F.n, |numOf ρ s.1[u]? * numOf ρ s.2[u]? * F.w u v - numOf ρ t.1[u]? * numOf ρ t.2[u]? * F.w u v|
      ≤ (a * ((1 / 1000000000 * q + tiny K) * q) + timeTol K q) * (if F.SameCycle u v then F.w u v else 0) := by
    intro u hu
    by_cases hw : 0 < F.w u v
    swap
    · have e : F.w u v = 0 := le_antisymm (not_lt.mp hw) (hw0 u hu)
      rw [e]; simp
    have hedge : F.Edge u v := ⟨hu, hv, hw⟩
    obtain ⟨_, h1, h2, h3, h4⟩ := hold u hedge
    obtain ⟨_, _, _, h6, h7⟩ := hta u (Or.inl hedge)
    have hB : 0 ≤ a * ((1 / 1000000000 * q + tiny K) * q) + timeTol K q := add_nonneg (mul_nonneg ha0 hδc) hδt
    by_cases huC : u ∈ C
    swap
    · obtain ⟨e1, e2⟩ := h4 huC
      rw [e1, e2, sub_self, abs_zero]
      refine mul_nonneg hB ?_
      split
      · exact hw.le
      · exact le_rfl
    · rw [if_pos (hC u huC), ← sub_mul, abs_mul, abs_of_pos hw]
      refine mul_le_mul_of_nonneg_right ?_ hw.le
      obtain ⟨_, _, _, _, _, k3, k4⟩ := ht.1.at hu
      generalize numOf ρ s.1[u]? = A at *
      generalize numOf ρ t.1[u]? = A' at *
      generalize numOf ρ s.2[u]? = c at *
      generalize numOf ρ t.2[u]? = c' at *
      have e : A * c - A' * c' = A * (c - c') + (A - A') * c' := by ring
      rw [e]
      refine (abs_add_le _ _).trans (add_le_add ?_ ?_)
      · rw [abs_mul, abs_of_nonneg h6]
        exact mul_le_mul h7 h3 (abs_nonneg _) ha0
      · rw [abs_mul, abs_of_nonneg k3]
        exact (mul_le_of_le_one_right (abs_nonneg _) k4).trans h2
  have hsum : |(∑ u ∈ range F.n, numOf ρ s.1[u]? * numOf ρ s.2[u]? * F.w u v)
        - ∑ u ∈ range F.n, numOf ρ t.1[u]? * numOf ρ t.2[u]? * F.w u v|
      ≤ (a * ((1 / 1000000000 * q + tiny K) * q) + timeTol K q) * F.cycleInflow v := by
    rw [← sum_sub_distrib]
    refine (abs_sum_le_sum_abs _ _).trans ?_
    unfold Flow.cycleInflow
    rw [mul_sum]
    exact sum_le_sum fun u hu => hchg u (mem_range.mp hu)
  have hmix : F.total v * x * (y * (q ^ (4 * M + 6) - 1) + 2 * timeSlack K)
      ≤ (a * (q ^ (4 * M + 6) - 1) + 2 * timeSlack K) * F.total v := by
    have h1 := one_le_pow' hq (4 * M + 6)
    have h2 := timeSlack_pos (K := K)
    have h3 : y * (q ^ (4 * M + 6) - 1) + 2 * timeSlack K ≤ a * (q ^ (4 * M + 6) - 1) + 2 * timeSlack K := by
      have := mul_le_mul_of_nonneg_right hyva (by linarith : 0 ≤ q ^ (4 * M + 6) - 1)
      linarith
    have h4 : 0 ≤ a * (q ^ (4 * M + 6) - 1) + 2 * timeSlack K := add_nonneg (mul_nonneg ha0 (by linarith)) (by linarith)
    rw [mul_comm (a * _ + _)]
    calc F.total v * x * (y * (q ^ (4 * M + 6) - 1) + 2 * timeSlack K)
        ≤ F.total v * x * (a * (q ^ (4 * M + 6) - 1) + 2 * timeSlack K) :=
          mul_le_mul_of_nonneg_left h3 (mul_nonneg htp.le hpx.2.2)
      _ ≤ F.total v * (a * (q ^ (4 * M + 6) - 1) + 2 * timeSlack K) :=
          mul_le_mul_of_nonneg_right (mul_le_of_le_one_right htp.le hpx.2.1) h4
  have e : F.pv v * x + (∑ u ∈ range F.n, numOf ρ s.1[u]? * numOf ρ s.2[u]? * F.w u v) - F.total v * (y * x)
      = ((∑ u ∈ range F.n, numOf ρ s.1[u]? * numOf ρ s.2[u]? * F.w u v)
          - ∑ u ∈ range F.n, numOf ρ t.1[u]? * numOf ρ t.2[u]? * F.w u v)
        - (F.total v * x * y - (F.pv v * x + ∑ u ∈ range F.n, numOf ρ t.1[u]? * numOf ρ t.2[u]? * F.w u v)) := by ring
  rw [e]
  exact (abs_sub _ _).trans (add_le_add hsum (hvisit.trans hmix))

end Verif.Rounding
