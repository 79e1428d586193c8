/-
How fast the iterations on a cycle approach the values at which they settle.
-/
import Verif.Proofs.ClimbComponent

namespace Verif.Rounding
set_option linter.unusedSectionVars false
open Finset Verif.Spec Verif.Solver Verif.Toolbox Verif.Tarjan

variable {R : Type} [Arith R] {K : Type} [Field K] [LinearOrder K] [IsStrictOrderedRing K]

/-- Rounding of two concentrations. -/
def grain (q : K) (M : Nat) : K := 2 * (q ^ (4 * M + 4) - 1 + 2 * slack K)

/-- Rounding of a time of flight. -/
def jolt (q : K) (M : Nat) (H φ : K) : K := (4 * φ + 1) * H * (q ^ (4 * M + 6) - 1) + 2 * climbSlack K

/-- What remains of the error in times of flight. -/
def rest (q : K) (M : Nat) (H φ : K) : K := (4 * φ + 1) * grain q M * H + 2 * jolt q M H φ

/-- After `N` sweeps the changes are small. -/
structure Pace (q : K) (M : Nat) (H φ : K) (N : Nat) : Prop where
  conc : 8 * H * ((1 - 1 / H) ^ N + grain q M) ≤ 1 / 1000000000
  time : 8 * H * ((4 * φ + 1) * (H + N) * (1 - 1 / H) ^ N + rest q M H φ + 2 * ((4 * φ + 1) * H) * ((1 - 1 / H) ^ N + grain q M))
    ≤ cap / 4000000000000

/-- Values that `G k` bounds, and one sweep later `G (k + 1)`. -/
theorem sweep_family {σ : Type} {vis : Nat → σ → σ} {P : σ → Prop} {G : Nat → σ → Nat → Prop} {l : List Nat} {k : Nat}
    (keep : ∀ s, ∀ v ∈ l, P s → P (vis v s)) (down : ∀ s u, G (k + 1) s u → G k s u)
    (frame : ∀ s, ∀ v ∈ l, P s → ∀ u, u ≠ v → ∀ j, G j s u → G j (vis v s) u)
    (gain : ∀ s, ∀ v ∈ l, P s → (∀ u, G k s u) → G (k + 1) (vis v s) v) {s : σ} (hs : P s) (hG : ∀ u, G k s u) :
    ∀ u, G k (Climb.sweep vis l s) u ∧ (u ∈ l → G (k + 1) (Climb.sweep vis l s) u) := by
  have key : ∀ l' : List Nat, (∀ v ∈ l', v ∈ l) → ∀ s, P s → (∀ u, G k s u) → ∀ D : Nat → Prop, (∀ u, D u → G (k + 1) s u) →
      ∀ u, G k (Climb.sweep vis l' s) u ∧ (D u ∨ u ∈ l' → G (k + 1) (Climb.sweep vis l' s) u) := by
    intro l'
    induction l' with
    | nil => intro _ s _ hG D hD u; exact ⟨hG u, fun h => hD u (h.resolve_right (by simp))⟩
    | cons v l' ih =>
      intro hl s hs hG D hD u
      have hv := hl v List.mem_cons_self
      have h1 := gain s v hv hs hG
      have h2 := ih (fun w hw => hl w (List.mem_cons_of_mem _ hw)) (vis v s) (keep s v hv hs) (fun u => by
        by_cases e : u = v
        · subst e; exact down _ _ h1
        · exact frame s v hv hs u e k (hG u)) (fun u => D u ∨ u = v) (fun u hu => by
        by_cases e : u = v
        · subst e; exact h1
        · exact frame s v hv hs u e (k + 1) (hD u (hu.resolve_right e))) u
      refine ⟨h2.1, fun h => h2.2 ?_⟩
      rcases h with h | h
      · exact Or.inl (Or.inl h)
      · rcases List.mem_cons.mp h with h | h
        · exact Or.inl (Or.inr h)
        · exact Or.inr h
  intro u
  obtain ⟨h1, h2⟩ := key l (fun _ h => h) s hs hG (fun _ => False) (fun _ h => h.elim) u
  exact ⟨h1, fun h => h2 (Or.inr h)⟩

namespace Setting
variable {ρ : Rounded R K} {q : K} {d : SolverData R} {F : Flow K} {M : Nat} {isStart : List Bool} {ls : List R}
  {S : Nat → Prop} {inj x h : Nat → K} {H φ : K} (A : Setting ρ q d F M isStart ls S inj x h H φ)
include A

theorem grain_nonneg : 0 ≤ grain q M := by
  have h1 := one_le_pow₀ (n := 4 * M + 4) A.precise.one_le
  have h3 : 0 < slack K := by unfold slack; positivity
  unfold grain
  linarith

theorem jolt_nonneg : 0 ≤ jolt q M H φ := by
  have h1 := A.eta_nonneg
  have h2 := climbSlack_pos (K := K)
  have h3 := A.alpha_pos
  have h4 := A.one_le
  have : 0 ≤ (4 * φ + 1) * H * (q ^ (4 * M + 6) - 1) := mul_nonneg (mul_nonneg h3.le (by linarith)) h1
  unfold jolt
  linarith

theorem ratio : 0 ≤ 1 - 1 / H ∧ 1 - 1 / H ≤ 1 := by
  have h := A.one_le
  have h1 : 1 / H ≤ 1 := by rw [_root_.div_le_one (by linarith)]; exact h
  have h2 : 0 < 1 / H := by positivity
  constructor <;> linarith

/-- One cell less of depth. -/
theorem ratio_step {v : Nat} (hv : v < F.n) (hs : S v) : h v - 1 ≤ (1 - 1 / H) * h v := by
  have hH : 0 < H := zero_lt_one.trans_le A.one_le
  have h1 : 1 / H * h v ≤ 1 := by
    rw [one_div_mul_eq_div, _root_.div_le_one hH]; exact A.h_le hv hs
  linarith [sub_mul 1 (1 / H) (h v)]

/-- The weights of what comes in from cells that are reached. -/
theorem depth_sum {v : Nat} (hv : v < F.n) (hs : S v) {b : K} {e : Nat → K} (he : ∀ u < F.n, e u ≤ b * h u) :
    ∑ u ∈ range F.n, e u * F.w u v ≤ F.total v * (b * (h v - 1)) := by
  have h1 := A.depth v hv hs
  have e1 : F.total v * (b * (h v - 1)) = ∑ u ∈ range F.n, b * h u * F.w u v := by
    have : ∑ u ∈ range F.n, b * h u * F.w u v = b * ∑ u ∈ range F.n, h u * F.w u v := by
      rw [mul_sum]; exact sum_congr rfl fun _ _ => by ring
    rw [this]
    linear_combination b * h1
  rw [e1]
  exact sum_le_sum fun u hu => mul_le_mul_of_nonneg_right (he u (mem_range.mp hu)) (A.w_nonneg (mem_range.mp hu) hv)

/-- Concentrations after visits to the same cell. -/
theorem conc_step {s s' : List R × List R} (hs : Ready ρ F.n s) (hs' : Ready ρ F.n s') {v : Nat} (hv : v < F.n) (hS : S v) {b : K}
    (hb : ∀ u < F.n, |cn ρ s u - cn ρ s' u| ≤ b * h u) :
    |cn ρ (after d isStart ls v s) v - cn ρ (after d isStart ls v s') v| ≤ b * (h v - 1) + grain q M := by
  have hq := A.precise.one_le
  have hsl : 0 < slack K := by unfold slack; positivity
  have hT := A.total_pos hv hS
  have one : ∀ {s : List R × List R}, Ready ρ F.n s → |cn ρ (after d isStart ls v s) v
      - ((∑ u ∈ range F.n, cn ρ s u * F.w u v) + inj v) / F.total v| ≤ q ^ (4 * M + 4) - 1 + 2 * slack K := by
    intro s hs
    obtain ⟨p, hp, _, _, g1, _, g3, _⟩ := A.after_eq hs hv
    obtain ⟨y, hy, hy0, _, hpos⟩ := A.visit_conc hs hv hp
    rw [(num_entry g1 g3).1] at hy
    have e := X.fin.inj hy
    obtain ⟨h1, h2, h3⟩ := hpos hT
    rw [← e] at h3 hy0
    refine h3.abs hq A.q4 hy0 ?_ (div_nonneg h1 hT.le) (by rw [_root_.div_le_one hT]; exact h2) hsl.le
    obtain ⟨_, _, _, _, _, _, h⟩ := g1.at hv; exact h
  have h1 := one hs
  have h2 := one hs'
  have h3 : |((∑ u ∈ range F.n, cn ρ s u * F.w u v) + inj v) / F.total v - ((∑ u ∈ range F.n, cn ρ s' u * F.w u v) + inj v) / F.total v|
      ≤ b * (h v - 1) := by
    rw [← sub_div, abs_div, abs_of_pos hT, div_le_iff₀ hT]
    have e : (∑ u ∈ range F.n, cn ρ s u * F.w u v) + inj v - ((∑ u ∈ range F.n, cn ρ s' u * F.w u v) + inj v)
        = ∑ u ∈ range F.n, (cn ρ s u - cn ρ s' u) * F.w u v := by
      rw [add_sub_add_right_eq_sub, ← sum_sub_distrib]; exact sum_congr rfl fun _ _ => by ring
    rw [e]
    refine (abs_sum_le_sum_abs _ _).trans ?_
    have e2 : ∑ u ∈ range F.n, |(cn ρ s u - cn ρ s' u) * F.w u v| = ∑ u ∈ range F.n, |cn ρ s u - cn ρ s' u| * F.w u v :=
      sum_congr rfl fun u hu => by rw [abs_mul, abs_of_nonneg (A.w_nonneg (mem_range.mp hu) hv)]
    rw [e2, mul_comm _ (F.total v)]
    exact A.depth_sum hv hS hb
  unfold grain
  rw [abs_le] at *
  constructor <;> linarith [h1.1, h1.2, h2.1, h2.2, h3.1, h3.2]

/-- The product of time of flight and concentration after a visit. -/
theorem tau_step {s : List R × List R} (hs : Ready ρ F.n s) (ht : Timely ρ F.n (fun u => (4 * φ + 1) * h u) s) {v : Nat} (hv : v < F.n)
    (hS : S v) {p : R × R} (hp : cellVals d isStart ls s (v : Int) = .ok p) {y t : K} (hy : ρ.val p.2 = X.fin y) (hy1 : y ≤ 1)
    (hty : ρ.val p.1 = X.fin t) (htb : t * y ≤ (4 * φ + 1) * h v)
    (hc : (y = 0 ∧ ∀ u, F.Edge u v → cn ρ s u = 0) ∨ 1 ≤ y * 2 ^ 500) :
    (Slow d isStart v → t * y = cap * y) ∧ (¬ Slow d isStart v →
      |t * y - (F.pv v * y + ∑ u ∈ range F.n, tn ρ s u * cn ρ s u * F.w u v) / F.total v| ≤ jolt q M H φ) := by
  rcases hc with ⟨rfl, hz⟩ | hc
  · refine ⟨fun _ => by simp, fun _ => ?_⟩
    have e : ∑ u ∈ range F.n, tn ρ s u * cn ρ s u * F.w u v = 0 := by
      refine sum_eq_zero fun u hu => ?_
      have hu := mem_range.mp hu
      by_cases hw : 0 < F.w u v
      · rw [hz u ⟨hu, hv, hw⟩]; ring
      · rw [le_antisymm (not_lt.mp hw) (A.w_nonneg hu hv), mul_zero]
    rw [e]
    simpa using A.jolt_nonneg
  · have hyp : 0 < y := by
      by_contra hn
      exact absurd (hc.trans (mul_nonpos_of_nonpos_of_nonneg (not_lt.mp hn) (two_pow_pos' (K := K) 500).le)) (not_le.mpr one_pos)
    obtain ⟨hT, h1, h2⟩ := A.visit_time hs ht hv hp hy hy1 hc
    refine ⟨fun hsl => ?_, fun hsl => ?_⟩
    · have := (h1 hsl).1
      rw [hty] at this
      rw [X.fin.inj this]
    · obtain ⟨t', ht', ht0, hoff⟩ := h2 hsl
      rw [hty] at ht'
      have e := X.fin.inj ht'
      subst e
      set Q := q ^ (4 * M + 6) with hQ
      have hη : 0 ≤ Q - 1 := A.eta_nonneg
      have hQ2 : Q ≤ 2 := A.power
      have hε := climbSlack_pos (K := K)
      have hα := A.alpha_pos
      have hφ := A.fill_nonneg
      have hhH := A.h_le hv hS
      set Su := ∑ u ∈ range F.n, tn ρ s u * cn ρ s u * F.w u v with hSu
      have eG : (F.pv v * y + Su) / (F.total v * y) * y = (F.pv v * y + Su) / F.total v := by field_simp
      have hG : (F.pv v * y + Su) / F.total v ≤ (4 * φ + 1) * H := by
        rw [div_le_iff₀ hT]
        have g1 := A.fill v hv hS
        have g2 : F.pv v * y ≤ F.pv v * 1 := mul_le_mul_of_nonneg_left hy1 (A.sized v hv).pv.nonneg
        have g3 : Su ≤ F.total v * ((4 * φ + 1) * (h v - 1)) := A.depth_sum hv hS fun u hu => by
          obtain ⟨_, _, _, _, g⟩ := ht u hu; exact g
        have g5 : F.total v * ((4 * φ + 1) * (h v - 1)) ≤ F.total v * ((4 * φ + 1) * (H - 1)) :=
          mul_le_mul_of_nonneg_left (mul_le_mul_of_nonneg_left (by linarith) hα.le) hT.le
        have g6 : φ * F.total v ≤ (4 * φ + 1) * F.total v := mul_le_mul_of_nonneg_right (by linarith) hT.le
        have g7 : (4 * φ + 1) * H * F.total v = F.total v * ((4 * φ + 1) * (H - 1)) + (4 * φ + 1) * F.total v := by ring
        linarith
      have hG0 : t * y ≤ (4 * φ + 1) * H := htb.trans (mul_le_mul_of_nonneg_left hhH hα.le)
      have k1 : t * y ≤ ((F.pv v * y + Su) / F.total v + climbSlack K) * Q := by
        have := mul_le_mul_of_nonneg_right hoff.2 hyp.le
        have e1 : ((F.pv v * y + Su) / (F.total v * y) + climbSlack K) * Q * y
            = ((F.pv v * y + Su) / (F.total v * y) * y + climbSlack K * y) * Q := by ring
        rw [e1, eG] at this
        refine this.trans (mul_le_mul_of_nonneg_right ?_ (by linarith))
        have : climbSlack K * y ≤ climbSlack K * 1 := mul_le_mul_of_nonneg_left hy1 hε.le
        linarith
      have k2 : (F.pv v * y + Su) / F.total v ≤ (t * y + climbSlack K) * Q := by
        have := mul_le_mul_of_nonneg_right hoff.1 hyp.le
        have e1 : (t + climbSlack K) * Q * y = (t * y + climbSlack K * y) * Q := by ring
        rw [e1, eG] at this
        refine this.trans (mul_le_mul_of_nonneg_right ?_ (by linarith))
        have : climbSlack K * y ≤ climbSlack K * 1 := mul_le_mul_of_nonneg_left hy1 hε.le
        linarith
      have k3 : (F.pv v * y + Su) / F.total v * (Q - 1) ≤ (4 * φ + 1) * H * (Q - 1) := mul_le_mul_of_nonneg_right hG hη
      have k4 : t * y * (Q - 1) ≤ (4 * φ + 1) * H * (Q - 1) := mul_le_mul_of_nonneg_right hG0 hη
      have k5 : climbSlack K * Q ≤ climbSlack K * 2 := mul_le_mul_of_nonneg_left hQ2 hε.le
      have e5 : ((F.pv v * y + Su) / F.total v + climbSlack K) * Q
          = (F.pv v * y + Su) / F.total v + (F.pv v * y + Su) / F.total v * (Q - 1) + climbSlack K * Q := by ring
      have e6 : (t * y + climbSlack K) * Q = t * y + t * y * (Q - 1) + climbSlack K * Q := by ring
      rw [e5] at k1
      rw [e6] at k2
      unfold jolt
      rw [abs_le]
      constructor <;> linarith

/-- A small change of a concentration is below the tolerance. -/
theorem conc_quiet' {a b : R} {s t : K} (ha : ρ.val a = X.fin s) (hb : ρ.val b = X.fin t) (hz : s = 0 ↔ t = 0)
    (hd : |t - s| ≤ 1 / 4000000000) : Arith.lt tracerTol (tracerChange a b) = false := by
  have hq := A.precise.one_le
  obtain ⟨w, hw, hc⟩ := tol_val A.precise
  have hw2 : 1 / 4000000000 ≤ w := by
    have h1 := hc.1
    rw [pow_one] at h1
    have h0 : 0 ≤ w := hc.nonneg hq (by norm_num)
    have h2 : w * q ≤ w * 2 := mul_le_mul_of_nonneg_left A.q_le h0
    have e : (1 : K) / 1000000000 = 4 * (1 / 4000000000) := by norm_num
    linarith
  have key : ∀ y : K, 0 ≤ y → y ≤ w → ∃ r, ρ.rnd (X.fin y) = X.fin r ∧ 0 ≤ r ∧ r ≤ w := by
    intro y hy0 hy
    have h1 : X.lt (ρ.rnd (X.fin w)) (ρ.rnd (X.fin y)) = false := rnd_lt ρ (by simpa [X.lt] using hy)
    have h2 : X.lt (ρ.rnd (X.fin y)) (ρ.rnd (X.fin 0)) = false := rnd_lt ρ (by simpa [X.lt] using hy0)
    have h3 : ρ.rnd (X.fin y) ≠ X.nan := rnd_ne_nan ρ (by simp)
    rw [← hw, ρ.rnd_val, hw] at h1
    rw [ρ.rnd_zero] at h2
    cases hr : ρ.rnd (X.fin y) <;> rw [hr] at h1 h2 h3 <;> simp_all [X.lt]
  unfold tracerChange
  have e : (Arith.eq a Arith.zero != Arith.eq b Arith.zero) = false := by
    rw [ρ.eq, ρ.eq, ha, hb, val_zero' ρ]
    simp [X.eq, hz]
  rw [e]
  simp only [Bool.false_eq_true, if_false]
  rw [ρ.lt, ρ.fabs, ρ.sub, ha, hb, hw]
  simp only [X.sub, X.add, X.neg, ← sub_eq_add_neg]
  rcases le_total 0 (t - s) with h0 | h0
  · rw [abs_of_nonneg h0] at hd
    obtain ⟨r, hr, hr0, hrw⟩ := key _ h0 (hd.trans hw2)
    rw [hr]
    simpa [X.fabs, X.lt, not_lt.mpr hr0] using hrw
  · rw [abs_of_nonpos h0] at hd
    obtain ⟨r, hr, hr0, hrw⟩ := key (-(t - s)) (by linarith) (hd.trans hw2)
    have e : ρ.rnd (X.fin (t - s)) = X.fin (-r) := by
      rw [← neg_neg (t - s), A.odd, hr]; rfl
    rw [e]
    simp only [X.fabs, X.lt, neg_lt_zero]
    split
    · simpa using hrw
    · have : r = 0 := le_antisymm (not_lt.mp (by assumption)) hr0
      simpa [this] using hrw

end Setting
end Verif.Rounding
