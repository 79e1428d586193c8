/-
What holds at every moment of the iterations on a cycle.
-/
import Verif.Proofs.ClimbRule
import Mathlib.Data.List.Lemmas

namespace Verif.Rounding
set_option linter.unusedSectionVars false
open Finset Verif.Spec Verif.Solver Verif.Toolbox Verif.Tarjan

variable {R : Type} [Arith R] {K : Type} [Field K] [LinearOrder K] [IsStrictOrderedRing K]

/-- Error of the concentrations per unit of depth. -/
def kappa (q : K) (M : Nat) : K := (1 / 1000000000 * q + tiny K) * q + (q ^ (4 * M + 4) - 1 + 2 * slack K)

/-- A cycle whose cells are to be visited, and the fields before. -/
structure Cycle (ρ : Rounded R K) (q : K) (F : Flow K) (M : Nat) (S : Nat → Prop) (inj x h : Nat → K) (H φ μ : K) (C : List Nat)
    (s0 : List R × List R) : Prop where
  cells : ∀ v ∈ C, v < F.n
  nodup : C.Nodup
  mu_pos : 0 < μ
  mu_le : μ ≤ 1
  weights : ∀ v ∈ C, S v → (∀ u, F.Edge u v → μ * F.total v ≤ F.w u v) ∧ (0 < inj v → μ * F.total v ≤ inj v)
  floor : 1 ≤ 1 / (2 * H) * (μ / 4) ^ C.length * 2 ^ 500
  ready : Ready ρ F.n s0
  timely : Timely ρ F.n (fun u => (4 * φ + 1) * h u) s0
  off : ∀ u < F.n, ¬ S u → cn ρ s0 u = 0
  zero : ∀ v ∈ C, cn ρ s0 v = 0 ∧ tn ρ s0 v = 0
  acc : ∀ v ∈ C, ∀ u, F.Edge u v → u ∉ C → S u → |cn ρ s0 u - x u| ≤ kappa q M * h u

open Classical in
/-- The cells that the tracer has reached. -/
noncomputable def nz (ρ : Rounded R K) (C : List Nat) (s : List R × List R) : Nat := (C.toFinset.filter fun u => cn ρ s u ≠ 0).card

/-- What holds at every moment. -/
structure Moment (ρ : Rounded R K) (F : Flow K) (d : SolverData R) (isStart : List Bool) (ls : List R) (S : Nat → Prop) (h : Nat → K)
    (H φ μ : K) (C : List Nat) (s0 s : List R × List R) : Prop where
  ready : Ready ρ F.n s
  timely : Timely ρ F.n (fun u => (4 * φ + 1) * h u) s
  off : ∀ u < F.n, ¬ S u → cn ρ s u = 0
  frame : ∀ u, u ∉ C → cellAt s u = cellAt s0 u
  rises : Climb.Rule.Rises (after d isStart ls) (cn ρ) C s
  low : ∀ u ∈ C, cn ρ s u = 0 ∨ 1 / (2 * H) * (μ / 4) ^ nz ρ C s ≤ cn ρ s u

namespace Setting
variable {ρ : Rounded R K} {q : K} {d : SolverData R} {F : Flow K} {M : Nat} {isStart : List Bool} {ls : List R}
  {S : Nat → Prop} {inj x h : Nat → K} {H φ : K} (A : Setting ρ q d F M isStart ls S inj x h H φ)
include A

theorem kappa_nonneg : 0 ≤ kappa q M := by
  have hq := A.precise.one_le
  have h1 := one_le_pow₀ (n := 4 * M + 4) hq
  have h2 := tiny_pos (K := K)
  have h3 : 0 < slack K := by unfold slack; positivity
  have h4 : 0 ≤ (1 / 1000000000 * q + tiny K) * q := mul_nonneg (by linarith) (by linarith)
  unfold kappa
  linarith

/-- A concentration with this error is at least half of the exact one. -/
theorem half {v : Nat} (hv : v < F.n) (hs : S v) {c : K} (hc : |c - x v| ≤ kappa q M * h v) : x v / 2 ≤ c ∧ 1 / (2 * H) ≤ c ∧ 0 < x v := by
  have h1 : kappa q M * h v ≤ kappa q M * (H * x v) := mul_le_mul_of_nonneg_left (A.bound v hv hs) A.kappa_nonneg
  have hH : 0 < H := zero_lt_one.trans_le A.one_le
  have h2 := A.x_ge hv hs
  have hx : 0 < x v := by
    by_contra hn
    exact absurd (h2.trans (mul_nonpos_of_nonneg_of_nonpos hH.le (not_lt.mp hn))) (not_le.mpr one_pos)
  have h3 : kappa q M * H ≤ 1 / 2 := A.accurate
  have h4 : kappa q M * (H * x v) ≤ 1 / 2 * x v := by
    rw [← mul_assoc]; exact mul_le_mul_of_nonneg_right h3 hx.le
  have h5 := (abs_le.mp hc).1
  have h6 : x v / 2 ≤ c := by linarith
  refine ⟨h6, ?_, hx⟩
  have h7 : 1 / (2 * H) ≤ x v / 2 := by
    rw [div_le_div_iff₀ (by linarith) two_pos]
    linarith
  linarith

variable {μ : K} {C : List Nat} {s0 : List R × List R} (B : Cycle ρ q F M S inj x h H φ μ C s0)
include B

theorem start_moment : Moment ρ F d isStart ls S h H φ μ C s0 s0 where
  ready := B.ready
  timely := B.timely
  off := B.off
  frame := fun _ _ => rfl
  rises := fun v hv => by
    rw [(B.zero v hv).1]
    obtain ⟨p, _, _, _, h1, _, h2, _⟩ := A.after_eq B.ready (B.cells v hv)
    exact (num_entry h1 h2).2.1
  low := fun u hu => Or.inl (B.zero u hu).1

theorem floor_pos : 0 < 1 / (2 * H) ∧ 0 < μ / 4 ∧ μ / 4 ≤ 1 := by
  have hH : 0 < H := zero_lt_one.trans_le A.one_le
  have := B.mu_pos
  have := B.mu_le
  exact ⟨by positivity, by positivity, by linarith⟩

theorem floor_le {k : Nat} (hk : k ≤ C.length) : 1 ≤ 1 / (2 * H) * (μ / 4) ^ k * 2 ^ 500 := by
  obtain ⟨h1, h2, h3⟩ := A.floor_pos B
  refine B.floor.trans (mul_le_mul_of_nonneg_right ?_ (two_pow_pos' 500).le)
  exact mul_le_mul_of_nonneg_left (pow_le_pow_of_le_one h2.le h3 hk) h1.le

omit A B in
theorem nz_le (s : List R × List R) : nz ρ C s ≤ C.length := by
  unfold nz
  exact (card_filter_le _ _).trans (List.toFinset_card_le C)

/-- A cell that the tracer reaches. -/
theorem lift {s : List R × List R} (hs : Moment ρ F d isStart ls S h H φ μ C s0 s) {v : Nat} (hv : v ∈ C) (h0 : cn ρ s v = 0)
    (h1 : cn ρ (after d isStart ls v s) v ≠ 0) :
    S v ∧ 1 / (2 * H) * (μ / 4) ^ (nz ρ C s + 1) ≤ cn ρ (after d isStart ls v s) v ∧
      nz ρ C s + 1 ≤ nz ρ C (after d isStart ls v s) := by
  classical
  have hvn := B.cells v hv
  obtain ⟨p, hp, _, _, g1, _, g3, g4⟩ := A.after_eq hs.ready hvn
  have hy := (num_entry g1 g3).1
  set y := cn ρ (after d isStart ls v s) v with hyd
  have hcount : nz ρ C s + 1 ≤ nz ρ C (after d isStart ls v s) := by
    unfold nz
    apply card_lt_card
    rw [ssubset_iff_of_subset]
    · exact ⟨v, by rw [mem_filter]; exact ⟨List.mem_toFinset.mpr hv, h1⟩, by simp [h0]⟩
    · intro u hu
      rw [mem_filter] at hu ⊢
      refine ⟨hu.1, ?_⟩
      have hne : u ≠ v := fun e => hu.2 (e ▸ h0)
      have : cn ρ (after d isStart ls v s) u = cn ρ s u := by unfold cn; rw [(g4 u hne).2]
      rw [this]; exact hu.2
  have hle : nz ρ C s + 1 ≤ C.length := hcount.trans (nz_le _)
  have hSv : S v := by
    by_contra hn
    have := A.visit_zero hs.ready hvn (fun u hu => hs.off u hu.1 fun hSu => hn (A.closed u v hu hSu)) (A.off v hvn hn) hp
    rw [hy] at this
    exact h1 (X.fin.inj this)
  refine ⟨hSv, ?_, hcount⟩
  have hT := A.total_pos hvn hSv
  obtain ⟨w1, w2⟩ := B.weights v hv hSv
  obtain ⟨f1, f2, f3⟩ := A.floor_pos B
  set b := 1 / (2 * H) * (μ / 4) ^ nz ρ C s with hb
  have hb0 : 0 < b := mul_pos f1 (pow_pos f2 _)
  have hb1 : b ≤ 1 := by
    rw [hb]
    have hH := A.one_le
    have e1 : 1 / (2 * H) ≤ 1 := by rw [_root_.div_le_one (by linarith)]; linarith
    calc 1 / (2 * H) * (μ / 4) ^ nz ρ C s ≤ 1 * 1 := mul_le_mul e1 (pow_le_one₀ f2.le f3) (pow_nonneg f2.le _) zero_le_one
      _ = 1 := one_mul 1
  have hnn : ∀ u ∈ range F.n, 0 ≤ cn ρ s u * F.w u v := by
    intro u hu
    have hu := mem_range.mp hu
    obtain ⟨_, c, _, h2, h3, h4, _⟩ := hs.ready.at hu
    exact mul_nonneg h4 (A.w_nonneg hu hvn)
  have hmix : b * (μ * F.total v) ≤ (∑ u ∈ range F.n, cn ρ s u * F.w u v) + inj v := by
    have hsum0 := sum_nonneg hnn
    by_cases hi : inj v = 0
    · have : ∃ u, F.Edge u v ∧ cn ρ s u ≠ 0 := by
        by_contra hn
        push Not at hn
        have := A.visit_zero hs.ready hvn hn hi hp
        rw [hy] at this
        exact h1 (X.fin.inj this)
      obtain ⟨u, hu, hne⟩ := this
      have hbu : b ≤ cn ρ s u := by
        by_cases hc : u ∈ C
        · exact (hs.low u hc).resolve_left hne
        · have e : cn ρ s u = cn ρ s0 u := by
            have := hs.frame u hc
            unfold cellAt at this
            unfold cn
            rw [(Prod.mk.inj this).2]
          have hSu : S u := by
            by_contra hn
            exact hne (hs.off u hu.1 hn)
          have := (A.half hu.1 hSu (B.acc v hv u hu hc hSu)).2.1
          rw [e]
          refine le_trans ?_ this
          rw [hb]
          exact mul_le_of_le_one_right f1.le (pow_le_one₀ f2.le f3)
      have h2 : b * (μ * F.total v) ≤ cn ρ s u * F.w u v :=
        mul_le_mul hbu (w1 u hu) (mul_nonneg B.mu_pos.le hT.le) (hb0.le.trans hbu)
      have h3 := single_le_sum hnn (mem_range.mpr hu.1)
      rw [hi, add_zero]
      exact h2.trans h3
    · have hi0 : 0 < inj v := lt_of_le_of_ne (A.injected v hvn).1 (Ne.symm hi)
      have h2 := w2 hi0
      have h3 : b * (μ * F.total v) ≤ 1 * (μ * F.total v) := mul_le_mul_of_nonneg_right hb1 (mul_nonneg B.mu_pos.le hT.le)
      linarith
  obtain ⟨y', hy', _, _, hpos⟩ := A.visit_conc hs.ready hvn hp
  rw [hy] at hy'
  have e := X.fin.inj hy'
  subst e
  obtain ⟨_, _, hoff⟩ := hpos hT
  have h2 := hoff.1
  have hsl : 0 < slack K := by unfold slack; positivity
  have h3 : b * μ ≤ ((∑ u ∈ range F.n, cn ρ s u * F.w u v) + inj v) / F.total v := by
    rw [le_div_iff₀ hT, mul_assoc]; exact hmix
  have hy0 : 0 ≤ y := (num_entry g1 g3).2.1
  have h4 : (y + slack K) * q ^ (4 * M + 4) ≤ (y + slack K) * 2 := mul_le_mul_of_nonneg_left A.q4 (by linarith)
  have h5 : slack K ≤ 1 / (2 * H) * (μ / 4) ^ (nz ρ C s + 1) := by
    have h6 := A.floor_le B hle
    unfold slack
    rw [div_le_iff₀ (two_pow_pos' 700)]
    refine h6.trans (mul_le_mul_of_nonneg_left (pow_le_pow_right₀ one_le_two (by norm_num)) ?_)
    exact mul_nonneg f1.le (pow_nonneg f2.le _)
  have e1 : b * μ = 4 * (1 / (2 * H) * (μ / 4) ^ (nz ρ C s + 1)) := by rw [hb, pow_succ]; ring
  linarith

theorem step {s : List R × List R} (hs : Moment ρ F d isStart ls S h H φ μ C s0 s) {v : Nat} (hv : v ∈ C) :
    Moment ρ F d isStart ls S h H φ μ C s0 (after d isStart ls v s) := by
  classical
  have hvn := B.cells v hv
  obtain ⟨p, hp, _, _, g1, g2, g3, g4⟩ := A.after_eq hs.ready hvn
  have hr := A.conc_rule B.cells
  have hy := (num_entry g1 g3).1
  have hy0 := (num_entry g1 g3).2.1
  have hy1 : cn ρ (after d isStart ls v s) v ≤ 1 := by
    obtain ⟨_, _, _, _, _, _, h⟩ := g1.at hvn; exact h
  have hcu : ∀ u, u ≠ v → cn ρ (after d isStart ls v s) u = cn ρ s u := fun u hu => by unfold cn; rw [(g4 u hu).2]
  have htu : ∀ u, u ≠ v → tn ρ (after d isStart ls v s) u = tn ρ s u := fun u hu => by unfold tn; rw [(g4 u hu).1]
  have hoff : ∀ u < F.n, ¬ S u → cn ρ (after d isStart ls v s) u = 0 := by
    intro u hu hn
    by_cases e : u = v
    · subst e
      have := A.visit_zero hs.ready hvn (fun w hw => hs.off w hw.1 fun hSw => hn (A.closed w u hw hSw)) (A.off u hvn hn) hp
      rw [hy] at this
      exact X.fin.inj this
    · rw [hcu u e]; exact hs.off u hu hn
  obtain ⟨f1, f2, f3⟩ := A.floor_pos B
  have hmono : ∀ {j k : Nat}, j ≤ k → 1 / (2 * H) * (μ / 4) ^ k ≤ 1 / (2 * H) * (μ / 4) ^ j := fun hjk =>
    mul_le_mul_of_nonneg_left (pow_le_pow_of_le_one f2.le f3 hjk) f1.le
  have hnz : nz ρ C s ≤ nz ρ C (after d isStart ls v s) := by
    unfold nz
    apply card_le_card
    intro u hu
    rw [mem_filter] at hu ⊢
    refine ⟨hu.1, ?_⟩
    by_cases e : u = v
    · subst e
      have h1 := hs.rises u hv
      have h2 := (num_entry hs.ready (a := (s.2[u]?).getD Arith.zero) (by
        obtain ⟨_, c, _, h2, _⟩ := hs.ready.at hvn; rw [h2]; rfl)).2.1
      have h3 : 0 < cn ρ s u := lt_of_le_of_ne h2 (Ne.symm hu.2)
      exact (h3.trans_le h1).ne'
    · rw [hcu u e]; exact hu.2
  have hlow : ∀ u ∈ C, cn ρ (after d isStart ls v s) u = 0 ∨
      1 / (2 * H) * (μ / 4) ^ nz ρ C (after d isStart ls v s) ≤ cn ρ (after d isStart ls v s) u := by
    intro u hu
    by_cases e : u = v
    · subst e
      by_cases h1 : cn ρ (after d isStart ls u s) u = 0
      · exact Or.inl h1
      right
      by_cases h2 : cn ρ s u = 0
      · obtain ⟨_, l2, l3⟩ := A.lift B hs hv h2 h1
        exact (hmono l3).trans l2
      · have := (hs.low u hv).resolve_left h2
        exact (hmono hnz).trans (this.trans (hs.rises u hv))
    · rw [hcu u e]
      rcases hs.low u hu with h1 | h1
      · exact Or.inl h1
      · exact Or.inr ((hmono hnz).trans h1)
  refine ⟨g1, ?_, hoff, ?_, hr.rises_vis hv hs.ready hs.rises, hlow⟩
  · intro u hu
    by_cases e : u = v
    · subst e
      obtain ⟨t, t1, t2, t3⟩ := A.visit_bound hs.ready hs.timely hvn hp hy hy1 (by
        rcases hlow u hv with h1 | h1
        · exact Or.inl h1
        · by_cases h0 : cn ρ (after d isStart ls u s) u = 0
          · exact Or.inl h0
          · refine Or.inr ⟨?_, by_contra fun hn => h0 (hoff u hvn hn)⟩
            exact (A.floor_le B (nz_le _)).trans (mul_le_mul_of_nonneg_right h1 (two_pow_pos' 500).le))
      have e : tn ρ (after d isStart ls u s) u = t := by unfold tn; rw [g2, numOf_some t1]
      exact ⟨p.1, g2, by rw [e]; exact t1, by rw [e]; exact t2, by rw [e]; exact t3⟩
    · obtain ⟨a, a1, a2, a3, a4⟩ := hs.timely u hu
      refine ⟨a, by rw [(g4 u e).1]; exact a1, ?_⟩
      rw [htu u e, hcu u e]
      exact ⟨a2, a3, a4⟩
  · intro u hu
    have hne : u ≠ v := fun e => hu (e ▸ hv)
    rw [← hs.frame u hu]
    unfold cellAt
    rw [(g4 u hne).1, (g4 u hne).2]

theorem moment_sweep {s : List R × List R} (hs : Moment ρ F d isStart ls S h H φ μ C s0 s) :
    Moment ρ F d isStart ls S h H φ μ C s0 (Climb.sweep (after d isStart ls) C s) := by
  have : ∀ l : List Nat, (∀ v ∈ l, v ∈ C) → ∀ s, Moment ρ F d isStart ls S h H φ μ C s0 s →
      Moment ρ F d isStart ls S h H φ μ C s0 (Climb.sweep (after d isStart ls) l s) := by
    intro l
    induction l with
    | nil => intro _ s hs; exact hs
    | cons v l ih =>
      intro hl s hs
      exact ih (fun w hw => hl w (List.mem_cons_of_mem _ hw)) _ (A.step B hs (hl v List.mem_cons_self))
  exact this C (fun _ h => h) s hs

theorem moment_iter (k : Nat) : Moment ρ F d isStart ls S h H φ μ C s0 ((Climb.sweep (after d isStart ls) C)^[k] s0) := by
  induction k with
  | zero => exact A.start_moment B
  | succ k ih => rw [Function.iterate_succ_apply']; exact A.moment_sweep B ih

/-- Concentrations not tiny. -/
theorem alive {s : List R × List R} (hs : Moment ρ F d isStart ls S h H φ μ C s0 s) {v : Nat} (hv : v ∈ C) (hne : cn ρ s v ≠ 0) :
    1 ≤ cn ρ s v * 2 ^ 500 ∧ S v := by
  refine ⟨?_, by_contra fun hn => hne (hs.off v (B.cells v hv) hn)⟩
  exact (A.floor_le B (nz_le _)).trans (mul_le_mul_of_nonneg_right ((hs.low v hv).resolve_left hne) (two_pow_pos' 500).le)

end Setting
end Verif.Rounding
