/-
Times of flight on a cycle whose concentrations have settled.
-/
import Verif.Proofs.ClimbSteps

namespace Verif.Rounding
set_option linter.unusedSectionVars false
open Finset Verif.Spec Verif.Solver Verif.Toolbox Verif.Tarjan

variable {R : Type} [Arith R] {K : Type} [Field K] [LinearOrder K] [IsStrictOrderedRing K]

/-- Fields with the concentrations of `s1`, and its times outside `C`. -/
structure Still (ρ : Rounded R K) (n : Nat) (B : Nat → K) (C : List Nat) (s1 s : List R × List R) : Prop where
  ready : Ready ρ n s
  timely : Timely ρ n B s
  conc : ∀ u, cn ρ s u = cn ρ s1 u
  time : ∀ u, u ∉ C → tn ρ s u = tn ρ s1 u

/-- The same concentrations, and other times of flight. -/
def retime (n : Nat) (f : Nat → R) (s : List R × List R) : List R × List R := ((List.range n).map f, s.2)

theorem still_retime {ρ : Rounded R K} {n : Nat} {B : Nat → K} {C : List Nat} {s1 : List R × List R} (hs : Ready ρ n s1)
    {f : Nat → R} {t : Nat → K} (hf : ∀ u < n, ρ.val (f u) = X.fin (t u) ∧ 0 ≤ t u ∧ t u * cn ρ s1 u ≤ B u)
    (ho : ∀ u < n, u ∉ C → t u = tn ρ s1 u) : Still ρ n B C s1 (retime n f s1) ∧ ∀ u < n, tn ρ (retime n f s1) u = t u := by
  have hget : ∀ u < n, (retime n f s1).1[u]? = some (f u) := by
    intro u hu
    unfold retime
    simp only
    rw [List.getElem?_map, List.getElem?_range hu]; rfl
  have htn : ∀ u < n, tn ρ (retime n f s1) u = t u := by
    intro u hu
    unfold tn
    rw [hget u hu, numOf_some (hf u hu).1]
  have hcn : ∀ u, cn ρ (retime n f s1) u = cn ρ s1 u := fun u => rfl
  refine ⟨⟨⟨⟨⟨?_, hs.proper.bounded.nonneg, hs.proper.bounded.le_one⟩, hs.proper.fin⟩, by simp [retime], hs.tracerLen⟩, ?_, hcn, ?_⟩, htn⟩
  · intro a ha
    unfold retime at ha
    simp only at ha
    obtain ⟨u, hu, rfl⟩ := List.mem_map.mp ha
    obtain ⟨h1, h2, _⟩ := hf u (List.mem_range.mp hu)
    rw [notNegative_iff ρ, h1]
    simp only [X.lt, decide_eq_false_iff_not, not_lt]
    exact h2
  · intro u hu
    obtain ⟨h1, h2, h3⟩ := hf u hu
    exact ⟨f u, hget u hu, by rw [htn u hu]; exact h1, by rw [htn u hu]; exact h2, by rw [htn u hu, hcn u]; exact h3⟩
  · intro u hu
    by_cases hn : u < n
    · rw [htn u hn]; exact ho u hn hu
    · unfold tn
      have h1 : (retime n f s1).1[u]? = none := List.getElem?_eq_none (by simp [retime]; omega)
      have h2 : s1.1[u]? = none := List.getElem?_eq_none (by rw [hs.tofLen]; omega)
      rw [h1, h2]

namespace Setting
variable {ρ : Rounded R K} {q : K} {d : SolverData R} {F : Flow K} {M : Nat} {isStart : List Bool} {ls : List R}
  {S : Nat → Prop} {inj x h : Nat → K} {H φ : K} (A : Setting ρ q d F M isStart ls S inj x h H φ)
  {μ : K} {C : List Nat} {s0 : List R × List R} (B : Cycle ρ q F M S inj x h H φ μ C s0)
include A B

/-- Concentrations settle. -/
theorem conc_limit : ∃ N, (∀ k, N ≤ k → ∀ u, cn ρ ((Climb.sweep (after d isStart ls) C)^[k] s0) u
      = cn ρ ((Climb.sweep (after d isStart ls) C)^[N] s0) u) ∧
    Climb.Rule.Fixed (after d isStart ls) (cn ρ) C ((Climb.sweep (after d isStart ls) C)^[N] s0) := by
  obtain ⟨N, h1, h2, _⟩ := (A.conc_rule B.cells).limit B.nodup A.values (by
    intro s hs u hu
    obtain ⟨_, c, _, _, h3, _⟩ := hs.at (B.cells u hu)
    exact ⟨c, h3⟩) B.ready (A.start_moment B).rises
  exact ⟨N, h1, h2⟩

/-- Settled concentrations are accurate. -/
theorem conc_acc {s : List R × List R} (hs : Moment ρ F d isStart ls S h H φ μ C s0 s)
    (hf : Climb.Rule.Fixed (after d isStart ls) (cn ρ) C s) : ∀ v ∈ C, S v → |cn ρ s v - x v| ≤ kappa q M * h v := by
  have hq := A.precise.one_le
  have hsl : 0 < slack K := by unfold slack; positivity
  have hk := A.kappa_nonneg
  have := Props.field_error A.valid (S := fun v => v ∈ C ∧ S v) (c := cn ρ s) (x := x) (q := inj) (r := fun v => kappa q M * F.total v)
    (b := fun v => kappa q M * h v) (by
      intro v hv ⟨hvC, hSv⟩
      have hT := A.total_pos hv hSv
      obtain ⟨p, hp, _, _, g1, _, g3, _⟩ := A.after_eq hs.ready hv
      have hy := (num_entry g1 g3).1
      have hy0 := (num_entry g1 g3).2.1
      have hy1 : cn ρ (after d isStart ls v s) v ≤ 1 := by
        obtain ⟨_, _, _, _, _, _, h⟩ := g1.at hv; exact h
      obtain ⟨y, hy', _, _, hpos⟩ := A.visit_conc hs.ready hv hp
      rw [hy] at hy'
      have e := X.fin.inj hy'
      rw [hf v hvC] at e hy0 hy1
      subst e
      obtain ⟨h1, h2, h3⟩ := hpos hT
      have h4 := h3.abs hq A.q4 hy0 hy1 (div_nonneg h1 hT.le) (by rw [_root_.div_le_one hT]; exact h2) hsl.le
      have h5 : q ^ (4 * M + 4) - 1 + 2 * slack K ≤ kappa q M := by
        unfold kappa
        have := tiny_pos (K := K)
        have : 0 ≤ (1 / 1000000000 * q + tiny K) * q := mul_nonneg (by linarith) (by linarith)
        linarith
      have e2 : (∑ u ∈ range F.n, cn ρ s u * F.w u v) + inj v - F.total v * cn ρ s v
          = -(F.total v * (cn ρ s v - ((∑ u ∈ range F.n, cn ρ s u * F.w u v) + inj v) / F.total v)) := by
        field_simp
        ring
      rw [e2, abs_neg, abs_mul, abs_of_pos hT, mul_comm]
      exact mul_le_mul_of_nonneg_right (h4.trans h5) hT.le) (fun v hv ⟨_, hSv⟩ => A.conc v hv hSv) (by
      intro v hv ⟨_, hSv⟩
      have h1 := A.depth v hv hSv
      have e : ∑ u ∈ range F.n, kappa q M * h u * F.w u v = kappa q M * ∑ u ∈ range F.n, h u * F.w u v := by
        rw [mul_sum]; exact sum_congr rfl fun _ _ => by ring
      rw [e]
      linear_combination (kappa q M) * h1) (by
      intro v ⟨hvC, _⟩ u hu
      by_cases hSu : S u
      · by_cases huC : u ∈ C
        · exact Or.inl ⟨huC, hSu⟩
        · right
          have e : cn ρ s u = cn ρ s0 u := by
            have := hs.frame u huC
            unfold cellAt at this
            unfold cn
            rw [(Prod.mk.inj this).2]
          rw [e]
          exact B.acc v hvC u hu huC hSu
      · right
        rw [hs.off u hu.1 hSu, A.conc0 u hu.1 hSu, A.depth0 u hu.1 hSu]
        simp) (fun v hv ⟨_, hSv⟩ => A.fed v hv hSv)
  exact fun v hv hSv => this v (B.cells v hv) ⟨hv, hSv⟩

/-- Times grow with those upstream. -/
theorem time_rule {s1 : List R × List R} (h1 : Moment ρ F d isStart ls S h H φ μ C s0 s1)
    (hf : Climb.Rule.Fixed (after d isStart ls) (cn ρ) C s1) :
    Climb.Rule (after d isStart ls) (tn ρ) C (Still ρ F.n (fun u => (4 * φ + 1) * h u) C s1) where
  keep := fun s v hv hs => by
    have hvn := B.cells v hv
    obtain ⟨p, hp, _, _, g1, g2, g3, g4⟩ := A.after_eq hs.ready hvn
    have hcv : cn ρ (after d isStart ls v s) v = cn ρ s1 v := (A.conc_congr hs.ready h1.ready hs.conc hvn).trans (hf v hv)
    have hcn : ∀ u, cn ρ (after d isStart ls v s) u = cn ρ s1 u := by
      intro u
      by_cases e : u = v
      · subst e; exact hcv
      · rw [← hs.conc u]; unfold cn; rw [(g4 u e).2]
    refine ⟨g1, ?_, hcn, ?_⟩
    · intro u hu
      by_cases e : u = v
      · subst e
        have hy := (num_entry g1 g3).1
        have hy1 : cn ρ (after d isStart ls u s) u ≤ 1 := by
          obtain ⟨_, _, _, _, _, _, h⟩ := g1.at hvn; exact h
        obtain ⟨t, t1, t2, t3⟩ := A.visit_bound hs.ready hs.timely hvn hp hy hy1 (by
          rw [hcv]
          by_cases h0 : cn ρ s1 u = 0
          · exact Or.inl h0
          · exact Or.inr (A.alive B h1 hv h0))
        have e : tn ρ (after d isStart ls u s) u = t := by unfold tn; rw [g2, numOf_some t1]
        exact ⟨p.1, g2, by rw [e]; exact t1, by rw [e]; exact t2, by rw [e]; exact t3⟩
      · obtain ⟨a, a1, a2, a3, a4⟩ := hs.timely u hu
        refine ⟨a, by rw [(g4 u e).1]; exact a1, ?_⟩
        have htu : tn ρ (after d isStart ls v s) u = tn ρ s u := by unfold tn; rw [(g4 u e).1]
        rw [htu, hcn u, ← hs.conc u]
        exact ⟨a2, a3, a4⟩
    · intro u hu
      have e : u ≠ v := fun e => hu (e ▸ hv)
      rw [← hs.time u hu]
      unfold tn; rw [(g4 u e).1]
  frame := fun s v hv hs u hu => by
    obtain ⟨p, _, _, _, _, _, _, h⟩ := A.after_eq hs.ready (B.cells v hv)
    unfold tn; rw [(h u hu).1]
  mono := fun s s' v hv hs hs' hle => by
    have hvn := B.cells v hv
    obtain ⟨p, hp, _, _, g1, g2, g3, g4⟩ := A.after_eq hs.ready hvn
    obtain ⟨p', hp', _, _, g1', g2', g3', g4'⟩ := A.after_eq hs'.ready hvn
    have key := A.time_mono hs.ready hs'.ready hs.timely hs'.timely (fun u => by rw [hs.conc, hs'.conc]) hle hvn hp hp'
    have fin : ∀ {s : List R × List R} {p : R × R}, Still ρ F.n (fun u => (4 * φ + 1) * h u) C s1 s →
        cellVals d isStart ls s (v : Int) = .ok p → Ready ρ F.n (after d isStart ls v s) →
        (after d isStart ls v s).1[v]? = some p.1 → (after d isStart ls v s).2[v]? = some p.2 →
        ρ.val p.1 = X.fin (tn ρ (after d isStart ls v s) v) := by
      intro s p hs hp g1 g2 g3
      have hcv : cn ρ (after d isStart ls v s) v = cn ρ s1 v := (A.conc_congr hs.ready h1.ready hs.conc hvn).trans (hf v hv)
      have hy := (num_entry g1 g3).1
      have hy1 : cn ρ (after d isStart ls v s) v ≤ 1 := by
        obtain ⟨_, _, _, _, _, _, h⟩ := g1.at hvn; exact h
      obtain ⟨t, t1, t2, t3⟩ := A.visit_bound hs.ready hs.timely hvn hp hy hy1 (by
        rw [hcv]
        by_cases h0 : cn ρ s1 v = 0
        · exact Or.inl h0
        · exact Or.inr (A.alive B h1 hv h0))
      have e : tn ρ (after d isStart ls v s) v = t := by unfold tn; rw [g2, numOf_some t1]
      rw [e]; exact t1
    rw [ρ.lt, fin hs hp g1 g2 g3, fin hs' hp' g1' g2' g3'] at key
    simpa only [X.lt, decide_eq_false_iff_not, not_lt] using key

/-- Two settled fields of times of flight differ little. -/
theorem time_gap {s1 lo hi : List R × List R} (h1 : Moment ρ F d isStart ls S h H φ μ C s0 s1)
    (hf : Climb.Rule.Fixed (after d isStart ls) (cn ρ) C s1)
    (hlo : Still ρ F.n (fun u => (4 * φ + 1) * h u) C s1 lo) (hhi : Still ρ F.n (fun u => (4 * φ + 1) * h u) C s1 hi)
    (flo : Climb.Rule.Fixed (after d isStart ls) (tn ρ) C lo) (fhi : Climb.Rule.Fixed (after d isStart ls) (tn ρ) C hi)
    (hle : ∀ u, tn ρ lo u ≤ tn ρ hi u) : ∀ v ∈ C, tn ρ hi v - tn ρ lo v ≤ cap / 4000000000000 := by
  set r := 4 * ((4 * φ + 1) * H) * (q ^ (4 * M + 6) - 1) + 7 * climbSlack K with hr
  have hη := A.eta_nonneg
  have hε := climbSlack_pos (K := K)
  have hα := A.alpha_pos
  have hH := A.one_le
  have hφ := A.fill_nonneg
  have hr0 : 0 < r := by
    have : 0 ≤ 4 * ((4 * φ + 1) * H) * (q ^ (4 * M + 6) - 1) := mul_nonneg (mul_nonneg (by norm_num) (mul_nonneg hα.le (by linarith))) hη
    linarith
  have hacc := A.conc_acc B h1 hf
  have hcapgap : (0 : K) ≤ cap / 4000000000000 := by unfold cap; positivity
  -- the values of a visit
  have vis : ∀ {s : List R × List R}, Still ρ F.n (fun u => (4 * φ + 1) * h u) C s1 s →
      Climb.Rule.Fixed (after d isStart ls) (tn ρ) C s → ∀ v ∈ C, ∃ p, cellVals d isStart ls s (v : Int) = .ok p ∧
        ρ.val p.2 = X.fin (cn ρ s1 v) ∧ ∀ t, ρ.val p.1 = X.fin t → t = tn ρ s v := by
    intro s hs hfs v hv
    have hvn := B.cells v hv
    obtain ⟨p, hp, _, _, g1, g2, g3, _⟩ := A.after_eq hs.ready hvn
    have hcv : cn ρ (after d isStart ls v s) v = cn ρ s1 v := (A.conc_congr hs.ready h1.ready hs.conc hvn).trans (hf v hv)
    refine ⟨p, hp, by rw [← hcv]; exact (num_entry g1 g3).1, ?_⟩
    intro t ht
    rw [← hfs v hv]
    unfold tn; rw [g2, numOf_some ht]
  have hc0 : ∀ u < F.n, 0 ≤ cn ρ s1 u := fun u hu => by
    obtain ⟨_, _, _, _, _, h, _⟩ := h1.ready.at hu; exact h
  have hc1 : ∀ u < F.n, cn ρ s1 u ≤ 1 := fun u hu => by
    obtain ⟨_, _, _, _, _, _, h⟩ := h1.ready.at hu; exact h
  set e : Nat → K := fun v => cn ρ s1 v * (tn ρ hi v - tn ρ lo v) with he
  have he0 : ∀ u < F.n, 0 ≤ e u := fun u hu => mul_nonneg (hc0 u hu) (by linarith [hle u])
  have hbal : ∀ v < F.n, v ∈ C ∧ S v → F.total v * e v ≤ (∑ u ∈ range F.n, e u * F.w u v) + F.total v * r := by
    intro v hvn ⟨hv, hSv⟩
    obtain ⟨pl, l1, l2, l3⟩ := vis hlo flo v hv
    obtain ⟨ph, p1, p2, p3⟩ := vis hhi fhi v hv
    obtain ⟨_, hcp, hxp⟩ := A.half hvn hSv (hacc v hv hSv)
    have hc : 0 < cn ρ s1 v := lt_of_lt_of_le (div_pos one_pos (by linarith)) hcp
    have hbig := (A.alive B h1 hv hc.ne').1
    obtain ⟨hT, sl, fl⟩ := A.visit_time hlo.ready hlo.timely hvn l1 l2 (hc1 v hvn) hbig
    obtain ⟨_, sh, fh⟩ := A.visit_time hhi.ready hhi.timely hvn p1 p2 (hc1 v hvn) hbig
    have hsum0 : 0 ≤ ∑ u ∈ range F.n, e u * F.w u v :=
      sum_nonneg fun u hu => mul_nonneg (he0 u (mem_range.mp hu)) (A.w_nonneg (mem_range.mp hu) hvn)
    by_cases hsl : Slow d isStart v
    · have e1 := l3 _ (sl hsl).1
      have e2 := p3 _ (sh hsl).1
      have e3 : e v = 0 := by rw [he]; simp only; rw [← e1, ← e2, sub_self, mul_zero]
      rw [e3, mul_zero]
      exact add_nonneg hsum0 (mul_nonneg hT.le hr0.le)
    obtain ⟨tl, tl1, tl0, offl⟩ := fl hsl
    obtain ⟨th, th1, th0, offh⟩ := fh hsl
    have e1 := l3 _ tl1
    have e2 := p3 _ th1
    subst e1
    subst e2
    simp only [hlo.conc, hhi.conc] at offl offh
    set c := cn ρ s1 v with hcd
    set Q := q ^ (4 * M + 6) with hQ
    have hQ2 : Q ≤ 2 := A.power
    set Sl := ∑ u ∈ range F.n, tn ρ lo u * cn ρ s1 u * F.w u v with hSl
    set Sh := ∑ u ∈ range F.n, tn ρ hi u * cn ρ s1 u * F.w u v with hSh
    have hdiff : Sh - Sl = ∑ u ∈ range F.n, e u * F.w u v := by
      rw [hSl, hSh, ← sum_sub_distrib]
      exact sum_congr rfl fun u _ => by rw [he]; simp only; ring
    -- scaled
    have hTc : 0 < F.total v * c := mul_pos hT hc
    have eh : c * ((F.pv v * c + Sh) / (F.total v * c)) = (F.pv v * c + Sh) / F.total v := by field_simp
    have el : c * ((F.pv v * c + Sl) / (F.total v * c)) = (F.pv v * c + Sl) / F.total v := by field_simp
    have hGh : (F.pv v * c + Sh) / F.total v ≤ (4 * φ + 1) * H := by
      rw [div_le_iff₀ hT]
      have g1 := A.fill v hvn hSv
      have g2 : F.pv v * c ≤ F.pv v * 1 := mul_le_mul_of_nonneg_left (hc1 v hvn) (A.sized v hvn).pv.nonneg
      have g3 : Sh ≤ (4 * φ + 1) * (F.total v * (h v - 1)) := by
        have g4 := A.depth v hvn hSv
        have g5 : F.total v * (h v - 1) = ∑ u ∈ range F.n, h u * F.w u v := by rw [mul_sub, g4]; ring
        rw [g5, mul_sum]
        refine sum_le_sum fun u hu => ?_
        have hu := mem_range.mp hu
        obtain ⟨_, _, _, _, g6⟩ := hhi.timely u hu
        rw [hhi.conc] at g6
        rw [← mul_assoc]
        exact mul_le_mul_of_nonneg_right g6 (A.w_nonneg hu hvn)
      have g4 := A.h_le hvn hSv
      have g5 : (4 * φ + 1) * (F.total v * (h v - 1)) ≤ (4 * φ + 1) * (F.total v * (H - 1)) :=
        mul_le_mul_of_nonneg_left (mul_le_mul_of_nonneg_left (by linarith) hT.le) hα.le
      have g6 : φ * F.total v ≤ (4 * φ + 1) * F.total v := mul_le_mul_of_nonneg_right (by linarith) hT.le
      have g7 : (4 * φ + 1) * H * F.total v = (4 * φ + 1) * (F.total v * (H - 1)) + (4 * φ + 1) * F.total v := by ring
      linarith
    have hlc : tn ρ lo v * c ≤ (4 * φ + 1) * H := by
      obtain ⟨_, _, _, _, g6⟩ := hlo.timely v hvn
      rw [hlo.conc] at g6
      exact g6.trans (mul_le_mul_of_nonneg_left (A.h_le hvn hSv) hα.le)
    have hcle := hc1 v hvn
    have k1 : c * tn ρ hi v ≤ ((F.pv v * c + Sh) / F.total v + climbSlack K) * Q := by
      have := mul_le_mul_of_nonneg_left offh.2 hc.le
      rw [← mul_assoc, mul_add, eh] at this
      refine this.trans (mul_le_mul_of_nonneg_right ?_ (by linarith))
      have : c * climbSlack K ≤ 1 * climbSlack K := mul_le_mul_of_nonneg_right hcle hε.le
      linarith
    have k2 : (F.pv v * c + Sl) / F.total v ≤ (tn ρ lo v * c + climbSlack K) * Q := by
      have := mul_le_mul_of_nonneg_left offl.1 hc.le
      rw [el, ← mul_assoc, mul_add] at this
      refine this.trans (mul_le_mul_of_nonneg_right ?_ (by linarith))
      have : c * climbSlack K ≤ 1 * climbSlack K := mul_le_mul_of_nonneg_right hcle hε.le
      linarith [mul_comm c (tn ρ lo v)]
    have k3 : (F.pv v * c + Sh) / F.total v * (Q - 1) ≤ (4 * φ + 1) * H * (Q - 1) := mul_le_mul_of_nonneg_right hGh hη
    have k4 : tn ρ lo v * c * (Q - 1) ≤ (4 * φ + 1) * H * (Q - 1) := mul_le_mul_of_nonneg_right hlc hη
    have k5 : climbSlack K * Q ≤ climbSlack K * 2 := mul_le_mul_of_nonneg_left hQ2 hε.le
    have k6 : e v ≤ (Sh - Sl) / F.total v + r := by
      have e3 : (Sh - Sl) / F.total v = (F.pv v * c + Sh) / F.total v - (F.pv v * c + Sl) / F.total v := by field_simp; ring
      have e4 : e v = c * tn ρ hi v - tn ρ lo v * c := by rw [he]; simp only; ring
      rw [e3, e4, hr]
      have e5 : ((F.pv v * c + Sh) / F.total v + climbSlack K) * Q
          = (F.pv v * c + Sh) / F.total v + (F.pv v * c + Sh) / F.total v * (Q - 1) + climbSlack K * Q := by ring
      have e6 : (tn ρ lo v * c + climbSlack K) * Q = tn ρ lo v * c + tn ρ lo v * c * (Q - 1) + climbSlack K * Q := by ring
      have e7 : 0 ≤ (4 * φ + 1) * H * (Q - 1) := mul_nonneg (mul_nonneg hα.le (by linarith)) hη
      have e8 : 4 * ((4 * φ + 1) * H) * (Q - 1) = 4 * ((4 * φ + 1) * H * (Q - 1)) := by ring
      rw [e8]
      rw [e5] at k1
      rw [e6] at k2
      linarith
    rw [← hdiff]
    have k7 := mul_le_mul_of_nonneg_left k6 hT.le
    have e9 : F.total v * ((Sh - Sl) / F.total v + r) = Sh - Sl + F.total v * r := by field_simp
    rw [e9] at k7
    exact k7
  have hmax := Props.max_principle A.valid (S := fun v => v ∈ C ∧ S v) (e := fun v => e v - r * h v) (by
      intro v hv hn
      have hrh := mul_nonneg hr0.le (A.h_nonneg v hv)
      have : e v = 0 := by
        by_cases hC : v ∈ C
        · have hS : ¬ S v := fun hS => hn ⟨hC, hS⟩
          rw [he]; simp only; rw [h1.off v hv hS, zero_mul]
        · rw [he]; simp only; rw [hlo.time v hC, hhi.time v hC, sub_self, mul_zero]
      linarith) (by
      intro v hv hS
      have g1 := hbal v hv hS
      have g2 := A.depth v hv hS.2
      have e1 : ∑ u ∈ range F.n, (e u - r * h u) * F.w u v = (∑ u ∈ range F.n, e u * F.w u v) - r * ∑ u ∈ range F.n, h u * F.w u v := by
        rw [mul_sum, ← sum_sub_distrib]; exact sum_congr rfl fun _ _ => by ring
      rw [e1]
      have e2 : F.total v * (e v - r * h v) = F.total v * e v - r * (F.total v * h v) := by ring
      rw [e2, g2]
      linarith) (fun v hv ⟨_, hS⟩ => A.fed v hv hS)
  intro v hv
  have hvn := B.cells v hv
  by_cases hSv : S v
  · obtain ⟨g1, _, g3⟩ := A.half hvn hSv (hacc v hv hSv)
    have g4 := hmax v hvn
    have g5 := A.bound v hvn hSv
    have hx2 : 0 < x v / 2 := half_pos g3
    have hd : 0 ≤ tn ρ hi v - tn ρ lo v := by linarith [hle v]
    have g6 : x v / 2 * (tn ρ hi v - tn ρ lo v) ≤ e v := mul_le_mul_of_nonneg_right g1 hd
    have g7 : r * h v ≤ r * (H * x v) := mul_le_mul_of_nonneg_left g5 hr0.le
    have g8 : x v / 2 * (tn ρ hi v - tn ρ lo v) ≤ x v / 2 * (2 * H * r) := by
      have e1 : x v / 2 * (2 * H * r) = r * (H * x v) := by ring
      rw [e1]; linarith
    exact (le_of_mul_le_mul_left g8 hx2).trans A.gap
  · obtain ⟨pl, l1, l2, l3⟩ := vis hlo flo v hv
    obtain ⟨ph, p1, p2, p3⟩ := vis hhi fhi v hv
    rw [h1.off v hvn hSv] at l2 p2
    have e1 := l3 _ (A.visit_cap l1 l2)
    have e2 := p3 _ (A.visit_cap p1 p2)
    rw [← e1, ← e2, sub_self]
    exact hcapgap

end Setting
end Verif.Rounding
