/-
An explicit number of sweeps after which the iterations on a cycle have ended.
-/
import Verif.Proofs.ClimbRate

namespace Verif.Rounding
set_option linter.unusedSectionVars false
open Finset Verif.Spec Verif.Solver Verif.Toolbox Verif.Tarjan

variable {R : Type} [Arith R] {K : Type} [Field K] [LinearOrder K] [IsStrictOrderedRing K]

/-- How far the values of `s` in a cell are from settled ones. -/
structure Lag (ρ : Rounded R K) (q : K) (M : Nat) (S : Nat → Prop) (h : Nat → K) (H φ : K) (C : List Nat) (s1 lo : List R × List R)
    (n k : Nat) (s : List R × List R) (u : Nat) : Prop where
  conc : u < n → |cn ρ s u - cn ρ s1 u| ≤ ((1 - 1 / H) ^ k + grain q M) * h u
  tau : u < n → |tn ρ s u * cn ρ s u - tn ρ lo u * cn ρ s1 u| ≤ ((4 * φ + 1) * (H + k) * (1 - 1 / H) ^ k + rest q M H φ) * h u
  cap : u ∈ C → ¬ S u → 1 ≤ k → tn ρ s u = cap

namespace Setting
variable {ρ : Rounded R K} {q : K} {d : SolverData R} {F : Flow K} {M : Nat} {isStart : List Bool} {ls : List R}
  {S : Nat → Prop} {inj x h : Nat → K} {H φ : K} (A : Setting ρ q d F M isStart ls S inj x h H φ)
include A

variable {μ : K} {C : List Nat} {s0 : List R × List R} (B : Cycle ρ q F M S inj x h H φ μ C s0)
include B

/-- A cell stays without tracer only if there is none upstream. -/
theorem zero_upstream {s : List R × List R} (hs : Moment ρ F d isStart ls S h H φ μ C s0 s) {v : Nat} (hv : v ∈ C)
    (h0 : cn ρ (after d isStart ls v s) v = 0) : ∀ u, F.Edge u v → cn ρ s u = 0 := by
  classical
  intro u hu
  have hvn := B.cells v hv
  by_contra hne
  have hSu : S u := by_contra fun hn => hne (hs.off u hu.1 hn)
  have hSv := A.closed u v hu hSu
  have hT := A.total_pos hvn hSv
  obtain ⟨p, hp, _, _, g1, _, g3, _⟩ := A.after_eq hs.ready hvn
  have hy := (num_entry g1 g3).1
  rw [h0] at hy
  have hcv : cn ρ s v = 0 := by
    have h1 := hs.rises v hv
    rw [h0] at h1
    obtain ⟨_, _, _, _, _, h2, _⟩ := hs.ready.at hvn
    exact le_antisymm h1 h2
  have hle : nz ρ C s + 1 ≤ C.length := by
    refine le_trans ?_ (List.toFinset_card_le C)
    unfold nz
    apply card_lt_card
    rw [ssubset_iff_of_subset (filter_subset _ _)]
    exact ⟨v, List.mem_toFinset.mpr hv, by simp [hcv]⟩
  obtain ⟨w1, _⟩ := B.weights v hv hSv
  obtain ⟨f1, f2, f3⟩ := A.floor_pos B
  set b := 1 / (2 * H) * (μ / 4) ^ nz ρ C s with hb
  have hb0 : 0 < b := mul_pos f1 (pow_pos f2 _)
  have hbu : b ≤ cn ρ s u := by
    by_cases hc : u ∈ C
    · exact (hs.low u hc).resolve_left hne
    · have e : cn ρ s u = cn ρ s0 u := by
        have := hs.frame u hc
        unfold cellAt at this
        unfold cn
        rw [(Prod.mk.inj this).2]
      have := (A.half hu.1 hSu (B.acc v hv u hu hc hSu)).2.1
      rw [e]
      refine le_trans ?_ this
      rw [hb]
      exact mul_le_of_le_one_right f1.le (pow_le_one₀ f2.le f3)
  have hnn : ∀ u ∈ range F.n, 0 ≤ cn ρ s u * F.w u v := by
    intro u hu
    have hu := mem_range.mp hu
    obtain ⟨_, c, _, h2, h3, h4, _⟩ := hs.ready.at hu
    exact mul_nonneg h4 (A.w_nonneg hu hvn)
  have h2 : b * (μ * F.total v) ≤ cn ρ s u * F.w u v :=
    mul_le_mul hbu (w1 u hu) (mul_nonneg B.mu_pos.le hT.le) (hb0.le.trans hbu)
  have hmix : b * (μ * F.total v) ≤ (∑ u ∈ range F.n, cn ρ s u * F.w u v) + inj v := by
    have := single_le_sum hnn (mem_range.mpr hu.1)
    have := (A.injected v hvn).1
    linarith
  obtain ⟨y, hy', _, _, hpos⟩ := A.visit_conc hs.ready hvn hp
  rw [hy] at hy'
  have e := X.fin.inj hy'
  subst e
  obtain ⟨_, _, hoff⟩ := hpos hT
  have h3 := hoff.1
  have hsl : 0 < slack K := by unfold slack; positivity
  have h4 : b * μ ≤ ((∑ u ∈ range F.n, cn ρ s u * F.w u v) + inj v) / F.total v := by
    rw [le_div_iff₀ hT, mul_assoc]; exact hmix
  have h5 : (0 + slack K) * q ^ (4 * M + 4) ≤ (0 + slack K) * 2 := mul_le_mul_of_nonneg_left A.q4 (by linarith)
  have h6 : slack K ≤ 1 / (2 * H) * (μ / 4) ^ (nz ρ C s + 1) := by
    have h6 := A.floor_le B hle
    unfold slack
    rw [div_le_iff₀ (two_pow_pos' 700)]
    refine h6.trans (mul_le_mul_of_nonneg_left (pow_le_pow_right₀ one_le_two (by norm_num)) ?_)
    exact mul_nonneg f1.le (pow_nonneg f2.le _)
  have e1 : b * μ = 4 * (1 / (2 * H) * (μ / 4) ^ (nz ρ C s + 1)) := by rw [hb, pow_succ]; ring
  linarith

/-- There are values at which both fields rest. -/
theorem settled : ∃ s1 lo, Moment ρ F d isStart ls S h H φ μ C s0 s1 ∧ Climb.Rule.Fixed (after d isStart ls) (cn ρ) C s1 ∧
    Still ρ F.n (fun u => (4 * φ + 1) * h u) C s1 lo ∧ Climb.Rule.Fixed (after d isStart ls) (tn ρ) C lo := by
  classical
  obtain ⟨N, _, hf⟩ := A.conc_limit B
  have h1 := A.moment_iter B N
  set s1 := (Climb.sweep (after d isStart ls) C)^[N] s0 with hs1
  have hrule := A.time_rule B h1 hf
  have hex : ∀ u : Nat, ∃ f : R, u < F.n → ρ.val f = X.fin (tn ρ s1 u) := by
    intro u
    by_cases hu : u < F.n
    · obtain ⟨a, _, a2, _⟩ := h1.timely u hu
      exact ⟨a, fun _ => a2⟩
    · exact ⟨Arith.zero, fun h => absurd h hu⟩
  choose fh hh using hex
  obtain ⟨hlo1, hlo2⟩ := still_retime (ρ := ρ) (B := fun u => (4 * φ + 1) * h u) (C := C) h1.ready
    (f := fun u => if u ∈ C then Arith.zero else fh u) (t := fun u => if u ∈ C then 0 else tn ρ s1 u) (by
      intro u hu
      by_cases hC : u ∈ C
      · simp only [if_pos hC]
        exact ⟨val_zero' ρ, le_rfl, by rw [zero_mul]; exact mul_nonneg A.alpha_pos.le (A.h_nonneg u hu)⟩
      · simp only [if_neg hC]
        obtain ⟨a, _, a2, a3, a4⟩ := h1.timely u hu
        exact ⟨hh u hu, a3, a4⟩) (by
      intro u hu hC
      simp only [if_neg hC])
  set a := retime F.n (fun u => if u ∈ C then Arith.zero else fh u) s1 with ha
  obtain ⟨N2, _, k2, _⟩ := hrule.limit B.nodup A.values (by
      intro s hs u hu
      obtain ⟨c, _, c2, _⟩ := hs.timely u (B.cells u hu)
      exact ⟨c, c2⟩) hlo1 (by
      intro v hv
      rw [hlo2 v (B.cells v hv), if_pos hv]
      obtain ⟨_, _, _, c3, _⟩ := (hrule.keep a v hv hlo1).timely v (B.cells v hv)
      exact c3)
  exact ⟨s1, _, h1, hf, hrule.keep_iter hlo1 N2, k2⟩

variable {s1 lo : List R × List R} (h1 : Moment ρ F d isStart ls S h H φ μ C s0 s1)
  (hf : Climb.Rule.Fixed (after d isStart ls) (cn ρ) C s1) (hlo : Still ρ F.n (fun u => (4 * φ + 1) * h u) C s1 lo)
  (flo : Climb.Rule.Fixed (after d isStart ls) (tn ρ) C lo)
include h1 hf hlo flo

omit hf flo in
/-- At the start. -/
theorem lag_zero (u : Nat) : Lag ρ q M S h H φ C s1 lo F.n 0 s0 u := by
  have hε := A.grain_nonneg
  have hj := A.jolt_nonneg
  have hα := A.alpha_pos
  have hH := A.one_le
  have hr : 0 ≤ rest q M H φ := by
    unfold rest
    have := mul_nonneg (mul_nonneg hα.le hε) (zero_le_one.trans hH)
    linarith
  refine ⟨fun hu => ?_, fun hu => ?_, fun _ _ h => absurd h (by omega)⟩
  · have hh := A.h_nonneg u hu
    by_cases hC : u ∈ C
    · by_cases hS : S u
      · have h2 := A.h_ge hu hS
        obtain ⟨_, _, _, _, _, g1, g2⟩ := h1.ready.at hu
        rw [(B.zero u hC).1, zero_sub, abs_neg, pow_zero]
        have e : |cn ρ s1 u| ≤ 1 := by rw [abs_le]; exact ⟨by linarith [show 0 ≤ cn ρ s1 u from g1], g2⟩
        have : 1 * h u ≤ (1 + grain q M) * h u := mul_le_mul_of_nonneg_right (by linarith) hh
        linarith
      · rw [(B.zero u hC).1, h1.off u hu hS, sub_self, abs_zero, A.depth0 u hu hS, mul_zero]
    · have e : cn ρ s1 u = cn ρ s0 u := by
        have := h1.frame u hC
        unfold cellAt at this
        unfold cn
        rw [(Prod.mk.inj this).2]
      rw [e, sub_self, abs_zero, pow_zero]
      exact mul_nonneg (by linarith) hh
  · have hh := A.h_nonneg u hu
    by_cases hC : u ∈ C
    · rw [(B.zero u hC).1, mul_zero, zero_sub, abs_neg]
      obtain ⟨_, _, _, g1, g2⟩ := hlo.timely u hu
      obtain ⟨_, _, _, _, _, g3, _⟩ := h1.ready.at hu
      rw [hlo.conc] at g2
      rw [abs_of_nonneg (mul_nonneg g1 (show 0 ≤ cn ρ s1 u from g3)), pow_zero, mul_one, Nat.cast_zero, add_zero]
      refine g2.trans (mul_le_mul_of_nonneg_right ?_ hh)
      have : (4 * φ + 1) * 1 ≤ (4 * φ + 1) * H := mul_le_mul_of_nonneg_left hH hα.le
      linarith
    · have e := h1.frame u hC
      unfold cellAt at e
      obtain ⟨e1, e2⟩ := Prod.mk.inj e
      have e3 : cn ρ s1 u = cn ρ s0 u := by unfold cn; rw [e2]
      have e4 : tn ρ lo u = tn ρ s0 u := by rw [hlo.time u hC]; unfold tn; rw [e1]
      rw [e3, e4, sub_self, abs_zero, pow_zero, mul_one, Nat.cast_zero, add_zero]
      exact mul_nonneg (add_nonneg (mul_nonneg hα.le (by linarith)) hr) hh

omit B h1 hf hlo flo in
/-- The bounds decrease. -/
theorem lag_down {k : Nat} {s : List R × List R} {u : Nat} (hl : Lag ρ q M S h H φ C s1 lo F.n (k + 1) s u) :
    Lag ρ q M S h H φ C s1 lo F.n k s u := by
  obtain ⟨r0, r1⟩ := A.ratio
  have hα := A.alpha_pos
  have hH := A.one_le
  have hP : 0 ≤ (1 - 1 / H) ^ k := pow_nonneg r0 k
  refine ⟨fun hu => (hl.conc hu).trans (mul_le_mul_of_nonneg_right ?_ (A.h_nonneg u hu)),
    fun hu => (hl.tau hu).trans (mul_le_mul_of_nonneg_right ?_ (A.h_nonneg u hu)), fun g1 g2 _ => hl.cap g1 g2 (by omega)⟩
  · have : (1 - 1 / H) ^ (k + 1) ≤ (1 - 1 / H) ^ k := pow_le_pow_of_le_one r0 r1 (by omega)
    linarith
  · have e : (H + (k + 1 : ℕ)) * (1 - 1 / H) ≤ H + k := by
      have h2 : (0 : K) ≤ ((k : K) + 1) / H := div_nonneg (by positivity) (by linarith)
      have e : (H + (k + 1 : ℕ)) * (1 - 1 / H) = H + k - ((k : K) + 1) / H := by
        push_cast
        field_simp
        ring
      rw [e]; linarith
    have : (4 * φ + 1) * (H + (k + 1 : ℕ)) * (1 - 1 / H) ^ (k + 1) ≤ (4 * φ + 1) * (H + k) * (1 - 1 / H) ^ k := by
      have e2 : (4 * φ + 1) * (H + (k + 1 : ℕ)) * (1 - 1 / H) ^ (k + 1)
          = (4 * φ + 1) * ((H + (k + 1 : ℕ)) * (1 - 1 / H)) * (1 - 1 / H) ^ k := by rw [pow_succ]; ring
      rw [e2]
      exact mul_le_mul_of_nonneg_right (mul_le_mul_of_nonneg_left e hα.le) hP
    linarith

/-- A visit reduces the error. -/
theorem lag_gain {k : Nat} {s : List R × List R} (hs : Moment ρ F d isStart ls S h H φ μ C s0 s) {v : Nat} (hv : v ∈ C)
    (hl : ∀ u, Lag ρ q M S h H φ C s1 lo F.n k s u) : Lag ρ q M S h H φ C s1 lo F.n (k + 1) (after d isStart ls v s) v := by
  have hvn := B.cells v hv
  have hs' := A.step B hs hv
  obtain ⟨p, hp, _, _, g1, g2, g3, _⟩ := A.after_eq hs.ready hvn
  have hy := (num_entry g1 g3).1
  obtain ⟨r0, r1⟩ := A.ratio
  have hα := A.alpha_pos
  have hH := A.one_le
  have hφ := A.fill_nonneg
  have hε := A.grain_nonneg
  have hP : 0 ≤ (1 - 1 / H) ^ k := pow_nonneg r0 k
  by_cases hS : S v
  swap
  · have e0 := hs'.off v hvn hS
    rw [e0] at hy
    refine ⟨fun _ => ?_, fun _ => ?_, fun _ _ _ => ?_⟩
    · rw [e0, h1.off v hvn hS, A.depth0 v hvn hS]; simp
    · rw [e0, h1.off v hvn hS, A.depth0 v hvn hS]; simp
    · have := A.visit_cap hp hy
      unfold tn; rw [g2, numOf_some this]
  have hT := A.total_pos hvn hS
  have hr := A.ratio_step hvn hS
  have hh1 := A.h_ge hvn hS
  have hhH := A.h_le hvn hS
  have hconc : |cn ρ (after d isStart ls v s) v - cn ρ s1 v| ≤ ((1 - 1 / H) ^ (k + 1) + grain q M) * h v := by
    have h2 := A.conc_step hs.ready h1.ready hvn hS (b := (1 - 1 / H) ^ k + grain q M) (fun u hu => (hl u).conc hu)
    rw [hf v hv] at h2
    refine h2.trans ?_
    have h3 := mul_le_mul_of_nonneg_left hr hP
    rw [pow_succ]
    have e : ((1 - 1 / H) ^ k * (1 - 1 / H) + grain q M) * h v
        = (1 - 1 / H) ^ k * ((1 - 1 / H) * h v) + grain q M * h v := by ring
    rw [e]
    linarith
  refine ⟨fun _ => hconc, fun _ => ?_, fun _ hn => absurd hS hn⟩
  -- the settled values
  have hrule := A.time_rule B h1 hf
  have hlo' := hrule.keep lo v hv hlo
  obtain ⟨p', hp', _, _, g1', g2', g3', _⟩ := A.after_eq hlo.ready hvn
  have hy' := (num_entry g1' g3').1
  rw [hlo'.conc] at hy'
  have hc1 : cn ρ s1 v ≤ 1 := by obtain ⟨_, _, _, _, _, _, h⟩ := h1.ready.at hvn; exact h
  have hy1 : cn ρ (after d isStart ls v s) v ≤ 1 := by obtain ⟨_, _, _, _, _, _, h⟩ := g1.at hvn; exact h
  have hacc := A.conc_acc B h1 hf
  obtain ⟨_, hcp, _⟩ := A.half hvn hS (hacc v hv hS)
  have hc0 : 0 < cn ρ s1 v := lt_of_lt_of_le (div_pos one_pos (by linarith)) hcp
  have hbig := (A.alive B h1 hv hc0.ne').1
  obtain ⟨a, a1, a2, a3, a4⟩ := hs'.timely v hvn
  rw [g2] at a1; cases a1
  obtain ⟨a, b1, b2, b3, b4⟩ := hlo'.timely v hvn
  rw [g2'] at b1; cases b1
  rw [flo v hv] at b2 b3 b4
  rw [hlo'.conc] at b4
  obtain ⟨t1, t2⟩ := A.tau_step hs.ready hs.timely hvn hS hp hy hy1 a2 a4 (by
    by_cases h0 : cn ρ (after d isStart ls v s) v = 0
    · exact Or.inl ⟨h0, A.zero_upstream B hs hv h0⟩
    · exact Or.inr (A.alive B hs' hv h0).1)
  obtain ⟨t3, t4⟩ := A.tau_step hlo.ready hlo.timely hvn hS hp' hy' hc1 b2 b4 (Or.inr hbig)
  set y := cn ρ (after d isStart ls v s) v with hyd
  set c := cn ρ s1 v with hcd
  set t := tn ρ (after d isStart ls v s) v with htd
  set P := (1 - 1 / H) ^ k with hPd
  have hd : (4 * φ + 1) * |y - c| ≤ (4 * φ + 1) * ((P * (1 - 1 / H) + grain q M) * h v) := by
    rw [pow_succ] at hconc
    exact mul_le_mul_of_nonneg_left hconc hα.le
  have hgoal : (4 * φ + 1) * |y - c| + ((4 * φ + 1) * (H + k) * P + rest q M H φ) * (h v - 1) + 2 * jolt q M H φ
      ≤ ((4 * φ + 1) * (H + (k + 1 : ℕ)) * (1 - 1 / H) ^ (k + 1) + rest q M H φ) * h v := by
    have h2 : (4 * φ + 1) * (H + k) * P * (h v - 1) ≤ (4 * φ + 1) * (H + k) * P * ((1 - 1 / H) * h v) :=
      mul_le_mul_of_nonneg_left hr (mul_nonneg (mul_nonneg hα.le (by positivity)) hP)
    have h3 : (4 * φ + 1) * grain q M * h v ≤ (4 * φ + 1) * grain q M * H :=
      mul_le_mul_of_nonneg_left hhH (mul_nonneg hα.le hε)
    have e : ((4 * φ + 1) * (H + (k + 1 : ℕ)) * (1 - 1 / H) ^ (k + 1) + rest q M H φ) * h v
        = (4 * φ + 1) * (H + k) * P * ((1 - 1 / H) * h v) + (4 * φ + 1) * (P * (1 - 1 / H) * h v) + rest q M H φ * h v := by
      rw [pow_succ]; push_cast; ring
    have e2 : (4 * φ + 1) * ((P * (1 - 1 / H) + grain q M) * h v)
        = (4 * φ + 1) * (P * (1 - 1 / H) * h v) + (4 * φ + 1) * grain q M * h v := by ring
    rw [e2] at hd
    have e3 : ((4 * φ + 1) * (H + k) * P + rest q M H φ) * (h v - 1)
        = (4 * φ + 1) * (H + k) * P * (h v - 1) + rest q M H φ * h v - rest q M H φ := by ring
    rw [e, e3]
    have e4 : rest q M H φ = (4 * φ + 1) * grain q M * H + 2 * jolt q M H φ := rfl
    linarith
  refine le_trans ?_ hgoal
  have hrest : 0 ≤ rest q M H φ := by
    unfold rest
    have := mul_nonneg (mul_nonneg hα.le hε) (zero_le_one.trans hH)
    have := A.jolt_nonneg
    linarith
  have hmid : 0 ≤ ((4 * φ + 1) * (H + k) * P + rest q M H φ) * (h v - 1) :=
    mul_nonneg (add_nonneg (mul_nonneg (mul_nonneg hα.le (by positivity)) hP) hrest) (by linarith)
  have hjolt := A.jolt_nonneg
  by_cases hsl : Slow d isStart v
  · rw [t1 hsl, t3 hsl, ← mul_sub, abs_mul]
    obtain ⟨_, hcap, _⟩ := A.visit_time hlo.ready hlo.timely hvn hp' hy' hc1 hbig
    have h2 := (hcap hsl).2
    have h3 := A.fill v hvn hS
    have hcap4 : (cap : K) ≤ 4 * φ := le_of_mul_le_mul_right (by linarith) hT
    have hcap0 : (0 : K) ≤ cap := by unfold cap; positivity
    rw [abs_of_nonneg hcap0]
    have h4 : cap * |y - c| ≤ (4 * φ + 1) * |y - c| := mul_le_mul_of_nonneg_right (by linarith) (abs_nonneg _)
    linarith
  · have k1 := t2 hsl
    have k2 := t4 hsl
    simp only [hlo.conc] at k2
    have k3 : |(F.pv v * y + ∑ u ∈ range F.n, tn ρ s u * cn ρ s u * F.w u v) / F.total v
        - (F.pv v * c + ∑ u ∈ range F.n, tn ρ lo u * cn ρ s1 u * F.w u v) / F.total v|
        ≤ (4 * φ + 1) * |y - c| + ((4 * φ + 1) * (H + k) * P + rest q M H φ) * (h v - 1) := by
      rw [← sub_div, abs_div, abs_of_pos hT, div_le_iff₀ hT]
      have e : F.pv v * y + ∑ u ∈ range F.n, tn ρ s u * cn ρ s u * F.w u v
          - (F.pv v * c + ∑ u ∈ range F.n, tn ρ lo u * cn ρ s1 u * F.w u v)
          = F.pv v * (y - c) + ∑ u ∈ range F.n, (tn ρ s u * cn ρ s u - tn ρ lo u * cn ρ s1 u) * F.w u v := by
        have : ∑ u ∈ range F.n, (tn ρ s u * cn ρ s u - tn ρ lo u * cn ρ s1 u) * F.w u v
            = ∑ u ∈ range F.n, tn ρ s u * cn ρ s u * F.w u v - ∑ u ∈ range F.n, tn ρ lo u * cn ρ s1 u * F.w u v := by
          rw [← sum_sub_distrib]; exact sum_congr rfl fun _ _ => by ring
        rw [this]; ring
      rw [e]
      refine (abs_add_le _ _).trans ?_
      have m1 : |F.pv v * (y - c)| ≤ (4 * φ + 1) * |y - c| * F.total v := by
        rw [abs_mul, abs_of_nonneg (A.sized v hvn).pv.nonneg]
        have h2 := A.fill v hvn hS
        have h3 : φ * F.total v ≤ (4 * φ + 1) * F.total v := mul_le_mul_of_nonneg_right (by linarith) hT.le
        calc F.pv v * |y - c| ≤ (4 * φ + 1) * F.total v * |y - c| := mul_le_mul_of_nonneg_right (by linarith) (abs_nonneg _)
          _ = _ := by ring
      have m2 : |∑ u ∈ range F.n, (tn ρ s u * cn ρ s u - tn ρ lo u * cn ρ s1 u) * F.w u v|
          ≤ F.total v * (((4 * φ + 1) * (H + k) * P + rest q M H φ) * (h v - 1)) := by
        refine (abs_sum_le_sum_abs _ _).trans ?_
        have e2 : ∑ u ∈ range F.n, |(tn ρ s u * cn ρ s u - tn ρ lo u * cn ρ s1 u) * F.w u v|
            = ∑ u ∈ range F.n, |tn ρ s u * cn ρ s u - tn ρ lo u * cn ρ s1 u| * F.w u v :=
          sum_congr rfl fun u hu => by rw [abs_mul, abs_of_nonneg (A.w_nonneg (mem_range.mp hu) hvn)]
        rw [e2]
        exact A.depth_sum hvn hS fun u hu => (hl u).tau hu
      rw [add_mul, mul_comm (((4 * φ + 1) * (H + k) * P + rest q M H φ) * (h v - 1)) (F.total v)]
      exact add_le_add m1 m2
    have e : t * y - tn ρ lo v * c
        = (t * y - (F.pv v * y + ∑ u ∈ range F.n, tn ρ s u * cn ρ s u * F.w u v) / F.total v)
        + ((F.pv v * y + ∑ u ∈ range F.n, tn ρ s u * cn ρ s u * F.w u v) / F.total v
        - (F.pv v * c + ∑ u ∈ range F.n, tn ρ lo u * cn ρ s1 u * F.w u v) / F.total v)
        - (tn ρ lo v * c - (F.pv v * c + ∑ u ∈ range F.n, tn ρ lo u * cn ρ s1 u * F.w u v) / F.total v) := by ring
    rw [e]
    refine (abs_sub _ _).trans ?_
    have := abs_add_le (t * y - (F.pv v * y + ∑ u ∈ range F.n, tn ρ s u * cn ρ s u * F.w u v) / F.total v)
      ((F.pv v * y + ∑ u ∈ range F.n, tn ρ s u * cn ρ s u * F.w u v) / F.total v
        - (F.pv v * c + ∑ u ∈ range F.n, tn ρ lo u * cn ρ s1 u * F.w u v) / F.total v)
    linarith

/-- The error after `k` sweeps. -/
theorem lag_iter (k : Nat) (u : Nat) : Lag ρ q M S h H φ C s1 lo F.n k ((Climb.sweep (after d isStart ls) C)^[k] s0) u := by
  induction k generalizing u with
  | zero => exact A.lag_zero B h1 hlo u
  | succ k ih =>
    have hframe : ∀ s, ∀ v ∈ C, Moment ρ F d isStart ls S h H φ μ C s0 s → ∀ u, u ≠ v → ∀ j,
        Lag ρ q M S h H φ C s1 lo F.n j s u → Lag ρ q M S h H φ C s1 lo F.n j (after d isStart ls v s) u := by
      intro s v hv hs u hu j hj
      obtain ⟨_, _, _, _, _, _, _, g⟩ := A.after_eq hs.ready (B.cells v hv)
      have e1 : cn ρ (after d isStart ls v s) u = cn ρ s u := by unfold cn; rw [(g u hu).2]
      have e2 : tn ρ (after d isStart ls v s) u = tn ρ s u := by unfold tn; rw [(g u hu).1]
      exact ⟨by rw [e1]; exact hj.conc, by rw [e1, e2]; exact hj.tau, by rw [e2]; exact hj.cap⟩
    have hs := A.moment_iter B k
    have hk1 := A.moment_iter B (k + 1)
    rw [Function.iterate_succ_apply'] at hk1 ⊢
    by_cases hC : u ∈ C
    · exact (sweep_family (vis := after d isStart ls) (l := C) (k := k) (fun s v hv hs => A.step B hs hv) (fun s u h => A.lag_down h) hframe
        (fun s v hv hs hl => A.lag_gain B h1 hf hlo flo hs hv hl) hs ih u).2 hC
    · have e := hk1.frame u hC
      rw [← h1.frame u hC] at e
      unfold cellAt at e
      obtain ⟨e1, e2⟩ := Prod.mk.inj e
      have hα := A.alpha_pos
      have hH := A.one_le
      have hε := A.grain_nonneg
      have hj := A.jolt_nonneg
      have hP : 0 ≤ (1 - 1 / H) ^ (k + 1) := pow_nonneg A.ratio.1 _
      refine ⟨fun hu => ?_, fun hu => ?_, fun h => absurd h hC⟩
      · unfold cn; rw [e2, sub_self, abs_zero]
        exact mul_nonneg (by linarith) (A.h_nonneg u hu)
      · rw [hlo.time u hC]
        unfold cn tn; rw [e1, e2, sub_self, abs_zero]
        refine mul_nonneg (add_nonneg (mul_nonneg (mul_nonneg hα.le (by positivity)) hP) ?_) (A.h_nonneg u hu)
        unfold rest
        have := mul_nonneg (mul_nonneg hα.le hε) (zero_le_one.trans hH)
        linarith

omit h1 hf hlo flo

/-- After so many sweeps nothing changes much. -/
theorem quiet_at {N : Nat} (hN : Pace q M H φ N) : ∀ v ∈ C,
    (cn ρ ((Climb.sweep (after d isStart ls) C)^[N] s0) v = 0 ↔ cn ρ ((Climb.sweep (after d isStart ls) C)^[N + 1] s0) v = 0) ∧
    |cn ρ ((Climb.sweep (after d isStart ls) C)^[N + 1] s0) v - cn ρ ((Climb.sweep (after d isStart ls) C)^[N] s0) v| ≤ 1 / 4000000000 ∧
    |tn ρ ((Climb.sweep (after d isStart ls) C)^[N + 1] s0) v - tn ρ ((Climb.sweep (after d isStart ls) C)^[N] s0) v|
      ≤ cap / 4000000000000 := by
  obtain ⟨s1, lo, h1, hf, hlo, flo⟩ := A.settled B
  intro v hv
  have hvn := B.cells v hv
  have m1 := A.moment_iter B N
  have m2 := A.moment_iter B (N + 1)
  have l1 := A.lag_iter B h1 hf hlo flo N v
  have l2' := A.lag_iter B h1 hf hlo flo (N + 1) v
  have l2 := A.lag_down l2'
  generalize (Climb.sweep (after d isStart ls) C)^[N] s0 = sa at *
  generalize (Climb.sweep (after d isStart ls) C)^[N + 1] s0 = sb at *
  have hH := A.one_le
  have hH0 : 0 < H := by linarith
  have hα := A.alpha_pos
  have hε := A.grain_nonneg
  have hj := A.jolt_nonneg
  have hP : 0 ≤ (1 - 1 / H) ^ N := pow_nonneg A.ratio.1 _
  by_cases hS : S v
  swap
  · rw [m1.off v hvn hS, m2.off v hvn hS]
    have hN1 : 1 ≤ N := by
      by_contra hn
      have e : N = 0 := by omega
      subst e
      have := hN.conc
      rw [pow_zero] at this
      have h2 : 8 * H * 1 ≤ 8 * H * (1 + grain q M) := mul_le_mul_of_nonneg_left (by linarith) (by linarith)
      have h3 : (1 : K) / 1000000000 ≤ 1 := by norm_num
      linarith
    refine ⟨Iff.rfl, by norm_num, ?_⟩
    rw [l1.cap hv hS hN1, l2.cap hv hS hN1, sub_self, abs_zero]
    unfold cap; positivity
  have hacc := A.conc_acc B h1 hf
  obtain ⟨hx1, _, hx0⟩ := A.half hvn hS (hacc v hv hS)
  have hhb := A.bound v hvn hS
  have hh1 := A.h_ge hvn hS
  have hhH := A.h_le hvn hS
  have hh0 : 0 < h v := by linarith
  set cc := (1 - 1 / H) ^ N + grain q M with hcc
  set dd := (4 * φ + 1) * (H + N) * (1 - 1 / H) ^ N + rest q M H φ with hdd
  have hcc0 : 0 ≤ cc := by rw [hcc]; linarith
  have hlow : h v / (2 * H) ≤ cn ρ s1 v := by
    refine le_trans ?_ hx1
    rw [div_le_div_iff₀ (by linarith) two_pos]
    linarith
  have hccH : cc ≤ 1 / (4 * H) := by
    rw [le_div_iff₀ (by linarith)]
    have := hN.conc
    have h3 : (1 : K) / 1000000000 ≤ 1 := by norm_num
    have h4 : 0 ≤ cc * H := mul_nonneg hcc0 hH0.le
    linarith [mul_comm cc (4 * H)]
  have hlow' : ∀ {s : List R × List R}, |cn ρ s v - cn ρ s1 v| ≤ cc * h v → h v / (4 * H) ≤ cn ρ s v := by
    intro s hs
    have h2 : cc * h v ≤ 1 / (4 * H) * h v := mul_le_mul_of_nonneg_right hccH hh0.le
    have e : h v / (2 * H) = 2 * (1 / (4 * H) * h v) := by field_simp; ring
    have e2 : h v / (4 * H) = 1 / (4 * H) * h v := by ring
    rw [e] at hlow
    rw [e2]
    have := (abs_le.mp hs).1
    linarith
  have ht1 : tn ρ lo v ≤ 2 * ((4 * φ + 1) * H) := by
    obtain ⟨_, _, _, b3, b4⟩ := hlo.timely v hvn
    rw [hlo.conc] at b4
    have h2 : tn ρ lo v * (h v / (2 * H)) ≤ (4 * φ + 1) * h v := (mul_le_mul_of_nonneg_left hlow b3).trans b4
    have h3 : tn ρ lo v * (h v / (2 * H)) = h v / (2 * H) * tn ρ lo v := mul_comm _ _
    have h4 : (4 * φ + 1) * h v = h v / (2 * H) * (2 * ((4 * φ + 1) * H)) := by field_simp
    rw [h3, h4] at h2
    exact le_of_mul_le_mul_left h2 (by positivity)
  have htl : 0 ≤ tn ρ lo v := by obtain ⟨_, _, _, b3, _⟩ := hlo.timely v hvn; exact b3
  have htime : ∀ {s : List R × List R}, |cn ρ s v - cn ρ s1 v| ≤ cc * h v →
      |tn ρ s v * cn ρ s v - tn ρ lo v * cn ρ s1 v| ≤ dd * h v →
      |tn ρ s v - tn ρ lo v| ≤ 4 * H * (dd + 2 * ((4 * φ + 1) * H) * cc) := by
    intro s g1 g2
    have g3 := hlow' g1
    have e : (tn ρ s v - tn ρ lo v) * cn ρ s v
        = (tn ρ s v * cn ρ s v - tn ρ lo v * cn ρ s1 v) - tn ρ lo v * (cn ρ s v - cn ρ s1 v) := by ring
    have g4 : |tn ρ s v - tn ρ lo v| * cn ρ s v ≤ dd * h v + 2 * ((4 * φ + 1) * H) * (cc * h v) := by
      have hc0 : 0 ≤ cn ρ s v := le_trans (by positivity) g3
      have e3 : |tn ρ s v - tn ρ lo v| * cn ρ s v = |(tn ρ s v - tn ρ lo v) * cn ρ s v| := by rw [abs_mul, abs_of_nonneg hc0]
      rw [e3, e]
      refine (abs_sub _ _).trans (add_le_add g2 ?_)
      rw [abs_mul, abs_of_nonneg htl]
      exact mul_le_mul ht1 g1 (abs_nonneg _) (htl.trans ht1)
    have g5 : |tn ρ s v - tn ρ lo v| * (h v / (4 * H)) ≤ dd * h v + 2 * ((4 * φ + 1) * H) * (cc * h v) :=
      (mul_le_mul_of_nonneg_left g3 (abs_nonneg _)).trans g4
    have e2 : dd * h v + 2 * ((4 * φ + 1) * H) * (cc * h v)
        = 4 * H * (dd + 2 * ((4 * φ + 1) * H) * cc) * (h v / (4 * H)) := by field_simp
    rw [e2] at g5
    exact le_of_mul_le_mul_right g5 (by positivity)
  have p1 := hlow' (l1.conc hvn)
  have p2 := hlow' (l2.conc hvn)
  have hp : 0 < h v / (4 * H) := by positivity
  refine ⟨⟨fun e => absurd e (by linarith : (0 : K) < _).ne', fun e => absurd e (by linarith : (0 : K) < _).ne'⟩, ?_, ?_⟩
  · have g1 := abs_le.mp (l1.conc hvn)
    have g2 := abs_le.mp (l2.conc hvn)
    have g3 : cc * h v ≤ cc * H := mul_le_mul_of_nonneg_left hhH hcc0
    have g4 := hN.conc
    have e : (1 : K) / 1000000000 = 4 * (1 / 4000000000) := by norm_num
    rw [e] at g4
    have g5 : 8 * H * cc = 8 * (cc * H) := by ring
    rw [g5] at g4
    rw [abs_le]
    constructor <;> linarith [g1.1, g1.2, g2.1, g2.2]
  · have g1 := abs_le.mp (htime (l1.conc hvn) (l1.tau hvn))
    have g2 := abs_le.mp (htime (l2.conc hvn) (l2.tau hvn))
    have g4 := hN.time
    have e : 8 * H * (dd + 2 * ((4 * φ + 1) * H) * cc) = 2 * (4 * H * (dd + 2 * ((4 * φ + 1) * H) * cc)) := by ring
    rw [e] at g4
    rw [abs_le]
    constructor <;> linarith [g1.1, g1.2, g2.1, g2.2]

/-- The iterations on a cycle end within so many sweeps. -/
theorem cycle_within {N : Nat} (hN : Pace q M H φ N) :
    ∃ k, gaussSeidel d isStart ls (C.map fun v : Nat => (v : Int)) (N + 1) (s0, (huge, huge))
      = .ok ((Climb.sweep (after d isStart ls) C)^[k] s0) := by
  refine A.ends_at B N ?_
  intro v hv a c a' c' e1 e2 b1 b2 b3 b4
  obtain ⟨g1, g2, g3⟩ := A.quiet_at B hN v hv
  exact ⟨A.time_quiet b1 b2 g3, A.conc_quiet' b3 b4 g1 g2⟩

end Setting
end Verif.Rounding
