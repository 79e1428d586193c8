/-
Visits to the cells of a cycle, in arithmetic with rounding.
-/
import Verif.Proofs.ClimbCell
import Verif.Proofs.ClimbMono
import Verif.Proofs.SlackTimeSolve
import Verif.Proofs.Ends
import Verif.Props.CyclicDouble

namespace Verif
open Verif.Solver

section mute
variable {R : Type} [Arith R]

/-- No exception is thrown. -/
def Res.Mute {α : Type} (r : Res α) : Prop := ∀ e, r ≠ .throw e

theorem Res.Mute.bind {α β : Type} {r : Res α} (h : r.Mute) {k : α → Res β} (hk : ∀ a, r = .ok a → (k a).Mute) : (r.bind k).Mute := by
  cases r with
  | ok a => exact hk a rfl
  | throw e => exact absurd rfl (h e)
  | ub e => intro e h; cases h
  | diverge => intro e h; cases h

theorem Res.Mute.ok {α : Type} (a : α) : (Res.ok a).Mute := fun e h => by cases h

theorem mute_rd {α : Type} (l : List α) (i : Nat) : (rd l i).Mute := by
  unfold rd; split <;> (intro e h; cases h)

theorem mute_wr {α : Type} (l : List α) (i : Nat) (a : α) : (wr l i a).Mute := by
  unfold wr; split <;> (intro e h; cases h)

theorem mute_assert (b : Bool) : (assertThat b).Mute := by
  unfold assertThat; split <;> (intro e h; cases h)

theorem mute_forEach {α σ : Type} {f : σ → α → Res σ} : ∀ {xs : List α}, (∀ s, ∀ x ∈ xs, (f s x).Mute) → ∀ s, (forEach xs s f).Mute := by
  intro xs
  induction xs with
  | nil => intro _ s; exact .ok s
  | cons x xs ih =>
    intro h s
    rw [forEach_cons]
    exact (h s x List.mem_cons_self).bind fun a _ => ih (fun s y hy => h s y (List.mem_cons_of_mem _ hy)) a

theorem mute_single (d : SolverData R) (b : List Bool) (ls : List R) (s : List R × List R) (c : Int) :
    (solveSingleCell d b ls s c).Mute := by
  unfold solveSingleCell
  simp only [Res.bind_eq, Res.pure_eq]
  refine (mute_rd _ _).bind fun _ _ => (mute_rd _ _).bind fun _ _ => (mute_rd _ _).bind fun _ _ => ?_
  refine Res.Mute.bind ?_ fun _ _ => ?_
  · unfold AssembledConnections.cellNeighbourhood
    simp only [Res.bind_eq, Res.pure_eq]
    refine (mute_rd _ _).bind fun _ _ => (mute_rd _ _).bind fun _ _ => (mute_assert _).bind fun _ _ => ?_
    split
    · intro e h; cases h
    · exact .ok _
  refine (mute_forEach (fun s x _ => ?_) _).bind fun _ _ => ?_
  · unfold addUpwind
    simp only [Res.bind_eq, Res.pure_eq]
    exact (mute_rd _ _).bind fun _ _ => (mute_rd _ _).bind fun _ _ => .ok _
  refine Res.Mute.bind ?_ fun _ _ => ?_
  · unfold withLocalSource
    simp only [Res.bind_eq, Res.pure_eq]
    split
    · exact (mute_rd _ _).bind fun _ _ => .ok _
    · exact .ok _
  refine (mute_assert _).bind fun _ _ => (mute_assert _).bind fun _ _ => Res.Mute.bind ?_ fun _ _ => ?_
  · unfold cellTracer
    simp only [Res.bind_eq, Res.pure_eq]
    split
    · exact (mute_assert _).bind fun _ _ => .ok _
    · exact .ok _
  exact (mute_wr _ _ _).bind fun _ _ => (mute_rd _ _).bind fun _ _ => (mute_wr _ _ _).bind fun _ _ => .ok _

end mute
end Verif

namespace Verif.Rounding
set_option linter.unusedSectionVars false
open Finset Verif.Spec Verif.Solver Verif.Toolbox Verif.Tarjan

variable {R : Type} [Arith R] {K : Type} [Field K] [LinearOrder K] [IsStrictOrderedRing K]

/-- A flow, the exact fields that it carries to the cells `S`, and the data that a solver keeps of it. -/
structure Setting (ρ : Rounded R K) (q : K) (d : SolverData R) (F : Flow K) (M : Nat) (isStart : List Bool) (ls : List R)
    (S : Nat → Prop) (inj x h : Nat → K) (H φ : K) : Prop where
  precise : Precise ρ q
  odd : ∀ x : K, ρ.rnd (X.fin (-x)) = X.neg (ρ.rnd (X.fin x))
  values : {x : K | ∃ a, ρ.val a = X.fin x}.Finite
  approx : Approx ρ q d F M
  valid : F.Valid
  sized : ∀ v < F.n, Rounding.Sized F v
  power : q ^ (4 * M + 6) ≤ 2
  count : (M : K) + 1 ≤ 2 ^ 100
  ready : Solver.Ready d F.n
  fits : Fits d F.n
  flow : FiniteFlow ρ d F.n
  startLen : isStart.length = F.n
  lsLen : ls.length = F.n
  localFits : LocalFits d isStart ls
  localNum : ∀ (v : Nat) (l : R), isStart[v]? = some true → ls[v]? = some l → Num ρ l
  start : ∀ v < F.n, ∃ b, isStart[v]? = some b ∧ (b = false → inj v = 0) ∧
    (b = true → 0 < F.src v ∧ ∃ a, ls[v]? = some a ∧ Near ρ q M a (inj v))
  injected : ∀ v < F.n, 0 ≤ inj v ∧ inj v ≤ F.src v
  closed : ∀ u v, F.Edge u v → S u → S v
  off : ∀ v < F.n, ¬ S v → inj v = 0
  fed : ∀ v < F.n, S v → ∃ p, p < F.n ∧ 0 < F.src p ∧ F.Reach p v
  conc0 : ∀ v < F.n, ¬ S v → x v = 0
  conc : ∀ v < F.n, S v → F.total v * x v = (∑ u ∈ range F.n, x u * F.w u v) + inj v
  depth0 : ∀ v < F.n, ¬ S v → h v = 0
  depth : ∀ v < F.n, S v → F.total v * h v = (∑ u ∈ range F.n, h u * F.w u v) + F.total v
  one_le : 1 ≤ H
  bound : ∀ v < F.n, S v → h v ≤ H * x v
  fill_nonneg : 0 ≤ φ
  fill : ∀ v < F.n, S v → F.pv v ≤ φ * F.total v
  small : (q ^ (4 * M + 6) - 1) * H ≤ 1 / 8
  accurate : ((1 / 1000000000 * q + tiny K) * q + (q ^ (4 * M + 4) - 1 + 2 * slack K)) * H ≤ 1 / 2
  moderate : (4 * φ + 1) * H ≤ 2 ^ 130
  gap : 2 * H * (4 * ((4 * φ + 1) * H) * (q ^ (4 * M + 6) - 1) + 7 * climbSlack K) ≤ cap / 4000000000000

/-- The stored concentration. -/
def cn (ρ : Rounded R K) (s : List R × List R) (u : Nat) : K := numOf ρ s.2[u]?

/-- The stored time of flight. -/
def tn (ρ : Rounded R K) (s : List R × List R) (u : Nat) : K := numOf ρ s.1[u]?

/-- Times of flight are finite and bounded. -/
def Timely (ρ : Rounded R K) (n : Nat) (B : Nat → K) (s : List R × List R) : Prop :=
  ∀ u < n, ∃ a, s.1[u]? = some a ∧ ρ.val a = X.fin (tn ρ s u) ∧ 0 ≤ tn ρ s u ∧ tn ρ s u * cn ρ s u ≤ B u

namespace Setting
variable {ρ : Rounded R K} {q : K} {d : SolverData R} {F : Flow K} {M : Nat} {isStart : List Bool} {ls : List R}
  {S : Nat → Prop} {inj x h : Nat → K} {H φ : K} (A : Setting ρ q d F M isStart ls S inj x h H φ)
include A

theorem sizeInt {v : Nat} (hv : v < F.n) : sizeOfInt (v : Int) = v := by
  have := A.approx.int
  rw [sizeOfInt_nonneg (by omega) (by omega)]; simp

/-- Every visit ends. -/
theorem visit {s : List R × List R} (hs : Ready ρ F.n s) {v : Nat} (hv : v < F.n) :
    ∃ p, cellVals d isStart ls s (v : Int) = .ok p ∧
      solveSingleCell d isStart ls s (v : Int) = .ok (s.1.set v p.1, s.2.set v p.2) ∧
      Ready ρ F.n (s.1.set v p.1, s.2.set v p.2) := by
  have h1 := single_safe A.ready A.startLen A.lsLen (s := s) ⟨hs.tofLen, hs.tracerLen⟩ hv
  have h2 := single_calm ρ A.fits A.flow A.localFits A.localNum hs.proper (cell := (v : Int)) ⟨by omega, by exact_mod_cast hv⟩
  have h3 := ends_single d isStart ls s (v : Int)
  have h4 := mute_single d isStart ls s (v : Int)
  have hok : ∃ t, solveSingleCell d isStart ls s (v : Int) = .ok t := by
    generalize solveSingleCell d isStart ls s (v : Int) = r at h1 h2 h3 h4
    cases h1 with
    | ok a => exact ⟨a, rfl⟩
    | logicError => exact absurd rfl (h4 _)
    | assertFail => exact absurd rfl h2.1
    | diverge => exact absurd rfl h3
  obtain ⟨t, ht⟩ := hok
  have hpr := h2.2 t ht
  obtain ⟨p, hp, _, _, e⟩ := single_ok_iff.mp ht
  rw [A.sizeInt hv] at e
  subst e
  exact ⟨p, hp, ht, hpr, by simp [hs.tofLen], by simp [hs.tracerLen]⟩

theorem q_le : q ≤ 2 := by
  have : q ^ 1 ≤ q ^ (4 * M + 6) := pow_le_pow_right₀ A.precise.one_le (by omega)
  rw [pow_one] at this
  exact this.trans A.power

theorem q4 : q ^ (4 * M + 4) ≤ 2 := (pow_le_pow_right₀ A.precise.one_le (by omega)).trans A.power

theorem total_nonneg {v : Nat} (hv : v < F.n) : 0 ≤ F.total v := (A.sized v hv).total.nonneg

theorem w_nonneg {u v : Nat} (hu : u < F.n) (hv : v < F.n) : 0 ≤ F.w u v := A.valid.w_nonneg u v hu hv

theorem h_nonneg : ∀ v < F.n, 0 ≤ h v := by
  have := Props.max_principle A.valid (S := S) (e := fun v => - h v) (fun v hv hn => by simp [A.depth0 v hv hn])
    (fun v hv hs => by
      have h1 := A.depth v hv hs
      have h2 := A.total_nonneg hv
      have e : ∑ u ∈ range F.n, -h u * F.w u v = -∑ u ∈ range F.n, h u * F.w u v := by
        rw [← sum_neg_distrib]; exact sum_congr rfl fun _ _ => by ring
      rw [e]
      linarith [mul_neg (F.total v) (h v)]) A.fed
  intro v hv
  have := this v hv
  linarith

theorem x_le : ∀ v < F.n, x v ≤ 1 := by
  have := Props.max_principle A.valid (S := S) (e := fun v => x v - 1) (fun v hv hn => by simp [A.conc0 v hv hn])
    (fun v hv hs => by
      have h1 := A.conc v hv hs
      have h2 := (A.injected v hv).2
      have e : ∑ u ∈ range F.n, (x u - 1) * F.w u v = (∑ u ∈ range F.n, x u * F.w u v) - F.inflow v := by
        unfold Flow.inflow
        rw [← sum_sub_distrib]; exact sum_congr rfl fun _ _ => by ring
      have e2 : F.total v = F.inflow v + F.src v := rfl
      rw [e, mul_sub, h1]
      linarith) A.fed
  intro v hv
  have := this v hv
  linarith

theorem total_pos {v : Nat} (hv : v < F.n) (hs : S v) : 0 < F.total v := by
  obtain ⟨p, hp, hsp, hr⟩ := A.fed v hv hs
  have ht : F.total v = F.inflow v + F.src v := rfl
  have hin : ∀ w < F.n, 0 ≤ F.inflow w := fun w hw => sum_nonneg fun u hu => A.w_nonneg (mem_range.mp hu) hw
  rcases Relation.ReflTransGen.cases_tail hr with e | ⟨u, _, he⟩
  · subst e
    have := hin v hv
    linarith
  · have h1 : F.w u v ≤ F.inflow v := single_le_sum (f := fun u => F.w u v) (fun u hu => A.w_nonneg (mem_range.mp hu) hv) (mem_range.mpr he.1)
    have h2 := A.valid.src_nonneg v hv
    have h3 := he.2.2
    linarith

theorem h_ge {v : Nat} (hv : v < F.n) (hs : S v) : 1 ≤ h v := by
  have h1 := A.depth v hv hs
  have h2 := A.total_pos hv hs
  have h3 : 0 ≤ ∑ u ∈ range F.n, h u * F.w u v := sum_nonneg fun u hu => mul_nonneg (A.h_nonneg u (mem_range.mp hu)) (A.w_nonneg (mem_range.mp hu) hv)
  by_contra hc
  have : F.total v * h v < F.total v * 1 := mul_lt_mul_of_pos_left (not_le.mp hc) h2
  linarith

theorem h_le {v : Nat} (hv : v < F.n) (hs : S v) : h v ≤ H := by
  have h1 := A.bound v hv hs
  have h2 : H * x v ≤ H * 1 := mul_le_mul_of_nonneg_left (A.x_le v hv) (zero_le_one.trans A.one_le)
  linarith

theorem h_le' {v : Nat} (hv : v < F.n) : h v ≤ H := by
  by_cases hs : S v
  · exact A.h_le hv hs
  · rw [A.depth0 v hv hs]; exact zero_le_one.trans A.one_le

/-- The exact concentration is not tiny. -/
theorem x_ge {v : Nat} (hv : v < F.n) (hs : S v) : 1 ≤ H * x v := (A.h_ge hv hs).trans (A.bound v hv hs)

theorem alpha_pos : 0 < 4 * φ + 1 := by have := A.fill_nonneg; linarith

theorem eta_nonneg : 0 ≤ q ^ (4 * M + 6) - 1 := by
  have := one_le_pow₀ (n := 4 * M + 6) A.precise.one_le
  linarith

/-- What a visit finds upstream. -/
theorem upstream {s : List R × List R} (hs : Ready ρ F.n s) {v : Nat} :
    (∀ u, F.Edge u v → s.1[u]? = some ((s.1[u]?).getD Arith.zero) ∧ s.2[u]? = some ((s.2[u]?).getD Arith.zero)) ∧
    ∀ u, F.Edge u v → ρ.val ((s.2[u]?).getD Arith.zero) = X.fin (cn ρ s u) ∧ 0 ≤ cn ρ s u ∧ cn ρ s u ≤ 1 := by
  constructor
  · intro u hu
    obtain ⟨a, c, h1, h2, _⟩ := hs.at hu.1
    rw [h1, h2]; simp
  · intro u hu
    obtain ⟨a, c, h1, h2, h3, h4, h5⟩ := hs.at hu.1
    refine ⟨?_, h4, h5⟩
    show _ = X.fin (numOf ρ s.2[u]?)
    rw [← h3, h2]; rfl

/-- The concentration that a visit stores. -/
theorem visit_conc {s : List R × List R} (hs : Ready ρ F.n s) {v : Nat} (hv : v < F.n) {p : R × R}
    (hp : cellVals d isStart ls s (v : Int) = .ok p) :
    ∃ y, ρ.val p.2 = X.fin y ∧ 0 ≤ y ∧ (F.total v = 0 → y = 0) ∧
      (0 < F.total v → 0 ≤ (∑ u ∈ range F.n, cn ρ s u * F.w u v) + inj v ∧ (∑ u ∈ range F.n, cn ρ s u * F.w u v) + inj v ≤ F.total v ∧
        Off q (4 * M + 4) (slack K) y (((∑ u ∈ range F.n, cn ρ s u * F.w u v) + inj v) / F.total v)) := by
  obtain ⟨b, hb, hb0, hb1⟩ := A.start v hv
  obtain ⟨u1, u2⟩ := A.upstream hs (v := v)
  exact cell_conc A.precise A.approx A.q4 A.count hv (A.sized v hv) (A.injected v hv).1 (A.injected v hv).2 hb hb0 hb1 u1 u2 hp

/-- The time of flight that a visit stores, if the concentration is not tiny. -/
theorem visit_time {s : List R × List R} (hs : Ready ρ F.n s) (ht : Timely ρ F.n (fun u => (4 * φ + 1) * h u) s) {v : Nat} (hv : v < F.n)
    {p : R × R} (hp : cellVals d isStart ls s (v : Int) = .ok p) {y : K} (hy : ρ.val p.2 = X.fin y) (hy1 : y ≤ 1) (hy2 : 1 ≤ y * 2 ^ 500) :
    0 < F.total v ∧ (Slow d isStart v → ρ.val p.1 = X.fin cap ∧ cap * F.total v ≤ 4 * F.pv v) ∧
      (¬ Slow d isStart v → NearE ρ q (4 * M + 6) (climbSlack K) p.1
        ((F.pv v * y + ∑ u ∈ range F.n, tn ρ s u * cn ρ s u * F.w u v) / (F.total v * y))) := by
  obtain ⟨b, hb, hb0, hb1⟩ := A.start v hv
  obtain ⟨u1, u2⟩ := A.upstream hs (v := v)
  refine cell_climb A.precise A.approx A.power A.count hv (A.sized v hv) hb (fun e => (hb1 e).1) u1 u2 ?_ hp hy hy1 hy2
  intro u hu
  obtain ⟨a, h1, h2, h3, h4⟩ := ht u hu.1
  refine ⟨by rw [h1]; exact h2, h3, h4.trans ?_⟩
  exact (mul_le_mul_of_nonneg_left (A.h_le' hu.1) A.alpha_pos.le).trans A.moderate

/-- Concentrations stay positive numbers and times bounded. -/
theorem visit_bound {s : List R × List R} (hs : Ready ρ F.n s) (ht : Timely ρ F.n (fun u => (4 * φ + 1) * h u) s) {v : Nat} (hv : v < F.n)
    {p : R × R} (hp : cellVals d isStart ls s (v : Int) = .ok p) {y : K} (hy : ρ.val p.2 = X.fin y) (hy1 : y ≤ 1)
    (hy2 : y = 0 ∨ 1 ≤ y * 2 ^ 500 ∧ S v) : ∃ t, ρ.val p.1 = X.fin t ∧ 0 ≤ t ∧ t * y ≤ (4 * φ + 1) * h v := by
  have hφ := A.fill_nonneg
  have hcap : (0 : K) < cap := by unfold cap; positivity
  rcases hy2 with rfl | ⟨hy2, hSv⟩
  · have e : p.1 = maxTof := by
      unfold cellVals at hp
      simp only [Res.bind_eq, Res.pure_eq, Res.bind_ok_iff] at hp
      obtain ⟨src, _, start, _, infl, _, nb, _, up, _, con, _, _, _, _, _, c, _, pv, _, e⟩ := hp
      cases e
      unfold cellTof
      simp only
      split
      · rfl
      · rw [if_neg]
        rw [ρ.lt, val_zero' ρ, hy]
        simp [X.lt]
    refine ⟨cap, by rw [e]; exact A.precise.cap, hcap.le, ?_⟩
    rw [mul_zero]
    exact mul_nonneg A.alpha_pos.le (A.h_nonneg v hv)
  have hyp : 0 < y := by
    by_contra hn
    exact absurd (hy2.trans (mul_nonpos_of_nonpos_of_nonneg (not_lt.mp hn) (two_pow_pos' (K := K) 500).le)) (not_le.mpr one_pos)
  obtain ⟨hT, h1, h2⟩ := A.visit_time hs ht hv hp hy hy1 hy2
  have hh1 := A.h_ge hv hSv
  have hhH := A.h_le hv hSv
  by_cases hsl : Slow d isStart v
  · obtain ⟨h3, h4⟩ := h1 hsl
    refine ⟨cap, h3, hcap.le, ?_⟩
    have h5 : cap * F.total v ≤ 4 * φ * F.total v := by
      have := A.fill v hv hSv
      linarith
    have h6 : cap ≤ 4 * φ := le_of_mul_le_mul_right h5 hT
    have h7 : cap * y ≤ cap * 1 := mul_le_mul_of_nonneg_left hy1 hcap.le
    have h8 : (4 * φ + 1) * 1 ≤ (4 * φ + 1) * h v := mul_le_mul_of_nonneg_left hh1 A.alpha_pos.le
    linarith
  · obtain ⟨t, ht1, ht0, hoff⟩ := h2 hsl
    refine ⟨t, ht1, ht0, ?_⟩
    have h3 := hoff.2
    set Q := q ^ (4 * M + 6) with hQ
    have hQ1 : 0 ≤ Q - 1 := A.eta_nonneg
    have hε := climbSlack_pos (K := K)
    have hε2 : climbSlack K ≤ 1 / 4 := by
      unfold climbSlack
      exact one_div_le_one_div_of_le (by norm_num) (by
        have : (4 : K) = 2 ^ 2 := by norm_num
        rw [this]; exact pow_le_pow_right₀ one_le_two (by norm_num))
    -- the mixture
    have hsum : ∑ u ∈ range F.n, tn ρ s u * cn ρ s u * F.w u v ≤ (4 * φ + 1) * (F.total v * (h v - 1)) := by
      have e := A.depth v hv hSv
      have e2 : F.total v * (h v - 1) = ∑ u ∈ range F.n, h u * F.w u v := by rw [mul_sub, e]; ring
      rw [e2, mul_sum]
      refine sum_le_sum fun u hu => ?_
      have hu := mem_range.mp hu
      obtain ⟨_, _, _, _, h4⟩ := ht u hu
      rw [← mul_assoc]
      exact mul_le_mul_of_nonneg_right h4 (A.w_nonneg hu hv)
    have hG : (F.pv v * y + ∑ u ∈ range F.n, tn ρ s u * cn ρ s u * F.w u v) / (F.total v * y) * y ≤ φ + (4 * φ + 1) * (h v - 1) := by
      have e : (F.pv v * y + ∑ u ∈ range F.n, tn ρ s u * cn ρ s u * F.w u v) / (F.total v * y) * y
          = (F.pv v * y + ∑ u ∈ range F.n, tn ρ s u * cn ρ s u * F.w u v) / F.total v := by
        field_simp
      rw [e, div_le_iff₀ hT]
      have h5 := A.fill v hv hSv
      have h6 : F.pv v * y ≤ F.pv v * 1 := mul_le_mul_of_nonneg_left hy1 (A.sized v hv).pv.nonneg
      have e3 : (φ + (4 * φ + 1) * (h v - 1)) * F.total v = φ * F.total v + (4 * φ + 1) * (F.total v * (h v - 1)) := by ring
      rw [e3]
      linarith
    set G := (F.pv v * y + ∑ u ∈ range F.n, tn ρ s u * cn ρ s u * F.w u v) / (F.total v * y) with hGd
    have h4 : t * y ≤ (φ + (4 * φ + 1) * (h v - 1) + climbSlack K) * Q := by
      have h5 : t * y ≤ (G + climbSlack K) * Q * y := mul_le_mul_of_nonneg_right h3 hyp.le
      have h6 : climbSlack K * y ≤ climbSlack K * 1 := mul_le_mul_of_nonneg_left hy1 hε.le
      have e : (G + climbSlack K) * Q * y = (G * y + climbSlack K * y) * Q := by ring
      rw [e] at h5
      refine h5.trans (mul_le_mul_of_nonneg_right ?_ (by linarith))
      linarith
    refine h4.trans ?_
    have h5 : (Q - 1) * h v ≤ 1 / 8 := (mul_le_mul_of_nonneg_left hhH hQ1).trans A.small
    have e : (φ + (4 * φ + 1) * (h v - 1) + climbSlack K) * Q
        = (4 * φ + 1) * h v - (3 * φ + 1 - climbSlack K) + ((4 * φ + 1) * ((Q - 1) * h v) - (3 * φ + 1 - climbSlack K) * (Q - 1)) := by ring
    rw [e]
    have h6 : (4 * φ + 1) * ((Q - 1) * h v) ≤ (4 * φ + 1) * (1 / 8) := mul_le_mul_of_nonneg_left h5 A.alpha_pos.le
    have h7 : 0 ≤ (3 * φ + 1 - climbSlack K) * (Q - 1) := mul_nonneg (by linarith) hQ1
    linarith

end Setting
end Verif.Rounding
