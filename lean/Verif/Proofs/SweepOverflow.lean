/-
A problem on two cells that needs more sweeps than an `int` can count.
-/
import Verif.Proofs.SweepCounter
import Verif.Proofs.SolverTop
import Mathlib.Tactic.NormNum

namespace Verif.Counter
open Verif.Spec Verif.Solver Verif.Tarjan Finset

/-- The loop does not end before the criterion is met. -/
theorem gaussSeidel_continues {K : Type} [Field K] [LinearOrder K] [IsStrictOrderedRing K] {S : Sys K} {d : SolverData (X K)}
    {isStart : List Bool} {localSource : List (X K)}
    (hd : IsSolver S.toFlow d) (hS : S.Ok) (hst : HasStarts S isStart localSource)
    {C : List Nat} (hC : ∀ v ∈ C, v < S.n) (hnd : C.Nodup) :
    ∀ (k : Nat) (s : St K) (a b : K), S.NonNeg s →
      (Arith.lt tofTol (X.fin a) || Arith.lt tracerTol (X.fin b)) = true →
      (∀ j < k, ¬ Sys.Conv C tolT tolC ((S.sweep C)^[j] s) ((S.sweep C)^[j + 1] s)) →
      gaussSeidel d isStart localSource (C.map fun v : Nat => (v : Int)) k
          ((arr S.n s.1, arr S.n s.2), (X.fin a, X.fin b)) = .diverge := by
  intro k
  induction k with
  | zero =>
    intro s a b _ hab _
    unfold gaussSeidel
    rw [if_pos hab]
  | succ k ih =>
    intro s a b hn hab hcv
    obtain ⟨a', b', e, h1, h2⟩ := sweep_exact hd hS hst C hC hnd s hn 0 0
    have hn' : S.NonNeg (S.sweep C s) :=
      Sys.iter_inv (S := S) (C := C) S.NonNeg (fun t ht v hv => hS.upd_nonneg ht (hC v hv)) hn 1
    have hstop : (Arith.lt tofTol (X.fin a') || Arith.lt tracerTol (X.fin b')) = true := by
      by_contra hcon
      simp only [Bool.not_eq_true] at hcon
      exact hcv 0 (by omega) ((gaussSeidel_stop h1 h2).mp hcon)
    unfold gaussSeidel
    rw [if_pos hab]
    simp only [Res.bind_eq]
    rw [X_zero, e, Res.ok_bind]
    refine ih (S.sweep C s) a' b' hn' hstop fun j hj => ?_
    exact hcv (j + 1) (by omega)

/-! ### The problem -/

/-- One part in 10^11. -/
def eps : ℚ := 1 / 100000000000

/-- Cell 0 receives `eps` from outside and `1 - eps` from cell 1; cell 1 receives 1 from cell 0. -/
structure IsSlow (F : Flow ℚ) : Prop where
  n : F.n = 2
  w01 : F.w 0 1 = 1
  w10 : F.w 1 0 = 1 - eps
  w00 : F.w 0 0 = 0
  w11 : F.w 1 1 = 0
  pv0 : F.pv 0 = 1
  pv1 : F.pv 1 = 1
  src0 : F.src 0 = eps
  src1 : F.src 1 = 0

/-- Concentration in cell 0 after `k` sweeps. -/
def xs : Nat → ℚ
  | 0 => 0
  | k + 1 => xs k * (1 - eps) + eps

/-- Concentration times time of flight in cell 0. -/
def ys : Nat → ℚ
  | 0 => 0
  | k + 1 => xs (k + 1) + (xs k + ys k) * (1 - eps)

theorem xs_bounds (k : Nat) : k * eps - k * k * (eps * eps) ≤ xs k ∧ xs k ≤ k * eps ∧ 0 ≤ xs k ∧ xs k ≤ 1 := by
  induction k with
  | zero => simp [xs]
  | succ k ih =>
    obtain ⟨h1, h2, h3, h4⟩ := ih
    have hk : (0 : ℚ) ≤ k := Nat.cast_nonneg k
    simp only [xs]
    push_cast
    unfold eps at *
    refine ⟨by nlinarith, by nlinarith, by nlinarith, by nlinarith⟩

theorem ys_bounds (k : Nat) : 0 ≤ ys k ∧ ys k ≤ k * k * eps := by
  induction k with
  | zero => simp [ys]
  | succ k ih =>
    obtain ⟨h1, h2⟩ := ih
    obtain ⟨_, g2, g3, _⟩ := xs_bounds k
    obtain ⟨_, g2', g3', _⟩ := xs_bounds (k + 1)
    have hk : (0 : ℚ) ≤ k := Nat.cast_nonneg k
    simp only [ys]
    push_cast at *
    unfold eps at *
    refine ⟨by nlinarith, by nlinarith⟩

/-- The time of flight still grows by more than the tolerance. -/
theorem growth {k : Nat} (hk : 1 ≤ k) (hk' : k ≤ 2147483648) : tolT < ys (k + 1) / xs (k + 1) - ys k / xs k := by
  obtain ⟨a1, a2, _, _⟩ := xs_bounds k
  obtain ⟨b1, b2, _, _⟩ := xs_bounds (k + 1)
  obtain ⟨c1, c2⟩ := ys_bounds k
  have hkq : (1 : ℚ) ≤ k := by exact_mod_cast hk
  have hkq' : (k : ℚ) ≤ 2147483648 := by exact_mod_cast hk'
  have ha : k * eps * (97 / 100) ≤ xs k := by unfold eps at *; nlinarith
  have hb : (k + 1) * eps * (97 / 100) ≤ xs (k + 1) := by
    push_cast at b1; unfold eps at *; nlinarith
  have he : 0 < eps := by unfold eps; norm_num
  have hx : 0 < xs k := lt_of_lt_of_le (by positivity) ha
  have hx' : 0 < xs (k + 1) := lt_of_lt_of_le (by positivity) hb
  have hxx : xs (k + 1) = xs k * (1 - eps) + eps := rfl
  have key : ys (k + 1) / xs (k + 1) - ys k / xs k = 2 - eps / xs (k + 1) - ys k * eps / (xs k * xs (k + 1)) := by
    have h1 : ys (k + 1) = xs (k + 1) + (xs k + ys k) * (1 - eps) := rfl
    rw [h1]
    field_simp
    rw [hxx]
    ring
  have e1 : eps / xs (k + 1) ≤ (100 / 97) / (k + 1) := by
    rw [div_le_div_iff₀ hx' (by positivity)]
    nlinarith
  have e2 : ys k * eps / (xs k * xs (k + 1)) ≤ (100 / 97) * (100 / 97) * (k / (k + 1)) := by
    rw [← mul_div_assoc, div_le_div_iff₀ (by positivity) (by positivity)]
    have h1 : k * eps * (97 / 100) * ((k + 1) * eps * (97 / 100)) ≤ xs k * xs (k + 1) :=
      mul_le_mul ha hb (by positivity) hx.le
    have h2 : ys k * eps * (k + 1) ≤ k * k * eps * eps * (k + 1) := by
      have : ys k * eps ≤ k * k * eps * eps := mul_le_mul_of_nonneg_right c2 he.le
      exact mul_le_mul_of_nonneg_right this (by linarith)
    have h3 := mul_le_mul_of_nonneg_left h1 (by linarith : (0 : ℚ) ≤ (100 / 97) * (100 / 97) * k)
    linarith
  rw [key]
  have e3 : (100 / 97 : ℚ) / (k + 1) + (100 / 97) * (100 / 97) * (k / (k + 1)) ≤ (100 / 97) * (100 / 97) := by
    rw [← mul_div_assoc, ← add_div, div_le_iff₀ (by positivity)]
    nlinarith
  have e4 : (tolT : ℚ) < 1 / 10 := by unfold tolT; rw [cap_eq]; norm_num
  linarith

theorem eps_pos : 0 < eps := by unfold eps; norm_num

variable {F : Flow ℚ}

theorem slow_cNew (h : IsSlow F) (c : Nat → ℚ) :
    (globalSys F).cNew c 0 = c 1 * (1 - eps) + eps ∧ (globalSys F).cNew c 1 = c 0 := by
  have he := eps_pos
  have h0 : (globalSys F).total 0 = 1 := by
    show (∑ u ∈ range F.n, F.w u 0) + F.src 0 = 1
    rw [h.n, sum_range_succ, sum_range_succ, sum_range_zero, h.w00, h.w10, h.src0]; ring
  have h1 : (globalSys F).total 1 = 1 := by
    show (∑ u ∈ range F.n, F.w u 1) + F.src 1 = 1
    rw [h.n, sum_range_succ, sum_range_succ, sum_range_zero, h.w01, h.w11, h.src1]; ring
  have d0 : ¬ (globalSys F).Dead 0 := by
    rintro ⟨_, h2⟩
    have : F.src 0 = 0 := h2
    rw [h.src0] at this; linarith
  have d1 : ¬ (globalSys F).Dead 1 := by
    rintro ⟨h2, _⟩
    simp [globalSys, h.src1] at h2
  have i0 : (globalSys F).inj 0 = eps := by
    unfold Sys.inj
    simp [globalSys, h.src0, he]
  have i1 : (globalSys F).inj 1 = 0 := by
    unfold Sys.inj
    simp [globalSys, h.src1]
  have s0 : (globalSys F).csum c 0 = c 1 * (1 - eps) := by
    show (∑ u ∈ range F.n, c u * F.w u 0) = _
    rw [h.n, sum_range_succ, sum_range_succ, sum_range_zero, h.w00, h.w10]; ring
  have s1 : (globalSys F).csum c 1 = c 0 := by
    show (∑ u ∈ range F.n, c u * F.w u 1) = _
    rw [h.n, sum_range_succ, sum_range_succ, sum_range_zero, h.w01, h.w11]; ring
  unfold Sys.cNew
  rw [if_neg d0, if_neg d1, h0, h1, i0, i1, s0, s1, div_one, div_one, add_zero]
  exact ⟨rfl, rfl⟩

/-- New time of flight times new concentration. -/
theorem slow_tNew (h : IsSlow F) (s : St ℚ) :
    (0 < (globalSys F).cNew s.2 0 → (globalSys F).tNew s 0 * (globalSys F).cNew s.2 0
      = (globalSys F).cNew s.2 0 + s.1 1 * s.2 1 * (1 - eps)) ∧
    (0 < (globalSys F).cNew s.2 1 → (globalSys F).tNew s 1 * (globalSys F).cNew s.2 1
      = (globalSys F).cNew s.2 1 + s.1 0 * s.2 0) := by
  have he := eps_pos
  have h0 : (globalSys F).total 0 = 1 := by
    show (∑ u ∈ range F.n, F.w u 0) + F.src 0 = 1
    rw [h.n, sum_range_succ, sum_range_succ, sum_range_zero, h.w00, h.w10, h.src0]; ring
  have h1 : (globalSys F).total 1 = 1 := by
    show (∑ u ∈ range F.n, F.w u 1) + F.src 1 = 1
    rw [h.n, sum_range_succ, sum_range_succ, sum_range_zero, h.w01, h.w11, h.src1]; ring
  have d0 : ¬ (globalSys F).Dead 0 := by
    rintro ⟨_, h2⟩
    have : F.src 0 = 0 := h2
    rw [h.src0] at this; linarith
  have d1 : ¬ (globalSys F).Dead 1 := by
    rintro ⟨h2, _⟩
    simp [globalSys, h.src1] at h2
  have p0 : (globalSys F).pv 0 = 1 := h.pv0
  have p1 : (globalSys F).pv 1 = 1 := h.pv1
  have hM : (1 : ℚ) / (globalSys F).M ≤ 1 := by
    show (1 : ℚ) / cap ≤ 1
    rw [cap_eq]; norm_num
  have l0 : ¬ (globalSys F).Slow 0 := by unfold Sys.Slow; rw [h0, p0]; exact not_lt.mpr hM
  have l1 : ¬ (globalSys F).Slow 1 := by unfold Sys.Slow; rw [h1, p1]; exact not_lt.mpr hM
  have s0 : (globalSys F).ysum s 0 = s.1 1 * s.2 1 * (1 - eps) := by
    show (∑ u ∈ range F.n, s.1 u * s.2 u * F.w u 0) = _
    rw [h.n, sum_range_succ, sum_range_succ, sum_range_zero, h.w00, h.w10]; ring
  have s1 : (globalSys F).ysum s 1 = s.1 0 * s.2 0 := by
    show (∑ u ∈ range F.n, s.1 u * s.2 u * F.w u 1) = _
    rw [h.n, sum_range_succ, sum_range_succ, sum_range_zero, h.w01, h.w11]; ring
  constructor
  · intro hp
    unfold Sys.tNew
    rw [if_neg d0, if_neg l0, if_pos hp, h0, p0, s0, one_mul, div_mul_cancel₀ _ hp.ne']
  · intro hp
    unfold Sys.tNew
    rw [if_neg d1, if_neg l1, if_pos hp, h1, p1, s1, one_mul, div_mul_cancel₀ _ hp.ne']

theorem xs_pos (k : Nat) : 0 < xs (k + 1) := by
  obtain ⟨_, _, h, h'⟩ := xs_bounds k
  have : xs (k + 1) = xs k * (1 - eps) + eps := rfl
  rw [this]
  unfold eps
  nlinarith

/-- Cell 0 before any sweep, or after `k` sweeps. -/
theorem slow_sweeps (h : IsSlow F) {C : List Nat} (hC : C = [0, 1] ∨ C = [1, 0]) {s : St ℚ} (hs : ∀ v, s.1 v = 0 ∧ s.2 v = 0) :
    ∀ k : Nat, (((globalSys F).sweep C)^[k] s).2 0 = xs k ∧
      (((globalSys F).sweep C)^[k] s).1 0 * (((globalSys F).sweep C)^[k] s).2 0 = ys k := by
  rcases hC with rfl | rfl
  · suffices H : ∀ k : Nat, (((globalSys F).sweep [0, 1])^[k] s).2 0 = xs k ∧
        (((globalSys F).sweep [0, 1])^[k] s).1 0 * (((globalSys F).sweep [0, 1])^[k] s).2 0 = ys k ∧
        (((globalSys F).sweep [0, 1])^[k] s).2 1 = xs k ∧
        (((globalSys F).sweep [0, 1])^[k] s).1 1 * (((globalSys F).sweep [0, 1])^[k] s).2 1 = xs k + ys k from
      fun k => ⟨(H k).1, (H k).2.1⟩
    intro k
    induction k with
    | zero => simp [hs, xs, ys]
    | succ k ih =>
      rw [Function.iterate_succ_apply']
      generalize ((globalSys F).sweep [0, 1])^[k] s = t at ih
      obtain ⟨i1, i2, i3, i4⟩ := ih
      have c0 := (slow_cNew h t.2).1
      rw [i3] at c0
      have hc0 : (globalSys F).cNew t.2 0 = xs (k + 1) := c0
      have t0 := (slow_tNew h t).1 (by rw [hc0]; exact xs_pos k)
      rw [hc0, i4] at t0
      set t' := (globalSys F).upd t 0 with ht'
      have u1 : t'.2 0 = xs (k + 1) := by rw [ht', Sys.upd_self.2, hc0]
      have u2 : t'.1 0 * xs (k + 1) = ys (k + 1) := by rw [ht', Sys.upd_self.1, t0]; rfl
      have c1 : (globalSys F).cNew t'.2 1 = xs (k + 1) := by rw [(slow_cNew h t'.2).2, u1]
      have t1 := (slow_tNew h t').2 (by rw [c1]; exact xs_pos k)
      rw [c1, u1, u2] at t1
      have e : (globalSys F).sweep [0, 1] t = (globalSys F).upd t' 1 := rfl
      rw [e, Sys.upd_self.1, Sys.upd_self.2, (Sys.upd_other (by decide : (0 : Nat) ≠ 1)).1,
        (Sys.upd_other (by decide : (0 : Nat) ≠ 1)).2, c1, u1]
      exact ⟨rfl, u2, rfl, t1⟩
  · intro k
    induction k with
    | zero => simp [hs, xs, ys]
    | succ k ih =>
      rw [Function.iterate_succ_apply']
      generalize ((globalSys F).sweep [1, 0])^[k] s = t at ih
      obtain ⟨i1, i2⟩ := ih
      have c1 : (globalSys F).cNew t.2 1 = xs k := by rw [(slow_cNew h t.2).2, i1]
      set t' := (globalSys F).upd t 1 with ht'
      have u1 : t'.2 1 = xs k := by rw [ht', Sys.upd_self.2, c1]
      have u2 : t'.1 1 * xs k = xs k + ys k := by
        cases k with
        | zero => simp [xs, ys]
        | succ k =>
          have t1 := (slow_tNew h t).2 (by rw [c1]; exact xs_pos k)
          rw [c1, i2] at t1
          rw [ht', Sys.upd_self.1, t1]
      have c0 : (globalSys F).cNew t'.2 0 = xs (k + 1) := by rw [(slow_cNew h t'.2).1, u1]; rfl
      have t0 := (slow_tNew h t').1 (by rw [c0]; exact xs_pos k)
      rw [c0, u1, u2] at t0
      have e : (globalSys F).sweep [1, 0] t = (globalSys F).upd t' 0 := rfl
      rw [e, Sys.upd_self.1, Sys.upd_self.2, c0]
      exact ⟨rfl, t0⟩

/-- The criterion is not met during the first 2^31 sweeps. -/
theorem slow_not_conv (h : IsSlow F) {C : List Nat} (hC : C = [0, 1] ∨ C = [1, 0]) {s : St ℚ}
    (hs : ∀ v, s.1 v = 0 ∧ s.2 v = 0) {j : Nat} (hj : j ≤ 2147483648) :
    ¬ Sys.Conv C tolT tolC (((globalSys F).sweep C)^[j] s) (((globalSys F).sweep C)^[j + 1] s) := by
  have h0 : 0 ∈ C := by rcases hC with rfl | rfl <;> simp
  intro hcv
  obtain ⟨a1, a2⟩ := slow_sweeps h hC hs j
  obtain ⟨b1, b2⟩ := slow_sweeps h hC hs (j + 1)
  rcases Nat.eq_zero_or_pos j with rfl | hpos
  · have := (hcv.zero 0 h0).mp a1
    rw [b1] at this
    exact (xs_pos 0).ne' this
  · have hg := growth hpos hj
    have ht := hcv.tof 0 h0
    rw [a1] at a2
    rw [b1] at b2
    have ex : ∃ i, j = i + 1 := ⟨j - 1, by omega⟩
    have hx : 0 < xs j := by obtain ⟨i, rfl⟩ := ex; exact xs_pos i
    have hx' : 0 < xs (j + 1) := xs_pos j
    rw [← eq_div_iff hx.ne'] at a2
    rw [← eq_div_iff hx'.ne'] at b2
    rw [a2, b2] at ht
    exact absurd (le_trans (le_abs_self _) ht) (not_le.mpr hg)

/-- The global solve does not end within `INT_MAX` sweeps. -/
theorem slow_diverges (hs : IsSlow F) (hF : F.Valid) {d : SolverData (X ℚ)} (hd : IsSolver F d) :
    ∃ N, ∀ fuel, N ≤ fuel → ∀ st : SolverState (X ℚ),
      (solveGlobalWith (uncounted INT_MAX) d Alloc.good fuel st).2 = .diverge := by
  have he := eps_pos
  have hI := hF.int
  have hG := hd.graph.isGraph hI
  obtain ⟨comps, htopo, horder⟩ := computeOrdering_spec hG hd.graph.adj.size Alloc.good_good
  have ht : FTopo (globalSys F) (· < F.n) comps :=
    FTopo.of (S := globalSys F) hd.graph htopo (fun v hv => hv) fun u v hu hr => reach_lt hu hr
  obtain ⟨b, eb, hb⟩ := setupStartArrayFromSource_exact hd
  have hst : HasStarts (globalSys F) b d.sourceTerm :=
    ⟨hb, fun v hv _ => by rw [hd.source]; exact arr_getElem? _ hv, rfl, hI⟩
  refine ⟨F.n + numEdges F.n d.g.startPointers, ?_⟩
  intro fuel hf st
  -- the only component consists of both cells
  have r01 : Reachable F.n d.g.startPointers d.g.neighbourhood 0 1 :=
    (reachable_iff hd.graph 0 1).mpr (.single ⟨by rw [hs.n]; decide, by rw [hs.n]; decide, by rw [hs.w01]; norm_num⟩)
  have r10 : Reachable F.n d.g.startPointers d.g.neighbourhood 1 0 :=
    (reachable_iff hd.graph 1 0).mpr (.single ⟨by rw [hs.n]; decide, by rw [hs.n]; decide, by rw [hs.w10]; unfold eps; norm_num⟩)
  have hcomp : ∃ c rest, comps = c :: rest ∧ (c = [0, 1] ∨ c = [1, 0]) := by
    have h0 : 0 ∈ comps.flatten := (htopo.cover 0).mpr (by rw [hs.n]; decide)
    match comps, htopo with
    | [], _ => simp at h0
    | c :: rest, htopo =>
      refine ⟨c, rest, rfl, ?_⟩
      have hne := htopo.nonempty c List.mem_cons_self
      have hlt : ∀ v ∈ c, v < 2 := by
        intro v hv
        rw [← hs.n]
        exact (htopo.cover v).mp (List.mem_flatten.mpr ⟨c, List.mem_cons_self, hv⟩)
      have hnd : c.Nodup := by
        have := htopo.once
        rw [List.flatten_cons] at this
        exact (List.nodup_append.mp this).1
      obtain ⟨u, hu⟩ := List.exists_mem_of_ne_nil c hne
      have hboth : 0 ∈ c ∧ 1 ∈ c := by
        have hu2 := hlt u hu
        have : u = 0 ∨ u = 1 := by omega
        rcases this with rfl | rfl
        · exact ⟨hu, htopo.weak c List.mem_cons_self 0 hu 1 (by rw [hs.n]; decide) r01 r10⟩
        · exact ⟨htopo.weak c List.mem_cons_self 1 hu 0 (by rw [hs.n]; decide) r10 r01, hu⟩
      have hp : c.Perm [0, 1] := by
        refine (List.perm_ext_iff_of_nodup hnd (by decide)).mpr fun v => ?_
        constructor
        · intro hv
          have := hlt v hv
          simp only [List.mem_cons, List.not_mem_nil, or_false]
          omega
        · intro hv
          simp only [List.mem_cons, List.not_mem_nil, or_false] at hv
          rcases hv with rfl | rfl
          · exact hboth.1
          · exact hboth.2
      have hl := hp.length_eq
      match c, hl with
      | [a, b], _ =>
        have ha := hlt a (by simp)
        have hb := hlt b (by simp)
        have hab : a ≠ b := by
          rintro rfl
          simp at hnd
        simp only [List.cons.injEq, and_true]
        omega
  obtain ⟨c, rest, rfl, hc⟩ := hcomp
  have hpv : d.pv.length = F.n := by rw [hd.pv, arr_length]
  have hck : (c :: rest)[0]? = some c := rfl
  have hfirst : solveComponent d b d.sourceTerm (cellsOf (c :: rest)) (offsets (c :: rest)) INT_MAX
      (arr F.n fun _ => 0, arr F.n fun _ => 0) 0 = .diverge := by
    have hC : ∀ v ∈ c, v < (globalSys F).n := by
      show ∀ v ∈ c, v < F.n
      rw [hs.n]
      rcases hc with rfl | rfl <;> simp
    have hnd : c.Nodup := by rcases hc with rfl | rfl <;> decide
    obtain ⟨x, hh, hgo⟩ := huge_continues (K := ℚ)
    have hrun := gaussSeidel_continues (S := globalSys F) hd (globalSys_ok hF) hst hC hnd INT_MAX (fun _ => 0, fun _ => 0)
      x x (fun _ _ => ⟨le_rfl, le_rfl⟩) hgo
      (fun j hj => slow_not_conv hs hc (fun _ => ⟨rfl, rfl⟩) (by unfold INT_MAX at hj; omega))
    unfold solveComponent
    simp only [Res.bind_eq, rd_of_getElem? (offsets_getElem? (c :: rest) (k := 0 + 1) (by simp)),
      rd_of_getElem? (offsets_getElem? (c :: rest) (k := 0) (by simp)), Res.ok_bind, off_succ hck,
      Nat.add_sub_cancel_left, readCells_comp hck]
    rcases hc with rfl | rfl
    · simp only [List.map_cons, List.map_nil]
      unfold solveMultiCell
      rw [hh]
      exact hrun
    · simp only [List.map_cons, List.map_nil]
      unfold solveMultiCell
      rw [hh]
      exact hrun
  have hsolve : solve d b d.sourceTerm (cellsOf (c :: rest)) (offsets (c :: rest)) INT_MAX
      (arr F.n fun _ => 0, arr F.n fun _ => 0) = .diverge := by
    unfold solve
    simp only [Res.bind_eq, offsets_length, Nat.add_sub_cancel, List.length_cons]
    rw [List.range_succ_eq_map, forEach_cons, hfirst]
    rfl
  unfold solveGlobalWith prepareForSolve uncounted
  simp only [hpv, eb, finish, horder fuel hf, replicate_arr, hsolve]

end Verif.Counter
