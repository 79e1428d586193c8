/-
The iterations on a cycle end.
-/
import Verif.Proofs.ClimbTimes

namespace Verif.Rounding
set_option linter.unusedSectionVars false
open Finset Verif.Spec Verif.Solver Verif.Toolbox Verif.Tarjan

variable {R : Type} [Arith R] {K : Type} [Field K] [LinearOrder K] [IsStrictOrderedRing K]

omit [IsStrictOrderedRing K] in
theorem lt_max {tol a b : R} (h1 : Arith.lt tol a = false) (h2 : Arith.lt tol b = false) : Arith.lt tol (Arith.max a b) = false := by
  unfold Arith.max; split <;> assumption

namespace Setting
variable {ρ : Rounded R K} {q : K} {d : SolverData R} {F : Flow K} {M : Nat} {isStart : List Bool} {ls : List R}
  {S : Nat → Prop} {inj x h : Nat → K} {H φ : K} (A : Setting ρ q d F M isStart ls S inj x h H φ)
include A

/-- A small change of the time of flight is below the tolerance. -/
theorem time_quiet {a b : R} {s t : K} (ha : ρ.val a = X.fin s) (hb : ρ.val b = X.fin t) (hd : |t - s| ≤ cap / 4000000000000) :
    Arith.lt tofTol (Arith.fabs (Arith.sub b a)) = false := by
  have hq := A.precise.one_le
  have hq2 : q ^ 2 ≤ 2 := (pow_le_pow_right₀ hq (by omega)).trans A.power
  obtain ⟨w, hw, hc⟩ := tofTol_val A.precise hq2
  have hw2 : cap / 4000000000000 ≤ w := by
    have h1 := hc.1
    have h0 : 0 ≤ w := hc.nonneg hq (by unfold cap; positivity)
    have h2 : w * q ^ 2 ≤ w * 2 := mul_le_mul_of_nonneg_left hq2 h0
    have hcap : (0 : K) < cap := by unfold cap; positivity
    have e : (cap : K) / 1000000000000 = 4 * (cap / 4000000000000) := by ring
    have h3 : (0 : K) < cap / 4000000000000 := by positivity
    linarith
  have key : ∀ y : K, 0 ≤ y → y ≤ w → ∃ r, ρ.rnd (X.fin y) = X.fin r ∧ 0 ≤ r ∧ r ≤ w := by
    intro y hy0 hy
    have h1 : X.lt (ρ.rnd (X.fin w)) (ρ.rnd (X.fin y)) = false := rnd_lt ρ (by simpa [X.lt] using hy)
    have h2 : X.lt (ρ.rnd (X.fin y)) (ρ.rnd (X.fin 0)) = false := rnd_lt ρ (by simpa [X.lt] using hy0)
    have h3 : ρ.rnd (X.fin y) ≠ X.nan := rnd_ne_nan ρ (by simp)
    rw [← hw, ρ.rnd_val, hw] at h1
    rw [ρ.rnd_zero] at h2
    cases hr : ρ.rnd (X.fin y) <;> rw [hr] at h1 h2 h3 <;> simp_all [X.lt]
  rw [ρ.lt, ρ.fabs, ρ.sub, ha, hb, hw]
  simp only [X.sub, X.add, X.neg, ← sub_eq_add_neg]
  rcases le_total 0 (t - s) with h0 | h0
  · rw [abs_of_nonneg h0] at hd
    obtain ⟨r, hr, hr0, hrw⟩ := key _ h0 (hd.trans hw2)
    rw [hr]
    simpa [X.fabs, X.lt, not_lt.mpr hr0] using hrw
  · rw [abs_of_nonpos h0] at hd
    obtain ⟨r, hr, hr0, hrw⟩ := key (-(t - s)) (by linarith) (hd.trans hw2)
    have e : ρ.rnd (X.fin (t - s)) = X.fin (-r) := by
      rw [← neg_neg (t - s), A.odd, hr]; rfl
    rw [e]
    simp only [X.fabs, X.lt, neg_lt_zero]
    split
    · simpa using hrw
    · have : r = 0 := le_antisymm (not_lt.mp (by assumption)) hr0
      simpa [this] using hrw

/-- An unchanged concentration is below the tolerance. -/
theorem conc_quiet {a b : R} {s : K} (ha : ρ.val a = X.fin s) (hb : ρ.val b = X.fin s) :
    Arith.lt tracerTol (tracerChange a b) = false := by
  have hq := A.precise.one_le
  obtain ⟨w, hw, hc⟩ := tol_val A.precise
  have hw0 : 0 ≤ w := hc.nonneg hq (by norm_num)
  unfold tracerChange
  have e : (Arith.eq a Arith.zero != Arith.eq b Arith.zero) = false := by
    rw [ρ.eq, ρ.eq, ha, hb]; simp
  rw [e]
  simp only [Bool.false_eq_true, if_false]
  rw [ρ.lt, ρ.fabs, ρ.sub, ha, hb, hw]
  simp only [X.sub, X.add, X.neg, ← sub_eq_add_neg, sub_self]
  rw [ρ.rnd_zero]
  simpa [X.lt, X.fabs] using hw0

variable {μ : K} {C : List Nat} {s0 : List R × List R} (B : Cycle ρ q F M S inj x h H φ μ C s0)
include B

/-- From some moment on nothing changes much. -/
theorem quiet : ∃ N, ∀ k, N ≤ k → (∀ u, cn ρ ((Climb.sweep (after d isStart ls) C)^[k] s0) u
      = cn ρ ((Climb.sweep (after d isStart ls) C)^[k + 1] s0) u) ∧
    ∀ v ∈ C, |tn ρ ((Climb.sweep (after d isStart ls) C)^[k + 1] s0) v - tn ρ ((Climb.sweep (after d isStart ls) C)^[k] s0) v|
      ≤ cap / 4000000000000 := by
  classical
  obtain ⟨N, hN, hf⟩ := A.conc_limit B
  have h1 := A.moment_iter B N
  set s1 := (Climb.sweep (after d isStart ls) C)^[N] s0 with hs1
  have hrule := A.time_rule B h1 hf
  have hst : Still ρ F.n (fun u => (4 * φ + 1) * h u) C s1 s1 := ⟨h1.ready, h1.timely, fun _ => rfl, fun _ _ => rfl⟩
  have hex : ∀ u : Nat, ∃ f : R, ∃ t : K, u < F.n → (u ∉ C → ρ.val f = X.fin t ∧ t = tn ρ s1 u) ∧
      (u ∈ C → ρ.val f = X.fin t ∧ 0 ≤ t ∧ t * cn ρ s1 u ≤ (4 * φ + 1) * h u ∧
        ∀ f' t', ρ.val f' = X.fin t' → 0 ≤ t' → t' * cn ρ s1 u ≤ (4 * φ + 1) * h u → t' ≤ t) := by
    intro u
    by_cases hu : u < F.n
    · by_cases hC : u ∈ C
      · obtain ⟨t, ⟨⟨f, hft⟩, ht0, htb⟩, hmax⟩ := Set.exists_max_image {t : K | (∃ a, ρ.val a = X.fin t) ∧ 0 ≤ t ∧ t * cn ρ s1 u ≤ (4 * φ + 1) * h u}
          (fun t => t) (A.values.subset fun t ht => ht.1)
          ⟨0, ⟨Arith.zero, val_zero' ρ⟩, le_rfl, by rw [zero_mul]; exact mul_nonneg A.alpha_pos.le (A.h_nonneg u hu)⟩
        exact ⟨f, t, fun _ => ⟨fun h => absurd hC h, fun _ => ⟨hft, ht0, htb, fun f' t' g1 g2 g3 => hmax t' ⟨⟨f', g1⟩, g2, g3⟩⟩⟩⟩
      · obtain ⟨a, _, a2, _⟩ := h1.timely u hu
        exact ⟨a, tn ρ s1 u, fun _ => ⟨fun _ => ⟨a2, rfl⟩, fun h => absurd h hC⟩⟩
    · exact ⟨Arith.zero, 0, fun h => absurd h hu⟩
  choose fh th hh using hex
  have hlo := still_retime (ρ := ρ) (B := fun u => (4 * φ + 1) * h u) (C := C) h1.ready
    (f := fun u => if u ∈ C then Arith.zero else fh u) (t := fun u => if u ∈ C then 0 else th u) (by
      intro u hu
      by_cases hC : u ∈ C
      · simp only [if_pos hC]
        exact ⟨val_zero' ρ, le_rfl, by rw [zero_mul]; exact mul_nonneg A.alpha_pos.le (A.h_nonneg u hu)⟩
      · simp only [if_neg hC]
        obtain ⟨g1, g2⟩ := (hh u hu).1 hC
        obtain ⟨a, _, a2, a3, a4⟩ := h1.timely u hu
        rw [g2] at g1 ⊢
        exact ⟨g1, a3, a4⟩) (by
      intro u hu hC
      simp only [if_neg hC]
      exact ((hh u hu).1 hC).2)
  have hhi := still_retime (ρ := ρ) (B := fun u => (4 * φ + 1) * h u) (C := C) h1.ready (f := fh) (t := th) (by
      intro u hu
      by_cases hC : u ∈ C
      · obtain ⟨g1, g2, g3, _⟩ := (hh u hu).2 hC
        exact ⟨g1, g2, g3⟩
      · obtain ⟨g1, g2⟩ := (hh u hu).1 hC
        obtain ⟨a, _, a2, a3, a4⟩ := h1.timely u hu
        rw [g2] at g1 ⊢
        exact ⟨g1, a3, a4⟩) (fun u hu hC => ((hh u hu).1 hC).2)
  obtain ⟨hlo1, hlo2⟩ := hlo
  obtain ⟨hhi1, hhi2⟩ := hhi
  set a := retime F.n (fun u => if u ∈ C then Arith.zero else fh u) s1 with ha
  set b := retime F.n fh s1 with hb
  have hbound : ∀ {s : List R × List R}, Still ρ F.n (fun u => (4 * φ + 1) * h u) C s1 s → ∀ v ∈ C, 0 ≤ tn ρ s v ∧ tn ρ s v ≤ tn ρ b v := by
    intro s hs v hv
    have hvn := B.cells v hv
    obtain ⟨c, _, c2, c3, c4⟩ := hs.timely v hvn
    rw [hs.conc] at c4
    obtain ⟨_, _, _, g⟩ := (hh v hvn).2 hv
    rw [hhi2 v hvn]
    exact ⟨c3, g c _ c2 c3 c4⟩
  have ha0 : ∀ v ∈ C, tn ρ a v = 0 := by
    intro v hv; rw [hlo2 v (B.cells v hv), if_pos hv]
  obtain ⟨N2, lo, hi, k1, k2, k3, k4, k5⟩ := hrule.squeeze B.nodup A.values (by
      intro s hs u hu
      obtain ⟨c, _, c2, _⟩ := hs.timely u (B.cells u hu)
      exact ⟨c, c2⟩) hlo1 hst hhi1 (by
      intro v hv
      rw [ha0 v hv]
      exact (hbound (hrule.keep a v hv hlo1) v hv).1) (fun v hv => (hbound (hrule.keep b v hv hhi1) v hv).2) (by
      intro u
      by_cases hC : u ∈ C
      · rw [ha0 u hC]; exact (hbound hst u hC).1
      · exact (hlo1.time u hC).le) (by
      intro u
      by_cases hC : u ∈ C
      · exact (hbound hst u hC).2
      · exact (hhi1.time u hC).ge)
  have hle : ∀ u, tn ρ lo u ≤ tn ρ hi u := fun u => (k5 N2 le_rfl u).1.trans (k5 N2 le_rfl u).2
  have hgap := A.time_gap B h1 hf k1 k2 k3 k4 hle
  refine ⟨N + N2, ?_⟩
  intro k hk
  refine ⟨fun u => by rw [hN k (by omega), hN (k + 1) (by omega)], ?_⟩
  intro v hv
  have e : ∀ j, (Climb.sweep (after d isStart ls) C)^[N + j] s0 = (Climb.sweep (after d isStart ls) C)^[j] s1 := by
    intro j
    rw [hs1, ← Function.iterate_add_apply, Nat.add_comm]
  have ek : (Climb.sweep (after d isStart ls) C)^[k] s0 = (Climb.sweep (after d isStart ls) C)^[k - N] s1 := by
    rw [← e, show N + (k - N) = k by omega]
  have ek1 : (Climb.sweep (after d isStart ls) C)^[k + 1] s0 = (Climb.sweep (after d isStart ls) C)^[k + 1 - N] s1 := by
    rw [← e, show N + (k + 1 - N) = k + 1 by omega]
  rw [ek, ek1]
  obtain ⟨g1, g2⟩ := k5 (k - N) (by omega) v
  obtain ⟨g3, g4⟩ := k5 (k + 1 - N) (by omega) v
  have := hgap v hv
  rw [abs_le]
  constructor <;> linarith

/-- A sweep. -/
theorem run_sweep : ∀ (l : List Nat), (∀ v ∈ l, v ∈ C) → l.Nodup → ∀ (s : List R × List R) (m : R × R), Ready ρ F.n s →
    ∃ m', forEach (l.map fun v : Nat => (v : Int)) (s, m) (sweepCell d isStart ls) = .ok (Climb.sweep (after d isStart ls) l s, m') ∧
      (Arith.lt tofTol m.1 = false → Arith.lt tracerTol m.2 = false →
        (∀ v ∈ l, ∀ a c a' c', cellAt s v = (some a, some c) → cellAt (Climb.sweep (after d isStart ls) l s) v = (some a', some c') →
          Arith.lt tofTol (Arith.fabs (Arith.sub a' a)) = false ∧ Arith.lt tracerTol (tracerChange c c') = false) →
        Arith.lt tofTol m'.1 = false ∧ Arith.lt tracerTol m'.2 = false) := by
  intro l
  induction l with
  | nil => intro _ _ s m _; exact ⟨m, rfl, fun h1 h2 _ => ⟨h1, h2⟩⟩
  | cons v l ih =>
    intro hl hnd s m hs
    obtain ⟨hv, hnd'⟩ := List.nodup_cons.mp hnd
    have hvn := B.cells v (hl v List.mem_cons_self)
    obtain ⟨p, hp, h1, h2, h3, h4, h5, h6⟩ := A.after_eq hs hvn
    obtain ⟨a, c, ha, hc, _⟩ := hs.at hvn
    have hstep : sweepCell d isStart ls (s, m) (v : Int) = .ok (after d isStart ls v s,
        (Arith.max m.1 (Arith.fabs (Arith.sub p.1 a)), Arith.max m.2 (tracerChange c p.2))) := by
      unfold sweepCell
      simp only [Res.bind_eq, Res.pure_eq, A.sizeInt hvn, rd_of_getElem? ha, rd_of_getElem? hc, Res.ok_bind, h1,
        rd_of_getElem? h4, rd_of_getElem? h5]
    obtain ⟨m', k1, k2⟩ := ih (fun w hw => hl w (List.mem_cons_of_mem _ hw)) hnd' (after d isStart ls v s)
      (Arith.max m.1 (Arith.fabs (Arith.sub p.1 a)), Arith.max m.2 (tracerChange c p.2)) h3
    have hfr : ∀ (l' : List Nat), (∀ w ∈ l', w ∈ C) → ∀ s, Ready ρ F.n s → ∀ u, u ∉ l' →
        cellAt (Climb.sweep (after d isStart ls) l' s) u = cellAt s u := by
      intro l'
      induction l' with
      | nil => intro _ s _ u _; rfl
      | cons w l' ih' =>
        intro hl' s hs u hu
        rw [List.mem_cons, not_or] at hu
        obtain ⟨_, _, _, _, j3, _, _, j6⟩ := A.after_eq hs (B.cells w (hl' w List.mem_cons_self))
        refine (ih' (fun y hy => hl' y (List.mem_cons_of_mem _ hy)) _ j3 u hu.2).trans ?_
        unfold cellAt
        rw [(j6 u hu.1).1, (j6 u hu.1).2]
    refine ⟨m', ?_, ?_⟩
    · rw [List.map_cons, forEach_cons, hstep]
      exact k1
    · intro q1 q2 q3
      have hlast : cellAt (Climb.sweep (after d isStart ls) (v :: l) s) v = (some p.1, some p.2) := by
        refine (hfr l (fun w hw => hl w (List.mem_cons_of_mem _ hw)) _ h3 v hv).trans ?_
        unfold cellAt; rw [h4, h5]
      obtain ⟨q4, q5⟩ := q3 v List.mem_cons_self a c p.1 p.2 (by unfold cellAt; rw [ha, hc]) hlast
      refine k2 (lt_max q1 q4) (lt_max q2 q5) ?_
      intro w hw a1 c1 a2 c2 e1 e2
      have hne : w ≠ v := fun e => hv (e ▸ hw)
      refine q3 w (List.mem_cons_of_mem _ hw) a1 c1 a2 c2 ?_ e2
      rw [← e1]
      unfold cellAt
      rw [(h6 w hne).1, (h6 w hne).2]

/-- The iterations on a cycle end if the changes of one sweep are below the tolerances. -/
theorem ends_at (N : Nat) (hN : ∀ v ∈ C, ∀ a c a' c', cellAt ((Climb.sweep (after d isStart ls) C)^[N] s0) v = (some a, some c) →
      cellAt ((Climb.sweep (after d isStart ls) C)^[N + 1] s0) v = (some a', some c') →
      ρ.val a = X.fin (tn ρ ((Climb.sweep (after d isStart ls) C)^[N] s0) v) →
      ρ.val a' = X.fin (tn ρ ((Climb.sweep (after d isStart ls) C)^[N + 1] s0) v) →
      ρ.val c = X.fin (cn ρ ((Climb.sweep (after d isStart ls) C)^[N] s0) v) →
      ρ.val c' = X.fin (cn ρ ((Climb.sweep (after d isStart ls) C)^[N + 1] s0) v) →
      Arith.lt tofTol (Arith.fabs (Arith.sub a' a)) = false ∧ Arith.lt tracerTol (tracerChange c c') = false) :
    ∃ k, gaussSeidel d isStart ls (C.map fun v : Nat => (v : Int)) (N + 1) (s0, (huge, huge))
      = .ok ((Climb.sweep (after d isStart ls) C)^[k] s0) := by
  have hzero : Arith.lt tofTol (Arith.zero : R) = false ∧ Arith.lt tracerTol (Arith.zero : R) = false := by
    have hq := A.precise.one_le
    have hq2 : q ^ 2 ≤ 2 := (pow_le_pow_right₀ hq (by omega)).trans A.power
    obtain ⟨w, hw, hc⟩ := tofTol_val A.precise hq2
    obtain ⟨w', hw', hc'⟩ := tol_val A.precise
    constructor
    · rw [ρ.lt, hw, val_zero' ρ]
      simpa [X.lt] using hc.nonneg hq (by unfold cap; positivity)
    · rw [ρ.lt, hw', val_zero' ρ]
      simpa [X.lt] using hc'.nonneg hq (by norm_num)
  have key : ∀ j k, k + j = N + 1 → ∀ m : R × R, (k = N + 1 → Arith.lt tofTol m.1 = false ∧ Arith.lt tracerTol m.2 = false) →
      ∃ k', gaussSeidel d isStart ls (C.map fun v : Nat => (v : Int)) j ((Climb.sweep (after d isStart ls) C)^[k] s0, m)
        = .ok ((Climb.sweep (after d isStart ls) C)^[k'] s0) := by
    intro j
    induction j with
    | zero =>
      intro k hk m hm
      obtain ⟨h1, h2⟩ := hm (by omega)
      refine ⟨k, ?_⟩
      unfold gaussSeidel
      simp [h1, h2]
    | succ j ih =>
      intro k hk m _
      unfold gaussSeidel
      split
      · have hs := A.moment_iter B k
        have hs' := A.moment_iter B (k + 1)
        obtain ⟨m', h1, h2⟩ := A.run_sweep B C (fun _ h => h) B.nodup _ (Arith.zero, Arith.zero) hs.ready
        simp only [Res.bind_eq, h1, Res.ok_bind]
        rw [← Function.iterate_succ_apply' (f := Climb.sweep (after d isStart ls) C)]
        refine ih (k + 1) (by omega) m' ?_
        intro e
        obtain rfl : k = N := by omega
        refine h2 hzero.1 hzero.2 ?_
        intro v hv a c a' c' e1 e2
        rw [← Function.iterate_succ_apply' (f := Climb.sweep (after d isStart ls) C)] at e2
        have hvn := B.cells v hv
        have e1' := e1
        have e2' := e2
        unfold cellAt at e1 e2
        obtain ⟨e1, e3⟩ := Prod.mk.inj e1
        obtain ⟨e2, e4⟩ := Prod.mk.inj e2
        obtain ⟨b1, b2, b3, _⟩ := hs.timely v hvn
        obtain ⟨b1', b2', b3', _⟩ := hs'.timely v hvn
        rw [e1] at b2; cases b2
        rw [e2] at b2'; cases b2'
        have b4 := (num_entry hs.ready e3).1
        have b4' := (num_entry hs'.ready e4).1
        exact hN v hv a c a' c' e1' e2' b3 b3' b4 b4'
      · exact ⟨k, rfl⟩
  exact key (N + 1) 0 (by omega) (huge, huge) (by omega)

/-- The iterations on a cycle end. -/
theorem cycle_ends : ∃ fuel k, gaussSeidel d isStart ls (C.map fun v : Nat => (v : Int)) fuel (s0, (huge, huge))
    = .ok ((Climb.sweep (after d isStart ls) C)^[k] s0) := by
  obtain ⟨N, hN⟩ := A.quiet B
  obtain ⟨g1, g2⟩ := hN N le_rfl
  obtain ⟨k, hk⟩ := A.ends_at B N (by
    intro v hv a c a' c' e1 e2 b1 b2 b3 b4
    rw [← g1 v] at b4
    exact ⟨A.time_quiet b1 b2 (g2 v hv), A.conc_quiet b3 b4⟩)
  exact ⟨N + 1, k, hk⟩

end Setting
end Verif.Rounding
