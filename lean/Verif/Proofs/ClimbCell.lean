/-
Times of flight computed in one visit to a cell, whatever they are upstream.
-/
import Verif.Proofs.SlackTime

namespace Verif.Rounding
open Finset Verif.Spec Verif.Solver Verif.Toolbox

variable {R : Type} [Arith R] {K : Type} [Field K] [LinearOrder K] [IsStrictOrderedRing K] {ρ : Rounded R K} {q : K}

/-- Bound of the errors of times that come from numbers close to zero. -/
def climbSlack (K : Type) [Field K] : K := 1 / 2 ^ 190

theorem climbSlack_pos : 0 < climbSlack K := by unfold climbSlack; positivity

/-- The solver takes the cell to be slow to fill. -/
def Slow (d : SolverData R) (isStart : List Bool) (v : Nat) : Prop :=
  ∃ s b a p, d.sourceTerm[v]? = some s ∧ isStart[v]? = some b ∧ d.influx[v]? = some a ∧ d.pv[v]? = some p ∧
    Arith.lt (Arith.add a (cellSource s b)) (Arith.div p maxTof) = true

theorem climb_tiny {M : K} (hM0 : 0 ≤ M) (hM : M + 1 ≤ 2 ^ 100) {y : K} (hy : 1 ≤ y * 2 ^ 600) (hy0 : 0 < y) {W : K} (hW : W ≤ 2 ^ 100)
    {e : K} (he : e ≤ M * (2 * tiny K * W + tiny K + tiny K) + tiny K + tiny K) :
    2 * e / y + tiny K ≤ climbSlack K := by
  have ht := tiny_pos (K := K)
  have h1 : 1 / y ≤ 2 ^ 600 := by rw [div_le_iff₀ hy0, mul_comm]; exact hy
  have h1' : 0 ≤ 1 / y := by positivity
  have hP : (1 : K) ≤ 2 ^ 100 := one_le_pow₀ one_le_two
  have hPP : (2 : K) ^ 100 ≤ 2 ^ 100 * 2 ^ 100 := le_mul_of_one_le_left (by positivity) hP
  have h2 : M * (2 * W + 2) + 2 ≤ (2 ^ 100 * 2 ^ 100) * 6 := by
    have : M * (2 * W + 2) ≤ 2 ^ 100 * (2 * 2 ^ 100 + 2) := by
      calc M * (2 * W + 2) ≤ M * (2 * 2 ^ 100 + 2) := mul_le_mul_of_nonneg_left (by linarith) hM0
        _ ≤ _ := mul_le_mul_of_nonneg_right (by linarith) (by positivity)
    generalize hA : (2 : K) ^ 100 = A at *
    have e1 : A * (2 * A + 2) = A * A * 2 + A * 2 := by ring
    linarith
  have h3 : e ≤ tiny K * ((2 ^ 100 * 2 ^ 100) * 6) := by
    refine he.trans ?_
    calc M * (2 * tiny K * W + tiny K + tiny K) + tiny K + tiny K = tiny K * (M * (2 * W + 2) + 2) := by ring
      _ ≤ _ := mul_le_mul_of_nonneg_left h2 ht.le
  have h4 : 2 * e / y + tiny K ≤ tiny K * ((2 ^ 100 * 2 ^ 100) * 12 * 2 ^ 600 + 1) := by
    have e1 : 2 * e / y = e * (2 * (1 / y)) := by ring
    have e2 : e * (2 * (1 / y)) ≤ tiny K * ((2 ^ 100 * 2 ^ 100) * 6) * (2 * 2 ^ 600) := by
      calc e * (2 * (1 / y)) ≤ tiny K * ((2 ^ 100 * 2 ^ 100) * 6) * (2 * (1 / y)) :=
            mul_le_mul_of_nonneg_right h3 (by linarith)
        _ ≤ _ := mul_le_mul_of_nonneg_left (by linarith) (by positivity)
    rw [e1]
    generalize (2 : K) ^ 100 = A at *
    generalize (2 : K) ^ 600 = B at *
    have e3 : tiny K * (A * A * 12 * B + 1) = tiny K * (A * A * 6) * (2 * B) + tiny K := by ring
    rw [e3]
    linarith
  refine h4.trans ?_
  have h5 : (2 ^ 100 * 2 ^ 100 * 12 * 2 ^ 600 + 1 : K) ≤ 2 ^ 811 := by
    have e1 : (2 ^ 100 * 2 ^ 100 * 12 * 2 ^ 600 : K) = 2 ^ 800 * 12 := by
      rw [show (800 : ℕ) = 100 + 100 + 600 by norm_num, pow_add, pow_add]; ring
    have e2 : (2 : K) ^ 811 = 2 ^ 800 * 2048 := by
      rw [show (811 : ℕ) = 800 + 11 by norm_num, pow_add]; norm_num
    have e3 : (1 : K) ≤ 2 ^ 800 := one_le_pow₀ one_le_two
    have key : ∀ A : K, 1 ≤ A → A * 12 + 1 ≤ A * 2048 := by
      clear * -
      intro A h
      linarith
    rw [e1, e2]
    exact key _ e3
  refine (mul_le_mul_of_nonneg_left h5 ht.le).trans (le_of_eq ?_)
  unfold tiny climbSlack
  rw [show (1001 : ℕ) = 190 + 811 by norm_num, pow_add]
  have : (2 : K) ^ 811 ≠ 0 := by positivity
  have : (2 : K) ^ 190 ≠ 0 := by positivity
  field_simp

variable (hp : Precise ρ q)
include hp

/-- The time of flight computed in one visit, if the concentration is not tiny. -/
theorem cell_climb {d : SolverData R} {F : Flow K} {M : Nat} (hA : Approx ρ q d F M) (hq2 : q ^ (4 * M + 6) ≤ 2)
    (hM : (M : K) + 1 ≤ 2 ^ 100) {v : Nat} (hv : v < F.n) (hm : Sized F v) {isStart : List Bool} {ls : List R} {b : Bool}
    (hb : isStart[v]? = some b) (hb1 : b = true → 0 < F.src v)
    {s : List R × List R} {T C : Nat → R} (hTC : ∀ u, F.Edge u v → s.1[u]? = some (T u) ∧ s.2[u]? = some (C u))
    {c τ : Nat → K} (hc : ∀ u, F.Edge u v → ρ.val (C u) = X.fin (c u) ∧ 0 ≤ c u ∧ c u ≤ 1)
    (hτ : ∀ u, F.Edge u v → ρ.val (T u) = X.fin (τ u) ∧ 0 ≤ τ u ∧ τ u * c u ≤ 2 ^ 130)
    {p : R × R} (h : cellVals d isStart ls s v = .ok p) {x : K} (hx : ρ.val p.2 = X.fin x) (hx1 : x ≤ 1)
    (hx2 : 1 ≤ x * 2 ^ 500) :
    0 < F.total v ∧ (Slow d isStart v → ρ.val p.1 = X.fin cap ∧ cap * F.total v ≤ 4 * F.pv v) ∧
      (¬ Slow d isStart v → NearE ρ q (4 * M + 6) (climbSlack K) p.1
        ((F.pv v * x + ∑ u ∈ range F.n, τ u * c u * F.w u v) / (F.total v * x))) := by
  have hq := hp.one_le
  have hle : ∀ {i : Nat}, i ≤ 4 * M + 6 → q ^ i ≤ 2 := fun hi => (pow_le_pow_right₀ hq hi).trans hq2
  have hxp : 0 < x := by
    by_contra hn
    exact absurd (hx2.trans (mul_nonpos_of_nonpos_of_nonneg (not_lt.mp hn) (two_pow_pos' (K := K) 500).le)) (not_le.mpr one_pos)
  have hsz : sizeOfInt (v : Int) = v := by
    have := hA.int
    rw [sizeOfInt_nonneg (by omega) (by omega)]; simp
  obtain ⟨l, hrow, hlen, hl, hsum⟩ := hA.row v hv
  obtain ⟨ai, hai, hni⟩ := hA.influx v hv
  obtain ⟨as, has, hns⟩ := hA.source v hv
  obtain ⟨ap, hap, hnp⟩ := hA.pv v hv
  unfold cellVals at h
  simp only [Res.bind_eq, Res.pure_eq, hsz, rd_of_getElem? hai, rd_of_getElem? has, rd_of_getElem? hap, rd_of_getElem? hb,
    hrow, Res.ok_bind] at h
  obtain ⟨up, hup', h⟩ := Res.bind_ok_iff.mp h
  obtain ⟨contrib, _, h⟩ := Res.bind_ok_iff.mp h
  obtain ⟨_, _, h⟩ := Res.bind_ok_iff.mp h
  obtain ⟨_, _, h⟩ := Res.bind_ok_iff.mp h
  obtain ⟨c', hc', h⟩ := Res.bind_ok_iff.mp h
  cases h
  have hupv := upwind_foldl (T := T) (C := C) (fun x hx => by have := (hl x hx).1.1; have := hA.int; omega)
    (fun x hx => hTC _ (hl x hx).1) hup'
  have ht0 := hm.total.nonneg
  have hcs : cellSource as b = as := by
    unfold cellSource
    cases b with
    | false => simp
    | true =>
      obtain ⟨x, hx, hxc⟩ := hns
      have hne : x ≠ 0 := ((hxc.pos_iff hq (hb1 rfl).le).mpr (hb1 rfl)).ne'
      rw [ρ.eq, hx, val_zero' ρ]
      simp [X.eq, hne]
  rw [hcs] at hc'
  have htot : Near ρ q (2 * M + 1) (Arith.add ai as) (F.total v) :=
    near_add hp (hle (by omega)) hni (hns.mono hp hm.src.nonneg (by omega)) (hm.total.mono (by omega))
  have htp : 0 < F.total v := by
    rcases ht0.eq_or_lt with e | e
    · exfalso
      obtain ⟨z, hz, hzc⟩ := htot
      have : z = 0 := (hzc.zero_iff hq ht0).mpr e.symm
      unfold cellTracer at hc'
      rw [if_pos (by rw [ρ.eq, hz, this, val_zero' ρ]; simp [X.eq])] at hc'
      obtain ⟨_, _, hc'⟩ := Res.bind_ok_iff.mp hc'
      cases hc'
      rw [val_zero' ρ] at hx
      cases hx
      exact _root_.lt_irrefl _ hxp
    · exact e
  refine ⟨htp, ?_⟩
  have ht1 : 1 ≤ F.total v * 2 ^ 100 := by
    rcases hm.total with h1 | h1
    · exact absurd h1 htp.ne'
    · exact h1.1
  -- sums over the cells upstream
  set S := ∑ u ∈ range F.n, τ u * c u * F.w u v with hS
  have hsc : (l.map fun p => τ p.1 * c p.1 * F.w p.1 v).sum = S := hsum fun u => τ u * c u
  have hterm : ∀ x ∈ l, 0 ≤ τ x.1 * c x.1 * F.w x.1 v ∧ τ x.1 * c x.1 * F.w x.1 v ≤ 2 ^ 130 * F.w x.1 v := by
    intro x hx
    obtain ⟨h1, _, h3⟩ := hl x hx
    obtain ⟨_, h4, h5⟩ := hc _ h1
    obtain ⟨_, h6, h7⟩ := hτ _ h1
    refine ⟨mul_nonneg (mul_nonneg h6 h4) h3.nonneg, mul_le_mul_of_nonneg_right ?_ h3.nonneg⟩
    exact h7
  have hS0 : 0 ≤ S := by
    rw [← hsc]
    apply List.sum_nonneg
    intro x hx
    obtain ⟨y, hy, rfl⟩ := List.mem_map.mp hx
    exact (hterm y hy).1
  have hin : F.inflow v ≤ 2 ^ 100 := by
    have h1 := hm.total.le
    have h2 := hm.src.nonneg
    unfold Flow.total at h1
    linarith
  have hSle : S ≤ 2 ^ 230 := by
    have h1 := hsum fun _ => (2 : K) ^ 130
    have h2 : S ≤ ∑ u ∈ range F.n, 2 ^ 130 * F.w u v := by
      rw [← hsc, ← h1]
      exact List.sum_le_sum fun x hx => (hterm x hx).2
    rw [← mul_sum] at h2
    refine h2.trans ?_
    calc (2 : K) ^ 130 * F.inflow v ≤ 2 ^ 130 * 2 ^ 100 := mul_le_mul_of_nonneg_left hin (by positivity)
      _ = 2 ^ 230 := by rw [← pow_add]
  have hty := tiny_pos (K := K)
  have hM0 : (0 : K) ≤ M := Nat.cast_nonneg M
  set W : K := 2 ^ 100 with hW
  have hsmall : ∀ {y : K}, y ≤ (M : K) * (2 * tiny K * W + tiny K + tiny K) + tiny K + tiny K → y ≤ 1 := by
    intro y hy
    have h1 := climb_tiny hM0 hM (y := 2) (by
      rw [← pow_succ']
      exact one_le_pow₀ one_le_two) two_pos (W := W) le_rfl hy
    have h2 : climbSlack K ≤ 1 := by
      unfold climbSlack; rw [_root_.div_le_one (by positivity)]; exact one_le_pow₀ one_le_two
    have h3 : 2 * y / 2 = y := by ring
    rw [h3] at h1
    linarith
  have hbig : ∀ {y : K}, y ≤ 2 ^ 232 + 1 → y ≤ 2 ^ 1000 := by
    intro y hy
    have h1 : (2 : K) ^ 232 + 1 ≤ 2 ^ 233 := by norm_num
    exact (hy.trans h1).trans (pow_le_pow_right₀ one_le_two (by norm_num))
  set e1 : K := 2 * tiny K * W + tiny K with he1
  have he10 : 0 ≤ e1 := by rw [he1]; positivity
  have hlenK : (l.length : K) ≤ M := by exact_mod_cast hlen
  have hsl : (l.length : K) * (e1 + tiny K) ≤ M * (e1 + tiny K) :=
    mul_le_mul_of_nonneg_right hlenK (by linarith)
  have hMt : 0 ≤ (M : K) * (e1 + tiny K) := mul_nonneg hM0 (by linarith)
  have h140 : (2 : K) ^ 230 ≤ 2 ^ 232 := pow_le_pow_right₀ one_le_two (by norm_num)
  have hfold : NearE ρ q (2 * M + 2) (M * (e1 + tiny K)) up.1 S := by
    rw [hupv, ← hsc]
    have := nearE_foldl hp (k := M + 2) (e := e1) he10 (B := 2 ^ 230) (m := M + 2) (σ := 0)
      (l := l.map fun p => (Arith.mul (Arith.mul (T p.1) (C p.1)) p.2, τ p.1 * c p.1 * F.w p.1 v)) (a := Arith.zero) (s := 0) le_rfl
      (hle (by simp; omega)) le_rfl (((near_zero hp _).slack hp le_rfl)) (by
        intro x hx
        obtain ⟨y, hy, rfl⟩ := List.mem_map.mp hx
        obtain ⟨h1, h2, h3⟩ := hl y hy
        obtain ⟨h4, h5, h6⟩ := hc _ h1
        obtain ⟨k4, k5, k6⟩ := hτ _ h1
        refine ⟨?_, (hterm y hy).1⟩
        have htc : τ y.1 * c y.1 ≤ 2 ^ 130 := k6
        have hwle : F.w y.1 v ≤ W := h3.le
        have hw0 := h3.nonneg
        have g1 : NearE ρ q 1 (tiny K) (Arith.mul (T y.1) (C y.1)) (τ y.1 * c y.1) := by
          have := nearE_mul hp (k := 0) (by rw [pow_zero]; exact one_le_two) k4 (near_exact h4) k5 h5
            (htc.trans (pow_le_pow_right₀ one_le_two (by norm_num)))
          exact this
        have g2 : 2 * tiny K * F.w y.1 v ≤ 2 * tiny K * W := mul_le_mul_of_nonneg_left hwle (by positivity)
        have hle140 : τ y.1 * c y.1 * F.w y.1 v ≤ 2 ^ 230 := by
          calc τ y.1 * c y.1 * F.w y.1 v ≤ 2 ^ 130 * 2 ^ 100 := mul_le_mul htc hwle hw0 (by positivity)
            _ = 2 ^ 230 := by rw [← pow_add]
        have hW1 : 2 * tiny K * W ≤ 1 := by
          have h1 : tiny K * 2 ^ 1001 = 1 := by unfold tiny; rw [one_div, inv_mul_cancel₀ (by positivity)]
          rw [← h1, mul_comm 2, mul_assoc]
          refine mul_le_mul_of_nonneg_left ?_ hty.le
          rw [hW, ← pow_succ']
          exact pow_le_pow_right₀ one_le_two (by norm_num)
        have g3 := nearE_mul_near hp (hle (by omega)) g1 h2 hty.le (mul_nonneg k5 h5) hw0 (hbig (by linarith))
        exact g3.mono hp (mul_nonneg (mul_nonneg k5 h5) hw0) (by positivity) (by omega) (by rw [he1]; linarith)) le_rfl (by
        rw [List.map_map, zero_add]
        show (l.map fun p => τ p.1 * c p.1 * F.w p.1 v).sum ≤ _
        rw [hsc]; exact hSle) (by
        rw [List.length_map, zero_add]
        apply hbig
        have := hsmall (y := (l.length : K) * (e1 + tiny K)) (by
          have : (M : K) * (2 * tiny K * W + tiny K + tiny K) = M * (e1 + tiny K) := by rw [he1]
          rw [this]
          linarith)
        linarith)
    rw [List.map_map, List.map_map, List.length_map, zero_add, zero_add] at this
    exact this.mono hp (by rw [← hsc] at hS0; exact hS0) (mul_nonneg (Nat.cast_nonneg _) (by linarith)) (by omega) hsl
  -- the time of flight
  have hcapv : ρ.val (maxTof : R) = X.fin cap := hp.cap
  have hpos : Arith.lt Arith.zero c' = true := by
    have hx : ρ.val c' = X.fin x := hx
    rw [ρ.lt, hx, val_zero' ρ]; simpa [X.lt] using hxp
  have hslow : Slow d isStart v ↔ Arith.lt (Arith.add ai as) (Arith.div ap maxTof) = true := by
    constructor
    · rintro ⟨s', b', a', p', h1, h2, h3, h4, h5⟩
      rw [has] at h1; rw [hb] at h2; rw [hai] at h3; rw [hap] at h4
      cases h1; cases h2; cases h3; cases h4
      rwa [hcs] at h5
    · intro h
      exact ⟨as, b, ai, ap, has, hb, hai, hap, by rw [hcs]; exact h⟩
  refine ⟨?_, ?_⟩
  · intro hsl
    have hlt := hslow.mp hsl
    refine ⟨?_, ?_⟩
    · show ρ.val (cellTof ap (Arith.add ai (cellSource as b)) c' up.1) = X.fin cap
      rw [hcs]
      simp only [cellTof, if_pos hlt]
      exact hcapv
    · have hcap0 : (0 : K) < cap := by unfold cap; positivity
      have hcapr : Range 40 (cap : K) := by right; unfold cap; constructor <;> norm_num
      obtain ⟨r, hr, hrc⟩ := near_div hp (hle (by omega)) hnp (near_exact hcapv) hm.pv.nonneg hcap0
        ((hm.pv.div hcapr).mono (by omega))
      obtain ⟨z, hz, hzc⟩ := htot
      have hr : ρ.val (Arith.div ap maxTof) = X.fin r := hr
      rw [ρ.lt, hz, hr] at hlt
      simp only [X.lt, decide_eq_true_eq] at hlt
      have h1 := hzc.1
      have h2 := hrc.2
      have hz0 := hzc.nonneg hq ht0
      have h3 : z * q ^ (2 * M + 1) ≤ z * 2 := mul_le_mul_of_nonneg_left (hle (by omega)) hz0
      have hpc : 0 ≤ F.pv v / cap := div_nonneg hm.pv.nonneg hcap0.le
      have h4 : F.pv v / cap * q ^ (0 + 0 + 1) ≤ F.pv v / cap * 2 := mul_le_mul_of_nonneg_left (hle (by omega)) hpc
      have h5 : F.total v ≤ F.pv v / cap * 4 := by linarith
      calc cap * F.total v ≤ cap * (F.pv v / cap * 4) := mul_le_mul_of_nonneg_left h5 hcap0.le
        _ = 4 * F.pv v := by field_simp
  intro hns'
  have hnlt : ¬ Arith.lt (Arith.add ai as) (Arith.div ap maxTof) = true := fun h => hns' (hslow.mpr h)
  have htof : cellTof ap (Arith.add ai (cellSource as b)) c' up.1
      = Arith.div (Arith.add (Arith.mul ap c') up.1) (Arith.mul (Arith.add ai as) c') := by
    rw [hcs]
    simp only [cellTof, if_pos hpos, if_neg hnlt]
  have hpv0 := hm.pv.nonneg
  have hpvx : F.pv v * x ≤ 2 ^ 100 := by
    calc F.pv v * x ≤ F.pv v * 1 := mul_le_mul_of_nonneg_left hx1 hpv0
      _ ≤ _ := by rw [mul_one]; exact hm.pv.le
  have hpvx0 : 0 ≤ F.pv v * x := mul_nonneg hpv0 hxp.le
  have hxn : Near ρ q 0 c' x := near_exact hx
  have hn1 : NearE ρ q 1 (tiny K) (Arith.mul ap c') (F.pv v * x) := by
    obtain ⟨z, hz, hzc⟩ := hnp
    have e : z = F.pv v := by
      obtain ⟨h1, h2⟩ := hzc
      rw [pow_zero, mul_one] at h1 h2
      exact le_antisymm h2 h1
    rw [e] at hz
    have := nearE_mul hp (k := 0) (by rw [pow_zero]; exact one_le_two) hz hxn hpv0 hxp.le
      (hpvx.trans (pow_le_pow_right₀ one_le_two (by norm_num)))
    exact this
  have h100 : (2 : K) ^ 100 ≤ 2 ^ 230 := pow_le_pow_right₀ one_le_two (by norm_num)
  have h141 : (2 : K) ^ 230 + 2 ^ 230 ≤ 2 ^ 232 := by norm_num
  have hn2 : NearE ρ q (2 * M + 3) (tiny K + M * (e1 + tiny K) + tiny K) (Arith.add (Arith.mul ap c') up.1) (F.pv v * x + S) := by
    refine nearE_add hp (hle (by omega)) (hn1.mono hp hpvx0 hty.le (by omega) le_rfl) hfold hty.le hMt (hbig ?_)
    have := hsmall (y := tiny K + M * (e1 + tiny K)) (by
      have : (M : K) * (2 * tiny K * W + tiny K + tiny K) = M * (e1 + tiny K) := by rw [he1]
      rw [this]
      linarith)
    linarith
  have hden0 : 0 < F.total v * x := mul_pos htp hxp
  have hden1 : 1 ≤ F.total v * x * 2 ^ 600 := by
    have : F.total v * x * 2 ^ 600 = (F.total v * 2 ^ 100) * (x * 2 ^ 500) := by
      rw [show (600 : ℕ) = 100 + 500 by norm_num, pow_add]; ring
    rw [this]
    exact one_le_mul_of_one_le_of_one_le ht1 hx2
  have hden2 : F.total v * x ≤ 2 ^ 600 := by
    calc F.total v * x ≤ F.total v * 1 := mul_le_mul_of_nonneg_left hx1 ht0
      _ ≤ 2 ^ 100 := by rw [mul_one]; exact hm.total.le
      _ ≤ _ := pow_le_pow_right₀ one_le_two (by norm_num)
  have hd : Near ρ q (2 * M + 2) (Arith.mul (Arith.add ai as) c') (F.total v * x) := by
    have := near_mul hp (hle (by omega)) htot hxn ht0 hxp.le (Range.mono (i := 600) (Or.inr ⟨hden1, hden2⟩) (by omega))
    exact this
  have hsum0 : 0 ≤ F.pv v * x + S := add_nonneg hpvx0 hS0
  have he2 : tiny K + M * (e1 + tiny K) + tiny K ≤ (M : K) * (2 * tiny K * W + tiny K + tiny K) + tiny K + tiny K := by
    have : (M : K) * (2 * tiny K * W + tiny K + tiny K) = M * (e1 + tiny K) := by rw [he1]
    rw [this]
    linarith
  have hts := climb_tiny hM0 hM hden1 hden0 (W := W) le_rfl he2
  have he20 : 0 ≤ tiny K + M * (e1 + tiny K) + tiny K := by linarith
  have hinv : 1 / (F.total v * x) ≤ 2 ^ 600 := by rw [div_le_iff₀ hden0, mul_comm]; exact hden1
  have hquot : (F.pv v * x + S) / (F.total v * x) ≤ 2 ^ 232 * 2 ^ 600 := by
    rw [div_eq_mul_one_div]
    exact mul_le_mul (by linarith) hinv (by positivity) (by positivity)
  have hts1 : climbSlack K ≤ 1 := by
    unfold climbSlack; rw [_root_.div_le_one (by positivity)]; exact one_le_pow₀ one_le_two
  have hdiv := nearE_div hp (hle (by omega)) hn2 hd he20 hsum0 hden0 (by
    rw [← pow_add] at hquot
    have h1 : (2 : K) ^ (232 + 600) + 1 ≤ 2 ^ (232 + 600) + 2 ^ (232 + 600) := add_le_add_right (one_le_pow₀ one_le_two) _
    have h2 : (2 : K) ^ (232 + 600) + 2 ^ (232 + 600) ≤ 2 ^ 1000 := by
      rw [← two_mul, ← pow_succ']
      exact pow_le_pow_right₀ one_le_two (by norm_num)
    exact (add_le_add hquot (((le_add_of_nonneg_right hty.le).trans hts).trans hts1)).trans (h1.trans h2))
  show NearE ρ q (4 * M + 6) (climbSlack K) (cellTof ap (Arith.add ai (cellSource as b)) c' up.1) _
  rw [htof]
  exact hdiv.mono hp (div_nonneg hsum0 hden0.le)
    (add_nonneg (div_nonneg (mul_nonneg two_pos.le he20) hden0.le) hty.le) (show 2 * M + 3 + (2 * M + 2) + 1 ≤ 4 * M + 6 by omega) hts

end Verif.Rounding
