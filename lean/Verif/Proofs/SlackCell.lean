/-
Rounding errors of one visit to a cell, for any values upstream.
-/
import Verif.Proofs.Slack

namespace Verif.Rounding
open Finset Verif.Spec Verif.Solver Verif.Toolbox

variable {R : Type} [Arith R] {K : Type} [Field K] [LinearOrder K] [IsStrictOrderedRing K] {ρ : Rounded R K} {q : K}

/-- Bound of the errors that come from numbers close to zero. -/
def slack (K : Type) [Field K] : K := 1 / 2 ^ 700

theorem slack_pos : 0 < slack K := by unfold slack; positivity

theorem tiny_sum {M : K} (hM : M + 1 ≤ 2 ^ 100) {y : K} (hy : 1 ≤ y * 2 ^ 100) (hy0 : 0 < y) :
    2 * (M * (tiny K + tiny K) + tiny K) / y + tiny K ≤ slack K := by
  have e : (2 : K) ^ 1001 = 2 ^ 700 * (2 ^ 100 * (2 ^ 100 * 2 ^ 101)) := by rw [← pow_add, ← pow_add, ← pow_add]
  have h1 : 1 / y ≤ 2 ^ 100 := by rw [div_le_iff₀ hy0, mul_comm]; exact hy
  have h2 : 2 * (M * (tiny K + tiny K) + tiny K) / y + tiny K = tiny K * ((4 * M + 2) * (1 / y) + 1) := by ring
  have hpos : (0 : K) ≤ 1 / y := by positivity
  have hP : (1 : K) ≤ 2 ^ 100 := one_le_pow₀ one_le_two
  have h3 : (4 * M + 2) * (1 / y) + 1 ≤ (2 ^ 100 * 4) * 2 ^ 100 + 2 ^ 100 := by
    have : (4 * M + 2) * (1 / y) ≤ (2 ^ 100 * 4) * 2 ^ 100 := mul_le_mul (by linarith) h1 hpos (by positivity)
    linarith
  have h4 : (2 ^ 100 * 4 : K) * 2 ^ 100 + 2 ^ 100 ≤ 2 ^ 100 * (2 ^ 100 * 2 ^ 101) := by
    have hPP : (2 : K) ^ 100 ≤ 2 ^ 100 * 2 ^ 100 := le_mul_of_one_le_left (by positivity) hP
    have h5 : (2 : K) ^ 100 * (2 ^ 100 * 2 ^ 101) = (2 ^ 100 * 2 ^ 100) * 2 ^ 101 := by ring
    have h6 : (5 : K) ≤ 2 ^ 101 := by norm_num
    have h7 : (2 ^ 100 * 2 ^ 100) * (5 : K) ≤ (2 ^ 100 * 2 ^ 100) * 2 ^ 101 := mul_le_mul_of_nonneg_left h6 (by positivity)
    have h8 : (2 ^ 100 * 4 : K) * 2 ^ 100 = (2 ^ 100 * 2 ^ 100) * 4 := by ring
    rw [h5, h8]
    clear e h3 h5 h8
    generalize (2 : K) ^ 100 * 2 ^ 100 = A at *
    generalize (2 : K) ^ 100 = B at *
    generalize (2 : K) ^ 101 = D at *
    linarith
  rw [h2]
  calc tiny K * ((4 * M + 2) * (1 / y) + 1) ≤ tiny K * (2 ^ 100 * (2 ^ 100 * 2 ^ 101)) :=
        mul_le_mul_of_nonneg_left (h3.trans h4) tiny_pos.le
    _ = slack K := by
        unfold tiny slack
        rw [e]
        have h8 : (2 : K) ^ 700 ≠ 0 := by positivity
        have h9 : (2 : K) ^ 100 * (2 ^ 100 * 2 ^ 101) ≠ 0 := by positivity
        generalize (2 : K) ^ 100 * (2 ^ 100 * 2 ^ 101) = A at *
        generalize (2 : K) ^ 700 = B at *
        field_simp

variable (hp : Precise ρ q)
include hp

/-- The concentration computed in one visit is that of a mixture of what flows in. -/
theorem cell_conc {d : SolverData R} {F : Flow K} {M : Nat} (hA : Approx ρ q d F M) (hq2 : q ^ (4 * M + 4) ≤ 2)
    (hM : (M : K) + 1 ≤ 2 ^ 100) {v : Nat} (hv : v < F.n) (hm : Sized F v) {inj : K} (hinj0 : 0 ≤ inj)
    (hinj : inj ≤ F.src v) {isStart : List Bool} {ls : List R} {b : Bool} (hb : isStart[v]? = some b)
    (hb0 : b = false → inj = 0) (hb1 : b = true → 0 < F.src v ∧ ∃ a, ls[v]? = some a ∧ Near ρ q M a inj)
    {s : List R × List R} {T C : Nat → R} (hTC : ∀ u, F.Edge u v → s.1[u]? = some (T u) ∧ s.2[u]? = some (C u))
    {c : Nat → K} (hc : ∀ u, F.Edge u v → ρ.val (C u) = X.fin (c u) ∧ 0 ≤ c u ∧ c u ≤ 1)
    {p : R × R} (h : cellVals d isStart ls s v = .ok p) :
    ∃ x, ρ.val p.2 = X.fin x ∧ 0 ≤ x ∧ (F.total v = 0 → x = 0) ∧
      (0 < F.total v → 0 ≤ (∑ u ∈ range F.n, c u * F.w u v) + inj ∧ (∑ u ∈ range F.n, c u * F.w u v) + inj ≤ F.total v ∧
        Off q (4 * M + 4) (slack K) x (((∑ u ∈ range F.n, c u * F.w u v) + inj) / F.total v)) := by
  have hq := hp.one_le
  have hle : ∀ {i : Nat}, i ≤ 4 * M + 4 → q ^ i ≤ 2 := fun hi => (pow_le_pow_right₀ hq hi).trans hq2
  have hsz : sizeOfInt (v : Int) = v := by
    have := hA.int
    rw [sizeOfInt_nonneg (by omega) (by omega)]; simp
  obtain ⟨l, hrow, hlen, hl, hsum⟩ := hA.row v hv
  obtain ⟨ai, hai, hni⟩ := hA.influx v hv
  obtain ⟨as, has, hns⟩ := hA.source v hv
  obtain ⟨ap, hap, hnp⟩ := hA.pv v hv
  unfold cellVals at h
  simp only [Res.bind_eq, Res.pure_eq, hsz, rd_of_getElem? hai, rd_of_getElem? has, rd_of_getElem? hap, rd_of_getElem? hb,
    hrow, Res.ok_bind] at h
  obtain ⟨up, hup', h⟩ := Res.bind_ok_iff.mp h
  obtain ⟨contrib, hcon, h⟩ := Res.bind_ok_iff.mp h
  obtain ⟨_, _, h⟩ := Res.bind_ok_iff.mp h
  obtain ⟨_, _, h⟩ := Res.bind_ok_iff.mp h
  obtain ⟨c', hc', h⟩ := Res.bind_ok_iff.mp h
  cases h
  have hupv := upwind_foldl (T := T) (C := C) (fun x hx => by have := (hl x hx).1.1; have := hA.int; omega)
    (fun x hx => hTC _ (hl x hx).1) hup'
  have ht0 := hm.total.nonneg
  have hcs : cellSource as b = as := by
    unfold cellSource
    cases b with
    | false => simp
    | true =>
      obtain ⟨x, hx, hxc⟩ := hns
      have hne : x ≠ 0 := ((hxc.pos_iff hq (hb1 rfl).1.le).mpr (hb1 rfl).1).ne'
      rw [ρ.eq, hx, val_zero' ρ]
      simp [X.eq, hne]
  rw [hcs] at hc' ⊢
  have htot : Near ρ q (2 * M + 1) (Arith.add ai as) (F.total v) :=
    near_add hp (hle (by omega)) hni (hns.mono hp hm.src.nonneg (by omega)) (hm.total.mono (by omega))
  -- sums over the cells upstream
  set S := ∑ u ∈ range F.n, c u * F.w u v with hS
  have hsc : (l.map fun p => c p.1 * F.w p.1 v).sum = S := hsum c
  have hterm : ∀ x ∈ l, 0 ≤ c x.1 * F.w x.1 v ∧ c x.1 * F.w x.1 v ≤ F.w x.1 v := by
    intro x hx
    obtain ⟨h1, _, h3⟩ := hl x hx
    obtain ⟨_, h4, h5⟩ := hc _ h1
    exact ⟨mul_nonneg h4 h3.nonneg, mul_le_of_le_one_left h3.nonneg h5⟩
  have hS0 : 0 ≤ S := by
    rw [← hsc]
    apply List.sum_nonneg
    intro x hx
    obtain ⟨y, hy, rfl⟩ := List.mem_map.mp hx
    exact (hterm y hy).1
  have hSle : S ≤ F.inflow v := by
    have h1 := hsum fun _ => 1
    simp only [one_mul] at h1
    rw [← hsc, Flow.inflow, ← h1]
    exact List.sum_le_sum fun x hx => (hterm x hx).2
  have hSt : S + inj ≤ F.total v := by unfold Flow.total; linarith
  have hB : S + inj ≤ 2 ^ 100 := hSt.trans hm.total.le
  have hty := tiny_pos (K := K)
  have hM0 : (0 : K) ≤ M := Nat.cast_nonneg M
  have hsmall : ∀ {y : K}, y ≤ (M : K) * (tiny K + tiny K) + tiny K → y ≤ 1 := by
    intro y hy
    have h1 := tiny_sum hM (y := 2) (by norm_num) two_pos
    have h2 : slack K ≤ 1 := by
      unfold slack; rw [_root_.div_le_one (by positivity)]; exact one_le_pow₀ one_le_two
    have h3 : 2 * (M * (tiny K + tiny K) + tiny K) / 2 = M * (tiny K + tiny K) + tiny K := by ring
    rw [h3] at h1
    linarith
  have hbig : ∀ {y : K}, y ≤ 2 ^ 100 + 1 → y ≤ 2 ^ 1000 := by
    intro y hy
    have h1 : (2 : K) ^ 100 + 1 ≤ 2 ^ 101 := by norm_num
    exact (hy.trans h1).trans (pow_le_pow_right₀ one_le_two (by norm_num))
  have hfold : NearE ρ q (2 * M + 1) (M * (tiny K + tiny K)) up.2 S := by
    rw [hupv, ← hsc]
    have hlenK : (l.length : K) ≤ M := by exact_mod_cast hlen
    have hsl : (l.length : K) * (tiny K + tiny K) ≤ M * (tiny K + tiny K) :=
      mul_le_mul_of_nonneg_right hlenK (by linarith)
    have := nearE_foldl hp (k := M + 1) (e := tiny K) hty.le (B := 2 ^ 100) (m := M + 1) (σ := 0)
      (l := l.map fun p => (Arith.mul (C p.1) p.2, c p.1 * F.w p.1 v)) (a := Arith.zero) (s := 0) le_rfl
      (hle (by simp; omega)) le_rfl (((near_zero hp _).slack hp le_rfl)) (by
        intro x hx
        obtain ⟨y, hy, rfl⟩ := List.mem_map.mp hx
        obtain ⟨h1, h2, h3⟩ := hl y hy
        obtain ⟨h4, h5, h6⟩ := hc _ h1
        refine ⟨nearE_mul hp (hle (by omega)) h4 h2 h5 h3.nonneg ?_, (hterm y hy).1⟩
        exact hbig ((hterm y hy).2.trans (h3.le.trans (le_add_of_nonneg_right zero_le_one)))) le_rfl (by
        rw [List.map_map, zero_add]
        show (l.map fun p => c p.1 * F.w p.1 v).sum ≤ _
        rw [hsc]; exact le_trans (by linarith) hB) (by
        rw [List.length_map, zero_add]
        apply hbig
        have := hsmall (y := (l.length : K) * (tiny K + tiny K)) (by linarith)
        linarith)
    rw [List.map_map, List.map_map, List.length_map, zero_add, zero_add] at this
    exact this.mono hp (by rw [← hsc] at hS0; exact hS0) (mul_nonneg (Nat.cast_nonneg _) (by linarith)) (by omega) hsl
  have hcn : NearE ρ q (2 * M + 2) (M * (tiny K + tiny K) + tiny K) contrib (S + inj) := by
    have hMt : 0 ≤ (M : K) * (tiny K + tiny K) := mul_nonneg hM0 (by linarith)
    unfold withLocalSource at hcon
    cases b with
    | false =>
      simp only [Bool.false_eq_true, if_false, Res.ok.injEq] at hcon
      subst hcon
      rw [hb0 rfl, add_zero]
      exact hfold.mono hp hS0 hMt (by omega) (by linarith)
    | true =>
      obtain ⟨_, a, ha, hna⟩ := hb1 rfl
      simp only [if_true, Res.bind_eq, Res.pure_eq, rd_of_getElem? ha, Res.ok_bind, Res.ok.injEq] at hcon
      subst hcon
      have := nearE_add hp (hle (by omega)) hfold (((hna.slack hp hinj0).mono hp hinj0 le_rfl (by omega) le_rfl)) hMt le_rfl
        (hbig (by
          have := hsmall (y := (M : K) * (tiny K + tiny K)) (by linarith)
          rw [add_zero]
          exact add_le_add hB this))
      rw [add_zero] at this
      exact this
  -- the tracer
  unfold cellTracer at hc'
  obtain ⟨x, hx, hxc⟩ := htot
  have hz := hxc.zero_iff hq ht0
  split at hc'
  · rename_i h0
    rw [ρ.eq, hx, val_zero' ρ] at h0
    simp only [X.eq, decide_eq_true_eq] at h0
    obtain ⟨_, _, hc'⟩ := Res.bind_ok_iff.mp hc'
    cases hc'
    refine ⟨0, val_zero' ρ, le_rfl, fun _ => rfl, fun hpos => ?_⟩
    rw [hz.mp h0] at hpos
    exact absurd hpos (_root_.lt_irrefl _)
  · rename_i h0
    rw [ρ.eq, hx, val_zero' ρ] at h0
    simp only [X.eq, decide_eq_true_eq] at h0
    cases hc'
    have htp : 0 < F.total v := lt_of_le_of_ne ht0 (fun e => h0 (hz.mpr e.symm))
    have ht1 : 1 ≤ F.total v * 2 ^ 100 := by
      rcases hm.total with h1 | h1
      · exact absurd h1 htp.ne'
      · exact h1.1
    have hts := tiny_sum hM ht1 htp
    have hMt : 0 ≤ (M : K) * (tiny K + tiny K) + tiny K := add_nonneg (mul_nonneg hM0 (by linarith)) hty.le
    have hsum0 : 0 ≤ S + inj := add_nonneg hS0 hinj0
    have hdiv := nearE_div hp (hle (by omega)) hcn ⟨x, hx, hxc⟩ hMt hsum0 htp (hbig (by
      have h1 : (S + inj) / F.total v ≤ 1 := by rw [_root_.div_le_one htp]; exact hSt
      have h2 : slack K ≤ 1 := by
        unfold slack; rw [_root_.div_le_one (by positivity)]; exact one_le_pow₀ one_le_two
      have h3 : (1 : K) ≤ 2 ^ 100 := one_le_pow₀ one_le_two
      exact add_le_add (h1.trans h3) (by linarith)))
    obtain ⟨y, hy, hy0, hoff⟩ := hdiv.mono hp (div_nonneg hsum0 htp.le)
      (add_nonneg (div_nonneg (mul_nonneg two_pos.le hMt) htp.le) hty.le) (show 2 * M + 2 + (2 * M + 1) + 1 ≤ 4 * M + 4 by omega) hts
    exact ⟨y, hy, hy0, fun e => absurd e htp.ne', fun _ => ⟨hsum0, hSt, hoff⟩⟩

end Verif.Rounding
