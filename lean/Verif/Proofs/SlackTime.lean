/-
Rounding errors of the time of flight of one visit to a cell, for any values upstream.
-/
import Verif.Proofs.SlackSolve

namespace Verif.Rounding
open Finset Verif.Spec Verif.Solver Verif.Toolbox

section exact
variable {K : Type} [Field K] [LinearOrder K] [IsStrictOrderedRing K] {q : K} (hq : 1 ≤ q)
include hq

theorem Off.mul {k l : Nat} {e a x b y : K} (h : Off q k e a x) (hb : Close q l b y) (hl : q ^ l ≤ 2) (ha : 0 ≤ a) (hx : 0 ≤ x)
    (he : 0 ≤ e) (hy : 0 ≤ y) : Off q (k + l) (2 * e * y) (a * b) (x * y) := by
  have hb0 := hb.nonneg hq hy
  have hk := (pow_pos' hq k).le
  have hkl := (pow_pos' hq (k + l)).le
  have hb2 : b ≤ y * 2 := hb.2.trans (mul_le_mul_of_nonneg_left hl hy)
  have h1 : e * b ≤ 2 * e * y := by
    calc e * b ≤ e * (y * 2) := mul_le_mul_of_nonneg_left hb2 he
      _ = 2 * e * y := by ring
  have h2 : e * y ≤ 2 * e * y := by
    have := mul_nonneg he hy
    linarith
  constructor
  · calc x * y ≤ ((a + e) * q ^ k) * (b * q ^ l) :=
          mul_le_mul h.1 hb.1 hy (mul_nonneg (add_nonneg ha he) hk)
      _ = (a * b + e * b) * q ^ (k + l) := by rw [pow_add]; ring
      _ ≤ _ := mul_le_mul_of_nonneg_right (by linarith) hkl
  · calc a * b ≤ ((x + e) * q ^ k) * (y * q ^ l) :=
          mul_le_mul h.2 hb.2 hb0 (mul_nonneg (add_nonneg hx he) hk)
      _ = (x * y + e * y) * q ^ (k + l) := by rw [pow_add]; ring
      _ ≤ _ := mul_le_mul_of_nonneg_right (by linarith) hkl

/-- The difference, relative to the first of the two numbers. -/
theorem Off.abs_left {k : Nat} {e x y : K} (h : Off q k e x y) (hk : q ^ k ≤ 2) (hx : 0 ≤ x) (he : 0 ≤ e) :
    |x - y| ≤ x * (q ^ k - 1) + 2 * e := by
  have h1 := one_le_pow' hq k
  have h3 : e * q ^ k ≤ e * 2 := mul_le_mul_of_nonneg_left hk he
  obtain ⟨g1, g2⟩ := h
  generalize q ^ k = Q at *
  have hx1 : 0 ≤ x * (Q - 1) := mul_nonneg hx (by linarith)
  rw [abs_le]
  constructor
  · have : (x + e) * Q = x + x * (Q - 1) + e * Q := by ring
    linarith
  · by_cases hxy : x ≤ y
    · linarith
    · have : y * (Q - 1) ≤ x * (Q - 1) := mul_le_mul_of_nonneg_right (by linarith) (by linarith)
      have e2 : (y + e) * Q = y + y * (Q - 1) + e * Q := by ring
      linarith

end exact

section near
variable {R : Type} [Arith R] {K : Type} [Field K] [LinearOrder K] [IsStrictOrderedRing K] {ρ : Rounded R K} {q : K}

/-- Bound of the errors of times that come from numbers close to zero. -/
def timeSlack (K : Type) [Field K] : K := 1 / 2 ^ 390

theorem timeSlack_pos : 0 < timeSlack K := by unfold timeSlack; positivity

theorem time_tiny {M : K} (hM0 : 0 ≤ M) (hM : M + 1 ≤ 2 ^ 100) {y : K} (hy : 1 ≤ y * 2 ^ 400) (hy0 : 0 < y) {W : K} (hW : W ≤ 2 ^ 100)
    {e : K} (he : e ≤ M * (2 * tiny K * W + tiny K + tiny K) + tiny K + tiny K) :
    2 * e / y + tiny K ≤ timeSlack K := by
  have ht := tiny_pos (K := K)
  have h1 : 1 / y ≤ 2 ^ 400 := by rw [div_le_iff₀ hy0, mul_comm]; exact hy
  have h1' : 0 ≤ 1 / y := by positivity
  have hP : (1 : K) ≤ 2 ^ 100 := one_le_pow₀ one_le_two
  have hPP : (2 : K) ^ 100 ≤ 2 ^ 100 * 2 ^ 100 := le_mul_of_one_le_left (by positivity) hP
  have h2 : M * (2 * W + 2) + 2 ≤ (2 ^ 100 * 2 ^ 100) * 6 := by
    have : M * (2 * W + 2) ≤ 2 ^ 100 * (2 * 2 ^ 100 + 2) := by
      calc M * (2 * W + 2) ≤ M * (2 * 2 ^ 100 + 2) := mul_le_mul_of_nonneg_left (by linarith) hM0
        _ ≤ _ := mul_le_mul_of_nonneg_right (by linarith) (by positivity)
    generalize hA : (2 : K) ^ 100 = A at *
    have e1 : A * (2 * A + 2) = A * A * 2 + A * 2 := by ring
    linarith
  have h3 : e ≤ tiny K * ((2 ^ 100 * 2 ^ 100) * 6) := by
    refine he.trans ?_
    calc M * (2 * tiny K * W + tiny K + tiny K) + tiny K + tiny K = tiny K * (M * (2 * W + 2) + 2) := by ring
      _ ≤ _ := mul_le_mul_of_nonneg_left h2 ht.le
  have h4 : 2 * e / y + tiny K ≤ tiny K * ((2 ^ 100 * 2 ^ 100) * 12 * 2 ^ 400 + 1) := by
    have e1 : 2 * e / y = e * (2 * (1 / y)) := by ring
    have e2 : e * (2 * (1 / y)) ≤ tiny K * ((2 ^ 100 * 2 ^ 100) * 6) * (2 * 2 ^ 400) := by
      calc e * (2 * (1 / y)) ≤ tiny K * ((2 ^ 100 * 2 ^ 100) * 6) * (2 * (1 / y)) :=
            mul_le_mul_of_nonneg_right h3 (by linarith)
        _ ≤ _ := mul_le_mul_of_nonneg_left (by linarith) (by positivity)
    rw [e1]
    generalize (2 : K) ^ 100 = A at *
    generalize (2 : K) ^ 400 = B at *
    have e3 : tiny K * (A * A * 12 * B + 1) = tiny K * (A * A * 6) * (2 * B) + tiny K := by ring
    rw [e3]
    linarith
  refine h4.trans ?_
  have h5 : (2 ^ 100 * 2 ^ 100 * 12 * 2 ^ 400 + 1 : K) ≤ 2 ^ 611 := by
    have e1 : (2 ^ 100 * 2 ^ 100 * 12 * 2 ^ 400 : K) = 2 ^ 600 * 12 := by
      rw [show (600 : ℕ) = 100 + 100 + 400 by norm_num, pow_add, pow_add]; ring
    have e2 : (2 : K) ^ 611 = 2 ^ 600 * 2048 := by
      rw [show (611 : ℕ) = 600 + 11 by norm_num, pow_add]; norm_num
    have e3 : (1 : K) ≤ 2 ^ 600 := one_le_pow₀ one_le_two
    have key : ∀ A : K, 1 ≤ A → A * 12 + 1 ≤ A * 2048 := by
      clear * -
      intro A h
      linarith
    rw [e1, e2]
    exact key _ e3
  refine (mul_le_mul_of_nonneg_left h5 ht.le).trans (le_of_eq ?_)
  unfold tiny timeSlack
  rw [show (1001 : ℕ) = 390 + 611 by norm_num, pow_add]
  have : (2 : K) ^ 611 ≠ 0 := by positivity
  have : (2 : K) ^ 390 ≠ 0 := by positivity
  field_simp

variable (hp : Precise ρ q)
include hp

/-- The product of two approximate numbers. -/
theorem nearE_mul_near {k l : Nat} (hk : q ^ (k + l) ≤ 2) {a b : R} {x y e : K} (ha : NearE ρ q k e a x) (hb : Near ρ q l b y)
    (he : 0 ≤ e) (hx : 0 ≤ x) (hy : 0 ≤ y) (h : x * y + 2 * e * y ≤ 2 ^ 1000) :
    NearE ρ q (k + l + 1) (2 * e * y + tiny K) (Arith.mul a b) (x * y) := by
  have hq := hp.one_le
  obtain ⟨a', ha, ha0, hac⟩ := ha
  obtain ⟨b', hb, hbc⟩ := hb
  have hb0 := hbc.nonneg hq hy
  refine nearE_rnd hp hk (x := a' * b') (by rw [ρ.mul, ha, hb]; rfl) (mul_nonneg ha0 hb0)
    (hac.mul hq hbc ((pow_le_pow_right₀ hq (by omega)).trans hk) ha0 hx he hy) (mul_nonneg (mul_nonneg two_pos.le he) hy) h

/-- The time of flight computed in one visit, if it is below 200 years and the concentration is not tiny. -/
theorem cell_time {d : SolverData R} {F : Flow K} {M : Nat} (hA : Approx ρ q d F M) (hq2 : q ^ (4 * M + 6) ≤ 2)
    (hM : (M : K) + 1 ≤ 2 ^ 100) {v : Nat} (hv : v < F.n) (hm : Sized F v) {isStart : List Bool} {ls : List R} {b : Bool}
    (hb : isStart[v]? = some b) (hb1 : b = true → 0 < F.src v)
    {s : List R × List R} {T C : Nat → R} (hTC : ∀ u, F.Edge u v → s.1[u]? = some (T u) ∧ s.2[u]? = some (C u))
    {c τ : Nat → K} (hc : ∀ u, F.Edge u v → ρ.val (C u) = X.fin (c u) ∧ 0 ≤ c u ∧ c u ≤ 1)
    (hτ : ∀ u, F.Edge u v → ρ.val (T u) = X.fin (τ u) ∧ 0 ≤ τ u ∧ τ u ≤ 2 ^ 40)
    {p : R × R} (h : cellVals d isStart ls s v = .ok p) {x y : K} (hx : ρ.val p.2 = X.fin x) (hx1 : x ≤ 1) (hx2 : 1 ≤ x * 2 ^ 300)
    (hy : ρ.val p.1 = X.fin y) (hyc : y < cap) :
    0 < F.total v ∧ 0 ≤ y ∧ |F.total v * x * y - (F.pv v * x + ∑ u ∈ range F.n, τ u * c u * F.w u v)|
      ≤ F.total v * x * (y * (q ^ (4 * M + 6) - 1) + 2 * timeSlack K) := by
  have hq := hp.one_le
  have hle : ∀ {i : Nat}, i ≤ 4 * M + 6 → q ^ i ≤ 2 := fun hi => (pow_le_pow_right₀ hq hi).trans hq2
  have hxp : 0 < x := by
    by_contra hn
    exact absurd (hx2.trans (mul_nonpos_of_nonpos_of_nonneg (not_lt.mp hn) (two_pow_pos' (K := K) 300).le)) (not_le.mpr one_pos)
  have hsz : sizeOfInt (v : Int) = v := by
    have := hA.int
    rw [sizeOfInt_nonneg (by omega) (by omega)]; simp
  obtain ⟨l, hrow, hlen, hl, hsum⟩ := hA.row v hv
  obtain ⟨ai, hai, hni⟩ := hA.influx v hv
  obtain ⟨as, has, hns⟩ := hA.source v hv
  obtain ⟨ap, hap, hnp⟩ := hA.pv v hv
  unfold cellVals at h
  simp only [Res.bind_eq, Res.pure_eq, hsz, rd_of_getElem? hai, rd_of_getElem? has, rd_of_getElem? hap, rd_of_getElem? hb,
    hrow, Res.ok_bind] at h
  obtain ⟨up, hup', h⟩ := Res.bind_ok_iff.mp h
  obtain ⟨contrib, _, h⟩ := Res.bind_ok_iff.mp h
  obtain ⟨_, _, h⟩ := Res.bind_ok_iff.mp h
  obtain ⟨_, _, h⟩ := Res.bind_ok_iff.mp h
  obtain ⟨c', hc', h⟩ := Res.bind_ok_iff.mp h
  cases h
  have hupv := upwind_foldl (T := T) (C := C) (fun x hx => by have := (hl x hx).1.1; have := hA.int; omega)
    (fun x hx => hTC _ (hl x hx).1) hup'
  have ht0 := hm.total.nonneg
  have hcs : cellSource as b = as := by
    unfold cellSource
    cases b with
    | false => simp
    | true =>
      obtain ⟨x, hx, hxc⟩ := hns
      have hne : x ≠ 0 := ((hxc.pos_iff hq (hb1 rfl).le).mpr (hb1 rfl)).ne'
      rw [ρ.eq, hx, val_zero' ρ]
      simp [X.eq, hne]
  rw [hcs] at hc' hy
  have htot : Near ρ q (2 * M + 1) (Arith.add ai as) (F.total v) :=
    near_add hp (hle (by omega)) hni (hns.mono hp hm.src.nonneg (by omega)) (hm.total.mono (by omega))
  have htp : 0 < F.total v := by
    rcases ht0.eq_or_lt with e | e
    · exfalso
      obtain ⟨z, hz, hzc⟩ := htot
      have : z = 0 := (hzc.zero_iff hq ht0).mpr e.symm
      unfold cellTracer at hc'
      rw [if_pos (by rw [ρ.eq, hz, this, val_zero' ρ]; simp [X.eq])] at hc'
      obtain ⟨_, _, hc'⟩ := Res.bind_ok_iff.mp hc'
      cases hc'
      rw [val_zero' ρ] at hx
      cases hx
      exact _root_.lt_irrefl _ hxp
    · exact e
  refine ⟨htp, ?_⟩
  have ht1 : 1 ≤ F.total v * 2 ^ 100 := by
    rcases hm.total with h1 | h1
    · exact absurd h1 htp.ne'
    · exact h1.1
  -- sums over the cells upstream
  set S := ∑ u ∈ range F.n, τ u * c u * F.w u v with hS
  have hsc : (l.map fun p => τ p.1 * c p.1 * F.w p.1 v).sum = S := hsum fun u => τ u * c u
  have hterm : ∀ x ∈ l, 0 ≤ τ x.1 * c x.1 * F.w x.1 v ∧ τ x.1 * c x.1 * F.w x.1 v ≤ 2 ^ 40 * F.w x.1 v := by
    intro x hx
    obtain ⟨h1, _, h3⟩ := hl x hx
    obtain ⟨_, h4, h5⟩ := hc _ h1
    obtain ⟨_, h6, h7⟩ := hτ _ h1
    refine ⟨mul_nonneg (mul_nonneg h6 h4) h3.nonneg, mul_le_mul_of_nonneg_right ?_ h3.nonneg⟩
    calc τ x.1 * c x.1 ≤ τ x.1 * 1 := mul_le_mul_of_nonneg_left h5 h6
      _ ≤ _ := by rw [mul_one]; exact h7
  have hS0 : 0 ≤ S := by
    rw [← hsc]
    apply List.sum_nonneg
    intro x hx
    obtain ⟨y, hy, rfl⟩ := List.mem_map.mp hx
    exact (hterm y hy).1
  have hin : F.inflow v ≤ 2 ^ 100 := by
    have h1 := hm.total.le
    have h2 := hm.src.nonneg
    unfold Flow.total at h1
    linarith
  have hSle : S ≤ 2 ^ 140 := by
    have h1 := hsum fun _ => (2 : K) ^ 40
    have h2 : S ≤ ∑ u ∈ range F.n, 2 ^ 40 * F.w u v := by
      rw [← hsc, ← h1]
      exact List.sum_le_sum fun x hx => (hterm x hx).2
    rw [← mul_sum] at h2
    refine h2.trans ?_
    calc (2 : K) ^ 40 * F.inflow v ≤ 2 ^ 40 * 2 ^ 100 := mul_le_mul_of_nonneg_left hin (by positivity)
      _ = 2 ^ 140 := by rw [← pow_add]
  have hty := tiny_pos (K := K)
  have hM0 : (0 : K) ≤ M := Nat.cast_nonneg M
  set W : K := 2 ^ 100 with hW
  have hsmall : ∀ {y : K}, y ≤ (M : K) * (2 * tiny K * W + tiny K + tiny K) + tiny K + tiny K → y ≤ 1 := by
    intro y hy
    have h1 := time_tiny hM0 hM (y := 2) (by
      rw [← pow_succ']
      exact one_le_pow₀ one_le_two) two_pos (W := W) le_rfl hy
    have h2 : timeSlack K ≤ 1 := by
      unfold timeSlack; rw [_root_.div_le_one (by positivity)]; exact one_le_pow₀ one_le_two
    have h3 : 2 * y / 2 = y := by ring
    rw [h3] at h1
    linarith
  have hbig : ∀ {y : K}, y ≤ 2 ^ 142 + 1 → y ≤ 2 ^ 1000 := by
    intro y hy
    have h1 : (2 : K) ^ 142 + 1 ≤ 2 ^ 143 := by norm_num
    exact (hy.trans h1).trans (pow_le_pow_right₀ one_le_two (by norm_num))
  set e1 : K := 2 * tiny K * W + tiny K with he1
  have he10 : 0 ≤ e1 := by rw [he1]; positivity
  have hlenK : (l.length : K) ≤ M := by exact_mod_cast hlen
  have hsl : (l.length : K) * (e1 + tiny K) ≤ M * (e1 + tiny K) :=
    mul_le_mul_of_nonneg_right hlenK (by linarith)
  have hMt : 0 ≤ (M : K) * (e1 + tiny K) := mul_nonneg hM0 (by linarith)
  have h140 : (2 : K) ^ 140 ≤ 2 ^ 142 := pow_le_pow_right₀ one_le_two (by norm_num)
  have hfold : NearE ρ q (2 * M + 2) (M * (e1 + tiny K)) up.1 S := by
    rw [hupv, ← hsc]
    have := nearE_foldl hp (k := M + 2) (e := e1) he10 (B := 2 ^ 140) (m := M + 2) (σ := 0)
      (l := l.map fun p => (Arith.mul (Arith.mul (T p.1) (C p.1)) p.2, τ p.1 * c p.1 * F.w p.1 v)) (a := Arith.zero) (s := 0) le_rfl
      (hle (by simp; omega)) le_rfl (((near_zero hp _).slack hp le_rfl)) (by
        intro x hx
        obtain ⟨y, hy, rfl⟩ := List.mem_map.mp hx
        obtain ⟨h1, h2, h3⟩ := hl y hy
        obtain ⟨h4, h5, h6⟩ := hc _ h1
        obtain ⟨k4, k5, k6⟩ := hτ _ h1
        refine ⟨?_, (hterm y hy).1⟩
        have htc : τ y.1 * c y.1 ≤ 2 ^ 40 := by
          calc τ y.1 * c y.1 ≤ τ y.1 * 1 := mul_le_mul_of_nonneg_left h6 k5
            _ ≤ _ := by rw [mul_one]; exact k6
        have hwle : F.w y.1 v ≤ W := h3.le
        have hw0 := h3.nonneg
        have g1 : NearE ρ q 1 (tiny K) (Arith.mul (T y.1) (C y.1)) (τ y.1 * c y.1) := by
          have := nearE_mul hp (k := 0) (by rw [pow_zero]; exact one_le_two) k4 (near_exact h4) k5 h5
            (htc.trans (pow_le_pow_right₀ one_le_two (by norm_num)))
          exact this
        have g2 : 2 * tiny K * F.w y.1 v ≤ 2 * tiny K * W := mul_le_mul_of_nonneg_left hwle (by positivity)
        have hle140 : τ y.1 * c y.1 * F.w y.1 v ≤ 2 ^ 140 := by
          calc τ y.1 * c y.1 * F.w y.1 v ≤ 2 ^ 40 * 2 ^ 100 := mul_le_mul htc hwle hw0 (by positivity)
            _ = 2 ^ 140 := by rw [← pow_add]
        have hW1 : 2 * tiny K * W ≤ 1 := by
          have h1 : tiny K * 2 ^ 1001 = 1 := by unfold tiny; rw [one_div, inv_mul_cancel₀ (by positivity)]
          rw [← h1, mul_comm 2, mul_assoc]
          refine mul_le_mul_of_nonneg_left ?_ hty.le
          rw [hW, ← pow_succ']
          exact pow_le_pow_right₀ one_le_two (by norm_num)
        have g3 := nearE_mul_near hp (hle (by omega)) g1 h2 hty.le (mul_nonneg k5 h5) hw0 (hbig (by linarith))
        exact g3.mono hp (mul_nonneg (mul_nonneg k5 h5) hw0) (by positivity) (by omega) (by rw [he1]; linarith)) le_rfl (by
        rw [List.map_map, zero_add]
        show (l.map fun p => τ p.1 * c p.1 * F.w p.1 v).sum ≤ _
        rw [hsc]; exact hSle) (by
        rw [List.length_map, zero_add]
        apply hbig
        have := hsmall (y := (l.length : K) * (e1 + tiny K)) (by
          have : (M : K) * (2 * tiny K * W + tiny K + tiny K) = M * (e1 + tiny K) := by rw [he1]
          rw [this]
          linarith)
        linarith)
    rw [List.map_map, List.map_map, List.length_map, zero_add, zero_add] at this
    exact this.mono hp (by rw [← hsc] at hS0; exact hS0) (mul_nonneg (Nat.cast_nonneg _) (by linarith)) (by omega) hsl
  -- the time of flight
  have hcapv : ρ.val (maxTof : R) = X.fin cap := hp.cap
  have hpos : Arith.lt Arith.zero c' = true := by
    have hx : ρ.val c' = X.fin x := hx
    rw [ρ.lt, hx, val_zero' ρ]; simpa [X.lt] using hxp
  have hy : ρ.val (cellTof ap (Arith.add ai as) c' up.1) = X.fin y := hy
  simp only [cellTof, if_pos hpos] at hy
  split at hy
  · exfalso
    rw [hcapv] at hy
    cases hy
    exact _root_.lt_irrefl _ hyc
  have hpv0 := hm.pv.nonneg
  have hpvx : F.pv v * x ≤ 2 ^ 100 := by
    calc F.pv v * x ≤ F.pv v * 1 := mul_le_mul_of_nonneg_left hx1 hpv0
      _ ≤ _ := by rw [mul_one]; exact hm.pv.le
  have hpvx0 : 0 ≤ F.pv v * x := mul_nonneg hpv0 hxp.le
  have hxn : Near ρ q 0 c' x := near_exact hx
  have hn1 : NearE ρ q 1 (tiny K) (Arith.mul ap c') (F.pv v * x) := by
    obtain ⟨z, hz, hzc⟩ := hnp
    have e : z = F.pv v := by
      obtain ⟨h1, h2⟩ := hzc
      rw [pow_zero, mul_one] at h1 h2
      exact le_antisymm h2 h1
    rw [e] at hz
    have := nearE_mul hp (k := 0) (by rw [pow_zero]; exact one_le_two) hz hxn hpv0 hxp.le
      (hpvx.trans (pow_le_pow_right₀ one_le_two (by norm_num)))
    exact this
  have h100 : (2 : K) ^ 100 ≤ 2 ^ 140 := pow_le_pow_right₀ one_le_two (by norm_num)
  have h141 : (2 : K) ^ 140 + 2 ^ 140 ≤ 2 ^ 142 := by norm_num
  have hn2 : NearE ρ q (2 * M + 3) (tiny K + M * (e1 + tiny K) + tiny K) (Arith.add (Arith.mul ap c') up.1) (F.pv v * x + S) := by
    refine nearE_add hp (hle (by omega)) (hn1.mono hp hpvx0 hty.le (by omega) le_rfl) hfold hty.le hMt (hbig ?_)
    have := hsmall (y := tiny K + M * (e1 + tiny K)) (by
      have : (M : K) * (2 * tiny K * W + tiny K + tiny K) = M * (e1 + tiny K) := by rw [he1]
      rw [this]
      linarith)
    linarith
  have hden0 : 0 < F.total v * x := mul_pos htp hxp
  have hden1 : 1 ≤ F.total v * x * 2 ^ 400 := by
    have : F.total v * x * 2 ^ 400 = (F.total v * 2 ^ 100) * (x * 2 ^ 300) := by
      rw [show (400 : ℕ) = 100 + 300 by norm_num, pow_add]; ring
    rw [this]
    exact one_le_mul_of_one_le_of_one_le ht1 hx2
  have hden2 : F.total v * x ≤ 2 ^ 400 := by
    calc F.total v * x ≤ F.total v * 1 := mul_le_mul_of_nonneg_left hx1 ht0
      _ ≤ 2 ^ 100 := by rw [mul_one]; exact hm.total.le
      _ ≤ _ := pow_le_pow_right₀ one_le_two (by norm_num)
  have hd : Near ρ q (2 * M + 2) (Arith.mul (Arith.add ai as) c') (F.total v * x) := by
    have := near_mul hp (hle (by omega)) htot hxn ht0 hxp.le (Range.mono (i := 400) (Or.inr ⟨hden1, hden2⟩) (by omega))
    exact this
  have hsum0 : 0 ≤ F.pv v * x + S := add_nonneg hpvx0 hS0
  have he2 : tiny K + M * (e1 + tiny K) + tiny K ≤ (M : K) * (2 * tiny K * W + tiny K + tiny K) + tiny K + tiny K := by
    have : (M : K) * (2 * tiny K * W + tiny K + tiny K) = M * (e1 + tiny K) := by rw [he1]
    rw [this]
    linarith
  have hts := time_tiny hM0 hM hden1 hden0 (W := W) le_rfl he2
  have he20 : 0 ≤ tiny K + M * (e1 + tiny K) + tiny K := by linarith
  have hinv : 1 / (F.total v * x) ≤ 2 ^ 400 := by rw [div_le_iff₀ hden0, mul_comm]; exact hden1
  have hquot : (F.pv v * x + S) / (F.total v * x) ≤ 2 ^ 142 * 2 ^ 400 := by
    rw [div_eq_mul_one_div]
    exact mul_le_mul (by linarith) hinv (by positivity) (by positivity)
  have hts1 : timeSlack K ≤ 1 := by
    unfold timeSlack; rw [_root_.div_le_one (by positivity)]; exact one_le_pow₀ one_le_two
  have hdiv := nearE_div hp (hle (by omega)) hn2 hd he20 hsum0 hden0 (by
    rw [← pow_add] at hquot
    have h1 : (2 : K) ^ (142 + 400) + 1 ≤ 2 ^ (142 + 400) + 2 ^ (142 + 400) := add_le_add_right (one_le_pow₀ one_le_two) _
    have h2 : (2 : K) ^ (142 + 400) + 2 ^ (142 + 400) ≤ 2 ^ 1000 := by
      rw [← two_mul, ← pow_succ']
      exact pow_le_pow_right₀ one_le_two (by norm_num)
    exact (add_le_add hquot (((le_add_of_nonneg_right hty.le).trans hts).trans hts1)).trans (h1.trans h2))
  obtain ⟨y', hy', hy0, hoff⟩ := hdiv.mono hp (div_nonneg hsum0 hden0.le)
    (add_nonneg (div_nonneg (mul_nonneg two_pos.le he20) hden0.le) hty.le) (show 2 * M + 3 + (2 * M + 2) + 1 ≤ 4 * M + 6 by omega) hts
  rw [hy] at hy'
  cases hy'
  refine ⟨hy0, ?_⟩
  have habs := hoff.abs_left hq hq2 hy0 timeSlack_pos.le
  have e : F.total v * x * y - (F.pv v * x + S) = (F.total v * x) * (y - (F.pv v * x + S) / (F.total v * x)) := by
    rw [mul_sub, mul_div_cancel₀ _ hden0.ne']
  rw [e, abs_mul, abs_of_pos hden0]
  exact mul_le_mul_of_nonneg_left habs hden0.le

end near
end Verif.Rounding
