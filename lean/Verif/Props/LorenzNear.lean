/-
C107: the Lorenz coefficient changes little if the data change little.
-/
import Verif.Props.Sensitivity
import Verif.Props.DerivedDiagnostics
import Verif.Props.Lorenz

namespace Verif.Props
open Verif.Spec Verif.Toolbox Verif.Solver Verif.Derived Verif.Rounding Finset

section curve
variable {K : Type} [Field K] [LinearOrder K] [IsStrictOrderedRing K] {r s : K}

theorem _root_.Verif.Spec.WithinFactor.inv {a b : K} (h : WithinFactor r a b) (ha : 0 < a) (hb : 0 < b) :
    WithinFactor r (1 / a) (1 / b) := by
  constructor
  · rw [div_le_iff₀ ha, mul_one_div, div_mul_eq_mul_div, le_div_iff₀ hb, one_mul]; exact h.2
  · rw [div_le_iff₀ hb, mul_one_div, div_mul_eq_mul_div, le_div_iff₀ ha, one_mul]; exact h.1

/-- The mean difference, for other volumes `q` and times `u`. -/
theorem meanDifference_le {A : Finset Nat} {p q t u : Nat → K} (hr : 1 ≤ r) (hs : 1 ≤ s) (hp : ∀ v ∈ A, 0 ≤ p v) (hq : ∀ v ∈ A, 0 ≤ q v)
    (ht : ∀ v ∈ A, 0 < t v) (hu : ∀ v ∈ A, 0 < u v) (hpq : ∀ v ∈ A, WithinFactor s (p v) (q v))
    (htu : ∀ v ∈ A, WithinFactor r (t v) (u v)) (hV : 0 < ∑ v ∈ A, p v) (hR : 0 < ∑ v ∈ A, p v / t v)
    (hV' : 0 < ∑ v ∈ A, q v) (hR' : 0 < ∑ v ∈ A, q v / u v) :
    (∑ a ∈ A, ∑ b ∈ A, q a * q b * |1 / u a - 1 / u b|) / (2 * (∑ v ∈ A, q v) * ∑ v ∈ A, q v / u v)
      ≤ s ^ 4 * r * ((∑ a ∈ A, ∑ b ∈ A, p a * p b * |1 / t a - 1 / t b|) / (2 * (∑ v ∈ A, p v) * ∑ v ∈ A, p v / t v) + (r - 1)) := by
  have hr0 : 0 ≤ r := zero_le_one.trans hr
  have hs0 : 0 ≤ s := zero_le_one.trans hs
  have hr1 : 0 ≤ r - 1 := sub_nonneg.mpr hr
  have hV1 : ∑ v ∈ A, p v ≤ s * ∑ v ∈ A, q v := (WithinFactor.sum hpq).1
  have hR1 : ∑ v ∈ A, p v / t v ≤ s * r * ∑ v ∈ A, q v / u v := by
    rw [mul_sum]
    refine sum_le_sum fun v hv => ?_
    have e := ((htu v hv).inv (ht v hv) (hu v hv)).1
    calc p v / t v = p v * (1 / t v) := by rw [mul_one_div]
      _ ≤ (s * q v) * (r * (1 / u v)) :=
        mul_le_mul (hpq v hv).1 e (one_div_nonneg.mpr (ht v hv).le) (mul_nonneg hs0 (hq v hv))
      _ = s * r * (q v / u v) := by ring
  have hN : ∑ a ∈ A, ∑ b ∈ A, q a * q b * |1 / u a - 1 / u b|
      ≤ s ^ 2 * ((∑ a ∈ A, ∑ b ∈ A, p a * p b * |1 / t a - 1 / t b|) + (r - 1) * (2 * (∑ v ∈ A, p v) * ∑ v ∈ A, p v / t v)) := by
    have e : 2 * (∑ v ∈ A, p v) * ∑ v ∈ A, p v / t v = ∑ a ∈ A, ∑ b ∈ A, p a * p b * (1 / t a + 1 / t b) := by
      have e1 : (∑ v ∈ A, p v) * ∑ v ∈ A, p v / t v = ∑ a ∈ A, ∑ b ∈ A, p a * p b * (1 / t b) := by
        rw [sum_mul_sum]
        exact sum_congr rfl fun a _ => sum_congr rfl fun b _ => by ring
      have e2 : (∑ v ∈ A, p v) * ∑ v ∈ A, p v / t v = ∑ a ∈ A, ∑ b ∈ A, p a * p b * (1 / t a) := by
        rw [mul_comm, sum_mul_sum]
        exact sum_congr rfl fun a _ => sum_congr rfl fun b _ => by ring
      rw [mul_assoc, two_mul]
      nth_rewrite 1 [e2]
      rw [e1, ← sum_add_distrib]
      refine sum_congr rfl fun a _ => ?_
      rw [← sum_add_distrib]
      exact sum_congr rfl fun b _ => by ring
    rw [e, mul_sum, ← sum_add_distrib, mul_sum]
    refine sum_le_sum fun a ha => ?_
    rw [mul_sum, ← sum_add_distrib, mul_sum]
    refine sum_le_sum fun b hb => ?_
    have da := abs_le.mp (((htu a ha).inv (ht a ha) (hu a ha)).abs hr (one_div_nonneg.mpr (ht a ha).le))
    have db := abs_le.mp (((htu b hb).inv (ht b hb) (hu b hb)).abs hr (one_div_nonneg.mpr (ht b hb).le))
    have hd : |1 / u a - 1 / u b| ≤ |1 / t a - 1 / t b| + (r - 1) * (1 / t a + 1 / t b) := by
      have h1 := le_abs_self (1 / t a - 1 / t b)
      have h2 := neg_le_abs (1 / t a - 1 / t b)
      rw [mul_add]
      exact abs_le.mpr ⟨by linarith, by linarith⟩
    calc q a * q b * |1 / u a - 1 / u b|
        ≤ (s * p a) * (s * p b) * (|1 / t a - 1 / t b| + (r - 1) * (1 / t a + 1 / t b)) :=
          mul_le_mul (mul_le_mul (hpq a ha).2 (hpq b hb).2 (hq b hb) (mul_nonneg hs0 (hp a ha))) hd (abs_nonneg _)
            (mul_nonneg (mul_nonneg hs0 (hp a ha)) (mul_nonneg hs0 (hp b hb)))
      _ = _ := by ring
  have hVR : 2 * (∑ v ∈ A, p v) * ∑ v ∈ A, p v / t v ≤ s ^ 2 * r * (2 * (∑ v ∈ A, q v) * ∑ v ∈ A, q v / u v) := by
    calc 2 * (∑ v ∈ A, p v) * ∑ v ∈ A, p v / t v ≤ 2 * (s * ∑ v ∈ A, q v) * (s * r * ∑ v ∈ A, q v / u v) :=
          mul_le_mul (mul_le_mul_of_nonneg_left hV1 zero_le_two) hR1 hR.le (by positivity)
      _ = _ := by ring
  have hN0 : 0 ≤ ∑ a ∈ A, ∑ b ∈ A, p a * p b * |1 / t a - 1 / t b| :=
    sum_nonneg fun a ha => sum_nonneg fun b hb => mul_nonneg (mul_nonneg (hp a ha) (hp b hb)) (abs_nonneg _)
  generalize ∑ a ∈ A, ∑ b ∈ A, q a * q b * |1 / u a - 1 / u b| = N' at *
  generalize ∑ a ∈ A, ∑ b ∈ A, p a * p b * |1 / t a - 1 / t b| = N at *
  have hD : 0 < 2 * (∑ v ∈ A, p v) * ∑ v ∈ A, p v / t v := by positivity
  have hD' : 0 < 2 * (∑ v ∈ A, q v) * ∑ v ∈ A, q v / u v := by positivity
  generalize 2 * (∑ v ∈ A, p v) * ∑ v ∈ A, p v / t v = D at *
  generalize 2 * (∑ v ∈ A, q v) * ∑ v ∈ A, q v / u v = D' at *
  rw [div_le_iff₀ hD']
  have e : N / D + (r - 1) = (N + (r - 1) * D) / D := by rw [add_div, mul_div_cancel_right₀ _ hD.ne']
  rw [e, mul_div_assoc', div_mul_eq_mul_div, le_div_iff₀ hD]
  have hX : 0 ≤ s ^ 2 * (N + (r - 1) * D) := mul_nonneg (by positivity) (add_nonneg hN0 (mul_nonneg hr1 hD.le))
  calc N' * D ≤ s ^ 2 * (N + (r - 1) * D) * (s ^ 2 * r * D') := mul_le_mul hN hVR hD.le hX
    _ = _ := by ring

variable {I J : CurveInput K} {sort : List (X K × X K) → List (X K × X K)}

theorem volume_pos (hI : I.Valid) : 0 < I.volume ∧ 0 < I.rate := by
  obtain ⟨v, hv, hp⟩ := hI.some_pv
  have mem : v ∈ (range I.n).filter I.Kept := mem_filter.mpr ⟨mem_range.mpr hv.1, hv⟩
  refine ⟨?_, ?_⟩
  · exact sum_pos' (fun u hu => hI.pv u (mem_range.mp (mem_filter.mp hu).1)) ⟨v, mem, hp⟩
  · refine sum_pos' (fun u hu => ?_) ⟨v, mem, div_pos hp (hI.time v hv)⟩
    obtain ⟨h1, h2⟩ := mem_filter.mp hu
    exact div_nonneg (hI.pv u (mem_range.mp h1)) (hI.time u h2).le

/-- **C107** If the travel times of the cells that are not ignored change at most by a factor `r` and their pore volumes by a factor
    `s`, and the same cells are ignored, the Lorenz coefficient changes by at most `s⁴ r² - 1`. -/
theorem C107_lorenz (hI : I.Valid) (hJ : J.Valid) (hr : 1 ≤ r) (hs : 1 ≤ s) (hn : J.n = I.n) (hkept : ∀ v, J.Kept v ↔ I.Kept v)
    (hpv : ∀ v, I.Kept v → WithinFactor s (I.pv v) (J.pv v)) (ht : ∀ v, I.Kept v → WithinFactor r (I.time v) (J.time v))
    (hsort : StdSort sort) :
    ∃ g g' x x', I.curve sort = .ok g ∧ J.curve sort = .ok g' ∧ lorenzCoefficient g = .ok (X.fin x) ∧
      lorenzCoefficient g' = .ok (X.fin x') ∧ |x' - x| ≤ s ^ 4 * r ^ 2 - 1 := by
  obtain ⟨g, c1, l1⟩ := C83_meanDifference hI hsort
  obtain ⟨g', c2, l2⟩ := C83_meanDifference hJ hsort
  obtain ⟨_, x, d1, m1, x0, x1, _⟩ := C44_range hI hsort
  obtain ⟨_, x', d2, m2, x0', x1', _⟩ := C44_range hJ hsort
  rw [c1] at d1; cases d1
  rw [c2] at d2; cases d2
  rw [m1] at l1
  rw [m2] at l2
  injection l1 with l1; injection l1 with l1
  injection l2 with l2; injection l2 with l2
  obtain ⟨v1, r1⟩ := volume_pos hI
  obtain ⟨v2, r2⟩ := volume_pos hJ
  have hA : (range J.n).filter J.Kept = (range I.n).filter I.Kept := by
    rw [hn]; exact filter_congr fun v _ => hkept v
  simp only [CurveInput.volume, CurveInput.rate] at v1 r1 v2 r2 l1 l2
  rw [hA] at v2 r2 l2
  have mem : ∀ v ∈ (range I.n).filter I.Kept, v < I.n ∧ I.Kept v := fun v hv =>
    ⟨mem_range.mp (mem_filter.mp hv).1, (mem_filter.mp hv).2⟩
  have p1 : ∀ v ∈ (range I.n).filter I.Kept, 0 ≤ I.pv v := fun v hv => hI.pv v (mem v hv).1
  have p2 : ∀ v ∈ (range I.n).filter I.Kept, 0 ≤ J.pv v := fun v hv => hJ.pv v (hn.symm ▸ (mem v hv).1)
  have t1 : ∀ v ∈ (range I.n).filter I.Kept, 0 < I.time v := fun v hv => hI.time v (mem v hv).2
  have t2 : ∀ v ∈ (range I.n).filter I.Kept, 0 < J.time v := fun v hv => hJ.time v ((hkept v).mpr (mem v hv).2)
  have a1 := meanDifference_le hr hs p1 p2 t1 t2 (fun v hv => hpv v (mem v hv).2) (fun v hv => ht v (mem v hv).2) v1 r1 v2 r2
  have a2 := meanDifference_le hr hs p2 p1 t2 t1 (fun v hv => (hpv v (mem v hv).2).symm) (fun v hv => (ht v (mem v hv).2).symm) v2 r2 v1 r1
  rw [← l1, ← l2] at a1 a2
  refine ⟨g, g', x, x', c1, c2, m1, m2, ?_⟩
  have hb : 1 ≤ s ^ 4 * r := one_le_mul_of_one_le_of_one_le (one_le_pow₀ hs) hr
  have step : ∀ y : K, y ≤ 1 → s ^ 4 * r * (y + (r - 1)) - y ≤ s ^ 4 * r ^ 2 - 1 := fun y hy => by
    have := mul_nonneg (sub_nonneg.mpr hb) (sub_nonneg.mpr hy)
    have e : s ^ 4 * r ^ 2 - 1 - (s ^ 4 * r * (y + (r - 1)) - y) = (s ^ 4 * r - 1) * (1 - y) := by ring
    linarith
  have s1 := step x x1.le
  have s2 := step x' x1'.le
  exact abs_le.mpr ⟨by linarith, by linarith⟩

/-- The inputs of the curve from the diagnostics of two such problems. -/
theorem near_inputs [Archimedean K] {P Q : Problem K} (hP : P.Valid) (hQ : Q.Valid) (hr : 1 ≤ r) (hnear : Problem.Near r P Q)
    {g g' : ConnectivityGraph} {calls calls' : List (Call (X K))} (h : P.GivenTo g calls) (h' : Q.GivenTo g' calls')
    {level level' : Nat → Nat} (hl : P.forward.Levels level) (hl' : P.backward.Levels level') {L : Nat}
    (hL : ∀ v < P.n, level v ≤ L ∧ level' v ≤ L)
    (hslow : ∀ u < P.n, (P.forward.Slow u ↔ Q.forward.Slow u) ∧ (P.backward.Slow u ↔ Q.backward.Slow u))
    {istarts istarts' pstarts pstarts' : List CellSet} {S S' T T' : Solution (X K)}
    (hS : InjectionReturns g calls istarts (.ok S)) (hS' : InjectionReturns g' calls' istarts' (.ok S'))
    (hT : ProductionReturns g calls pstarts (.ok T)) (hT' : ProductionReturns g' calls' pstarts' (.ok T'))
    (hpv : ∀ v < P.n, 0 < P.pv v) {frac frac' : K} (hf : ∃ v < P.n, P.pv v ≤ frac * ∑ u ∈ range P.n, P.pv u)
    (hkept : ∀ v < P.n, (P.pv v ≤ frac * ∑ u ∈ range P.n, P.pv u ↔ Q.pv v ≤ frac' * ∑ u ∈ range Q.n, Q.pv u)) :
    (curveInput P S T frac).Valid ∧ (curveInput Q S' T' frac').Valid ∧
      (∀ v, (curveInput Q S' T' frac').Kept v ↔ (curveInput P S T frac).Kept v) ∧
      ∀ v, (curveInput P S T frac).Kept v →
        WithinFactor (r ^ (4 * L + 6)) ((curveInput P S T frac).time v) ((curveInput Q S' T' frac').time v) := by
  obtain ⟨_, _, v1⟩ := C63_curve hP h hS hT id frac
  obtain ⟨_, _, v2⟩ := C63_curve hQ h' hS' hT' id frac'
  have hsize : Q.n = P.n := hnear.size
  have hpv' : ∀ v < Q.n, 0 < Q.pv v := fun v hv => by
    rw [hsize] at hv
    exact ((hnear.pv v hv).pos hr).mp (hpv v hv)
  have hI := v1 hpv hf
  have hJ := v2 hpv' (by
    obtain ⟨v, hv, hk⟩ := hf
    exact ⟨v, by rw [hsize]; exact hv, (hkept v hv).mp hk⟩)
  have hk : ∀ v, (curveInput Q S' T' frac').Kept v ↔ (curveInput P S T frac).Kept v := fun v => by
    show (v < Q.n ∧ _) ↔ (v < P.n ∧ _)
    constructor
    · rintro ⟨a, b⟩
      have a' : v < P.n := by rw [← hsize]; exact a
      exact ⟨a', (hkept v a').mpr b⟩
    · rintro ⟨a, b⟩
      exact ⟨by rw [hsize]; exact a, (hkept v a).mp b⟩
  have reach : ∀ (F : Flow K), F.n = P.n → ∀ u v, v < P.n → F.Reach u v → u < P.n := by
    intro F hF u v hv hu
    rcases Relation.ReflTransGen.cases_head hu with rfl | ⟨w, e, _⟩
    · exact hv
    · exact hF ▸ e.1
  have ht : ∀ v, (curveInput P S T frac).Kept v →
      WithinFactor (r ^ (4 * L + 6)) ((curveInput P S T frac).time v) ((curveInput Q S' T' frac').time v) := by
    intro v ⟨hv, _⟩
    have hv : v < P.n := hv
    have hv' : v < Q.n := by rw [hsize]; exact hv
    have a := ((C97_injection hP hQ hr hnear h h' hl hS hS' v hv).2 fun u hu => (hslow u (reach _ rfl u v hv hu)).1).1
    have b := ((C97_production hP hQ hr hnear h h' hl' hT hT' v hv).2 fun u hu => (hslow u (reach _ rfl u v hv hu)).2).1
    have a' := a.mono (pow_le_pow_right₀ hr (by have := (hL v hv).1; omega : 4 * level v + 6 ≤ 4 * L + 6))
      ((diag_injection hP h hS).times.2 v hv).1 ((diag_injection hQ h' hS').times.2 v hv').1
    have b' := b.mono (pow_le_pow_right₀ hr (by have := (hL v hv).2; omega : 4 * level' v + 6 ≤ 4 * L + 6))
      ((diag_production hP h hT).times.2 v hv).1 ((diag_production hQ h' hT').times.2 v hv').1
    constructor
    · show fieldAt S.timeOfFlight v + fieldAt T.timeOfFlight v ≤ _ * (fieldAt S'.timeOfFlight v + fieldAt T'.timeOfFlight v)
      rw [mul_add]; exact add_le_add a'.1 b'.1
    · show fieldAt S'.timeOfFlight v + fieldAt T'.timeOfFlight v ≤ _ * (fieldAt S.timeOfFlight v + fieldAt T.timeOfFlight v)
      rw [mul_add]; exact add_le_add a'.2 b'.2
  exact ⟨hI, hJ, hk, ht⟩

/-- **C107** (exact arithmetic, cycle-free flow) If the data of two problems differ at most by a factor `r`, and the same cells are
    filled too slowly to be treated as flowing and the same cells are ignored, then the Lorenz coefficients of the computed diagnostics differ by at
    most `r ^ (8 L + 16) - 1`, where `L` bounds the levels of the cells along the flow and against it. -/
theorem C107_diagnostics [Archimedean K] {P Q : Problem K} (hP : P.Valid) (hQ : Q.Valid) (hr : 1 ≤ r) (hnear : Problem.Near r P Q)
    {g g' : ConnectivityGraph} {calls calls' : List (Call (X K))} (h : P.GivenTo g calls) (h' : Q.GivenTo g' calls')
    {level level' : Nat → Nat} (hl : P.forward.Levels level) (hl' : P.backward.Levels level') {L : Nat}
    (hL : ∀ v < P.n, level v ≤ L ∧ level' v ≤ L)
    (hslow : ∀ u < P.n, (P.forward.Slow u ↔ Q.forward.Slow u) ∧ (P.backward.Slow u ↔ Q.backward.Slow u))
    {istarts istarts' pstarts pstarts' : List CellSet} {S S' T T' : Solution (X K)}
    (hS : InjectionReturns g calls istarts (.ok S)) (hS' : InjectionReturns g' calls' istarts' (.ok S'))
    (hT : ProductionReturns g calls pstarts (.ok T)) (hT' : ProductionReturns g' calls' pstarts' (.ok T'))
    (hpv : ∀ v < P.n, 0 < P.pv v) {frac frac' : K} (hf : ∃ v < P.n, P.pv v ≤ frac * ∑ u ∈ range P.n, P.pv u)
    (hkept : ∀ v < P.n, (P.pv v ≤ frac * ∑ u ∈ range P.n, P.pv u ↔ Q.pv v ≤ frac' * ∑ u ∈ range Q.n, Q.pv u))
    (hsort : StdSort sort) :
    ∃ G G' x x', curveOf sort S T (arr P.n P.pv) (X.fin frac) = .ok G ∧ curveOf sort S' T' (arr Q.n Q.pv) (X.fin frac') = .ok G' ∧
      lorenzCoefficient G = .ok (X.fin x) ∧ lorenzCoefficient G' = .ok (X.fin x') ∧ |x' - x| ≤ r ^ (8 * L + 16) - 1 := by
  obtain ⟨e1, _, _⟩ := C63_curve hP h hS hT sort frac
  obtain ⟨e2, _, _⟩ := C63_curve hQ h' hS' hT' sort frac'
  obtain ⟨hI, hJ, hk, ht⟩ := near_inputs hP hQ hr hnear h h' hl hl' hL hslow hS hS' hT hT' hpv hf hkept
  obtain ⟨G, G', x, x', c1, c2, c3, c4, c5⟩ := C107_lorenz hI hJ (one_le_pow₀ hr) hr hnear.size hk (fun v hv => hnear.pv v hv.1) ht hsort
  refine ⟨G, G', x, x', e1.trans c1, e2.trans c2, c3, c4, c5.trans (le_of_eq ?_)⟩
  ring

end curve

/-- Three cells, the last of which has a pore volume near the cutoff of one half. -/
def exEdge (a : ℚ) : CurveInput ℚ where
  n := 3
  inj _ := 1
  prod v := if v = 2 then 1 else 0
  pv v := if v = 2 then 2 * a else 1
  frac := 1 / 2

theorem exEdge_kept {a : ℚ} (v : Nat) : (exEdge a).Kept v ↔ v < 3 ∧ (v = 2 → a ≤ 1) ∧ (v ≠ 2 → 0 ≤ a) := by
  unfold CurveInput.Kept exEdge
  simp only [sum_range_succ, sum_range_zero]
  by_cases hv : v = 2
  · subst hv; norm_num
    constructor <;> intro h <;> linarith
  · simp only [if_neg hv]; norm_num [hv]
    intro _
    constructor <;> intro h <;> linarith

theorem exEdge_valid {a : ℚ} (ha : 0 < a) : (exEdge a).Valid where
  int := by show 3 ≤ INT_MAX; decide
  pv v _ := by show 0 ≤ if v = 2 then 2 * a else 1; split <;> linarith
  time v _ := by show (0 : ℚ) < 1 + if v = 2 then 1 else 0; split <;> norm_num
  some_pv := ⟨0, (exEdge_kept 0).mpr ⟨by decide, by simp, fun _ => ha.le⟩, by show (0 : ℚ) < 1; norm_num⟩

/-- **C107** The same cells must be ignored: however small the change of the data is, the Lorenz coefficient can fall from 1/6 to 0
    because the pore volume of one cell passes the cutoff. -/
theorem C107_cutoff : ∀ r : ℚ, 1 < r → ∃ I J : CurveInput ℚ, I.Valid ∧ J.Valid ∧ J.n = I.n ∧ J.frac = I.frac ∧
    (∀ v < I.n, J.time v = I.time v ∧ WithinFactor r (I.pv v) (J.pv v)) ∧
    ∀ sort, StdSort sort → ∃ g g', I.curve sort = .ok g ∧ J.curve sort = .ok g' ∧ lorenzCoefficient g = .ok (X.fin (1 / 6)) ∧
      lorenzCoefficient g' = .ok (X.fin 0) := by
  intro r hr
  have hr0 : 0 < r := by linarith
  refine ⟨exEdge 1, exEdge r, exEdge_valid one_pos, exEdge_valid hr0, rfl, rfl, fun v _ => ⟨rfl, ?_⟩, fun sort hs => ?_⟩
  · show WithinFactor r (if v = 2 then 2 * 1 else 1) (if v = 2 then 2 * r else 1)
    split
    · exact ⟨by nlinarith, by linarith⟩
    · exact ⟨by linarith, by linarith⟩
  · obtain ⟨g, c1, l1⟩ := C83_meanDifference (exEdge_valid one_pos) hs
    obtain ⟨g', x, c2, m2, _, _, hx⟩ := C44_range (exEdge_valid hr0) hs
    refine ⟨g, g', c1, c2, ?_, ?_⟩
    · rw [l1]
      have hf : (range (exEdge 1).n).filter (exEdge 1).Kept = range 3 := by
        ext v
        rw [mem_filter, mem_range, mem_range, exEdge_kept]
        show v < 3 ∧ _ ↔ _
        simp
      simp only [CurveInput.volume, CurveInput.rate, hf]
      congr 2
      simp only [sum_range_succ, sum_range_zero, CurveInput.time, exEdge]
      norm_num [abs_of_pos, abs_of_neg]
    · rw [m2, hx.mpr]
      intro u v hu hv _ _
      have h1 := (exEdge_kept u).mp hu
      have h2 := (exEdge_kept v).mp hv
      have n1 : u ≠ 2 := fun e => absurd (h1.2.1 e) (not_le.mpr hr)
      have n2 : v ≠ 2 := fun e => absurd (h2.2.1 e) (not_le.mpr hr)
      simp [CurveInput.time, exEdge, n1, n2]

theorem exNudged_slow_backward : (∀ u < 4, ¬ exProblem.backward.Slow u) ∧ ∀ u < 4, ¬ exNudged.backward.Slow u := by
  constructor
  · intro u hu
    unfold Flow.Slow Flow.total Flow.inflow cap
    interval_cases u <;>
      simp [Problem.backward, Problem.flux, Problem.carried, Problem.net, Problem.sink, Problem.wellAt, exProblem, sum_range_succ] <;> norm_num
  · intro u hu
    unfold Flow.Slow Flow.total Flow.inflow cap
    interval_cases u <;>
      simp [Problem.backward, Problem.flux, Problem.carried, Problem.net, Problem.sink, Problem.wellAt, exNudged, sum_range_succ] <;> norm_num

/-- C107: for `exProblem` and `exNudged`, whose data differ by at most ten per cent, all hypotheses hold. -/
example : ∃ (S S' T T' : Solution (X ℚ)) (G G' : Graph (X ℚ)) (x x' : ℚ),
    curveOf mergeSort S T (arr 4 exProblem.pv) (X.fin 1) = .ok G ∧ curveOf mergeSort S' T' (arr 4 exNudged.pv) (X.fin 1) = .ok G' ∧
    lorenzCoefficient G = .ok (X.fin x) ∧ lorenzCoefficient G' = .ok (X.fin x') ∧ |x' - x| ≤ (11 / 10) ^ 40 - 1 := by
  obtain ⟨g, calls, h⟩ := exProblem_given
  obtain ⟨g', calls', h'⟩ := exists_given exNudged_valid (by decide)
  obtain ⟨S, hS⟩ := (C40_valid_problem exProblem_valid h _).1 exInjectors_accepted
  obtain ⟨T, hT⟩ := (C40_valid_problem exProblem_valid h _).2.2.1 exProducers_accepted
  obtain ⟨S', hS'⟩ := (C40_valid_problem exNudged_valid h' _).1 exNudged_accepted.1
  obtain ⟨T', hT'⟩ := (C40_valid_problem exNudged_valid h' _).2.2.1 exNudged_accepted.2
  refine ⟨S, S', T, T', C107_diagnostics (L := 3) exProblem_valid exNudged_valid (by norm_num) exNudged_near h h' exProblem_levels.1
    exProblem_levels.2 (fun v hv => ?_) (fun u hu => ?_) hS hS' hT hT' (fun _ _ => one_pos) ⟨0, by decide, ?_⟩ (fun v hv => ?_) stdSort_mergeSort⟩
  · change v < 4 at hv
    exact ⟨by show v ≤ 3; omega, by omega⟩
  · exact ⟨iff_of_false (exNudged_slow.1 u hu) (exNudged_slow.2 u hu),
      iff_of_false (exNudged_slow_backward.1 u hu) (exNudged_slow_backward.2 u hu)⟩
  · simp [exProblem]
  · change v < 4 at hv
    refine iff_of_true ?_ ?_
    · simp [exProblem]
    · interval_cases v <;> simp [exNudged, sum_range_succ] <;> norm_num

/-- C107: two inputs with another pore volume in the last cell, below the cutoff in both. -/
example : (exEdge (1 / 2)).Valid ∧ (exEdge (3 / 4)).Valid ∧ (∀ v, (exEdge (3 / 4)).Kept v ↔ (exEdge (1 / 2)).Kept v) ∧
    (∀ v, (exEdge (1 / 2)).Kept v → WithinFactor (3 / 2) ((exEdge (1 / 2)).pv v) ((exEdge (3 / 4)).pv v)) := by
  refine ⟨exEdge_valid (by norm_num), exEdge_valid (by norm_num), fun v => ?_, fun v _ => ?_⟩
  · rw [exEdge_kept, exEdge_kept]; norm_num
  · show WithinFactor (3 / 2) (if v = 2 then 2 * (1 / 2) else 1) (if v = 2 then 2 * (3 / 4) else 1)
    unfold WithinFactor
    split <;> norm_num

/-! ### Doubles -/

/-- **C107** (IEEE 754 doubles of ordinary magnitude) The same for the coefficient computed with doubles, up to rounding errors, if the
    same cells are ignored also after small changes of the cutoff. -/
theorem C107_double {r s : ℚ} {I J : CurveInput ℚ} (hI : I.OfOrdinarySize) (hJ : J.OfOrdinarySize) {inj prod pv inj' prod' pv' : List Double}
    {frac frac' : Double} (hd : I.StoredAs inj prod pv frac) (hd' : J.StoredAs inj' prod' pv' frac') (hr : 1 ≤ r) (hs : 1 ≤ s)
    (hn : J.n = I.n)
    (hkept : ∀ v < I.n, ∀ θ θ', |θ - I.frac| ≤ (I.n + 1) / 2 ^ 51 * I.frac → |θ' - J.frac| ≤ (J.n + 1) / 2 ^ 51 * J.frac →
      (J.pv v ≤ θ' * ∑ u ∈ range J.n, J.pv u ↔ I.pv v ≤ θ * ∑ u ∈ range I.n, I.pv u))
    (hpv : ∀ v < I.n, WithinFactor s (I.pv v) (J.pv v)) (ht : ∀ v < I.n, WithinFactor r (I.time v) (J.time v))
    {sort sort' : List (Double × Double) → List (Double × Double)} (hsort : SortsPairs sort) (hsort' : SortsPairs sort') :
    ∃ g g' d d' x x', Derived.curve sort inj prod pv frac = .ok g ∧ Derived.curve sort' inj' prod' pv' frac' = .ok g' ∧
      lorenzCoefficient g = .ok d ∧ lorenzCoefficient g' = .ok d' ∧ d.val = X.fin x ∧ d'.val = X.fin x' ∧
      |x' - x| ≤ s ^ 4 * r ^ 2 - 1 + (20 * I.n + 100) / 2 ^ 51 := by
  obtain ⟨θ, hθ, g, d, x, c1, c2, c3, c4⟩ := C84_lorenz hI hd hsort
  obtain ⟨θ', hθ', g', d', x', c1', c2', c3', c4'⟩ := C84_lorenz hJ hd' hsort'
  refine ⟨g, g', d, d', x, x', c1, c1', c2, c2', c3, c3', ?_⟩
  have v1 := Verif.Rounding.withFraction_valid hI hθ
  have v2 := Verif.Rounding.withFraction_valid hJ hθ'
  have hk : ∀ v, (J.withFraction θ').Kept v ↔ (I.withFraction θ).Kept v := fun v => by
    show (v < J.n ∧ _) ↔ (v < I.n ∧ _)
    rw [hn]
    refine and_congr_right fun hv => ?_
    have := hkept v hv θ θ' hθ hθ'
    rw [hn] at this
    show J.pv v ≤ θ' * ∑ u ∈ range J.n, J.pv u ↔ _
    rw [hn]; exact this
  obtain ⟨G, G', y, y', e1, e2, e3, e4, e5⟩ := C107_lorenz v1 v2 hr hs hn hk (fun v hv => hpv v hv.1) (fun v hv => ht v hv.1) stdSort_mergeSort
  obtain ⟨G1, f1, f2⟩ := C83_meanDifference v1 (stdSort_mergeSort (K := ℚ))
  obtain ⟨G2, f3, f4⟩ := C83_meanDifference v2 (stdSort_mergeSort (K := ℚ))
  rw [e1] at f1; cases f1
  rw [e2] at f3; cases f3
  rw [e3] at f2
  rw [e4] at f4
  injection f2 with f2; injection f2 with f2
  injection f4 with f4; injection f4 with f4
  have m1 : (I.withFraction θ).meanDifference = y := f2.symm
  have m2 : (J.withFraction θ').meanDifference = y' := f4.symm
  rw [m1] at c4
  rw [m2, hn] at c4'
  have a := abs_le.mp c4
  have b := abs_le.mp c4'
  have c := abs_le.mp e5
  have e : (20 * (I.n : ℚ) + 100) / 2 ^ 51 = (10 * I.n + 50) / 2 ^ 51 + (10 * I.n + 50) / 2 ^ 51 := by ring
  rw [e]
  exact abs_le.mpr ⟨by linarith, by linarith⟩

theorem exEdge_ordinary {a : ℚ} (ha : 1 / 4 ≤ a) (ha' : a ≤ 1 / 3) : (exEdge a).OfOrdinarySize := by
  have ord : ∀ x : ℚ, 1 / 2 ≤ x → x ≤ 100 → 0 ≤ x ∧ Ordinary x := by
    intro x h1 h2
    refine ⟨by linarith, Or.inr ?_⟩
    rw [abs_of_nonneg (by linarith)]
    norm_num
    constructor <;> linarith
  refine ⟨by show 3 ≤ INT_MAX; decide, fun v _ => ord _ ?_ ?_, fun v _ => ?_, fun v _ => ord _ ?_ ?_, fun v _ => ?_, ?_, 2, by show 2 < 3; decide, ?_, ?_⟩
  · show 1 / 2 ≤ (1 : ℚ); norm_num
  · show (1 : ℚ) ≤ 100; norm_num
  · show 0 ≤ (if v = 2 then (1 : ℚ) else 0) ∧ Ordinary (if v = 2 then (1 : ℚ) else 0)
    split
    · exact ord 1 (by norm_num) (by norm_num)
    · exact ⟨le_refl _, Or.inl rfl⟩
  · show 1 / 2 ≤ if v = 2 then 2 * a else 1
    split <;> linarith
  · show (if v = 2 then 2 * a else 1) ≤ 100
    split <;> linarith
  · show (0 : ℚ) < 1 + if v = 2 then 1 else 0
    split <;> norm_num
  · exact ⟨by norm_num [exEdge], (ord (1 / 2) (by norm_num) (by norm_num)).2⟩
  · show 0 < 2 * a; linarith
  · simp only [exEdge, sum_range_succ, sum_range_zero]
    norm_num
    linarith

set_option maxRecDepth 100000 in
/-- C107 with doubles: for two inputs with another pore volume in the last cell all hypotheses hold. -/
example : ∃ x x' : ℚ, |x' - x| ≤ (5 / 4) ^ 4 * 1 ^ 2 - 1 + (20 * 3 + 100) / 2 ^ 51 ∧
    ∃ g g' d d', Derived.curve (sortBy Double.rounded) [Arith.lit 1, Arith.lit 1, Arith.lit 1] [Arith.lit 0, Arith.lit 0, Arith.lit 1]
        [Arith.lit 1, Arith.lit 1, Arith.lit (1 / 2)] (Arith.lit (1 / 2)) = .ok g ∧
      Derived.curve (sortBy Double.rounded) [Arith.lit 1, Arith.lit 1, Arith.lit 1] [Arith.lit 0, Arith.lit 0, Arith.lit 1]
        [Arith.lit 1, Arith.lit 1, Arith.lit (5 / 8)] (Arith.lit (1 / 2)) = .ok g' ∧
      lorenzCoefficient g = .ok d ∧ lorenzCoefficient g' = .ok d' ∧ d.val = X.fin x ∧ d'.val = X.fin x' := by
  have st : ∀ a : ℚ, (Arith.lit (2 * a) : Double).val = X.fin (2 * a) →
      (exEdge a).StoredAs [Arith.lit 1, Arith.lit 1, Arith.lit 1] [Arith.lit 0, Arith.lit 0, Arith.lit 1]
        [Arith.lit 1, Arith.lit 1, Arith.lit (2 * a)] (Arith.lit (1 / 2)) := fun a ha => by
    have e : ∀ f : Nat → ℚ, arr (exEdge a).n f = [X.fin (f 0), X.fin (f 1), X.fin (f 2)] := fun f => rfl
    have l1 : (Arith.lit 1 : Double).val = X.fin 1 := by decide +kernel
    have l0 : (Arith.lit 0 : Double).val = X.fin 0 := by decide +kernel
    refine ⟨?_, ?_, ?_, by show _ = X.fin (1 / 2 : ℚ); decide +kernel⟩
    · rw [e]; simp [exEdge, l1]
    · rw [e]; simp [exEdge, l1, l0]
    · rw [e]; simp [exEdge, l1, ha]
  have s1 := st (1 / 4) (by norm_num; decide +kernel)
  have s2 := st (5 / 16) (by norm_num; decide +kernel)
  norm_num at s1 s2
  have hk : ∀ v < 3, ∀ θ θ' : ℚ, |θ - 1 / 2| ≤ (((3 : ℕ) : ℚ) + 1) / 2 ^ 51 * (1 / 2) → |θ' - 1 / 2| ≤ (((3 : ℕ) : ℚ) + 1) / 2 ^ 51 * (1 / 2) →
      ((exEdge (5 / 16)).pv v ≤ θ' * ∑ u ∈ range 3, (exEdge (5 / 16)).pv u ↔ (exEdge (1 / 4)).pv v ≤ θ * ∑ u ∈ range 3, (exEdge (1 / 4)).pv u) := by
    intro v hv θ θ' h h'
    have a := abs_le.mp h
    have b := abs_le.mp h'
    norm_num at a b
    refine iff_of_true ?_ ?_ <;> interval_cases v <;> simp [exEdge, sum_range_succ] <;> linarith
  have hp : ∀ v < 3, WithinFactor (5 / 4) ((exEdge (1 / 4)).pv v) ((exEdge (5 / 16)).pv v) := by
    intro v _
    show WithinFactor (5 / 4) (if v = 2 then 2 * (1 / 4) else 1) (if v = 2 then 2 * (5 / 16) else 1)
    unfold WithinFactor
    split <;> norm_num
  obtain ⟨g, g', d, d', x, x', h1, h2, h3, h4, h5, h6, h7⟩ := C107_double (r := 1) (s := 5 / 4) (I := exEdge (1 / 4)) (J := exEdge (5 / 16))
    (exEdge_ordinary (by norm_num) (by norm_num)) (exEdge_ordinary (by norm_num) (by norm_num)) s1 s2
    (le_refl _) (by norm_num) rfl hk hp (fun v _ => ⟨by rw [one_mul]; exact le_of_eq rfl, by rw [one_mul]; exact le_of_eq rfl⟩)
    (sortsPairs_sortBy Double.rounded) (sortsPairs_sortBy Double.rounded)
  exact ⟨x, x', h7, g, g', d, d', h1, h2, h3, h4, h5, h6⟩

end Verif.Props
