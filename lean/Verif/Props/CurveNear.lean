/-
C107: the F-Phi curve changes little if the data change little.
-/
import Verif.Props.LorenzNear
import Verif.Props.Subdivide

namespace Verif.Props
open Verif.Spec Verif.Toolbox Verif.Solver Verif.Derived Finset

variable {K : Type} [Field K] [LinearOrder K] [IsStrictOrderedRing K] {r s : K}
variable {I J : CurveInput K} {sort sort' : List (X K × X K) → List (X K × X K)}

/-- One half of the bound. -/
theorem onLine_le (hI : I.Valid) (hJ : J.Valid) (hr : 1 ≤ r) (hs : 1 ≤ s) (hn : J.n = I.n) (hkept : ∀ v, J.Kept v ↔ I.Kept v)
    (hpv : ∀ v, I.Kept v → WithinFactor s (I.pv v) (J.pv v)) (ht : ∀ v, I.Kept v → WithinFactor r (I.time v) (J.time v))
    (hsort : StdSort sort) (hsort' : StdSort sort') {g g' : Graph (X K)} (hg : I.curve sort = .ok g) (hg' : J.curve sort' = .ok g')
    {x y y' : K} (h : OnLine g x y) (h' : OnLine g' x y') (hy : 0 ≤ y) : y' ≤ s ^ 2 * r ^ 2 * y := by
  have hr0 : 0 < r := lt_of_lt_of_le one_pos hr
  have hs0 : 0 < s := lt_of_lt_of_le one_pos hs
  obtain ⟨x0, _, _, T, hT, hy1⟩ := (onLine_curve hI hsort hg).mp h
  have hy2 := ((onLine_curve hJ hsort' hg').mp h').2.2.1 (T / r) (div_pos hT hr0)
  have hA : (range J.n).filter J.Kept = (range I.n).filter I.Kept := by
    rw [hn]; exact filter_congr fun v _ => hkept v
  have mem : ∀ v ∈ (range I.n).filter I.Kept, v < I.n ∧ I.Kept v := fun v hv =>
    ⟨mem_range.mp (mem_filter.mp hv).1, (mem_filter.mp hv).2⟩
  have t1 : ∀ v ∈ (range I.n).filter I.Kept, 0 < I.time v := fun v hv => hI.time v (mem v hv).2
  have t2 : ∀ v ∈ (range I.n).filter I.Kept, 0 < J.time v := fun v hv => hJ.time v ((hkept v).mpr (mem v hv).2)
  have p2 : ∀ v ∈ (range I.n).filter I.Kept, 0 ≤ J.pv v := fun v hv => hJ.pv v (hn.symm ▸ (mem v hv).1)
  have hV : J.volume ≤ s * I.volume := by
    unfold CurveInput.volume
    rw [hA, mul_sum]
    exact sum_le_sum fun v hv => (hpv v (mem v hv).2).2
  have hR : I.rate ≤ s * r * J.rate := by
    unfold CurveInput.rate
    rw [hA, mul_sum]
    refine sum_le_sum fun v hv => ?_
    have e := ((ht v (mem v hv).2).inv (t1 v hv) (t2 v hv)).1
    calc I.pv v / I.time v = I.pv v * (1 / I.time v) := by rw [mul_one_div]
      _ ≤ (s * J.pv v) * (r * (1 / J.time v)) :=
        mul_le_mul (hpv v (mem v hv).2).1 e (one_div_nonneg.mpr (t1 v hv).le) (mul_nonneg hs0.le (p2 v hv))
      _ = s * r * (J.pv v / J.time v) := by ring
  have hM : ∑ v ∈ range J.n with J.Kept v, J.pv v * max 0 (1 / J.time v - 1 / (T / r))
      ≤ s * r * ∑ v ∈ range I.n with I.Kept v, I.pv v * max 0 (1 / I.time v - 1 / T) := by
    rw [hA, mul_sum]
    refine sum_le_sum fun v hv => ?_
    have e := ((ht v (mem v hv).2).inv (t1 v hv) (t2 v hv)).2
    have e1 : max 0 (1 / J.time v - 1 / (T / r)) ≤ r * max 0 (1 / I.time v - 1 / T) := by
      refine max_le (mul_nonneg hr0.le (le_max_left _ _)) ?_
      refine le_trans ?_ (mul_le_mul_of_nonneg_left (le_max_right 0 (1 / I.time v - 1 / T)) hr0.le)
      have e2 : 1 / (T / r) = r * (1 / T) := by rw [one_div_div, mul_one_div]
      rw [e2, mul_sub]
      linarith
    calc J.pv v * max 0 (1 / J.time v - 1 / (T / r)) ≤ (s * I.pv v) * (r * max 0 (1 / I.time v - 1 / T)) :=
          mul_le_mul (hpv v (mem v hv).2).2 e1 (le_max_left _ _) (mul_nonneg hs0.le (hI.pv v (mem v hv).1))
      _ = _ := by ring
  have hL : J.volume * x / (T / r) ≤ s * r * (I.volume * x / T) := by
    have e : J.volume * x / (T / r) = J.volume * (r * x / T) := by rw [div_div_eq_mul_div]; ring
    rw [e]
    calc J.volume * (r * x / T) ≤ s * I.volume * (r * x / T) :=
          mul_le_mul_of_nonneg_right hV (div_nonneg (mul_nonneg hr0.le x0) hT.le)
      _ = _ := by ring
  have key : J.rate * y' ≤ J.rate * (s ^ 2 * r ^ 2 * y) := by
    calc J.rate * y' ≤ s * r * (I.rate * y) := by rw [hy1, mul_add]; linarith
      _ ≤ s * r * ((s * r * J.rate) * y) :=
        mul_le_mul_of_nonneg_left (mul_le_mul_of_nonneg_right hR hy) (mul_nonneg hs0.le hr0.le)
      _ = _ := by ring
  exact le_of_mul_le_mul_left key (volume_pos hJ).2

/-- Points of the line are not below zero. -/
theorem onLine_nonneg (hI : I.Valid) (hsort : StdSort sort) {g : Graph (X K)} (hg : I.curve sort = .ok g) {x y : K} (h : OnLine g x y) : 0 ≤ y := by
  obtain ⟨x0, _, _, T, hT, hy⟩ := (onLine_curve hI hsort hg).mp h
  obtain ⟨v0, r0⟩ := volume_pos hI
  refine nonneg_of_mul_nonneg_right ?_ r0
  rw [hy]
  refine add_nonneg (div_nonneg (mul_nonneg v0.le x0) hT.le) (sum_nonneg fun v hv => ?_)
  exact mul_nonneg (hI.pv v (mem_range.mp (mem_filter.mp hv).1)) (le_max_left _ _)

/-- **C107** If the travel times of the cells that are not ignored change at most by a factor `r` and their pore volumes by a factor
    `s`, and the same cells are ignored, the F-Phi curve changes at most by the factor `s² r²`: for each storage capacity there is a
    point on either line, and the flow capacities of such points differ by that factor at most. -/
theorem C107_curve (hI : I.Valid) (hJ : J.Valid) (hr : 1 ≤ r) (hs : 1 ≤ s) (hn : J.n = I.n) (hkept : ∀ v, J.Kept v ↔ I.Kept v)
    (hpv : ∀ v, I.Kept v → WithinFactor s (I.pv v) (J.pv v)) (ht : ∀ v, I.Kept v → WithinFactor r (I.time v) (J.time v))
    (hsort : StdSort sort) (hsort' : StdSort sort') :
    ∃ g g', I.curve sort = .ok g ∧ J.curve sort' = .ok g' ∧
      (∀ x, 0 ≤ x → x ≤ 1 → ∃ y y', OnLine g x y ∧ OnLine g' x y') ∧
      ∀ x y y', OnLine g x y → OnLine g' x y' → WithinFactor (s ^ 2 * r ^ 2) y y' := by
  obtain ⟨g, hg, _⟩ := C83_meanDifference hI hsort
  obtain ⟨g', hg', _⟩ := C83_meanDifference hJ hsort'
  refine ⟨g, g', hg, hg', fun x h0 h1 => ?_, fun x y y' h h' => ⟨?_, ?_⟩⟩
  · obtain ⟨y, hy⟩ := exists_onLine hI hsort hg h0 h1
    obtain ⟨y', hy'⟩ := exists_onLine hJ hsort' hg' h0 h1
    exact ⟨y, y', hy, hy'⟩
  · exact onLine_le hJ hI hr hs hn.symm (fun v => (hkept v).symm) (fun v hv => (hpv v ((hkept v).mp hv)).symm)
      (fun v hv => (ht v ((hkept v).mp hv)).symm) hsort' hsort hg' hg h' h (onLine_nonneg hJ hsort' hg' h')
  · exact onLine_le hI hJ hr hs hn hkept hpv ht hsort hsort' hg hg' h h' (onLine_nonneg hI hsort hg h)

/-- **C107** (exact arithmetic, cycle-free flow) For diagnostics of two problems as in `C107_diagnostics` the curves differ at most by the
    factor `r ^ (8 L + 14)`. -/
theorem C107_diagnostics_curve [Archimedean K] {P Q : Problem K} (hP : P.Valid) (hQ : Q.Valid) (hr : 1 ≤ r) (hnear : Problem.Near r P Q)
    {g g' : ConnectivityGraph} {calls calls' : List (Call (X K))} (h : P.GivenTo g calls) (h' : Q.GivenTo g' calls')
    {level level' : Nat → Nat} (hl : P.forward.Levels level) (hl' : P.backward.Levels level') {L : Nat}
    (hL : ∀ v < P.n, level v ≤ L ∧ level' v ≤ L)
    (hslow : ∀ u < P.n, (P.forward.Slow u ↔ Q.forward.Slow u) ∧ (P.backward.Slow u ↔ Q.backward.Slow u))
    {istarts istarts' pstarts pstarts' : List CellSet} {S S' T T' : Solution (X K)}
    (hS : InjectionReturns g calls istarts (.ok S)) (hS' : InjectionReturns g' calls' istarts' (.ok S'))
    (hT : ProductionReturns g calls pstarts (.ok T)) (hT' : ProductionReturns g' calls' pstarts' (.ok T'))
    (hpv : ∀ v < P.n, 0 < P.pv v) {frac frac' : K} (hf : ∃ v < P.n, P.pv v ≤ frac * ∑ u ∈ range P.n, P.pv u)
    (hkept : ∀ v < P.n, (P.pv v ≤ frac * ∑ u ∈ range P.n, P.pv u ↔ Q.pv v ≤ frac' * ∑ u ∈ range Q.n, Q.pv u))
    (hsort : StdSort sort) (hsort' : StdSort sort') :
    ∃ G G', curveOf sort S T (arr P.n P.pv) (X.fin frac) = .ok G ∧ curveOf sort' S' T' (arr Q.n Q.pv) (X.fin frac') = .ok G' ∧
      (∀ x, 0 ≤ x → x ≤ 1 → ∃ y y', OnLine G x y ∧ OnLine G' x y') ∧
      ∀ x y y', OnLine G x y → OnLine G' x y' → WithinFactor (r ^ (8 * L + 14)) y y' := by
  obtain ⟨e1, _, _⟩ := C63_curve hP h hS hT sort frac
  obtain ⟨e2, _, _⟩ := C63_curve hQ h' hS' hT' sort' frac'
  obtain ⟨hI, hJ, hk, ht⟩ := near_inputs hP hQ hr hnear h h' hl hl' hL hslow hS hS' hT hT' hpv hf hkept
  obtain ⟨G, G', c1, c2, c3, c4⟩ := C107_curve hI hJ (one_le_pow₀ hr) hr hnear.size hk (fun v hv => hnear.pv v hv.1) ht hsort hsort'
  refine ⟨G, G', e1.trans c1, e2.trans c2, c3, fun x y y' a b => ?_⟩
  have e : r ^ 2 * (r ^ (4 * L + 6)) ^ 2 = r ^ (8 * L + 14) := by ring
  rw [← e]
  exact c4 x y y' a b

/-- C107: for `exProblem` and `exNudged` all hypotheses hold. -/
example : ∃ (S S' T T' : Solution (X ℚ)) (G G' : Graph (X ℚ)),
    curveOf mergeSort S T (arr 4 exProblem.pv) (X.fin 1) = .ok G ∧ curveOf mergeSort S' T' (arr 4 exNudged.pv) (X.fin 1) = .ok G' ∧
    ∃ y y', OnLine G (1 / 2) y ∧ OnLine G' (1 / 2) y' ∧ WithinFactor ((11 / 10) ^ 38) y y' := by
  obtain ⟨g, calls, h⟩ := exProblem_given
  obtain ⟨g', calls', h'⟩ := exists_given exNudged_valid (by decide)
  obtain ⟨S, hS⟩ := (C40_valid_problem exProblem_valid h _).1 exInjectors_accepted
  obtain ⟨T, hT⟩ := (C40_valid_problem exProblem_valid h _).2.2.1 exProducers_accepted
  obtain ⟨S', hS'⟩ := (C40_valid_problem exNudged_valid h' _).1 exNudged_accepted.1
  obtain ⟨T', hT'⟩ := (C40_valid_problem exNudged_valid h' _).2.2.1 exNudged_accepted.2
  obtain ⟨G, G', a, b, c, d⟩ := C107_diagnostics_curve (L := 3) (frac := 1) (frac' := 1) exProblem_valid exNudged_valid (by norm_num) exNudged_near h h'
    exProblem_levels.1 exProblem_levels.2
    (fun v hv => by change v < 4 at hv; exact ⟨by show v ≤ 3; omega, by omega⟩)
    (fun u hu => ⟨iff_of_false (exNudged_slow.1 u hu) (exNudged_slow.2 u hu),
      iff_of_false (exNudged_slow_backward.1 u hu) (exNudged_slow_backward.2 u hu)⟩)
    hS hS' hT hT' (fun _ _ => one_pos) ⟨0, by decide, by simp [exProblem]⟩
    (fun v hv => by
      change v < 4 at hv
      refine iff_of_true (by simp [exProblem]) ?_
      interval_cases v <;> simp [exNudged, sum_range_succ] <;> norm_num)
    stdSort_mergeSort stdSort_mergeSort
  obtain ⟨y, y', hy, hy'⟩ := c (1 / 2) (by norm_num) (by norm_num)
  exact ⟨S, S', T, T', G, G', a, b, y, y', hy, hy', d _ _ _ hy hy'⟩

end Verif.Props
