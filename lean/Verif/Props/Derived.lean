/-
C42 to C48: the F-Phi curve, the Lorenz coefficient and sweep efficiency.
-/
import Verif.Proofs.DerivedSweep
import Verif.Proofs.DerivedSort
import Mathlib.Tactic.IntervalCases
import Mathlib.Tactic.NormNum

namespace Verif.Props
open Verif.Spec Verif.Derived Verif.Solver Finset

variable {K : Type} [Field K] [LinearOrder K] [IsStrictOrderedRing K]
variable {I : CurveInput K} {sort : List (X K × X K) → List (X K × X K)}

/-! ### C42, C43: the shape of the curve -/

/-- **C42** Both coordinates have one more entry than there are cells, start at 0, end at 1 and never decrease. -/
theorem C42_monotone (h : I.Valid) (hs : StdSort sort) :
    ∃ Phi F : Nat → K, I.curve sort = .ok (arr (I.n + 1) Phi, arr (I.n + 1) F) ∧
      Phi 0 = 0 ∧ F 0 = 0 ∧ Phi I.n = 1 ∧ F I.n = 1 ∧
      ∀ i j, i ≤ j → j ≤ I.n → Phi i ≤ Phi j ∧ F i ≤ F j := by
  obtain ⟨σ, _, hseq, hc⟩ := curve_valid h hs
  exact ⟨_, _, hc, Φ_zero, Φ_zero, Φ_last hseq.pos.ne', Φ_last (Q_pos hseq).ne', fun i j hij hj =>
    ⟨Φ_mono hseq.p0 hij hj, Φ_mono (rt_nonneg hseq) hij hj⟩⟩

/-- **C42** The points of the curve: with the cells ordered by travel time, the fraction of pore volume, and of pore
    volume by travel time, in the first `i` cells.  (An ignored cell counts as a cell without pore volume.) -/
theorem C42_points (h : I.Valid) (hs : StdSort sort) :
    ∃ σ, Order I.n σ ∧ (∀ i j, i ≤ j → j < I.n → I.rank (σ i) ≤ I.rank (σ j)) ∧
      I.curve sort = .ok
        (arr (I.n + 1) fun i => (∑ j ∈ range i with I.Kept (σ j), I.pv (σ j)) / I.volume,
         arr (I.n + 1) fun i => (∑ j ∈ range i with I.Kept (σ j), I.pv (σ j) / I.time (σ j)) / I.rate) := by
  obtain ⟨σ, hσ, hseq, hc⟩ := curve_valid h hs
  refine ⟨σ, hσ, hseq.mono, ?_⟩
  rw [hc]
  congr 2
  · apply Derived.arr_congr
    intro i _
    unfold Φ
    rw [S_volume hσ, sum_filter]; rfl
  · apply Derived.arr_congr
    intro i _
    unfold Φ
    rw [S_rate hσ, sum_filter]
    congr 1
    apply sum_congr rfl
    intro j _
    unfold rt CurveInput.keptPv CurveInput.rank
    by_cases hk : I.Kept (σ j) <;> simp [hk]

/-- **C43** The slopes `(F (i+1) - F i) / (Phi (i+1) - Phi i)` never increase, and the curve lies on or above the
    diagonal. -/
theorem C43_concave (h : I.Valid) (hs : StdSort sort) {Phi F : Nat → K}
    (hc : I.curve sort = .ok (arr (I.n + 1) Phi, arr (I.n + 1) F)) :
    (∀ i j, i ≤ j → j < I.n →
      (F (j + 1) - F j) * (Phi (i + 1) - Phi i) ≤ (F (i + 1) - F i) * (Phi (j + 1) - Phi j)) ∧
    ∀ i ≤ I.n, Phi i ≤ F i := by
  obtain ⟨σ, _, hseq, hc'⟩ := curve_valid h hs
  rw [hc] at hc'
  have harr : ∀ {f g : Nat → K}, arr (I.n + 1) f = arr (I.n + 1) g → ∀ i ≤ I.n, f i = g i := by
    intro f g e i hi
    have h1 := arr_rd f (Nat.lt_succ_of_le hi)
    have h2 := arr_rd g (Nat.lt_succ_of_le hi)
    rw [Nat.succ_eq_add_one] at h1 h2
    rw [e, h2] at h1
    exact (X.fin.inj (Res.ok.inj h1)).symm
  have hc2 := Prod.mk.inj (Res.ok.inj hc')
  have eP := harr hc2.1
  have eF := harr hc2.2
  constructor
  · intro i j hij hj
    rw [eF (j + 1) (by omega), eF j (by omega), eF (i + 1) (by omega), eF i (by omega), eP (j + 1) (by omega),
      eP j (by omega), eP (i + 1) (by omega), eP i (by omega), Φ_step, Φ_step, Φ_step, Φ_step]
    rw [div_mul_div_comm, div_mul_div_comm]
    apply div_le_div_of_nonneg_right (slopes hseq hij hj)
    exact mul_nonneg (Q_pos hseq).le hseq.pos.le
  · intro i hi
    rw [eP i hi, eF i hi]
    exact above hseq hi

/-! ### C44: the Lorenz coefficient -/

/-- **C44** The coefficient is twice the area between a piecewise linear curve from `Phi = 0` to `Phi = 1` and the
    diagonal (the area below the diagonal being 1/2). -/
theorem C44_area (n : Nat) (hn : n ≤ INT_MAX) (Phi F : Nat → K) :
    lorenzCoefficient (arr (n + 1) Phi, arr (n + 1) F) =
      .ok (X.fin (2 * ((∑ i ∈ range n, (Phi (i + 1) - Phi i) * ((F i + F (i + 1)) / 2)) - 1 / 2))) := by
  rw [lorenz_finite n hn, area]
  have : ∑ i ∈ range n, (Phi (i + 1) - Phi i) * ((F i + F (i + 1)) / 2)
      = (∑ i ∈ range n, (F i + F (i + 1)) * (Phi (i + 1) - Phi i)) / 2 := by
    rw [sum_div]
    apply sum_congr rfl
    intros; ring
  rw [this]
  have e : ∀ x : K, x - 1 = 2 * (x / 2 - 1 / 2) := by intro x; ring
  rw [e]

/-- **C44** The Lorenz coefficient of a curve lies in [0, 1), and is 0 exactly when all contributing cells have the same
    travel time. -/
theorem C44_range (h : I.Valid) (hs : StdSort sort) :
    ∃ g x, I.curve sort = .ok g ∧ lorenzCoefficient g = .ok (X.fin x) ∧ 0 ≤ x ∧ x < 1 ∧
      (x = 0 ↔ ∀ u v, I.Kept u → I.Kept v → 0 < I.pv u → 0 < I.pv v → I.time u = I.time v) := by
  obtain ⟨σ, hσ, hseq, hc⟩ := curve_valid h hs
  refine ⟨_, _, hc, lorenz_finite _ h.int _ _, ?_, ?_, ?_⟩
  · have := lorenz_nonneg hseq; linarith
  · have := lorenz_lt hseq; linarith
  · rw [sub_eq_zero, lorenz_zero hseq]
    constructor
    · intro hall u v hu hv pu pv
      obtain ⟨i, hi, rfl⟩ := order_surj hσ hu.1
      obtain ⟨j, hj, rfl⟩ := order_surj hσ hv.1
      have := hall i hi j hj (keptPv_pos.mpr ⟨hu, pu⟩) (keptPv_pos.mpr ⟨hv, pv⟩)
      simpa [CurveInput.rank, hu, hv] using this
    · intro hall i hi j hj pi pj
      obtain ⟨hu, pu⟩ := keptPv_pos.mp pi
      obtain ⟨hv, pv⟩ := keptPv_pos.mp pj
      have := hall _ _ hu hv pu pv
      simpa [CurveInput.rank, hu, hv] using this

/-! ### C45, C46: numbering and ignored cells -/

/-- **C45** Permuting the cells leaves the curve unchanged, whatever the (finite) input, and whichever sorting algorithm
    is used. -/
theorem C45_numbering {σ : Nat → Nat} {J : CurveInput K} {sort' : List (X K × X K) → List (X K × X K)}
    (hs : StdSort sort) (hs' : StdSort sort') (hn : I.n ≤ INT_MAX) (h : CurveInput.Renumbered σ I J) :
    J.curve sort' = I.curve sort :=
  (curve_congr hs hs' hn (by rw [h.size]; exact hn) (renumbered h)).symm

/-- **C46** The curve is the curve of the cells not above the cutoff, followed by one end point per ignored cell. -/
theorem C46_cutoff (h : I.Valid) (ht : ∀ v, I.Kept v → I.time v < 10 ^ 100) (hs : StdSort sort) :
    ∃ Phi F, I.keep.curve sort = .ok (Phi, F) ∧
      I.curve sort = .ok (Phi ++ List.replicate (I.n - I.cells.length) (X.fin 1),
        F ++ List.replicate (I.n - I.cells.length) (X.fin 1)) :=
  curve_keep h ht hs hs

/-! ### C47: sweep efficiency -/

/-- **C47** Sweep efficiency starts at (0, 0), both coordinates never decrease, and efficiency stays in [0, 1] and ends
    at 1. -/
theorem C47_sweep (h : I.Valid) (hn : I.n < INT_MAX) (hs : StdSort sort) :
    ∃ g, ∃ tD Ev : List K, I.curve sort = .ok g ∧ sweepEfficiency g = .ok (tD.map X.fin, Ev.map X.fin) ∧
      tD.length = Ev.length ∧ tD.head? = some 0 ∧ Ev.head? = some 0 ∧
      tD.Pairwise (· ≤ ·) ∧ Ev.Pairwise (· ≤ ·) ∧ (∀ x ∈ Ev, 0 ≤ x ∧ x ≤ 1) ∧ Ev.getLast? = some 1 := by
  obtain ⟨σ, hσ, hseq, hc⟩ := curve_valid h hs
  set t : Nat → K := fun j => I.rank (σ j) with ht
  set p : Nat → K := fun j => I.keptPv (σ j) with hp
  have hP : 0 < S p I.n := hseq.pos
  have hQ := Q_pos hseq
  have hmem : ∀ j ∈ nonempty p I.n, j < I.n := fun j hj => List.mem_range.mp (List.mem_filter.mp hj).1
  have hsorted : (nonempty p I.n).Pairwise (· < ·) := List.pairwise_lt_range.filter _
  refine ⟨_, 0 :: (nonempty p I.n).map fun j => t j * S (rt t p) I.n / S p I.n,
    0 :: (nonempty p I.n).map fun j => fill I.n t p (t j) / S p I.n, hc, ?_, ?_, rfl, rfl, ?_, ?_, ?_, ?_⟩
  · rw [sweep_finite hseq hn]
    simp [Function.comp_def]
  · simp
  · rw [List.pairwise_cons]
    constructor
    · intro x hx
      obtain ⟨j, hj, rfl⟩ := List.mem_map.mp hx
      exact div_nonneg (mul_nonneg (hseq.t0 j (hmem j hj)).le hQ.le) hP.le
    · rw [List.pairwise_map]
      refine hsorted.imp_of_mem ?_
      intro i j hi hj hij
      apply div_le_div_of_nonneg_right _ hP.le
      exact mul_le_mul_of_nonneg_right (hseq.mono i j hij.le (hmem j hj)) hQ.le
  · rw [List.pairwise_cons]
    constructor
    · intro x hx
      obtain ⟨j, hj, rfl⟩ := List.mem_map.mp hx
      exact div_nonneg (fill_nonneg hseq (hseq.t0 j (hmem j hj)).le) hP.le
    · rw [List.pairwise_map]
      refine hsorted.imp_of_mem ?_
      intro i j hi hj hij
      apply div_le_div_of_nonneg_right _ hP.le
      exact fill_mono hseq (hseq.mono i j hij.le (hmem j hj))
  · intro x hx
    rcases List.mem_cons.mp hx with rfl | hx
    · exact ⟨le_rfl, zero_le_one⟩
    · obtain ⟨j, hj, rfl⟩ := List.mem_map.mp hx
      refine ⟨div_nonneg (fill_nonneg hseq (hseq.t0 j (hmem j hj)).le) hP.le, ?_⟩
      rw [div_le_one hP]
      exact fill_le hseq _
  · obtain ⟨j0, hj0, hpj⟩ := exists_pos hseq
    have hj0m : j0 ∈ nonempty p I.n := List.mem_filter.mpr ⟨List.mem_range.mpr hj0, by simpa using hpj.ne'⟩
    have hne : nonempty p I.n ≠ [] := List.ne_nil_of_mem hj0m
    have hlast : ∀ j ∈ nonempty p I.n, j ≤ (nonempty p I.n).getLast hne := by
      intro j hj
      obtain ⟨i, hi, rfl⟩ := List.getElem_of_mem hj
      rw [List.getLast_eq_getElem]
      rcases Nat.lt_or_ge i ((nonempty p I.n).length - 1) with hlt | hge
      · exact (List.pairwise_iff_getElem.mp hsorted _ _ _ _ hlt).le
      · have : i = (nonempty p I.n).length - 1 := by omega
        simp only [this, le_refl]
    have hl := hmem _ (List.getLast_mem hne)
    rw [List.getLast?_cons, List.getLast?_map, List.getLast?_eq_some_getLast hne]
    simp only [Option.map_some, Option.getD_some]
    rw [fill_all hseq, div_self hP.ne']
    intro j hj hpj
    apply hseq.mono j _ _ hl
    exact hlast j (List.mem_filter.mpr ⟨List.mem_range.mpr hj, by simpa using hpj.ne'⟩)

/-- **C47** What the points are: after the origin there is one point per contributing cell `v`.  Its abscissa is the
    cell's travel time in units of volume by rate, its ordinate the fraction of pore volume filled at that time. -/
theorem C47_points (h : I.Valid) (hn : I.n < INT_MAX) (hs : StdSort sort) :
    ∃ g, ∃ cells : List Nat, I.curve sort = .ok g ∧ cells.Nodup ∧ (∀ v, v ∈ cells ↔ I.Kept v ∧ 0 < I.pv v) ∧
      sweepEfficiency g = .ok (X.fin 0 :: cells.map fun v => X.fin (I.time v * I.rate / I.volume),
        X.fin 0 :: cells.map fun v => X.fin (I.swept (I.time v) / I.volume)) := by
  obtain ⟨σ, hσ, hseq, hc⟩ := curve_valid h hs
  refine ⟨_, (nonempty (fun j => I.keptPv (σ j)) I.n).map σ, hc, ?_, ?_, ?_⟩
  · unfold nonempty
    rw [List.nodup_map_iff_inj_on (List.nodup_range.filter _)]
    intro u hu v hv e
    exact hσ.2 u (List.mem_range.mp (List.mem_filter.mp hu).1) v (List.mem_range.mp (List.mem_filter.mp hv).1) e
  · intro v
    rw [List.mem_map]
    constructor
    · rintro ⟨j, hj, rfl⟩
      obtain ⟨h1, h2⟩ := List.mem_filter.mp hj
      have h3 := List.mem_range.mp h1
      have h4 := keptPv_nonneg h (hσ.1 j h3)
      exact keptPv_pos.mp (lt_of_le_of_ne h4 (Ne.symm (of_decide_eq_true h2)))
    · rintro ⟨hk, hp⟩
      obtain ⟨j, hj, rfl⟩ := order_surj hσ hk.1
      refine ⟨j, List.mem_filter.mpr ⟨List.mem_range.mpr hj, ?_⟩, rfl⟩
      simpa using (keptPv_pos.mpr ⟨hk, hp⟩).ne'
  · rw [sweep_finite hseq hn, S_volume hσ, S_rate hσ]
    have hr : ∀ j ∈ nonempty (fun j => I.keptPv (σ j)) I.n, I.rank (σ j) = I.time (σ j) := by
      intro j hj
      obtain ⟨_, h2⟩ := List.mem_filter.mp hj
      unfold CurveInput.rank
      by_cases hk : I.Kept (σ j)
      · rw [if_pos hk]
      · simp [CurveInput.keptPv, hk] at h2
    rw [List.map_map, List.map_map]
    congr 3
    · apply List.map_congr_left
      intro j hj
      simp only [Function.comp]
      rw [hr j hj]
    · apply List.map_congr_left
      intro j hj
      simp only [Function.comp]
      rw [fill_swept hσ, hr j hj]

/-! ### Non-vacuity of C42 to C47 -/

/-- Three cells with travel times 2, 3 and 6; the last one exceeds the cutoff. -/
def exCurve : CurveInput ℚ :=
  { n := 3
    inj := fun v => if v = 0 then 1 else if v = 1 then 2 else 1
    prod := fun v => if v = 2 then 5 else 1
    pv := fun v => if v = 0 then 2 else if v = 1 then 1 else 100
    frac := 1 / 2 }

theorem exCurve_kept (v : Nat) : exCurve.Kept v ↔ v < 2 := by
  unfold CurveInput.Kept
  have : ∑ u ∈ range exCurve.n, exCurve.pv u = 103 := by
    show ∑ u ∈ range 3, _ = _
    rw [sum_range_succ, sum_range_succ, sum_range_one]; norm_num [exCurve]
  rw [this]
  constructor
  · rintro ⟨h1, h2⟩
    change v < 3 at h1
    interval_cases v
    · omega
    · omega
    · norm_num [exCurve] at h2
  · intro h
    interval_cases v <;> norm_num [exCurve]

theorem exCurve_valid : exCurve.Valid := by
  refine ⟨by decide, ?_, ?_, 0, (exCurve_kept 0).mpr (by norm_num), by norm_num [exCurve]⟩
  · intro v _; simp only [exCurve]; split; norm_num; split <;> norm_num
  · intro v hv
    have := (exCurve_kept v).mp hv
    interval_cases v <;> norm_num [CurveInput.time, exCurve]

/-- The input is valid, a sorting function exists, travel times are below 1e100, some cell is ignored, and the
    contributing cells have different travel times. -/
example : exCurve.Valid ∧ exCurve.n < INT_MAX ∧ StdSort (mergeSort (K := ℚ)) ∧
    (∀ v, exCurve.Kept v → exCurve.time v < 10 ^ 100) ∧ ¬ exCurve.Kept 2 ∧ exCurve.time 0 ≠ exCurve.time 1 := by
  refine ⟨exCurve_valid, by decide, stdSort_mergeSort, ?_, by rw [exCurve_kept]; omega,
    by norm_num [CurveInput.time, exCurve]⟩
  intro v hv
  have := (exCurve_kept v).mp hv
  interval_cases v <;> norm_num [CurveInput.time, exCurve]

/-- Cells 0 and 1 exchanged. -/
example : ∃ J, CurveInput.Renumbered (fun v => if v = 0 then 1 else if v = 1 then 0 else v) exCurve J ∧ J.pv 0 ≠ exCurve.pv 0 := by
  let σ : Nat → Nat := fun v => if v = 0 then 1 else if v = 1 then 0 else v
  have hσ : ∀ v, σ (σ v) = v := by
    intro v
    simp only [σ]
    by_cases h0 : v = 0
    · simp [h0]
    · by_cases h1 : v = 1 <;> simp [h0, h1]
  refine ⟨⟨3, fun v => exCurve.inj (σ v), fun v => exCurve.prod (σ v), fun v => exCurve.pv (σ v), 1 / 2⟩,
    ⟨rfl, rfl, ⟨?_, ?_⟩, ?_, ?_, ?_⟩, ?_⟩
  · intro v hv
    change v < 3 at hv
    interval_cases v <;> decide
  · intro u _ v _ e
    have := congrArg σ e
    rwa [hσ u, hσ v] at this
  · intro v _; exact congrArg exCurve.inj (hσ v)
  · intro v _; exact congrArg exCurve.prod (hσ v)
  · intro v _; exact congrArg exCurve.pv (hσ v)
  · norm_num [σ, exCurve]

/-! ### C48: sizes -/

section
variable {R : Type} [Arith R]

theorem timesAndPvs_no_throw (a b p : List R) (m : R) (l : List Nat) (e : Exc) :
    timesAndPvs a b p m l ≠ .throw e := by
  induction l with
  | nil => simp [timesAndPvs]
  | cons i l ih =>
    unfold timesAndPvs
    simp only [Res.bind_eq, Res.pure_eq]
    have hrd : ∀ q : List R, (∃ x, rd q i = .ok x) ∨ ∃ u, rd q i = .ub u := by
      intro q; unfold rd; cases q[i]? with
      | none => exact Or.inr ⟨_, rfl⟩
      | some x => exact Or.inl ⟨x, rfl⟩
    rcases hrd p with ⟨x, hx⟩ | ⟨u, hx⟩ <;> rw [hx] <;> simp only [Res.ok_bind, Res.ub_bind, ne_eq, reduceCtorEq, not_false_eq_true]
    rcases hrd a with ⟨y, hy⟩ | ⟨u, hy⟩ <;> rw [hy] <;> simp only [Res.ok_bind, Res.ub_bind, ne_eq, reduceCtorEq, not_false_eq_true]
    rcases hrd b with ⟨z, hz⟩ | ⟨u, hz⟩ <;> rw [hz] <;> simp only [Res.ok_bind, Res.ub_bind, ne_eq, reduceCtorEq, not_false_eq_true]
    cases ht : timesAndPvs a b p m l with
    | throw e' => intro h; simp only [Res.throw_bind] at h; cases h; exact ih ht
    | _ => simp [Res.bind]

/-- **C48** The F-Phi curve throws `runtime_error` exactly when the sizes differ, in any arithmetic and whatever
    `std::sort` does. -/
theorem C48_curve_sizes (sort : List (R × R) → List (R × R)) (a b p : List R) (f : R) :
    Derived.curve sort a b p f = .throw .runtimeError ↔ p.length ≠ a.length ∨ p.length ≠ b.length := by
  unfold Derived.curve
  by_cases h : p.length ≠ a.length ∨ p.length ≠ b.length
  · rw [if_pos h]; exact iff_of_true rfl h
  · rw [if_neg h]
    refine iff_of_false ?_ h
    simp only
    split
    · simp
    · simp only [Res.bind_eq, Res.pure_eq]
      generalize hl : List.range _ = l
      cases ht : timesAndPvs a b p _ l with
      | throw e => exact absurd ht (timesAndPvs_no_throw _ _ _ _ _ _)
      | ok r =>
        simp only [Res.ok_bind]
        unfold sortPairs
        split <;> simp [Res.bind]
      | _ => simp [Res.bind]

/-- **C48** With equal sizes (up to the largest `int`) and no NaN among travel times and pore volumes a curve with one
    point more than there are cells is returned. -/
theorem C48_curve_accepted (sort : List (R × R) → List (R × R)) (hperm : ∀ l, (sort l).length = l.length) {a b p : List R} (f : R)
    (ha : p.length = a.length) (hb : p.length = b.length) (hn : p.length ≤ INT_MAX)
    (hlit : Arith.eq (Arith.lit (10 ^ 100) : R) (Arith.lit (10 ^ 100)) = true)
    (hzero : Arith.eq (Arith.zero : R) Arith.zero = true)
    (hp : ∀ x ∈ p, Arith.eq x x = true)
    (hab : ∀ x ∈ a, ∀ y ∈ b, Arith.eq (Arith.add x y) (Arith.add x y) = true) :
    ∃ g : Graph R, Derived.curve sort a b p f = .ok g ∧ g.1.length = p.length + 1 ∧ g.2.length = p.length + 1 := by
  have key : ∀ (m : R) (l : List Nat), (∀ i ∈ l, i < p.length) →
      ∃ r, timesAndPvs a b p m l = .ok r ∧ r.length = l.length ∧ ∀ e ∈ r, Arith.eq e.1 e.1 = true ∧ Arith.eq e.2 e.2 = true := by
    intro m l
    induction l with
    | nil => intro _; exact ⟨[], rfl, rfl, by simp⟩
    | cons i l ih =>
      intro h
      obtain ⟨r, h1, h2, h3⟩ := ih fun j hj => h j (by simp [hj])
      have hi := h i (by simp)
      refine ⟨timeAndPv m (a[i]'(by omega)) (b[i]'(by omega)) p[i] :: r, ?_, ?_, ?_⟩
      · unfold timesAndPvs
        rw [rd_ok hi, rd_ok (by omega : i < a.length), rd_ok (by omega : i < b.length), h1]
        rfl
      · simp [h2]
      · intro e he
        rcases List.mem_cons.mp he with rfl | he
        · unfold timeAndPv
          split
          · exact ⟨hlit, hzero⟩
          · exact ⟨hab _ (List.getElem_mem _) _ (List.getElem_mem _), hp _ (List.getElem_mem _)⟩
        · exact h3 e he
  unfold Derived.curve
  rw [if_neg (by omega)]
  simp only
  rw [narrowInt_small hn, if_neg (by omega), Int.toNat_natCast]
  obtain ⟨r, h1, h2, h3⟩ := key (Arith.mul f (p.foldl Arith.add Arith.zero)) (List.range p.length)
    (fun i hi => List.mem_range.mp hi)
  have hlen : ∀ (r : List (R × R)) (e : R × R → R), (cumulativeNormalized r e).length = r.length + 1 := by
    intro r e
    have : ∀ (l : List R) (x : R), (partialSums x l).length = l.length := by
      intro l
      induction l with
      | nil => intro _; rfl
      | cons y l ih => intro x; simp [partialSums, ih]
    simp [cumulativeNormalized, partialSum, this]
  rw [h1]
  simp only [Res.bind_eq, Res.pure_eq, Res.ok_bind]
  unfold sortPairs
  rw [if_pos (by rw [List.all_eq_true]; intro e he; simp [h3 e he])]
  refine ⟨_, rfl, ?_, ?_⟩ <;> simp only [hlen, hperm, h2, List.length_range]

theorem forEach_no_throw {σ α : Type} {f : σ → α → Res σ} (e : Exc) (xs : List α) (s : σ)
    (hf : ∀ s x, f s x ≠ .throw e) : forEach xs s f ≠ .throw e := by
  induction xs generalizing s with
  | nil => simp
  | cons x xs ih =>
    rw [forEach_cons]
    cases h : f s x with
    | throw e' =>
      intro h'
      simp only [Res.throw_bind] at h'
      cases h'
      exact hf s x h
    | ok r => simp only [Res.ok_bind]; exact ih r
    | _ => simp [Res.bind]

/-- **C48** The Lorenz coefficient is returned exactly when the sizes agree, and `runtime_error` thrown otherwise. -/
theorem C48_lorenz_sizes (g : Graph R) :
    (g.2.length = g.1.length → ∃ x, lorenzCoefficient g = .ok x) ∧
    (g.2.length ≠ g.1.length → lorenzCoefficient g = .throw .runtimeError) := by
  constructor
  · intro h
    unfold lorenzCoefficient
    simp only
    rw [if_neg (by omega)]
    have hm : ∀ i ∈ List.range (narrowInt ((g.2.length + (SIZE_MOD - 1)) % SIZE_MOD)).toNat, i + 1 < g.2.length := by
      intro i hi
      have hi := List.mem_range.mp hi
      have hM : SIZE_MOD = 18446744073709551616 := by rfl
      have hle : narrowInt ((g.2.length + (SIZE_MOD - 1)) % SIZE_MOD) ≤ (((g.2.length + (SIZE_MOD - 1)) % SIZE_MOD : Nat) : Int) ∧
        (g.2.length = 0 → narrowInt ((g.2.length + (SIZE_MOD - 1)) % SIZE_MOD) < 0) := by
        unfold narrowInt
        rw [hM]
        constructor
        · simp only; split <;> omega
        · intro h0; rw [h0]; decide
      obtain ⟨hle, h0⟩ := hle
      rcases Nat.eq_zero_or_pos g.2.length with hz | hz
      · have := h0 hz; omega
      · have : (g.2.length + (SIZE_MOD - 1)) % SIZE_MOD ≤ g.2.length - 1 := by
          rw [show g.2.length + (SIZE_MOD - 1) = (g.2.length - 1) + SIZE_MOD by omega, Nat.add_mod_right]
          exact Nat.mod_le _ _
        omega
    have hloop : ∀ (l : List Nat) (x : R), (∀ i ∈ l, i + 1 < g.2.length) →
        ∃ y, forEach l x (lorenzStep g.1 g.2) = .ok y := by
      intro l
      induction l with
      | nil => intro x _; exact ⟨x, by simp⟩
      | cons i l ih =>
        intro x hl
        have hi := hl i (by simp)
        rw [forEach_cons]
        unfold lorenzStep
        rw [rd_ok (by omega : i + 1 < g.1.length), rd_ok (by omega : i < g.1.length), rd_ok hi, rd_ok (by omega : i < g.2.length)]
        simp only [Res.bind_eq, Res.pure_eq, Res.ok_bind]
        exact ih _ fun j hj => hl j (by simp [hj])
    obtain ⟨y, hy⟩ := hloop _ Arith.zero hm
    rw [hy]
    exact ⟨_, rfl⟩
  · intro h
    unfold lorenzCoefficient
    simp only
    rw [if_pos h]

/-- **C48** Sweep efficiency throws `runtime_error` exactly when the sizes differ; with equal sizes up to the largest
    `int` it returns. -/
theorem C48_sweep_sizes (g : Graph R) :
    (sweepEfficiency g = .throw .runtimeError ↔ g.2.length ≠ g.1.length) ∧
    (g.2.length = g.1.length → g.2.length ≤ INT_MAX → ∃ h, sweepEfficiency g = .ok h) := by
  have hstep : ∀ s i, 0 < i → i < g.2.length → g.2.length = g.1.length → ∃ s', sweepStep g.1 g.2 s i = .ok s' := by
    intro s i h0 hi h
    unfold sweepStep
    rw [rd_ok hi, rd_ok (by omega : i - 1 < g.2.length), rd_ok (by omega : i < g.1.length), rd_ok (by omega : i - 1 < g.1.length)]
    simp only [Res.bind_eq, Res.pure_eq, Res.ok_bind]
    split <;> exact ⟨_, rfl⟩
  have hstep' : ∀ s i, sweepStep g.1 g.2 s i ≠ .throw .runtimeError := by
    intro s i
    have hrd : ∀ (q : List R) j, (∃ x, rd q j = .ok x) ∨ ∃ u, rd q j = .ub u := by
      intro q j; unfold rd; cases q[j]? with
      | none => exact Or.inr ⟨_, rfl⟩
      | some x => exact Or.inl ⟨x, rfl⟩
    unfold sweepStep
    simp only [Res.bind_eq, Res.pure_eq]
    rcases hrd g.2 i with ⟨x, hx⟩ | ⟨u, hx⟩ <;> rw [hx] <;> simp only [Res.ok_bind, Res.ub_bind, ne_eq, reduceCtorEq, not_false_eq_true]
    rcases hrd g.2 (i - 1) with ⟨y, hy⟩ | ⟨u, hy⟩ <;> rw [hy] <;> simp only [Res.ok_bind, Res.ub_bind, ne_eq, reduceCtorEq, not_false_eq_true]
    rcases hrd g.1 i with ⟨z, hz⟩ | ⟨u, hz⟩ <;> rw [hz] <;> simp only [Res.ok_bind, Res.ub_bind, ne_eq, reduceCtorEq, not_false_eq_true]
    rcases hrd g.1 (i - 1) with ⟨w, hw⟩ | ⟨u, hw⟩ <;> rw [hw] <;> simp only [Res.ok_bind, Res.ub_bind, ne_eq, reduceCtorEq, not_false_eq_true]
    split <;> simp
  refine ⟨?_, ?_⟩
  · unfold sweepEfficiency
    by_cases h : g.2.length ≠ g.1.length
    · simp only; rw [if_pos h]; exact iff_of_true rfl h
    · simp only; rw [if_neg h]
      refine iff_of_false ?_ h
      split
      · simp
      · exact forEach_no_throw _ _ _ hstep'
  · intro h hn
    unfold sweepEfficiency
    simp only
    rw [if_neg (by omega), narrowInt_small hn, if_neg (by omega), Int.toNat_natCast]
    have hloop : ∀ (l : List Nat) s, (∀ i ∈ l, 0 < i ∧ i < g.2.length) → ∃ y, forEach l s (sweepStep g.1 g.2) = .ok y := by
      intro l
      induction l with
      | nil => intro s _; exact ⟨s, by simp⟩
      | cons i l ih =>
        intro s hl
        obtain ⟨h0, hi⟩ := hl i (by simp)
        obtain ⟨s', hs'⟩ := hstep s i h0 hi h
        rw [forEach_cons, hs', Res.ok_bind]
        exact ih _ fun j hj => hl j (by simp [hj])
    apply hloop
    intro i hi
    have h1 := List.mem_range.mp (List.mem_of_mem_drop hi)
    rw [List.range_eq_range', List.drop_range'] at hi
    have := List.mem_range'_1.mp hi
    omega

end

/-- Three cells, sizes as required, none of the values NaN. -/
example : ∃ (a b p : List (X ℚ)), p.length = a.length ∧ p.length = b.length ∧ p.length = 3 ∧
    (∀ x ∈ p, Arith.eq x x = true) ∧ ∀ x ∈ a, ∀ y ∈ b, Arith.eq (Arith.add x y) (Arith.add x y) = true := by
  refine ⟨arr 3 exCurve.inj, arr 3 exCurve.prod, arr 3 exCurve.pv, rfl, rfl, rfl, ?_, ?_⟩
  · intro x hx
    obtain ⟨v, _, rfl⟩ := List.mem_map.mp hx
    simp [X_eq]
  · intro x hx y hy
    obtain ⟨v, _, rfl⟩ := List.mem_map.mp hx
    obtain ⟨w, _, rfl⟩ := List.mem_map.mp hy
    simp [X_add, X_eq]

end Verif.Props
