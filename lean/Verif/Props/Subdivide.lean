/-
C100: the F-Phi curve, the Lorenz coefficient and sweep efficiency do not depend on how the volume is divided into cells.
-/
import Verif.Spec.Subdivide
import Verif.Props.Lorenz

namespace Verif.Props
open Verif.Spec Verif.Derived Verif.Solver Finset

variable {K : Type} [Field K] [LinearOrder K] [IsStrictOrderedRing K]
variable {I J : CurveInput K} {sort sort' : List (X K × X K) → List (X K × X K)} {whole : Nat → Nat}

/-! ### The broken line of an increasing sequence of travel times -/

section Seq
variable {n : Nat} {t p : Nat → K}

/-- The line of slope `1 / T` that touches the curve from above. -/
private def line (n : Nat) (t p : Nat → K) (T m : K) : K := m / T + ∑ j ∈ range n, p j * max 0 (1 / t j - 1 / T)

omit [LinearOrder K] [IsStrictOrderedRing K] in
private theorem sum_diff (i : Nat) (T : K) :
    S (rt t p) i - S p i / T = ∑ j ∈ range i, p j * (1 / t j - 1 / T) := by
  unfold S rt
  rw [sum_div, ← sum_sub_distrib]
  exact sum_congr rfl fun j _ => by rw [mul_sub, mul_one_div, mul_one_div]

private theorem below_line (h : Seq n t p) {i : Nat} (hi : i < n) {s T : K} (h0 : 0 ≤ s) (h1 : s ≤ 1) :
    S (rt t p) i + s * rt t p i ≤ line n t p T (S p i + s * p i) := by
  have e := sum_diff (t := t) (p := p) i T
  have e2 : ∑ j ∈ range i, p j * (1 / t j - 1 / T) ≤ ∑ j ∈ range i, p j * max 0 (1 / t j - 1 / T) :=
    sum_le_sum fun j hj => mul_le_mul_of_nonneg_left (le_max_right _ _) (h.p0 j (lt_trans (mem_range.mp hj) hi))
  have e3 : s * rt t p i - s * p i / T ≤ p i * max 0 (1 / t i - 1 / T) := by
    have hp := h.p0 i hi
    have : s * rt t p i - s * p i / T = p i * (s * (1 / t i - 1 / T)) := by unfold rt; ring
    rw [this]
    apply mul_le_mul_of_nonneg_left _ hp
    rcases le_total 0 (1 / t i - 1 / T) with hd | hd
    · rw [max_eq_right hd]; nlinarith
    · rw [max_eq_left hd]; nlinarith
  have e4 : ∑ j ∈ range (i + 1), p j * max 0 (1 / t j - 1 / T) ≤ ∑ j ∈ range n, p j * max 0 (1 / t j - 1 / T) := by
    apply sum_le_sum_of_subset_of_nonneg
    · intro k hk; rw [mem_range] at *; omega
    · intro k hk _; exact mul_nonneg (h.p0 k (mem_range.mp hk)) (le_max_left _ _)
  rw [sum_range_succ] at e4
  unfold line
  rw [add_div]
  linarith

private theorem on_line (h : Seq n t p) {i : Nat} (hi : i < n) (s : K) :
    S (rt t p) i + s * rt t p i = line n t p (t i) (S p i + s * p i) := by
  have e := sum_diff (t := t) (p := p) i (t i)
  have e2 : ∑ j ∈ range n, p j * max 0 (1 / t j - 1 / t i) = ∑ j ∈ range i, p j * (1 / t j - 1 / t i) := by
    rw [← sum_subset (s₁ := range i)]
    · apply sum_congr rfl
      intro j hj
      rw [max_eq_right]
      exact sub_nonneg.mpr (one_div_le_one_div_of_le (h.t0 j (lt_trans (mem_range.mp hj) hi)) (h.mono j i (mem_range.mp hj).le hi))
    · intro k hk; rw [mem_range] at *; omega
    · intro k hk hk2
      rw [mem_range] at hk hk2
      rw [max_eq_left, mul_zero]
      exact sub_nonpos.mpr (one_div_le_one_div_of_le (h.t0 i hi) (h.mono i k (by omega) hk))
  unfold line
  rw [add_div, e2, ← e]
  unfold rt
  ring

private theorem between (h : Seq n t p) {m : K} (h0 : 0 ≤ m) (h1 : m ≤ S p n) :
    ∃ i s, i < n ∧ 0 ≤ s ∧ s ≤ 1 ∧ m = S p i + s * p i := by
  have hn : 0 < n := by obtain ⟨j, hj, _⟩ := exists_pos h; omega
  have key : ∀ k ≤ n, 0 < k → m ≤ S p k → ∃ i < n, S p i ≤ m ∧ m ≤ S p (i + 1) := by
    intro k
    induction k with
    | zero => intro _ hk; omega
    | succ k ih =>
      intro hk _ hm
      by_cases hc : S p k ≤ m
      · exact ⟨k, hk, hc, hm⟩
      · push Not at hc
        by_cases hz : k = 0
        · subst hz
          have : S p 0 = 0 := by simp [S]
          linarith
        · exact ih (by omega) (by omega) hc.le
  obtain ⟨i, hi, ha, hb⟩ := key n le_rfl hn h1
  rw [S_succ] at hb
  by_cases hz : p i = 0
  · exact ⟨i, 0, hi, le_rfl, zero_le_one, by rw [hz] at hb ⊢; linarith⟩
  · have hp : 0 < p i := lt_of_le_of_ne (h.p0 i hi) (Ne.symm hz)
    refine ⟨i, (m - S p i) / p i, hi, div_nonneg (by linarith) hp.le, ?_, ?_⟩
    · rw [div_le_one hp]; linarith
    · rw [div_mul_cancel₀ _ hz]; ring

private theorem onLine_seq (h : Seq n t p) {x y : K} :
    OnLine (arr (n + 1) (Φ n p), arr (n + 1) (Φ n (rt t p))) x y ↔
      0 ≤ x ∧ x ≤ 1 ∧ (∀ T, 0 < T → S (rt t p) n * y ≤ line n t p T (S p n * x)) ∧
      ∃ T, 0 < T ∧ S (rt t p) n * y = line n t p T (S p n * x) := by
  have hP : 0 < S p n := h.pos
  have hQ := Q_pos h
  have hpt : ∀ i s, S p n * (Φ n p i + s * (Φ n p (i + 1) - Φ n p i)) = S p i + s * p i ∧
      S (rt t p) n * (Φ n (rt t p) i + s * (Φ n (rt t p) (i + 1) - Φ n (rt t p) i)) = S (rt t p) i + s * rt t p i := by
    intro i s
    constructor <;> (unfold Φ; rw [S_succ]; field_simp; ring)
  constructor
  · rintro ⟨i, a, b, c, d, s, ha, hb, hc, hd, h0, h1, rfl, rfl⟩
    have hi : i < n := by
      by_contra hlt
      rw [List.getElem?_eq_none (by rw [arr_length]; omega)] at hb
      cases hb
    rw [arr_getElem? _ (by omega)] at ha hb hc hd
    cases ha; cases hb; cases hc; cases hd
    obtain ⟨e1, e2⟩ := hpt i s
    have hm1 : 0 ≤ S p i := by have := S_mono h.p0 (Nat.zero_le i) hi.le; simpa [S] using this
    have hm2 : S p (i + 1) ≤ S p n := S_mono h.p0 hi le_rfl
    rw [S_succ] at hm2
    have hp := h.p0 i hi
    refine ⟨?_, ?_, ?_, ?_⟩
    · by_contra hneg
      push Not at hneg
      have := mul_neg_of_pos_of_neg hP hneg
      nlinarith
    · by_contra hneg
      push Not at hneg
      have := mul_lt_mul_of_pos_left hneg hP
      nlinarith
    · intro T _
      rw [e1, e2]
      exact below_line h hi h0 h1
    · exact ⟨t i, h.t0 i hi, by rw [e1, e2]; exact on_line h hi s⟩
  · rintro ⟨h0, h1, hall, T, hT, he⟩
    obtain ⟨i, s, hi, hs0, hs1, hm⟩ := between h (m := S p n * x) (mul_nonneg hP.le h0) (by nlinarith)
    obtain ⟨e1, e2⟩ := hpt i s
    refine ⟨i, _, _, _, _, s, arr_getElem? _ (by omega), arr_getElem? _ (by omega), arr_getElem? _ (by omega),
      arr_getElem? _ (by omega), hs0, hs1, ?_, ?_⟩
    · exact mul_left_cancel₀ hP.ne' (by rw [e1, hm])
    · apply mul_left_cancel₀ hQ.ne'
      rw [e2]
      apply le_antisymm
      · have := hall (t i) (h.t0 i hi)
        rwa [hm, ← on_line h hi s] at this
      · rw [he, hm]
        exact below_line h hi hs0 hs1

private theorem exists_onLine_seq (h : Seq n t p) {x : K} (h0 : 0 ≤ x) (h1 : x ≤ 1) :
    ∃ y, OnLine (arr (n + 1) (Φ n p), arr (n + 1) (Φ n (rt t p))) x y := by
  have hP : 0 < S p n := h.pos
  obtain ⟨i, s, hi, hs0, hs1, hm⟩ := between h (m := S p n * x) (mul_nonneg hP.le h0) (by nlinarith)
  refine ⟨_, i, _, _, _, _, s, arr_getElem? _ (by omega), arr_getElem? _ (by omega), arr_getElem? _ (by omega),
    arr_getElem? _ (by omega), hs0, hs1, mul_left_cancel₀ hP.ne' ?_, rfl⟩
  rw [hm]
  unfold Φ
  rw [S_succ]
  field_simp
  ring

end Seq

/-! ### The curve of some input as a set of points -/

/-- The line lies below all lines that touch the curve, and on one of them. -/
theorem onLine_curve (h : I.Valid) (hs : StdSort sort) {g : Graph (X K)} (hg : I.curve sort = .ok g) {x y : K} :
    OnLine g x y ↔ 0 ≤ x ∧ x ≤ 1 ∧
      (∀ T, 0 < T → I.rate * y ≤ I.volume * x / T + ∑ v ∈ range I.n with I.Kept v, I.pv v * max 0 (1 / I.time v - 1 / T)) ∧
      ∃ T, 0 < T ∧ I.rate * y = I.volume * x / T + ∑ v ∈ range I.n with I.Kept v, I.pv v * max 0 (1 / I.time v - 1 / T) := by
  obtain ⟨σ, hσ, hseq, hc⟩ := curve_valid h hs
  rw [hc] at hg
  cases hg
  have e : ∀ T : K, ∑ j ∈ range I.n, I.keptPv (σ j) * max 0 (1 / I.rank (σ j) - 1 / T)
      = ∑ v ∈ range I.n with I.Kept v, I.pv v * max 0 (1 / I.time v - 1 / T) := by
    intro T
    rw [order_sum hσ fun v => I.keptPv v * max 0 (1 / I.rank v - 1 / T), sum_filter]
    apply sum_congr rfl
    intro v _
    unfold CurveInput.keptPv CurveInput.rank
    by_cases hk : I.Kept v <;> simp [hk]
  rw [onLine_seq hseq, S_volume hσ, S_rate hσ]
  simp only [line, e]

/-- There is a point on the line for each storage capacity. -/
theorem exists_onLine (h : I.Valid) (hs : StdSort sort) {g : Graph (X K)} (hg : I.curve sort = .ok g) {x : K} (h0 : 0 ≤ x) (h1 : x ≤ 1) :
    ∃ y, OnLine g x y := by
  obtain ⟨σ, hσ, hseq, hc⟩ := curve_valid h hs
  rw [hc] at hg
  cases hg
  exact exists_onLine_seq hseq h0 h1

/-! ### Subdivision -/

omit [IsStrictOrderedRing K] in
/-- Sums over the parts are sums over the cells. -/
theorem _root_.Verif.Spec.CurveInput.Subdivided.sum (h : I.Subdivided whole J) (f : K → K) :
    ∑ u ∈ range J.n with J.Kept u, J.pv u * f (J.time u) = ∑ v ∈ range I.n with I.Kept v, I.pv v * f (I.time v) := by
  rw [← sum_fiberwise_of_maps_to (g := whole) (t := (range I.n).filter fun v => I.Kept v)]
  · apply sum_congr rfl
    intro v hv
    rw [mem_filter, mem_range] at hv
    rw [← h.pv_sum v hv.1, sum_mul]
    apply sum_congr
    · ext u
      simp only [mem_filter, mem_range]
      constructor
      · rintro ⟨⟨a, _⟩, b⟩; exact ⟨a, b⟩
      · rintro ⟨a, b⟩; exact ⟨⟨a, (h.kept u a).mpr (b ▸ hv.2)⟩, b⟩
    · intro u hu
      rw [mem_filter, mem_range] at hu
      rw [h.time u hu.1, hu.2]
  · intro u hu
    rw [mem_filter, mem_range] at hu ⊢
    exact ⟨h.cell u hu.1, (h.kept u hu.1).mp hu.2⟩

omit [IsStrictOrderedRing K] in
theorem _root_.Verif.Spec.CurveInput.Subdivided.volume (h : I.Subdivided whole J) : J.volume = I.volume := by
  have := h.sum fun _ => 1
  simpa [CurveInput.volume] using this

omit [IsStrictOrderedRing K] in
theorem _root_.Verif.Spec.CurveInput.Subdivided.rate (h : I.Subdivided whole J) : J.rate = I.rate := by
  have := h.sum fun x => x⁻¹
  simpa [CurveInput.rate, div_eq_mul_inv] using this

omit [IsStrictOrderedRing K] in
theorem _root_.Verif.Spec.CurveInput.Subdivided.swept (h : I.Subdivided whole J) (t : K) : J.swept t = I.swept t :=
  h.sum fun x => min 1 (t / x)

theorem _root_.Verif.Spec.CurveInput.Subdivided.part (h : I.Subdivided whole J) {v : Nat} (hk : I.Kept v)
    (hp : 0 < I.pv v) : ∃ u, J.Kept u ∧ 0 < J.pv u ∧ whole u = v := by
  rw [← h.pv_sum v hk.1] at hp
  obtain ⟨u, hu, hpos⟩ := exists_lt_of_sum_lt (s := (range J.n).filter fun u => whole u = v) (f := fun _ => (0 : K))
    (g := fun u => J.pv u) (by simpa using hp)
  rw [mem_filter, mem_range] at hu
  exact ⟨u, (h.kept u hu.1).mpr (hu.2 ▸ hk), hpos, hu.2⟩

theorem _root_.Verif.Spec.CurveInput.Subdivided.whole_pos (h : I.Subdivided whole J) {u : Nat} (hk : J.Kept u)
    (hp : 0 < J.pv u) : I.Kept (whole u) ∧ 0 < I.pv (whole u) := by
  refine ⟨(h.kept u hk.1).mp hk, ?_⟩
  rw [← h.pv_sum _ (h.cell u hk.1)]
  refine sum_pos' (fun w hw => h.pv_nonneg w (mem_range.mp (mem_filter.mp hw).1)) ⟨u, ?_, hp⟩
  rw [mem_filter, mem_range]
  exact ⟨hk.1, rfl⟩

theorem _root_.Verif.Spec.CurveInput.Subdivided.valid (hI : I.Valid) (h : I.Subdivided whole J) : J.Valid := by
  refine ⟨h.int, h.pv_nonneg, ?_, ?_⟩
  · intro u hu
    rw [h.time u hu.1]
    exact hI.time _ ((h.kept u hu.1).mp hu)
  · obtain ⟨v, hk, hp⟩ := hI.some_pv
    obtain ⟨u, a, b, _⟩ := h.part hk hp
    exact ⟨u, a, b⟩

/-- **C100** The F-Phi curve of the subdivided grid is the same line. -/
theorem C100_curve (hI : I.Valid) (h : I.Subdivided whole J) (hs : StdSort sort) (hs' : StdSort sort') :
    ∃ g g', I.curve sort = .ok g ∧ J.curve sort' = .ok g' ∧ ∀ x y, OnLine g x y ↔ OnLine g' x y := by
  have hJ := h.valid hI
  obtain ⟨g, hg, _⟩ := C83_meanDifference hI hs
  obtain ⟨g', hg', _⟩ := C83_meanDifference hJ hs'
  refine ⟨g, g', hg, hg', fun x y => ?_⟩
  rw [onLine_curve hI hs hg, onLine_curve hJ hs' hg', h.volume, h.rate]
  have e : ∀ T : K, ∑ v ∈ range J.n with J.Kept v, J.pv v * max 0 (1 / J.time v - 1 / T)
      = ∑ v ∈ range I.n with I.Kept v, I.pv v * max 0 (1 / I.time v - 1 / T) := fun T => h.sum fun x => max 0 (1 / x - 1 / T)
  simp only [e]

/-- **C100** The Lorenz coefficient of the subdivided grid is the same. -/
theorem C100_lorenz (hI : I.Valid) (h : I.Subdivided whole J) (hs : StdSort sort) (hs' : StdSort sort') :
    ∃ g g' L, I.curve sort = .ok g ∧ J.curve sort' = .ok g' ∧ lorenzCoefficient g = .ok (X.fin L) ∧
      lorenzCoefficient g' = .ok (X.fin L) := by
  obtain ⟨g, hg, hl⟩ := C83_meanDifference hI hs
  obtain ⟨g', hg', hl'⟩ := C83_meanDifference (h.valid hI) hs'
  refine ⟨g, g', _, hg, hg', hl, ?_⟩
  rw [hl', h.volume, h.rate]
  have e : ∀ a : K, ∑ v ∈ range J.n with J.Kept v, J.pv v * |1 / a - 1 / J.time v|
      = ∑ v ∈ range I.n with I.Kept v, I.pv v * |1 / a - 1 / I.time v| := fun a => h.sum fun x => |1 / a - 1 / x|
  have e2 := h.sum fun a => ∑ v ∈ range I.n with I.Kept v, I.pv v * |1 / a - 1 / I.time v|
  simp only [mul_assoc, ← mul_sum] at e2 ⊢
  simp only [e, e2]

/-- **C100** The points of the sweep efficiency curve of the subdivided grid are the same. -/
theorem C100_sweep (hI : I.Valid) (h : I.Subdivided whole J) (hi : I.n < INT_MAX) (hj : J.n < INT_MAX) (hs : StdSort sort)
    (hs' : StdSort sort') :
    ∃ g g' tD Ev tD' Ev', I.curve sort = .ok g ∧ J.curve sort' = .ok g' ∧ sweepEfficiency g = .ok (tD, Ev) ∧
      sweepEfficiency g' = .ok (tD', Ev') ∧ ∀ x y, (x, y) ∈ tD.zip Ev ↔ (x, y) ∈ tD'.zip Ev' := by
  obtain ⟨g, cs, hg, _, hcs, hw⟩ := C47_points hI hi hs
  obtain ⟨g', cs', hg', _, hcs', hw'⟩ := C47_points (h.valid hI) hj hs'
  refine ⟨g, g', _, _, _, _, hg, hg', hw, hw', fun x y => ?_⟩
  have hz : ∀ (l : List Nat) (f k : Nat → X K), (l.map f).zip (l.map k) = l.map fun v => (f v, k v) := by
    intro l f k
    induction l with
    | nil => rfl
    | cons a l ih => simp [ih]
  simp only [List.zip_cons_cons, hz, List.mem_cons, List.mem_map, h.volume, h.rate, h.swept]
  apply or_congr Iff.rfl
  constructor
  · rintro ⟨v, hv, e⟩
    rw [hcs] at hv
    obtain ⟨u, a, b, c⟩ := h.part hv.1 hv.2
    refine ⟨u, (hcs' u).mpr ⟨a, b⟩, ?_⟩
    rw [h.time u a.1, c]; exact e
  · rintro ⟨u, hu, e⟩
    rw [hcs'] at hu
    refine ⟨whole u, (hcs _).mpr (h.whole_pos hu.1 hu.2), ?_⟩
    rw [← h.time u hu.1.1]; exact e

/-! ### Non-vacuity -/

/-- The three cells of the earlier examples, the first one divided into parts of pore volume 1/2 and 3/2. -/
def exParts : CurveInput ℚ :=
  { n := 4
    inj := fun u => if u = 0 then 1 else if u = 1 then 2 else 1
    prod := fun u => if u = 2 then 5 else 1
    pv := fun u => if u = 0 then 1 / 2 else if u = 1 then 1 else if u = 2 then 100 else 3 / 2
    frac := 1 / 2 }

def exWhole (u : Nat) : Nat := if u = 3 then 0 else u

example : exCurve.Valid ∧ exCurve.Subdivided exWhole exParts ∧ exCurve.n < INT_MAX ∧ exParts.n < INT_MAX ∧
    StdSort (mergeSort (K := ℚ)) := by
  have hkept : ∀ u, exParts.Kept u ↔ u < 4 ∧ u ≠ 2 := by
    intro u
    unfold CurveInput.Kept
    have : ∑ u ∈ range exParts.n, exParts.pv u = 103 := by
      change ∑ u ∈ range 4, exParts.pv u = 103
      simp only [sum_range_succ, sum_range_zero]; norm_num [exParts]
    rw [this]
    constructor
    · rintro ⟨h1, h2⟩
      refine ⟨h1, ?_⟩
      rintro rfl
      norm_num [exParts] at h2
    · rintro ⟨h1, h2⟩
      refine ⟨h1, ?_⟩
      interval_cases u <;> first | omega | norm_num [exParts]
  refine ⟨exCurve_valid, ⟨by decide, ?_, ?_, ?_, ?_, ?_⟩, by decide, by decide, stdSort_mergeSort⟩
  · intro u hu
    have : u < 4 := hu
    interval_cases u <;> decide
  · intro u hu
    have : u < 4 := hu
    interval_cases u <;> norm_num [CurveInput.time, exParts, exCurve, exWhole]
  · intro u hu
    rw [hkept, exCurve_kept]
    have : u < 4 := hu
    interval_cases u <;> decide
  · intro u hu
    have : u < 4 := hu
    interval_cases u <;> norm_num [exParts]
  · intro v hv
    have : v < 3 := hv
    change ∑ u ∈ range 4 with exWhole u = v, exParts.pv u = exCurve.pv v
    rw [sum_filter]
    simp only [sum_range_succ, sum_range_zero]
    interval_cases v <;> norm_num [exParts, exCurve, exWhole]

end Verif.Props
