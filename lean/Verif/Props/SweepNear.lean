/-
C47, C107: the broken line of sweep efficiency, and how it changes if the data change.
-/
import Verif.Props.CurveNear

namespace Verif.Props
open Verif.Spec Verif.Toolbox Verif.Solver Verif.Derived Finset

variable {K : Type} [Field K] [LinearOrder K] [IsStrictOrderedRing K] {r s : K}
variable {I J : CurveInput K} {sort sort' : List (X K × X K) → List (X K × X K)}

/-- The filled fraction of a cell is linear where its travel time is not passed. -/
theorem min_linear {a b τ q : K} (hab : a ≤ b) (hτ : 0 < τ) (h0 : 0 ≤ q) (h1 : q ≤ 1) (h : τ ≤ a ∨ b ≤ τ) :
    min 1 ((a + q * (b - a)) / τ) = min 1 (a / τ) + q * (min 1 (b / τ) - min 1 (a / τ)) := by
  have hd := sub_nonneg.mpr hab
  have e := mul_nonneg h0 hd
  have e' := mul_nonneg (sub_nonneg.mpr h1) hd
  rcases h with h | h
  · rw [min_eq_left ((one_le_div hτ).mpr h), min_eq_left ((one_le_div hτ).mpr (h.trans hab)),
      min_eq_left ((one_le_div hτ).mpr (by linarith))]
    ring
  · rw [min_eq_right ((div_le_one hτ).mpr h), min_eq_right ((div_le_one hτ).mpr (hab.trans h)),
      min_eq_right ((div_le_one hτ).mpr (by linarith))]
    ring

theorem swept_zero : I.swept 0 = 0 := by
  unfold CurveInput.swept
  exact sum_eq_zero fun v _ => by rw [zero_div, min_eq_right zero_le_one, mul_zero]

omit [Field K] [IsStrictOrderedRing K] in
/-- A value between the first and another element of a sequence is between two neighbours. -/
theorem between_neighbours (f : Nat → K) {x : K} (h0 : f 0 ≤ x) : ∀ k, x ≤ f (k + 1) → ∃ i ≤ k, f i ≤ x ∧ x ≤ f (i + 1)
  | 0, h => ⟨0, le_rfl, h0, h⟩
  | k + 1, h => by
    rcases le_total (f (k + 1)) x with h' | h'
    · exact ⟨k + 1, le_rfl, h', h⟩
    · obtain ⟨i, a, b⟩ := between_neighbours f h0 k h'
      exact ⟨i, a.trans (Nat.le_succ k), b⟩

/-- **C47** Sweep efficiency between the points: on the broken line through the points the efficiency at the time `x`, in units of volume by
    rate, is the fraction of pore volume filled at that time.  The line extends to the travel time of each contributing cell. -/
theorem C47_line (h : I.Valid) (hn : I.n < INT_MAX) (hs : StdSort sort) :
    ∃ g w, I.curve sort = .ok g ∧ sweepEfficiency g = .ok w ∧
      (∀ x y, OnLine w x y → 0 ≤ x ∧ y = I.swept (x * I.volume / I.rate) / I.volume) ∧
      ∀ v, I.Kept v → 0 < I.pv v → ∀ x, 0 ≤ x → x ≤ I.time v * I.rate / I.volume → ∃ y, OnLine w x y := by
  obtain ⟨g, cells, hg, _, hcells, hw⟩ := C47_points h hn hs
  obtain ⟨g2, tD, Ev, hg2, hw2, _, _, _, hmono, _⟩ := C47_sweep h hn hs
  rw [hg] at hg2; cases hg2
  obtain ⟨V0, R0⟩ := volume_pos h
  set τ : List K := 0 :: cells.map I.time with hτ
  have e1 : (X.fin 0 :: cells.map fun v => X.fin (I.time v * I.rate / I.volume)) = τ.map fun t => X.fin (t * I.rate / I.volume) := by
    rw [hτ, List.map_cons, zero_mul, zero_div, List.map_map]; rfl
  have e2 : (X.fin 0 :: cells.map fun v => X.fin (I.swept (I.time v) / I.volume)) = τ.map fun t => X.fin (I.swept t / I.volume) := by
    rw [hτ, List.map_cons, swept_zero, zero_div, List.map_map]; rfl
  rw [e1, e2] at hw
  have hfin : Function.Injective (X.fin : K → X K) := fun a b e => by injection e
  have htD : tD = τ.map fun t => t * I.rate / I.volume := by
    rw [hw] at hw2
    injection hw2 with hw2
    have := (Prod.mk.inj hw2).1
    apply List.map_injective_iff.mpr hfin
    rw [← this, List.map_map]; rfl
  have hsorted : τ.Pairwise (· ≤ ·) := by
    rw [htD, List.pairwise_map] at hmono
    refine hmono.imp fun {a b} hab => ?_
    rw [div_le_div_iff_of_pos_right V0] at hab
    exact le_of_mul_le_mul_right hab R0
  have hle : ∀ i j (hi : i < τ.length) (hj : j < τ.length), i ≤ j → τ[i] ≤ τ[j] := by
    intro i j hi hj hij
    rcases hij.eq_or_lt with rfl | hij
    · exact le_rfl
    · exact List.pairwise_iff_getElem.mp hsorted i j hi hj hij
  refine ⟨g, _, hg, hw, ?_, ?_⟩
  · rintro x y ⟨i, a, b, c, d, q, ha, hb, hc, hd, h0, h1, rfl, rfl⟩
    have hi : i + 1 < τ.length := by
      by_contra hlt
      rw [List.getElem?_eq_none (by rw [List.length_map]; omega)] at hb
      cases hb
    have hi' : i < τ.length := by omega
    simp only [List.getElem?_map, List.getElem?_eq_getElem hi, List.getElem?_eq_getElem hi', Option.map_some, Option.some.injEq, X.fin.injEq] at ha hb hc hd
    have hab : τ[i] ≤ τ[i + 1] := hle _ _ hi' hi (Nat.le_succ i)
    have h00 : 0 ≤ τ[i] := hle 0 i (by omega) hi' (Nat.zero_le i)
    have ex : (a + q * (b - a)) * I.volume / I.rate = τ[i] + q * (τ[i + 1] - τ[i]) := by
      rw [← ha, ← hb]
      have := V0.ne'
      have := R0.ne'
      field_simp
    refine ⟨?_, ?_⟩
    · have : a + q * (b - a) = (τ[i] + q * (τ[i + 1] - τ[i])) * I.rate / I.volume := by rw [← ha, ← hb]; ring
      rw [this]
      exact div_nonneg (mul_nonneg (add_nonneg h00 (mul_nonneg h0 (sub_nonneg.mpr hab))) R0.le) V0.le
    · rw [ex]
      have key : I.swept (τ[i] + q * (τ[i + 1] - τ[i])) = I.swept τ[i] + q * (I.swept τ[i + 1] - I.swept τ[i]) := by
        unfold CurveInput.swept
        rw [← sum_sub_distrib, mul_sum, ← sum_add_distrib]
        refine sum_congr rfl fun v hv => ?_
        obtain ⟨hv1, hv2⟩ := mem_filter.mp hv
        rcases (h.pv v (mem_range.mp hv1)).eq_or_lt with hz | hz
        · rw [← hz]; ring
        · obtain ⟨k, hk, hkv⟩ := List.mem_iff_getElem.mp ((hcells v).mpr ⟨hv2, hz⟩)
          have hk1 : k + 1 < τ.length := by rw [hτ, List.length_cons, List.length_map]; omega
          have hτk : τ[k + 1] = I.time v := by
            simp only [hτ, List.getElem_cons_succ, List.getElem_map, hkv]
          rw [min_linear hab (h.time v hv2) h0 h1 (by
            rcases Nat.lt_or_ge i (k + 1) with hik | hik
            · right; rw [← hτk]; exact hle _ _ hi hk1 hik
            · left; rw [← hτk]; exact hle _ _ hk1 hi' hik)]
          ring
      rw [key, ← hc, ← hd]
      ring
  · intro v hv hp x h0 h1
    obtain ⟨k, hk, hkv⟩ := List.mem_iff_getElem.mp ((hcells v).mpr ⟨hv, hp⟩)
    have hk1 : k + 1 < τ.length := by rw [hτ, List.length_cons, List.length_map]; omega
    have hτk : τ[k + 1] = I.time v := by
      simp only [hτ, List.getElem_cons_succ, List.getElem_map, hkv]
    obtain ⟨i, hik, ha, hb⟩ := between_neighbours (fun j => τ.getD j 0 * I.rate / I.volume) (x := x)
      (by simp [hτ, h0]) k (by rw [List.getD_eq_getElem _ _ hk1, hτk]; exact h1)
    have hi : i + 1 < τ.length := by omega
    have hi' : i < τ.length := by omega
    rw [List.getD_eq_getElem _ _ hi'] at ha
    rw [List.getD_eq_getElem _ _ hi] at hb
    obtain ⟨q, q0, q1, hq⟩ : ∃ q, 0 ≤ q ∧ q ≤ 1 ∧
        x = τ[i] * I.rate / I.volume + q * (τ[i + 1] * I.rate / I.volume - τ[i] * I.rate / I.volume) := by
      rcases (ha.trans hb).eq_or_lt with he | he
      · exact ⟨0, le_rfl, zero_le_one, by rw [zero_mul, add_zero]; exact le_antisymm (he ▸ hb) ha⟩
      · have hd := sub_pos.mpr he
        refine ⟨(x - τ[i] * I.rate / I.volume) / (τ[i + 1] * I.rate / I.volume - τ[i] * I.rate / I.volume),
          div_nonneg (sub_nonneg.mpr ha) hd.le, (div_le_one hd).mpr (by linarith), ?_⟩
        rw [div_mul_cancel₀ _ hd.ne']; ring
    refine ⟨_, i, _, _, I.swept τ[i] / I.volume, I.swept τ[i + 1] / I.volume, q, ?_, ?_, ?_, ?_, q0, q1, hq, rfl⟩ <;>
      simp only [List.getElem?_map, List.getElem?_eq_getElem hi, List.getElem?_eq_getElem hi', Option.map_some]

/-- One half of the bound. -/
theorem swept_le (hI : I.Valid) (hJ : J.Valid) (hr : 1 ≤ r) (hs : 1 ≤ s) (hn : J.n = I.n) (hkept : ∀ v, J.Kept v ↔ I.Kept v)
    (hpv : ∀ v, I.Kept v → WithinFactor s (I.pv v) (J.pv v)) (ht : ∀ v, I.Kept v → WithinFactor r (I.time v) (J.time v)) {x : K} (hx : 0 ≤ x) :
    J.swept (x * J.volume / J.rate) / J.volume ≤ s ^ 4 * r ^ 2 * (I.swept (x * I.volume / I.rate) / I.volume) := by
  have hr0 : 0 < r := lt_of_lt_of_le one_pos hr
  have hs0 : 0 < s := lt_of_lt_of_le one_pos hs
  obtain ⟨v1, r1⟩ := volume_pos hI
  obtain ⟨v2, r2⟩ := volume_pos hJ
  have hA : (range J.n).filter J.Kept = (range I.n).filter I.Kept := by
    rw [hn]; exact filter_congr fun v _ => hkept v
  have mem : ∀ v ∈ (range I.n).filter I.Kept, v < I.n ∧ I.Kept v := fun v hv =>
    ⟨mem_range.mp (mem_filter.mp hv).1, (mem_filter.mp hv).2⟩
  have t1 : ∀ v ∈ (range I.n).filter I.Kept, 0 < I.time v := fun v hv => hI.time v (mem v hv).2
  have t2 : ∀ v ∈ (range I.n).filter I.Kept, 0 < J.time v := fun v hv => hJ.time v ((hkept v).mpr (mem v hv).2)
  have p2 : ∀ v ∈ (range I.n).filter I.Kept, 0 ≤ J.pv v := fun v hv => hJ.pv v (hn.symm ▸ (mem v hv).1)
  have hV : J.volume ≤ s * I.volume := by
    unfold CurveInput.volume
    rw [hA, mul_sum]
    exact sum_le_sum fun v hv => (hpv v (mem v hv).2).2
  have hV' : I.volume ≤ s * J.volume := by
    unfold CurveInput.volume
    rw [hA, mul_sum]
    exact sum_le_sum fun v hv => (hpv v (mem v hv).2).1
  have hR : I.rate ≤ s * r * J.rate := by
    unfold CurveInput.rate
    rw [hA, mul_sum]
    refine sum_le_sum fun v hv => ?_
    have e := ((ht v (mem v hv).2).inv (t1 v hv) (t2 v hv)).1
    calc I.pv v / I.time v = I.pv v * (1 / I.time v) := by rw [mul_one_div]
      _ ≤ (s * J.pv v) * (r * (1 / J.time v)) :=
        mul_le_mul (hpv v (mem v hv).2).1 e (one_div_nonneg.mpr (t1 v hv).le) (mul_nonneg hs0.le (p2 v hv))
      _ = s * r * (J.pv v / J.time v) := by ring
  have hc : 1 ≤ s ^ 2 * r ^ 2 := one_le_mul_of_one_le_of_one_le (one_le_pow₀ hs) (one_le_pow₀ hr)
  have hscale : x * J.volume / J.rate ≤ s ^ 2 * r * (x * I.volume / I.rate) := by
    rw [div_le_iff₀ r2]
    calc x * J.volume ≤ x * (s * I.volume) := mul_le_mul_of_nonneg_left hV hx
      _ = s * (x * I.volume / I.rate) * I.rate := by field_simp
      _ ≤ s * (x * I.volume / I.rate) * (s * r * J.rate) :=
        mul_le_mul_of_nonneg_left hR (mul_nonneg hs0.le (div_nonneg (mul_nonneg hx v1.le) r1.le))
      _ = _ := by ring
  have hT : 0 ≤ x * I.volume / I.rate := div_nonneg (mul_nonneg hx v1.le) r1.le
  have hsw : J.swept (x * J.volume / J.rate) ≤ s ^ 3 * r ^ 2 * I.swept (x * I.volume / I.rate) := by
    unfold CurveInput.swept
    rw [hA, mul_sum]
    refine sum_le_sum fun v hv => ?_
    have e := ((ht v (mem v hv).2).inv (t1 v hv) (t2 v hv)).2
    have e1 : x * J.volume / J.rate / J.time v ≤ s ^ 2 * r ^ 2 * (x * I.volume / I.rate / I.time v) := by
      calc x * J.volume / J.rate / J.time v = x * J.volume / J.rate * (1 / J.time v) := by rw [mul_one_div]
        _ ≤ (s ^ 2 * r * (x * I.volume / I.rate)) * (r * (1 / I.time v)) :=
          mul_le_mul hscale e (one_div_nonneg.mpr (t2 v hv).le) (by positivity)
        _ = _ := by ring
    have e0 : 0 ≤ x * I.volume / I.rate / I.time v := div_nonneg hT (t1 v hv).le
    have e2 : min 1 (x * J.volume / J.rate / J.time v) ≤ s ^ 2 * r ^ 2 * min 1 (x * I.volume / I.rate / I.time v) := by
      rcases le_total 1 (x * I.volume / I.rate / I.time v) with hm | hm
      · rw [min_eq_left hm, mul_one]; exact (min_le_left _ _).trans hc
      · rw [min_eq_right hm]; exact (min_le_right _ _).trans e1
    calc J.pv v * min 1 (x * J.volume / J.rate / J.time v)
        ≤ (s * I.pv v) * (s ^ 2 * r ^ 2 * min 1 (x * I.volume / I.rate / I.time v)) := by
          refine mul_le_mul (hpv v (mem v hv).2).2 e2 (le_min zero_le_one ?_) (mul_nonneg hs0.le (hI.pv v (mem v hv).1))
          exact div_nonneg (div_nonneg (mul_nonneg hx v2.le) r2.le) (t2 v hv).le
      _ = _ := by ring
  have h0 : 0 ≤ I.swept (x * I.volume / I.rate) :=
    sum_nonneg fun v hv => mul_nonneg (hI.pv v (mem v hv).1) (le_min zero_le_one (div_nonneg hT (t1 v hv).le))
  rw [div_le_iff₀ v2]
  calc J.swept (x * J.volume / J.rate) ≤ s ^ 3 * r ^ 2 * I.swept (x * I.volume / I.rate) := hsw
    _ = s ^ 3 * r ^ 2 * (I.swept (x * I.volume / I.rate) / I.volume) * I.volume := by field_simp
    _ ≤ s ^ 3 * r ^ 2 * (I.swept (x * I.volume / I.rate) / I.volume) * (s * J.volume) :=
      mul_le_mul_of_nonneg_left hV' (mul_nonneg (by positivity) (div_nonneg h0 v1.le))
    _ = _ := by ring

/-- **C107** Under the same conditions sweep efficiency, as a function of dimensionless time, changes at most by the factor `s⁴ r²`. -/
theorem C107_sweep (hI : I.Valid) (hJ : J.Valid) (hr : 1 ≤ r) (hs : 1 ≤ s) (hn : J.n = I.n) (hmax : I.n < INT_MAX)
    (hkept : ∀ v, J.Kept v ↔ I.Kept v) (hpv : ∀ v, I.Kept v → WithinFactor s (I.pv v) (J.pv v))
    (ht : ∀ v, I.Kept v → WithinFactor r (I.time v) (J.time v)) (hsort : StdSort sort) (hsort' : StdSort sort') :
    ∃ g g' w w', I.curve sort = .ok g ∧ J.curve sort' = .ok g' ∧ sweepEfficiency g = .ok w ∧ sweepEfficiency g' = .ok w' ∧
      (∀ v, I.Kept v → 0 < I.pv v → ∀ x, 0 ≤ x → x ≤ I.time v * I.rate / I.volume → x ≤ J.time v * J.rate / J.volume →
        ∃ y y', OnLine w x y ∧ OnLine w' x y') ∧
      ∀ x y y', OnLine w x y → OnLine w' x y' → WithinFactor (s ^ 4 * r ^ 2) y y' := by
  obtain ⟨g, w, hg, hw, hl, he⟩ := C47_line hI hmax hsort
  obtain ⟨g', w', hg', hw', hl', he'⟩ := C47_line hJ (hn ▸ hmax) hsort'
  refine ⟨g, g', w, w', hg, hg', hw, hw', fun v hv hp x h0 h1 h2 => ?_, fun x y y' h h' => ?_⟩
  · obtain ⟨y, hy⟩ := he v hv hp x h0 h1
    obtain ⟨y', hy'⟩ := he' v ((hkept v).mpr hv) (((hpv v hv).pos hs).mp hp) x h0 h2
    exact ⟨y, y', hy, hy'⟩
  obtain ⟨hx, rfl⟩ := hl x y h
  obtain ⟨_, rfl⟩ := hl' x y' h'
  exact ⟨swept_le hJ hI hr hs hn.symm (fun v => (hkept v).symm) (fun v hv => (hpv v ((hkept v).mp hv)).symm)
      (fun v hv => (ht v ((hkept v).mp hv)).symm) hx,
    swept_le hI hJ hr hs hn hkept hpv ht hx⟩

/-- C107: two inputs with another pore volume in the last cell have points at the time 1/2 on the lines of their sweep efficiencies. -/
example : ∃ g g' w w', (exEdge (1 / 2)).curve mergeSort = .ok g ∧ (exEdge (3 / 4)).curve mergeSort = .ok g' ∧ sweepEfficiency g = .ok w ∧
    sweepEfficiency g' = .ok w' ∧ ∃ y y', OnLine w (1 / 2) y ∧ OnLine w' (1 / 2) y' ∧ WithinFactor ((3 / 2) ^ 4 * 1 ^ 2) y y' := by
  have v1 : (exEdge (1 / 2)).Valid := exEdge_valid (by norm_num)
  have v2 : (exEdge (3 / 4)).Valid := exEdge_valid (by norm_num)
  have hk : ∀ v, (exEdge (3 / 4)).Kept v ↔ (exEdge (1 / 2)).Kept v := fun v => by rw [exEdge_kept, exEdge_kept]; norm_num
  have h2 : (exEdge (1 / 2)).Kept 2 := (exEdge_kept 2).mpr (by norm_num)
  have all : ∀ a : ℚ, 0 < a → a ≤ 1 → (range (exEdge a).n).filter (exEdge a).Kept = range 3 := fun a h0 h1 => by
    ext v
    rw [mem_filter, mem_range, mem_range, exEdge_kept]
    show v < 3 ∧ _ ↔ _
    constructor
    · exact fun h => h.1
    · exact fun h => ⟨h, h, fun _ => h1, fun _ => h0.le⟩
  have hx : ∀ a : ℚ, 0 < a → a ≤ 1 → 1 / 2 ≤ (exEdge a).time 2 * (exEdge a).rate / (exEdge a).volume := fun a h0 h1 => by
    obtain ⟨V0, _⟩ := volume_pos (exEdge_valid h0)
    rw [le_div_iff₀ V0]
    unfold CurveInput.volume CurveInput.rate
    rw [all a h0 h1]
    simp only [sum_range_succ, sum_range_zero, CurveInput.time, exEdge]
    norm_num
    linarith
  obtain ⟨g, g', w, w', a, b, c, d, e0, e⟩ := C107_sweep (r := 1) (s := 3 / 2) v1 v2 le_rfl (by norm_num) rfl (by decide) hk
    (fun v _ => by
      show WithinFactor (3 / 2) (if v = 2 then 2 * (1 / 2) else 1) (if v = 2 then 2 * (3 / 4) else 1)
      unfold WithinFactor
      split <;> norm_num)
    (fun v _ => ⟨by rw [one_mul]; exact le_of_eq rfl, by rw [one_mul]; exact le_of_eq rfl⟩) stdSort_mergeSort stdSort_mergeSort
  obtain ⟨y, y', hy, hy'⟩ := e0 2 h2 (by norm_num [exEdge]) (1 / 2) (by norm_num) (hx _ (by norm_num) (by norm_num)) (hx _ (by norm_num) (by norm_num))
  exact ⟨g, g', w, w', a, b, c, d, y, y', hy, hy', e _ _ _ hy hy'⟩

end Verif.Props
