/-
The F-Phi curve of valid input and what is computed from it.
-/
import Verif.Proofs.DerivedCurve
import Verif.Proofs.DerivedSeq
import Mathlib.Data.List.GetD

namespace Verif.Derived
open Verif.Spec Verif.Solver Finset

variable {K : Type} [Field K] [LinearOrder K]

/-- Sums in another order. -/
theorem order_sum {n : Nat} {σ : Nat → Nat} (h : Order n σ) (f : Nat → K) :
    ∑ j ∈ range n, f (σ j) = ∑ v ∈ range n, f v := by
  have himg : (range n).image σ = range n := by
    apply eq_of_subset_of_card_le
    · intro v hv
      obtain ⟨u, hu, rfl⟩ := mem_image.mp hv
      exact mem_range.mpr (h.1 u (mem_range.mp hu))
    · rw [card_image_of_injOn]
      intro u hu v hv e
      exact h.2 u (by simpa using hu) v (by simpa using hv) e
  conv_rhs => rw [← himg]
  rw [sum_image]
  intro u hu v hv e
  exact h.2 u (by simpa using hu) v (by simpa using hv) e

theorem order_surj {n : Nat} {σ : Nat → Nat} (h : Order n σ) {v : Nat} (hv : v < n) : ∃ j < n, σ j = v := by
  have himg : (range n).image σ = range n := by
    apply eq_of_subset_of_card_le
    · intro v hv
      obtain ⟨u, hu, rfl⟩ := mem_image.mp hv
      exact mem_range.mpr (h.1 u (mem_range.mp hu))
    · rw [card_image_of_injOn]
      intro u hu v hv e
      exact h.2 u (by simpa using hu) v (by simpa using hv) e
  have : v ∈ (range n).image σ := by rw [himg]; exact mem_range.mpr hv
  obtain ⟨j, hj, e⟩ := mem_image.mp this
  exact ⟨j, mem_range.mp hj, e⟩

/-- A rearrangement of a mapped range. -/
theorem perm_order {α : Type} {n : Nat} (f : Nat → α) {L : List α} (h : L.Perm ((List.range n).map f)) :
    ∃ σ, Order n σ ∧ L = (List.range n).map fun j => f (σ j) := by
  have : Relation.Comp (fun x1 x2 => x1 = List.map f x2) (fun x1 x2 => x1.Perm x2) L (List.range n) := by
    rw [List.eq_map_comp_perm]; exact h
  obtain ⟨l', rfl, hp⟩ := this
  have hl : l'.length = n := by rw [hp.length_eq, List.length_range]
  have hget : ∀ j, j < n → l'.getD j 0 ∈ l' := by
    intro j hj
    rw [List.getD_eq_getElem _ _ (by omega)]
    exact List.getElem_mem _
  refine ⟨fun j => l'.getD j 0, ⟨?_, ?_⟩, ?_⟩
  · intro j hj
    exact List.mem_range.mp (hp.mem_iff.mp (hget j hj))
  · intro u hu v hv e
    have hnd : l'.Nodup := hp.nodup_iff.mpr List.nodup_range
    simp only at e
    rw [List.getD_eq_getElem _ _ (by omega : u < l'.length), List.getD_eq_getElem _ _ (by omega : v < l'.length)] at e
    exact (hnd.getElem_inj_iff).mp e
  · apply List.ext_getElem
    · simp [hl]
    · intro j h1 h2
      have : j < l'.length := by simpa using h1
      simp [List.getD, this]

theorem map_range_sum (n : Nat) (f : Nat → K) : ((List.range n).map f).sum = ∑ j ∈ range n, f j := by
  induction n with
  | zero => simp
  | succ n ih => rw [List.range_succ, List.map_append, List.sum_append, ih, sum_range_succ]; simp

theorem map_range_take (n : Nat) (f : Nat → K) {i : Nat} (hi : i ≤ n) :
    (((List.range n).map f).take i).sum = ∑ j ∈ range i, f j := by
  rw [← List.map_take, List.take_range, min_eq_left hi, map_range_sum]

theorem arr_congr {n : Nat} {f g : Nat → K} (h : ∀ i < n, f i = g i) : arr n f = arr n g := by
  unfold arr
  apply List.map_congr_left
  intro i hi
  rw [h i (List.mem_range.mp hi)]

variable [IsStrictOrderedRing K]

theorem volume_eq (I : CurveInput K) : I.volume = ∑ v ∈ range I.n, I.keptPv v := by
  unfold CurveInput.volume CurveInput.keptPv
  rw [sum_filter]

theorem rate_eq (I : CurveInput K) : I.rate = ∑ v ∈ range I.n, I.keptPv v / I.rank v := by
  unfold CurveInput.rate CurveInput.keptPv CurveInput.rank
  rw [sum_filter]
  apply sum_congr rfl
  intro v _
  by_cases h : I.Kept v <;> simp [h]

theorem swept_eq (I : CurveInput K) (t : K) : I.swept t = ∑ v ∈ range I.n, I.keptPv v * min 1 (t / I.rank v) := by
  unfold CurveInput.swept CurveInput.keptPv CurveInput.rank
  rw [sum_filter]
  apply sum_congr rfl
  intro v _
  by_cases h : I.Kept v <;> simp [h]

variable {I : CurveInput K} {sort : List (X K × X K) → List (X K × X K)}

theorem rank_pos (h : I.Valid) (v : Nat) : 0 < I.rank v := by
  unfold CurveInput.rank
  by_cases hk : I.Kept v
  · rw [if_pos hk]; exact h.time v hk
  · rw [if_neg hk]; positivity

theorem keptPv_nonneg (h : I.Valid) {v : Nat} (hv : v < I.n) : 0 ≤ I.keptPv v := by
  unfold CurveInput.keptPv
  by_cases hk : I.Kept v
  · rw [if_pos hk]; exact h.pv v hv
  · rw [if_neg hk]

theorem keptPv_pos {v : Nat} : 0 < I.keptPv v ↔ I.Kept v ∧ 0 < I.pv v := by
  unfold CurveInput.keptPv
  by_cases hk : I.Kept v <;> simp [hk]

theorem volume_pos (h : I.Valid) : 0 < I.volume := by
  rw [volume_eq]
  obtain ⟨v, hk, hv⟩ := h.some_pv
  exact sum_pos' (fun u hu => keptPv_nonneg h (mem_range.mp hu)) ⟨v, mem_range.mpr hk.1, keptPv_pos.mpr ⟨hk, hv⟩⟩

/-- The curve of valid input: cumulative sums over the cells ordered by travel time. -/
theorem curve_valid (h : I.Valid) (hs : StdSort sort) :
    ∃ σ, Order I.n σ ∧ Seq I.n (fun j => I.rank (σ j)) (fun j => I.keptPv (σ j)) ∧
      I.curve sort = .ok (arr (I.n + 1) (Φ I.n fun j => I.keptPv (σ j)),
        arr (I.n + 1) (Φ I.n (rt (fun j => I.rank (σ j)) fun j => I.keptPv (σ j)))) := by
  obtain ⟨L, h1, h2, h3⟩ := curve_sorted I h.int hs
  obtain ⟨σ, hσ, hL⟩ := perm_order _ h1
  have hP : ∑ j ∈ range I.n, I.keptPv (σ j) = I.volume := by rw [volume_eq]; exact order_sum hσ _
  have hseq : Seq I.n (fun j => I.rank (σ j)) (fun j => I.keptPv (σ j)) := by
    refine ⟨fun j hj => keptPv_nonneg h (hσ.1 j hj), fun j _ => rank_pos h _, ?_, ?_⟩
    · intro i j hij hj
      rcases Nat.lt_or_eq_of_le hij with hlt | rfl
      · rw [hL, List.pairwise_map] at h2
        rw [List.pairwise_iff_getElem] at h2
        have := h2 i j (by simp; omega) (by simpa using hj) hlt
        simp only [List.getElem_range, LexLe, entry] at this
        rcases this with h | h
        · exact h.le
        · exact h.1.le
      · exact le_rfl
    · rw [hP]; exact volume_pos h
  refine ⟨σ, hσ, hseq, ?_⟩
  rw [h3]
  have hlen : (L.map (pr : K × K → _)).length = I.n := by simp [hL]
  have eP : cumulativeNormalized (L.map pr) (fun i => i.2) = arr (I.n + 1) (Φ I.n fun j => I.keptPv (σ j)) := by
    have e1 : L.map pr = ((List.range I.n).map fun j => pr (entry I (σ j))) := by rw [hL, List.map_map]; rfl
    have e2 : ∀ f : (X K × X K) → X K, cumulativeNormalized (L.map pr) f
        = cumulativeNormalized (List.range I.n) fun j => f (pr (entry I (σ j))) := by
      intro f
      unfold cumulativeNormalized
      rw [e1, List.map_map]; rfl
    rw [e2, cumulative_fin (List.range I.n) (fun j => (pr (entry I (σ j))).2) (fun j => I.keptPv (σ j))
      (fun j _ => rfl), List.length_range]
    · apply arr_congr
      intro i hi
      rw [map_range_take _ _ (by omega), map_range_sum]; rfl
    · rw [map_range_sum]; exact hseq.pos.ne'
  have eF : cumulativeNormalized (L.map pr) (fun i => Arith.div i.2 i.1)
      = arr (I.n + 1) (Φ I.n (rt (fun j => I.rank (σ j)) fun j => I.keptPv (σ j))) := by
    have e1 : L.map pr = ((List.range I.n).map fun j => pr (entry I (σ j))) := by rw [hL, List.map_map]; rfl
    have e2 : ∀ f : (X K × X K) → X K, cumulativeNormalized (L.map pr) f
        = cumulativeNormalized (List.range I.n) fun j => f (pr (entry I (σ j))) := by
      intro f
      unfold cumulativeNormalized
      rw [e1, List.map_map]; rfl
    rw [e2, cumulative_fin _ _ (rt (fun j => I.rank (σ j)) fun j => I.keptPv (σ j)) (fun j hj => by
      simp only [pr, entry]
      rw [X_div (rank_pos h _).ne']; rfl), List.length_range]
    · apply arr_congr
      intro i hi
      rw [map_range_take _ _ (by omega), map_range_sum]; rfl
    · rw [map_range_sum]; exact (Q_pos hseq).ne'
  rw [eP, eF]

theorem S_volume {σ : Nat → Nat} (hσ : Order I.n σ) : S (fun j => I.keptPv (σ j)) I.n = I.volume := by
  rw [volume_eq]; exact order_sum hσ _

theorem S_rate {σ : Nat → Nat} (hσ : Order I.n σ) :
    S (rt (fun j => I.rank (σ j)) fun j => I.keptPv (σ j)) I.n = I.rate := by
  rw [rate_eq]; exact order_sum hσ fun v => I.keptPv v / I.rank v

theorem fill_swept {σ : Nat → Nat} (hσ : Order I.n σ) (t : K) :
    fill I.n (fun j => I.rank (σ j)) (fun j => I.keptPv (σ j)) t = I.swept t := by
  rw [swept_eq]; exact order_sum hσ fun v => I.keptPv v * min 1 (t / I.rank v)

/-! ### The Lorenz coefficient of a finite curve -/

theorem lorenz_finite (n : Nat) (hn : n ≤ INT_MAX) (f g : Nat → K) :
    lorenzCoefficient (arr (n + 1) f, arr (n + 1) g) = .ok (X.fin (area f g n - 1)) := by
  unfold lorenzCoefficient
  have hlen : ∀ f : Nat → K, (arr (n + 1) f).length = n + 1 := by intro f; simp [arr]
  have hn' : narrowInt ((n + 1 + (SIZE_MOD - 1)) % SIZE_MOD) = n := by
    have : (n + 1 + (SIZE_MOD - 1)) % SIZE_MOD = n := by
      have hm : SIZE_MOD = 18446744073709551616 := by rfl
      have hI : INT_MAX = 2147483647 := rfl
      rw [hm]; omega
    rw [this, narrowInt_small hn]
  simp only [hlen, ne_eq, not_true_eq_false, if_false, hn', Int.toNat_natCast]
  have hloop : ∀ m ≤ n, forEach (List.range m) (Arith.zero : X K) (lorenzStep (arr (n + 1) f) (arr (n + 1) g))
      = .ok (X.fin (area f g m / 2)) := by
    intro m
    induction m with
    | zero => intro _; simp [area, X_zero]
    | succ m ih =>
      intro hm
      have e2 : (Arith.lit 2 : X K) = X.fin 2 := by show X.fin (((2 : ℚ)) : K) = _; norm_num
      rw [List.range_succ, forEach_append, ih (by omega)]
      simp only [Res.ok_bind, forEach_cons, forEach_nil, lorenzStep, Res.bind_eq, Res.pure_eq]
      rw [arr_rd _ (by omega), arr_rd _ (by omega), arr_rd _ (by omega), arr_rd _ (by omega)]
      simp only [Res.ok_bind, X_sub, X_add, X_mul, e2]
      rw [X_div two_ne_zero, X_add]
      unfold area
      rw [sum_range_succ, add_div]
  have := hloop n le_rfl
  rw [this]
  have e2 : (Arith.lit 2 : X K) = X.fin 2 := by show X.fin (((2 : ℚ)) : K) = _; norm_num
  have e3 : (Arith.lit (1 / 2) : X K) = X.fin (1 / 2) := by show X.fin (((1 / 2 : ℚ)) : K) = _; push_cast; rfl
  rw [Res.bind_eq, Res.ok_bind, e2, e3, X_sub, X_mul]
  have e : 2 * (area f g n / 2 - 1 / 2) = area f g n - 1 := by ring
  rw [e, Res.pure_eq]

end Verif.Derived
