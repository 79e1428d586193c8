/-
Sweep efficiency of the F-Phi curve, renumbered cells, and ignored cells.
-/
import Verif.Proofs.DerivedValid
import Mathlib.Algebra.Order.BigOperators.Group.List

namespace Verif.Derived
open Verif.Spec Verif.Solver Finset

variable {K : Type} [Field K] [LinearOrder K] [IsStrictOrderedRing K]

/-- Cells with pore volume. -/
def nonempty (p : Nat → K) (m : Nat) : List Nat := (List.range m).filter fun j => decide (p j ≠ 0)

theorem sweep_finite {n : Nat} {t p : Nat → K} (h : Seq n t p) (hn : n < INT_MAX) :
    sweepEfficiency (arr (n + 1) (Φ n p), arr (n + 1) (Φ n (rt t p))) =
      .ok (X.fin 0 :: (nonempty p n).map fun j => X.fin (t j * S (rt t p) n / S p n),
        X.fin 0 :: (nonempty p n).map fun j => X.fin (fill n t p (t j) / S p n)) := by
  unfold sweepEfficiency
  have hlen : ∀ f : Nat → K, (arr (n + 1) f).length = n + 1 := by intro f; simp [arr]
  have hP : S p n ≠ 0 := h.pos.ne'
  have hQ := (Q_pos h).ne'
  simp only [hlen]
  rw [if_neg (by simp), narrowInt_small (by omega), if_neg (by omega), Int.toNat_natCast]
  have hd : (List.range (n + 1)).drop 1 = (List.range n).map (· + 1) := by
    rw [List.range_succ_eq_map]; rfl
  rw [hd, X_zero]
  have hloop : ∀ m ≤ n, forEach ((List.range m).map (· + 1)) (([X.fin 0], [X.fin 0]) : List (X K) × List (X K))
      (sweepStep (arr (n + 1) (Φ n p)) (arr (n + 1) (Φ n (rt t p)))) =
      .ok (X.fin 0 :: (nonempty p m).map fun j => X.fin (t j * S (rt t p) n / S p n),
        X.fin 0 :: (nonempty p m).map fun j => X.fin (fill n t p (t j) / S p n)) := by
    intro m
    induction m with
    | zero => intro _; simp [nonempty]
    | succ m ih =>
      intro hm
      rw [List.range_succ, List.map_append, forEach_append, ih (by omega)]
      simp only [Res.ok_bind, List.map_cons, List.map_nil, forEach_cons, forEach_nil, sweepStep, Res.bind_eq,
        Res.pure_eq, Nat.add_sub_cancel]
      rw [arr_rd _ (by omega), arr_rd _ (by omega), arr_rd _ (by omega), arr_rd _ (by omega)]
      simp only [Res.ok_bind, X_sub, X_zero, X_eq]
      have hne : nonempty p (m + 1) = nonempty p m ++ if p m ≠ 0 then [m] else [] := by
        unfold nonempty
        rw [List.range_succ, List.filter_append]
        congr 1
        by_cases hp : p m = 0 <;> simp [hp]
      have ht := h.t0 m (by omega)
      rw [hne, Φ_step, Φ_step]
      by_cases hp : p m = 0
      · rw [if_neg (by simp [rt, hp]), if_neg (by simp [hp]), List.append_nil]; simp
      · have hfd : rt t p m / S (rt t p) n ≠ 0 := div_ne_zero (div_ne_zero hp ht.ne') hQ
        rw [if_pos (by simp [hfd]), if_pos hp, X_div hfd, X_one]
        simp only [Res.ok_bind, X_sub, X_mul, X_add]
        have e : p m / S p n / (rt t p m / S (rt t p) n) = t m * S (rt t p) n / S p n := by
          unfold rt at hQ ⊢
          have := ht.ne'
          field_simp
        rw [e, ev_eq h (by omega)]
        simp
  exact hloop n le_rfl

/-- Only pore volumes and travel times of the cells in use matter. -/
theorem curve_congr {I J : CurveInput K} {s s' : List (X K × X K) → List (X K × X K)} (hs : StdSort s) (hs' : StdSort s')
    (hI : I.n ≤ INT_MAX) (hJ : J.n ≤ INT_MAX)
    (h : ((List.range I.n).map (entry I)).Perm ((List.range J.n).map (entry J))) : I.curve s = J.curve s' := by
  obtain ⟨L, a1, a2, a3⟩ := curve_sorted I hI hs
  obtain ⟨M, b1, b2, b3⟩ := curve_sorted J hJ hs'
  have : L = M := sorted_unique (a1.trans (h.trans b1.symm)) a2 b2
  rw [a3, b3, this]

theorem order_perm {n : Nat} {σ : Nat → Nat} (h : Order n σ) : ((List.range n).map σ).Perm (List.range n) := by
  apply (List.perm_ext_iff_of_nodup _ List.nodup_range).mpr
  · intro v
    rw [List.mem_map, List.mem_range]
    constructor
    · rintro ⟨u, hu, rfl⟩; exact h.1 u (List.mem_range.mp hu)
    · intro hv
      obtain ⟨j, hj, e⟩ := order_surj h hv
      exact ⟨j, List.mem_range.mpr hj, e⟩
  · rw [List.nodup_map_iff_inj_on List.nodup_range]
    intro u hu v hv e
    exact h.2 u (List.mem_range.mp hu) v (List.mem_range.mp hv) e

theorem renumbered {σ : Nat → Nat} {I J : CurveInput K} (h : CurveInput.Renumbered σ I J) :
    ((List.range I.n).map (entry I)).Perm ((List.range J.n).map (entry J)) := by
  have hsum : ∑ u ∈ range J.n, J.pv u = ∑ u ∈ range I.n, I.pv u := by
    rw [h.size, ← order_sum h.order]
    exact sum_congr rfl fun v hv => h.pv_eq v (mem_range.mp hv)
  have he : (List.range I.n).map (entry I) = ((List.range I.n).map σ).map (entry J) := by
    rw [List.map_map]
    apply List.map_congr_left
    intro v hv
    have hv := List.mem_range.mp hv
    have hk : I.Kept v ↔ J.Kept (σ v) := by
      unfold CurveInput.Kept
      rw [h.pv_eq v hv, h.frac, hsum, h.size]
      simp [hv, h.order.1 v hv]
    simp only [Function.comp, entry, CurveInput.rank, CurveInput.keptPv, CurveInput.time]
    rw [h.inj_eq v hv, h.prod_eq v hv, h.pv_eq v hv]
    by_cases h1 : I.Kept v
    · simp [h1, hk.mp h1]
    · have h2 : ¬ J.Kept (σ v) := fun h => h1 (hk.mpr h)
      simp [h1, h2]
  rw [he, h.size]
  exact (order_perm h.order).map _

/-! ### Ignored cells -/

theorem cumulative_append (L : List (K × K)) (k : Nat) (z : K × K) (ex : X K × X K → X K) (q : K × K → K)
    (hL : ∀ a ∈ L, ex (pr a) = X.fin (q a)) (hz : ex (pr z) = X.fin 0) (hne : (L.map q).sum ≠ 0) :
    cumulativeNormalized ((L ++ List.replicate k z).map pr) ex =
      cumulativeNormalized (L.map pr) ex ++ List.replicate k (X.fin 1) := by
  have e2 : ∀ M : List (K × K), cumulativeNormalized (M.map pr) ex = cumulativeNormalized M fun a => ex (pr a) := by
    intro M
    unfold cumulativeNormalized
    rw [List.map_map]; rfl
  let q' : K × K → K := fun a => if a = z then 0 else q a
  have hq : ∀ a ∈ L, q' a = q a := by
    intro a ha
    by_cases h : a = z
    · have := hL a ha
      rw [h, hz] at this
      simp only [X.fin.injEq] at this
      simp [q', h, this]
    · simp [q', h]
  have hmap : L.map q' = L.map q := List.map_congr_left hq
  have hrep : (List.replicate k z).map q' = List.replicate k 0 := by simp [q']
  have hsum : ((L ++ List.replicate k z).map q').sum = (L.map q).sum := by
    rw [List.map_append, hmap, hrep, List.sum_append]; simp
  rw [e2, e2, cumulative_fin L (fun a => ex (pr a)) q hL hne,
    cumulative_fin (L ++ List.replicate k z) (fun a => ex (pr a)) q' ?_ (by rw [hsum]; exact hne), hsum]
  · rw [List.map_append, hmap, hrep]
    unfold arr
    rw [List.length_append, List.length_replicate,
      show L.length + k + 1 = (L.length + 1) + k by omega, List.range_add, List.map_append]
    congr 1
    · apply List.map_congr_left
      intro i hi
      have := List.mem_range.mp hi
      show X.fin ((List.take i (List.map q L ++ List.replicate k 0)).sum / _) = _
      rw [List.take_append_of_le_length (by rw [List.length_map]; omega)]
    · apply List.ext_getElem
      · simp
      · intro i h1 h2
        simp only [List.map_map, List.getElem_map, List.getElem_range, Function.comp, List.getElem_replicate]
        rw [List.take_append, List.sum_append, List.take_of_length_le (by simp; omega)]
        simp only [List.take_replicate, List.sum_replicate, nsmul_zero, add_zero]
        rw [div_self hne]
  · intro a ha
    rcases List.mem_append.mp ha with h | h
    · rw [hL a h, hq a h]
    · rw [List.eq_of_mem_replicate h, hz]; simp [q']

theorem cells_mem {I : CurveInput K} {v : Nat} : v ∈ I.cells ↔ I.Kept v := by
  unfold CurveInput.cells
  rw [List.mem_filter, List.mem_range, decide_eq_true_eq]
  exact ⟨fun h => h.2, fun h => ⟨h.1, h⟩⟩

theorem cells_get {I : CurveInput K} {i : Nat} (h : i < I.cells.length) : I.Kept (I.cells.getD i 0) := by
  rw [List.getD_eq_getElem _ _ h]
  exact cells_mem.mp (List.getElem_mem _)

theorem keep_pv_nonneg {I : CurveInput K} (h : I.Valid) : ∀ i < I.keep.n, 0 ≤ I.keep.pv i := by
  intro i hi
  have := cells_get hi
  exact h.pv _ this.1

theorem keep_kept {I : CurveInput K} (h : I.Valid) {i : Nat} : I.keep.Kept i ↔ i < I.keep.n := by
  constructor
  · exact fun h => h.1
  · intro hi
    refine ⟨hi, ?_⟩
    show _ ≤ (1 : K) * _
    rw [one_mul]
    exact single_le_sum (fun u hu => keep_pv_nonneg h u (mem_range.mp hu)) (mem_range.mpr hi)

theorem keep_valid {I : CurveInput K} (h : I.Valid) : I.keep.Valid := by
  refine ⟨?_, keep_pv_nonneg h, ?_, ?_⟩
  · have : I.cells.length ≤ I.n := by
      have := List.length_filter_le (fun v => decide (I.Kept v)) (List.range I.n)
      rwa [List.length_range] at this
    have := h.int
    show I.cells.length ≤ _
    omega
  · intro i hi
    exact h.time _ (cells_get hi.1)
  · obtain ⟨v, hk, hp⟩ := h.some_pv
    obtain ⟨i, hi, e⟩ := List.getElem_of_mem (cells_mem.mpr hk)
    refine ⟨i, (keep_kept h).mpr hi, ?_⟩
    show 0 < I.pv (I.cells.getD i 0)
    rw [List.getD_eq_getElem _ _ hi, e]; exact hp

theorem keep_entries {I : CurveInput K} (h : I.Valid) :
    (List.range I.keep.n).map (entry I.keep) = I.cells.map (entry I) := by
  apply List.ext_getElem
  · simp [CurveInput.keep]
  · intro i h1 h2
    have hi : i < I.cells.length := by simpa using h2
    have hk := cells_get hi
    have hk' := (keep_kept h (i := i)).mpr hi
    simp only [List.getElem_map, List.getElem_range, entry, CurveInput.rank, CurveInput.keptPv]
    rw [List.getD_eq_getElem _ _ hi] at hk
    rw [if_pos hk, if_pos hk, if_pos hk', if_pos hk']
    simp only [CurveInput.time, CurveInput.keep, List.getD_eq_getElem _ _ hi]

theorem entries_split (I : CurveInput K) :
    ((List.range I.n).map (entry I)).Perm
      (I.cells.map (entry I) ++ List.replicate (I.n - I.cells.length) ((10 : K) ^ 100, (0 : K))) := by
  have h1 := (List.filter_append_perm (fun v => decide (I.Kept v)) (List.range I.n)).symm
  have h2 := h1.map (entry I)
  rw [List.map_append] at h2
  have hl := h1.length_eq
  rw [List.length_append, List.length_range] at hl
  have h3 : ((List.range I.n).filter fun v => !decide (I.Kept v)).map (entry I)
      = List.replicate (I.n - I.cells.length) ((10 : K) ^ 100, (0 : K)) := by
    rw [List.eq_replicate_iff]
    constructor
    · rw [List.length_map]; unfold CurveInput.cells; omega
    · intro b hb
      obtain ⟨v, hv, rfl⟩ := List.mem_map.mp hb
      have : ¬ I.Kept v := by simpa using (List.mem_filter.mp hv).2
      simp [entry, CurveInput.rank, CurveInput.keptPv, this]
  rw [h3] at h2
  exact h2

/-- Ignored cells add end points. -/
theorem curve_keep {I : CurveInput K} (h : I.Valid) (ht : ∀ v, I.Kept v → I.time v < 10 ^ 100)
    {s s' : List (X K × X K) → List (X K × X K)} (hs : StdSort s) (hs' : StdSort s') :
    ∃ P F, I.keep.curve s' = .ok (P, F) ∧
      I.curve s = .ok (P ++ List.replicate (I.n - I.cells.length) (X.fin 1),
        F ++ List.replicate (I.n - I.cells.length) (X.fin 1)) := by
  have hk := keep_valid h
  obtain ⟨M, b1, b2, b3⟩ := curve_sorted I.keep hk.int hs'
  obtain ⟨L, a1, a2, a3⟩ := curve_sorted I h.int hs
  rw [keep_entries h] at b1
  have hmem : ∀ a ∈ M, a.1 < 10 ^ 100 ∧ 0 < a.1 ∧ 0 ≤ a.2 := by
    intro a ha
    obtain ⟨v, hv, rfl⟩ := List.mem_map.mp (b1.mem_iff.mp ha)
    have hkv := cells_mem.mp hv
    have e : I.rank v = I.time v := by unfold CurveInput.rank; rw [if_pos hkv]
    refine ⟨?_, rank_pos h v, keptPv_nonneg h hkv.1⟩
    show I.rank v < _
    rw [e]; exact ht v hkv
  have hLM : L = M ++ List.replicate (I.n - I.cells.length) ((10 : K) ^ 100, (0 : K)) := by
    apply sorted_unique (a1.trans ((entries_split I).trans (b1.symm.append_right _))) a2
    rw [List.pairwise_append]
    refine ⟨b2, ?_, ?_⟩
    · rw [List.pairwise_replicate]
      exact Or.inr (Or.inr ⟨rfl, le_rfl⟩)
    · intro a ha b hb
      rw [List.eq_of_mem_replicate hb]
      exact Or.inl (hmem a ha).1
  have hpos : ∃ a ∈ M, 0 < a.2 := by
    obtain ⟨v, hkv, hp⟩ := h.some_pv
    refine ⟨entry I v, b1.mem_iff.mpr (List.mem_map.mpr ⟨v, cells_mem.mpr hkv, rfl⟩), ?_⟩
    exact keptPv_pos.mpr ⟨hkv, hp⟩
  have hs1 : ∀ q : K × K → K, (∀ a ∈ M, 0 ≤ q a) → (∃ a ∈ M, 0 < q a) → (M.map q).sum ≠ 0 := by
    intro q h0 ⟨a, ha, hq⟩
    have := List.single_le_sum (l := M.map q) (by
      intro x hx
      obtain ⟨b, hb, rfl⟩ := List.mem_map.mp hx
      exact h0 b hb) (q a) (List.mem_map.mpr ⟨a, ha, rfl⟩)
    exact (lt_of_lt_of_le hq this).ne'
  refine ⟨_, _, b3, ?_⟩
  rw [a3, hLM]
  have hbig : ((10 : K) ^ 100) ≠ 0 := by positivity
  obtain ⟨a, ha, hap⟩ := hpos
  rw [cumulative_append M _ _ (fun i => i.2) (fun a => a.2) (fun _ _ => rfl) rfl
      (hs1 _ (fun a ha => (hmem a ha).2.2) ⟨a, ha, hap⟩),
    cumulative_append M _ _ (fun i => Arith.div i.2 i.1) (fun a => a.2 / a.1)
      (fun a ha => by simp only [pr]; rw [X_div (hmem a ha).2.1.ne']) (by simp only [pr]; rw [X_div hbig, zero_div])
      (hs1 _ (fun a ha => div_nonneg (hmem a ha).2.2 (hmem a ha).2.1.le) ⟨a, ha, div_pos hap (hmem a ha).2.1⟩)]

end Verif.Derived
