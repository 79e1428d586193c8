/-
The data of a problem stored in `double`s.
-/
import Verif.Proofs.AccuracyReturns
import Verif.Proofs.DoublePrecise
import Verif.Spec.Accuracy

namespace Verif.Rounding
open Finset Verif.Spec Verif.Solver Verif.Toolbox

section
variable {R : Type} [Arith R] {K : Type} [Field K] [LinearOrder K] [IsStrictOrderedRing K] {ρ : Rounded R K}

omit [IsStrictOrderedRing K] in
theorem orient_val {e : Nat × Nat} {x : R} {y : K} (h : ρ.val x = X.fin y) :
    (orient e x).map (fun c => (c.1, c.2.1, ρ.val c.2.2)) = lift (orientK e y) := by
  unfold orient orientK lift
  rw [ρ.lt, ρ.lt, val_zero' ρ, h]
  simp only [X.lt, decide_eq_true_eq]
  split
  · simp [h]
  · split
    · simp [ρ.neg, h, X.neg]
    · rfl

omit [IsStrictOrderedRing K] in
theorem directed_val (P : Problem K) {x : Nat → R} (h : ∀ c < P.conns.length, ρ.val (x c) = X.fin (P.net c)) :
    (directed P.conns x).map (fun c => (c.1, c.2.1, ρ.val c.2.2)) = lift (directedK P) := by
  unfold directed directedK
  have : ∀ l : List (List (Nat × Nat × K)), lift l.flatten = (l.map lift).flatten := by
    intro l; unfold lift; rw [List.map_flatten]
  rw [List.map_flatten, this, List.map_map, List.map_map]
  congr 1
  apply List.map_congr_left
  rintro ⟨e, i⟩ he
  refine orient_val (h i ?_)
  have := List.mem_zipIdx_iff_getElem?.mp he
  exact (List.getElem?_eq_some_iff.mp this).1

/-- A property of the fluxes of connections holds for the oriented connections. -/
theorem directedK_net {P : Problem K} {c : Nat × Nat × K} (hc : c ∈ directedK P) : ∃ i < P.conns.length, c.2.2 = |P.net i| := by
  unfold directedK at hc
  obtain ⟨l, hl, hcl⟩ := List.mem_flatten.mp hc
  obtain ⟨⟨e, i⟩, he, rfl⟩ := List.mem_map.mp hl
  have hi := (List.getElem?_eq_some_iff.mp (List.mem_zipIdx_iff_getElem?.mp he)).1
  refine ⟨i, hi, ?_⟩
  simp only at hcl
  unfold orientK at hcl
  split at hcl
  · rename_i hx
    rw [List.mem_singleton.mp hcl, abs_of_pos hx]
  · split at hcl
    · rename_i hx
      rw [List.mem_singleton.mp hcl, abs_of_neg hx]
    · simp at hcl

omit [IsStrictOrderedRing K] in
/-- No more oriented connections end (or begin) in a cell than connections touch it. -/
theorem directedK_degree (P : Problem K) (v : Nat) :
    ((directedK P).filter fun c => decide (c.2.1 = v)).length ≤ (P.conns.filter fun e => decide (e.1 = v ∨ e.2 = v)).length ∧
    ((directedK P).filter fun c => decide (c.1 = v)).length ≤ (P.conns.filter fun e => decide (e.1 = v ∨ e.2 = v)).length := by
  have key : ∀ (p : Nat × Nat × K → Bool), (∀ (e : Nat × Nat) (x : K), ((orientK e x).filter p).length ≤
        if e.1 = v ∨ e.2 = v then 1 else 0) → ∀ l : List ((Nat × Nat) × Nat),
      ((l.map fun e => orientK e.1 (P.net e.2)).flatten.filter p).length ≤
        ((l.map fun e => e.1).filter fun e => decide (e.1 = v ∨ e.2 = v)).length := by
    intro p hp l
    induction l with
    | nil => simp
    | cons e l ih =>
      rw [List.map_cons, List.flatten_cons, List.filter_append, List.length_append, List.map_cons, List.filter_cons]
      have := hp e.1 (P.net e.2)
      by_cases h : e.1.1 = v ∨ e.1.2 = v
      · rw [if_pos h] at this
        rw [if_pos (by simpa using h), List.length_cons]
        omega
      · rw [if_neg h] at this
        rw [if_neg (by simpa using h)]
        omega
  have e : P.conns.zipIdx.map (fun e => e.1) = P.conns := List.zipIdx_map_fst 0 P.conns
  have h1 := key (fun c => decide (c.2.1 = v)) (by
    intro e x
    unfold orientK
    split
    · by_cases h : e.2 = v <;> simp [h]
    · split
      · by_cases h : e.1 = v <;> simp [h]
      · simp) P.conns.zipIdx
  have h2 := key (fun c => decide (c.1 = v)) (by
    intro e x
    unfold orientK
    split
    · by_cases h : e.1 = v <;> simp [h]
    · split
      · by_cases h : e.2 = v <;> simp [h]
      · simp) P.conns.zipIdx
  rw [e] at h1 h2
  exact ⟨h1, h2⟩

omit [IsStrictOrderedRing K] in
theorem entries_val {m : InflowFlux R} {m' : InflowFlux (X K)}
    (h : m.map (fun set => (set.1, set.2.map fun e => (e.1, ρ.val e.2))) = m') :
    (positives (entries m)).map (fun e => (e.1, e.2.1, ρ.val e.2.2)) = positives (entries m') ∧
    (negatives (entries m)).map (fun e => (e.1, e.2.1, ρ.val e.2.2)) = negatives (entries m') := by
  have e : (entries m).map (fun e => (e.1, e.2.1, ρ.val e.2.2)) = entries m' := by
    rw [← h]
    unfold entries
    rw [List.map_flatMap, List.flatMap_map]
    apply List.flatMap_congr
    intro s _
    rw [List.map_map, List.map_map]; rfl
  rw [← e]
  unfold positives negatives
  constructor
  · rw [List.filter_map]
    congr 1
    apply List.filter_congr
    intro x _
    simp only [Function.comp]
    rw [ρ.lt, val_zero' ρ, X_zero]; rfl
  · rw [List.filter_map, List.map_map, List.map_map]
    have : (entries m).filter (fun e => !Arith.lt Arith.zero e.2.2 && Arith.lt e.2.2 Arith.zero) =
        (entries m).filter ((fun e : CellSetID × Int × X K => !Arith.lt Arith.zero e.2.2 && Arith.lt e.2.2 Arith.zero) ∘
          fun e => (e.1, e.2.1, ρ.val e.2.2)) := by
      apply List.filter_congr
      intro x _
      simp only [Function.comp]
      rw [ρ.lt, ρ.lt, val_zero' ρ, X_zero]; rfl
    rw [this]
    apply List.map_congr_left
    intro x _
    simp only [Function.comp]
    rw [ρ.neg]; rfl

end

theorem range_of_ordinary {x : ℚ} (h : Ordinary x) (h0 : 0 ≤ x) : Range 100 x := by
  rcases h with h | ⟨h1, h2⟩
  · exact Or.inl h
  · rw [abs_of_nonneg h0] at h1 h2
    refine Or.inr ⟨?_, h2⟩
    rw [div_le_iff₀ (by positivity)] at h1
    exact h1

theorem range_abs {x : ℚ} (h : Ordinary x) : Range 100 |x| := by
  refine range_of_ordinary ?_ (abs_nonneg x)
  rcases h with h | ⟨h1, h2⟩
  · left; rw [h, abs_zero]
  · right; rw [abs_abs]; exact ⟨h1, h2⟩

/-- Flows of a problem of ordinary size. -/
theorem sized_of {D : List (Int × Int × Double)} {pv : List Double} {l : List (CellSetID × Int × Double)} {F : Flow ℚ}
    {DK : List (Nat × Nat × ℚ)} {wells : List (WellFlux ℚ)} {cs : WellFlux ℚ → List Nat} {f : WellFlux ℚ → Nat → ℚ} {M : Nat}
    (h : Inputs Double.rounded D pv l F DK wells cs f M) (htotal : ∀ v < F.n, F.total v ≤ 2 ^ 100)
    (hpv : ∀ v < F.n, Ordinary (F.pv v)) : ∀ v < F.n, Sized F v := by
  intro v hv
  have htot := htotal v hv
  have hsrc0 := h.valid.src_nonneg v hv
  have hin0 : 0 ≤ F.inflow v := Finset.sum_nonneg fun u hu => h.valid.w_nonneg u v (Finset.mem_range.mp hu) hv
  have ht : F.total v = F.inflow v + F.src v := rfl
  have hw : ∀ u < F.n, Range 100 (F.w u v) := by
    intro u hu
    have := h.w_le hu hv
    rw [← h.flux] at this ⊢
    unfold fluxOf at this ⊢
    have := range_partial (i := 100) (j := 100) (k := 100)
      (l := (DK.filter fun c => decide (c.1 = u ∧ c.2.1 = v)).map fun c => c.2.2) (by
        intro x hx
        obtain ⟨c, hc, rfl⟩ := List.mem_map.mp hx
        exact (h.range c (List.mem_filter.mp hc).1).2.2.2) (by linarith) le_rfl le_rfl
        ((DK.filter fun c => decide (c.1 = u ∧ c.2.1 = v)).map fun c => c.2.2).length
    rwa [List.take_length] at this
  have hinr : Range 100 (F.inflow v) := by
    have e : F.inflow v = ((List.range F.n).map fun u => F.w u v).sum := rfl
    have := range_partial (i := 100) (j := 100) (k := 100) (l := (List.range F.n).map fun u => F.w u v) (by
      intro x hx
      obtain ⟨u, hu, rfl⟩ := List.mem_map.mp hx
      exact hw u (List.mem_range.mp hu)) (by rw [← e]; linarith) le_rfl le_rfl ((List.range F.n).map fun u => F.w u v).length
    rwa [List.take_length, ← e] at this
  have hsrcr : Range 100 (F.src v) := by
    have e := h.side.src v
    have := range_partial (i := 100) (j := 100) (k := 100) (l := wells.map fun w => if v ∈ cs w then f w v else 0) (by
      intro x hx
      obtain ⟨w, hw, rfl⟩ := List.mem_map.mp hx
      by_cases hv : v ∈ cs w
      · rw [if_pos hv]; exact h.wellRange w hw v hv
      · rw [if_neg hv]; exact Or.inl rfl) (by rw [← e]; linarith) le_rfl le_rfl
      (wells.map fun w => if v ∈ cs w then f w v else 0).length
    rwa [List.take_length, ← e] at this
  refine ⟨?_, hsrcr, range_of_ordinary (hpv v hv) (h.valid.pv_nonneg v hv)⟩
  by_cases h0 : F.inflow v = 0
  · rw [ht, h0, zero_add]; exact hsrcr
  · exact Range.of_le hinr (fun e => absurd e h0) (by linarith) htot le_rfl le_rfl

theorem moderate_of {D : List (Int × Int × Double)} {pv : List Double} {l : List (CellSetID × Int × Double)} {F : Flow ℚ}
    {DK : List (Nat × Nat × ℚ)} {wells : List (WellFlux ℚ)} {cs : WellFlux ℚ → List Nat} {f : WellFlux ℚ → Nat → ℚ} {M : Nat}
    (h : Inputs Double.rounded D pv l F DK wells cs f M) {layer : Nat → Nat} (hL : F.Layered layer)
    (hpv : ∀ v < F.n, Ordinary (F.pv v)) : ∀ v < F.n, Moderate F v :=
  fun v hv => ⟨sized_of h hL.total hpv v hv, hL.clear v hv⟩

/-- The forward problem. -/
theorem inputs_forward {P : Problem ℚ} (hP : P.Valid) {M : Nat} (hO : P.OfOrdinarySize M) {x : Nat → Double}
    (hx : ∀ c < P.conns.length, Double.val (x c) = X.fin (P.net c)) {pv : List Double} (hpv : pv.map Double.val = arr P.n P.pv)
    {m : InflowFlux Double} (hm : m.map (fun set => (set.1, set.2.map fun e => (e.1, Double.val e.2))) = P.inflowMap) :
    Inputs Double.rounded (directed P.conns x) pv (positives (entries m)) P.forward (directedK P) P.wells posCells
      (fun w => w.val) M := by
  have hr := directedK_range hP.range
  refine ⟨forward_valid hP, directed_val (ρ := Double.rounded) P hx, ?_, fun u v => fluxOf_directedK P u v, ?_, hpv, ?_,
    pos_side hP, ?_, ?_⟩
  · intro c hc
    obtain ⟨h1, h2, h3⟩ := hr c hc
    obtain ⟨i, hi, e⟩ := directedK_net hc
    exact ⟨h1, h2, h3, by rw [e]; exact range_abs (hO.flux i hi)⟩
  · intro v; exact (directedK_degree P v).1.trans (hO.degree v)
  · rw [← positives_inflowMap]
    exact (entries_val (ρ := Double.rounded) hm).1
  · intro w hw v hv
    obtain ⟨h1, h2⟩ := List.mem_filter.mp hv
    exact range_of_ordinary (hO.well w hw v h1) (le_of_lt (by simpa using h2))
  · intro v
    refine le_trans ?_ (hO.wells v)
    apply List.Sublist.length_le
    apply List.monotone_filter_right
    intro w hw
    simp only [decide_eq_true_eq] at hw ⊢
    exact (List.mem_filter.mp hw).1

/-- The backward problem. -/
theorem inputs_backward {P : Problem ℚ} (hP : P.Valid) {M : Nat} (hO : P.OfOrdinarySize M) {x : Nat → Double}
    (hx : ∀ c < P.conns.length, Double.val (x c) = X.fin (P.net c)) {pv : List Double} (hpv : pv.map Double.val = arr P.n P.pv)
    {m : InflowFlux Double} (hm : m.map (fun set => (set.1, set.2.map fun e => (e.1, Double.val e.2))) = P.inflowMap) :
    Inputs Double.rounded (swapEnds (directed P.conns x)) pv (negatives (entries m)) P.backward
      ((directedK P).map fun c => (c.2.1, c.1, c.2.2)) P.wells negCells (fun w v => - w.val v) M := by
  have hr := directedK_range hP.range
  refine ⟨backward_valid hP, ?_, ?_, ?_, ?_, hpv, ?_, neg_side hP, ?_, ?_⟩
  · have := congrArg swapEnds (directed_val (ρ := Double.rounded) P hx)
    have e2 : swapEnds (lift (directedK P)) = lift ((directedK P).map fun c => (c.2.1, c.1, c.2.2)) := by
      unfold swapEnds lift; rw [List.map_map, List.map_map]; rfl
    rw [e2] at this
    rw [← this]
    unfold swapEnds
    rw [List.map_map, List.map_map]; rfl
  · intro c hc
    obtain ⟨c, hm, rfl⟩ := List.mem_map.mp hc
    obtain ⟨h1, h2, h3⟩ := hr c hm
    obtain ⟨i, hi, e⟩ := directedK_net hm
    exact ⟨h2, h1, h3, by simp only; rw [e]; exact range_abs (hO.flux i hi)⟩
  · intro u v
    rw [fluxOf_swap]; exact fluxOf_directedK P v u
  · intro v
    rw [List.filter_map, List.length_map]
    exact (directedK_degree P v).2.trans (hO.degree v)
  · rw [← negatives_inflowMap]
    exact (entries_val (ρ := Double.rounded) hm).2
  · intro w hw v hv
    obtain ⟨h1, h2⟩ := List.mem_filter.mp hv
    have h2 : w.val v < 0 := by simpa using h2
    rw [← abs_of_neg h2]
    exact range_abs (hO.well w hw v h1)
  · intro v
    refine le_trans ?_ (hO.wells v)
    apply List.Sublist.length_le
    apply List.monotone_filter_right
    intro w hw
    simp only [decide_eq_true_eq] at hw ⊢
    exact (List.mem_filter.mp hw).1

theorem within_of_agrees {k : Nat} (hk : k ≤ 2 ^ 51) {a : Option Double} {b : Option (X ℚ)}
    (h : Agrees Double.rounded (1 + 1 / 2 ^ 52) k a b) : Within k a b := by
  rcases h with h | ⟨x, y, rfl, rfl, hy, z, hz, hc⟩
  · exact Or.inl h
  · exact Or.inr ⟨x, z, y, rfl, hz, rfl, Double.close_abs hk hy hc⟩

theorem visible_of_notTiny {sol : Solution (X ℚ)} (h : NotTiny sol) : Visible sol := by
  have e : ∀ x : ℚ, 1 / 2 ^ 300 ≤ x → 1 ≤ x * 2 ^ 300 := by
    intro x hx
    rwa [div_le_iff₀ (two_pow_pos' 300)] at hx
  exact ⟨fun t h1 h2 => e t (h.tof t h1 h2), fun i x h1 y h2 h3 => e y (h.concentration i x h1 y h2 h3),
    fun i x h1 y h2 h3 => e y (h.tofOf i x h1 y h2 h3)⟩

/-- A computation on data that stand for `F`. -/
theorem accurate_of {D : List (Int × Int × Double)} {pv : List Double} {l : List (CellSetID × Int × Double)} {F : Flow ℚ}
    {DK : List (Nat × Nat × ℚ)} {wells : List (WellFlux ℚ)} {cs : WellFlux ℚ → List Nat} {f : WellFlux ℚ → Nat → ℚ} {M : Nat}
    (h : Inputs Double.rounded D pv l F DK wells cs f M) {layer : Nat → Nat} (hL : F.Layered layer)
    (hpv : ∀ v < F.n, Ordinary (F.pv v)) (hMb : M ≤ 2 ^ 40) (hsmall : ∀ v < F.n, (layer v + 2) ^ 2 * (4 * M + 6) ≤ 2 ^ 51)
    {starts : List CellSet} {sol' : Solution (X ℚ)} (hD : Props.Diag F wells cs f starts sol') (hvis : NotTiny sol') :
    ∃ N, ∀ fuel, N ≤ fuel → ∃ sol,
      computeSolution (graphsOf F.n D).1 (graphsOf F.n D).2 pv (gather l).only (gather l).byId noFailure fuel starts = .ok sol ∧
      Accurate F.n M layer sol sol' := by
  have hlay : ∀ v < F.n, layer v + 2 ≤ 2 ^ 51 := by
    intro v hv
    have h1 := hsmall v hv
    have h2 : layer v + 2 ≤ (layer v + 2) ^ 2 := Nat.le_self_pow (by norm_num) _
    have h3 : (layer v + 2) ^ 2 * 1 ≤ (layer v + 2) ^ 2 * (4 * M + 6) := Nat.mul_le_mul_left _ (by omega)
    omega
  have hl100 : ∀ v < F.n, layer v ≤ 2 ^ 100 := by
    intro v hv
    have := hlay v hv
    have h2 : (2 : Nat) ^ 51 ≤ 2 ^ 100 := Nat.pow_le_pow_right (by norm_num) (by norm_num)
    omega
  have hm := moderate_of h hL hpv
  obtain ⟨N, hN⟩ := computeSolution_returns Double.precise (Double.pow_clear hMb) h hm hL.down hl100
    (fun v hv => Double.pow_le_two (hsmall v hv)) hD (visible_of_notTiny hvis)
  refine ⟨max N (F.n + Verif.Spec.numEdges F.n (graphsOf F.n D).1.startPointers), fun fuel hfu => ?_⟩
  obtain ⟨sol, hs⟩ := hN fuel (le_trans (le_max_left _ _) hfu)
  refine ⟨sol, hs, ?_⟩
  obtain ⟨h1, h2⟩ := computeSolution_accuracy Double.precise (Double.pow_clear hMb) h hm hL.down hl100
    (fun v hv => Double.pow_le_two (hsmall v hv)) hL.supplied hD (visible_of_notTiny hvis) (le_trans (le_max_right _ _) hfu) hs
  refine ⟨fun v hv => within_of_agrees (hsmall v hv) (h1 v hv), fun i v hv => within_of_agrees ?_ (h2 i v hv).1,
    fun i v hv => within_of_agrees (hsmall v hv) (h2 i v hv).2⟩
  refine le_trans (Nat.mul_le_mul_right _ ?_) (hsmall v hv)
  have : layer v + 2 ≤ (layer v + 2) ^ 2 := Nat.le_self_pow (by norm_num) _
  omega

/-- Acceptance of start sets depends on the values of the numbers only. -/
theorem accepts_val {m : InflowFlux Double} {m' : InflowFlux (X ℚ)}
    (h : m.map (fun set => (set.1, set.2.map fun e => (e.1, Double.val e.2))) = m') (starts : List CellSet) :
    (InjectionAccepts m' starts → InjectionAccepts m starts) ∧ (ProductionAccepts m' starts → ProductionAccepts m starts) := by
  have hpos : ∀ x : Double, Arith.lt Arith.zero (Double.val x) = true → Arith.lt Arith.zero x = true := by
    intro x hx
    rw [Double.rounded.lt, val_zero' Double.rounded]; exact hx
  have hneg : ∀ x : Double, IsNegative (Double.val x) → IsNegative x := by
    rintro x ⟨h1, h2⟩
    unfold IsNegative
    rw [Double.rounded.lt, Double.rounded.lt, val_zero' Double.rounded]; exact ⟨h1, h2⟩
  subst h
  constructor
  · intro ha s hs
    obtain ⟨⟨set, hset, e1, e, he, h2⟩, h3⟩ := ha s hs
    obtain ⟨set, hm, rfl⟩ := List.mem_map.mp hset
    obtain ⟨e, hem, rfl⟩ := List.mem_map.mp he
    refine ⟨⟨set, hm, e1, e, hem, hpos _ h2⟩, fun c hc => ?_⟩
    obtain ⟨set, hset, e, he, e1, h2⟩ := h3 c hc
    obtain ⟨set, hm, rfl⟩ := List.mem_map.mp hset
    obtain ⟨e, hem, rfl⟩ := List.mem_map.mp he
    exact ⟨set, hm, e, hem, e1, hpos _ h2⟩
  · intro ha s hs
    obtain ⟨⟨set, hset, e1, e, he, h2⟩, h3⟩ := ha s hs
    obtain ⟨set, hm, rfl⟩ := List.mem_map.mp hset
    obtain ⟨e, hem, rfl⟩ := List.mem_map.mp he
    refine ⟨⟨set, hm, e1, e, hem, hneg _ h2⟩, fun c hc => ?_⟩
    obtain ⟨set, hset, e, he, e1, h2⟩ := h3 c hc
    obtain ⟨set, hm, rfl⟩ := List.mem_map.mp hset
    obtain ⟨e, hem, rfl⟩ := List.mem_map.mp he
    exact ⟨set, hm, e, hem, e1, hneg _ h2⟩

end Verif.Rounding
