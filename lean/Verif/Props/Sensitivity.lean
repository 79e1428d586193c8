/-
C97: results change little if the data change little.
-/
import Verif.Props.UpstreamCyclic
import Verif.Spec.Sensitivity

namespace Verif.Props
open Verif.Spec Verif.Toolbox Verif.Solver Verif.Derived Finset

section within
variable {K : Type} [Field K] [LinearOrder K] {r a b : K}

theorem _root_.Verif.Spec.WithinFactor.symm (h : WithinFactor r a b) : WithinFactor r b a := ⟨h.2, h.1⟩

variable [IsStrictOrderedRing K]

theorem _root_.Verif.Spec.WithinFactor.sum {ι : Type} {s : Finset ι} {f g : ι → K} (h : ∀ k ∈ s, WithinFactor r (f k) (g k)) :
    WithinFactor r (∑ k ∈ s, f k) (∑ k ∈ s, g k) := by
  constructor
  · rw [mul_sum]; exact sum_le_sum fun k hk => (h k hk).1
  · rw [mul_sum]; exact sum_le_sum fun k hk => (h k hk).2

theorem _root_.Verif.Spec.WithinFactor.mul {r' c d : K} (h : WithinFactor r a b) (h' : WithinFactor r' c d) (ha : 0 ≤ a) (hb : 0 ≤ b) (hc : 0 ≤ c) (hd : 0 ≤ d)
    (hr : 0 ≤ r) : WithinFactor (r * r') (a * c) (b * d) := by
  constructor
  · calc a * c ≤ (r * b) * (r' * d) := mul_le_mul h.1 h'.1 hc (mul_nonneg hr hb)
      _ = r * r' * (b * d) := by ring
  · calc b * d ≤ (r * a) * (r' * c) := mul_le_mul h.2 h'.2 hd (mul_nonneg hr ha)
      _ = r * r' * (a * c) := by ring

theorem _root_.Verif.Spec.WithinFactor.mono {r' : K} (h : WithinFactor r a b) (hr : r ≤ r') (ha : 0 ≤ a) (hb : 0 ≤ b) : WithinFactor r' a b :=
  ⟨h.1.trans (mul_le_mul_of_nonneg_right hr hb), h.2.trans (mul_le_mul_of_nonneg_right hr ha)⟩

theorem _root_.Verif.Spec.WithinFactor.min {c : K} (h : WithinFactor r a b) (hr : 1 ≤ r) (hc : 0 ≤ c) : WithinFactor r (min a c) (min b c) := by
  have hrc : c ≤ r * c := le_mul_of_one_le_left hc hr
  have h0 : 0 ≤ r := zero_le_one.trans hr
  constructor
  · rw [mul_min_of_nonneg _ _ h0]
    exact le_min ((min_le_left _ _).trans h.1) ((min_le_right _ _).trans hrc)
  · rw [mul_min_of_nonneg _ _ h0]
    exact le_min ((min_le_left _ _).trans h.2) ((min_le_right _ _).trans hrc)

theorem _root_.Verif.Spec.WithinFactor.pos (h : WithinFactor r a b) (hr : 1 ≤ r) : 0 < a ↔ 0 < b := by
  have h0 : 0 < r := zero_lt_one.trans_le hr
  constructor
  · intro ha; exact pos_of_mul_pos_right (ha.trans_le h.1) h0.le
  · intro hb; exact pos_of_mul_pos_right (hb.trans_le h.2) h0.le

theorem _root_.Verif.Spec.WithinFactor.refl (hr : 1 ≤ r) (ha : 0 ≤ a) : WithinFactor r a a :=
  ⟨le_mul_of_one_le_left ha hr, le_mul_of_one_le_left ha hr⟩

theorem _root_.Verif.Spec.WithinFactor.abs (h : WithinFactor r a b) (hr : 1 ≤ r) (ha : 0 ≤ a) : |b - a| ≤ (r - 1) * a := by
  have h0 : 0 ≤ r - 1 := sub_nonneg.mpr hr
  rw [abs_le]
  constructor
  · -- a - b ≤ (r - 1) b ≤ …
    rcases le_total a b with hab | hab
    · linarith [mul_nonneg h0 ha]
    · linarith [h.1, mul_le_mul_of_nonneg_left hab h0]
  · linarith [h.2]

end within

section flow
variable {K : Type} [Field K] [LinearOrder K]

/-- Two flows that differ at most by the factor `r`. -/
structure NearFlow (r : K) (F G : Flow K) : Prop where
  size : G.n = F.n
  flux : ∀ u < F.n, ∀ v < F.n, WithinFactor r (F.w u v) (G.w u v)
  pv : ∀ v < F.n, WithinFactor r (F.pv v) (G.pv v)
  src : ∀ v < F.n, WithinFactor r (F.src v) (G.src v)

variable {r : K} {F G : Flow K}

theorem NearFlow.symm (h : NearFlow r F G) : NearFlow r G F where
  size := h.size.symm
  flux u hu v hv := (h.flux u (h.size ▸ hu) v (h.size ▸ hv)).symm
  pv v hv := (h.pv v (h.size ▸ hv)).symm
  src v hv := (h.src v (h.size ▸ hv)).symm

theorem levels_acyclic {level : Nat → Nat} (h : F.Levels level) : F.Acyclic := by
  intro v hc
  have : ∀ a b, Relation.TransGen F.Edge a b → level a < level b := by
    intro a b hab
    induction hab with
    | single e => exact h _ _ e
    | tail _ e ih => exact ih.trans (h _ _ e)
  exact lt_irrefl _ (this v v hc)

variable [IsStrictOrderedRing K]

theorem NearFlow.total (h : NearFlow r F G) {v : Nat} (hv : v < F.n) : WithinFactor r (F.total v) (G.total v) := by
  have h1 : WithinFactor r (∑ u ∈ range F.n, F.w u v) (∑ u ∈ range F.n, G.w u v) :=
    WithinFactor.sum fun u hu => h.flux u (mem_range.mp hu) v hv
  have h2 := h.src v hv
  unfold Flow.total Flow.inflow
  rw [h.size]
  exact ⟨by linarith [h1.1, h2.1, mul_add r (∑ u ∈ range F.n, G.w u v) (G.src v)],
    by linarith [h1.2, h2.2, mul_add r (∑ u ∈ range F.n, F.w u v) (F.src v)]⟩

theorem NearFlow.edge (h : NearFlow r F G) (hr : 1 ≤ r) (u v : Nat) : G.Edge u v ↔ F.Edge u v := by
  unfold Flow.Edge
  rw [h.size]
  exact ⟨fun ⟨a, b, c⟩ => ⟨a, b, ((h.flux u a v b).pos hr).mpr c⟩, fun ⟨a, b, c⟩ => ⟨a, b, ((h.flux u a v b).pos hr).mp c⟩⟩

theorem NearFlow.reach (h : NearFlow r F G) (hr : 1 ≤ r) (u v : Nat) : G.Reach u v ↔ F.Reach u v := by
  have : G.Edge = F.Edge := by funext u v; exact propext (h.edge hr u v)
  unfold Flow.Reach
  rw [this]

theorem NearFlow.downstream (h : NearFlow r F G) (hr : 1 ≤ r) {s s' : List Nat} (hs : ∀ v, v ∈ s ↔ v ∈ s') (v : Nat) :
    G.Downstream s' v ↔ F.Downstream s v := by
  unfold Flow.Downstream
  simp only [h.reach hr, hs]

theorem NearFlow.levels (h : NearFlow r F G) (hr : 1 ≤ r) {level : Nat → Nat} (hl : F.Levels level) : G.Levels level :=
  fun u v e => hl u v ((h.edge hr u v).mp e)

/-- Values computed from upstream to downstream in two flows. -/
theorem NearFlow.upwind (h : NearFlow r F G) (hr : 1 ≤ r) (hF : F.Valid) (hG : G.Valid) {level : Nat → Nat} (hl : F.Levels level)
    {S : Nat → Prop} (hS : ∀ u v, F.Edge u v → S v → S u) {A : K} (hA : 0 ≤ A) {x y p q : Nat → K} (hx0 : ∀ v < F.n, 0 ≤ x v)
    (hxy : ∀ v < F.n, S v → y v ≤ A * r ^ (2 * (level v + 1)) * x v ∨
      (F.total v * x v = p v + ∑ u ∈ range F.n, x u * F.w u v ∧
        G.total v * y v = q v + ∑ u ∈ range F.n, y u * G.w u v ∧ q v ≤ A * r ^ (2 * level v + 1) * p v ∧
        (G.total v = 0 → y v = 0))) :
    ∀ v < F.n, S v → y v ≤ A * r ^ (2 * (level v + 1)) * x v := by
  have hr0 : 0 ≤ r := zero_le_one.trans hr
  refine acyclic_induction (levels_acyclic hl) (P := fun v => S v → y v ≤ A * r ^ (2 * (level v + 1)) * x v) ?_
  intro v hv ih hSv
  rcases hxy v hv hSv with hd | ⟨ex, ey, hpq, h0⟩
  · exact hd
  have hvG : v < G.n := by rw [h.size]; exact hv
  have hT : 0 ≤ G.total v :=
    add_nonneg (sum_nonneg fun u hu => hG.w_nonneg u v (mem_range.mp hu) hvG) (hG.src_nonneg v hvG)
  rcases hT.lt_or_eq with hT | hT
  · have hB : 0 ≤ A * r ^ (2 * level v + 1) := mul_nonneg hA (pow_nonneg hr0 _)
    have hsum : ∑ u ∈ range F.n, y u * G.w u v ≤ A * r ^ (2 * level v + 1) * ∑ u ∈ range F.n, x u * F.w u v := by
      rw [mul_sum]
      refine sum_le_sum fun u hu => ?_
      have hun := mem_range.mp hu
      have hw := hF.w_nonneg u v hun hv
      have hw' := hG.w_nonneg u v (by rw [h.size]; exact hun) hvG
      rcases hw'.lt_or_eq with e | e
      · have he : F.Edge u v := ⟨hun, hv, ((h.flux u hun v hv).pos hr).mpr e⟩
        have h1 := ih u he (hS u v he hSv)
        have h2 : r ^ (2 * (level u + 1)) * r ≤ r ^ (2 * level v + 1) := by
          rw [← pow_succ]
          have := hl u v he
          exact pow_le_pow_right₀ hr (by omega)
        calc y u * G.w u v ≤ (A * r ^ (2 * (level u + 1)) * x u) * (r * F.w u v) :=
              mul_le_mul h1 (h.flux u hun v hv).2 e.le
                (mul_nonneg (mul_nonneg hA (pow_nonneg hr0 _)) (hx0 u hun))
          _ = (A * (r ^ (2 * (level u + 1)) * r)) * (x u * F.w u v) := by ring
          _ ≤ A * r ^ (2 * level v + 1) * (x u * F.w u v) :=
              mul_le_mul_of_nonneg_right (mul_le_mul_of_nonneg_left h2 hA) (mul_nonneg (hx0 u hun) hw)
      · rw [← e, mul_zero]
        exact mul_nonneg hB (mul_nonneg (hx0 u hun) hw)
    have h3 : G.total v * y v ≤ G.total v * (A * r ^ (2 * (level v + 1)) * x v) := by
      calc G.total v * y v ≤ A * r ^ (2 * level v + 1) * (F.total v * x v) := by rw [ey, ex, mul_add]; linarith
        _ ≤ A * r ^ (2 * level v + 1) * ((r * G.total v) * x v) :=
            mul_le_mul_of_nonneg_left (mul_le_mul_of_nonneg_right (h.total hv).1 (hx0 v hv)) hB
        _ = G.total v * (A * r ^ (2 * (level v + 1)) * x v) := by
            rw [show 2 * (level v + 1) = 2 * level v + 1 + 1 from by ring, pow_succ]; ring
    exact le_of_mul_le_mul_left h3 hT
  · rw [h0 hT.symm]
    exact mul_nonneg (mul_nonneg hA (pow_nonneg hr0 _)) (hx0 v hv)

omit [IsStrictOrderedRing K] in
/-- Balances at every cell of a field that satisfies them downstream. -/
theorem facts_balance {V start : Nat → Prop} {inj τ c : Nat → K} (hf : Facts F V start inj τ c) (hF : F.Valid) (hacy : F.Acyclic)
    (hV : ∀ u v, V u → F.Edge u v → V v) (hinj : ∀ v < F.n, ¬ V v → inj v = 0) (hnd : ∀ v, V v → ¬ (start v ∧ F.src v = 0))
    {v : Nat} (hv : v < F.n) : F.total v * c v = inj v + ∑ u ∈ range F.n, c u * F.w u v := by
  by_cases hd : V v
  · rw [hf.exact v hd (hnd v hd) (hacy v), add_comm]
  · have e := facts_off hf hF hV hv hd (fun _ => 1)
    simp only [one_mul] at e
    rw [e, hf.off v hd, hinj v hv hd]; ring

/-- In a cell with no flow there is no tracer. -/
theorem facts_no_flow {V start : Nat → Prop} {inj τ c : Nat → K} (hf : Facts F V start inj τ c) (hF : F.Valid) {v : Nat}
    (hv : v < F.n) (h0 : F.total v = 0) : c v = 0 := by
  refine ((hf.nonneg v hv).2.lt_or_eq.resolve_left fun hc => ?_).symm
  obtain ⟨p, hp, _, _, hs, hr⟩ := hf.source v hv hc
  have hw : ∀ u ∈ range F.n, 0 ≤ F.w u v := fun u hu => hF.w_nonneg u v (mem_range.mp hu) hv
  have h1 := sum_nonneg hw
  have h2 := hF.src_nonneg v hv
  have h3 : (∑ u ∈ range F.n, F.w u v) + F.src v = 0 := h0
  rcases Relation.ReflTransGen.cases_tail hr with e | ⟨x, _, hx⟩
  · rw [← e] at hs; linarith
  · have := (sum_eq_zero_iff_of_nonneg hw).mp (by linarith) x (mem_range.mpr hx.1)
    have hx3 := hx.2.2
    rw [this] at hx3; exact lt_irrefl _ hx3

/-- One half of the comparison of two fields. -/
theorem NearFlow.half (h : NearFlow r F G) (hr : 1 ≤ r) (hF : F.Valid) (hG : G.Valid) {level : Nat → Nat} (hl : F.Levels level)
    {V V' start start' : Nat → Prop} {inj inj' τ τ' c c' : Nat → K} (hf : Facts F V start inj τ c)
    (hf' : Facts G V' start' inj' τ' c') (hV : ∀ u v, V u → F.Edge u v → V v) (hV' : ∀ u v, V' u → G.Edge u v → V' v)
    (hi : ∀ v < F.n, ¬ V v → inj v = 0) (hi' : ∀ v < G.n, ¬ V' v → inj' v = 0) (hnd : ∀ v, V v → ¬ (start v ∧ F.src v = 0))
    (hnd' : ∀ v, V' v → ¬ (start' v ∧ G.src v = 0)) (hin : ∀ v < F.n, WithinFactor r (inj v) (inj' v)) (hinj : ∀ v < F.n, 0 ≤ inj v) :
    ∀ v < F.n, c' v ≤ r ^ (2 * (level v + 1)) * c v := by
  have hacy := levels_acyclic hl
  have hacy' := levels_acyclic (h.levels hr hl)
  intro v hv
  have key := h.upwind hr hF hG hl (S := fun _ => True) (fun _ _ _ _ => trivial) (A := 1) zero_le_one (x := c) (y := c') (p := inj)
    (q := inj') (fun v hv => (hf.nonneg v hv).2) (fun v hv _ => Or.inr
      ⟨facts_balance hf hF hacy hV hi hnd hv, by
        rw [← h.size]; exact facts_balance hf' hG hacy' hV' hi' hnd' (by rw [h.size]; exact hv), by
        rw [one_mul]
        refine (hin v hv).2.trans (mul_le_mul_of_nonneg_right ?_ (hinj v hv))
        exact le_self_pow₀ hr (by omega), fun h0 => facts_no_flow hf' hG (by rw [h.size]; exact hv) h0⟩) v hv trivial
  rwa [one_mul] at key

/-- Times of two fields, multiplied with the concentrations. -/
theorem NearFlow.half_time (h : NearFlow r F G) (hr : 1 ≤ r) (hF : F.Valid) (hG : G.Valid) {level : Nat → Nat} (hl : F.Levels level)
    {V V' start start' : Nat → Prop} {inj inj' τ τ' c c' : Nat → K} (hf : Facts F V start inj τ c)
    (hf' : Facts G V' start' inj' τ' c') (hVn : ∀ v < F.n, 0 < c v → V v) (hVn' : ∀ v < G.n, 0 < c' v → V' v)
    (hcc : ∀ v < F.n, WithinFactor (r ^ (2 * (level v + 1))) (c v) (c' v)) :
    ∀ v < F.n, (∀ u, F.Reach u v → (F.Slow u ↔ G.Slow u)) → τ' v * c' v ≤ r ^ (2 * level v + 4) * (τ v * c v) := by
  have hr0 : 0 ≤ r := zero_le_one.trans hr
  have hacy := levels_acyclic hl
  have hacy' := levels_acyclic (h.levels hr hl)
  have hc0 : ∀ v < F.n, (c v = 0 ↔ c' v = 0) := by
    intro v hv
    have h1 := (hf.nonneg v hv).2
    have h2 := (hf'.nonneg v (by rw [h.size]; exact hv)).2
    have h3 := (hcc v hv).pos (one_le_pow₀ hr)
    constructor
    · intro e; by_contra hne; exact (h3.mpr (lt_of_le_of_ne h2 (Ne.symm hne))).ne' e
    · intro e; by_contra hne; exact (h3.mp (lt_of_le_of_ne h1 (Ne.symm hne))).ne' e
  intro v hv hSv
  have key := h.upwind hr hF hG hl (S := fun v => ∀ u, F.Reach u v → (F.Slow u ↔ G.Slow u))
    (fun u v e hv x hx => hv x (hx.tail e)) (A := r ^ 2) (pow_nonneg hr0 _) (x := fun v => τ v * c v) (y := fun v => τ' v * c' v)
    (p := fun v => F.pv v * c v) (q := fun v => G.pv v * c' v)
    (fun v hv => mul_nonneg (hf.nonneg v hv).1 (hf.nonneg v hv).2) (fun v hv hS => ?_) v hv hSv
  · have e : r ^ (2 * level v + 4) = r ^ 2 * r ^ (2 * (level v + 1)) := by rw [← pow_add]; congr 1; ring
    rw [e]; exact key
  have hvG : v < G.n := by rw [h.size]; exact hv
  have hgrow : r ^ (2 * (level v + 1)) ≤ r ^ 2 * r ^ (2 * (level v + 1)) := le_mul_of_one_le_left (pow_nonneg hr0 _) (one_le_pow₀ hr)
  rcases (hf.nonneg v hv).2.lt_or_eq with hc | hc
  · have hc' : 0 < c' v := ((hcc v hv).pos (one_le_pow₀ hr)).mp hc
    by_cases hs : F.Slow v
    · left
      have hs' := (hS v .refl).mp hs
      show τ' v * c' v ≤ r ^ 2 * r ^ (2 * (level v + 1)) * (τ v * c v)
      rw [hf.capped v (hVn v hv hc) (Or.inl hs), hf'.capped v (hVn' v hvG hc') (Or.inl hs')]
      calc cap * c' v ≤ cap * (r ^ (2 * (level v + 1)) * c v) := mul_le_mul_of_nonneg_left (hcc v hv).2 cap_pos.le
        _ ≤ cap * (r ^ 2 * r ^ (2 * (level v + 1)) * c v) :=
            mul_le_mul_of_nonneg_left (mul_le_mul_of_nonneg_right hgrow hc.le) cap_pos.le
        _ = _ := by ring
    · right
      have hs' := fun x => hs ((hS v .refl).mpr x)
      refine ⟨?_, ?_, ?_, fun h0 => ?_⟩
      · show F.total v * (τ v * c v) = F.pv v * c v + ∑ u ∈ range F.n, τ u * c u * F.w u v
        rw [← hf.texact v (hVn v hv hc) hs hc (hacy v)]; ring
      · show G.total v * (τ' v * c' v) = G.pv v * c' v + ∑ u ∈ range F.n, τ' u * c' u * G.w u v
        rw [← h.size, ← hf'.texact v (hVn' v hvG hc') hs' hc' (hacy' v)]; ring
      · show G.pv v * c' v ≤ r ^ 2 * r ^ (2 * level v + 1) * (F.pv v * c v)
        calc G.pv v * c' v ≤ (r * F.pv v) * (r ^ (2 * (level v + 1)) * c v) :=
              mul_le_mul (h.pv v hv).2 (hcc v hv).2 hc'.le (mul_nonneg hr0 (hF.pv_nonneg v hv))
          _ = r ^ 2 * r ^ (2 * level v + 1) * (F.pv v * c v) := by
              rw [show 2 * (level v + 1) = 2 * level v + 1 + 1 from by ring, pow_succ]; ring
      · exact absurd (facts_no_flow hf' hG hvG h0) hc'.ne'
  · left
    show τ' v * c' v ≤ r ^ 2 * r ^ (2 * (level v + 1)) * (τ v * c v)
    rw [(hc0 v hv).mp hc.symm, ← hc]; simp

end flow

/-! ### Exact arithmetic, cycle-free flow -/

section exact
variable {K : Type} [Field K] [LinearOrder K] [IsStrictOrderedRing K] [Archimedean K]

omit [Archimedean K] in
theorem NearFlow.times {r : K} {F G : Flow K} (h : NearFlow r F G) (hr : 1 ≤ r) (hF : F.Valid) (hG : G.Valid) {level : Nat → Nat}
    (hl : F.Levels level) {V V' start start' : Nat → Prop} {inj inj' τ τ' c c' : Nat → K} (hf : Facts F V start inj τ c)
    (hf' : Facts G V' start' inj' τ' c') (hVn : ∀ v < F.n, 0 < c v → V v) (hVn' : ∀ v < G.n, 0 < c' v → V' v)
    (hcc : ∀ v < F.n, WithinFactor (r ^ (2 * (level v + 1))) (c v) (c' v)) {v : Nat} (hv : v < F.n) (hc : 0 < c v)
    (hs : ∀ u, F.Reach u v → (F.Slow u ↔ G.Slow u)) :
    WithinFactor (r ^ (4 * level v + 6)) (min (τ v) cap) (min (τ' v) cap) := by
  have hr0 : 0 ≤ r := zero_le_one.trans hr
  have hvG : v < G.n := by rw [h.size]; exact hv
  have hc' : 0 < c' v := ((hcc v hv).pos (one_le_pow₀ hr)).mp hc
  have a := h.half_time hr hF hG hl hf hf' hVn hVn' hcc v hv hs
  have b := h.symm.half_time hr hG hF (h.levels hr hl) hf' hf hVn' hVn (fun v hv => (hcc v (h.size ▸ hv)).symm) v hvG
    (fun u hu => (hs u ((h.reach hr u v).mp hu)).symm)
  have e : r ^ (4 * level v + 6) = r ^ (2 * level v + 4) * r ^ (2 * (level v + 1)) := by rw [← pow_add]; congr 1; ring
  refine WithinFactor.min ⟨?_, ?_⟩ (one_le_pow₀ hr) cap_pos.le
  · refine le_of_mul_le_mul_right ?_ hc
    calc τ v * c v ≤ r ^ (2 * level v + 4) * (τ' v * c' v) := b
      _ ≤ r ^ (2 * level v + 4) * (τ' v * (r ^ (2 * (level v + 1)) * c v)) :=
          mul_le_mul_of_nonneg_left (mul_le_mul_of_nonneg_left (hcc v hv).2 (hf'.nonneg v hvG).1) (pow_nonneg hr0 _)
      _ = r ^ (4 * level v + 6) * τ' v * c v := by rw [e]; ring
  · refine le_of_mul_le_mul_right ?_ hc'
    calc τ' v * c' v ≤ r ^ (2 * level v + 4) * (τ v * c v) := a
      _ ≤ r ^ (2 * level v + 4) * (τ v * (r ^ (2 * (level v + 1)) * c' v)) :=
          mul_le_mul_of_nonneg_left (mul_le_mul_of_nonneg_left (hcc v hv).1 (hf.nonneg v hv).1) (pow_nonneg hr0 _)
      _ = r ^ (4 * level v + 6) * τ v * c' v := by rw [e]; ring

section diag
variable {r : K} {F G : Flow K} {wells wells' : List (WellFlux K)} {cs : WellFlux K → List Nat} {f : WellFlux K → Nat → K}
  {starts starts' : List CellSet} {sol sol' : Solution (X K)}

theorem Diag.near_global (D : Diag F wells cs f starts sol) (D' : Diag G wells' cs f starts' sol') (h : NearFlow r F G) (hr : 1 ≤ r)
    {level : Nat → Nat} (hl : F.Levels level) :
    ∀ v < F.n, (∀ u, F.Reach u v → (F.Slow u ↔ G.Slow u)) →
      WithinFactor (r ^ (4 * level v + 6)) (fieldAt sol.timeOfFlight v) (fieldAt sol'.timeOfFlight v) := by
  obtain ⟨d, st, h1, h2, _⟩ := D.solved
  obtain ⟨d', st', h1', h2', _⟩ := D'.solved
  obtain ⟨τ, c, hr1, _, hf⟩ := global_facts h1
  obtain ⟨τ', c', hr1', _, hf'⟩ := global_facts h1'
  rw [Res.ok.inj (h2.unique hr1), Res.ok.inj (h2'.unique hr1')]
  have hcc : ∀ v < F.n, WithinFactor (r ^ (2 * (level v + 1))) (c v) (c' v) := fun v hv =>
    ⟨h.symm.half hr h1'.valid h1.valid (h.levels hr hl) hf' hf (fun _ _ _ e => e.2.1) (fun _ _ _ e => e.2.1)
      (fun v hv hn => absurd hv hn) (fun v hv hn => absurd hv hn) (fun v _ hc => hc.1.ne' hc.2) (fun v _ hc => hc.1.ne' hc.2)
      (fun v hv => (h.src v (h.size ▸ hv)).symm) (fun v hv => h1'.valid.src_nonneg v hv) v (by rw [h.size]; exact hv),
    h.half hr h1.valid h1'.valid hl hf hf' (fun _ _ _ e => e.2.1) (fun _ _ _ e => e.2.1)
      (fun v hv hn => absurd hv hn) (fun v hv hn => absurd hv hn) (fun v _ hc => hc.1.ne' hc.2) (fun v _ hc => hc.1.ne' hc.2)
      h.src (fun v hv => h1.valid.src_nonneg v hv) v hv⟩
  intro v hv hs
  have hvG : v < G.n := by rw [h.size]; exact hv
  rw [arr_fieldAt _ _ hv, arr_fieldAt _ _ hvG]
  rcases (hf.nonneg v hv).2.lt_or_eq with hc | hc
  · exact h.times hr h1.valid h1'.valid hl hf hf' (fun v hv _ => hv) (fun v hv _ => hv) hcc hv hc hs
  · have hc' : c' v = 0 := by
      have h2 := (hf'.nonneg v hvG).2
      have h3 := (hcc v hv).pos (one_le_pow₀ hr)
      by_contra hne
      exact (h3.mpr (lt_of_le_of_ne h2 (Ne.symm hne))).ne hc
    rw [hf.capped v hv (Or.inr hc.symm), hf'.capped v hvG (Or.inr hc'), min_self]
    exact WithinFactor.refl (one_le_pow₀ hr) cap_pos.le

omit [IsStrictOrderedRing K] [Archimedean K] in
theorem injected_mem {l : List Nat} {g : Nat → K} (hg : ∀ v ∈ l, 0 < g v) (v : Nat) : v ∈ l ↔ 0 < injected l g v := by
  unfold injected
  split
  · rename_i hm
    simp only [hm, true_iff]
    exact hg v hm
  · rename_i hm
    simp [hm]

theorem Diag.near (D : Diag F wells cs f starts sol) (D' : Diag G wells' cs f starts' sol') (h : NearFlow r F G) (hr : 1 ≤ r)
    {level : Nat → Nat} (hl : F.Levels level) {w w' : WellFlux K} (hw : w ∈ wells) (hw' : w' ∈ wells')
    (hs : ∃ s ∈ starts, s.id = w.id) (hs' : ∃ s ∈ starts', s.id = w'.id)
    (hin : ∀ v < F.n, WithinFactor r (injected (cs w) (f w) v) (injected (cs w') (f w') v)) :
    ∀ v < F.n, WithinFactor (r ^ (2 * (level v + 1))) (valueAt (sol.concentration w.id) v) (valueAt (sol'.concentration w'.id) v) ∧
      ((∀ u, F.Reach u v → (F.Slow u ↔ G.Slow u)) →
        WithinFactor (r ^ (4 * level v + 6)) (valueAt (sol.timeOfFlightOf w.id) v) (valueAt (sol'.timeOfFlightOf w'.id) v)) := by
  obtain ⟨d, st, h1, _, h3⟩ := D.solved
  obtain ⟨d', st', h1', _, h3'⟩ := D'.solved
  obtain ⟨l, hl1, e1, e2⟩ := h3 w hw hs
  obtain ⟨l', hl1', e1', e2'⟩ := h3' w' hw' hs'
  rw [e1, e2, e1', e2']
  have hrange := D.side.range w hw
  have hrange' := D'.side.range w' hw'
  obtain ⟨τ, hf, hval⟩ := local_values h1 hrange (fun p hp => (D.side.pos w hw p hp).le) hl1
  obtain ⟨τ', hf', hval'⟩ := local_values h1' hrange' (fun p hp => (D'.side.pos w' hw' p hp).le) hl1'
  have hmem : ∀ v, v ∈ cs w ↔ v ∈ cs w' := by
    intro v
    by_cases hv : v < F.n
    · rw [injected_mem (D.side.pos w hw), injected_mem (D'.side.pos w' hw')]
      exact (hin v hv).pos hr
    · exact ⟨fun hc => absurd (hrange v hc) hv, fun hc => absurd (h.size ▸ hrange' v hc) hv⟩
  have hoff : ∀ {H : Flow K} {s : List Nat} {g : Nat → K} (v : Nat), ¬ H.Downstream s v → injected s g v = 0 := by
    intro H s g v hd
    unfold injected
    exact if_neg fun hm => hd ⟨v, hm, .refl⟩
  have hnn : ∀ {s : List Nat} {g : Nat → K}, (∀ v ∈ s, 0 < g v) → ∀ v, 0 ≤ injected s g v := by
    intro s g hg v
    unfold injected
    split
    · exact (hg v (by assumption)).le
    · exact le_rfl
  have hcc : ∀ v < F.n, WithinFactor (r ^ (2 * (level v + 1))) (valueAt l.concentration v) (valueAt l'.concentration v) := fun v hv =>
    ⟨h.symm.half hr h1'.valid h1.valid (h.levels hr hl) hf' hf (fun _ _ => downstream_edge) (fun _ _ => downstream_edge)
      (fun v _ => hoff v) (fun v _ => hoff v) (fun v hd => (hval' v hd).2.2) (fun v hd => (hval v hd).2.2)
      (fun v hv => (hin v (h.size ▸ hv)).symm) (fun v _ => hnn (D'.side.pos w' hw') v) v (by rw [h.size]; exact hv),
    h.half hr h1.valid h1'.valid hl hf hf' (fun _ _ => downstream_edge) (fun _ _ => downstream_edge)
      (fun v _ => hoff v) (fun v _ => hoff v) (fun v hd => (hval v hd).2.2) (fun v hd => (hval' v hd).2.2)
      hin (fun v _ => hnn (D.side.pos w hw) v) v hv⟩
  have hV : ∀ {H : Flow K} {s : List Nat} {p : Nat → Prop} {j t c : Nat → K} (_ : Facts H (H.Downstream s) p j t c), ∀ v < H.n, 0 < c v →
      H.Downstream s v := by
    intro H s p j t c hf v _ hc
    by_contra hn
    rw [hf.off v hn] at hc
    exact lt_irrefl _ hc
  intro v hv
  refine ⟨hcc v hv, fun hs => ?_⟩
  by_cases hd : F.Downstream (cs w) v
  · have hd' := (h.downstream hr hmem v).mpr hd
    rw [(hval v hd).2.1, (hval' v hd').2.1]
    exact h.times hr h1.valid h1'.valid hl hf hf' (hV hf) (hV hf') hcc hv (hval v hd).1 hs
  · have hd' := fun x => hd ((h.downstream hr hmem v).mp x)
    have e : ∀ {H : Flow K} {d : SolverData (X K)} {st : SolverState (X K)} {s : List Nat} {g : Nat → K} {l : LocalSolution (X K)}
        (_ : SolverFor H d st) (_ : ∀ p ∈ s, p < H.n) (_ : ∀ p ∈ s, 0 ≤ g p) (_ : LocalReturns d st (valuesOf s g) (.ok l)),
        ¬ H.Downstream s v → valueAt l.tof v = 0 := by
      intro H d st s g l a b c e hn
      obtain ⟨τ, c, _, _, cells, hs, hm, rfl⟩ := local_ok a b c e
      show valueAt (valuesOf cells _) v = 0
      rw [valueAt_valuesOf hs, if_neg fun hc => hn ((hm v).mp hc)]
    rw [e h1 hrange (fun p hp => (D.side.pos w hw p hp).le) hl1 hd,
      e h1' hrange' (fun p hp => (D'.side.pos w' hw' p hp).le) hl1' hd']
    exact ⟨by simp, by simp⟩

end diag

omit [Archimedean K] in
theorem within_sum {l l' : List (WellFlux K)} {r : K} {a : WellFlux K → K}
    (h : List.Forall₂ (fun w w' => WithinFactor r (a w) (a w')) l l') : WithinFactor r (l.map a).sum (l'.map a).sum := by
  induction h with
  | nil => simp [WithinFactor]
  | cons h _ ih =>
    simp only [List.map_cons, List.sum_cons]
    exact ⟨by rw [mul_add]; exact add_le_add h.1 ih.1, by rw [mul_add]; exact add_le_add h.2 ih.2⟩

section problem
variable {P Q : Problem K} {r : K}

omit [Archimedean K] in
theorem _root_.Verif.Spec.Problem.Near.forward (h : Problem.Near r P Q) : NearFlow r P.forward Q.forward :=
  ⟨h.size, h.flux, h.pv, fun v hv => within_sum (h.wells.imp fun _ _ hw => (hw.2 v hv).1)⟩

omit [Archimedean K] in
theorem _root_.Verif.Spec.Problem.Near.backward (h : Problem.Near r P Q) : NearFlow r P.backward Q.backward :=
  ⟨h.size, fun u hu v hv => h.flux v hv u hu, h.pv, fun v hv => within_sum (h.wells.imp fun _ _ hw => (hw.2 v hv).2)⟩

omit [Archimedean K] [IsStrictOrderedRing K] in
theorem _root_.Verif.Spec.Problem.Near.well (h : Problem.Near r P Q) {w : WellFlux K} (hw : w ∈ P.wells) : ∃ w' ∈ Q.wells, w.id = w'.id ∧ ∀ v < P.n,
    WithinFactor r (max (Problem.wellAt w v) 0) (max (Problem.wellAt w' v) 0) ∧
    WithinFactor r (max (-Problem.wellAt w v) 0) (max (-Problem.wellAt w' v) 0) := by
  have := h.wells
  revert this hw
  generalize Q.wells = l'
  generalize P.wells = l
  intro hw hl
  induction hl with
  | nil => simp at hw
  | cons a _ ih =>
    rcases List.mem_cons.mp hw with rfl | hw
    · exact ⟨_, by simp, a⟩
    · obtain ⟨w', h1, h2⟩ := ih hw
      exact ⟨w', by simp [h1], h2⟩

variable (hP : P.Valid) (hQ : Q.Valid) (hr : 1 ≤ r) (hnear : Problem.Near r P Q)
  {g g' : ConnectivityGraph} {calls calls' : List (Call (X K))} (h : P.GivenTo g calls) (h' : Q.GivenTo g' calls')
include hP hQ hr hnear h h'

/-- **C97** (exact arithmetic, cycle-free flow) If the data of two problems differ at most by a factor `r`, then the concentrations
    of an injector in a cell at level `k` differ at most by the factor `r ^ (2 k + 2)`, and the times of flight, global and of
    injectors, at most by the factor `r ^ (4 k + 6)` if the same cells upstream are filled too slowly to be treated as flowing. -/
theorem C97_injection {level : Nat → Nat} (hl : P.forward.Levels level) {starts starts' : List CellSet} {sol sol' : Solution (X K)}
    (hs : InjectionReturns g calls starts (.ok sol)) (hs' : InjectionReturns g' calls' starts' (.ok sol')) :
    ∀ v < P.n,
      (∀ i, (∃ s ∈ starts, s.id = i) → (∃ s ∈ starts', s.id = i) →
        WithinFactor (r ^ (2 * level v + 2)) (valueAt (sol.concentration i) v) (valueAt (sol'.concentration i) v)) ∧
      ((∀ u, P.forward.Reach u v → (P.forward.Slow u ↔ Q.forward.Slow u)) →
        WithinFactor (r ^ (4 * level v + 6)) (fieldAt sol.timeOfFlight v) (fieldAt sol'.timeOfFlight v) ∧
        ∀ i, (∃ s ∈ starts, s.id = i) → (∃ s ∈ starts', s.id = i) →
          WithinFactor (r ^ (4 * level v + 6)) (valueAt (sol.timeOfFlightOf i) v) (valueAt (sol'.timeOfFlightOf i) v)) := by
  have D := diag_injection hP h hs
  have D' := diag_injection hQ h' hs'
  have key : ∀ i, (∃ s ∈ starts, s.id = i) → (∃ s ∈ starts', s.id = i) → ∀ v < P.n,
      WithinFactor (r ^ (2 * (level v + 1))) (valueAt (sol.concentration i) v) (valueAt (sol'.concentration i) v) ∧
      ((∀ u, P.forward.Reach u v → (P.forward.Slow u ↔ Q.forward.Slow u)) →
        WithinFactor (r ^ (4 * level v + 6)) (valueAt (sol.timeOfFlightOf i) v) (valueAt (sol'.timeOfFlightOf i) v)) := by
    intro i hi hi'
    obtain ⟨s, hs, rfl⟩ := hi
    obtain ⟨w, hw, e, _⟩ := D.known s hs
    obtain ⟨w', hw', e', hin⟩ := hnear.well hw
    have := D.near D' hnear.forward hr hl hw hw' ⟨s, hs, e.symm⟩ (by rw [← e', e]; exact hi') (fun v hv => by
      rw [injected_pos, injected_pos]; exact (hin v hv).1)
    rw [← e', e] at this
    exact this
  intro v hv
  exact ⟨fun i hi hi' => (key i hi hi' v hv).1, fun hslow => ⟨D.near_global D' hnear.forward hr hl v hv hslow,
    fun i hi hi' => (key i hi hi' v hv).2 hslow⟩⟩

/-- **C97** The same for production, with levels of the reversed flow. -/
theorem C97_production {level : Nat → Nat} (hl : P.backward.Levels level) {starts starts' : List CellSet} {sol sol' : Solution (X K)}
    (hs : ProductionReturns g calls starts (.ok sol)) (hs' : ProductionReturns g' calls' starts' (.ok sol')) :
    ∀ v < P.n,
      (∀ i, (∃ s ∈ starts, s.id = i) → (∃ s ∈ starts', s.id = i) →
        WithinFactor (r ^ (2 * level v + 2)) (valueAt (sol.concentration i) v) (valueAt (sol'.concentration i) v)) ∧
      ((∀ u, P.backward.Reach u v → (P.backward.Slow u ↔ Q.backward.Slow u)) →
        WithinFactor (r ^ (4 * level v + 6)) (fieldAt sol.timeOfFlight v) (fieldAt sol'.timeOfFlight v) ∧
        ∀ i, (∃ s ∈ starts, s.id = i) → (∃ s ∈ starts', s.id = i) →
          WithinFactor (r ^ (4 * level v + 6)) (valueAt (sol.timeOfFlightOf i) v) (valueAt (sol'.timeOfFlightOf i) v)) := by
  have D := diag_production hP h hs
  have D' := diag_production hQ h' hs'
  have key : ∀ i, (∃ s ∈ starts, s.id = i) → (∃ s ∈ starts', s.id = i) → ∀ v < P.n,
      WithinFactor (r ^ (2 * (level v + 1))) (valueAt (sol.concentration i) v) (valueAt (sol'.concentration i) v) ∧
      ((∀ u, P.backward.Reach u v → (P.backward.Slow u ↔ Q.backward.Slow u)) →
        WithinFactor (r ^ (4 * level v + 6)) (valueAt (sol.timeOfFlightOf i) v) (valueAt (sol'.timeOfFlightOf i) v)) := by
    intro i hi hi'
    obtain ⟨s, hs, rfl⟩ := hi
    obtain ⟨w, hw, e, _⟩ := D.known s hs
    obtain ⟨w', hw', e', hin⟩ := hnear.well hw
    have := D.near D' hnear.backward hr hl hw hw' ⟨s, hs, e.symm⟩ (by rw [← e', e]; exact hi') (fun v hv => by
      rw [injected_neg, injected_neg]; exact (hin v hv).2)
    rw [← e', e] at this
    exact this
  intro v hv
  exact ⟨fun i hi hi' => (key i hi hi' v hv).1, fun hslow => ⟨D.near_global D' hnear.backward hr hl v hv hslow,
    fun i hi hi' => (key i hi hi' v hv).2 hslow⟩⟩

omit hP hQ hr hnear h h' in
theorem Diag.conc_nonneg {F : Flow K} {wells : List (WellFlux K)} {cs : WellFlux K → List Nat} {f : WellFlux K → Nat → K}
    {starts : List CellSet} {sol : Solution (X K)} (D : Diag F wells cs f starts sol) (i : CellSetID) :
    ∀ v < F.n, 0 ≤ valueAt (sol.concentration i) v := by
  intro v hv
  rcases D.well i with ⟨_, e⟩ | ⟨w, hw, rfl, _, hs⟩
  · rw [e]; exact le_rfl
  · obtain ⟨d, st, h1, _, h3⟩ := D.solved
    obtain ⟨l, hl, _, e2⟩ := h3 w hw hs
    rw [e2]
    obtain ⟨τ, hf, _⟩ := local_values h1 (D.side.range w hw) (fun p hp => (D.side.pos w hw p hp).le) hl
    exact (hf.nonneg v hv).2

/-- **C97** (exact arithmetic, cycle-free flow) The volume of a pair of an injector and a producer changes at most by the factor
    `r ^ (4 L + 5)`, its fluxes at most by the factor `r ^ (2 L + 3)`, where `L` is the largest level. -/
theorem C97_pairs {level level' : Nat → Nat} {L : Nat} (hl : P.forward.Levels level) (hl' : P.backward.Levels level')
    (hL : ∀ v < P.n, level v ≤ L ∧ level' v ≤ L) {istarts istarts' pstarts pstarts' : List CellSet} {S S' T T' : Solution (X K)}
    (hS : InjectionReturns g calls istarts (.ok S)) (hS' : InjectionReturns g' calls' istarts' (.ok S'))
    (hT : ProductionReturns g calls pstarts (.ok T)) (hT' : ProductionReturns g' calls' pstarts' (.ok T'))
    {i p : CellSetID} (hi : ∃ s ∈ istarts, s.id = i) (hi' : ∃ s ∈ istarts', s.id = i) (hp : ∃ s ∈ pstarts, s.id = p)
    (hp' : ∃ s ∈ pstarts', s.id = p) :
    (∃ V V' : K, pairVolume S T (arr P.n P.pv) i p = .ok (X.fin V) ∧ pairVolume S' T' (arr Q.n Q.pv) i p = .ok (X.fin V') ∧
      WithinFactor (r ^ (4 * L + 5)) V V') ∧
    ∃ a b a' b' : K, pairFluxes S T i p P.inflowMap = .ok (X.fin a, X.fin b) ∧
      pairFluxes S' T' i p Q.inflowMap = .ok (X.fin a', X.fin b') ∧
      WithinFactor (r ^ (2 * L + 3)) a a' ∧ WithinFactor (r ^ (2 * L + 3)) (-b) (-b') := by
  have hr0 : 0 ≤ r := zero_le_one.trans hr
  have DS := diag_injection hP h hS
  have DS' := diag_injection hQ h' hS'
  have DT := diag_production hP h hT
  have DT' := diag_production hQ h' hT'
  have nS := DS.conc_nonneg i
  have nS' : ∀ v < P.n, _ := fun v hv => DS'.conc_nonneg i v (by rw [← hnear.size] at hv; exact hv)
  have nT := DT.conc_nonneg p
  have nT' : ∀ v < P.n, _ := fun v hv => DT'.conc_nonneg p v (by rw [← hnear.size] at hv; exact hv)
  have cS : ∀ v < P.n, WithinFactor (r ^ (2 * L + 2)) (valueAt (S.concentration i) v) (valueAt (S'.concentration i) v) := fun v hv =>
    ((C97_injection hP hQ hr hnear h h' hl hS hS' v hv).1 i hi hi').mono
      (pow_le_pow_right₀ hr (by have := (hL v hv).1; omega)) (nS v hv) (nS' v hv)
  have cT : ∀ v < P.n, WithinFactor (r ^ (2 * L + 2)) (valueAt (T.concentration p) v) (valueAt (T'.concentration p) v) := fun v hv =>
    ((C97_production hP hQ hr hnear h h' hl' hT hT' v hv).1 p hp hp').mono
      (pow_le_pow_right₀ hr (by have := (hL v hv).2; omega)) (nT v hv) (nT' v hv)
  have hpv : ∀ v < P.n, 0 ≤ P.pv v := (forward_valid hP).pv_nonneg
  have hpv' : ∀ v < P.n, 0 ≤ Q.pv v := fun v hv => (forward_valid hQ).pv_nonneg v (by rw [← hnear.size] at hv; exact hv)
  have hp0 : ∀ k, (0 : K) ≤ r ^ k := fun k => pow_nonneg hr0 k
  constructor
  · refine ⟨_, _, C49_value (DS.tracer i) (DT.tracer p) P.pv, C49_value (DS'.tracer i) (DT'.tracer p) Q.pv, ?_⟩
    show WithinFactor _ (∑ v ∈ range P.n, _) (∑ v ∈ range Q.n, _)
    rw [hnear.size]
    refine WithinFactor.sum fun v hv => ?_
    have hv := mem_range.mp hv
    have := ((hnear.pv v hv).mul (cS v hv) (hpv v hv) (hpv' v hv) (nS v hv) (nS' v hv) hr0).mul (cT v hv)
      (mul_nonneg (hpv v hv) (nS v hv)) (mul_nonneg (hpv' v hv) (nS' v hv)) (nT v hv) (nT' v hv) (mul_nonneg hr0 (hp0 _))
    have e : r ^ (4 * L + 5) = r * r ^ (2 * L + 2) * r ^ (2 * L + 2) := by ring
    rw [e]; exact this
  · obtain ⟨s, hs, es⟩ := hi
    obtain ⟨w, hw, ew, _⟩ := DS.known s hs
    obtain ⟨t, ht, et⟩ := hp
    obtain ⟨y, hy, ey, _⟩ := DT.known t ht
    obtain rfl : i = w.id := (ew.trans es).symm
    obtain rfl : p = y.id := (ey.trans et).symm
    obtain ⟨w', hw', e', hin⟩ := hnear.well hw
    obtain ⟨y', hy', f', hout⟩ := hnear.well hy
    have e2 := C50_value hQ hw' hy' (S := S') (T := T') (DS'.tracer _) (DT'.tracer _)
    rw [← e', ← f'] at e2
    refine ⟨_, _, _, _, C50_value hP hw hy (DS.tracer w.id) (DT.tracer y.id), e2, ?_, ?_⟩
    · rw [hnear.size]
      refine WithinFactor.sum fun v hv => ?_
      have hv := mem_range.mp hv
      have := ((hin v hv).1).mul (cT v hv) (le_max_right _ _) (le_max_right _ _) (nT v hv) (nT' v hv) hr0
      have e : r ^ (2 * L + 3) = r * r ^ (2 * L + 2) := by ring
      rw [e]; exact this
    · rw [hnear.size, neg_neg, neg_neg]
      refine WithinFactor.sum fun v hv => ?_
      have hv := mem_range.mp hv
      have := ((hout v hv).2).mul (cS v hv) (le_max_right _ _) (le_max_right _ _) (nS v hv) (nS' v hv) hr0
      have e : r ^ (2 * L + 3) = r * r ^ (2 * L + 2) := by ring
      rw [e]; exact this

end problem
end exact

/-! ### Flow with cycles -/

section cycles
variable {K : Type} [Field K] [LinearOrder K] [IsStrictOrderedRing K] {r : K} {F G : Flow K}

/-- A carried field is at most 1 if no cell adds more than its source. -/
theorem carries_le_one (hF : F.Valid) {s : List Nat} (hp : ∀ p ∈ s, p < F.n ∧ 0 < F.src p) {q x : Nat → K} (hx : F.Carries s q x)
    (hq : ∀ v < F.n, q v ≤ F.src v) : ∀ v < F.n, x v ≤ 1 := by
  have := max_principle hF (S := F.Downstream s) (e := fun v => x v - 1) (fun v hv hn => by
    show x v - 1 ≤ 0
    rw [hx.1 v hv hn]; linarith) (fun v hv hd => by
    show F.total v * (x v - 1) ≤ ∑ u ∈ range F.n, (x u - 1) * F.w u v
    have e : ∑ u ∈ range F.n, (x u - 1) * F.w u v = (∑ u ∈ range F.n, x u * F.w u v) - ∑ u ∈ range F.n, F.w u v := by
      rw [← sum_sub_distrib]; exact sum_congr rfl fun u _ => by ring
    have ht : F.total v = (∑ u ∈ range F.n, F.w u v) + F.src v := rfl
    rw [e, mul_sub, hx.2 v hv hd, ht]
    linarith [hq v hv]) (fun v _ ⟨p, h1, h2⟩ => ⟨p, (hp p h1).1, (hp p h1).2, h2⟩)
  intro v hv
  linarith [this v hv]

/-- Carried fields of two flows that differ at most by a factor. -/
theorem NearFlow.carried (h : NearFlow r F G) (hr : 1 ≤ r) (hF : F.Valid) (hG : G.Valid) {s s' : List Nat}
    (hs : ∀ v, v ∈ s ↔ v ∈ s') (hp : ∀ p ∈ s, p < F.n ∧ 0 < F.src p) {q q' x x' t : Nat → K}
    (hq : ∀ v < F.n, 0 ≤ q v ∧ q v ≤ F.src v) (hq' : ∀ v < G.n, 0 ≤ q' v ∧ q' v ≤ G.src v)
    (hqq : ∀ v < F.n, WithinFactor r (q v) (q' v)) (hx : F.Carries s q x) (hx' : G.Carries s' q' x') (ht : F.Carries s F.total t) :
    ∀ v < F.n, |x' v - x v| ≤ 2 * (r - 1) * t v := by
  have hr1 : 0 ≤ r - 1 := sub_nonneg.mpr hr
  have hp' : ∀ p ∈ s', p < G.n ∧ 0 < G.src p := fun p hps => by
    obtain ⟨a, b⟩ := hp p ((hs p).mpr hps)
    exact ⟨by rw [h.size]; exact a, ((h.src p a).pos hr).mp b⟩
  have h1 := carries_le_one hG hp' hx' fun v hv => (hq' v hv).2
  have h0 := (C76_exact hG hp' q').2.2 (fun v hv => (hq' v hv).1) x' hx'
  rw [h.size] at h1 h0
  have hd := h.downstream hr hs
  -- the difference is carried, with what the cells add bounded
  let ρ : Nat → K := fun v => (q' v - q v) + (∑ u ∈ range F.n, x' u * (G.w u v - F.w u v)) + (F.total v - G.total v) * x' v
  have hdiff : F.Carries s ρ fun v => x' v - x v := by
    constructor
    · intro v hv hn
      show x' v - x v = 0
      rw [hx.1 v hv hn, hx'.1 v (by rw [h.size]; exact hv) fun hc => hn ((hd v).mp hc), sub_zero]
    · intro v hv hdv
      have e1 := hx.2 v hv hdv
      have e2 := hx'.2 v (by rw [h.size]; exact hv) ((hd v).mpr hdv)
      rw [h.size] at e2
      have e3 : ∑ u ∈ range F.n, (x' u - x u) * F.w u v = (∑ u ∈ range F.n, x' u * F.w u v) - ∑ u ∈ range F.n, x u * F.w u v := by
        rw [← sum_sub_distrib]; exact sum_congr rfl fun u _ => by ring
      have e4 : ∑ u ∈ range F.n, x' u * (G.w u v - F.w u v) = (∑ u ∈ range F.n, x' u * G.w u v) - ∑ u ∈ range F.n, x' u * F.w u v := by
        rw [← sum_sub_distrib]; exact sum_congr rfl fun u _ => by ring
      show F.total v * (x' v - x v) = (∑ u ∈ range F.n, (x' u - x u) * F.w u v) + ρ v
      simp only [ρ]
      rw [e3, e4]
      linarith [mul_sub (F.total v) (x' v) (x v), sub_mul (F.total v) (G.total v) (x' v)]
  have hρ : ∀ v < F.n, |ρ v| ≤ 2 * (r - 1) * F.total v := by
    intro v hv
    have hw : ∀ u ∈ range F.n, 0 ≤ F.w u v := fun u hu => hF.w_nonneg u v (mem_range.mp hu) hv
    have hT : 0 ≤ F.total v := add_nonneg (sum_nonneg hw) (hF.src_nonneg v hv)
    have a1 : |q' v - q v| ≤ (r - 1) * F.src v :=
      ((hqq v hv).abs hr (hq v hv).1).trans (mul_le_mul_of_nonneg_left (hq v hv).2 hr1)
    have a2 : |∑ u ∈ range F.n, x' u * (G.w u v - F.w u v)| ≤ (r - 1) * ∑ u ∈ range F.n, F.w u v := by
      rw [mul_sum]
      refine (abs_sum_le_sum_abs _ _).trans (sum_le_sum fun u hu => ?_)
      have hun := mem_range.mp hu
      rw [abs_mul, abs_of_nonneg (h0 u hun)]
      calc x' u * |G.w u v - F.w u v| ≤ 1 * |G.w u v - F.w u v| := mul_le_mul_of_nonneg_right (h1 u hun) (abs_nonneg _)
        _ ≤ (r - 1) * F.w u v := by rw [one_mul]; exact (h.flux u hun v hv).abs hr (hw u hu)
    have a3 : |(F.total v - G.total v) * x' v| ≤ (r - 1) * F.total v := by
      rw [abs_mul, abs_of_nonneg (h0 v hv), abs_sub_comm]
      calc |G.total v - F.total v| * x' v ≤ |G.total v - F.total v| * 1 := mul_le_mul_of_nonneg_left (h1 v hv) (abs_nonneg _)
        _ ≤ (r - 1) * F.total v := by rw [mul_one]; exact (h.total hv).abs hr hT
    have a4 : F.total v = (∑ u ∈ range F.n, F.w u v) + F.src v := rfl
    have a5 : |ρ v| ≤ |q' v - q v| + |∑ u ∈ range F.n, x' u * (G.w u v - F.w u v)| + |(F.total v - G.total v) * x' v| :=
      (abs_add_le _ _).trans (add_le_add (abs_add_le _ _) le_rfl)
    have a6 : (r - 1) * F.total v = (r - 1) * (∑ u ∈ range F.n, F.w u v) + (r - 1) * F.src v := by rw [a4, mul_add]
    linarith
  have hneg : F.Carries s (fun v => -ρ v) fun v => -(x' v - x v) := by
    constructor
    · intro v hv hn
      exact neg_eq_zero.mpr (hdiff.1 v hv hn)
    · intro v hv hdv
      have e : F.total v * (x' v - x v) = (∑ u ∈ range F.n, (x' u - x u) * F.w u v) + ρ v := hdiff.2 v hv hdv
      have e3 : ∑ u ∈ range F.n, -(x' u - x u) * F.w u v = -∑ u ∈ range F.n, (x' u - x u) * F.w u v := by
        rw [← sum_neg_distrib]; exact sum_congr rfl fun u _ => by ring
      rw [e3]
      linarith [mul_neg (F.total v) (x' v - x v)]
  have hbig : F.Carries s (fun v => 2 * (r - 1) * F.total v) fun v => 2 * (r - 1) * t v := by
    constructor
    · intro v hv hn
      show 2 * (r - 1) * t v = 0
      rw [ht.1 v hv hn, mul_zero]
    · intro v hv hdv
      have e := ht.2 v hv hdv
      have e3 : ∑ u ∈ range F.n, 2 * (r - 1) * t u * F.w u v = 2 * (r - 1) * ∑ u ∈ range F.n, t u * F.w u v := by
        rw [mul_sum]; exact sum_congr rfl fun u _ => by ring
      rw [e3]
      calc F.total v * (2 * (r - 1) * t v) = 2 * (r - 1) * (F.total v * t v) := by ring
        _ = _ := by rw [e]; ring
  intro v hv
  refine abs_le.mpr ⟨?_, ?_⟩
  · have := carries_le hF hp hneg hbig (fun v hv => (neg_le_abs _).trans (hρ v hv)) v hv
    linarith
  · exact carries_le hF hp hdiff hbig (fun v hv => (le_abs_self _).trans (hρ v hv)) v hv

end cycles

section exact_cycles
variable {K : Type} [Field K] [LinearOrder K] [IsStrictOrderedRing K] [Archimedean K] {r : K}

omit [Archimedean K] in
theorem injected_within {F G : Flow K} {wells wells' : List (WellFlux K)} {cs : WellFlux K → List Nat} {f : WellFlux K → Nat → K}
    (S : Side wells cs f F.n F.src) (S' : Side wells' cs f G.n G.src) (h : NearFlow r F G) (hr : 1 ≤ r) {w w' : WellFlux K}
    (hw : w ∈ wells) (hw' : w' ∈ wells')
    (hin : ∀ v < F.n, WithinFactor r (injected (cs w) (f w) v) (injected (cs w') (f w') v)) :
    (∀ v, v ∈ cs w ↔ v ∈ cs w') ∧ (∀ v < F.n, 0 ≤ injected (cs w) (f w) v ∧ injected (cs w) (f w) v ≤ F.src v) ∧
    ∀ v < G.n, 0 ≤ injected (cs w') (f w') v ∧ injected (cs w') (f w') v ≤ G.src v := by
  have key : ∀ {H : Flow K} {ws : List (WellFlux K)} {x : WellFlux K}, Side ws cs f H.n H.src → x ∈ ws → ∀ v < H.n,
      0 ≤ injected (cs x) (f x) v ∧ injected (cs x) (f x) v ≤ H.src v := by
    intro H ws x S hx v _
    obtain ⟨a, _, b⟩ := sum_pos_iff (wells := ws) (g := fun w => injected (cs w) (f w) v) (by
      intro y hy
      show 0 ≤ injected (cs y) (f y) v
      unfold injected
      split
      · exact (S.pos y hy v (by assumption)).le
      · exact le_rfl)
    rw [S.src v]
    refine ⟨?_, b x hx⟩
    unfold injected
    split
    · exact (S.pos x hx v (by assumption)).le
    · exact le_rfl
  refine ⟨fun v => ?_, key S hw, key S' hw'⟩
  by_cases hv : v < F.n
  · rw [injected_mem (S.pos w hw), injected_mem (S'.pos w' hw')]
    exact (hin v hv).pos hr
  · exact ⟨fun hc => absurd (S.range w hw v hc) hv, fun hc => absurd (h.size ▸ S'.range w' hw' v hc) hv⟩

theorem Diag.near_cyclic {F G : Flow K} {wells wells' : List (WellFlux K)} {cs : WellFlux K → List Nat} {f : WellFlux K → Nat → K}
    {starts starts' : List CellSet} {sol sol' : Solution (X K)} (D : Diag F wells cs f starts sol)
    (D' : Diag G wells' cs f starts' sol') (h : NearFlow r F G) (hr : 1 ≤ r) (hself : ∀ v < F.n, ¬ F.Loop v)
    (hself' : ∀ v < G.n, ¬ G.Loop v) {w w' : WellFlux K} (hw : w ∈ wells) (hw' : w' ∈ wells') (hs : ∃ s ∈ starts, s.id = w.id)
    (hs' : ∃ s ∈ starts', s.id = w'.id) (hin : ∀ v < F.n, WithinFactor r (injected (cs w) (f w) v) (injected (cs w') (f w') v))
    {m m' t : Nat → K} (hm : F.Carries (cs w) F.cycleInflow m) (hm' : G.Carries (cs w') G.cycleInflow m')
    (ht : F.Carries (cs w) F.total t) :
    ∀ v < F.n, |valueAt (sol'.concentration w'.id) v - valueAt (sol.concentration w.id) v|
      ≤ 2 * (r - 1) * t v + 1 / 1000000000 * (m v + m' v) := by
  have hF : F.Valid := by obtain ⟨d, st, h1, _⟩ := D.solved; exact h1.valid
  have hG : G.Valid := by obtain ⟨d, st, h1, _⟩ := D'.solved; exact h1.valid
  have hpF : ∀ p ∈ cs w, p < F.n ∧ 0 < F.src p := fun p hp =>
    ⟨D.side.range w hw p hp, lt_of_lt_of_le (D.side.pos w hw p hp) (D.le_src hw hp)⟩
  have hpG : ∀ p ∈ cs w', p < G.n ∧ 0 < G.src p := fun p hp =>
    ⟨D'.side.range w' hw' p hp, lt_of_lt_of_le (D'.side.pos w' hw' p hp) (D'.le_src hw' hp)⟩
  obtain ⟨x, hx⟩ := (C76_exact hF hpF (injected (cs w) (f w))).1
  obtain ⟨y, hy⟩ := (C76_exact hG hpG (injected (cs w') (f w'))).1
  obtain ⟨i1, i2, i3⟩ := injected_within D.side D'.side h hr hw hw' hin
  have hcy : ∀ {H : Flow K}, H.Valid → ∀ v < H.n, 0 ≤ H.cycleInflow v := fun {H} hH v hv => by
    classical
    unfold Flow.cycleInflow
    refine sum_nonneg fun u hu => ?_
    split
    · exact hH.w_nonneg u v (mem_range.mp hu) hv
    · exact le_rfl
  have m0 := (C76_exact hF hpF F.cycleInflow).2.2 (hcy hF) m hm
  have m0' := (C76_exact hG hpG G.cycleInflow).2.2 (hcy hG) m' hm'
  intro v hv
  have hvG : v < G.n := by rw [h.size]; exact hv
  obtain ⟨a1, a2⟩ := D.error hself hw hs hx hm v hv
  obtain ⟨b1, b2⟩ := D'.error hself' hw' hs' hy hm' v hvG
  have c := abs_le.mp (h.carried hr hF hG i1 hpF i2 i3 hin hx hy ht v hv)
  have := m0 v hv
  have := m0' v hvG
  exact abs_le.mpr ⟨by linarith, by linarith⟩

variable {P Q : Problem K} (hP : P.Valid) (hQ : Q.Valid) (hr : 1 ≤ r) (hnear : Problem.Near r P Q)
  {g g' : ConnectivityGraph} {calls calls' : List (Call (X K))} (h : P.GivenTo g calls) (h' : Q.GivenTo g' calls')
  (hself : ∀ v < P.n, ¬ P.forward.Loop v) (hself' : ∀ v < Q.n, ¬ Q.forward.Loop v) {w w' : WellFlux K} (hw : w ∈ P.wells)
  (hw' : w' ∈ Q.wells) (hid : w.id = w'.id)
include hP hQ hr hnear h h' hself hself' hw hw' hid

omit [IsStrictOrderedRing K] [Archimedean K] hP hr h h' hself hself' in
theorem near_pair : ∀ v < P.n, WithinFactor r (max (Problem.wellAt w v) 0) (max (Problem.wellAt w' v) 0) ∧
    WithinFactor r (max (-Problem.wellAt w v) 0) (max (-Problem.wellAt w' v) 0) := by
  obtain ⟨x, hx, e, hin⟩ := hnear.well hw
  have : x = w' := wells_id hQ.wells_sorted hx hw' (e.symm.trans hid)
  rwa [this] at hin

/-- **C97** (exact arithmetic, any cycles, no cell has a self-connection as its only cycle) If the data of two problems differ at
    most by a factor `r`, then the concentrations of an injector differ by at most `2 (r - 1) t` and the tolerance of the solver in
    both problems, where `t` is the number of cells that the fluid has passed on the average. -/
theorem C97_injection_cyclic {starts starts' : List CellSet} {sol sol' : Solution (X K)} (hs : ∃ s ∈ starts, s.id = w.id)
    (hs' : ∃ s ∈ starts', s.id = w'.id) (hret : InjectionReturns g calls starts (.ok sol))
    (hret' : InjectionReturns g' calls' starts' (.ok sol')) {m m' t : Nat → K}
    (hm : P.forward.Carries (posCells w) P.forward.cycleInflow m) (hm' : Q.forward.Carries (posCells w') Q.forward.cycleInflow m')
    (ht : P.forward.Carries (posCells w) P.forward.total t) :
    ∀ v < P.n, |valueAt (sol'.concentration w'.id) v - valueAt (sol.concentration w.id) v|
      ≤ 2 * (r - 1) * t v + 1 / 1000000000 * (m v + m' v) :=
  (diag_injection hP h hret).near_cyclic (diag_injection hQ h' hret') hnear.forward hr hself hself' hw hw' hs hs' (fun v hv => by
    rw [injected_pos, injected_pos]; exact (near_pair hQ hnear hw hw' hid v hv).1) hm hm' ht

/-- **C97** The same for production, in the reversed flow. -/
theorem C97_production_cyclic {starts starts' : List CellSet} {sol sol' : Solution (X K)} (hs : ∃ s ∈ starts, s.id = w.id)
    (hs' : ∃ s ∈ starts', s.id = w'.id) (hret : ProductionReturns g calls starts (.ok sol))
    (hret' : ProductionReturns g' calls' starts' (.ok sol')) {m m' t : Nat → K}
    (hm : P.backward.Carries (negCells w) P.backward.cycleInflow m) (hm' : Q.backward.Carries (negCells w') Q.backward.cycleInflow m')
    (ht : P.backward.Carries (negCells w) P.backward.total t) :
    ∀ v < P.n, |valueAt (sol'.concentration w'.id) v - valueAt (sol.concentration w.id) v|
      ≤ 2 * (r - 1) * t v + 1 / 1000000000 * (m v + m' v) :=
  (diag_production hP h hret).near_cyclic (diag_production hQ h' hret') hnear.backward hr (backward_not_loop hself)
    (backward_not_loop hself') hw hw' hs hs' (fun v hv => by
      rw [injected_neg, injected_neg]; exact (near_pair hQ hnear hw hw' hid v hv).2) hm hm' ht

end exact_cycles

/-! ### Doubles -/

section double

theorem Nearly.near {r : ℚ} {F G : Flow ℚ} {wells wells' : List (WellFlux ℚ)} {cs : WellFlux ℚ → List Nat}
    {f : WellFlux ℚ → Nat → ℚ} {starts starts' : List CellSet} {sol sol' : Solution Double} {M : Nat}
    (N : Nearly F wells cs f starts sol M) (N' : Nearly G wells' cs f starts' sol' M) (h : NearFlow r F G) (hr : 1 ≤ r)
    (hself : ∀ v < F.n, ¬ F.Loop v) (hself' : ∀ v < G.n, ¬ G.Loop v) {w w' : WellFlux ℚ} (hw : w ∈ wells) (hw' : w' ∈ wells')
    (hs : ∃ s ∈ starts, s.id = w.id) (hs' : ∃ s ∈ starts', s.id = w'.id)
    (hin : ∀ v < F.n, WithinFactor r (injected (cs w) (f w) v) (injected (cs w') (f w') v)) {m m' t t' : Nat → ℚ}
    (hm : F.Carries (cs w) F.cycleInflow m) (hm' : G.Carries (cs w') G.cycleInflow m') (ht : F.Carries (cs w) F.total t)
    (ht' : G.Carries (cs w') G.total t') :
    ∀ v < F.n, |doubleAt (sol'.concentration w'.id) v - doubleAt (sol.concentration w.id) v|
      ≤ 2 * (r - 1) * t v + 1 / 1000000000 * (m v + m' v) + ((4 * M + 6 : Nat) : ℚ) / 2 ^ 51 * (t v + t' v) := by
  have hF := N.valid
  have hG := N'.valid
  have hpF := N.sources hw
  have hpG := N'.sources hw'
  obtain ⟨x, hx⟩ := (C76_exact hF hpF (injected (cs w) (f w))).1
  obtain ⟨y, hy⟩ := (C76_exact hG hpG (injected (cs w') (f w'))).1
  obtain ⟨i1, i2, i3⟩ := injected_within N.side N'.side h hr hw hw' hin
  intro v hv
  have hvG : v < G.n := by rw [h.size]; exact hv
  have a := abs_le.mp (N.error hself hw hs hx hm ht v hv)
  have b := abs_le.mp (N'.error hself' hw' hs' hy hm' ht' v hvG)
  have c := abs_le.mp (h.carried hr hF hG i1 hpF i2 i3 hin hx hy ht v hv)
  have e := mul_add (((4 * M + 6 : Nat) : ℚ) / 2 ^ 51) (t v) (t' v)
  exact abs_le.mpr ⟨by linarith, by linarith⟩

variable {r : ℚ} {P Q : Problem ℚ} (hP : P.Valid) (hQ : Q.Valid) {M : Nat} (hO : P.OfOrdinarySize M) (hO' : Q.OfOrdinarySize M)
  (hr : 1 ≤ r) (hnear : Problem.Near r P Q) {g g' : ConnectivityGraph} {calls calls' : List (Call Double)}
  (h : P.StoredIn g calls) (h' : Q.StoredIn g' calls') (hself : ∀ v < P.n, ¬ P.forward.Loop v)
  (hself' : ∀ v < Q.n, ¬ Q.forward.Loop v) {w w' : WellFlux ℚ} (hw : w ∈ P.wells) (hw' : w' ∈ Q.wells) (hid : w.id = w'.id)
include hP hQ hO hO' hr hnear h h' hself hself' hw hw' hid

/-- **C97** (doubles, any cycles) The same, with the rounding errors bounded in C80. -/
theorem C97_injection_double (htotal : ∀ v < P.n, P.forward.total v ≤ 2 ^ 100) (htotal' : ∀ v < Q.n, Q.forward.total v ≤ 2 ^ 100)
    {starts starts' : List CellSet} {sol sol' : Solution Double} (hs : ∃ s ∈ starts, s.id = w.id)
    (hs' : ∃ s ∈ starts', s.id = w'.id) (hret : InjectionReturns g calls starts (.ok sol))
    (hret' : InjectionReturns g' calls' starts' (.ok sol')) {m m' t t' : Nat → ℚ}
    (hm : P.forward.Carries (posCells w) P.forward.cycleInflow m) (hm' : Q.forward.Carries (posCells w') Q.forward.cycleInflow m')
    (ht : P.forward.Carries (posCells w) P.forward.total t) (ht' : Q.forward.Carries (posCells w') Q.forward.total t') :
    ∀ v < P.n, |doubleAt (sol'.concentration w'.id) v - doubleAt (sol.concentration w.id) v|
      ≤ 2 * (r - 1) * t v + 1 / 1000000000 * (m v + m' v) + ((4 * M + 6 : Nat) : ℚ) / 2 ^ 51 * (t v + t' v) :=
  (nearly_injection hP hO htotal h hret).near (nearly_injection hQ hO' htotal' h' hret') hnear.forward hr hself hself' hw hw' hs hs'
    (fun v hv => by rw [injected_pos, injected_pos]; exact (near_pair hQ hnear hw hw' hid v hv).1) hm hm' ht ht'

/-- **C97** The same for production, in the reversed flow. -/
theorem C97_production_double (htotal : ∀ v < P.n, P.backward.total v ≤ 2 ^ 100) (htotal' : ∀ v < Q.n, Q.backward.total v ≤ 2 ^ 100)
    {starts starts' : List CellSet} {sol sol' : Solution Double} (hs : ∃ s ∈ starts, s.id = w.id)
    (hs' : ∃ s ∈ starts', s.id = w'.id) (hret : ProductionReturns g calls starts (.ok sol))
    (hret' : ProductionReturns g' calls' starts' (.ok sol')) {m m' t t' : Nat → ℚ}
    (hm : P.backward.Carries (negCells w) P.backward.cycleInflow m) (hm' : Q.backward.Carries (negCells w') Q.backward.cycleInflow m')
    (ht : P.backward.Carries (negCells w) P.backward.total t) (ht' : Q.backward.Carries (negCells w') Q.backward.total t') :
    ∀ v < P.n, |doubleAt (sol'.concentration w'.id) v - doubleAt (sol.concentration w.id) v|
      ≤ 2 * (r - 1) * t v + 1 / 1000000000 * (m v + m' v) + ((4 * M + 6 : Nat) : ℚ) / 2 ^ 51 * (t v + t' v) :=
  (nearly_production hP hO htotal h hret).near (nearly_production hQ hO' htotal' h' hret') hnear.backward hr (backward_not_loop hself)
    (backward_not_loop hself') hw hw' hs hs'
    (fun v hv => by rw [injected_neg, injected_neg]; exact (near_pair hQ hnear hw hw' hid v hv).2) hm hm' ht ht'

end double

/-! ### Where times jump -/

/-- A row of four cells.  Well `A` injects in the first and the third, `P` produces in the last.  The second cell takes `a` times
    200 years to fill. -/
def exJump (a : ℚ) : Problem ℚ where
  n := 4
  conns := [(0, 1), (1, 2), (2, 3)]
  nphase := 1
  phi c _ := if c = 2 then 2 else 1
  pv v := if v = 0 then 190 * (365 * 24 * 60 * 60) else if v = 1 then a * (200 * (365 * 24 * 60 * 60)) else 2
  wells := [⟨⟨[65]⟩, [0, 2], fun _ => 1⟩, ⟨⟨[80]⟩, [3], fun _ => -2⟩]

theorem exJump_valid {a : ℚ} (ha : 0 ≤ a) : (exJump a).Valid where
  int := by show 4 ≤ INT_MAX; decide
  pos := by show 0 < 4; decide
  some_connection := by unfold exJump; simp
  range := by unfold exJump; simp
  pv v _ := by unfold exJump; simp only; split <;> [norm_num; split <;> [positivity; norm_num]]
  wells_sorted := by unfold exJump; simp; decide
  cells_sorted := by unfold exJump; simp
  cells_range := by unfold exJump; simp

theorem exJump_flux (a : ℚ) (u v : Nat) : (exJump a).flux u v
    = if u = 0 ∧ v = 1 then 1 else if u = 1 ∧ v = 2 then 1 else if u = 2 ∧ v = 3 then 2 else 0 := by
  have n1 : (exJump a).conns = [(0, 1), (1, 2), (2, 3)] := rfl
  have n2 : ∀ c, (exJump a).net c = if c = 2 then 2 else 1 := fun c => by unfold Problem.net exJump; simp
  unfold Problem.flux Problem.carried
  rw [n1]
  simp only [List.length_cons, List.length_nil, sum_range_succ, sum_range_zero, n2]
  simp only [List.getElem?_cons_succ, List.getElem?_cons_zero, Option.some.injEq, Prod.mk.injEq]
  by_cases h1 : u = 0 ∧ v = 1
  · obtain ⟨rfl, rfl⟩ := h1; norm_num
  by_cases h2 : u = 1 ∧ v = 2
  · obtain ⟨rfl, rfl⟩ := h2; norm_num
  by_cases h3 : u = 2 ∧ v = 3
  · obtain ⟨rfl, rfl⟩ := h3; norm_num
  rw [if_neg h1, if_neg h2, if_neg h3]
  have h1' : ¬ (0 = u ∧ 1 = v) := fun h => h1 ⟨h.1.symm, h.2.symm⟩
  have h2' : ¬ (1 = u ∧ 2 = v) := fun h => h2 ⟨h.1.symm, h.2.symm⟩
  have h3' : ¬ (2 = u ∧ 3 = v) := fun h => h3 ⟨h.1.symm, h.2.symm⟩
  rw [if_neg h1', if_neg h2', if_neg h3']
  norm_num

theorem exJump_source (a : ℚ) (v : Nat) : (exJump a).source v = if v = 0 ∨ v = 2 then 1 else 0 := by
  unfold Problem.source Problem.wellAt exJump
  by_cases h0 : v = 0
  · subst h0; simp
  by_cases h2 : v = 2
  · subst h2; simp
  by_cases h3 : v = 3
  · subst h3; simp
  simp [h0, h2, h3]

theorem exJump_levels (a : ℚ) : (exJump a).forward.Levels id := by
  intro u v ⟨_, _, h⟩
  change 0 < (exJump a).flux u v at h
  rw [exJump_flux] at h
  show u < v
  split at h
  · omega
  · split at h
    · omega
    · split at h
      · omega
      · exact absurd h (lt_irrefl _)

/-- The time of flight of the third cell. -/
theorem exJump_time {a : ℚ} (ha : 1 ≤ a) {g : ConnectivityGraph} {calls : List (Call (X ℚ))} (h : (exJump a).GivenTo g calls)
    {starts : List CellSet} {sol : Solution (X ℚ)} (hr : InjectionReturns g calls starts (.ok sol)) :
    fieldAt sol.timeOfFlight 2 = (if 1 < a then 100 else 195) * (365 * 24 * 60 * 60) + 1 := by
  have D := diag_injection (exJump_valid (zero_le_one.trans ha)) h hr
  obtain ⟨d, st, h1, h2, _⟩ := D.solved
  obtain ⟨τ, c, hr1, _, hf⟩ := global_facts h1
  have hacy := levels_acyclic (exJump_levels a)
  have hn : (exJump a).forward.n = 4 := rfl
  have hw : ∀ u v, (exJump a).forward.w u v = (exJump a).flux u v := fun _ _ => rfl
  have hs : ∀ v, (exJump a).forward.src v = (exJump a).source v := fun _ => rfl
  have t0 : (exJump a).forward.total 0 = 1 := by
    unfold Flow.total Flow.inflow
    simp [hn, hw, hs, exJump_flux, exJump_source, sum_range_succ]
  have t1 : (exJump a).forward.total 1 = 1 := by
    unfold Flow.total Flow.inflow
    simp [hn, hw, hs, exJump_flux, exJump_source, sum_range_succ]
  have t2 : (exJump a).forward.total 2 = 2 := by
    unfold Flow.total Flow.inflow
    simp [hn, hw, hs, exJump_flux, exJump_source, sum_range_succ]; norm_num
  have hex := fun v (hv : v < 4) => hf.exact v hv (fun hc => hc.1.ne' hc.2) (hacy v)
  have c0 : c 0 = 1 := by
    have := hex 0 (by decide)
    rw [t0] at this
    simp [hn, hw, hs, exJump_flux, exJump_source, sum_range_succ] at this
    exact this
  have c1 : c 1 = 1 := by
    have := hex 1 (by decide)
    rw [t1] at this
    simp [hn, hw, hs, exJump_flux, exJump_source, sum_range_succ, c0] at this
    exact this
  have c2 : c 2 = 1 := by
    have := hex 2 (by decide)
    rw [t2] at this
    simp [hn, hw, hs, exJump_flux, exJump_source, sum_range_succ, c1] at this
    linarith
  have p0 : (exJump a).forward.pv 0 = 190 * (365 * 24 * 60 * 60) := rfl
  have p1 : (exJump a).forward.pv 1 = a * (200 * (365 * 24 * 60 * 60)) := rfl
  have p2 : (exJump a).forward.pv 2 = 2 := rfl
  have hcap : (cap : ℚ) = 200 * (365 * 24 * 60 * 60) := by unfold cap; norm_num
  have e0 : τ 0 = 190 * (365 * 24 * 60 * 60) := by
    have := hf.texact 0 (show 0 < 4 by decide) (by rw [t0, p0, hcap]; norm_num) (by rw [c0]; norm_num) (hacy 0)
    rw [t0, p0] at this
    simp [hn, hw, exJump_flux, sum_range_succ, c0] at this
    exact this
  have hslow : (exJump a).forward.total 1 < (exJump a).forward.pv 1 / cap ↔ 1 < a := by
    rw [t1, p1, hcap, mul_div_assoc, div_self (by norm_num), mul_one]
  have e1 : τ 1 = (if 1 < a then 200 else 390) * (365 * 24 * 60 * 60) := by
    by_cases hlt : 1 < a
    · rw [hf.capped 1 (show 1 < 4 by decide) (Or.inl (hslow.mpr hlt)), hcap, if_pos hlt]
    · have ha1 : a = 1 := le_antisymm (not_lt.mp hlt) ha
      have := hf.texact 1 (show 1 < 4 by decide) (fun x => hlt (hslow.mp x)) (by rw [c1]; norm_num) (hacy 1)
      rw [t1, p1] at this
      simp [hn, hw, exJump_flux, sum_range_succ, c0, c1, e0] at this
      rw [if_neg hlt, this, ha1]
      norm_num
  have e2 : τ 2 = (if 1 < a then 100 else 195) * (365 * 24 * 60 * 60) + 1 := by
    have := hf.texact 2 (show 2 < 4 by decide) (by rw [t2, p2, hcap]; norm_num) (by rw [c2]; norm_num) (hacy 2)
    rw [t2, p2, c2] at this
    simp [hn, hw, exJump_flux, sum_range_succ, c1] at this
    rw [e1] at this
    by_cases hlt : 1 < a
    · rw [if_pos hlt] at this ⊢
      linarith
    · rw [if_neg hlt] at this ⊢
      linarith
  rw [Res.ok.inj (h2.unique hr1), arr_fieldAt _ _ (show 2 < (exJump a).forward.n from (by decide : 2 < 4)), e2, min_eq_left]
  rw [hcap]
  split <;> norm_num

theorem exJump_near {r : ℚ} (hr : 1 ≤ r) : Problem.Near r (exJump 1) (exJump r) where
  size := rfl
  flux u hu v hv := by
    rw [exJump_flux, exJump_flux]
    refine WithinFactor.refl hr ?_
    split <;> [norm_num; split <;> [norm_num; split <;> norm_num]]
  pv v _ := by
    by_cases h1 : v = 1
    · subst h1
      show WithinFactor r (1 * (200 * (365 * 24 * 60 * 60))) (r * (200 * (365 * 24 * 60 * 60)))
      constructor
      · nlinarith
      · linarith
    · have : (exJump r).pv v = (exJump 1).pv v := by unfold exJump; simp only [if_neg h1]
      rw [this]
      exact WithinFactor.refl hr ((exJump_valid zero_le_one).pv v (by assumption))
  wells := by
    have : (exJump r).wells = (exJump 1).wells := rfl
    rw [this]
    exact List.forall₂_same.mpr fun w _ => ⟨rfl, fun v _ =>
      ⟨WithinFactor.refl hr (le_max_right _ _), WithinFactor.refl hr (le_max_right _ _)⟩⟩

/-- **C97** The times of flight do jump where a cell upstream is just fast enough to be treated as flowing: however little the pore
    volume of that cell grows, the global time of flight of a cell downstream of it falls from 195 years to 100 years (and one
    second). -/
theorem C97_jump {r : ℚ} (hr : 1 < r) : ∃ (P Q : Problem ℚ) (g g' : ConnectivityGraph) (calls calls' : List (Call (X ℚ)))
    (starts : List CellSet) (sol sol' : Solution (X ℚ)), P.Valid ∧ Q.Valid ∧ Problem.Near r P Q ∧ P.forward.Levels id ∧
    P.GivenTo g calls ∧ Q.GivenTo g' calls' ∧ InjectionReturns g calls starts (.ok sol) ∧ InjectionReturns g' calls' starts (.ok sol') ∧
    2 < P.n ∧ fieldAt sol.timeOfFlight 2 = 195 * (365 * 24 * 60 * 60) + 1 ∧
    fieldAt sol'.timeOfFlight 2 = 100 * (365 * 24 * 60 * 60) + 1 := by
  have v1 := exJump_valid (a := 1) zero_le_one
  have v2 := exJump_valid (a := r) (zero_le_one.trans hr.le)
  obtain ⟨g, calls, h⟩ := exists_given v1 (show 3 * 1 < SIZE_MOD by decide)
  obtain ⟨g', calls', h'⟩ := exists_given v2 (show 3 * 1 < SIZE_MOD by decide)
  have acc : ∀ a, InjectionAccepts (exJump a).inflowMap [] := fun a s hs => by simp at hs
  obtain ⟨S, hS⟩ := (C40_valid_problem v1 h _).1 (acc 1)
  obtain ⟨S', hS'⟩ := (C40_valid_problem v2 h' _).1 (acc r)
  refine ⟨exJump 1, exJump r, g, g', calls, calls', [], S, S', v1, v2, exJump_near hr.le, exJump_levels 1, h, h', hS, hS', by decide, ?_, ?_⟩
  · rw [exJump_time le_rfl h hS, if_neg (lt_irrefl _)]
  · rw [exJump_time hr.le h' hS', if_pos hr]

/-! ### Cases -/

/-- `exProblem` with slightly other data. -/
def exNudged : Problem ℚ where
  n := 4
  conns := [(0, 1), (2, 1), (2, 3)]
  nphase := 1
  phi c _ := if c = 1 then -33 / 10 else 3
  pv v := if v = 2 then 11 / 10 else 1
  wells := [⟨⟨[65]⟩, [0], fun _ => 11 / 10⟩, ⟨⟨[66]⟩, [0], fun _ => 2⟩, ⟨⟨[80]⟩, [3], fun _ => -3⟩]

theorem exNudged_valid : exNudged.Valid where
  int := by decide
  pos := by decide
  some_connection := by decide
  range := by decide
  pv v _ := by unfold exNudged; simp only; split <;> norm_num
  wells_sorted := by unfold exNudged; simp; decide
  cells_sorted := by unfold exNudged; simp
  cells_range := by unfold exNudged; simp

theorem exNudged_near : Problem.Near (11 / 10) exProblem exNudged where
  size := rfl
  flux u hu v hv := by
    change u < 4 at hu
    change v < 4 at hv
    interval_cases u <;> interval_cases v <;>
      (simp [Problem.flux, Problem.carried, Problem.net, exProblem, exNudged, sum_range_succ, WithinFactor]; try norm_num)
  pv v hv := by
    change v < 4 at hv
    interval_cases v <;> (simp [exProblem, exNudged, WithinFactor]; try norm_num)
  wells := by
    refine .cons ⟨rfl, fun v hv => ?_⟩ (.cons ⟨rfl, fun v hv => ?_⟩ (.cons ⟨rfl, fun v hv => ?_⟩ .nil)) <;> change v < 4 at hv <;>
      interval_cases v <;> (simp [Problem.wellAt, WithinFactor]; try norm_num)

theorem exProblem_levels : exProblem.forward.Levels id ∧ exProblem.backward.Levels fun v => 3 - v := by
  have key : ∀ u v, u < 4 → v < 4 → 0 < exProblem.flux u v → v = u + 1 := by
    intro u v hu hv
    interval_cases u <;> interval_cases v <;>
      (simp [Problem.flux, Problem.carried, Problem.net, exProblem, sum_range_succ]; try norm_num)
  constructor
  · intro u v ⟨h1, h2, h3⟩
    have := key u v h1 h2 h3
    show u < v
    omega
  · intro u v ⟨h1, h2, h3⟩
    have := key v u h2 h1 h3
    change u < 4 at h1
    show 3 - u < 3 - v
    omega

theorem exNudged_slow : (∀ u < 4, ¬ exProblem.forward.Slow u) ∧ ∀ u < 4, ¬ exNudged.forward.Slow u := by
  constructor
  · intro u hu
    unfold Flow.Slow Flow.total Flow.inflow cap
    interval_cases u <;>
      simp [Problem.forward, Problem.flux, Problem.carried, Problem.net, Problem.source, Problem.wellAt, exProblem, sum_range_succ] <;> norm_num
  · intro u hu
    unfold Flow.Slow Flow.total Flow.inflow cap
    interval_cases u <;>
      simp [Problem.forward, Problem.flux, Problem.carried, Problem.net, Problem.source, Problem.wellAt, exNudged, sum_range_succ] <;> norm_num

theorem exNudged_accepted : InjectionAccepts exNudged.inflowMap exInjectors ∧ ProductionAccepts exNudged.inflowMap exProducers := by
  have h1 : (Arith.lt Arith.zero (X.fin (11 / 10 : ℚ))) = true := by rw [X_zero, X_lt]; simp
  have h2 : (Arith.lt Arith.zero (X.fin (2 : ℚ))) = true := by rw [X_zero, X_lt]; simp
  have h3 : IsNegative (X.fin (-3 : ℚ)) := by
    unfold IsNegative; rw [X_zero, X_lt, X_lt]; simp
  constructor
  · intro s hs
    simp only [exInjectors, List.mem_cons, List.not_mem_nil, or_false] at hs
    rcases hs with rfl | rfl
    · refine ⟨⟨_, .tail _ (.head _), rfl, _, .head _, h2⟩, ?_⟩
      intro c hc
      have : c = 0 := by simpa [CellSet.ofCells, CellSet.cells, setInsert] using hc
      subst this
      exact ⟨_, .head _, _, .head _, rfl, h1⟩
    · refine ⟨⟨_, .head _, rfl, _, .head _, h1⟩, ?_⟩
      intro c hc
      simp [CellSet.ofCells, CellSet.cells] at hc
  · intro s hs
    simp only [exProducers, List.mem_cons, List.not_mem_nil, or_false] at hs
    subst hs
    refine ⟨⟨_, .tail _ (.tail _ (.head _)), rfl, _, .head _, h3⟩, ?_⟩
    intro c hc
    have : c = 3 := by simpa [CellSet.ofCells, CellSet.cells, setInsert] using hc
    subst this
    exact ⟨_, .tail _ (.tail _ (.head _)), _, .head _, rfl, h3⟩

/-- C97, exact arithmetic: for `exProblem` and `exNudged`, whose data differ by at most ten per cent, all hypotheses hold. -/
example : ∃ (g g' : ConnectivityGraph) (calls calls' : List (Call (X ℚ))) (S S' T T' : Solution (X ℚ)),
    exProblem.GivenTo g calls ∧ exNudged.GivenTo g' calls' ∧
    InjectionReturns g calls exInjectors (.ok S) ∧ InjectionReturns g' calls' exInjectors (.ok S') ∧
    ProductionReturns g calls exProducers (.ok T) ∧ ProductionReturns g' calls' exProducers (.ok T') ∧
    WithinFactor ((11 / 10) ^ 8) (valueAt (S.concentration ⟨[65]⟩) 3) (valueAt (S'.concentration ⟨[65]⟩) 3) ∧
    WithinFactor ((11 / 10) ^ 18) (valueAt (S.timeOfFlightOf ⟨[65]⟩) 3) (valueAt (S'.timeOfFlightOf ⟨[65]⟩) 3) ∧
    WithinFactor ((11 / 10) ^ 8) (valueAt (T.concentration ⟨[80]⟩) 0) (valueAt (T'.concentration ⟨[80]⟩) 0) ∧
    ∃ V V' : ℚ, pairVolume S T (arr 4 exProblem.pv) ⟨[65]⟩ ⟨[80]⟩ = .ok (X.fin V) ∧
      pairVolume S' T' (arr 4 exNudged.pv) ⟨[65]⟩ ⟨[80]⟩ = .ok (X.fin V') ∧ WithinFactor ((11 / 10) ^ 17) V V' := by
  obtain ⟨g, calls, h⟩ := exProblem_given
  obtain ⟨g', calls', h'⟩ := exists_given exNudged_valid (by decide)
  obtain ⟨S, hS⟩ := (C40_valid_problem exProblem_valid h _).1 exInjectors_accepted
  obtain ⟨T, hT⟩ := (C40_valid_problem exProblem_valid h _).2.2.1 exProducers_accepted
  obtain ⟨S', hS'⟩ := (C40_valid_problem exNudged_valid h' _).1 exNudged_accepted.1
  obtain ⟨T', hT'⟩ := (C40_valid_problem exNudged_valid h' _).2.2.1 exNudged_accepted.2
  have hr : (1 : ℚ) ≤ 11 / 10 := by norm_num
  have h65 : ∃ s ∈ exInjectors, s.id = ⟨[65]⟩ := ⟨_, .tail _ (.head _), rfl⟩
  have h80 : ∃ s ∈ exProducers, s.id = ⟨[80]⟩ := ⟨_, .head _, rfl⟩
  have a := C97_injection exProblem_valid exNudged_valid hr exNudged_near h h' exProblem_levels.1 hS hS' 3 (by decide)
  have b := C97_production exProblem_valid exNudged_valid hr exNudged_near h h' exProblem_levels.2 hT hT' 0 (by decide)
  refine ⟨g, g', calls, calls', S, S', T, T', h, h', hS, hS', hT, hT', a.1 _ h65 h65, (a.2 fun u hu => ?_).2 _ h65 h65, b.1 _ h80 h80,
    (C97_pairs exProblem_valid exNudged_valid hr exNudged_near h h' (L := 3) exProblem_levels.1 exProblem_levels.2 (fun v hv => ?_)
      hS hS' hT hT' h65 h65 h80 h80).1⟩
  · have hu4 : u < 4 := by
      rcases Relation.ReflTransGen.cases_head hu with rfl | ⟨w, e, _⟩
      · decide
      · exact e.1
    exact iff_of_false (exNudged_slow.1 u hu4) (exNudged_slow.2 u hu4)
  · change v < 4 at hv
    exact ⟨by show v ≤ 3; omega, by omega⟩

/-- `exWhirl` with more flow round its cycle. -/
def exFaster : Problem ℚ where
  n := 4
  conns := [(0, 1), (1, 2), (2, 3), (3, 1)]
  nphase := 1
  phi c _ := if c = 0 then 2 else if c = 3 then 1 else 4
  pv _ := 1
  wells := [⟨⟨[65]⟩, [0], fun _ => 2⟩, ⟨⟨[80]⟩, [3], fun _ => -2⟩]

theorem exFaster_valid : exFaster.Valid where
  int := by decide
  pos := by decide
  some_connection := by decide
  range := by decide
  pv v _ := by show (0 : ℚ) ≤ 1; norm_num
  wells_sorted := by unfold exFaster; simp; decide
  cells_sorted := by unfold exFaster; simp
  cells_range := by unfold exFaster; simp

theorem faster_net (c : Nat) : exFaster.net c = if c = 0 then 2 else if c = 3 then 1 else 4 := by
  unfold Problem.net exFaster; simp

theorem faster_noLoop : ∀ v < exFaster.n, ¬ exFaster.forward.Loop v := by
  intro v hv hl
  refine hl.1 ?_
  change v < 4 at hv
  interval_cases v <;> simp [Problem.forward, Problem.flux, Problem.carried, exFaster, sum_range_succ]

theorem faster_near : Problem.Near (4 / 3) exWhirl exFaster where
  size := rfl
  flux u hu v hv := by
    change u < 4 at hu
    change v < 4 at hv
    interval_cases u <;> interval_cases v <;>
      (simp [Problem.flux, Problem.carried, Problem.net, exWhirl, exFaster, sum_range_succ, WithinFactor]; try norm_num)
  pv v hv := by
    change v < 4 at hv
    interval_cases v <;> (simp [exWhirl, exFaster, WithinFactor]; try norm_num)
  wells := by
    refine .cons ⟨rfl, fun v hv => ?_⟩ (.cons ⟨rfl, fun v hv => ?_⟩ .nil) <;> change v < 4 at hv <;>
      interval_cases v <;> (simp [Problem.wellAt, WithinFactor]; try norm_num)

def fasterCalls : List (Call Double) :=
  [.assignPoreVolume [Arith.lit 1, Arith.lit 1, Arith.lit 1, Arith.lit 1],
   .assignConnectionFlux ⟨4, 1, [Arith.lit 2, Arith.lit 4, Arith.lit 4, Arith.lit 1]⟩,
   .assignInflowFlux [(⟨[65]⟩, [(0, Arith.lit 2)]), (⟨[80]⟩, [(3, Arith.lit (-2))])]]

theorem faster_stored : exFaster.StoredIn whirlGraph fasterCalls where
  graph := whirl_stored.graph
  pv := ⟨_, rfl, by decide +kernel⟩
  flux := by
    refine ⟨1, fun c _ => if c = 0 then Arith.lit 2 else if c = 3 then Arith.lit 1 else Arith.lit 4,
      ⟨_, rfl, rfl, rfl, ?_⟩, ?_⟩
    · intro c hc p hp
      have hp : p = 0 := by omega
      subst hp
      have hc : c < 4 := hc
      interval_cases c <;> rfl
    · intro c hc
      have hc : c < 4 := hc
      rw [faster_net]
      interval_cases c <;> decide +kernel
  inflow := by decide +kernel

theorem faster_ordinary : exFaster.OfOrdinarySize 4 where
  flux c _ := by
    rw [faster_net]
    right
    split <;> [norm_num; split <;> norm_num]
  well w hw v hv := by
    simp only [exFaster, List.mem_cons, List.not_mem_nil, or_false] at hw
    right
    rcases hw with rfl | rfl <;> norm_num
  pv v _ := by
    right
    unfold exFaster
    norm_num
  degree v := (List.length_filter_le _ _).trans (by decide)
  wells v := (List.length_filter_le _ _).trans (by decide)
  bound := by norm_num

theorem faster_total : (∀ v < exFaster.n, exFaster.forward.total v ≤ 2 ^ 100) ∧ ∀ v < exFaster.n, exFaster.backward.total v ≤ 2 ^ 100 := by
  constructor
  · intro v hv
    have hv : v < 4 := hv
    unfold Flow.total Flow.inflow
    simp only [Problem.forward]
    interval_cases v <;>
      simp [exFaster, Finset.sum_range_succ, Problem.source, Problem.wellAt, Problem.flux, Problem.carried, Problem.net] <;> norm_num
  · intro v hv
    have hv : v < 4 := hv
    unfold Flow.total Flow.inflow
    simp only [Problem.backward]
    interval_cases v <;>
      simp [exFaster, Finset.sum_range_succ, Problem.sink, Problem.wellAt, Problem.flux, Problem.carried, Problem.net] <;> norm_num

set_option maxRecDepth 100000 in
theorem faster_injection : ∃ S, InjectionReturns whirlGraph fasterCalls [CellSet.ofCells ⟨[65]⟩ [0]] (.ok S) := by
  obtain ⟨S, hS⟩ := isOk_spec
    (show isOk (injectionOutcome whirlGraph fasterCalls noFailure 100 [CellSet.ofCells ⟨[65]⟩ [0]]) = true by decide +kernel)
  exact ⟨S, (Fuel.injection_returns.mpr ⟨100, hS, by simp⟩).1⟩

set_option maxRecDepth 100000 in
theorem faster_production : ∃ S, ProductionReturns whirlGraph fasterCalls [CellSet.ofCells ⟨[80]⟩ [3]] (.ok S) := by
  obtain ⟨S, hS⟩ := isOk_spec
    (show isOk (productionOutcome whirlGraph fasterCalls noFailure 100 [CellSet.ofCells ⟨[80]⟩ [3]]) = true by decide +kernel)
  exact ⟨S, (Fuel.production_returns.mpr ⟨100, hS, by simp⟩).1⟩

/-- C97 with a cycle, with `double`s: for `exWhirl` and `exFaster` the hypotheses hold in both directions. -/
example : ∃ S T S' T', InjectionReturns whirlGraph whirlCalls [CellSet.ofCells ⟨[65]⟩ [0]] (.ok S) ∧
    ProductionReturns whirlGraph whirlCalls [CellSet.ofCells ⟨[80]⟩ [3]] (.ok T) ∧
    InjectionReturns whirlGraph fasterCalls [CellSet.ofCells ⟨[65]⟩ [0]] (.ok S') ∧
    ProductionReturns whirlGraph fasterCalls [CellSet.ofCells ⟨[80]⟩ [3]] (.ok T') ∧
    (∀ m m' t t', exWhirl.forward.Carries (posCells ⟨⟨[65]⟩, [0], fun _ => (2 : ℚ)⟩) exWhirl.forward.cycleInflow m →
      exFaster.forward.Carries (posCells ⟨⟨[65]⟩, [0], fun _ => (2 : ℚ)⟩) exFaster.forward.cycleInflow m' →
      exWhirl.forward.Carries (posCells ⟨⟨[65]⟩, [0], fun _ => (2 : ℚ)⟩) exWhirl.forward.total t →
      exFaster.forward.Carries (posCells ⟨⟨[65]⟩, [0], fun _ => (2 : ℚ)⟩) exFaster.forward.total t' →
      |doubleAt (S'.concentration ⟨[65]⟩) 3 - doubleAt (S.concentration ⟨[65]⟩) 3|
        ≤ 2 * (4 / 3 - 1) * t 3 + 1 / 1000000000 * (m 3 + m' 3) + ((4 * 4 + 6 : Nat) : ℚ) / 2 ^ 51 * (t 3 + t' 3)) ∧
    ∀ m m' t t', exWhirl.backward.Carries (negCells ⟨⟨[80]⟩, [3], fun _ => (-2 : ℚ)⟩) exWhirl.backward.cycleInflow m →
      exFaster.backward.Carries (negCells ⟨⟨[80]⟩, [3], fun _ => (-2 : ℚ)⟩) exFaster.backward.cycleInflow m' →
      exWhirl.backward.Carries (negCells ⟨⟨[80]⟩, [3], fun _ => (-2 : ℚ)⟩) exWhirl.backward.total t →
      exFaster.backward.Carries (negCells ⟨⟨[80]⟩, [3], fun _ => (-2 : ℚ)⟩) exFaster.backward.total t' →
      |doubleAt (T'.concentration ⟨[80]⟩) 0 - doubleAt (T.concentration ⟨[80]⟩) 0|
        ≤ 2 * (4 / 3 - 1) * t 0 + 1 / 1000000000 * (m 0 + m' 0) + ((4 * 4 + 6 : Nat) : ℚ) / 2 ^ 51 * (t 0 + t' 0) := by
  obtain ⟨S, hS, _⟩ := whirl_injection
  obtain ⟨⟨T, hT⟩, _⟩ := whirl_production
  obtain ⟨S', hS'⟩ := faster_injection
  obtain ⟨T', hT'⟩ := faster_production
  have hr : (1 : ℚ) ≤ 4 / 3 := by norm_num
  refine ⟨S, T, S', T', hS, hT, hS', hT', fun m m' t t' hm hm' ht ht' => ?_, fun m m' t t' hm hm' ht ht' => ?_⟩
  · exact C97_injection_double exWhirl_valid exFaster_valid whirl_ordinary faster_ordinary hr faster_near whirl_stored faster_stored
      whirl_noLoop faster_noLoop (w := ⟨⟨[65]⟩, [0], fun _ => 2⟩) (w' := ⟨⟨[65]⟩, [0], fun _ => 2⟩) (.head _) (.head _) rfl
      whirl_total.1 faster_total.1 ⟨_, .head _, rfl⟩ ⟨_, .head _, rfl⟩ hS hS' hm hm' ht ht' 3 (by decide)
  · exact C97_production_double exWhirl_valid exFaster_valid whirl_ordinary faster_ordinary hr faster_near whirl_stored faster_stored
      whirl_noLoop faster_noLoop (w := ⟨⟨[80]⟩, [3], fun _ => -2⟩) (w' := ⟨⟨[80]⟩, [3], fun _ => -2⟩) (.tail _ (.head _))
      (.tail _ (.head _)) rfl whirl_total.2 faster_total.2 ⟨_, .head _, rfl⟩ ⟨_, .head _, rfl⟩ hT hT' hm hm' ht ht' 0 (by decide)

/-- C97 with a cycle, in exact arithmetic: the two problems can be given to toolboxes. -/
example : (∃ g, ∃ calls : List (Call (X ℚ)), exWhirl.GivenTo g calls) ∧ (∃ g, ∃ calls : List (Call (X ℚ)), exFaster.GivenTo g calls) ∧
    Problem.Near (4 / 3) exWhirl exFaster ∧ (∀ v < exWhirl.n, ¬ exWhirl.forward.Loop v) ∧ ∀ v < exFaster.n, ¬ exFaster.forward.Loop v :=
  ⟨exists_given exWhirl_valid (by decide), exists_given exFaster_valid (by decide), faster_near, whirl_noLoop, faster_noLoop⟩

end Verif.Props
