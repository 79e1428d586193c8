/-
C99: raising the rate of a well, with the same fluxes, raises its share everywhere and lowers those of the others.
-/
import Verif.Props.Sensitivity
import Verif.Spec.Rates

namespace Verif.Props
open Verif.Spec Verif.Toolbox Verif.Solver Verif.Derived Finset

/-! ### Flows that differ in their sources -/

section flow
variable {K : Type} [Field K] [LinearOrder K] {F G : Flow K} {δ : Nat → K}

/-- `G` is `F` with `δ` more in the sources. -/
structure MoreFlow (δ : Nat → K) (F G : Flow K) : Prop where
  size : G.n = F.n
  flux : ∀ u < F.n, ∀ v < F.n, G.w u v = F.w u v
  src : ∀ v < F.n, G.src v = F.src v + δ v
  nonneg : ∀ v < F.n, 0 ≤ δ v

theorem MoreFlow.edge (h : MoreFlow δ F G) (u v : Nat) : G.Edge u v ↔ F.Edge u v := by
  unfold Flow.Edge
  rw [h.size]
  exact ⟨fun ⟨a, b, c⟩ => ⟨a, b, h.flux u a v b ▸ c⟩, fun ⟨a, b, c⟩ => ⟨a, b, (h.flux u a v b).symm ▸ c⟩⟩

theorem MoreFlow.edges (h : MoreFlow δ F G) : G.Edge = F.Edge := by funext u v; exact propext (h.edge u v)

theorem MoreFlow.reach (h : MoreFlow δ F G) (u v : Nat) : G.Reach u v ↔ F.Reach u v := by
  unfold Flow.Reach; rw [h.edges]

theorem MoreFlow.acyclic (h : MoreFlow δ F G) (ha : F.Acyclic) : G.Acyclic := by
  unfold Flow.Acyclic; rw [h.edges]; exact ha

theorem MoreFlow.sum (h : MoreFlow δ F G) (x : Nat → K) {v : Nat} (hv : v < F.n) :
    ∑ u ∈ range G.n, x u * G.w u v = ∑ u ∈ range F.n, x u * F.w u v := by
  rw [h.size]
  exact sum_congr rfl fun u hu => by rw [h.flux u (mem_range.mp hu) v hv]

theorem MoreFlow.total (h : MoreFlow δ F G) {v : Nat} (hv : v < F.n) : G.total v = F.total v + δ v := by
  have := h.sum (fun _ => 1) hv
  simp only [one_mul] at this
  show (∑ u ∈ range G.n, G.w u v) + G.src v = (∑ u ∈ range F.n, F.w u v) + F.src v + δ v
  rw [this, h.src v hv, add_assoc]

theorem MoreFlow.loop (h : MoreFlow δ F G) (hl : ∀ v < F.n, ¬ F.Loop v) : ∀ v < G.n, ¬ G.Loop v := by
  intro v hv ⟨a, b⟩
  rw [h.size] at hv
  refine hl v hv ⟨by rwa [h.flux v hv v hv] at a, fun u ⟨h1, h2⟩ => b u ⟨(h.reach u v).mpr h1, (h.reach v u).mpr h2⟩⟩

/-- Cycle-free flow has no flux round cycles. -/
theorem acyclic_cycleInflow (hF : F.Valid) (ha : F.Acyclic) {v : Nat} (hv : v < F.n) : F.cycleInflow v = 0 := by
  classical
  unfold Flow.cycleInflow
  refine sum_eq_zero fun u hu => ?_
  split
  · rename_i hs
    have hun := mem_range.mp hu
    rcases (hF.w_nonneg u v hun hv).lt_or_eq with e | e
    · exact absurd (Relation.TransGen.tail' hs.2 ⟨hun, hv, e⟩) (ha v)
    · exact e.symm
  · rfl

theorem acyclic_no_loop (hF : F.Valid) (ha : F.Acyclic) : ∀ v < F.n, ¬ F.Loop v := fun v hv ⟨h, _⟩ =>
  ha v (.single ⟨hv, hv, lt_of_le_of_ne (hF.w_nonneg v v hv hv) (Ne.symm h)⟩)

theorem acyclic_carries_zero (hF : F.Valid) (ha : F.Acyclic) (s : List Nat) : F.Carries s F.cycleInflow fun _ => 0 :=
  ⟨fun _ _ _ => rfl, fun v hv _ => by rw [acyclic_cycleInflow hF ha hv]; simp⟩

variable [IsStrictOrderedRing K] [Archimedean K]

omit [Archimedean K] in
/-- The tracer of the sources that get more. -/
theorem MoreFlow.own (h : MoreFlow δ F G) (hF : F.Valid) (hG : G.Valid) {s s' : List Nat} (hs : ∀ p ∈ s, p ∈ s')
    (hp : ∀ p ∈ s, p < F.n ∧ 0 < F.src p) (hp' : ∀ p ∈ s', p < G.n ∧ 0 < G.src p) {q q' x y : Nat → K}
    (hq : ∀ v < F.n, 0 ≤ q v ∧ q v ≤ F.src v) (hqq : ∀ v < F.n, q' v = q v + δ v) (hx : F.Carries s q x) (hy : G.Carries s' q' y) :
    ∀ v < F.n, x v ≤ y v := by
  have h1 := carries_le_one hF hp hx fun v hv => (hq v hv).2
  have h0 := (C76_exact hG hp' q').2.2 (fun v hv => by
    rw [h.size] at hv
    rw [hqq v hv]
    exact add_nonneg (hq v hv).1 (h.nonneg v hv)) y hy
  have hsub : ∀ v, F.Downstream s v → G.Downstream s' v := fun v ⟨p, a, b⟩ => ⟨p, hs p a, (h.reach p v).mpr b⟩
  have hpos : ∀ p ∈ s, 0 < G.src p := fun p a => (hp' p (hs p a)).2
  have := max_principle hG (S := F.Downstream s) (e := fun v => x v - y v) (fun v hv hn => by
    show x v - y v ≤ 0
    rw [hx.1 v (h.size ▸ hv) hn]
    linarith [h0 v hv]) (fun v hv hd => by
    show G.total v * (x v - y v) ≤ ∑ u ∈ range G.n, (x u - y u) * G.w u v
    have hvF : v < F.n := h.size ▸ hv
    have e : ∑ u ∈ range G.n, (x u - y u) * G.w u v = (∑ u ∈ range F.n, x u * F.w u v) - ∑ u ∈ range G.n, y u * G.w u v := by
      rw [← h.sum x hvF, ← sum_sub_distrib]; exact sum_congr rfl fun u _ => by ring
    rw [e, mul_sub, hy.2 v hv (hsub v hd), h.total hvF, add_mul, hx.2 v hvF hd, hqq v hvF]
    have := mul_le_mul_of_nonneg_left (h1 v hvF) (h.nonneg v hvF)
    linarith) (fun v _ ⟨p, a, b⟩ => ⟨p, (hp' p (hs p a)).1, hpos p a, (h.reach p v).mpr b⟩)
  intro v hv
  exact sub_nonpos.mp (this v (by rw [h.size]; exact hv))

omit [Archimedean K] in
/-- The tracer of other sources. -/
theorem MoreFlow.other (h : MoreFlow δ F G) (hF : F.Valid) (hG : G.Valid) {s s' : List Nat} (hs : ∀ p, p ∈ s ↔ p ∈ s')
    (hp : ∀ p ∈ s, p < F.n ∧ 0 < F.src p) (hp' : ∀ p ∈ s', p < G.n ∧ 0 < G.src p) {q q' x y : Nat → K}
    (hq : ∀ v < F.n, 0 ≤ q v) (hqq : ∀ v < F.n, q' v = q v) (hx : F.Carries s q x) (hy : G.Carries s' q' y) :
    ∀ v < F.n, y v ≤ x v := by
  have h0 := (C76_exact hG hp' q').2.2 (fun v hv => by
    rw [h.size] at hv
    rw [hqq v hv]
    exact hq v hv) y hy
  have hsub : ∀ v, F.Downstream s v ↔ G.Downstream s' v := fun v => by
    unfold Flow.Downstream; simp only [h.reach, hs]
  have := max_principle hF (S := F.Downstream s) (e := fun v => y v - x v) (fun v hv hn => by
    show y v - x v ≤ 0
    rw [hx.1 v hv hn, hy.1 v (by rw [h.size]; exact hv) fun hc => hn ((hsub v).mpr hc), sub_zero]) (fun v hv hd => by
    show F.total v * (y v - x v) ≤ ∑ u ∈ range F.n, (y u - x u) * F.w u v
    have hvG : v < G.n := by rw [h.size]; exact hv
    have e : ∑ u ∈ range F.n, (y u - x u) * F.w u v = (∑ u ∈ range G.n, y u * G.w u v) - ∑ u ∈ range F.n, x u * F.w u v := by
      rw [h.sum y hv, ← sum_sub_distrib]; exact sum_congr rfl fun u _ => by ring
    have e2 := hy.2 v hvG ((hsub v).mp hd)
    rw [h.total hv, hqq v hv] at e2
    rw [e, mul_sub, hx.2 v hv hd]
    have := mul_nonneg (h.nonneg v hv) (h0 v hvG)
    linarith [add_mul (F.total v) (δ v) (y v)]) (fun v _ ⟨p, a, b⟩ => ⟨p, (hp p a).1, (hp p a).2, b⟩)
  intro v hv
  exact sub_nonpos.mp (this v hv)

end flow

/-! ### Runs -/

section runs
variable {K : Type} [Field K] [LinearOrder K] [IsStrictOrderedRing K] [Archimedean K] {δ : Nat → K}

omit [Archimedean K] in
theorem side_injected {H : Flow K} {ws : List (WellFlux K)} {cs : WellFlux K → List Nat} {f : WellFlux K → Nat → K} {x : WellFlux K}
    (S : Side ws cs f H.n H.src) (hx : x ∈ ws) (v : Nat) :
    0 ≤ injected (cs x) (f x) v ∧ injected (cs x) (f x) v ≤ H.src v := by
  have hnn : ∀ y ∈ ws, 0 ≤ injected (cs y) (f y) v := by
    intro y hy
    unfold injected
    split
    · exact (S.pos y hy v (by assumption)).le
    · exact le_rfl
  obtain ⟨_, _, b⟩ := sum_pos_iff (wells := ws) (g := fun w => injected (cs w) (f w) v) hnn
  rw [S.src v]
  exact ⟨hnn x hx, b x hx⟩

omit [Archimedean K] in
theorem side_sources {H : Flow K} {ws : List (WellFlux K)} {cs : WellFlux K → List Nat} {f : WellFlux K → Nat → K} {x : WellFlux K}
    (S : Side ws cs f H.n H.src) (hx : x ∈ ws) : ∀ p ∈ cs x, p < H.n ∧ 0 < H.src p := fun p hp =>
  ⟨S.range x hx p hp, lt_of_lt_of_le ((injected_mem (S.pos x hx) p).mp hp) (side_injected S hx p).2⟩

variable {F G : Flow K} {wells wells' : List (WellFlux K)} {cs : WellFlux K → List Nat} {f : WellFlux K → Nat → K}

omit [Archimedean K] in
theorem MoreFlow.own_wells (h : MoreFlow δ F G) (hF : F.Valid) (hG : G.Valid) (S : Side wells cs f F.n F.src)
    (S' : Side wells' cs f G.n G.src) {w w' : WellFlux K} (hw : w ∈ wells) (hw' : w' ∈ wells')
    (hin : ∀ v < F.n, injected (cs w') (f w') v = injected (cs w) (f w) v + δ v) {x y : Nat → K}
    (hx : F.Carries (cs w) (injected (cs w) (f w)) x) (hy : G.Carries (cs w') (injected (cs w') (f w')) y) :
    ∀ v < F.n, x v ≤ y v :=
  h.own hF hG (fun p hp => by
    have hpn := S.range w hw p hp
    rw [injected_mem (S'.pos w' hw'), hin p hpn]
    exact add_pos_of_pos_of_nonneg ((injected_mem (S.pos w hw) p).mp hp) (h.nonneg p hpn)) (side_sources S hw)
    (side_sources S' hw') (fun v _ => side_injected S hw v) hin hx hy

omit [Archimedean K] in
theorem MoreFlow.other_wells (h : MoreFlow δ F G) (hF : F.Valid) (hG : G.Valid) (S : Side wells cs f F.n F.src)
    (S' : Side wells' cs f G.n G.src) {w w' : WellFlux K} (hw : w ∈ wells) (hw' : w' ∈ wells')
    (hin : ∀ v < F.n, injected (cs w') (f w') v = injected (cs w) (f w) v) {x y : Nat → K}
    (hx : F.Carries (cs w) (injected (cs w) (f w)) x) (hy : G.Carries (cs w') (injected (cs w') (f w')) y) :
    ∀ v < F.n, y v ≤ x v :=
  h.other hF hG (fun p => by
    by_cases hp : p < F.n
    · rw [injected_mem (S.pos w hw), injected_mem (S'.pos w' hw'), hin p hp]
    · exact ⟨fun hc => absurd (S.range w hw p hc) hp, fun hc => absurd (h.size ▸ S'.range w' hw' p hc) hp⟩) (side_sources S hw)
    (side_sources S' hw') (fun v _ => (side_injected S hw v).1) hin hx hy

variable {starts starts' : List CellSet} {sol sol' : Solution (X K)}

theorem Diag.more_own (D : Diag F wells cs f starts sol) (D' : Diag G wells' cs f starts' sol') (h : MoreFlow δ F G)
    (hself : ∀ v < F.n, ¬ F.Loop v) {w w' : WellFlux K} (hw : w ∈ wells) (hw' : w' ∈ wells')
    (hs : ∃ s ∈ starts, s.id = w.id) (hs' : ∃ s ∈ starts', s.id = w'.id)
    (hin : ∀ v < F.n, injected (cs w') (f w') v = injected (cs w) (f w) v + δ v) {m' : Nat → K}
    (hm' : G.Carries (cs w') G.cycleInflow m') :
    ∀ v < F.n, valueAt (sol.concentration w.id) v ≤ valueAt (sol'.concentration w'.id) v + 1 / 1000000000 * m' v := by
  have hF : F.Valid := by obtain ⟨d, st, h1, _⟩ := D.solved; exact h1.valid
  have hG : G.Valid := by obtain ⟨d, st, h1, _⟩ := D'.solved; exact h1.valid
  obtain ⟨x, hx⟩ := (C76_exact hF (side_sources D.side hw) (injected (cs w) (f w))).1
  obtain ⟨y, hy⟩ := (C76_exact hG (side_sources D'.side hw') (injected (cs w') (f w'))).1
  obtain ⟨m, hm⟩ := (C76_exact hF (side_sources D.side hw) F.cycleInflow).1
  intro v hv
  obtain ⟨a, _⟩ := D.error hself hw hs hx hm v hv
  obtain ⟨_, b⟩ := D'.error (h.loop hself) hw' hs' hy hm' v (by rw [h.size]; exact hv)
  linarith [h.own_wells hF hG D.side D'.side hw hw' hin hx hy v hv]

theorem Diag.more_other (D : Diag F wells cs f starts sol) (D' : Diag G wells' cs f starts' sol') (h : MoreFlow δ F G)
    (hself : ∀ v < F.n, ¬ F.Loop v) {w w' : WellFlux K} (hw : w ∈ wells) (hw' : w' ∈ wells')
    (hs : ∃ s ∈ starts, s.id = w.id) (hs' : ∃ s ∈ starts', s.id = w'.id)
    (hin : ∀ v < F.n, injected (cs w') (f w') v = injected (cs w) (f w) v) {m : Nat → K}
    (hm : F.Carries (cs w) F.cycleInflow m) :
    ∀ v < F.n, valueAt (sol'.concentration w'.id) v ≤ valueAt (sol.concentration w.id) v + 1 / 1000000000 * m v := by
  have hF : F.Valid := by obtain ⟨d, st, h1, _⟩ := D.solved; exact h1.valid
  have hG : G.Valid := by obtain ⟨d, st, h1, _⟩ := D'.solved; exact h1.valid
  obtain ⟨x, hx⟩ := (C76_exact hF (side_sources D.side hw) (injected (cs w) (f w))).1
  obtain ⟨y, hy⟩ := (C76_exact hG (side_sources D'.side hw') (injected (cs w') (f w'))).1
  obtain ⟨m', hm'⟩ := (C76_exact hG (side_sources D'.side hw') G.cycleInflow).1
  intro v hv
  obtain ⟨_, a⟩ := D.error hself hw hs hx hm v hv
  obtain ⟨b, _⟩ := D'.error (h.loop hself) hw' hs' hy hm' v (by rw [h.size]; exact hv)
  linarith [h.other_wells hF hG D.side D'.side hw hw' hin hx hy v hv]

/-- Global times in cells with all flow from sources. -/
theorem Diag.more_global (D : Diag F wells cs f starts sol) (D' : Diag G wells' cs f starts' sol') (h : MoreFlow δ F G)
    (hpv : ∀ v < F.n, G.pv v = F.pv v) (hacy : F.Acyclic) {v : Nat} (hv : v < F.n) (hfed : ∀ u, F.Reach u v → 0 < F.total u)
    (hslow : ∀ u, F.Reach u v → (F.Slow u ↔ G.Slow u)) :
    fieldAt sol'.timeOfFlight v ≤ fieldAt sol.timeOfFlight v := by
  obtain ⟨d, st, h1, h2, _⟩ := D.solved
  obtain ⟨d', st', h1', h2', _⟩ := D'.solved
  obtain ⟨τ, c, hr1, _, hf⟩ := global_facts h1
  obtain ⟨τ', c', hr1', _, hf'⟩ := global_facts h1'
  rw [Res.ok.inj (h2.unique hr1), Res.ok.inj (h2'.unique hr1'), arr_fieldAt _ _ hv, arr_fieldAt _ _ (by rw [h.size]; exact hv)]
  have hF := h1.valid
  have hacy' := h.acyclic hacy
  have one : ∀ {H : Flow K} {t k : Nat → K}, H.Acyclic → Facts H (· < H.n) (fun v => 0 < H.src v) H.src t k → H.Valid →
      ∀ v < H.n, (∀ u, H.Reach u v → 0 < H.total u) → k v = 1 := by
    intro H t k ha hf hH
    refine acyclic_induction ha (P := fun v => (∀ u, H.Reach u v → 0 < H.total u) → k v = 1) ?_
    intro v hv ih hfed
    have e := hf.exact v hv (fun hc => hc.1.ne' hc.2) (ha v)
    have e2 : ∑ u ∈ Finset.range H.n, k u * H.w u v = ∑ u ∈ Finset.range H.n, H.w u v := sum_congr rfl fun u hu => by
      have hun := mem_range.mp hu
      rcases (hH.w_nonneg u v hun hv).lt_or_eq with hp | hp
      · rw [ih u ⟨hun, hv, hp⟩ fun x hx => hfed x (hx.tail ⟨hun, hv, hp⟩), one_mul]
      · rw [← hp, mul_zero]
    rw [e2] at e
    have ht : H.total v = (∑ u ∈ Finset.range H.n, H.w u v) + H.src v := rfl
    rw [← ht] at e
    exact mul_left_cancel₀ (hfed v .refl).ne' (e.trans (mul_one _).symm)
  have key : ∀ v < F.n, (∀ u, F.Reach u v → 0 < F.total u) → (∀ u, F.Reach u v → (F.Slow u ↔ G.Slow u)) → τ' v ≤ τ v := by
    refine acyclic_induction hacy
      (P := fun v => (∀ u, F.Reach u v → 0 < F.total u) → (∀ u, F.Reach u v → (F.Slow u ↔ G.Slow u)) → τ' v ≤ τ v) ?_
    intro v hv ih hfed hslow
    have hvG : v < G.n := by rw [h.size]; exact hv
    have hlt : ∀ {u}, F.Reach u v → u < F.n := fun hr => by
      rcases Relation.ReflTransGen.cases_head hr with rfl | ⟨_, e, _⟩
      · exact hv
      · exact e.1
    have hfed' : ∀ u, G.Reach u v → 0 < G.total u := fun u hu => by
      have hr := (h.reach u v).mp hu
      rw [h.total (hlt hr)]
      exact add_pos_of_pos_of_nonneg (hfed u hr) (h.nonneg u (hlt hr))
    have c1 := one hacy hf hF v hv hfed
    have c1' := one hacy' hf' h1'.valid v hvG hfed'
    by_cases hs : F.Slow v
    · rw [hf.capped v hv (.inl hs), hf'.capped v hvG (.inl ((hslow v .refl).mp hs))]
    · have hs' : ¬ G.Slow v := fun x => hs ((hslow v .refl).mpr x)
      have e := hf.texact v hv hs (by rw [c1]; exact one_pos) (hacy v)
      have e' := hf'.texact v hvG hs' (by rw [c1']; exact one_pos) (hacy' v)
      rw [c1, mul_one, mul_one] at e
      rw [c1', mul_one, mul_one, hpv v hv, h.size] at e'
      have hsum : ∑ u ∈ Finset.range F.n, τ' u * c' u * G.w u v ≤ ∑ u ∈ Finset.range F.n, τ u * c u * F.w u v := by
        refine sum_le_sum fun u hu => ?_
        have hun := mem_range.mp hu
        rw [h.flux u hun v hv]
        rcases (hF.w_nonneg u v hun hv).lt_or_eq with hp | hp
        · have he : F.Edge u v := ⟨hun, hv, hp⟩
          have huG : u < G.n := by rw [h.size]; exact hun
          rw [one hacy hf hF u hun fun x hx => hfed x (hx.tail he),
            one hacy' hf' h1'.valid u huG fun x hx => hfed' x (hx.tail ((h.edge u v).mpr he)), mul_one, mul_one]
          exact mul_le_mul_of_nonneg_right
            (ih u he (fun x hx => hfed x (hx.tail he)) fun x hx => hslow x (hx.tail he)) hp.le
        · rw [← hp, mul_zero, mul_zero]
      have hT := hfed v .refl
      have h3 : F.total v * τ' v ≤ F.total v * τ v := by
        have := mul_nonneg (h.nonneg v hv) (hf'.nonneg v hvG).1
        rw [h.total hv, add_mul] at e'
        linarith
      exact le_of_mul_le_mul_left h3 hT
  exact min_le_min_right _ (key v hv hfed hslow)

end runs

/-! ### Sums over wells -/

section wells
variable {K : Type} [Field K] [LinearOrder K] [IsStrictOrderedRing K]

theorem more_sum {l l' : List (WellFlux K)} {i : CellSetID} {a : WellFlux K → K}
    (h : List.Forall₂ (fun w w' => w.id = w'.id ∧ a w ≤ a w' ∧ (w.id ≠ i → a w' = a w)) l l') :
    (l.map a).sum ≤ (l'.map a).sum ∧
    ((∀ w ∈ l, w.id ≠ i) → (l'.map a).sum = (l.map a).sum) ∧
    (l.Pairwise (fun x y => x.id < y.id) → l'.Pairwise (fun x y => x.id < y.id) → ∀ w ∈ l, ∀ w' ∈ l', w.id = i → w'.id = i →
      a w' = a w + ((l'.map a).sum - (l.map a).sum)) := by
  induction h with
  | nil => simp
  | @cons x y l l' hxy hl ih =>
    obtain ⟨h1, h2, h3⟩ := ih
    simp only [List.map_cons, List.sum_cons]
    refine ⟨add_le_add hxy.2.1 h1, fun hne => ?_, fun hs hs' w hw w' hw' e e' => ?_⟩
    · rw [hxy.2.2 (hne x (by simp)), h2 fun w hw => hne w (List.mem_cons_of_mem _ hw)]
    · by_cases hx : x.id = i
      · have : w = x := wells_id hs hw (by simp) (e.trans hx.symm)
        have : w' = y := wells_id hs' hw' (by simp) (e'.trans (hx.symm.trans hxy.1))
        subst_vars
        rw [h2 fun z hz he => absurd ((List.pairwise_cons.mp hs).1 z hz) (by rw [he]; exact lt_irrefl _)]
        ring
      · have hw1 : w ∈ l := by
          rcases List.mem_cons.mp hw with rfl | hw
          · exact absurd e hx
          · exact hw
        have hw1' : w' ∈ l' := by
          rcases List.mem_cons.mp hw' with rfl | hw'
          · exact absurd (hxy.1.trans e') hx
          · exact hw'
        rw [h3 (List.pairwise_cons.mp hs).2 (List.pairwise_cons.mp hs').2 w hw1 w' hw1' e e', hxy.2.2 hx]
        ring

omit [Field K] [LinearOrder K] [IsStrictOrderedRing K] in
theorem more_pair {l l' : List (WellFlux K)} {R : WellFlux K → WellFlux K → Prop}
    (h : List.Forall₂ (fun w w' => w.id = w'.id ∧ R w w') l l') (hs' : l'.Pairwise fun x y => x.id < y.id) {w w' : WellFlux K}
    (hw : w ∈ l) (hw' : w' ∈ l') (e : w.id = w'.id) : R w w' := by
  have : ∃ x ∈ l', w.id = x.id ∧ R w x := by
    clear hs' hw'
    induction h with
    | nil => simp at hw
    | cons a _ ih =>
      rcases List.mem_cons.mp hw with rfl | hw
      · exact ⟨_, by simp, a⟩
      · obtain ⟨x, hx, h⟩ := ih hw
        exact ⟨x, List.mem_cons_of_mem _ hx, h⟩
  obtain ⟨x, hx, e2, hR⟩ := this
  rwa [wells_id hs' hx hw' (e2.symm.trans e)] at hR

variable {P Q : Problem K} {i : CellSetID}

theorem _root_.Verif.Spec.Problem.InjectsMore.forward (h : P.InjectsMore i Q) :
    MoreFlow (fun v => Q.source v - P.source v) P.forward Q.forward where
  size := h.size
  flux := h.flux
  src v _ := by show Q.source v = P.source v + (Q.source v - P.source v); ring
  nonneg v hv := sub_nonneg.mpr (more_sum (i := i) (a := fun w => max (Problem.wellAt w v) 0)
    (h.wells.imp fun _ _ hw => ⟨hw.1, hw.2 v hv⟩)).1

theorem _root_.Verif.Spec.Problem.ProducesMore.backward (h : P.ProducesMore i Q) :
    MoreFlow (fun v => Q.sink v - P.sink v) P.backward Q.backward where
  size := h.size
  flux u hu v hv := h.flux v hv u hu
  src v _ := by show Q.sink v = P.sink v + (Q.sink v - P.sink v); ring
  nonneg v hv := sub_nonneg.mpr (more_sum (i := i) (a := fun w => max (-Problem.wellAt w v) 0)
    (h.wells.imp fun _ _ hw => ⟨hw.1, hw.2 v hv⟩)).1

variable (hP : P.Valid) (hQ : Q.Valid) {w w' : WellFlux K} (hw : w ∈ P.wells) (hw' : w' ∈ Q.wells)
include hP hQ hw hw'

theorem injects_own (h : P.InjectsMore i Q) (e : w.id = i) (e' : w'.id = i) : ∀ v < P.n,
    injected (posCells w') w'.val v = injected (posCells w) w.val v + (Q.source v - P.source v) := fun v hv => by
  rw [injected_pos, injected_pos]
  exact (more_sum (i := i) (a := fun w => max (Problem.wellAt w v) 0) (h.wells.imp fun _ _ hw => ⟨hw.1, hw.2 v hv⟩)).2.2
    hP.wells_sorted hQ.wells_sorted w hw w' hw' e e'

theorem produces_own (h : P.ProducesMore i Q) (e : w.id = i) (e' : w'.id = i) : ∀ v < P.n,
    injected (negCells w') (fun v => - w'.val v) v = injected (negCells w) (fun v => - w.val v) v + (Q.sink v - P.sink v) :=
  fun v hv => by
    rw [injected_neg, injected_neg]
    exact (more_sum (i := i) (a := fun w => max (-Problem.wellAt w v) 0) (h.wells.imp fun _ _ hw => ⟨hw.1, hw.2 v hv⟩)).2.2
      hP.wells_sorted hQ.wells_sorted w hw w' hw' e e'

omit [IsStrictOrderedRing K] hP in
theorem injects_other [IsStrictOrderedRing K] (h : P.InjectsMore i Q) (hid : w.id = w'.id) (e : w.id ≠ i) : ∀ v < P.n,
    injected (posCells w') w'.val v = injected (posCells w) w.val v := fun v hv => by
  rw [injected_pos, injected_pos]
  exact (more_pair h.wells hQ.wells_sorted hw hw' hid v hv).2 e

omit [IsStrictOrderedRing K] hP in
theorem produces_other [IsStrictOrderedRing K] (h : P.ProducesMore i Q) (hid : w.id = w'.id) (e : w.id ≠ i) : ∀ v < P.n,
    injected (negCells w') (fun v => - w'.val v) v = injected (negCells w) (fun v => - w.val v) v := fun v hv => by
  rw [injected_neg, injected_neg]
  exact (more_pair h.wells hQ.wells_sorted hw hw' hid v hv).2 e

end wells

/-! ### Exact arithmetic -/

section exact
variable {K : Type} [Field K] [LinearOrder K] [IsStrictOrderedRing K] [Archimedean K] {P Q : Problem K} {i : CellSetID}
  {g g' : ConnectivityGraph} {calls calls' : List (Call (X K))}

section concentrations
variable (hP : P.Valid) (hQ : Q.Valid) (h : P.GivenTo g calls) (h' : Q.GivenTo g' calls') {w w' : WellFlux K} (hw : w ∈ P.wells)
  (hw' : w' ∈ Q.wells) (hid : w.id = w'.id) {starts starts' : List CellSet} {sol sol' : Solution (X K)}
  (hs : ∃ s ∈ starts, s.id = w.id) (hs' : ∃ s ∈ starts', s.id = w'.id)
include hP hQ h h' hw hw' hid hs hs'

/-- **C99** (exact arithmetic, cycle-free flow) If a well injects more, and the fluxes and the other wells stay as they are, then
    its concentration falls in no cell, and the concentration of each other injector rises in no cell. -/
theorem C99_injection (hmore : P.InjectsMore i Q) (hacy : P.forward.Acyclic) (hret : InjectionReturns g calls starts (.ok sol))
    (hret' : InjectionReturns g' calls' starts' (.ok sol')) :
    ∀ v < P.n, (w.id = i → valueAt (sol.concentration w.id) v ≤ valueAt (sol'.concentration w'.id) v) ∧
      (w.id ≠ i → valueAt (sol'.concentration w'.id) v ≤ valueAt (sol.concentration w.id) v) := by
  intro v hv
  have D := diag_injection hP h hret
  have D' := diag_injection hQ h' hret'
  have hF : P.forward.Valid := by obtain ⟨d, st, h1, _⟩ := D.solved; exact h1.valid
  have hG : Q.forward.Valid := by obtain ⟨d, st, h1, _⟩ := D'.solved; exact h1.valid
  have hself := acyclic_no_loop hF hacy
  constructor <;> intro e
  · have := D.more_own D' hmore.forward hself hw hw' hs hs' (injects_own hP hQ hw hw' hmore e (hid ▸ e))
      (acyclic_carries_zero hG (hmore.forward.acyclic hacy) _) v hv
    linarith
  · have := D.more_other D' hmore.forward hself hw hw' hs hs' (injects_other hQ hw hw' hmore hid e)
      (acyclic_carries_zero hF hacy _) v hv
    linarith

/-- **C99** The same for production. -/
theorem C99_production (hmore : P.ProducesMore i Q) (hacy : P.forward.Acyclic) (hret : ProductionReturns g calls starts (.ok sol))
    (hret' : ProductionReturns g' calls' starts' (.ok sol')) :
    ∀ v < P.n, (w.id = i → valueAt (sol.concentration w.id) v ≤ valueAt (sol'.concentration w'.id) v) ∧
      (w.id ≠ i → valueAt (sol'.concentration w'.id) v ≤ valueAt (sol.concentration w.id) v) := by
  intro v hv
  have D := diag_production hP h hret
  have D' := diag_production hQ h' hret'
  have hF : P.backward.Valid := by obtain ⟨d, st, h1, _⟩ := D.solved; exact h1.valid
  have hG : Q.backward.Valid := by obtain ⟨d, st, h1, _⟩ := D'.solved; exact h1.valid
  have hacy' := backward_acyclic hacy
  have hself := acyclic_no_loop hF hacy'
  constructor <;> intro e
  · have := D.more_own D' hmore.backward hself hw hw' hs hs' (produces_own hP hQ hw hw' hmore e (hid ▸ e))
      (acyclic_carries_zero hG (hmore.backward.acyclic hacy') _) v hv
    linarith
  · have := D.more_other D' hmore.backward hself hw hw' hs hs' (produces_other hQ hw hw' hmore hid e)
      (acyclic_carries_zero hF hacy' _) v hv
    linarith

/-- **C99** (exact arithmetic, any cycles, no cell has a self-connection as its only cycle) The same up to the tolerance of the
    solver, `1e-9` times what the flow carries when each cell adds the flux it gets from its own cycle. -/
theorem C99_injection_cyclic (hmore : P.InjectsMore i Q) (hself : ∀ v < P.n, ¬ P.forward.Loop v)
    (hret : InjectionReturns g calls starts (.ok sol)) (hret' : InjectionReturns g' calls' starts' (.ok sol')) {m m' : Nat → K}
    (hm : P.forward.Carries (posCells w) P.forward.cycleInflow m) (hm' : Q.forward.Carries (posCells w') Q.forward.cycleInflow m') :
    ∀ v < P.n,
      (w.id = i → valueAt (sol.concentration w.id) v ≤ valueAt (sol'.concentration w'.id) v + 1 / 1000000000 * m' v) ∧
      (w.id ≠ i → valueAt (sol'.concentration w'.id) v ≤ valueAt (sol.concentration w.id) v + 1 / 1000000000 * m v) :=
  fun v hv => ⟨fun e => (diag_injection hP h hret).more_own (diag_injection hQ h' hret') hmore.forward hself hw hw' hs hs'
      (injects_own hP hQ hw hw' hmore e (hid ▸ e)) hm' v hv,
    fun e => (diag_injection hP h hret).more_other (diag_injection hQ h' hret') hmore.forward hself hw hw' hs hs'
      (injects_other hQ hw hw' hmore hid e) hm v hv⟩

/-- **C99** The same for production, in the reversed flow. -/
theorem C99_production_cyclic (hmore : P.ProducesMore i Q) (hself : ∀ v < P.n, ¬ P.forward.Loop v)
    (hret : ProductionReturns g calls starts (.ok sol)) (hret' : ProductionReturns g' calls' starts' (.ok sol')) {m m' : Nat → K}
    (hm : P.backward.Carries (negCells w) P.backward.cycleInflow m)
    (hm' : Q.backward.Carries (negCells w') Q.backward.cycleInflow m') :
    ∀ v < P.n,
      (w.id = i → valueAt (sol.concentration w.id) v ≤ valueAt (sol'.concentration w'.id) v + 1 / 1000000000 * m' v) ∧
      (w.id ≠ i → valueAt (sol'.concentration w'.id) v ≤ valueAt (sol.concentration w.id) v + 1 / 1000000000 * m v) :=
  fun v hv => ⟨fun e => (diag_production hP h hret).more_own (diag_production hQ h' hret') hmore.backward (backward_not_loop hself)
      hw hw' hs hs' (produces_own hP hQ hw hw' hmore e (hid ▸ e)) hm' v hv,
    fun e => (diag_production hP h hret).more_other (diag_production hQ h' hret') hmore.backward (backward_not_loop hself)
      hw hw' hs hs' (produces_other hQ hw hw' hmore hid e) hm v hv⟩

end concentrations

variable (hP : P.Valid) (hQ : Q.Valid) (h : P.GivenTo g calls) (h' : Q.GivenTo g' calls') {starts starts' : List CellSet}
  {sol sol' : Solution (X K)} (hpv : ∀ v < P.n, Q.pv v = P.pv v) (hacy : P.forward.Acyclic) {v : Nat} (hv : v < P.n)
include hP hQ h h' hpv hacy hv

/-- **C99** (exact arithmetic, cycle-free flow) If a well injects more, the global time of flight does not rise in a cell such that
    something flows into each cell upstream and the same cells upstream are too slow to count as flowing. -/
theorem C99_time_injection (hmore : P.InjectsMore i Q) (hret : InjectionReturns g calls starts (.ok sol))
    (hret' : InjectionReturns g' calls' starts' (.ok sol')) (hfed : ∀ u, P.forward.Reach u v → 0 < P.forward.total u)
    (hslow : ∀ u, P.forward.Reach u v → (P.forward.Slow u ↔ Q.forward.Slow u)) :
    fieldAt sol'.timeOfFlight v ≤ fieldAt sol.timeOfFlight v :=
  (diag_injection hP h hret).more_global (diag_injection hQ h' hret') hmore.forward hpv hacy hv hfed hslow

/-- **C99** The same for production, with downstream for upstream. -/
theorem C99_time_production (hmore : P.ProducesMore i Q) (hret : ProductionReturns g calls starts (.ok sol))
    (hret' : ProductionReturns g' calls' starts' (.ok sol')) (hfed : ∀ u, P.forward.Reach v u → 0 < P.backward.total u)
    (hslow : ∀ u, P.forward.Reach v u → (P.backward.Slow u ↔ Q.backward.Slow u)) :
    fieldAt sol'.timeOfFlight v ≤ fieldAt sol.timeOfFlight v :=
  (diag_production hP h hret).more_global (diag_production hQ h' hret') hmore.backward hpv (backward_acyclic hacy) hv
    (fun u hu => hfed u (backward_reach.mp hu)) fun u hu => hslow u (backward_reach.mp hu)

end exact

/-! ### Doubles -/

section double

theorem Nearly.more_own {F G : Flow ℚ} {wells wells' : List (WellFlux ℚ)} {cs : WellFlux ℚ → List Nat}
    {f : WellFlux ℚ → Nat → ℚ} {starts starts' : List CellSet} {sol sol' : Solution Double} {M : Nat} {δ : Nat → ℚ}
    (N : Nearly F wells cs f starts sol M) (N' : Nearly G wells' cs f starts' sol' M) (h : MoreFlow δ F G)
    (hself : ∀ v < F.n, ¬ F.Loop v) {w w' : WellFlux ℚ} (hw : w ∈ wells) (hw' : w' ∈ wells')
    (hs : ∃ s ∈ starts, s.id = w.id) (hs' : ∃ s ∈ starts', s.id = w'.id) {m m' t t' : Nat → ℚ}
    (hm : F.Carries (cs w) F.cycleInflow m) (hm' : G.Carries (cs w') G.cycleInflow m') (ht : F.Carries (cs w) F.total t)
    (ht' : G.Carries (cs w') G.total t') :
    ∀ v < F.n,
      ((∀ v < F.n, injected (cs w') (f w') v = injected (cs w) (f w) v + δ v) →
        doubleAt (sol.concentration w.id) v ≤ doubleAt (sol'.concentration w'.id) v
          + (1 / 1000000000 * (m v + m' v) + ((4 * M + 6 : Nat) : ℚ) / 2 ^ 51 * (t v + t' v))) ∧
      ((∀ v < F.n, injected (cs w') (f w') v = injected (cs w) (f w) v) →
        doubleAt (sol'.concentration w'.id) v ≤ doubleAt (sol.concentration w.id) v
          + (1 / 1000000000 * (m v + m' v) + ((4 * M + 6 : Nat) : ℚ) / 2 ^ 51 * (t v + t' v))) := by
  obtain ⟨x, hx⟩ := (C76_exact N.valid (N.sources hw) (injected (cs w) (f w))).1
  obtain ⟨y, hy⟩ := (C76_exact N'.valid (N'.sources hw') (injected (cs w') (f w'))).1
  intro v hv
  have a := abs_le.mp (N.error hself hw hs hx hm ht v hv)
  have b := abs_le.mp (N'.error (h.loop hself) hw' hs' hy hm' ht' v (by rw [h.size]; exact hv))
  have e := mul_add (((4 * M + 6 : Nat) : ℚ) / 2 ^ 51) (t v) (t' v)
  constructor <;> intro hin
  · have c := h.own_wells N.valid N'.valid N.side N'.side hw hw' hin hx hy v hv
    linarith
  · have c := h.other_wells N.valid N'.valid N.side N'.side hw hw' hin hx hy v hv
    linarith

variable {P Q : Problem ℚ} {i : CellSetID} (hP : P.Valid) (hQ : Q.Valid) {M : Nat} (hO : P.OfOrdinarySize M)
  (hO' : Q.OfOrdinarySize M) {g g' : ConnectivityGraph} {calls calls' : List (Call Double)}
  (h : P.StoredIn g calls) (h' : Q.StoredIn g' calls') (hself : ∀ v < P.n, ¬ P.forward.Loop v)
  {w w' : WellFlux ℚ} (hw : w ∈ P.wells) (hw' : w' ∈ Q.wells) (hid : w.id = w'.id)
include hP hQ hO hO' h h' hself hw hw' hid

/-- **C99** (doubles, any cycles) The same, with the rounding errors bounded in C80. -/
theorem C99_injection_double (hmore : P.InjectsMore i Q) (htotal : ∀ v < P.n, P.forward.total v ≤ 2 ^ 100)
    (htotal' : ∀ v < Q.n, Q.forward.total v ≤ 2 ^ 100) {starts starts' : List CellSet} {sol sol' : Solution Double}
    (hs : ∃ s ∈ starts, s.id = w.id) (hs' : ∃ s ∈ starts', s.id = w'.id) (hret : InjectionReturns g calls starts (.ok sol))
    (hret' : InjectionReturns g' calls' starts' (.ok sol')) {m m' t t' : Nat → ℚ}
    (hm : P.forward.Carries (posCells w) P.forward.cycleInflow m) (hm' : Q.forward.Carries (posCells w') Q.forward.cycleInflow m')
    (ht : P.forward.Carries (posCells w) P.forward.total t) (ht' : Q.forward.Carries (posCells w') Q.forward.total t') :
    ∀ v < P.n,
      (w.id = i → doubleAt (sol.concentration w.id) v ≤ doubleAt (sol'.concentration w'.id) v
        + (1 / 1000000000 * (m v + m' v) + ((4 * M + 6 : Nat) : ℚ) / 2 ^ 51 * (t v + t' v))) ∧
      (w.id ≠ i → doubleAt (sol'.concentration w'.id) v ≤ doubleAt (sol.concentration w.id) v
        + (1 / 1000000000 * (m v + m' v) + ((4 * M + 6 : Nat) : ℚ) / 2 ^ 51 * (t v + t' v))) :=
  fun v hv =>
    have key := (nearly_injection hP hO htotal h hret).more_own (nearly_injection hQ hO' htotal' h' hret') hmore.forward hself hw hw'
      hs hs' hm hm' ht ht' v hv
    ⟨fun e => key.1 (injects_own hP hQ hw hw' hmore e (hid ▸ e)), fun e => key.2 (injects_other hQ hw hw' hmore hid e)⟩

/-- **C99** The same for production, in the reversed flow. -/
theorem C99_production_double (hmore : P.ProducesMore i Q) (htotal : ∀ v < P.n, P.backward.total v ≤ 2 ^ 100)
    (htotal' : ∀ v < Q.n, Q.backward.total v ≤ 2 ^ 100) {starts starts' : List CellSet} {sol sol' : Solution Double}
    (hs : ∃ s ∈ starts, s.id = w.id) (hs' : ∃ s ∈ starts', s.id = w'.id) (hret : ProductionReturns g calls starts (.ok sol))
    (hret' : ProductionReturns g' calls' starts' (.ok sol')) {m m' t t' : Nat → ℚ}
    (hm : P.backward.Carries (negCells w) P.backward.cycleInflow m)
    (hm' : Q.backward.Carries (negCells w') Q.backward.cycleInflow m')
    (ht : P.backward.Carries (negCells w) P.backward.total t) (ht' : Q.backward.Carries (negCells w') Q.backward.total t') :
    ∀ v < P.n,
      (w.id = i → doubleAt (sol.concentration w.id) v ≤ doubleAt (sol'.concentration w'.id) v
        + (1 / 1000000000 * (m v + m' v) + ((4 * M + 6 : Nat) : ℚ) / 2 ^ 51 * (t v + t' v))) ∧
      (w.id ≠ i → doubleAt (sol'.concentration w'.id) v ≤ doubleAt (sol.concentration w.id) v
        + (1 / 1000000000 * (m v + m' v) + ((4 * M + 6 : Nat) : ℚ) / 2 ^ 51 * (t v + t' v))) :=
  fun v hv =>
    have key := (nearly_production hP hO htotal h hret).more_own (nearly_production hQ hO' htotal' h' hret') hmore.backward
      (backward_not_loop hself) hw hw' hs hs' hm hm' ht ht' v hv
    ⟨fun e => key.1 (produces_own hP hQ hw hw' hmore e (hid ▸ e)), fun e => key.2 (produces_other hQ hw hw' hmore hid e)⟩

end double

/-! ### Where times rise -/

/-- A row of three cells.  Well `A` injects in the first and the last, well `B` injects `b` in the second, which fills in 200 years
    if it gets `1 + e`. -/
def exRise (e b : ℚ) : Problem ℚ where
  n := 3
  conns := [(0, 1), (1, 2)]
  nphase := 1
  phi _ _ := 1
  pv v := if v = 0 then 190 * (365 * 24 * 60 * 60) else if v = 1 then (1 + e) * (200 * (365 * 24 * 60 * 60)) else 2
  wells := [⟨⟨[65]⟩, [0, 2], fun _ => 1⟩, ⟨⟨[66]⟩, [1], fun _ => b⟩]

theorem exRise_valid {e b : ℚ} (he : 0 ≤ e) : (exRise e b).Valid where
  int := by show 3 ≤ INT_MAX; decide
  pos := by show 0 < 3; decide
  some_connection := by unfold exRise; simp
  range := by unfold exRise; simp
  pv v _ := by unfold exRise; simp only; split <;> [norm_num; split <;> [positivity; norm_num]]
  wells_sorted := by unfold exRise; simp; decide
  cells_sorted := by unfold exRise; simp
  cells_range := by unfold exRise; simp

theorem exRise_flux (e b : ℚ) (u v : Nat) :
    (exRise e b).flux u v = if u = 0 ∧ v = 1 then 1 else if u = 1 ∧ v = 2 then 1 else 0 := by
  have n1 : (exRise e b).conns = [(0, 1), (1, 2)] := rfl
  have n2 : ∀ c, (exRise e b).net c = 1 := fun c => by unfold Problem.net exRise; simp
  unfold Problem.flux Problem.carried
  rw [n1]
  simp only [List.length_cons, List.length_nil, sum_range_succ, sum_range_zero, n2]
  simp only [List.getElem?_cons_succ, List.getElem?_cons_zero, Option.some.injEq, Prod.mk.injEq]
  by_cases h1 : u = 0 ∧ v = 1
  · obtain ⟨rfl, rfl⟩ := h1; norm_num
  by_cases h2 : u = 1 ∧ v = 2
  · obtain ⟨rfl, rfl⟩ := h2; norm_num
  have h1' : ¬ (0 = u ∧ 1 = v) := fun h => h1 ⟨h.1.symm, h.2.symm⟩
  have h2' : ¬ (1 = u ∧ 2 = v) := fun h => h2 ⟨h.1.symm, h.2.symm⟩
  rw [if_neg h1, if_neg h2, if_neg h1', if_neg h2']
  norm_num

theorem exRise_source {e b : ℚ} (hb : 0 ≤ b) (v : Nat) :
    (exRise e b).source v = if v = 0 ∨ v = 2 then 1 else if v = 1 then b else 0 := by
  unfold Problem.source Problem.wellAt exRise
  by_cases h0 : v = 0
  · subst h0; simp
  by_cases h2 : v = 2
  · subst h2; simp
  by_cases h1 : v = 1
  · subst h1; simp [hb]
  simp [h0, h1, h2]

theorem exRise_acyclic (e b : ℚ) : (exRise e b).forward.Acyclic := by
  refine levels_acyclic (level := id) fun u v ⟨_, _, h⟩ => ?_
  change 0 < (exRise e b).flux u v at h
  rw [exRise_flux] at h
  show u < v
  split at h
  · omega
  · split at h
    · omega
    · exact absurd h (lt_irrefl _)

/-- The time of flight of the last cell. -/
theorem exRise_time {e b : ℚ} (he : 0 < e) (hb : b = 0 ∨ b = e) {g : ConnectivityGraph} {calls : List (Call (X ℚ))}
    (h : (exRise e b).GivenTo g calls) {starts : List CellSet} {sol : Solution (X ℚ)} (hr : InjectionReturns g calls starts (.ok sol)) :
    fieldAt sol.timeOfFlight 2 = (if b = 0 then 100 else 100 + 95 / (1 + e)) * (365 * 24 * 60 * 60) + 1 := by
  have hb0 : 0 ≤ b := by rcases hb with rfl | rfl <;> [exact le_rfl; exact he.le]
  have D := diag_injection (exRise_valid he.le) h hr
  obtain ⟨d, st, h1, h2, _⟩ := D.solved
  obtain ⟨τ, c, hr1, _, hf⟩ := global_facts h1
  have hacy := exRise_acyclic e b
  have hn : (exRise e b).forward.n = 3 := rfl
  have hw : ∀ u v, (exRise e b).forward.w u v = (exRise e b).flux u v := fun _ _ => rfl
  have hs : ∀ v, (exRise e b).forward.src v = (exRise e b).source v := fun _ => rfl
  have t0 : (exRise e b).forward.total 0 = 1 := by
    unfold Flow.total Flow.inflow
    simp [hn, hw, hs, exRise_flux, exRise_source hb0]
  have t1 : (exRise e b).forward.total 1 = 1 + b := by
    unfold Flow.total Flow.inflow
    simp [hn, hw, hs, exRise_flux, exRise_source hb0]
  have t2 : (exRise e b).forward.total 2 = 2 := by
    unfold Flow.total Flow.inflow
    simp [hn, hw, hs, exRise_flux, exRise_source hb0]; norm_num
  have hb1 : (0 : ℚ) < 1 + b := by linarith
  have hex := fun v (hv : v < 3) => hf.exact v hv (fun hc => hc.1.ne' hc.2) (hacy v)
  have c0 : c 0 = 1 := by
    have := hex 0 (by decide)
    rw [t0] at this
    simp [hn, hw, hs, exRise_flux, exRise_source hb0] at this
    exact this
  have c1 : c 1 = 1 := by
    have := hex 1 (by decide)
    rw [t1] at this
    simp [hn, hw, hs, exRise_flux, exRise_source hb0, c0] at this
    exact mul_left_cancel₀ hb1.ne' (this.trans (mul_one _).symm)
  have c2 : c 2 = 1 := by
    have := hex 2 (by decide)
    rw [t2] at this
    simp [hn, hw, hs, exRise_flux, exRise_source hb0, c1] at this
    linarith
  have p0 : (exRise e b).forward.pv 0 = 190 * (365 * 24 * 60 * 60) := rfl
  have p1 : (exRise e b).forward.pv 1 = (1 + e) * (200 * (365 * 24 * 60 * 60)) := rfl
  have p2 : (exRise e b).forward.pv 2 = 2 := rfl
  have hcap : (cap : ℚ) = 200 * (365 * 24 * 60 * 60) := by unfold cap; norm_num
  have e0 : τ 0 = 190 * (365 * 24 * 60 * 60) := by
    have := hf.texact 0 (show 0 < 3 by decide) (by rw [t0, p0, hcap]; norm_num) (by rw [c0]; norm_num) (hacy 0)
    rw [t0, p0] at this
    simp [hn, hw, exRise_flux, c0] at this
    exact this
  have hslow : (exRise e b).forward.total 1 < (exRise e b).forward.pv 1 / cap ↔ b < e := by
    rw [t1, p1, hcap, mul_div_assoc, div_self (by norm_num), mul_one]
    exact add_lt_add_iff_left 1
  have e1 : τ 1 = (if b = 0 then 200 else 200 + 190 / (1 + e)) * (365 * 24 * 60 * 60) := by
    rcases hb with rfl | rfl
    · rw [hf.capped 1 (show 1 < 3 by decide) (Or.inl (hslow.mpr he)), hcap, if_pos rfl]
    · have := hf.texact 1 (show 1 < 3 by decide) (fun x => lt_irrefl _ (hslow.mp x)) (by rw [c1]; norm_num) (hacy 1)
      rw [t1, p1] at this
      simp [hn, hw, exRise_flux, c0, c1, e0] at this
      rw [if_neg he.ne']
      refine mul_left_cancel₀ hb1.ne' (this.trans ?_)
      field_simp
  have e2 : τ 2 = (if b = 0 then 100 else 100 + 95 / (1 + e)) * (365 * 24 * 60 * 60) + 1 := by
    have := hf.texact 2 (show 2 < 3 by decide) (by rw [t2, p2, hcap]; norm_num) (by rw [c2]; norm_num) (hacy 2)
    rw [t2, p2, c2] at this
    simp [hn, hw, exRise_flux, c1] at this
    rw [e1] at this
    have hd : (190 : ℚ) / (1 + e) = 2 * (95 / (1 + e)) := by ring
    split at this
    · rename_i hz
      rw [if_pos hz]
      linarith
    · rename_i hz
      rw [if_neg hz]
      rw [hd] at this
      linarith
  rw [Res.ok.inj (h2.unique hr1), arr_fieldAt _ _ (show 2 < (exRise e b).forward.n from (by decide : 2 < 3)), e2, min_eq_left]
  rw [hcap]
  have hd : 95 / (1 + e) ≤ 95 := div_le_self (by norm_num) (by linarith)
  split
  · norm_num
  · have : (100 + 95 / (1 + e)) * (365 * 24 * 60 * 60) ≤ (100 + 95) * (365 * 24 * 60 * 60) := by
      exact mul_le_mul_of_nonneg_right (by linarith) (by norm_num)
    linarith

/-- **C99** The global time of flight can rise where a cell upstream becomes fast enough to count as flowing: however little more
    is injected in that cell, the time of flight of a cell downstream of it rises from 100 years to nearly 195. -/
theorem C99_rise {e : ℚ} (he : 0 < e) : ∃ (P Q : Problem ℚ) (g g' : ConnectivityGraph) (calls calls' : List (Call (X ℚ)))
    (i : CellSetID) (starts : List CellSet) (sol sol' : Solution (X ℚ)), P.Valid ∧ Q.Valid ∧ P.InjectsMore i Q ∧
    (∀ v < P.n, Q.source v ≤ P.source v + e) ∧ (∀ v < P.n, Q.pv v = P.pv v) ∧
    P.forward.Acyclic ∧ (∀ v < P.n, 0 < P.forward.total v) ∧ P.GivenTo g calls ∧ Q.GivenTo g' calls' ∧
    InjectionReturns g calls starts (.ok sol) ∧ InjectionReturns g' calls' starts (.ok sol') ∧ 2 < P.n ∧
    fieldAt sol.timeOfFlight 2 = 100 * (365 * 24 * 60 * 60) + 1 ∧
    fieldAt sol'.timeOfFlight 2 = (100 + 95 / (1 + e)) * (365 * 24 * 60 * 60) + 1 := by
  have v1 := exRise_valid (e := e) (b := 0) he.le
  have v2 := exRise_valid (e := e) (b := e) he.le
  obtain ⟨g, calls, h⟩ := exists_given v1 (show 2 * 1 < SIZE_MOD by decide)
  obtain ⟨g', calls', h'⟩ := exists_given v2 (show 2 * 1 < SIZE_MOD by decide)
  have acc : ∀ b, InjectionAccepts (exRise e b).inflowMap [] := fun a s hs => by simp at hs
  obtain ⟨S, hS⟩ := (C40_valid_problem v1 h _).1 (acc 0)
  obtain ⟨S', hS'⟩ := (C40_valid_problem v2 h' _).1 (acc e)
  refine ⟨exRise e 0, exRise e e, g, g', calls, calls', ⟨[66]⟩, [], S, S', v1, v2, ⟨rfl, fun _ _ _ _ => rfl, ?_⟩, fun v _ => ?_,
    fun _ _ => rfl, exRise_acyclic e 0, fun v hv => ?_, h, h', hS, hS', (by decide : 2 < 3), ?_, ?_⟩
  · refine .cons ⟨rfl, fun v hv => ⟨le_rfl, fun _ => rfl⟩⟩ (.cons ⟨rfl, fun v hv => ⟨?_, fun hc => absurd rfl hc⟩⟩ .nil)
    show max (if v ∈ [1] then (0 : ℚ) else 0) 0 ≤ max (if v ∈ [1] then e else 0) 0
    rw [ite_self, max_self]
    exact le_max_right _ _
  · rw [exRise_source he.le, exRise_source le_rfl]
    split <;> [linarith; split <;> linarith]
  · change v < 3 at hv
    have hw : ∀ u v, (exRise e 0).forward.w u v = (exRise e 0).flux u v := fun _ _ => rfl
    have hs : ∀ v, (exRise e 0).forward.src v = (exRise e 0).source v := fun _ => rfl
    have hn : (exRise e 0).forward.n = 3 := rfl
    unfold Flow.total Flow.inflow
    interval_cases v <;> simp [hn, hw, hs, exRise_flux, exRise_source le_rfl]
  · rw [exRise_time he (.inl rfl) h hS, if_pos rfl]
  · rw [exRise_time he (.inr rfl) h' hS', if_neg he.ne']

/-! ### Two cells, two injectors and two producers -/

/-- Well 65 injects in cell 0 and well 66 in cell 1, to which cell 0 flows; well 80 produces from cell 1 and well 81 from cell 0. -/
def exRates (b p : ℚ) : Problem ℚ where
  n := 2
  conns := [(0, 1)]
  nphase := 1
  phi _ _ := 1
  pv _ := 1
  wells := [⟨⟨[65]⟩, [0], fun _ => 2⟩, ⟨⟨[66]⟩, [1], fun _ => b⟩, ⟨⟨[80]⟩, [1], fun _ => -2⟩, ⟨⟨[81]⟩, [0], fun _ => -p⟩]

theorem exRates_valid (b p : ℚ) : (exRates b p).Valid where
  int := by show 2 ≤ INT_MAX; decide
  pos := by show 0 < 2; decide
  some_connection := by unfold exRates; simp
  range := by unfold exRates; simp
  pv v _ := by show (0 : ℚ) ≤ 1; norm_num
  wells_sorted := by unfold exRates; simp; decide
  cells_sorted := by unfold exRates; simp
  cells_range := by unfold exRates; simp

theorem exRates_edge {b p : ℚ} {u v : Nat} (h : (exRates b p).forward.Edge u v) : u = 0 ∧ v = 1 := by
  obtain ⟨hu, hv, hp⟩ := h
  change u < 2 at hu
  change v < 2 at hv
  have key : 0 < (exRates b p).flux u v → u = 0 ∧ v = 1 := by
    clear hp
    interval_cases u <;> interval_cases v <;>
      simp [exRates, Problem.flux, Problem.carried, Problem.net]
  exact key hp

theorem exRates_acyclic (b p : ℚ) : (exRates b p).forward.Acyclic := by
  intro v hv
  have : ∀ a c, Relation.TransGen (exRates b p).forward.Edge a c → a = 0 ∧ c = 1 := by
    intro a c h
    induction h with
    | single e => exact exRates_edge e
    | tail _ e ih => exact ⟨ih.1, (exRates_edge e).2⟩
  have := this v v hv
  omega

theorem exRates_more : (exRates 1 1).InjectsMore ⟨[66]⟩ (exRates 3 2) ∧ (exRates 1 1).ProducesMore ⟨[81]⟩ (exRates 3 2) := by
  refine ⟨⟨rfl, fun _ _ _ _ => rfl, ?_⟩, ⟨rfl, fun _ _ _ _ => rfl, ?_⟩⟩ <;>
  · refine .cons ⟨rfl, fun v hv => ?_⟩ (.cons ⟨rfl, fun v hv => ?_⟩ (.cons ⟨rfl, fun v hv => ?_⟩ (.cons ⟨rfl, fun v hv => ?_⟩ .nil))) <;>
      change v < 2 at hv <;> interval_cases v <;> (simp [Problem.wellAt]; try norm_num)

theorem exRates_flux {b p : ℚ} (u v : Nat) : (exRates b p).flux u v = if u = 0 ∧ v = 1 then 1 else 0 := by
  have n1 : (exRates b p).conns = [(0, 1)] := rfl
  have n2 : ∀ c, (exRates b p).net c = 1 := fun c => by unfold Problem.net exRates; simp
  unfold Problem.flux Problem.carried
  rw [n1]
  simp only [List.length_cons, List.length_nil, sum_range_succ, sum_range_zero, n2]
  simp [eq_comm]

theorem exRates_total : ∀ v < 2, 1 ≤ (exRates 1 1).forward.total v ∧ 1 ≤ (exRates 1 1).backward.total v ∧
    1 ≤ (exRates 3 2).forward.total v ∧ 1 ≤ (exRates 3 2).backward.total v := by
  intro v hv
  unfold Flow.total Flow.inflow
  simp only [Problem.forward, Problem.backward, exRates_flux]
  simp only [exRates, Problem.source, Problem.sink, Problem.wellAt]
  interval_cases v <;> (simp; try norm_num)

theorem exRates_accepted {b p : ℚ} (hb : 0 < b) (hp : 0 < p) :
    InjectionAccepts (exRates b p).inflowMap [⟨⟨[65]⟩, []⟩, ⟨⟨[66]⟩, []⟩] ∧
    ProductionAccepts (exRates b p).inflowMap [⟨⟨[80]⟩, []⟩, ⟨⟨[81]⟩, []⟩] := by
  have ip : ∀ x : ℚ, 0 < x → Arith.lt Arith.zero (X.fin x) = true := by
    intro x hx; rw [X_zero, X_lt]; simpa using hx
  have ineg : ∀ x : ℚ, x < 0 → IsNegative (X.fin x) := by
    intro x hx; unfold IsNegative; rw [X_zero, X_lt, X_lt]; simp; exact ⟨hx, hx.le⟩
  constructor
  · intro s hs
    simp only [List.mem_cons, List.not_mem_nil, or_false] at hs
    rcases hs with rfl | rfl
    · exact ⟨⟨_, .head _, rfl, _, .head _, ip 2 (by norm_num)⟩, by intro c hc; simp [CellSet.cells] at hc⟩
    · exact ⟨⟨_, .tail _ (.head _), rfl, _, .head _, ip b hb⟩, by intro c hc; simp [CellSet.cells] at hc⟩
  · intro s hs
    simp only [List.mem_cons, List.not_mem_nil, or_false] at hs
    rcases hs with rfl | rfl
    · exact ⟨⟨_, .tail _ (.tail _ (.head _)), rfl, _, .head _, ineg (-2) (by norm_num)⟩, by intro c hc; simp [CellSet.cells] at hc⟩
    · exact ⟨⟨_, .tail _ (.tail _ (.tail _ (.head _))), rfl, _, .head _, ineg (-p) (by linarith)⟩,
        by intro c hc; simp [CellSet.cells] at hc⟩

/-- C99: all hypotheses hold when well 66 injects 3 instead of 1, and well 81 produces 2 instead of 1. -/
example : ∃ g calls g' calls' S S' T T', (exRates 1 1).GivenTo g calls ∧ (exRates 3 2).GivenTo g' calls' ∧
    InjectionReturns g calls [⟨⟨[65]⟩, []⟩, ⟨⟨[66]⟩, []⟩] (.ok S) ∧ InjectionReturns g' calls' [⟨⟨[65]⟩, []⟩, ⟨⟨[66]⟩, []⟩] (.ok S') ∧
    ProductionReturns g calls [⟨⟨[80]⟩, []⟩, ⟨⟨[81]⟩, []⟩] (.ok T) ∧
    ProductionReturns g' calls' [⟨⟨[80]⟩, []⟩, ⟨⟨[81]⟩, []⟩] (.ok T') ∧
    valueAt (S.concentration ⟨[66]⟩) 1 ≤ valueAt (S'.concentration ⟨[66]⟩) 1 ∧
    valueAt (S'.concentration ⟨[65]⟩) 1 ≤ valueAt (S.concentration ⟨[65]⟩) 1 ∧
    valueAt (T.concentration ⟨[81]⟩) 0 ≤ valueAt (T'.concentration ⟨[81]⟩) 0 ∧
    valueAt (T'.concentration ⟨[80]⟩) 0 ≤ valueAt (T.concentration ⟨[80]⟩) 0 ∧
    fieldAt S'.timeOfFlight 1 ≤ fieldAt S.timeOfFlight 1 ∧ fieldAt T'.timeOfFlight 0 ≤ fieldAt T.timeOfFlight 0 := by
  obtain ⟨g, calls, h⟩ := exists_given (exRates_valid 1 1) (by show 2 ≤ _; decide)
  obtain ⟨g', calls', h'⟩ := exists_given (exRates_valid 3 2) (by show 2 ≤ _; decide)
  have a := exRates_accepted (b := 1) (p := 1) (by norm_num) (by norm_num)
  have a' := exRates_accepted (b := 3) (p := 2) (by norm_num) (by norm_num)
  obtain ⟨S, hS⟩ := (C40_valid_problem (exRates_valid 1 1) h _).1 a.1
  obtain ⟨T, hT⟩ := (C40_valid_problem (exRates_valid 1 1) h _).2.2.1 a.2
  obtain ⟨S', hS'⟩ := (C40_valid_problem (exRates_valid 3 2) h' _).1 a'.1
  obtain ⟨T', hT'⟩ := (C40_valid_problem (exRates_valid 3 2) h' _).2.2.1 a'.2
  have hlt : ∀ {u v}, v < 2 → (exRates 1 1).forward.Reach u v → u < 2 := by
    intro u v hv hr
    rcases Relation.ReflTransGen.cases_head hr with rfl | ⟨_, e, _⟩
    · exact hv
    · exact e.1
  have hlt' : ∀ {u v}, v < 2 → (exRates 1 1).forward.Reach v u → u < 2 := by
    intro u v hv hr
    rcases Relation.ReflTransGen.cases_tail hr with rfl | ⟨_, _, e⟩
    · exact hv
    · exact e.2.1
  have hc : (1 : ℚ) / cap ≤ 1 := by unfold cap; norm_num
  have V := exRates_valid 1 1
  have V' := exRates_valid 3 2
  have ha := exRates_acyclic 1 1
  obtain ⟨mi, mp⟩ := exRates_more
  refine ⟨g, calls, g', calls', S, S', T, T', h, h', hS, hS', hT, hT', ?_, ?_, ?_, ?_, ?_, ?_⟩
  · exact (C99_injection V V' h h' (w := ⟨⟨[66]⟩, [1], fun _ => 1⟩) (w' := ⟨⟨[66]⟩, [1], fun _ => 3⟩) (.tail _ (.head _))
      (.tail _ (.head _)) rfl ⟨_, .tail _ (.head _), rfl⟩ ⟨_, .tail _ (.head _), rfl⟩ mi ha hS hS' 1 (by show 1 < 2; decide)).1 rfl
  · exact (C99_injection V V' h h' (w := ⟨⟨[65]⟩, [0], fun _ => 2⟩) (w' := ⟨⟨[65]⟩, [0], fun _ => 2⟩) (.head _)
      (.head _) rfl ⟨_, .head _, rfl⟩ ⟨_, .head _, rfl⟩ mi ha hS hS' 1 (by show 1 < 2; decide)).2 (by decide)
  · exact (C99_production V V' h h' (w := ⟨⟨[81]⟩, [0], fun _ => -1⟩) (w' := ⟨⟨[81]⟩, [0], fun _ => -2⟩)
      (.tail _ (.tail _ (.tail _ (.head _)))) (.tail _ (.tail _ (.tail _ (.head _)))) rfl ⟨_, .tail _ (.head _), rfl⟩
      ⟨_, .tail _ (.head _), rfl⟩ mp ha hT hT' 0 (by show 0 < 2; decide)).1 rfl
  · exact (C99_production V V' h h' (w := ⟨⟨[80]⟩, [1], fun _ => -2⟩) (w' := ⟨⟨[80]⟩, [1], fun _ => -2⟩)
      (.tail _ (.tail _ (.head _))) (.tail _ (.tail _ (.head _))) rfl ⟨_, .head _, rfl⟩
      ⟨_, .head _, rfl⟩ mp ha hT hT' 0 (by show 0 < 2; decide)).2 (by decide)
  · refine C99_time_injection V V' h h' (fun _ _ => rfl) ha (v := 1) (by show 1 < 2; decide) mi hS hS' (fun u hu => ?_) fun u hu => ?_
    · exact lt_of_lt_of_le one_pos (exRates_total u (hlt (by decide) hu)).1
    · obtain ⟨h1, _, h3, _⟩ := exRates_total u (hlt (by decide) hu)
      exact iff_of_false (fun hc' => absurd (lt_of_lt_of_le hc' hc) (not_lt.mpr h1)) fun hc' => absurd (lt_of_lt_of_le hc' hc) (not_lt.mpr h3)
  · refine C99_time_production V V' h h' (fun _ _ => rfl) ha (v := 0) (by show 0 < 2; decide) mp hT hT' (fun u hu => ?_) fun u hu => ?_
    · exact lt_of_lt_of_le one_pos (exRates_total u (hlt' (by decide) hu)).2.1
    · obtain ⟨_, h2, _, h4⟩ := exRates_total u (hlt' (by decide) hu)
      exact iff_of_false (fun hc' => absurd (lt_of_lt_of_le hc' hc) (not_lt.mpr h2)) fun hc' => absurd (lt_of_lt_of_le hc' hc) (not_lt.mpr h4)

/-! ### A cycle -/

/-- `exWhirl`, where well 80 injects in cell 1 and produces more from cell 3. -/
def exWhirlMore : Problem ℚ where
  n := 4
  conns := [(0, 1), (1, 2), (2, 3), (3, 1)]
  nphase := 1
  phi c _ := if c = 0 then 2 else if c = 3 then 1 else 3
  pv _ := 1
  wells := [⟨⟨[65]⟩, [0], fun _ => 2⟩, ⟨⟨[80]⟩, [1, 3], fun v => if v = 1 then 1 else -4⟩]

theorem whirlMore_valid : exWhirlMore.Valid where
  int := by decide
  pos := by decide
  some_connection := by decide
  range := by decide
  pv v _ := by show (0 : ℚ) ≤ 1; norm_num
  wells_sorted := by unfold exWhirlMore; simp; decide
  cells_sorted := by unfold exWhirlMore; simp
  cells_range := by unfold exWhirlMore; simp

theorem whirlMore_more : exWhirl.InjectsMore ⟨[80]⟩ exWhirlMore ∧ exWhirl.ProducesMore ⟨[80]⟩ exWhirlMore := by
  refine ⟨⟨rfl, fun _ _ _ _ => rfl, ?_⟩, ⟨rfl, fun _ _ _ _ => rfl, ?_⟩⟩ <;>
  · refine .cons ⟨rfl, fun v hv => ?_⟩ (.cons ⟨rfl, fun v hv => ?_⟩ .nil) <;>
      change v < 4 at hv <;> interval_cases v <;> (simp [Problem.wellAt]; try norm_num)

def whirlMoreCalls : List (Call Double) :=
  [.assignPoreVolume [Arith.lit 1, Arith.lit 1, Arith.lit 1, Arith.lit 1],
   .assignConnectionFlux ⟨4, 1, [Arith.lit 2, Arith.lit 3, Arith.lit 3, Arith.lit 1]⟩,
   .assignInflowFlux [(⟨[65]⟩, [(0, Arith.lit 2)]), (⟨[80]⟩, [(1, Arith.lit 1), (3, Arith.lit (-4))])]]

theorem whirlMore_stored : exWhirlMore.StoredIn whirlGraph whirlMoreCalls where
  graph := whirl_stored.graph
  pv := ⟨_, rfl, by decide +kernel⟩
  flux := whirl_stored.flux
  inflow := by decide +kernel

theorem whirlMore_ordinary : exWhirlMore.OfOrdinarySize 4 where
  flux := whirl_ordinary.flux
  well w hw v hv := by
    simp only [exWhirlMore, List.mem_cons, List.not_mem_nil, or_false] at hw
    right
    rcases hw with rfl | rfl
    · norm_num
    · show _ ≤ |if v = 1 then (1 : ℚ) else -4| ∧ |if v = 1 then (1 : ℚ) else -4| ≤ _
      split <;> norm_num
  pv v _ := by
    right
    unfold exWhirlMore
    norm_num
  degree v := (List.length_filter_le _ _).trans (by decide)
  wells v := (List.length_filter_le _ _).trans (by decide)
  bound := by norm_num

theorem whirlMore_total : (∀ v < exWhirlMore.n, exWhirlMore.forward.total v ≤ 2 ^ 100) ∧
    ∀ v < exWhirlMore.n, exWhirlMore.backward.total v ≤ 2 ^ 100 := by
  constructor
  · intro v hv
    have hv : v < 4 := hv
    unfold Flow.total Flow.inflow
    simp only [Problem.forward]
    interval_cases v <;>
      simp [exWhirlMore, Finset.sum_range_succ, Problem.source, Problem.wellAt, Problem.flux, Problem.carried, Problem.net] <;> norm_num
  · intro v hv
    have hv : v < 4 := hv
    unfold Flow.total Flow.inflow
    simp only [Problem.backward]
    interval_cases v <;>
      simp [exWhirlMore, Finset.sum_range_succ, Problem.sink, Problem.wellAt, Problem.flux, Problem.carried, Problem.net] <;> norm_num

set_option maxRecDepth 100000 in
theorem whirlMore_injection : ∃ S, InjectionReturns whirlGraph whirlMoreCalls [CellSet.ofCells ⟨[65]⟩ [0]] (.ok S) := by
  obtain ⟨S, hS⟩ := isOk_spec
    (show isOk (injectionOutcome whirlGraph whirlMoreCalls noFailure 100 [CellSet.ofCells ⟨[65]⟩ [0]]) = true by decide +kernel)
  exact ⟨S, (Fuel.injection_returns.mpr ⟨100, hS, by simp⟩).1⟩

set_option maxRecDepth 100000 in
theorem whirlMore_production : ∃ S, ProductionReturns whirlGraph whirlMoreCalls [CellSet.ofCells ⟨[80]⟩ [3]] (.ok S) := by
  obtain ⟨S, hS⟩ := isOk_spec
    (show isOk (productionOutcome whirlGraph whirlMoreCalls noFailure 100 [CellSet.ofCells ⟨[80]⟩ [3]]) = true by decide +kernel)
  exact ⟨S, (Fuel.production_returns.mpr ⟨100, hS, by simp⟩).1⟩

/-- C99 with a cycle, with `double`s: well 80 injects and produces more. -/
example : ∃ S T S' T', InjectionReturns whirlGraph whirlCalls [CellSet.ofCells ⟨[65]⟩ [0]] (.ok S) ∧
    ProductionReturns whirlGraph whirlCalls [CellSet.ofCells ⟨[80]⟩ [3]] (.ok T) ∧
    InjectionReturns whirlGraph whirlMoreCalls [CellSet.ofCells ⟨[65]⟩ [0]] (.ok S') ∧
    ProductionReturns whirlGraph whirlMoreCalls [CellSet.ofCells ⟨[80]⟩ [3]] (.ok T') ∧
    (∀ m m' t t', exWhirl.forward.Carries (posCells ⟨⟨[65]⟩, [0], fun _ => (2 : ℚ)⟩) exWhirl.forward.cycleInflow m →
      exWhirlMore.forward.Carries (posCells ⟨⟨[65]⟩, [0], fun _ => (2 : ℚ)⟩) exWhirlMore.forward.cycleInflow m' →
      exWhirl.forward.Carries (posCells ⟨⟨[65]⟩, [0], fun _ => (2 : ℚ)⟩) exWhirl.forward.total t →
      exWhirlMore.forward.Carries (posCells ⟨⟨[65]⟩, [0], fun _ => (2 : ℚ)⟩) exWhirlMore.forward.total t' →
      doubleAt (S'.concentration ⟨[65]⟩) 3 ≤ doubleAt (S.concentration ⟨[65]⟩) 3
        + (1 / 1000000000 * (m 3 + m' 3) + ((4 * 4 + 6 : Nat) : ℚ) / 2 ^ 51 * (t 3 + t' 3))) ∧
    ∀ m m' t t', exWhirl.backward.Carries (negCells ⟨⟨[80]⟩, [3], fun _ => (-2 : ℚ)⟩) exWhirl.backward.cycleInflow m →
      exWhirlMore.backward.Carries (negCells ⟨⟨[80]⟩, [1, 3], fun v => if v = 1 then (1 : ℚ) else -4⟩)
        exWhirlMore.backward.cycleInflow m' →
      exWhirl.backward.Carries (negCells ⟨⟨[80]⟩, [3], fun _ => (-2 : ℚ)⟩) exWhirl.backward.total t →
      exWhirlMore.backward.Carries (negCells ⟨⟨[80]⟩, [1, 3], fun v => if v = 1 then (1 : ℚ) else -4⟩) exWhirlMore.backward.total t' →
      doubleAt (T.concentration ⟨[80]⟩) 0 ≤ doubleAt (T'.concentration ⟨[80]⟩) 0
        + (1 / 1000000000 * (m 0 + m' 0) + ((4 * 4 + 6 : Nat) : ℚ) / 2 ^ 51 * (t 0 + t' 0)) := by
  obtain ⟨S, hS, _⟩ := whirl_injection
  obtain ⟨⟨T, hT⟩, _⟩ := whirl_production
  obtain ⟨S', hS'⟩ := whirlMore_injection
  obtain ⟨T', hT'⟩ := whirlMore_production
  refine ⟨S, T, S', T', hS, hT, hS', hT', fun m m' t t' hm hm' ht ht' => ?_, fun m m' t t' hm hm' ht ht' => ?_⟩
  · exact (C99_injection_double exWhirl_valid whirlMore_valid whirl_ordinary whirlMore_ordinary whirl_stored whirlMore_stored
      whirl_noLoop (w := ⟨⟨[65]⟩, [0], fun _ => 2⟩) (w' := ⟨⟨[65]⟩, [0], fun _ => 2⟩) (.head _) (.head _) rfl whirlMore_more.1
      whirl_total.1 whirlMore_total.1 ⟨_, .head _, rfl⟩ ⟨_, .head _, rfl⟩ hS hS' hm hm' ht ht' 3 (by decide)).2 (by decide)
  · exact (C99_production_double exWhirl_valid whirlMore_valid whirl_ordinary whirlMore_ordinary whirl_stored whirlMore_stored
      whirl_noLoop (w := ⟨⟨[80]⟩, [3], fun _ => -2⟩) (w' := ⟨⟨[80]⟩, [1, 3], fun v => if v = 1 then 1 else -4⟩) (.tail _ (.head _))
      (.tail _ (.head _)) rfl whirlMore_more.2 whirl_total.2 whirlMore_total.2 ⟨_, .head _, rfl⟩ ⟨_, .head _, rfl⟩ hT hT' hm hm' ht
      ht' 0 (by decide)).1 rfl

/-- C99 with a cycle, in exact arithmetic: the two problems can be given to toolboxes. -/
example : (∃ g, ∃ calls : List (Call (X ℚ)), exWhirl.GivenTo g calls) ∧
    (∃ g, ∃ calls : List (Call (X ℚ)), exWhirlMore.GivenTo g calls) ∧ exWhirl.InjectsMore ⟨[80]⟩ exWhirlMore ∧
    exWhirl.ProducesMore ⟨[80]⟩ exWhirlMore ∧ ∀ v < exWhirl.n, ¬ exWhirl.forward.Loop v :=
  ⟨exists_given exWhirl_valid (by decide), exists_given whirlMore_valid (by decide), whirlMore_more.1, whirlMore_more.2, whirl_noLoop⟩

end Verif.Props
