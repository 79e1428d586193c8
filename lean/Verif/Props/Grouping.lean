/-
C96: wells can be put together in groups.
-/
import Verif.Props.Renumbering
import Verif.Props.FlowLaws
import Verif.Spec.Grouping

namespace Verif.Props
open Verif.Spec Verif.Toolbox Verif.Solver Verif.Derived Finset

/-! ### Flow -/

section flow
variable {K : Type} [Field K] [LinearOrder K] {F : Flow K}

/-- A field that is carried satisfies the balance everywhere if nothing is added outside. -/
theorem carries_everywhere [IsStrictOrderedRing K] (hF : F.Valid) {starts : List Nat} {q x : Nat → K} (h : F.Carries starts q x)
    (hq : ∀ v < F.n, ¬ F.Downstream starts v → q v = 0) :
    ∀ v < F.n, F.total v * x v = (∑ u ∈ range F.n, x u * F.w u v) + q v := by
  intro v hv
  by_cases hd : F.Downstream starts v
  · exact h.2 v hv hd
  · rw [h.1 v hv hd, hq v hv hd, mul_zero, add_zero]
    refine (sum_eq_zero fun u hu => ?_).symm
    have hun := mem_range.mp hu
    rcases (hF.w_nonneg u v hun hv).lt_or_eq with e | e
    · rw [h.1 u hun fun hc => hd (downstream_edge hc ⟨hun, hv, e⟩), zero_mul]
    · rw [← e, mul_zero]

/-- What the flow carries from several sets of cells together. -/
theorem carries_sum [IsStrictOrderedRing K] (hF : F.Valid) {ι : Type} {l : List ι} {s : ι → List Nat} {q x : ι → Nat → K}
    {all : List Nat} (hs : ∀ v, F.Downstream all v ↔ ∃ k ∈ l, F.Downstream (s k) v)
    (hq : ∀ k ∈ l, ∀ v < F.n, ¬ F.Downstream (s k) v → q k v = 0) (h : ∀ k ∈ l, F.Carries (s k) (q k) (x k)) :
    F.Carries all (fun v => (l.map fun k => q k v).sum) fun v => (l.map fun k => x k v).sum := by
  constructor
  · intro v hv hd
    refine List.sum_eq_zero fun y hy => ?_
    obtain ⟨k, hk, rfl⟩ := List.mem_map.mp hy
    exact (h k hk).1 v hv fun hc => hd ((hs v).mpr ⟨k, hk, hc⟩)
  · intro v hv _
    have key := fun k hk => carries_everywhere hF (h k hk) (hq k hk) v hv
    clear h hq hs
    induction l with
    | nil => simp
    | cons k l ih =>
      have h1 := key k (by simp)
      have h2 := ih fun k hk => key k (by simp [hk])
      simp only [List.map_cons, List.sum_cons]
      rw [mul_add, h1, h2]
      simp only [add_mul, sum_add_distrib]
      ring

/-- From more cells at least as much is carried. -/
theorem carries_subset [IsStrictOrderedRing K] (hF : F.Valid) {starts all : List Nat} (hs : ∀ p ∈ starts, p ∈ all)
    (hp : ∀ p ∈ all, p < F.n ∧ 0 < F.src p) {q x y : Nat → K} (hq : ∀ v < F.n, 0 ≤ q v) (hx : F.Carries starts q x)
    (hy : F.Carries all q y) : ∀ v < F.n, x v ≤ y v := by
  have hnn := (C76_exact hF hp q).2.2 hq y hy
  have hsub : ∀ v, F.Downstream starts v → F.Downstream all v := fun v ⟨p, h1, h2⟩ => ⟨p, hs p h1, h2⟩
  have := max_principle hF (S := F.Downstream starts) (e := fun v => x v - y v) (fun v hv hn => by
    show x v - y v ≤ 0
    rw [hx.1 v hv hn]
    linarith [hnn v hv]) (fun v hv hd => by
    show F.total v * (x v - y v) ≤ ∑ u ∈ range F.n, (x u - y u) * F.w u v
    have e : ∑ u ∈ range F.n, (x u - y u) * F.w u v = (∑ u ∈ range F.n, x u * F.w u v) - ∑ u ∈ range F.n, y u * F.w u v := by
      rw [← sum_sub_distrib]; exact sum_congr rfl fun u _ => by ring
    rw [e, mul_sub, hx.2 v hv hd, hy.2 v hv (hsub v hd)]
    linarith) (fun v _ ⟨p, h1, h2⟩ => ⟨p, (hp p (hs p h1)).1, (hp p (hs p h1)).2, h2⟩)
  intro v hv
  exact sub_nonpos.mp (this v hv)

end flow

/-! ### Local solutions -/

section solver
variable {K : Type} [Field K] [LinearOrder K] [IsStrictOrderedRing K] [Archimedean K]
variable {F G : Flow K} {d d' : SolverData (X K)} {st st' : SolverState (X K)}
variable {m : Nat} {starts : Fin m → List Nat} {ls : Fin m → Nat → K} {sol : Fin m → LocalSolution (X K)}

/-- One tracer for several start sets. -/
theorem group_local (h : SolverFor F d st) (h' : SolverFor G d' st') (hren : Renumbered id F G) (hacy : F.Acyclic)
    (hp : ∀ k, ∀ p ∈ starts k, p < F.n ∧ 0 < ls k p) {all : List Nat} {la : Nat → K} (hpa : ∀ p ∈ all, p < F.n ∧ 0 < la p)
    (hsplit : ∀ v < F.n, injected all la v = ∑ k, injected (starts k) (ls k) v)
    (hr : ∀ k, LocalReturns d st (valuesOf (starts k) (ls k)) (.ok (sol k))) {sola : LocalSolution (X K)}
    (hra : LocalReturns d' st' (valuesOf all la) (.ok sola)) :
    ∀ v < F.n, valueAt sola.concentration v = ∑ k, valueAt (sol k).concentration v ∧
      ∑ k, valueAt (sol k).concentration v * valueAt (sol k).tof v ≤ valueAt sola.concentration v * valueAt sola.tof v ∧
      ((∀ k, valueAt (sol k).tof v < cap) →
        ∑ k, valueAt (sol k).concentration v * valueAt (sol k).tof v = valueAt sola.concentration v * valueAt sola.tof v) := by
  have hn : G.n = F.n := hren.size
  have hw : ∀ u < F.n, ∀ v < F.n, G.w u v = F.w u v := hren.flux
  have htot : ∀ v < F.n, G.total v = F.total v := fun v hv => total_renumber hren hv
  have hpG : ∀ p ∈ all, p < G.n := fun p hps => by rw [hn]; exact (hpa p hps).1
  have hedge : ∀ u v, G.Edge u v ↔ F.Edge u v := by
    intro u v
    unfold Flow.Edge
    rw [hn]
    exact ⟨fun ⟨a, b, c⟩ => ⟨a, b, by rwa [← hw u a v b]⟩, fun ⟨a, b, c⟩ => ⟨a, b, by rwa [hw u a v b]⟩⟩
  have hreach : ∀ u v, G.Reach u v ↔ F.Reach u v := by
    have : G.Edge = F.Edge := by funext u v; exact propext (hedge u v)
    intro u v
    unfold Flow.Reach
    rw [this]
  have hds : ∀ v, G.Downstream all v ↔ F.Downstream all v := fun v => by
    unfold Flow.Downstream
    simp only [hreach]
  have hacyG : G.Acyclic := fun v hc => hacy v (Relation.TransGen.mono (fun a b => (hedge a b).mp) _ _ hc)
  choose t hf hv using fun k => local_values h (fun p hps => (hp k p hps).1) (fun p hps => (hp k p hps).2.le) (hr k)
  obtain ⟨ta, hfa, hva⟩ := local_values h' hpG (fun p hps => (hpa p hps).2.le) hra
  have hbal := fun k => C26_balance_exact h hacy (fun p hps => (hp k p hps).1) (fun p hps => (hp k p hps).2.le) (hr k)
  have hbala : ∀ v < F.n, F.total v * valueAt sola.concentration v
      = (∑ u ∈ range F.n, valueAt sola.concentration u * F.w u v) + injected all la v := by
    intro v hv
    have := C26_balance_exact h' hacyG hpG (fun p hps => (hpa p hps).2.le) hra v (by rw [hn]; exact hv)
    rw [htot v hv, hn] at this
    rw [this]
    congr 1
    exact sum_congr rfl fun u hu => by rw [hw u (mem_range.mp hu) v hv]
  -- start cells
  have hmem : ∀ p, p ∈ all ↔ ∃ k, p ∈ starts k := by
    intro p
    constructor
    · intro hps
      by_contra hc
      have := hsplit p (hpa p hps).1
      rw [sum_eq_zero fun k _ => by unfold injected; rw [if_neg fun hk => hc ⟨k, hk⟩]] at this
      unfold injected at this
      rw [if_pos hps] at this
      exact absurd (hpa p hps).2 (by rw [this]; exact lt_irrefl _)
    · rintro ⟨k, hk⟩
      by_contra hc
      have e := hsplit p (hp k p hk).1
      have h1 : injected (starts k) (ls k) p ≤ ∑ k, injected (starts k) (ls k) p :=
        single_le_sum (f := fun k => injected (starts k) (ls k) p) (fun j _ => by
          show 0 ≤ injected (starts j) (ls j) p
          unfold injected
          split
          · exact (hp j p (by assumption)).2.le
          · exact le_rfl) (mem_univ k)
      rw [← e] at h1
      unfold injected at h1
      rw [if_neg hc, if_pos hk] at h1
      exact absurd (hp k p hk).2 (not_lt.mpr h1)
  have hdown : ∀ v, F.Downstream all v ↔ ∃ k, F.Downstream (starts k) v := by
    intro v
    constructor
    · rintro ⟨p, h1, h2⟩
      obtain ⟨k, hk⟩ := (hmem p).mp h1
      exact ⟨k, p, hk, h2⟩
    · rintro ⟨k, p, h1, h2⟩
      exact ⟨p, (hmem p).mpr ⟨k, h1⟩, h2⟩
  have hoffa : ∀ v, ¬ F.Downstream all v → valueAt sola.concentration v = 0 ∧ ∀ k, valueAt (sol k).concentration v = 0 :=
    fun v hd => ⟨hfa.off v fun hc => hd ((hds v).mp hc), fun k => (hf k).off v fun hc => hd ((hdown v).mpr ⟨k, hc⟩)⟩
  have htpos : ∀ v < F.n, F.Downstream all v → 0 < F.total v := by
    intro v hvn hd
    have hn' : v < G.n := by rw [hn]; exact hvn
    obtain ⟨p, hpn, _, _, hs, hr⟩ := hfa.source v hn' (hva v ((hds v).mpr hd)).1
    rw [← htot v hvn]
    rcases Relation.ReflTransGen.cases_tail hr with e | ⟨u, _, hu⟩
    · rw [e]
      unfold Flow.total Flow.inflow
      have : 0 ≤ ∑ u ∈ range G.n, G.w u p := sum_nonneg fun u hu => h'.valid.w_nonneg u p (mem_range.mp hu) hpn
      linarith
    · unfold Flow.total Flow.inflow
      have h1 := h'.valid.src_nonneg v hn'
      have h2 : G.w u v ≤ ∑ u ∈ range G.n, G.w u v :=
        single_le_sum (f := fun u => G.w u v) (fun u hu => h'.valid.w_nonneg u v (mem_range.mp hu) hn') (mem_range.mpr hu.1)
      have := hu.2.2
      linarith
  have hc : ∀ v < F.n, valueAt sola.concentration v = ∑ k, valueAt (sol k).concentration v := by
    refine acyclic_induction hacy fun v hvn ih => ?_
    by_cases hd : F.Downstream all v
    · apply mul_left_cancel₀ (htpos v hvn hd).ne'
      rw [hbala v hvn, mul_sum, sum_congr rfl fun k _ => hbal k v hvn, sum_add_distrib, hsplit v hvn, sum_comm]
      congr 1
      refine sum_congr rfl fun u hu => ?_
      have hun := mem_range.mp hu
      rw [← sum_mul]
      rcases (h.valid.w_nonneg u v hun hvn).lt_or_eq with e | e
      · rw [ih u ⟨hun, hvn, e⟩]
      · rw [← e, mul_zero, mul_zero]
    · rw [(hoffa v hd).1, sum_eq_zero fun k _ => (hoffa v hd).2 k]
  have hslow : ∀ v < F.n, G.total v < G.pv v / cap ↔ F.total v < F.pv v / cap := fun v hvn => by
    rw [htot v hvn, show G.pv v = F.pv v from hren.pv v hvn]
  have hct : ∀ v < F.n, ∑ k, valueAt (sol k).concentration v * t k v = valueAt sola.concentration v * ta v := by
    refine acyclic_induction hacy fun v hvn ih => ?_
    by_cases hd : F.Downstream all v
    · have hdG := (hds v).mpr hd
      by_cases hs : F.total v < F.pv v / cap
      · rw [hfa.capped v hdG (Or.inl ((hslow v hvn).mpr hs)), hc v hvn, sum_mul]
        refine sum_congr rfl fun k _ => ?_
        by_cases hdk : F.Downstream (starts k) v
        · rw [(hf k).capped v hdk (Or.inl hs)]
        · rw [(hf k).off v hdk, zero_mul, zero_mul]
      · have e1 := hfa.texact v hdG (fun hc => hs ((hslow v hvn).mp hc)) (hva v hdG).1 (hacyG v)
        have e2 : ∀ k, F.total v * (valueAt (sol k).concentration v * t k v)
            = F.pv v * valueAt (sol k).concentration v
              + ∑ u ∈ range F.n, t k u * valueAt (sol k).concentration u * F.w u v := by
          intro k
          by_cases hdk : F.Downstream (starts k) v
          · rw [← (hf k).texact v hdk hs (hv k v hdk).1 (hacy v)]; ring
          · rw [facts_off (hf k) h.valid (fun _ _ => downstream_edge) hvn hdk, (hf k).off v hdk]; ring
        apply mul_left_cancel₀ (htpos v hvn hd).ne'
        rw [mul_sum, sum_congr rfl fun k _ => e2 k, sum_add_distrib, ← mul_sum, ← hc v hvn, sum_comm, ← mul_assoc, ← htot v hvn, e1,
          show G.pv v = F.pv v from hren.pv v hvn, hn]
        congr 1
        refine sum_congr rfl fun u hu => ?_
        have hun := mem_range.mp hu
        rw [← sum_mul, hw u hun v hvn]
        rcases (h.valid.w_nonneg u v hun hvn).lt_or_eq with e | e
        · rw [mul_comm (ta u), ← ih u ⟨hun, hvn, e⟩]
          congr 1
          exact sum_congr rfl fun k _ => by ring
        · rw [← e, mul_zero, mul_zero]
    · rw [(hoffa v hd).1, sum_eq_zero fun k _ => by rw [(hoffa v hd).2 k, zero_mul], zero_mul]
  intro v hvn
  have hcn : ∀ k, 0 ≤ valueAt (sol k).concentration v := fun k => ((hf k).nonneg v hvn).2
  have hcell : ∀ k, valueAt (sol k).concentration v * valueAt (sol k).tof v
      = valueAt (sol k).concentration v * min (t k v) cap := by
    intro k
    by_cases hd : F.Downstream (starts k) v
    · rw [(hv k v hd).2.1]
    · rw [(hf k).off v hd]; ring
  have hcella : valueAt sola.concentration v * valueAt sola.tof v = valueAt sola.concentration v * min (ta v) cap := by
    by_cases hd : F.Downstream all v
    · rw [(hva v ((hds v).mpr hd)).2.1]
    · rw [(hoffa v hd).1]; ring
  have hca : 0 ≤ valueAt sola.concentration v := by rw [hc v hvn]; exact sum_nonneg fun k _ => hcn k
  have hmin : valueAt sola.concentration v * min (ta v) cap
      = min (valueAt sola.concentration v * ta v) (valueAt sola.concentration v * cap) := mul_min_of_nonneg _ _ hca
  refine ⟨hc v hvn, ?_, fun hlt => ?_⟩
  · rw [hcella, hmin, sum_congr rfl fun k _ => hcell k]
    apply le_min
    · rw [← hct v hvn]
      exact sum_le_sum fun k _ => mul_le_mul_of_nonneg_left (min_le_left _ _) (hcn k)
    · rw [hc v hvn, sum_mul]
      exact sum_le_sum fun k _ => mul_le_mul_of_nonneg_left (min_le_right _ _) (hcn k)
  · have hex : ∀ k, valueAt (sol k).concentration v * valueAt (sol k).tof v = valueAt (sol k).concentration v * t k v
        ∧ valueAt (sol k).concentration v * t k v ≤ valueAt (sol k).concentration v * cap := by
      intro k
      by_cases hd : F.Downstream (starts k) v
      · have h1 := hlt k
        rw [(hv k v hd).2.1] at h1 ⊢
        have h2 : t k v < cap := by
          by_contra hc; rw [min_eq_right (not_lt.mp hc)] at h1; exact lt_irrefl _ h1
        rw [min_eq_left h2.le]
        exact ⟨rfl, mul_le_mul_of_nonneg_left h2.le (hcn k)⟩
      · rw [(hf k).off v hd]; simp
    rw [hcella, hmin, sum_congr rfl fun k _ => (hex k).1, hct v hvn, min_eq_left]
    rw [← hct v hvn, hc v hvn, sum_mul]
    exact sum_le_sum fun k _ => (hex k).2

end solver

/-! ### Problems -/

section problem
variable {K : Type} [Field K] [LinearOrder K]

omit [LinearOrder K] in
theorem sum_filter_zero {ι : Type} (l : List ι) (p : ι → Bool) (f : ι → K) (h : ∀ k ∈ l, p k = false → f k = 0) :
    ((l.filter p).map f).sum = (l.map f).sum := by
  induction l with
  | nil => rfl
  | cons k l ih =>
    rw [List.filter_cons, List.map_cons, List.sum_cons]
    cases e : p k with
    | true => rw [if_pos rfl, List.map_cons, List.sum_cons, ih fun k hk => h k (by simp [hk])]
    | false => rw [if_neg (by simp), ih fun k hk => h k (by simp [hk]), h k (by simp) e, zero_add]

omit [LinearOrder K] in
theorem sum_one {l : List (WellFlux K)} (hl : l.Pairwise fun a b => a.id < b.id) {i : CellSetID} (h : ∃ w ∈ l, w.id = i) (a : K) :
    (l.map fun w => if i = w.id then a else 0).sum = a := by
  induction l with
  | nil => obtain ⟨w, hw, _⟩ := h; simp at hw
  | cons w l ih =>
    rw [List.map_cons, List.sum_cons]
    obtain ⟨h1, h2⟩ := List.pairwise_cons.mp hl
    by_cases e : i = w.id
    · rw [if_pos e]
      have : (l.map fun w => if i = w.id then a else 0).sum = 0 := by
        refine List.sum_eq_zero fun y hy => ?_
        obtain ⟨x, hx, rfl⟩ := List.mem_map.mp hy
        show (if i = x.id then a else 0) = 0
        rw [if_neg]
        rw [e]
        exact ne_of_lt (h1 x hx)
      rw [this, add_zero]
    · rw [if_neg e, zero_add]
      refine ih h2 ?_
      obtain ⟨x, hx, ex⟩ := h
      rcases List.mem_cons.mp hx with rfl | hx
      · exact absurd ex.symm e
      · exact ⟨x, hx, ex⟩

omit [LinearOrder K] in
/-- Summing over groups is summing over wells. -/
theorem sum_groups {γ : CellSetID → CellSetID} {L : List (WellFlux K)} (hL : L.Pairwise fun a b => a.id < b.id)
    (l : List (WellFlux K)) (hall : ∀ w ∈ l, ∃ W ∈ L, W.id = γ w.id) (f : WellFlux K → K) :
    (L.map fun W => ((l.filter fun w => decide (γ w.id = W.id)).map f).sum).sum = (l.map f).sum := by
  induction l with
  | nil =>
    refine List.sum_eq_zero fun y hy => ?_
    obtain ⟨W, _, rfl⟩ := List.mem_map.mp hy
    rfl
  | cons w l ih =>
    rw [List.map_cons, List.sum_cons, ← ih fun w hw => hall w (by simp [hw]), ← sum_one hL (hall w (by simp)) (f w), ← List.sum_map_add]
    congr 1
    refine List.map_congr_left fun W _ => ?_
    rw [List.filter_cons]
    by_cases e : γ w.id = W.id
    · rw [if_pos (by simpa using e), if_pos e, List.map_cons, List.sum_cons]
    · rw [if_neg (by simpa using e), if_neg e, zero_add]

variable {P Q : Problem K} {γ : CellSetID → CellSetID}

theorem Grouped.source (hQ : Q.Valid) (h : P.Grouped γ Q) {v : Nat} (hv : v < P.n) : Q.source v = P.source v ∧ Q.sink v = P.sink v := by
  unfold Problem.source Problem.sink
  constructor
  · rw [← sum_groups hQ.wells_sorted P.wells h.all]
    congr 1
    exact List.map_congr_left fun W hW => h.injected W hW v hv
  · rw [← sum_groups hQ.wells_sorted P.wells h.all]
    congr 1
    exact List.map_congr_left fun W hW => h.produced W hW v hv

theorem Grouped.forward (hQ : Q.Valid) (h : P.Grouped γ Q) : Renumbered id P.forward Q.forward :=
  ⟨h.size, fun _ hv => hv, fun _ _ _ _ e => e, h.flux, h.pv, fun _ hv => (Grouped.source hQ h hv).1⟩

theorem Grouped.backward (hQ : Q.Valid) (h : P.Grouped γ Q) : Renumbered id P.backward Q.backward :=
  ⟨h.size, fun _ hv => hv, fun _ _ _ _ e => e, fun u hu v hv => h.flux v hv u hu, h.pv, fun _ hv => (Grouped.source hQ h hv).2⟩

end problem

theorem wells_id {K : Type} {l : List (WellFlux K)} (hl : l.Pairwise fun a b => a.id < b.id) {x y : WellFlux K} (hx : x ∈ l)
    (hy : y ∈ l) (e : x.id = y.id) : x = y := by
  induction l with
  | nil => simp at hx
  | cons w l ih =>
    obtain ⟨h1, h2⟩ := List.pairwise_cons.mp hl
    rcases List.mem_cons.mp hx with ex | hx'
    · rcases List.mem_cons.mp hy with ey | hy'
      · exact ex.trans ey.symm
      · exact absurd e (ne_of_lt (by rw [ex]; exact h1 y hy'))
    · rcases List.mem_cons.mp hy with ey | hy'
      · exact absurd e.symm (ne_of_lt (by rw [ey]; exact h1 x hx'))
      · exact ih h2 hx' hy'

/-! ### Exact arithmetic, cycle-free flow -/

section exact
variable {K : Type} [Field K] [LinearOrder K] [IsStrictOrderedRing K] [Archimedean K]

omit [IsStrictOrderedRing K] [Archimedean K] in
/-- A well that has no cells on this side has no result. -/
theorem Diag.nothing {F : Flow K} {wells : List (WellFlux K)} {cs : WellFlux K → List Nat} {f : WellFlux K → Nat → K}
    {starts : List CellSet} {sol : Solution (X K)} (D : Diag F wells cs f starts sol) {w : WellFlux K} (hw : w ∈ wells)
    (hc : cs w = []) : sol.timeOfFlightOf w.id = [] ∧ sol.concentration w.id = [] := by
  refine D.other _ fun ⟨s, hs, e⟩ => ?_
  obtain ⟨x, hx, e', hne⟩ := D.known s hs
  have : x = w := wells_id D.side.ids hx hw (e'.trans e)
  exact hne (this ▸ hc)

theorem Diag.group {F G : Flow K} {wells wells' : List (WellFlux K)} {cs : WellFlux K → List Nat} {f : WellFlux K → Nat → K}
    {starts starts' : List CellSet} {sol sol' : Solution (X K)} (D : Diag F wells cs f starts sol)
    (D' : Diag G wells' cs f starts' sol') (hren : Renumbered id F G) (hacy : F.Acyclic) {W : WellFlux K} (hW : W ∈ wells')
    (hs : ∃ s ∈ starts', s.id = W.id) {ws : List (WellFlux K)} (hws : ∀ w ∈ ws, w ∈ wells)
    (hask : ∀ w ∈ ws, cs w ≠ [] → ∃ s ∈ starts, s.id = w.id)
    (hsplit : ∀ v < F.n, injected (cs W) (f W) v = (ws.map fun w => injected (cs w) (f w) v).sum) :
    ∀ v < F.n, valueAt (sol'.concentration W.id) v = (ws.map fun w => valueAt (sol.concentration w.id) v).sum ∧
      (ws.map fun w => valueAt (sol.concentration w.id) v * valueAt (sol.timeOfFlightOf w.id) v).sum
        ≤ valueAt (sol'.concentration W.id) v * valueAt (sol'.timeOfFlightOf W.id) v ∧
      ((∀ w ∈ ws, valueAt (sol.timeOfFlightOf w.id) v < cap) →
        (ws.map fun w => valueAt (sol.concentration w.id) v * valueAt (sol.timeOfFlightOf w.id) v).sum
          = valueAt (sol'.concentration W.id) v * valueAt (sol'.timeOfFlightOf W.id) v) := by
  classical
  obtain ⟨d, st, h1, _, h3⟩ := D.solved
  obtain ⟨d', st', h1', _, h3'⟩ := D'.solved
  obtain ⟨la, hla, ea, eb⟩ := h3' W hW hs
  let A := ws.filter fun w => !(cs w).isEmpty
  have hA : ∀ k : Fin A.length, A[k] ∈ ws ∧ cs A[k] ≠ [] := fun k => by
    have := List.mem_filter.mp (List.getElem_mem (l := A) k.isLt)
    exact ⟨this.1, fun e => by
      have h2 := this.2
      have e' : cs A[k.1] = [] := e
      rw [e'] at h2
      cases h2⟩
  have hk : ∀ k : Fin A.length, ∃ l, LocalReturns d st (valuesOf (cs A[k]) (f A[k])) (.ok l) ∧
      sol.timeOfFlightOf A[k].id = l.tof ∧ sol.concentration A[k].id = l.concentration := fun k =>
    h3 _ (hws _ (hA k).1) (hask _ (hA k).1 (hA k).2)
  choose l hl e1 e2 using hk
  have hsum : ∀ g : WellFlux K → K, (∀ w ∈ ws, cs w = [] → g w = 0) → (ws.map g).sum = ∑ k : Fin A.length, g A[k] := by
    intro g hg
    rw [← sum_filter_zero ws (fun w => !(cs w).isEmpty) g fun w hw he => hg w hw (by simpa using he)]
    exact (Fin.sum_univ_fun_getElem A g).symm
  have hzero : ∀ w ∈ ws, cs w = [] → ∀ v, valueAt (sol.concentration w.id) v = 0 := fun w hw he v => by
    rw [(D.nothing (hws w hw) he).2]; rfl
  have key := group_local h1 h1' hren hacy (starts := fun k => cs A[k]) (ls := fun k => f A[k]) (sol := l)
    (fun k p hp => ⟨D.side.range _ (hws _ (hA k).1) p hp, D.side.pos _ (hws _ (hA k).1) p hp⟩) (all := cs W) (la := f W)
    (fun p hp => ⟨by
      have := D'.side.range W hW p hp
      rwa [hren.size] at this, D'.side.pos W hW p hp⟩) (fun v hv => by
      rw [hsplit v hv, hsum _ fun w _ he => by rw [he]; rfl]) hl hla
  intro v hv
  obtain ⟨a, b, c⟩ := key v hv
  rw [ea, eb, hsum _ fun w hw he => hzero w hw he v, hsum _ fun w hw he => by rw [hzero w hw he v, zero_mul]]
  simp only [e1, e2]
  refine ⟨a, b, fun hlt => c fun k => ?_⟩
  rw [← e1 k]
  exact hlt _ (hA k).1

variable {P Q : Problem K} (hP : P.Valid) (hQ : Q.Valid) {γ : CellSetID → CellSetID} (hgroup : P.Grouped γ Q)
  {g g' : ConnectivityGraph} {calls calls' : List (Call (X K))} (h : P.GivenTo g calls) (h' : Q.GivenTo g' calls')
include hP hQ hgroup h h'

omit hP hQ hgroup h h' in
/-- The global times of flight are those of the flow. -/
theorem Diag.same_global {F G : Flow K} {wells wells' : List (WellFlux K)} {cs : WellFlux K → List Nat} {f : WellFlux K → Nat → K}
    {starts starts' : List CellSet} {sol sol' : Solution (X K)} (D : Diag F wells cs f starts sol)
    (D' : Diag G wells' cs f starts' sol') (hren : Renumbered id F G) (hacy : F.Acyclic) :
    ∀ v < F.n, sol'.timeOfFlight[v]? = sol.timeOfFlight[v]? := by
  obtain ⟨d, st, h1, h2, _⟩ := D.solved
  obtain ⟨d', st', h1', h2', _⟩ := D'.solved
  intro v hv
  have hv' : v < G.n := by rw [hren.size]; exact hv
  have key := C32_global_renumbering h1 h1' hren hacy h2 h2' v hv
  obtain ⟨τ, c, hr, _⟩ := global_facts h1
  obtain ⟨τ', c', hr', _⟩ := global_facts h1'
  have e := Res.ok.inj (h2.unique hr)
  have e' := Res.ok.inj (h2'.unique hr')
  rw [id, e, e', arr_fieldAt _ _ hv, arr_fieldAt _ _ hv'] at key
  rw [e, e', Solver.arr_getElem? _ hv, Solver.arr_getElem? _ hv']
  exact congrArg (fun x => some (X.fin x)) key

/-- **C96** (exact arithmetic, cycle-free flow) Injectors put together in groups.  The concentration of a group is the sum of those
    of its members; the time of flight of the group is the mean of those of its members, weighted with the concentrations,
    unless one of them is 200 years, and not less in any case.  The global times of flight do not change. -/
theorem C96_injection (hacy : P.forward.Acyclic) {starts starts' : List CellSet} {sol sol' : Solution (X K)}
    (hr : InjectionReturns g calls starts (.ok sol)) (hr' : InjectionReturns g' calls' starts' (.ok sol')) :
    (∀ v < P.n, sol'.timeOfFlight[v]? = sol.timeOfFlight[v]?) ∧
    ∀ i, (∃ s ∈ starts', s.id = i) →
      (∀ w ∈ P.members γ i, (∃ v ∈ w.cells, 0 < w.val v) → ∃ s ∈ starts, s.id = w.id) →
      ∀ v < P.n, valueAt (sol'.concentration i) v = ((P.members γ i).map fun w => valueAt (sol.concentration w.id) v).sum ∧
        ((P.members γ i).map fun w => valueAt (sol.concentration w.id) v * valueAt (sol.timeOfFlightOf w.id) v).sum
          ≤ valueAt (sol'.concentration i) v * valueAt (sol'.timeOfFlightOf i) v ∧
        ((∀ w ∈ P.members γ i, valueAt (sol.timeOfFlightOf w.id) v < 200 * 365 * 24 * 60 * 60) →
          ((P.members γ i).map fun w => valueAt (sol.concentration w.id) v * valueAt (sol.timeOfFlightOf w.id) v).sum
            = valueAt (sol'.concentration i) v * valueAt (sol'.timeOfFlightOf i) v) := by
  have D := diag_injection hP h hr
  have D' := diag_injection hQ h' hr'
  have hren := Grouped.forward hQ hgroup
  refine ⟨D.same_global D' hren hacy, fun i hs hask => ?_⟩
  obtain ⟨s, hs', rfl⟩ := hs
  obtain ⟨W, hW, e, _⟩ := D'.known s hs'
  rw [← e] at hask ⊢
  refine D.group D' hren hacy hW ⟨s, hs', e.symm⟩ (fun w hw => (List.mem_filter.mp hw).1) (fun w hw hne => hask w hw ?_) fun v hv => ?_
  · obtain ⟨v, hv⟩ := List.exists_mem_of_ne_nil _ hne
    obtain ⟨a, b⟩ := List.mem_filter.mp hv
    exact ⟨v, a, by simpa using b⟩
  · rw [injected_pos, hgroup.injected W hW v hv]
    simp only [injected_pos]

/-- **C96** The same for producers. -/
theorem C96_production (hacy : P.forward.Acyclic) {starts starts' : List CellSet} {sol sol' : Solution (X K)}
    (hr : ProductionReturns g calls starts (.ok sol)) (hr' : ProductionReturns g' calls' starts' (.ok sol')) :
    (∀ v < P.n, sol'.timeOfFlight[v]? = sol.timeOfFlight[v]?) ∧
    ∀ i, (∃ s ∈ starts', s.id = i) →
      (∀ w ∈ P.members γ i, (∃ v ∈ w.cells, w.val v < 0) → ∃ s ∈ starts, s.id = w.id) →
      ∀ v < P.n, valueAt (sol'.concentration i) v = ((P.members γ i).map fun w => valueAt (sol.concentration w.id) v).sum ∧
        ((P.members γ i).map fun w => valueAt (sol.concentration w.id) v * valueAt (sol.timeOfFlightOf w.id) v).sum
          ≤ valueAt (sol'.concentration i) v * valueAt (sol'.timeOfFlightOf i) v ∧
        ((∀ w ∈ P.members γ i, valueAt (sol.timeOfFlightOf w.id) v < 200 * 365 * 24 * 60 * 60) →
          ((P.members γ i).map fun w => valueAt (sol.concentration w.id) v * valueAt (sol.timeOfFlightOf w.id) v).sum
            = valueAt (sol'.concentration i) v * valueAt (sol'.timeOfFlightOf i) v) := by
  have D := diag_production hP h hr
  have D' := diag_production hQ h' hr'
  have hren := Grouped.backward hQ hgroup
  have hacy := backward_acyclic hacy
  refine ⟨D.same_global D' hren hacy, fun i hs hask => ?_⟩
  obtain ⟨s, hs', rfl⟩ := hs
  obtain ⟨W, hW, e, _⟩ := D'.known s hs'
  rw [← e] at hask ⊢
  refine D.group D' hren hacy hW ⟨s, hs', e.symm⟩ (fun w hw => (List.mem_filter.mp hw).1) (fun w hw hne => hask w hw ?_) fun v hv => ?_
  · obtain ⟨v, hv⟩ := List.exists_mem_of_ne_nil _ hne
    obtain ⟨a, b⟩ := List.mem_filter.mp hv
    exact ⟨v, a, by simpa using b⟩
  · rw [injected_neg, hgroup.produced W hW v hv]
    simp only [injected_neg]

/-- **C96** (exact arithmetic, cycle-free flow) Volume and fluxes of a pair of groups are the sums of those of the pairs of members. -/
theorem C96_pairs (hacy : P.forward.Acyclic) {istarts istarts' pstarts pstarts' : List CellSet} {S S' T T' : Solution (X K)}
    (hS : InjectionReturns g calls istarts (.ok S)) (hS' : InjectionReturns g' calls' istarts' (.ok S'))
    (hT : ProductionReturns g calls pstarts (.ok T)) (hT' : ProductionReturns g' calls' pstarts' (.ok T'))
    {i p : CellSetID} (hi : ∃ s ∈ istarts', s.id = i) (hp : ∃ s ∈ pstarts', s.id = p)
    (hiask : ∀ w ∈ P.members γ i, (∃ v ∈ w.cells, 0 < w.val v) → ∃ s ∈ istarts, s.id = w.id)
    (hpask : ∀ w ∈ P.members γ p, (∃ v ∈ w.cells, w.val v < 0) → ∃ s ∈ pstarts, s.id = w.id) :
    (∀ volume : WellFlux K → WellFlux K → K,
      (∀ w ∈ P.members γ i, ∀ x ∈ P.members γ p, pairVolume S T (arr P.n P.pv) w.id x.id = .ok (X.fin (volume w x))) →
      pairVolume S' T' (arr Q.n Q.pv) i p
        = .ok (X.fin ((P.members γ i).map fun w => ((P.members γ p).map fun x => volume w x).sum).sum)) ∧
    ∀ inj prod : WellFlux K → WellFlux K → K,
      (∀ w ∈ P.members γ i, ∀ x ∈ P.members γ p,
        pairFluxes S T w.id x.id P.inflowMap = .ok (X.fin (inj w x), X.fin (prod w x))) →
      pairFluxes S' T' i p Q.inflowMap
        = .ok (X.fin ((P.members γ i).map fun w => ((P.members γ p).map fun x => inj w x).sum).sum,
          X.fin ((P.members γ i).map fun w => ((P.members γ p).map fun x => prod w x).sum).sum) := by
  have DS := diag_injection hP h hS
  have DS' := diag_injection hQ h' hS'
  have DT := diag_production hP h hT
  have DT' := diag_production hQ h' hT'
  have hcS := fun v hv => ((C96_injection hP hQ hgroup h h' hacy hS hS').2 i hi hiask v hv).1
  have hcT := fun v hv => ((C96_production hP hQ hgroup h h' hacy hT hT').2 p hp hpask v hv).1
  have hmem : ∀ {j} {w : WellFlux K}, w ∈ P.members γ j → w ∈ P.wells := fun hw => (List.mem_filter.mp hw).1
  have hmul : ∀ (l l' : List (WellFlux K)) (a b : WellFlux K → K) (c : K),
      c * (l.map a).sum * (l'.map b).sum = (l.map fun w => (l'.map fun x => c * a w * b x).sum).sum := by
    intro l l' a b c
    simp only [List.sum_map_mul_left, List.sum_map_mul_right]
  have hout : ∀ (l l' : List (WellFlux K)) (a : Nat → WellFlux K → WellFlux K → K),
      ∑ v ∈ range P.n, (l.map fun w => (l'.map fun x => a v w x).sum).sum
        = (l.map fun w => (l'.map fun x => ∑ v ∈ range P.n, a v w x).sum).sum := by
    intro l l' a
    have hone : ∀ (l : List (WellFlux K)) (a : Nat → WellFlux K → K),
        ∑ v ∈ range P.n, (l.map fun w => a v w).sum = (l.map fun w => ∑ v ∈ range P.n, a v w).sum := by
      intro l a
      induction l with
      | nil => simp
      | cons w l ih => simp only [List.map_cons, List.sum_cons, sum_add_distrib, ih]
    rw [hone]
    congr 1
    exact List.map_congr_left fun w _ => hone l' _
  constructor
  · intro volume hvol
    have e' := C49_value (DS'.tracer i) (DT'.tracer p) Q.pv
    refine e'.trans ?_
    show Res.ok (X.fin (∑ v ∈ range Q.n, _)) = _
    rw [hgroup.size]
    congr 2
    rw [sum_congr rfl fun v hv => by
      rw [hgroup.pv v (mem_range.mp hv), hcS v (mem_range.mp hv), hcT v (mem_range.mp hv), hmul], hout]
    congr 1
    refine List.map_congr_left fun w hw => ?_
    congr 1
    refine List.map_congr_left fun x hx => ?_
    have e := (C49_value (DS.tracer w.id) (DT.tracer x.id) P.pv).symm.trans (hvol w hw x hx)
    exact X.fin.inj (Res.ok.inj e)
  · intro inj prod hfl
    obtain ⟨s, hs, es⟩ := hi
    obtain ⟨W, hW, eW, _⟩ := DS'.known s hs
    obtain ⟨t, ht, et⟩ := hp
    obtain ⟨Y, hY, eY, _⟩ := DT'.known t ht
    obtain rfl : i = W.id := (eW.trans es).symm
    obtain rfl : p = Y.id := (eY.trans et).symm
    rw [C50_value hQ hW hY (DS'.tracer W.id) (DT'.tracer Y.id), hgroup.size]
    have hval : ∀ w ∈ P.members γ W.id, ∀ x ∈ P.members γ Y.id,
        (∑ v ∈ range P.n, 1 * max (Problem.wellAt w v) 0 * valueAt (T.concentration x.id) v = inj w x) ∧
        ∑ v ∈ range P.n, -1 * valueAt (S.concentration w.id) v * max (-Problem.wellAt x v) 0 = prod w x := by
      intro w hw x hx
      have e := (C50_value hP (hmem hw) (hmem hx) (DS.tracer w.id) (DT.tracer x.id)).symm.trans (hfl w hw x hx)
      have e := Res.ok.inj e
      have e1 := X.fin.inj (congrArg Prod.fst e)
      have e2 := X.fin.inj (congrArg Prod.snd e)
      rw [← e1, ← e2, ← sum_neg_distrib]
      exact ⟨sum_congr rfl fun v _ => by ring, sum_congr rfl fun v _ => by ring⟩
    have h1 : ∑ v ∈ range P.n, max (Problem.wellAt W v) 0 * valueAt (T'.concentration Y.id) v
        = ((P.members γ W.id).map fun w => ((P.members γ Y.id).map fun x => inj w x).sum).sum := by
      rw [sum_congr rfl fun v hv => by
        rw [← one_mul (max (Problem.wellAt W v) 0), hgroup.injected W hW v (mem_range.mp hv), hcT v (mem_range.mp hv), hmul], hout]
      congr 1
      refine List.map_congr_left fun w hw => ?_
      congr 1
      exact List.map_congr_left fun x hx => (hval w hw x hx).1
    have h2 : -∑ v ∈ range P.n, max (-Problem.wellAt Y v) 0 * valueAt (S'.concentration W.id) v
        = ((P.members γ W.id).map fun w => ((P.members γ Y.id).map fun x => prod w x).sum).sum := by
      rw [← sum_neg_distrib, sum_congr rfl fun v hv => by
        rw [show -(max (-Problem.wellAt Y v) 0 * valueAt (S'.concentration W.id) v)
            = -1 * valueAt (S'.concentration W.id) v * max (-Problem.wellAt Y v) 0 by ring,
          hgroup.produced Y hY v (mem_range.mp hv), hcS v (mem_range.mp hv), hmul], hout]
      congr 1
      refine List.map_congr_left fun w hw => ?_
      congr 1
      exact List.map_congr_left fun x hx => (hval w hw x hx).2
    rw [h1, h2]

end exact

/-! ### Flow with cycles -/

section error
variable {K : Type} [Field K] [LinearOrder K] [IsStrictOrderedRing K]

/-- Errors add up. -/
theorem group_error {F : Flow K} (hF : F.Valid) {ι : Type} {l : List ι} {s : ι → List Nat} {q c : ι → Nat → K} {all : List Nat}
    {qa ca E : Nat → K} (hp : ∀ p ∈ all, p < F.n ∧ 0 < F.src p) (hmem : ∀ p, p ∈ all ↔ ∃ k ∈ l, p ∈ s k)
    (hq : ∀ k ∈ l, ∀ v < F.n, ¬ F.Downstream (s k) v → q k v = 0) (hsplit : ∀ v < F.n, qa v = (l.map fun k => q k v).sum)
    (hc : ∀ k ∈ l, ∃ x, F.Carries (s k) (q k) x ∧ ∀ v < F.n, |c k v - x v| ≤ E v)
    (hca : ∃ x, F.Carries all qa x ∧ ∀ v < F.n, |ca v - x v| ≤ E v) :
    ∀ v < F.n, |ca v - (l.map fun k => c k v).sum| ≤ ((l.length + 1 : Nat) : K) * E v := by
  have : ∀ k, ∃ x, k ∈ l → F.Carries (s k) (q k) x ∧ ∀ v < F.n, |c k v - x v| ≤ E v := by
    intro k
    by_cases hk : k ∈ l
    · obtain ⟨x, hx⟩ := hc k hk
      exact ⟨x, fun _ => hx⟩
    · exact ⟨fun _ => 0, fun h => absurd h hk⟩
  choose x hx using this
  obtain ⟨xa, hxa, hea⟩ := hca
  have hdown : ∀ v, F.Downstream all v ↔ ∃ k ∈ l, F.Downstream (s k) v := by
    intro v
    constructor
    · rintro ⟨p, h1, h2⟩
      obtain ⟨k, hk, hs⟩ := (hmem p).mp h1
      exact ⟨k, hk, p, hs, h2⟩
    · rintro ⟨k, hk, p, h1, h2⟩
      exact ⟨p, (hmem p).mpr ⟨k, hk, h1⟩, h2⟩
  have hsum := carries_sum hF hdown hq fun k hk => (hx k hk).1
  have hsum' : F.Carries all qa fun v => (l.map fun k => x k v).sum :=
    ⟨hsum.1, fun v hv hd => by rw [hsum.2 v hv hd, hsplit v hv]⟩
  have heq := (C76_exact hF hp qa).2.1 _ _ hxa hsum'
  intro v hv
  have h1 := hea v hv
  rw [heq v hv] at h1
  have h2 : |(l.map fun k => x k v).sum - (l.map fun k => c k v).sum| ≤ (l.length : K) * E v := by
    have key := fun k hk => (hx k hk).2 v hv
    clear hsum hsum' heq h1 hea hxa hx hc hdown hsplit hq hmem
    induction l with
    | nil => simp
    | cons k l ih =>
      have i1 := abs_le.mp (ih fun k hk => key k (by simp [hk]))
      have i2 := abs_le.mp (key k (by simp))
      simp only [List.map_cons, List.sum_cons, List.length_cons, Nat.cast_add, Nat.cast_one]
      exact abs_le.mpr ⟨by linarith, by linarith⟩
  have h1 := abs_le.mp h1
  have h2 := abs_le.mp h2
  push_cast
  exact abs_le.mpr ⟨by linarith, by linarith⟩

/-- The cells of a group. -/
theorem group_mem {cs : WellFlux K → List Nat} {f : WellFlux K → Nat → K} {n : Nat} {W : WellFlux K} {ws : List (WellFlux K)}
    (hW : ∀ p ∈ cs W, p < n ∧ 0 < f W p) (hws : ∀ w ∈ ws, ∀ p ∈ cs w, p < n ∧ 0 < f w p)
    (hsplit : ∀ v < n, injected (cs W) (f W) v = (ws.map fun w => injected (cs w) (f w) v).sum) :
    ∀ p, p ∈ cs W ↔ ∃ w ∈ ws, p ∈ cs w := by
  have h0 : ∀ v, ∀ w ∈ ws, 0 ≤ injected (cs w) (f w) v := by
    intro v w hw
    unfold injected
    split
    · exact (hws w hw v (by assumption)).2.le
    · exact le_rfl
  intro p
  constructor
  · intro hp
    have := hsplit p (hW p hp).1
    unfold injected at this
    rw [if_pos hp] at this
    have hpos := (hW p hp).2
    rw [this] at hpos
    obtain ⟨w, hw, hlt⟩ := (sum_pos_iff (h0 p)).2.1.mp hpos
    unfold injected at hlt
    by_cases hc : p ∈ cs w
    · exact ⟨w, hw, hc⟩
    · rw [if_neg hc] at hlt; exact absurd hlt (lt_irrefl _)
  · rintro ⟨w, hw, hp⟩
    have h1 := (sum_pos_iff (h0 p)).2.1.mpr ⟨w, hw, by unfold injected; rw [if_pos hp]; exact (hws w hw p hp).2⟩
    rw [← hsplit p (hws w hw p hp).1] at h1
    unfold injected at h1
    by_contra hc
    rw [if_neg hc] at h1; exact lt_irrefl _ h1

omit [IsStrictOrderedRing K] in
theorem injected_off {F : Flow K} {starts : List Nat} {ls : Nat → K} {v : Nat} (h : ¬ F.Downstream starts v) : injected starts ls v = 0 := by
  unfold injected
  rw [if_neg fun hv => h ⟨v, hv, .refl⟩]

omit [IsStrictOrderedRing K] in
theorem carries_nothing {F : Flow K} (q : Nat → K) : F.Carries [] q fun _ => 0 :=
  ⟨fun _ _ _ => rfl, fun v _ ⟨p, h, _⟩ => by simp at h⟩

variable [Archimedean K]

theorem Diag.group_cyclic {F G : Flow K} {wells wells' : List (WellFlux K)} {cs : WellFlux K → List Nat} {f : WellFlux K → Nat → K}
    {starts starts' : List CellSet} {sol sol' : Solution (X K)} (D : Diag F wells cs f starts sol)
    (D' : Diag G wells' cs f starts' sol') (hren : Renumbered id F G) (hself : ∀ v < F.n, ¬ F.Loop v) {W : WellFlux K}
    (hW : W ∈ wells') (hs : ∃ s ∈ starts', s.id = W.id) {ws : List (WellFlux K)} (hws : ∀ w ∈ ws, w ∈ wells)
    (hask : ∀ w ∈ ws, cs w ≠ [] → ∃ s ∈ starts, s.id = w.id)
    (hsplit : ∀ v < F.n, injected (cs W) (f W) v = (ws.map fun w => injected (cs w) (f w) v).sum) :
    ∃ m, F.Carries (cs W) F.cycleInflow m ∧ ∀ v < F.n,
      |valueAt (sol'.concentration W.id) v - (ws.map fun w => valueAt (sol.concentration w.id) v).sum|
        ≤ ((ws.length + 1 : Nat) : K) * (1 / 1000000000 * m v) := by
  have hF : F.Valid := by obtain ⟨d, st, h1, _⟩ := D.solved; exact h1.valid
  have hG : G.Valid := by obtain ⟨d, st, h1, _⟩ := D'.solved; exact h1.valid
  have hpG : ∀ p ∈ cs W, p < G.n ∧ 0 < G.src p := fun p hp =>
    ⟨D'.side.range W hW p hp, lt_of_lt_of_le (D'.side.pos W hW p hp) (D'.le_src hW hp)⟩
  have hpF : ∀ p ∈ cs W, p < F.n ∧ 0 < F.src p := fun p hp => by
    have hpn : p < F.n := by have := (hpG p hp).1; rwa [hren.size] at this
    refine ⟨hpn, ?_⟩
    have : G.src p = F.src p := hren.src p hpn
    rw [← this]; exact (hpG p hp).2
  have hmem := group_mem (n := F.n) (fun p hp => ⟨(hpF p hp).1, D'.side.pos W hW p hp⟩)
    (fun w hw p hp => ⟨D.side.range w (hws w hw) p hp, D.side.pos w (hws w hw) p hp⟩) hsplit
  obtain ⟨m, hm⟩ := (C76_exact hG hpG G.cycleInflow).1
  obtain ⟨xa, hxa⟩ := (C76_exact hG hpG (injected (cs W) (f W))).1
  have hmF : F.Carries (cs W) F.cycleInflow m := carries_renumber hren (fun _ _ => Iff.rfl) (fun p hp => (hpF p hp).1)
    (fun p hp => (hpF p hp).1) (fun v hv => cycleInflow_renumber hren hv) hm
  have hxF : F.Carries (cs W) (injected (cs W) (f W)) xa := carries_renumber hren (fun _ _ => Iff.rfl) (fun p hp => (hpF p hp).1)
    (fun p hp => (hpF p hp).1) (fun v hv => rfl) hxa
  have hcy : ∀ v < F.n, 0 ≤ F.cycleInflow v := fun v hv => by
    classical
    unfold Flow.cycleInflow
    refine sum_nonneg fun u hu => ?_
    split
    · exact hF.w_nonneg u v (mem_range.mp hu) hv
    · exact le_rfl
  have hm0 := (C76_exact hF hpF F.cycleInflow).2.2 hcy m hmF
  refine ⟨m, hmF, group_error hF hpF hmem (fun w _ v _ hd => injected_off hd) hsplit (fun w hw => ?_) ⟨xa, hxF, fun v hv => ?_⟩⟩
  · by_cases hne : cs w = []
    · refine ⟨fun _ => 0, by rw [hne]; exact carries_nothing _, fun v hv => ?_⟩
      rw [(D.nothing (hws w hw) hne).2]
      show |(0 : K) - 0| ≤ _
      rw [sub_zero, abs_zero]
      exact mul_nonneg (by norm_num) (hm0 v hv)
    · have hpw : ∀ p ∈ cs w, p < F.n ∧ 0 < F.src p := fun p hp => hpF p ((hmem p).mpr ⟨w, hw, hp⟩)
      obtain ⟨x, hx⟩ := (C76_exact hF hpw (injected (cs w) (f w))).1
      obtain ⟨mk, hmk⟩ := (C76_exact hF hpw F.cycleInflow).1
      have hle := carries_subset hF (fun p hp => (hmem p).mpr ⟨w, hw, hp⟩) hpF hcy hmk hmF
      refine ⟨x, hx, fun v hv => ?_⟩
      obtain ⟨a, b⟩ := D.error hself (hws w hw) (hask w hw hne) hx hmk v hv
      have := hle v hv
      exact abs_le.mpr ⟨by linarith, by linarith⟩
  · have hv' : v < G.n := by rw [hren.size]; exact hv
    obtain ⟨a, b⟩ := D'.error (noLoop_renumber hren hself) hW hs hxa hm v hv'
    have := hm0 v hv
    exact abs_le.mpr ⟨by linarith, by linarith⟩

variable {P Q : Problem K} (hP : P.Valid) (hQ : Q.Valid) {γ : CellSetID → CellSetID} (hgroup : P.Grouped γ Q)
  {g g' : ConnectivityGraph} {calls calls' : List (Call (X K))} (h : P.GivenTo g calls) (h' : Q.GivenTo g' calls')
  (hself : ∀ v < P.n, ¬ P.forward.Loop v)
include hP hQ hgroup h h' hself

/-- **C96** (exact arithmetic, any cycles, no cell has a self-connection as its only cycle) The concentration of a group of
    injectors differs from the sum of those of its members by at most `1e-9 * m` for each member and one more, where `m` is the
    field carried by the flow when each cell adds the flux that it gets from its own cycle. -/
theorem C96_injection_cyclic {starts starts' : List CellSet} {sol sol' : Solution (X K)}
    (hr : InjectionReturns g calls starts (.ok sol)) (hr' : InjectionReturns g' calls' starts' (.ok sol')) {W : WellFlux K}
    (hW : W ∈ Q.wells) (hs : ∃ s ∈ starts', s.id = W.id)
    (hask : ∀ w ∈ P.members γ W.id, (∃ v ∈ w.cells, 0 < w.val v) → ∃ s ∈ starts, s.id = w.id) :
    ∃ m, P.forward.Carries (posCells W) P.forward.cycleInflow m ∧ ∀ v < P.n,
      |valueAt (sol'.concentration W.id) v - ((P.members γ W.id).map fun w => valueAt (sol.concentration w.id) v).sum|
        ≤ (((P.members γ W.id).length + 1 : Nat) : K) * (1 / 1000000000 * m v) := by
  refine (diag_injection hP h hr).group_cyclic (diag_injection hQ h' hr') (Grouped.forward hQ hgroup) hself hW hs
    (fun w hw => (List.mem_filter.mp hw).1) (fun w hw hne => hask w hw ?_) fun v hv => ?_
  · obtain ⟨v, hv⟩ := List.exists_mem_of_ne_nil _ hne
    obtain ⟨a, b⟩ := List.mem_filter.mp hv
    exact ⟨v, a, by simpa using b⟩
  · rw [injected_pos, hgroup.injected W hW v hv]
    simp only [injected_pos]

/-- **C96** The same for producers, in the reversed flow. -/
theorem C96_production_cyclic {starts starts' : List CellSet} {sol sol' : Solution (X K)}
    (hr : ProductionReturns g calls starts (.ok sol)) (hr' : ProductionReturns g' calls' starts' (.ok sol')) {W : WellFlux K}
    (hW : W ∈ Q.wells) (hs : ∃ s ∈ starts', s.id = W.id)
    (hask : ∀ w ∈ P.members γ W.id, (∃ v ∈ w.cells, w.val v < 0) → ∃ s ∈ starts, s.id = w.id) :
    ∃ m, P.backward.Carries (negCells W) P.backward.cycleInflow m ∧ ∀ v < P.n,
      |valueAt (sol'.concentration W.id) v - ((P.members γ W.id).map fun w => valueAt (sol.concentration w.id) v).sum|
        ≤ (((P.members γ W.id).length + 1 : Nat) : K) * (1 / 1000000000 * m v) := by
  refine (diag_production hP h hr).group_cyclic (diag_production hQ h' hr') (Grouped.backward hQ hgroup) (backward_not_loop hself) hW hs
    (fun w hw => (List.mem_filter.mp hw).1) (fun w hw hne => hask w hw ?_) fun v hv => ?_
  · obtain ⟨v, hv⟩ := List.exists_mem_of_ne_nil _ hne
    obtain ⟨a, b⟩ := List.mem_filter.mp hv
    exact ⟨v, a, by simpa using b⟩
  · rw [injected_neg, hgroup.produced W hW v hv]
    simp only [injected_neg]

end error

/-! ### Doubles -/

section double

theorem Nearly.group {F G : Flow ℚ} {wells wells' : List (WellFlux ℚ)} {cs : WellFlux ℚ → List Nat} {f : WellFlux ℚ → Nat → ℚ}
    {starts starts' : List CellSet} {sol sol' : Solution Double} {M : Nat} (N : Nearly F wells cs f starts sol M)
    (N' : Nearly G wells' cs f starts' sol' M) (hother : ∀ i, (¬ ∃ s ∈ starts, s.id = i) → sol.concentration i = [])
    (hren : Renumbered id F G) (hself : ∀ v < F.n, ¬ F.Loop v) {W : WellFlux ℚ}
    (hW : W ∈ wells') (hs : ∃ s ∈ starts', s.id = W.id) {ws : List (WellFlux ℚ)} (hws : ∀ w ∈ ws, w ∈ wells)
    (hask : ∀ w ∈ ws, cs w ≠ [] → ∃ s ∈ starts, s.id = w.id)
    (hsplit : ∀ v < F.n, injected (cs W) (f W) v = (ws.map fun w => injected (cs w) (f w) v).sum) :
    ∃ m t, F.Carries (cs W) F.cycleInflow m ∧ F.Carries (cs W) F.total t ∧ ∀ v < F.n,
      |doubleAt (sol'.concentration W.id) v - (ws.map fun w => doubleAt (sol.concentration w.id) v).sum|
        ≤ ((ws.length + 1 : Nat) : ℚ) * (1 / 1000000000 * m v + ((4 * M + 6 : Nat) : ℚ) / 2 ^ 51 * t v) := by
  have hF := N.valid
  have hG := N'.valid
  have hpG := N'.sources hW
  have hpF : ∀ p ∈ cs W, p < F.n ∧ 0 < F.src p := fun p hp => by
    have hpn : p < F.n := by have := (hpG p hp).1; rwa [hren.size] at this
    refine ⟨hpn, ?_⟩
    have : G.src p = F.src p := hren.src p hpn
    rw [← this]; exact (hpG p hp).2
  have hmem := group_mem (n := F.n) (fun p hp => ⟨(hpF p hp).1, N'.side.pos W hW p hp⟩)
    (fun w hw p hp => ⟨N.side.range w (hws w hw) p hp, N.side.pos w (hws w hw) p hp⟩) hsplit
  obtain ⟨m, hm⟩ := (C76_exact hG hpG G.cycleInflow).1
  obtain ⟨t, ht⟩ := (C76_exact hG hpG G.total).1
  obtain ⟨xa, hxa⟩ := (C76_exact hG hpG (injected (cs W) (f W))).1
  have hmF : F.Carries (cs W) F.cycleInflow m := carries_renumber hren (fun _ _ => Iff.rfl) (fun p hp => (hpF p hp).1)
    (fun p hp => (hpF p hp).1) (fun v hv => cycleInflow_renumber hren hv) hm
  have htF : F.Carries (cs W) F.total t := carries_renumber hren (fun _ _ => Iff.rfl) (fun p hp => (hpF p hp).1)
    (fun p hp => (hpF p hp).1) (fun v hv => total_renumber hren hv) ht
  have hxF : F.Carries (cs W) (injected (cs W) (f W)) xa := carries_renumber hren (fun _ _ => Iff.rfl) (fun p hp => (hpF p hp).1)
    (fun p hp => (hpF p hp).1) (fun v hv => rfl) hxa
  have hcy : ∀ v < F.n, 0 ≤ F.cycleInflow v := fun v hv => (cycleInflow_bounds hF hv).1
  have hto : ∀ v < F.n, 0 ≤ F.total v := fun v hv => (hcy v hv).trans (cycleInflow_bounds hF hv).2
  have hm0 := (C76_exact hF hpF F.cycleInflow).2.2 hcy m hmF
  have ht0 := (C76_exact hF hpF F.total).2.2 hto t htF
  have hM : (0 : ℚ) ≤ ((4 * M + 6 : Nat) : ℚ) / 2 ^ 51 := by positivity
  refine ⟨m, t, hmF, htF, group_error hF hpF hmem (fun w _ v _ hd => injected_off hd) hsplit (fun w hw => ?_) ⟨xa, hxF, fun v hv => ?_⟩⟩
  · by_cases ha : ∃ s ∈ starts, s.id = w.id
    · have hpw : ∀ p ∈ cs w, p < F.n ∧ 0 < F.src p := fun p hp => hpF p ((hmem p).mpr ⟨w, hw, hp⟩)
      obtain ⟨x, hx⟩ := (C76_exact hF hpw (injected (cs w) (f w))).1
      obtain ⟨mk, hmk⟩ := (C76_exact hF hpw F.cycleInflow).1
      obtain ⟨tk, htk⟩ := (C76_exact hF hpw F.total).1
      have h1 := carries_subset hF (fun p hp => (hmem p).mpr ⟨w, hw, hp⟩) hpF hcy hmk hmF
      have h2 := carries_subset hF (fun p hp => (hmem p).mpr ⟨w, hw, hp⟩) hpF hto htk htF
      refine ⟨x, hx, fun v hv => (N.error hself (hws w hw) ha hx hmk htk v hv).trans ?_⟩
      have h3 := h1 v hv
      have h4 := mul_le_mul_of_nonneg_left (h2 v hv) hM
      linarith
    · have hne : cs w = [] := by
        by_contra hc
        exact ha (hask w hw hc)
      refine ⟨fun _ => 0, by rw [hne]; exact carries_nothing _, fun v hv => ?_⟩
      rw [hother _ ha]
      show |(0 : ℚ) - 0| ≤ _
      rw [sub_zero, abs_zero]
      exact add_nonneg (mul_nonneg (by norm_num) (hm0 v hv)) (mul_nonneg hM (ht0 v hv))
  · exact N'.error (noLoop_renumber hren hself) hW hs hxa hm ht v (by rw [hren.size]; exact hv)

variable {P Q : Problem ℚ} (hP : P.Valid) (hQ : Q.Valid) {M : Nat} (hO : P.OfOrdinarySize M) (hO' : Q.OfOrdinarySize M)
  {γ : CellSetID → CellSetID} (hgroup : P.Grouped γ Q) (hself : ∀ v < P.n, ¬ P.forward.Loop v)
  {g g' : ConnectivityGraph} {calls calls' : List (Call Double)} (h : P.StoredIn g calls) (h' : Q.StoredIn g' calls')
  {starts starts' : List CellSet} {sol sol' : Solution Double}
include hP hQ hO hO' hgroup hself h h'

/-- **C96** (doubles, any cycles) The concentration of a group of injectors differs from the sum of those of its members by at most
    the error bounded in C80 for each member and once more. -/
theorem C96_injection_double (htotal : ∀ v < P.n, P.forward.total v ≤ 2 ^ 100)
    (hr : InjectionReturns g calls starts (.ok sol)) (hr' : InjectionReturns g' calls' starts' (.ok sol')) {W : WellFlux ℚ}
    (hW : W ∈ Q.wells) (hs : ∃ s ∈ starts', s.id = W.id)
    (hask : ∀ w ∈ P.members γ W.id, (∃ v ∈ w.cells, 0 < w.val v) → ∃ s ∈ starts, s.id = w.id) :
    ∃ m t, P.forward.Carries (posCells W) P.forward.cycleInflow m ∧ P.forward.Carries (posCells W) P.forward.total t ∧ ∀ v < P.n,
      |doubleAt (sol'.concentration W.id) v - ((P.members γ W.id).map fun w => doubleAt (sol.concentration w.id) v).sum|
        ≤ (((P.members γ W.id).length + 1 : Nat) : ℚ) * (1 / 1000000000 * m v + ((4 * M + 6 : Nat) : ℚ) / 2 ^ 51 * t v) := by
  have hren := Grouped.forward hQ hgroup
  have htotal' : ∀ v < Q.n, Q.forward.total v ≤ 2 ^ 100 := fun v hv => by
    rw [hgroup.size] at hv
    have : Q.forward.total v = P.forward.total v := total_renumber hren hv
    rw [this]; exact htotal v hv
  refine (nearly_injection hP hO htotal h hr).group (nearly_injection hQ hO' htotal' h' hr') (fun i hi => ?_) hren hself hW hs
    (fun w hw => (List.mem_filter.mp hw).1) (fun w hw hne => hask w hw ?_) fun v hv => ?_
  · obtain ⟨N, hN⟩ := hr
    exact ((C41_ids _ _ _ N _ _ (Or.inl (hN N le_rfl))).2.2.2 i hi).2
  · obtain ⟨v, hv⟩ := List.exists_mem_of_ne_nil _ hne
    obtain ⟨a, b⟩ := List.mem_filter.mp hv
    exact ⟨v, a, by simpa using b⟩
  · rw [injected_pos, hgroup.injected W hW v hv]
    simp only [injected_pos]

/-- **C96** The same for producers, in the reversed flow. -/
theorem C96_production_double (htotal : ∀ v < P.n, P.backward.total v ≤ 2 ^ 100)
    (hr : ProductionReturns g calls starts (.ok sol)) (hr' : ProductionReturns g' calls' starts' (.ok sol')) {W : WellFlux ℚ}
    (hW : W ∈ Q.wells) (hs : ∃ s ∈ starts', s.id = W.id)
    (hask : ∀ w ∈ P.members γ W.id, (∃ v ∈ w.cells, w.val v < 0) → ∃ s ∈ starts, s.id = w.id) :
    ∃ m t, P.backward.Carries (negCells W) P.backward.cycleInflow m ∧ P.backward.Carries (negCells W) P.backward.total t ∧ ∀ v < P.n,
      |doubleAt (sol'.concentration W.id) v - ((P.members γ W.id).map fun w => doubleAt (sol.concentration w.id) v).sum|
        ≤ (((P.members γ W.id).length + 1 : Nat) : ℚ) * (1 / 1000000000 * m v + ((4 * M + 6 : Nat) : ℚ) / 2 ^ 51 * t v) := by
  have hren := Grouped.backward hQ hgroup
  have htotal' : ∀ v < Q.n, Q.backward.total v ≤ 2 ^ 100 := fun v hv => by
    rw [hgroup.size] at hv
    have : Q.backward.total v = P.backward.total v := total_renumber hren hv
    rw [this]; exact htotal v hv
  refine (nearly_production hP hO htotal h hr).group (nearly_production hQ hO' htotal' h' hr') (fun i hi => ?_) hren
    (backward_not_loop hself) hW hs
    (fun w hw => (List.mem_filter.mp hw).1) (fun w hw hne => hask w hw ?_) fun v hv => ?_
  · obtain ⟨N, hN⟩ := hr
    exact ((C41_ids _ _ _ N _ _ (Or.inr (hN N le_rfl))).2.2.2 i hi).2
  · obtain ⟨v, hv⟩ := List.exists_mem_of_ne_nil _ hne
    obtain ⟨a, b⟩ := List.mem_filter.mp hv
    exact ⟨v, a, by simpa using b⟩
  · rw [injected_neg, hgroup.produced W hW v hv]
    simp only [injected_neg]

end double

/-! ### Cases -/

/-- `B` joins the group `A`; each other well is a group by itself. -/
def exGroup (i : CellSetID) : CellSetID := if i = ⟨[66]⟩ then ⟨[65]⟩ else i

/-- `exProblem` with its two injectors put together. -/
def exTogether : Problem ℚ := { exProblem with
  wells := [⟨⟨[65]⟩, [0], fun _ => 3⟩, ⟨⟨[80]⟩, [3], fun _ => -3⟩] }

theorem exTogether_valid : exTogether.Valid where
  int := by decide
  pos := by decide
  some_connection := by decide
  range := by decide
  pv := exProblem_valid.pv
  wells_sorted := by unfold exTogether; simp; decide
  cells_sorted := by unfold exTogether; simp
  cells_range := by unfold exTogether exProblem; simp

theorem exTogether_members : exProblem.members exGroup ⟨[65]⟩ = [⟨⟨[65]⟩, [0], fun _ => 1⟩, ⟨⟨[66]⟩, [0], fun _ => 2⟩] ∧
    exProblem.members exGroup ⟨[80]⟩ = [⟨⟨[80]⟩, [3], fun _ => -3⟩] := ⟨rfl, rfl⟩

theorem exTogether_grouped : exProblem.Grouped exGroup exTogether where
  size := rfl
  flux _ _ _ _ := rfl
  pv _ _ := rfl
  injected W hW v _ := by
    simp only [exTogether, List.mem_cons, List.not_mem_nil, or_false] at hW
    rcases hW with rfl | rfl
    · rw [exTogether_members.1]
      by_cases h : v = 0 <;> simp [Problem.wellAt, h]
      norm_num
    · rw [exTogether_members.2]
      simp
  produced W hW v _ := by
    simp only [exTogether, List.mem_cons, List.not_mem_nil, or_false] at hW
    rcases hW with rfl | rfl
    · rw [exTogether_members.1]
      by_cases h : v = 0 <;> simp [Problem.wellAt, h]
    · rw [exTogether_members.2]
      simp
  all w hw := by
    simp only [exProblem, List.mem_cons, List.not_mem_nil, or_false] at hw
    rcases hw with rfl | rfl | rfl
    · exact ⟨_, .head _, rfl⟩
    · exact ⟨_, .head _, rfl⟩
    · exact ⟨_, .tail _ (.head _), rfl⟩

/-- C96, exact arithmetic: the hypotheses hold for the two injectors of `exProblem` and the group of both, and for the producer. -/
example : ∃ (g g' : ConnectivityGraph) (calls calls' : List (Call (X ℚ))) (istarts pstarts : List CellSet) (S T S' T' : Solution (X ℚ)),
    exProblem.GivenTo g calls ∧ exTogether.GivenTo g' calls' ∧ exProblem.Grouped exGroup exTogether ∧ exProblem.forward.Acyclic ∧
    InjectionReturns g calls exInjectors (.ok S) ∧ ProductionReturns g calls exProducers (.ok T) ∧
    InjectionReturns g' calls' istarts (.ok S') ∧ ProductionReturns g' calls' pstarts (.ok T') ∧
    (∃ s ∈ istarts, s.id = ⟨[65]⟩) ∧ (∃ s ∈ pstarts, s.id = ⟨[80]⟩) ∧
    (∀ w ∈ exProblem.members exGroup ⟨[65]⟩, ∃ s ∈ exInjectors, s.id = w.id) ∧
    (∀ w ∈ exProblem.members exGroup ⟨[80]⟩, ∃ s ∈ exProducers, s.id = w.id) := by
  obtain ⟨g, calls, h⟩ := exProblem_given
  obtain ⟨g', calls', h'⟩ := exists_given exTogether_valid (by decide)
  obtain ⟨S, hS⟩ := (C40_valid_problem exProblem_valid h _).1 exInjectors_accepted
  obtain ⟨T, hT⟩ := (C40_valid_problem exProblem_valid h _).2.2.1 exProducers_accepted
  have hi : InjectionAccepts exTogether.inflowMap [CellSet.ofCells ⟨[65]⟩ [0]] := by
    have h2 : (Arith.lt Arith.zero (X.fin (3 : ℚ))) = true := by rw [X_zero, X_lt]; simp
    intro s hs
    simp only [List.mem_cons, List.not_mem_nil, or_false] at hs
    subst hs
    refine ⟨⟨_, .head _, rfl, _, .head _, h2⟩, ?_⟩
    intro c hc
    have : c = 0 := by simpa [CellSet.ofCells, CellSet.cells, setInsert] using hc
    subst this
    exact ⟨_, .head _, _, .head _, rfl, h2⟩
  have hp : ProductionAccepts exTogether.inflowMap [CellSet.ofCells ⟨[80]⟩ [3]] := by
    have h2 : IsNegative (X.fin (-3 : ℚ)) := by
      unfold IsNegative; rw [X_zero, X_lt, X_lt]; simp
    intro s hs
    simp only [List.mem_cons, List.not_mem_nil, or_false] at hs
    subst hs
    refine ⟨⟨_, .tail _ (.head _), rfl, _, .head _, h2⟩, ?_⟩
    intro c hc
    have : c = 3 := by simpa [CellSet.ofCells, CellSet.cells, setInsert] using hc
    subst this
    exact ⟨_, .tail _ (.head _), _, .head _, rfl, h2⟩
  obtain ⟨S', hS'⟩ := (C40_valid_problem exTogether_valid h' _).1 hi
  obtain ⟨T', hT'⟩ := (C40_valid_problem exTogether_valid h' _).2.2.1 hp
  refine ⟨g, g', calls, calls', _, _, S, T, S', T', h, h', exTogether_grouped, exProblem_acyclic, hS, hT, hS', hT',
    ⟨_, .head _, rfl⟩, ⟨_, .head _, rfl⟩, ?_, ?_⟩
  · rw [exTogether_members.1]
    intro w hw
    simp only [List.mem_cons, List.not_mem_nil, or_false] at hw
    rcases hw with rfl | rfl
    · exact ⟨_, .tail _ (.head _), rfl⟩
    · exact ⟨_, .head _, rfl⟩
  · rw [exTogether_members.2]
    intro w hw
    simp only [List.mem_cons, List.not_mem_nil, or_false] at hw
    subst hw
    exact ⟨_, .head _, rfl⟩

/-- `exWhirl`, with its cycle, and with its injector in two parts. -/
def exWhirlParts : Problem ℚ := { exWhirl with
  wells := [⟨⟨[65]⟩, [0], fun _ => 1⟩, ⟨⟨[66]⟩, [0], fun _ => 1⟩, ⟨⟨[80]⟩, [3], fun _ => -2⟩] }

theorem exWhirlParts_valid : exWhirlParts.Valid where
  int := by decide
  pos := by decide
  some_connection := by decide
  range := by decide
  pv := exWhirl_valid.pv
  wells_sorted := by unfold exWhirlParts; simp; decide
  cells_sorted := by unfold exWhirlParts; simp
  cells_range := by unfold exWhirlParts exWhirl; simp

theorem exWhirlParts_members :
    exWhirlParts.members exGroup ⟨[65]⟩ = [⟨⟨[65]⟩, [0], fun _ => 1⟩, ⟨⟨[66]⟩, [0], fun _ => 1⟩] ∧
    exWhirlParts.members exGroup ⟨[80]⟩ = [⟨⟨[80]⟩, [3], fun _ => -2⟩] := ⟨rfl, rfl⟩

theorem exWhirlParts_grouped : exWhirlParts.Grouped exGroup exWhirl where
  size := rfl
  flux _ _ _ _ := rfl
  pv _ _ := rfl
  injected W hW v _ := by
    simp only [exWhirl, List.mem_cons, List.not_mem_nil, or_false] at hW
    rcases hW with rfl | rfl
    · rw [exWhirlParts_members.1]
      by_cases h : v = 0 <;> simp [Problem.wellAt, h]
      norm_num
    · rw [exWhirlParts_members.2]
      simp
  produced W hW v _ := by
    simp only [exWhirl, List.mem_cons, List.not_mem_nil, or_false] at hW
    rcases hW with rfl | rfl
    · rw [exWhirlParts_members.1]
      by_cases h : v = 0 <;> simp [Problem.wellAt, h]
    · rw [exWhirlParts_members.2]
      simp
  all w hw := by
    simp only [exWhirlParts, List.mem_cons, List.not_mem_nil, or_false] at hw
    rcases hw with rfl | rfl | rfl
    · exact ⟨_, .head _, rfl⟩
    · exact ⟨_, .head _, rfl⟩
    · exact ⟨_, .tail _ (.head _), rfl⟩

def whirlPartsCalls : List (Call Double) :=
  [.assignPoreVolume [Arith.lit 1, Arith.lit 1, Arith.lit 1, Arith.lit 1],
   .assignConnectionFlux ⟨4, 1, [Arith.lit 2, Arith.lit 3, Arith.lit 3, Arith.lit 1]⟩,
   .assignInflowFlux [(⟨[65]⟩, [(0, Arith.lit 1)]), (⟨[66]⟩, [(0, Arith.lit 1)]), (⟨[80]⟩, [(3, Arith.lit (-2))])]]

theorem whirlParts_stored : exWhirlParts.StoredIn whirlGraph whirlPartsCalls where
  graph := whirl_stored.graph
  pv := ⟨_, rfl, by decide +kernel⟩
  flux := by
    refine ⟨1, fun c _ => if c = 0 then Arith.lit 2 else if c = 3 then Arith.lit 1 else Arith.lit 3, ⟨_, rfl, rfl, rfl, ?_⟩, ?_⟩
    · intro c hc p hp
      have hp : p = 0 := by omega
      subst hp
      have hc : c < 4 := hc
      interval_cases c <;> rfl
    · intro c hc
      have hc : c < 4 := hc
      show _ = X.fin (exWhirl.net c)
      rw [whirl_net]
      interval_cases c <;> decide +kernel
  inflow := by decide +kernel

theorem whirlParts_ordinary : exWhirlParts.OfOrdinarySize 4 where
  flux := whirl_ordinary.flux
  well w hw v hv := by
    simp only [exWhirlParts, List.mem_cons, List.not_mem_nil, or_false] at hw
    right
    rcases hw with rfl | rfl | rfl <;> norm_num
  pv := whirl_ordinary.pv
  degree := whirl_ordinary.degree
  wells v := (List.length_filter_le _ _).trans (by decide)
  bound := whirl_ordinary.bound

set_option maxRecDepth 100000 in
theorem whirlParts_injection : ∃ S, InjectionReturns whirlGraph whirlPartsCalls
    [CellSet.ofCells ⟨[65]⟩ [0], CellSet.ofCells ⟨[66]⟩ [0]] (.ok S) := by
  obtain ⟨S, hS⟩ := isOk_spec
    (show isOk (injectionOutcome whirlGraph whirlPartsCalls noFailure 100 [CellSet.ofCells ⟨[65]⟩ [0], CellSet.ofCells ⟨[66]⟩ [0]]) = true
      by decide +kernel)
  exact ⟨S, (Fuel.injection_returns.mpr ⟨100, hS, by simp⟩).1⟩

set_option maxRecDepth 100000 in
theorem whirlParts_production : ∃ S, ProductionReturns whirlGraph whirlPartsCalls [CellSet.ofCells ⟨[80]⟩ [3]] (.ok S) := by
  obtain ⟨S, hS⟩ := isOk_spec
    (show isOk (productionOutcome whirlGraph whirlPartsCalls noFailure 100 [CellSet.ofCells ⟨[80]⟩ [3]]) = true by decide +kernel)
  exact ⟨S, (Fuel.production_returns.mpr ⟨100, hS, by simp⟩).1⟩

/-- C96, `double`s, flow with a cycle: the hypotheses hold in both directions. -/
example : ∃ S T S' T', InjectionReturns whirlGraph whirlPartsCalls [CellSet.ofCells ⟨[65]⟩ [0], CellSet.ofCells ⟨[66]⟩ [0]] (.ok S) ∧
    ProductionReturns whirlGraph whirlPartsCalls [CellSet.ofCells ⟨[80]⟩ [3]] (.ok T) ∧
    InjectionReturns whirlGraph whirlCalls [CellSet.ofCells ⟨[65]⟩ [0]] (.ok S') ∧
    ProductionReturns whirlGraph whirlCalls [CellSet.ofCells ⟨[80]⟩ [3]] (.ok T') ∧
    (∃ m t : Nat → ℚ, ∀ v < 4,
      |doubleAt (S'.concentration ⟨[65]⟩) v - (doubleAt (S.concentration ⟨[65]⟩) v + doubleAt (S.concentration ⟨[66]⟩) v)|
        ≤ 3 * (1 / 1000000000 * m v + ((4 * 4 + 6 : Nat) : ℚ) / 2 ^ 51 * t v)) ∧
    ∃ m t : Nat → ℚ, ∀ v < 4, |doubleAt (T'.concentration ⟨[80]⟩) v - doubleAt (T.concentration ⟨[80]⟩) v|
      ≤ 2 * (1 / 1000000000 * m v + ((4 * 4 + 6 : Nat) : ℚ) / 2 ^ 51 * t v) := by
  obtain ⟨S, hS⟩ := whirlParts_injection
  obtain ⟨T, hT⟩ := whirlParts_production
  obtain ⟨S', hS', _⟩ := whirl_injection
  obtain ⟨⟨T', hT'⟩, _⟩ := whirl_production
  refine ⟨S, T, S', T', hS, hT, hS', hT', ?_, ?_⟩
  · have hsum : ∀ v < 4, exWhirlParts.forward.total v = exWhirl.forward.total v := fun v hv =>
      (total_renumber (Grouped.forward exWhirl_valid exWhirlParts_grouped) hv).symm
    obtain ⟨m, t, hm, ht, h⟩ := C96_injection_double exWhirlParts_valid exWhirl_valid whirlParts_ordinary whirl_ordinary
      exWhirlParts_grouped (show ∀ v < exWhirlParts.n, ¬ exWhirlParts.forward.Loop v from whirl_noLoop) whirlParts_stored whirl_stored
      (fun v hv => by rw [hsum v hv]; exact whirl_total.1 v hv) hS hS'
      (W := ⟨⟨[65]⟩, [0], fun _ => 2⟩) (.head _) ⟨_, .head _, rfl⟩ (fun w hw _ => by
        rw [exWhirlParts_members.1] at hw
        simp only [List.mem_cons, List.not_mem_nil, or_false] at hw
        rcases hw with rfl | rfl
        · exact ⟨_, .head _, rfl⟩
        · exact ⟨_, .tail _ (.head _), rfl⟩)
    refine ⟨m, t, fun v hv => ?_⟩
    have := h v hv
    rw [exWhirlParts_members.1] at this
    simpa using this
  · have hsum : ∀ v < 4, exWhirlParts.backward.total v = exWhirl.backward.total v := fun v hv =>
      (total_renumber (Grouped.backward exWhirl_valid exWhirlParts_grouped) hv).symm
    obtain ⟨m, t, hm, ht, h⟩ := C96_production_double exWhirlParts_valid exWhirl_valid whirlParts_ordinary whirl_ordinary
      exWhirlParts_grouped (show ∀ v < exWhirlParts.n, ¬ exWhirlParts.forward.Loop v from whirl_noLoop) whirlParts_stored whirl_stored
      (fun v hv => by rw [hsum v hv]; exact whirl_total.2 v hv) hT hT'
      (W := ⟨⟨[80]⟩, [3], fun _ => -2⟩) (.tail _ (.head _)) ⟨_, .head _, rfl⟩ (fun w hw _ => by
        rw [exWhirlParts_members.2] at hw
        simp only [List.mem_cons, List.not_mem_nil, or_false] at hw
        subst hw
        exact ⟨_, .head _, rfl⟩)
    refine ⟨m, t, fun v hv => ?_⟩
    have := h v hv
    rw [exWhirlParts_members.2] at this
    simpa using this

end Verif.Props
