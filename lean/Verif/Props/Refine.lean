/-
C101: concentrations, and times of flight where a cell is left, do not depend on how the grid is refined.
-/
import Verif.Props.Rates
import Verif.Props.Communication
import Verif.Spec.Refine

namespace Verif.Props
open Verif.Spec Verif.Toolbox Verif.Solver Verif.Derived Finset

/-! ### Refined flows -/

section flow
variable {K : Type} [Field K] [LinearOrder K] {F G : Flow K} {whole last : Nat → Nat} {share : Nat → K}

theorem _root_.Verif.Spec.Flow.Refined.fibers (h : F.Refined whole share G) (f : Nat → K) :
    ∑ u ∈ range G.n, f u = ∑ p ∈ range F.n, ∑ u ∈ range G.n with whole u = p, f u :=
  (sum_fiberwise_of_maps_to (fun u hu => mem_range.mpr (h.cell u (mem_range.mp hu))) f).symm

/-- What comes into a part, from its own cell and from others. -/
theorem _root_.Verif.Spec.Flow.Refined.sum (h : F.Refined whole share G) (x : Nat → K) {v : Nat} (hv : v < G.n) :
    ∑ u ∈ range G.n, x (whole u) * G.w u v = x (whole v) * (∑ u ∈ range G.n with whole u = whole v, G.w u v)
      + share v * (∑ p ∈ range F.n, x p * F.w p (whole v) - x (whole v) * F.w (whole v) (whole v)) := by
  have hm := mem_range.mpr (h.cell v hv)
  rw [h.fibers, ← add_sum_erase _ _ hm, ← add_sum_erase _ (fun p => x p * F.w p (whole v)) hm, add_sub_cancel_left, mul_sum, mul_sum]
  congr 1
  · exact sum_congr rfl fun u hu => by rw [(mem_filter.mp hu).2]
  · refine sum_congr rfl fun p hp => ?_
    obtain ⟨h1, h2⟩ := mem_erase.mp hp
    rw [mul_left_comm, ← h.flux v hv p (mem_range.mp h2) h1, mul_sum]
    exact sum_congr rfl fun u hu => by rw [(mem_filter.mp hu).2]

theorem _root_.Verif.Spec.Flow.Refined.total (h : F.Refined whole share G) (hsrc : ∀ v < G.n, G.src v = share v * F.src (whole v))
    {v : Nat} (hv : v < G.n) :
    G.total v = (∑ u ∈ range G.n with whole u = whole v, G.w u v) + share v * (F.total (whole v) - F.w (whole v) (whole v)) := by
  have := h.sum (fun _ => 1) hv
  simp only [one_mul] at this
  show (∑ u ∈ range G.n, G.w u v) + G.src v = _ + share v * ((∑ p ∈ range F.n, F.w p (whole v)) + F.src (whole v) - _)
  rw [this, hsrc v hv]
  ring

variable [IsStrictOrderedRing K]

theorem _root_.Verif.Spec.Flow.Refined.edge (hF : F.Valid) (hG : G.Valid) (h : F.Refined whole share G) {u v : Nat}
    (he : G.Edge u v) : whole u = whole v ∨ F.Edge (whole u) (whole v) := by
  obtain ⟨hu, hv, hp⟩ := he
  by_cases e : whole u = whole v
  · exact .inl e
  refine .inr ⟨h.cell u hu, h.cell v hv, ?_⟩
  have e1 := h.flux v hv (whole u) (h.cell u hu) e
  have e2 : 0 < ∑ x ∈ range G.n with whole x = whole u, G.w x v :=
    sum_pos' (fun x hx => hG.w_nonneg x v (mem_range.mp (mem_filter.mp hx).1) hv)
      ⟨u, mem_filter.mpr ⟨mem_range.mpr hu, rfl⟩, hp⟩
  rw [e1] at e2
  rcases (hF.w_nonneg _ _ (h.cell u hu) (h.cell v hv)).lt_or_eq with h1 | h1
  · exact h1
  · rw [← h1, mul_zero] at e2; exact absurd e2 (lt_irrefl _)

theorem _root_.Verif.Spec.Flow.Refined.reach (hF : F.Valid) (hG : G.Valid) (h : F.Refined whole share G) {u v : Nat}
    (hr : G.Reach u v) : F.Reach (whole u) (whole v) := by
  induction hr with
  | refl => exact .refl
  | tail _ he ih =>
    rcases h.edge hF hG he with e | e
    · rw [← e]; exact ih
    · exact ih.tail e

/-- The start cells of the refined flow are the parts of the start cells that get something. -/
def StartParts (whole : Nat → Nat) (share : Nat → K) (n : Nat) (starts starts' : List Nat) : Prop :=
  ∀ u < n, u ∈ starts' ↔ whole u ∈ starts ∧ 0 < share u

theorem _root_.Verif.Spec.Flow.Refined.downstream (hF : F.Valid) (hG : G.Valid) (h : F.Refined whole share G)
    {starts starts' : List Nat} (hp : ∀ p ∈ starts', p < G.n) (hs : StartParts whole share G.n starts starts') {u : Nat} (hu : u < G.n) :
    G.Downstream starts' u ↔ F.Downstream starts (whole u) := by
  constructor
  · rintro ⟨p, h1, h2⟩
    exact ⟨whole p, ((hs p (hp p h1)).mp h1).1, h.reach hF hG h2⟩
  · rintro ⟨p, h1, h2⟩
    have key : ∀ q, F.Reach p q → ∀ u < G.n, whole u = q → G.Downstream starts' u := by
      intro q hq
      induction hq with
      | refl =>
        intro u hu e
        obtain ⟨a, ha, e1, e2, e3⟩ := h.fed u hu
        exact ⟨a, (hs a ha).mpr ⟨by rw [e1, e]; exact h1, e2⟩, e3⟩
      | @tail b c _ he ih =>
        intro u hu e
        obtain ⟨a, ha, e1, e2, e3⟩ := h.fed u hu
        rw [e] at e1
        by_cases hbc : b = c
        · exact ih u hu (e.trans hbc.symm)
        have hpos : 0 < ∑ x ∈ range G.n with whole x = b, G.w x a := by
          rw [h.flux a ha b he.1 (by rw [e1]; exact hbc), e1]
          exact mul_pos e2 he.2.2
        obtain ⟨x, hx, hx2⟩ := exists_lt_of_sum_lt (s := (range G.n).filter fun x => whole x = b) (f := fun _ => (0 : K))
          (g := fun x => G.w x a) (by simpa using hpos)
        obtain ⟨hxn, hxb⟩ := mem_filter.mp hx
        obtain ⟨y, hy1, hy2⟩ := ih x (mem_range.mp hxn) hxb
        exact ⟨y, hy1, (hy2.tail ⟨mem_range.mp hxn, ha, hx2⟩).trans e3⟩
    exact key _ h2 u hu rfl

/-- A field carried by the flow is carried by the refined flow. -/
theorem _root_.Verif.Spec.Flow.Refined.carries (hF : F.Valid) (hG : G.Valid) (h : F.Refined whole share G)
    (hsrc : ∀ v < G.n, G.src v = share v * F.src (whole v)) {starts starts' : List Nat} (hp : ∀ p ∈ starts', p < G.n)
    (hs : StartParts whole share G.n starts starts') {q q' x : Nat → K} (hq : ∀ v < G.n, q' v = share v * q (whole v))
    (hx : F.Carries starts q x) : G.Carries starts' q' fun u => x (whole u) := by
  refine ⟨fun v hv hd => hx.1 _ (h.cell v hv) fun hc => hd ((h.downstream hF hG hp hs hv).mpr hc), fun v hv hd => ?_⟩
  have e := hx.2 _ (h.cell v hv) ((h.downstream hF hG hp hs hv).mp hd)
  rw [h.total hsrc hv, h.sum x hv, hq v hv]
  linear_combination share v * e

/-- Times of flight where a cell is left. -/
theorem _root_.Verif.Spec.Flow.Refined.times (hF : F.Valid) (h : F.Refined whole share G)
    (hsrc : ∀ v < G.n, G.src v = share v * F.src (whole v)) (hacy : F.Acyclic) (ho : F.OneOutlet whole last G)
    (hall : AllShared F.n G.n whole share) (hpv : ∀ p < F.n, ∑ u ∈ range G.n with whole u = p, G.pv u = F.pv p)
    {c c' τ τ' : Nat → K} (hc : ∀ u < G.n, c' u = c (whole u)) (hc0 : ∀ v < F.n, 0 ≤ c v)
    (htot : ∀ v < F.n, 0 < c v → 0 < F.total v)
    (ht : ∀ v < F.n, 0 < c v → ¬ F.Slow v → F.total v * c v * τ v = F.pv v * c v + ∑ u ∈ range F.n, τ u * c u * F.w u v)
    (ht' : ∀ v < G.n, 0 < c' v → ¬ G.Slow v → G.total v * c' v * τ' v = G.pv v * c' v + ∑ u ∈ range G.n, τ' u * c' u * G.w u v) :
    ∀ p < F.n, 0 < c p → (∀ q, F.Reach q p → 0 < c q → ¬ F.Slow q ∧ ∀ u < G.n, whole u = q → ¬ G.Slow u) →
      τ' (last p) = τ p := by
  refine acyclic_induction hacy (P := fun p => 0 < c p →
    (∀ q, F.Reach q p → 0 < c q → ¬ F.Slow q ∧ ∀ u < G.n, whole u = q → ¬ G.Slow u) → τ' (last p) = τ p) ?_
  intro p hp ih hcp hslow
  have htp := htot p hp hcp
  obtain ⟨hl1, hl2⟩ := ho.part p hp
  have hself : F.w p p = 0 := by
    rcases (hF.w_nonneg p p hp hp).lt_or_eq with e | e
    · exact absurd (.single ⟨hp, hp, e⟩) (hacy p)
    · exact e.symm
  -- sums over the parts of `p`, split at the outlet
  have hlm : last p ∈ (range G.n).filter fun u => whole u = p := mem_filter.mpr ⟨mem_range.mpr hl1, hl2⟩
  have hinner : ∀ y : Nat → K, ∑ v ∈ range G.n with whole v = p, ∑ u ∈ range G.n with whole u = p, y u * G.w u v
      = ∑ u ∈ ((range G.n).filter fun u => whole u = p).erase (last p), y u * G.total u := by
    intro y
    rw [sum_comm, ← add_sum_erase _ _ hlm, sum_eq_zero, zero_add]
    · refine sum_congr rfl fun u hu => ?_
      obtain ⟨h1, h2⟩ := mem_erase.mp hu
      obtain ⟨h2, h3⟩ := mem_filter.mp h2
      rw [← mul_sum, ← ho.stays u (mem_range.mp h2) (by rw [h3]; exact h1), h3]
    · intro v hv
      obtain ⟨h2, h3⟩ := mem_filter.mp hv
      have := ho.ends v (mem_range.mp h2)
      rw [h3] at this
      rw [this, mul_zero]
  -- the flux through the outlet
  have htotal : G.total (last p) = F.total p := by
    have e1 : ∑ v ∈ range G.n with whole v = p, G.total v
        = (∑ v ∈ range G.n with whole v = p, ∑ u ∈ range G.n with whole u = p, 1 * G.w u v) + F.total p := by
      have : ∀ v ∈ (range G.n).filter fun v => whole v = p, G.total v
          = (∑ u ∈ range G.n with whole u = p, 1 * G.w u v) + share v * F.total p := by
        intro v hv
        obtain ⟨h2, h3⟩ := mem_filter.mp hv
        rw [h.total hsrc (mem_range.mp h2), h3, hself, sub_zero]
        simp only [one_mul]
      rw [sum_congr rfl this, sum_add_distrib, ← sum_mul, hall p hp, one_mul]
    rw [hinner, ← add_sum_erase _ _ hlm] at e1
    simp only [one_mul] at e1
    linarith
  -- what comes from other cells
  have houter : ∀ v ∈ (range G.n).filter fun v => whole v = p,
      ∑ u ∈ range G.n, τ' u * c' u * G.w u v = (∑ u ∈ range G.n with whole u = p, τ' u * c p * G.w u v)
        + share v * ∑ q ∈ range F.n, τ q * c q * F.w q p := by
    intro v hv
    obtain ⟨hvn, hvp⟩ := mem_filter.mp hv
    have hvn := mem_range.mp hvn
    rw [h.fibers, ← add_sum_erase _ _ (mem_range.mpr hp), ← add_sum_erase (range F.n) (fun q => τ q * c q * F.w q p) (mem_range.mpr hp),
      hself, mul_zero, zero_add, mul_sum]
    congr 1
    · refine sum_congr rfl fun u hu => ?_
      obtain ⟨h2, h3⟩ := mem_filter.mp hu
      rw [hc u (mem_range.mp h2), h3]
    · refine sum_congr rfl fun q hq => ?_
      obtain ⟨hqp, hqn⟩ := mem_erase.mp hq
      have hqn := mem_range.mp hqn
      obtain ⟨a1, a2⟩ := ho.part q hqn
      have hone : ∀ y : Nat → K, ∑ u ∈ range G.n with whole u = q, y u * G.w u v = y (last q) * G.w (last q) v := by
        intro y
        refine sum_eq_single_of_mem _ (mem_filter.mpr ⟨mem_range.mpr a1, a2⟩) fun u hu hne => ?_
        obtain ⟨h2, h3⟩ := mem_filter.mp hu
        rw [ho.leaves u (mem_range.mp h2) v hvn (by rw [h3, hvp]; exact hqp) (by rw [h3]; exact hne), mul_zero]
      have hw : G.w (last q) v = share v * F.w q p := by
        have := h.flux v hvn q hqn (by rw [hvp]; exact hqp)
        rw [hvp] at this
        rw [← this]
        have h1 := hone fun _ => 1
        simp only [one_mul] at h1
        exact h1.symm
      rw [hone, hc _ a1, a2, hw]
      rcases (hF.w_nonneg q p hqn hp).lt_or_eq with hw0 | hw0
      · rcases (hc0 q hqn).lt_or_eq with hcq | hcq
        · have he : F.Edge q p := ⟨hqn, hp, hw0⟩
          rw [ih q he hcq fun r hr => hslow r (hr.tail he)]
          ring
        · rw [← hcq]; ring
      · rw [← hw0]; ring
  obtain ⟨hs1, hs2⟩ := hslow p .refl hcp
  have e1 := ht p hp hcp hs1
  have e2 : ∑ v ∈ range G.n with whole v = p, G.total v * c p * τ' v
      = F.pv p * c p + ((∑ u ∈ ((range G.n).filter fun u => whole u = p).erase (last p), τ' u * c p * G.total u)
        + ∑ q ∈ range F.n, τ q * c q * F.w q p) := by
    have : ∀ v ∈ (range G.n).filter fun v => whole v = p, G.total v * c p * τ' v
        = G.pv v * c p + ((∑ u ∈ range G.n with whole u = p, τ' u * c p * G.w u v)
          + share v * ∑ q ∈ range F.n, τ q * c q * F.w q p) := by
      intro v hv
      obtain ⟨hvn, hvp⟩ := mem_filter.mp hv
      have hvn' := mem_range.mp hvn
      have hcv : c' v = c p := by rw [hc v hvn', hvp]
      rw [← houter v hv, ← hcv]
      exact ht' v hvn' (by rw [hcv]; exact hcp) (hs2 v hvn' hvp)
    rw [sum_congr rfl this, sum_add_distrib, sum_add_distrib, ← sum_mul, ← sum_mul, hpv p hp, hall p hp, one_mul,
      hinner fun u => τ' u * c p]
  rw [← add_sum_erase _ _ hlm, htotal] at e2
  have e3 : ∑ u ∈ ((range G.n).filter fun u => whole u = p).erase (last p), G.total u * c p * τ' u
      = ∑ u ∈ ((range G.n).filter fun u => whole u = p).erase (last p), τ' u * c p * G.total u :=
    sum_congr rfl fun u _ => by ring
  rw [e3] at e2
  exact mul_left_cancel₀ (mul_pos htp hcp).ne' (by linarith)

end flow

/-! ### Runs -/

section runs
variable {K : Type} [Field K] [LinearOrder K] [IsStrictOrderedRing K] {F G : Flow K} {whole last : Nat → Nat} {share : Nat → K}
  {wells wells' : List (WellFlux K)} {cs : WellFlux K → List Nat} {f : WellFlux K → Nat → K}

omit [LinearOrder K] [IsStrictOrderedRing K] in
theorem shares_sources {whole : Nat → Nat} {share : Nat → K} {a : WellFlux K → Nat → K} {n : Nat} {l l' : List (WellFlux K)}
    (h : List.Forall₂ (fun w w' => w.id = w'.id ∧ ∀ v < n, a w' v = share v * a w (whole v)) l l') {v : Nat} (hv : v < n) :
    (l'.map fun w => a w v).sum = share v * (l.map fun w => a w (whole v)).sum := by
  induction h with
  | nil => simp
  | cons hw _ ih => simp only [List.map_cons, List.sum_cons, ih, hw.2 v hv, mul_add]

theorem _root_.Verif.Spec.Flow.Refined.starts (h : F.Refined whole share G) (S : Side wells cs f F.n F.src)
    (S' : Side wells' cs f G.n G.src) {w w' : WellFlux K} (hw : w ∈ wells) (hw' : w' ∈ wells')
    (hin : ∀ v < G.n, injected (cs w') (f w') v = share v * injected (cs w) (f w) (whole v)) :
    StartParts whole share G.n (cs w) (cs w') := by
  intro u hu
  rw [injected_mem (S'.pos w' hw'), injected_mem (S.pos w hw), hin u hu]
  have h1 := (side_injected S hw (whole u)).1
  have h2 := h.share_nonneg u hu
  constructor
  · intro hp
    exact ⟨h1.lt_of_ne fun e => by rw [← e, mul_zero] at hp; exact lt_irrefl _ hp,
      h2.lt_of_ne fun e => by rw [← e, zero_mul] at hp; exact lt_irrefl _ hp⟩
  · exact fun hp => mul_pos hp.2 hp.1

/-- The exact concentrations agree. -/
theorem _root_.Verif.Spec.Flow.Refined.same (h : F.Refined whole share G) (hF : F.Valid) (hG : G.Valid)
    (hsrc : ∀ v < G.n, G.src v = share v * F.src (whole v)) (S : Side wells cs f F.n F.src) (S' : Side wells' cs f G.n G.src)
    {w w' : WellFlux K} (hw : w ∈ wells) (hw' : w' ∈ wells')
    (hin : ∀ v < G.n, injected (cs w') (f w') v = share v * injected (cs w) (f w) (whole v)) {x y : Nat → K}
    (hx : F.Carries (cs w) (injected (cs w) (f w)) x) (hy : G.Carries (cs w') (injected (cs w') (f w')) y) :
    ∀ u < G.n, y u = x (whole u) :=
  (C76_exact hG (side_sources S' hw') _).2.1 _ _ hy
    (h.carries hF hG hsrc (S'.range w' hw') (h.starts S S' hw hw' hin) hin hx)

variable [Archimedean K] {starts starts' : List CellSet} {sol sol' : Solution (X K)}

theorem Diag.refined (D : Diag F wells cs f starts sol) (D' : Diag G wells' cs f starts' sol') (h : F.Refined whole share G)
    (hsrc : ∀ v < G.n, G.src v = share v * F.src (whole v)) (hself : ∀ v < F.n, ¬ F.Loop v) (hself' : ∀ v < G.n, ¬ G.Loop v)
    {w w' : WellFlux K} (hw : w ∈ wells) (hw' : w' ∈ wells') (hs : ∃ s ∈ starts, s.id = w.id) (hs' : ∃ s ∈ starts', s.id = w'.id)
    (hin : ∀ v < G.n, injected (cs w') (f w') v = share v * injected (cs w) (f w) (whole v)) {m m' : Nat → K}
    (hm : F.Carries (cs w) F.cycleInflow m) (hm' : G.Carries (cs w') G.cycleInflow m') :
    ∀ u < G.n, valueAt (sol'.concentration w'.id) u ≤ valueAt (sol.concentration w.id) (whole u) + 1 / 1000000000 * m (whole u) ∧
      valueAt (sol.concentration w.id) (whole u) ≤ valueAt (sol'.concentration w'.id) u + 1 / 1000000000 * m' u := by
  have hF : F.Valid := by obtain ⟨d, st, h1, _⟩ := D.solved; exact h1.valid
  have hG : G.Valid := by obtain ⟨d, st, h1, _⟩ := D'.solved; exact h1.valid
  obtain ⟨x, hx⟩ := (C76_exact hF (side_sources D.side hw) (injected (cs w) (f w))).1
  obtain ⟨y, hy⟩ := (C76_exact hG (side_sources D'.side hw') (injected (cs w') (f w'))).1
  intro u hu
  obtain ⟨a, b⟩ := D.error hself hw hs hx hm (whole u) (h.cell u hu)
  obtain ⟨a', b'⟩ := D'.error hself' hw' hs' hy hm' u hu
  have e := h.same hF hG hsrc D.side D'.side hw hw' hin hx hy u hu
  constructor <;> linarith

theorem Diag.refined_acyclic (D : Diag F wells cs f starts sol) (D' : Diag G wells' cs f starts' sol') (h : F.Refined whole share G)
    (hsrc : ∀ v < G.n, G.src v = share v * F.src (whole v)) (hacy : F.Acyclic) (hacy' : G.Acyclic)
    {w w' : WellFlux K} (hw : w ∈ wells) (hw' : w' ∈ wells') (hs : ∃ s ∈ starts, s.id = w.id) (hs' : ∃ s ∈ starts', s.id = w'.id)
    (hin : ∀ v < G.n, injected (cs w') (f w') v = share v * injected (cs w) (f w) (whole v)) :
    ∀ u < G.n, valueAt (sol'.concentration w'.id) u = valueAt (sol.concentration w.id) (whole u) := by
  have hF : F.Valid := by obtain ⟨d, st, h1, _⟩ := D.solved; exact h1.valid
  have hG : G.Valid := by obtain ⟨d, st, h1, _⟩ := D'.solved; exact h1.valid
  intro u hu
  have := D.refined D' h hsrc (acyclic_no_loop hF hacy) (acyclic_no_loop hG hacy') hw hw' hs hs' hin (acyclic_carries_zero hF hacy _)
    (acyclic_carries_zero hG hacy' _) u hu
  exact le_antisymm (by linarith [this.1]) (by linarith [this.2])

omit [Archimedean K] in
theorem downstream_total (hF : F.Valid) {s : List Nat} (hp : ∀ p ∈ s, p < F.n ∧ 0 < F.src p) {v : Nat} (h : F.Downstream s v) :
    0 < F.total v := by
  obtain ⟨p, h1, h2⟩ := h
  rcases Relation.ReflTransGen.cases_tail h2 with rfl | ⟨u, _, e⟩
  · exact add_pos_of_nonneg_of_pos (sum_nonneg fun u hu => hF.w_nonneg u _ (mem_range.mp hu) (hp _ h1).1) (hp _ h1).2
  · exact add_pos_of_pos_of_nonneg (sum_pos' (fun x hx => hF.w_nonneg x v (mem_range.mp hx) e.2.1) ⟨u, mem_range.mpr e.1, e.2.2⟩)
      (hF.src_nonneg v e.2.1)

theorem Diag.time_off (D : Diag F wells cs f starts sol) {w : WellFlux K} (hw : w ∈ wells) (hs : ∃ s ∈ starts, s.id = w.id)
    {v : Nat} (hv : ¬ F.Downstream (cs w) v) : valueAt (sol.timeOfFlightOf w.id) v = 0 := by
  obtain ⟨h1, h2⟩ := D.support hw hs
  unfold valueAt
  rw [OMap.find_none_iff.mpr fun e he hev => hv ?_]
  have := (h2 v).mp (h1 ▸ List.mem_map.mpr ⟨e, he, hev⟩)
  obtain ⟨x, hx, p, hp, hr⟩ := this
  rw [← Int.ofNat_inj.mp hx] at hr
  exact ⟨p, hp, hr⟩

/-- Time of flight of a well. -/
theorem Diag.refined_time (D : Diag F wells cs f starts sol) (D' : Diag G wells' cs f starts' sol') (h : F.Refined whole share G)
    (hsrc : ∀ v < G.n, G.src v = share v * F.src (whole v)) (hacy : F.Acyclic) (hacy' : G.Acyclic) (ho : F.OneOutlet whole last G)
    (hall : AllShared F.n G.n whole share) (hpv : ∀ p < F.n, ∑ u ∈ Finset.range G.n with whole u = p, G.pv u = F.pv p)
    {w w' : WellFlux K} (hw : w ∈ wells) (hw' : w' ∈ wells') (hs : ∃ s ∈ starts, s.id = w.id) (hs' : ∃ s ∈ starts', s.id = w'.id)
    (hin : ∀ v < G.n, injected (cs w') (f w') v = share v * injected (cs w) (f w) (whole v)) {p : Nat} (hp : p < F.n)
    (hslow : ∀ q, F.Downstream (cs w) q → F.Reach q p → ¬ F.Slow q ∧ ∀ u < G.n, whole u = q → ¬ G.Slow u) :
    valueAt (sol'.timeOfFlightOf w'.id) (last p) = valueAt (sol.timeOfFlightOf w.id) p := by
  have hF : F.Valid := by obtain ⟨d, st, h1, _⟩ := D.solved; exact h1.valid
  have hG : G.Valid := by obtain ⟨d, st, h1, _⟩ := D'.solved; exact h1.valid
  have hc := D.refined_acyclic D' h hsrc hacy hacy' hw hw' hs hs' hin
  obtain ⟨hl1, hl2⟩ := ho.part p hp
  by_cases hd : F.Downstream (cs w) p
  · obtain ⟨τ, ht⟩ := D.tof_balance hacy hw hs
    obtain ⟨τ', ht'⟩ := D'.tof_balance hacy' hw' hs'
    have hd' : G.Downstream (cs w') (last p) :=
      (h.downstream hF hG (D'.side.range w' hw') (h.starts D.side D'.side hw hw' hin) hl1).mpr (by rw [hl2]; exact hd)
    rw [(ht p hd).1, (ht' _ hd').1]
    congr 1
    exact h.times hF hsrc hacy ho hall hpv hc (D.conc_nonneg w.id)
      (fun v _ hv => downstream_total hF (side_sources D.side hw) ((D.conc_pos hw hs v).mp hv))
      (fun v _ hv hsl => (ht v ((D.conc_pos hw hs v).mp hv)).2.2 hsl)
      (fun v _ hv hsl => (ht' v ((D'.conc_pos hw' hs' v).mp hv)).2.2 hsl) p hp ((D.conc_pos hw hs p).mpr hd)
      fun q hq hcq => hslow q ((D.conc_pos hw hs q).mp hcq) hq
  · have hd' : ¬ G.Downstream (cs w') (last p) := fun hc => hd (by
      have := (h.downstream hF hG (D'.side.range w' hw') (h.starts D.side D'.side hw hw' hin) hl1).mp hc
      rwa [hl2] at this)
    rw [D.time_off hw hs hd, D'.time_off hw' hs' hd']

/-- Global time of flight. -/
theorem Diag.refined_global (D : Diag F wells cs f starts sol) (D' : Diag G wells' cs f starts' sol') (h : F.Refined whole share G)
    (hsrc : ∀ v < G.n, G.src v = share v * F.src (whole v)) (hacy : F.Acyclic) (hacy' : G.Acyclic) (ho : F.OneOutlet whole last G)
    (hall : AllShared F.n G.n whole share) (hpv : ∀ p < F.n, ∑ u ∈ Finset.range G.n with whole u = p, G.pv u = F.pv p)
    {p : Nat} (hp : p < F.n) (hslow : ∀ q, F.Reach q p → ¬ F.Slow q ∧ ∀ u < G.n, whole u = q → ¬ G.Slow u) :
    fieldAt sol'.timeOfFlight (last p) = fieldAt sol.timeOfFlight p := by
  classical
  obtain ⟨d, st, h1, h2, _⟩ := D.solved
  obtain ⟨d', st', h1', h2', _⟩ := D'.solved
  obtain ⟨τ, c, hr1, _, hf⟩ := global_facts h1
  obtain ⟨τ', c', hr1', _, hf'⟩ := global_facts h1'
  have hF := h1.valid
  have hG := h1'.valid
  obtain ⟨hl1, hl2⟩ := ho.part p hp
  rw [Res.ok.inj (h2.unique hr1), Res.ok.inj (h2'.unique hr1'), arr_fieldAt _ _ hp, arr_fieldAt _ _ hl1]
  let src : Flow K → List Nat := fun H => (List.range H.n).filter fun v => 0 < H.src v
  have hmem : ∀ (H : Flow K) v, v ∈ src H ↔ v < H.n ∧ 0 < H.src v := fun H v => by simp [src]
  have carry : ∀ {H : Flow K} {t k : Nat → K}, H.Acyclic → Facts H (· < H.n) (fun v => 0 < H.src v) H.src t k →
      H.Carries (src H) H.src k ∧ ∀ v < H.n, 0 < k v → H.Downstream (src H) v := by
    intro H t k ha hf
    have hd : ∀ v < H.n, 0 < k v → H.Downstream (src H) v := fun v hv hp => by
      obtain ⟨q, a, _, _, b, e⟩ := hf.source v hv hp
      exact ⟨q, (hmem H q).mpr ⟨a, b⟩, e⟩
    refine ⟨⟨fun v hv hn => ?_, fun v hv _ => hf.exact v hv (fun hc => hc.1.ne' hc.2) (ha v)⟩, hd⟩
    rcases (hf.nonneg v hv).2.lt_or_eq with e | e
    · exact absurd (hd v hv e) hn
    · exact e.symm
  obtain ⟨k1, k2⟩ := carry hacy hf
  obtain ⟨k1', k2'⟩ := carry hacy' hf'
  have hst : StartParts whole share G.n (src F) (src G) := by
    intro u hu
    rw [hmem, hmem, hsrc u hu]
    have a := h.share_nonneg u hu
    have b := hF.src_nonneg (whole u) (h.cell u hu)
    constructor
    · intro hp
      exact ⟨⟨h.cell u hu, b.lt_of_ne fun e => by rw [← e, mul_zero] at hp; exact lt_irrefl _ hp.2⟩,
        a.lt_of_ne fun e => by rw [← e, zero_mul] at hp; exact lt_irrefl _ hp.2⟩
    · exact fun hp => ⟨hu, mul_pos hp.2 hp.1.2⟩
  have hc := (C76_exact hG (fun p hp => (hmem G p).mp hp) _).2.1 _ _ k1'
    (h.carries hF hG hsrc (fun p hp => ((hmem G p).mp hp).1) hst hsrc k1)
  congr 1
  by_cases hcp : 0 < c p
  · exact h.times hF hsrc hacy ho hall hpv hc (fun v hv => (hf.nonneg v hv).2)
      (fun v hv hv0 => downstream_total hF (fun p hp => (hmem F p).mp hp) (k2 v hv hv0))
      (fun v hv hv0 hsl => hf.texact v hv hsl hv0 (hacy v)) (fun v hv hv0 hsl => hf'.texact v hv hsl hv0 (hacy' v)) p hp hcp
      fun q hq _ => hslow q hq
  · have e : c p = 0 := le_antisymm (not_lt.mp hcp) (hf.nonneg p hp).2
    have e' : c' (last p) = 0 := by rw [hc _ hl1, hl2, e]
    rw [hf.capped p hp (.inr e), hf'.capped _ hl1 (.inr e')]

end runs

/-! ### Exact arithmetic -/

section exact
variable {K : Type} [Field K] [LinearOrder K] [IsStrictOrderedRing K] {P Q : Problem K} {whole : Nat → Nat} {share : Nat → K}

omit [IsStrictOrderedRing K] in
theorem _root_.Verif.Spec.Problem.InjectsShares.source (h : P.InjectsShares whole share Q) :
    ∀ v < Q.forward.n, Q.forward.src v = share v * P.forward.src (whole v) := fun _ hv =>
  shares_sources (a := fun w v => max (Problem.wellAt w v) 0) h hv

theorem _root_.Verif.Spec.Problem.InjectsShares.well (h : P.InjectsShares whole share Q) (hQ : Q.Valid) {w w' : WellFlux K}
    (hw : w ∈ P.wells) (hw' : w' ∈ Q.wells) (hid : w.id = w'.id) :
    ∀ v < Q.n, injected (posCells w') w'.val v = share v * injected (posCells w) w.val (whole v) := fun v hv => by
  rw [injected_pos, injected_pos]
  exact more_pair h hQ.wells_sorted hw hw' hid v hv

omit [IsStrictOrderedRing K] in
theorem _root_.Verif.Spec.Problem.ProducesShares.sink (h : P.ProducesShares whole share Q) :
    ∀ v < Q.backward.n, Q.backward.src v = share v * P.backward.src (whole v) := fun _ hv =>
  shares_sources (a := fun w v => max (-Problem.wellAt w v) 0) h hv

theorem _root_.Verif.Spec.Problem.ProducesShares.well (h : P.ProducesShares whole share Q) (hQ : Q.Valid) {w w' : WellFlux K}
    (hw : w ∈ P.wells) (hw' : w' ∈ Q.wells) (hid : w.id = w'.id) :
    ∀ v < Q.n, injected (negCells w') (fun v => - w'.val v) v = share v * injected (negCells w) (fun v => - w.val v) (whole v) :=
  fun v hv => by
    rw [injected_neg, injected_neg]
    exact more_pair h hQ.wells_sorted hw hw' hid v hv

variable [Archimedean K] {g g' : ConnectivityGraph} {calls calls' : List (Call (X K))} (hP : P.Valid) (hQ : Q.Valid)
  (h : P.GivenTo g calls) (h' : Q.GivenTo g' calls') {starts starts' : List CellSet} {sol sol' : Solution (X K)}
include hP hQ h h'

section times
variable {i : CellSetID} (hi : ∃ s ∈ starts, s.id = i) (hi' : ∃ s ∈ starts', s.id = i)
include hi hi'

/-- **C101** (exact arithmetic, cycle-free flows) The concentration of an injector in a part of a cell is its concentration in the
    cell, however the cells are divided into parts. -/
theorem C101_injection (href : P.forward.Refined whole share Q.forward) (hinj : P.InjectsShares whole share Q)
    (hacy : P.forward.Acyclic) (hacy' : Q.forward.Acyclic) (hret : InjectionReturns g calls starts (.ok sol))
    (hret' : InjectionReturns g' calls' starts' (.ok sol')) :
    ∀ u < Q.n, valueAt (sol'.concentration i) u = valueAt (sol.concentration i) (whole u) := by
  have D := diag_injection hP h hret
  have D' := diag_injection hQ h' hret'
  obtain ⟨s, hs, rfl⟩ := hi
  obtain ⟨s', hs', e⟩ := hi'
  obtain ⟨w, hw, ew, _⟩ := D.known s hs
  obtain ⟨w', hw', ew', _⟩ := D'.known s' hs'
  have key := D.refined_acyclic D' href hinj.source hacy hacy' hw hw' ⟨s, hs, ew.symm⟩ ⟨s', hs', ew'.symm⟩
    (hinj.well hQ hw hw' (ew.trans (e.symm.trans ew'.symm)))
  rwa [ew', ew, e] at key

/-- **C101** The same for production. -/
theorem C101_production (href : P.backward.Refined whole share Q.backward) (hprod : P.ProducesShares whole share Q)
    (hacy : P.forward.Acyclic) (hacy' : Q.forward.Acyclic) (hret : ProductionReturns g calls starts (.ok sol))
    (hret' : ProductionReturns g' calls' starts' (.ok sol')) :
    ∀ u < Q.n, valueAt (sol'.concentration i) u = valueAt (sol.concentration i) (whole u) := by
  have D := diag_production hP h hret
  have D' := diag_production hQ h' hret'
  obtain ⟨s, hs, rfl⟩ := hi
  obtain ⟨s', hs', e⟩ := hi'
  obtain ⟨w, hw, ew, _⟩ := D.known s hs
  obtain ⟨w', hw', ew', _⟩ := D'.known s' hs'
  have key := D.refined_acyclic D' href hprod.sink (backward_acyclic hacy) (backward_acyclic hacy') hw hw' ⟨s, hs, ew.symm⟩
    ⟨s', hs', ew'.symm⟩ (hprod.well hQ hw hw' (ew.trans (e.symm.trans ew'.symm)))
  rwa [ew', ew, e] at key

variable {last : Nat → Nat} (hall : AllShared P.n Q.n whole share)
  (hpv : ∀ p < P.n, ∑ u ∈ range Q.n with whole u = p, Q.pv u = P.pv p) {p : Nat} (hp : p < P.n)
include hall hpv hp

/-- **C101** (exact arithmetic, cycle-free flows) If each cell is left through one of its parts, then the times of flight in that
    part, of an injector and global, are those in the cell, if no cell upstream, whole or part, takes more than 200 years to fill. -/
theorem C101_time_injection (href : P.forward.Refined whole share Q.forward) (hinj : P.InjectsShares whole share Q)
    (hacy : P.forward.Acyclic) (hacy' : Q.forward.Acyclic) (hout : P.forward.OneOutlet whole last Q.forward)
    (hret : InjectionReturns g calls starts (.ok sol)) (hret' : InjectionReturns g' calls' starts' (.ok sol'))
    (hslow : ∀ q, P.forward.Reach q p → ¬ P.forward.Slow q ∧ ∀ u < Q.n, whole u = q → ¬ Q.forward.Slow u) :
    fieldAt sol'.timeOfFlight (last p) = fieldAt sol.timeOfFlight p ∧
    valueAt (sol'.timeOfFlightOf i) (last p) = valueAt (sol.timeOfFlightOf i) p := by
  have D := diag_injection hP h hret
  have D' := diag_injection hQ h' hret'
  obtain ⟨s, hs, rfl⟩ := hi
  obtain ⟨s', hs', e⟩ := hi'
  obtain ⟨w, hw, ew, _⟩ := D.known s hs
  obtain ⟨w', hw', ew', _⟩ := D'.known s' hs'
  refine ⟨D.refined_global D' href hinj.source hacy hacy' hout hall hpv hp hslow, ?_⟩
  have key := D.refined_time D' href hinj.source hacy hacy' hout hall hpv hw hw' ⟨s, hs, ew.symm⟩ ⟨s', hs', ew'.symm⟩
    (hinj.well hQ hw hw' (ew.trans (e.symm.trans ew'.symm))) hp fun q _ => hslow q
  rwa [ew', ew, e] at key

/-- **C101** The same for production: if each cell is entered through one of its parts, with downstream for upstream. -/
theorem C101_time_production (href : P.backward.Refined whole share Q.backward) (hprod : P.ProducesShares whole share Q)
    (hacy : P.forward.Acyclic) (hacy' : Q.forward.Acyclic) (hout : P.backward.OneOutlet whole last Q.backward)
    (hret : ProductionReturns g calls starts (.ok sol)) (hret' : ProductionReturns g' calls' starts' (.ok sol'))
    (hslow : ∀ q, P.forward.Reach p q → ¬ P.backward.Slow q ∧ ∀ u < Q.n, whole u = q → ¬ Q.backward.Slow u) :
    fieldAt sol'.timeOfFlight (last p) = fieldAt sol.timeOfFlight p ∧
    valueAt (sol'.timeOfFlightOf i) (last p) = valueAt (sol.timeOfFlightOf i) p := by
  have D := diag_production hP h hret
  have D' := diag_production hQ h' hret'
  obtain ⟨s, hs, rfl⟩ := hi
  obtain ⟨s', hs', e⟩ := hi'
  obtain ⟨w, hw, ew, _⟩ := D.known s hs
  obtain ⟨w', hw', ew', _⟩ := D'.known s' hs'
  refine ⟨D.refined_global D' href hprod.sink (backward_acyclic hacy) (backward_acyclic hacy') hout hall hpv hp
    fun q hq => hslow q (backward_reach.mp hq), ?_⟩
  have key := D.refined_time D' href hprod.sink (backward_acyclic hacy) (backward_acyclic hacy') hout hall hpv hw hw'
    ⟨s, hs, ew.symm⟩ ⟨s', hs', ew'.symm⟩ (hprod.well hQ hw hw' (ew.trans (e.symm.trans ew'.symm))) hp
    fun q _ hq => hslow q (backward_reach.mp hq)
  rwa [ew', ew, e] at key

end times

/-- **C101** (exact arithmetic, cycle-free flows) Volume and fluxes of a pair of wells do not depend on how the cells are divided
    into parts. -/
theorem C101_pairs {share' : Nat → K} (href : P.forward.Refined whole share Q.forward) (hinj : P.InjectsShares whole share Q)
    (hall : AllShared P.n Q.n whole share) (href' : P.backward.Refined whole share' Q.backward)
    (hprod : P.ProducesShares whole share' Q) (hall' : AllShared P.n Q.n whole share')
    (hpv : ∀ p < P.n, ∑ u ∈ range Q.n with whole u = p, Q.pv u = P.pv p) (hacy : P.forward.Acyclic) (hacy' : Q.forward.Acyclic)
    {istarts istarts' pstarts pstarts' : List CellSet} {S S' T T' : Solution (X K)}
    (hS : InjectionReturns g calls istarts (.ok S)) (hS' : InjectionReturns g' calls' istarts' (.ok S'))
    (hT : ProductionReturns g calls pstarts (.ok T)) (hT' : ProductionReturns g' calls' pstarts' (.ok T'))
    {i p : CellSetID} (hi : ∃ s ∈ istarts, s.id = i) (hi' : ∃ s ∈ istarts', s.id = i) (hp : ∃ s ∈ pstarts, s.id = p)
    (hp' : ∃ s ∈ pstarts', s.id = p) :
    pairVolume S' T' (arr Q.n Q.pv) i p = pairVolume S T (arr P.n P.pv) i p ∧
    pairFluxes S' T' i p Q.inflowMap = pairFluxes S T i p P.inflowMap := by
  have DS := diag_injection hP h hS
  have DS' := diag_injection hQ h' hS'
  have DT := diag_production hP h hT
  have DT' := diag_production hQ h' hT'
  have cS := C101_injection hP hQ h h' hi hi' href hinj hacy hacy' hS hS'
  have cT := C101_production hP hQ h h' hp hp' href' hprod hacy hacy' hT hT'
  have fib : ∀ a b : Nat → K, (∀ p < P.n, ∑ u ∈ range Q.n with whole u = p, a u = b p) → ∀ x : Nat → K,
      ∑ u ∈ range Q.n, a u * x (whole u) = ∑ p ∈ range P.n, b p * x p := by
    intro a b hab x
    have := href.fibers fun u => a u * x (whole u)
    refine this.trans (sum_congr rfl fun q hq => ?_)
    rw [← hab q (mem_range.mp hq), sum_mul]
    exact sum_congr rfl fun u hu => by rw [(mem_filter.mp hu).2]
  constructor
  · refine (C49_value (DS'.tracer i) (DT'.tracer p) Q.pv).trans (.trans ?_ (C49_value (DS.tracer i) (DT.tracer p) P.pv).symm)
    congr 2
    show ∑ v ∈ range Q.n, _ = ∑ v ∈ range P.n, _
    have := fib Q.pv P.pv hpv fun v => valueAt (S.concentration i) v * valueAt (T.concentration p) v
    simp only [mul_assoc]
    rw [← this]
    exact sum_congr rfl fun v hv => by rw [cS v (mem_range.mp hv), cT v (mem_range.mp hv)]
  · obtain ⟨s, hs, rfl⟩ := hi
    obtain ⟨s', hs', e⟩ := hi'
    obtain ⟨t, ht, rfl⟩ := hp
    obtain ⟨t', ht', e'⟩ := hp'
    obtain ⟨w, hw, ew, _⟩ := DS.known s hs
    obtain ⟨w', hw', ew', _⟩ := DS'.known s' hs'
    obtain ⟨y, hy, ey, _⟩ := DT.known t ht
    obtain ⟨y', hy', ey', _⟩ := DT'.known t' ht'
    have eP := C50_value hP hw hy (DS.tracer _) (DT.tracer _)
    have eQ := C50_value hQ hw' hy' (DS'.tracer _) (DT'.tracer _)
    have iw := more_pair hinj hQ.wells_sorted hw hw' (ew.trans (e.symm.trans ew'.symm))
    have iy := more_pair hprod hQ.wells_sorted hy hy' (ey.trans (e'.symm.trans ey'.symm))
    rw [ew, ey] at eP
    rw [ew', ey', e, e'] at eQ
    have f1 := fib (fun v => max (Problem.wellAt w' v) 0) (fun v => max (Problem.wellAt w v) 0) (fun q hq => by
      rw [sum_congr rfl fun u hu => by
        rw [iw u (mem_range.mp (mem_filter.mp hu).1), (mem_filter.mp hu).2], ← sum_mul, hall q hq, one_mul])
      fun v => valueAt (T.concentration t.id) v
    have f2 := fib (fun v => max (-Problem.wellAt y' v) 0) (fun v => max (-Problem.wellAt y v) 0) (fun q hq => by
      rw [sum_congr rfl fun u hu => by
        rw [iy u (mem_range.mp (mem_filter.mp hu).1), (mem_filter.mp hu).2], ← sum_mul, hall' q hq, one_mul])
      fun v => valueAt (S.concentration s.id) v
    rw [eP, eQ, ← f1, ← f2]
    have g1 : ∑ v ∈ range Q.n, max (Problem.wellAt w' v) 0 * valueAt (T'.concentration t.id) v
        = ∑ v ∈ range Q.n, max (Problem.wellAt w' v) 0 * valueAt (T.concentration t.id) (whole v) :=
      sum_congr rfl fun v hv => by rw [cT v (mem_range.mp hv)]
    have g2 : ∑ v ∈ range Q.n, max (-Problem.wellAt y' v) 0 * valueAt (S'.concentration s.id) v
        = ∑ v ∈ range Q.n, max (-Problem.wellAt y' v) 0 * valueAt (S.concentration s.id) (whole v) :=
      sum_congr rfl fun v hv => by rw [cS v (mem_range.mp hv)]
    rw [g1, g2]

section cyclic
variable {w w' : WellFlux K} (hw : w ∈ P.wells) (hw' : w' ∈ Q.wells) (hid : w.id = w'.id) (hs : ∃ s ∈ starts, s.id = w.id)
  (hs' : ∃ s ∈ starts', s.id = w'.id) (hself : ∀ v < P.n, ¬ P.forward.Loop v) (hself' : ∀ v < Q.n, ¬ Q.forward.Loop v)
include hw hw' hid hs hs' hself hself'

/-- **C101** (exact arithmetic, any cycles, no cell has a self-connection as its only cycle) The concentrations agree up to the
    tolerance of the solver, `1e-9` times what the flow carries when each cell adds the flux it gets from its own cycle. -/
theorem C101_injection_cyclic (href : P.forward.Refined whole share Q.forward) (hinj : P.InjectsShares whole share Q)
    (hret : InjectionReturns g calls starts (.ok sol)) (hret' : InjectionReturns g' calls' starts' (.ok sol')) {m m' : Nat → K}
    (hm : P.forward.Carries (posCells w) P.forward.cycleInflow m) (hm' : Q.forward.Carries (posCells w') Q.forward.cycleInflow m') :
    ∀ u < Q.n,
      valueAt (sol'.concentration w'.id) u ≤ valueAt (sol.concentration w.id) (whole u) + 1 / 1000000000 * m (whole u) ∧
      valueAt (sol.concentration w.id) (whole u) ≤ valueAt (sol'.concentration w'.id) u + 1 / 1000000000 * m' u :=
  (diag_injection hP h hret).refined (diag_injection hQ h' hret') href hinj.source hself hself' hw hw' hs hs'
    (hinj.well hQ hw hw' hid) hm hm'

/-- **C101** The same for production, in the reversed flow. -/
theorem C101_production_cyclic (href : P.backward.Refined whole share Q.backward) (hprod : P.ProducesShares whole share Q)
    (hret : ProductionReturns g calls starts (.ok sol)) (hret' : ProductionReturns g' calls' starts' (.ok sol')) {m m' : Nat → K}
    (hm : P.backward.Carries (negCells w) P.backward.cycleInflow m)
    (hm' : Q.backward.Carries (negCells w') Q.backward.cycleInflow m') :
    ∀ u < Q.n,
      valueAt (sol'.concentration w'.id) u ≤ valueAt (sol.concentration w.id) (whole u) + 1 / 1000000000 * m (whole u) ∧
      valueAt (sol.concentration w.id) (whole u) ≤ valueAt (sol'.concentration w'.id) u + 1 / 1000000000 * m' u :=
  (diag_production hP h hret).refined (diag_production hQ h' hret') href hprod.sink (backward_not_loop hself)
    (backward_not_loop hself') hw hw' hs hs' (hprod.well hQ hw hw' hid) hm hm'

end cyclic

end exact

/-! ### Doubles -/

section double

theorem Nearly.refined {F G : Flow ℚ} {wells wells' : List (WellFlux ℚ)} {cs : WellFlux ℚ → List Nat}
    {f : WellFlux ℚ → Nat → ℚ} {starts starts' : List CellSet} {sol sol' : Solution Double} {M : Nat} {whole : Nat → Nat}
    {share : Nat → ℚ} (N : Nearly F wells cs f starts sol M) (N' : Nearly G wells' cs f starts' sol' M)
    (h : F.Refined whole share G) (hsrc : ∀ v < G.n, G.src v = share v * F.src (whole v))
    (hself : ∀ v < F.n, ¬ F.Loop v) (hself' : ∀ v < G.n, ¬ G.Loop v) {w w' : WellFlux ℚ} (hw : w ∈ wells) (hw' : w' ∈ wells')
    (hs : ∃ s ∈ starts, s.id = w.id) (hs' : ∃ s ∈ starts', s.id = w'.id)
    (hin : ∀ v < G.n, injected (cs w') (f w') v = share v * injected (cs w) (f w) (whole v)) {m m' t t' : Nat → ℚ}
    (hm : F.Carries (cs w) F.cycleInflow m) (hm' : G.Carries (cs w') G.cycleInflow m') (ht : F.Carries (cs w) F.total t)
    (ht' : G.Carries (cs w') G.total t') :
    ∀ u < G.n, |doubleAt (sol'.concentration w'.id) u - doubleAt (sol.concentration w.id) (whole u)|
      ≤ 1 / 1000000000 * (m (whole u) + m' u) + ((4 * M + 6 : Nat) : ℚ) / 2 ^ 51 * (t (whole u) + t' u) := by
  obtain ⟨x, hx⟩ := (C76_exact N.valid (N.sources hw) (injected (cs w) (f w))).1
  obtain ⟨y, hy⟩ := (C76_exact N'.valid (N'.sources hw') (injected (cs w') (f w'))).1
  intro u hu
  have a := abs_le.mp (N.error hself hw hs hx hm ht (whole u) (h.cell u hu))
  have b := abs_le.mp (N'.error hself' hw' hs' hy hm' ht' u hu)
  have e := mul_add (((4 * M + 6 : Nat) : ℚ) / 2 ^ 51) (t (whole u)) (t' u)
  have c := h.same N.valid N'.valid hsrc N.side N'.side hw hw' hin hx hy u hu
  rw [abs_le]
  constructor <;> linarith

variable {P Q : Problem ℚ} {whole : Nat → Nat} {share : Nat → ℚ} (hP : P.Valid) (hQ : Q.Valid) {M : Nat} (hO : P.OfOrdinarySize M)
  (hO' : Q.OfOrdinarySize M) {g g' : ConnectivityGraph} {calls calls' : List (Call Double)}
  (h : P.StoredIn g calls) (h' : Q.StoredIn g' calls') (hself : ∀ v < P.n, ¬ P.forward.Loop v)
  (hself' : ∀ v < Q.n, ¬ Q.forward.Loop v) {w w' : WellFlux ℚ} (hw : w ∈ P.wells) (hw' : w' ∈ Q.wells) (hid : w.id = w'.id)
  {starts starts' : List CellSet} {sol sol' : Solution Double} (hs : ∃ s ∈ starts, s.id = w.id) (hs' : ∃ s ∈ starts', s.id = w'.id)
include hP hQ hO hO' h h' hself hself' hw hw' hid hs hs'

/-- **C101** (doubles, any cycles) The concentrations agree up to that tolerance and the rounding errors bounded in C80. -/
theorem C101_injection_double (href : P.forward.Refined whole share Q.forward) (hinj : P.InjectsShares whole share Q)
    (htotal : ∀ v < P.n, P.forward.total v ≤ 2 ^ 100) (htotal' : ∀ v < Q.n, Q.forward.total v ≤ 2 ^ 100)
    (hret : InjectionReturns g calls starts (.ok sol)) (hret' : InjectionReturns g' calls' starts' (.ok sol')) {m m' t t' : Nat → ℚ}
    (hm : P.forward.Carries (posCells w) P.forward.cycleInflow m) (hm' : Q.forward.Carries (posCells w') Q.forward.cycleInflow m')
    (ht : P.forward.Carries (posCells w) P.forward.total t) (ht' : Q.forward.Carries (posCells w') Q.forward.total t') :
    ∀ u < Q.n, |doubleAt (sol'.concentration w'.id) u - doubleAt (sol.concentration w.id) (whole u)|
      ≤ 1 / 1000000000 * (m (whole u) + m' u) + ((4 * M + 6 : Nat) : ℚ) / 2 ^ 51 * (t (whole u) + t' u) :=
  (nearly_injection hP hO htotal h hret).refined (nearly_injection hQ hO' htotal' h' hret') href hinj.source hself hself' hw hw'
    hs hs' (hinj.well hQ hw hw' hid) hm hm' ht ht'

/-- **C101** The same for production, in the reversed flow. -/
theorem C101_production_double (href : P.backward.Refined whole share Q.backward) (hprod : P.ProducesShares whole share Q)
    (htotal : ∀ v < P.n, P.backward.total v ≤ 2 ^ 100) (htotal' : ∀ v < Q.n, Q.backward.total v ≤ 2 ^ 100)
    (hret : ProductionReturns g calls starts (.ok sol)) (hret' : ProductionReturns g' calls' starts' (.ok sol'))
    {m m' t t' : Nat → ℚ} (hm : P.backward.Carries (negCells w) P.backward.cycleInflow m)
    (hm' : Q.backward.Carries (negCells w') Q.backward.cycleInflow m')
    (ht : P.backward.Carries (negCells w) P.backward.total t) (ht' : Q.backward.Carries (negCells w') Q.backward.total t') :
    ∀ u < Q.n, |doubleAt (sol'.concentration w'.id) u - doubleAt (sol.concentration w.id) (whole u)|
      ≤ 1 / 1000000000 * (m (whole u) + m' u) + ((4 * M + 6 : Nat) : ℚ) / 2 ^ 51 * (t (whole u) + t' u) :=
  (nearly_production hP hO htotal h hret).refined (nearly_production hQ hO' htotal' h' hret') href hprod.sink
    (backward_not_loop hself) (backward_not_loop hself') hw hw' hs hs' (hprod.well hQ hw hw' hid) hm hm' ht ht'

end double

/-! ### Two cells, divided in two parts each -/

/-- Well 65 injects in cell 0 and well 66 in cell 1, to which cell 0 flows; well 80 produces from cell 1. -/
def exCoarse : Problem ℚ where
  n := 2
  conns := [(0, 1)]
  nphase := 1
  phi _ _ := 2
  pv _ := 1
  wells := [⟨⟨[65]⟩, [0], fun _ => 2⟩, ⟨⟨[66]⟩, [1], fun _ => 1⟩, ⟨⟨[80]⟩, [1], fun _ => -3⟩]

/-- Cell 0 is divided in the parts 0 and 2 and cell 1 in the parts 1 and 3; part 1 gets the fraction `a` of what comes into cell 1. -/
def exFine (a : ℚ) : Problem ℚ where
  n := 4
  conns := [(0, 2), (2, 1), (2, 3), (1, 3)]
  nphase := 1
  phi c _ := if c = 0 then 2 else if c = 1 then 2 * a else if c = 2 then 2 * (1 - a) else 3 * a
  pv v := if v = 0 ∨ v = 2 then 1 / 2 else if v = 1 then 1 / 3 else 2 / 3
  wells := [⟨⟨[65]⟩, [0], fun _ => 2⟩, ⟨⟨[66]⟩, [1, 3], fun v => if v = 1 then a else 1 - a⟩, ⟨⟨[80]⟩, [3], fun _ => -3⟩]

/-- Where a part lies. -/
def exInCell (u : Nat) : Nat := u % 2

/-- The fractions of what comes into a cell that its parts get. -/
def exShare (a : ℚ) (u : Nat) : ℚ := if u = 0 then 1 else if u = 1 then a else if u = 3 then 1 - a else 0

/-- The fractions of what leaves a cell that leave its parts. -/
def exShareOut (u : Nat) : ℚ := if u = 2 ∨ u = 3 then 1 else 0

theorem exInCell_sum (x : Nat → ℚ) {p : Nat} (hp : p < 2) : ∑ u ∈ range 4 with exInCell u = p, x u = x p + x (p + 2) := by
  rw [Finset.sum_filter]
  simp only [sum_range_succ, sum_range_zero, exInCell]
  interval_cases p <;> simp

theorem exCoarse_valid : exCoarse.Valid where
  int := by decide
  pos := by decide
  some_connection := by decide
  range := by decide
  pv v _ := by show (0 : ℚ) ≤ 1; norm_num
  wells_sorted := by unfold exCoarse; simp; decide
  cells_sorted := by unfold exCoarse; simp
  cells_range := by unfold exCoarse; simp

theorem exFine_valid (a : ℚ) : (exFine a).Valid where
  int := by show 4 ≤ INT_MAX; decide
  pos := by show 0 < 4; decide
  some_connection := by unfold exFine; simp
  range := by unfold exFine; simp
  pv v _ := by unfold exFine; simp only; split_ifs <;> norm_num
  wells_sorted := by unfold exFine; simp; decide
  cells_sorted := by unfold exFine; simp
  cells_range := by unfold exFine; simp

theorem exCoarse_flux (u v : Nat) : exCoarse.flux u v = if u = 0 ∧ v = 1 then 2 else 0 := by
  have n1 : exCoarse.conns = [(0, 1)] := rfl
  have n2 : ∀ c, exCoarse.net c = 2 := fun c => by unfold Problem.net exCoarse; simp
  unfold Problem.flux Problem.carried
  rw [n1]
  simp only [List.length_cons, List.length_nil, sum_range_succ, sum_range_zero, n2]
  simp [eq_comm]

theorem exFine_flux {a : ℚ} (h0 : 0 ≤ a) (h1 : a ≤ 1) (u v : Nat) : (exFine a).flux u v =
    if u = 0 ∧ v = 2 then 2 else if u = 2 ∧ v = 1 then 2 * a else if u = 2 ∧ v = 3 then 2 * (1 - a) else
    if u = 1 ∧ v = 3 then 3 * a else 0 := by
  have n1 : (exFine a).conns = [(0, 2), (2, 1), (2, 3), (1, 3)] := rfl
  have n2 : ∀ c, (exFine a).net c = if c = 0 then 2 else if c = 1 then 2 * a else if c = 2 then 2 * (1 - a) else 3 * a := fun c => by
    unfold Problem.net exFine; simp
  have p1 : 0 ≤ 2 * a := by linarith
  have p2 : 0 ≤ 2 * (1 - a) := by linarith
  have p3 : 0 ≤ 3 * a := by linarith
  have q1 := neg_nonpos.mpr p1
  have q2 := neg_nonpos.mpr p2
  have q3 := neg_nonpos.mpr p3
  unfold Problem.flux Problem.carried
  rw [n1]
  simp only [List.length_cons, List.length_nil, sum_range_succ, sum_range_zero, n2]
  by_cases hu : u < 4
  · by_cases hv : v < 4
    · interval_cases u <;> interval_cases v <;> simp [p1, p2, p3, q1, q2, q3]
    · have : v ≠ 0 ∧ v ≠ 1 ∧ v ≠ 2 ∧ v ≠ 3 := by omega
      simp [this.2.1, this.2.2.1, this.2.2.2, this.1.symm, this.2.1.symm, this.2.2.1.symm, this.2.2.2.symm]
  · have : u ≠ 0 ∧ u ≠ 1 ∧ u ≠ 2 ∧ u ≠ 3 := by omega
    simp [this.1, this.2.1, this.2.2.1, this.1.symm, this.2.1.symm, this.2.2.1.symm, this.2.2.2.symm]

theorem exCoarse_acyclic : exCoarse.forward.Acyclic := by
  refine levels_acyclic (level := fun v => v) fun u v ⟨_, _, h⟩ => ?_
  simp only [Problem.forward, exCoarse_flux] at h
  split at h
  · show u < v; omega
  · exact absurd h (lt_irrefl _)

theorem exFine_acyclic {a : ℚ} (h0 : 0 ≤ a) (h1 : a ≤ 1) : (exFine a).forward.Acyclic := by
  refine levels_acyclic (level := fun v => if v = 0 then 0 else if v = 2 then 1 else if v = 1 then 2 else 3) fun u v ⟨hu, hv, h⟩ => ?_
  simp only [Problem.forward, exFine_flux h0 h1] at h
  split_ifs at h with c1 c2 c3 c4
  · rw [c1.1, c1.2]; decide
  · rw [c2.1, c2.2]; decide
  · rw [c3.1, c3.2]; decide
  · rw [c4.1, c4.2]; decide
  · exact absurd h (lt_irrefl _)

theorem exFine_refined {a : ℚ} (h0 : 0 < a) (h1 : a ≤ 1) :
    exCoarse.forward.Refined exInCell (exShare a) (exFine a).forward ∧
    exCoarse.backward.Refined exInCell exShareOut (exFine a).backward := by
  have e02 : (exFine a).forward.Edge 0 2 := ⟨by show 0 < 4; decide, by show 2 < 4; decide, by
    show 0 < (exFine a).flux 0 2; rw [exFine_flux h0.le h1]; norm_num⟩
  have e13 : (exFine a).forward.Edge 1 3 := ⟨by show 1 < 4; decide, by show 3 < 4; decide, by
    show 0 < (exFine a).flux 1 3; rw [exFine_flux h0.le h1]; simp [h0]⟩
  constructor
  · refine ⟨fun u _ => Nat.mod_lt _ (by decide), fun u _ => ?_, fun v hv p hp hne => ?_, fun u hu => ?_⟩
    · unfold exShare; split_ifs <;> linarith
    · change v < 4 at hv
      change p < 2 at hp
      simp only [Problem.forward, exFine_flux h0.le h1, exCoarse_flux]
      rw [show (exFine a).n = 4 from rfl, exInCell_sum _ hp]
      revert hne
      simp only [exInCell, exShare]
      interval_cases v <;> interval_cases p <;> simp <;> ring
    · change u < 4 at hu
      have b0 : 0 < (exFine a).forward.n := by show 0 < 4; decide
      have b1 : 1 < (exFine a).forward.n := by show 1 < 4; decide
      interval_cases u
      · exact ⟨0, b0, rfl, by simp [exShare], .refl⟩
      · exact ⟨1, b1, rfl, by simp [exShare, h0], .refl⟩
      · exact ⟨0, b0, rfl, by simp [exShare], .single e02⟩
      · exact ⟨1, b1, rfl, by simp [exShare, h0], .single e13⟩
  · refine ⟨fun u _ => Nat.mod_lt _ (by decide), fun u _ => ?_, fun v hv p hp hne => ?_, fun u hu => ?_⟩
    · unfold exShareOut; split_ifs <;> norm_num
    · change v < 4 at hv
      change p < 2 at hp
      simp only [Problem.backward, exFine_flux h0.le h1, exCoarse_flux]
      rw [show (exFine a).n = 4 from rfl, exInCell_sum _ hp]
      revert hne
      simp only [exInCell, exShareOut]
      interval_cases v <;> interval_cases p <;> simp <;> ring
    · change u < 4 at hu
      have b2 : 2 < (exFine a).backward.n := by show 2 < 4; decide
      have b3 : 3 < (exFine a).backward.n := by show 3 < 4; decide
      interval_cases u
      · exact ⟨2, b2, rfl, by simp [exShareOut], .single ⟨e02.2.1, e02.1, e02.2.2⟩⟩
      · exact ⟨3, b3, rfl, by simp [exShareOut], .single ⟨e13.2.1, e13.1, e13.2.2⟩⟩
      · exact ⟨2, b2, rfl, by simp [exShareOut], .refl⟩
      · exact ⟨3, b3, rfl, by simp [exShareOut], .refl⟩

theorem exFine_shares {a : ℚ} (h0 : 0 < a) (h1 : a ≤ 1) :
    exCoarse.InjectsShares exInCell (exShare a) (exFine a) ∧ exCoarse.ProducesShares exInCell exShareOut (exFine a) ∧
    AllShared exCoarse.n (exFine a).n exInCell (exShare a) ∧ AllShared exCoarse.n (exFine a).n exInCell exShareOut ∧
    ∀ p < exCoarse.n, ∑ u ∈ range (exFine a).n with exInCell u = p, (exFine a).pv u = exCoarse.pv p := by
  have ha : 0 ≤ 1 - a := by linarith
  refine ⟨?_, ?_, fun p hp => ?_, fun p hp => ?_, fun p hp => ?_⟩
  · refine .cons ⟨rfl, fun v hv => ?_⟩ (.cons ⟨rfl, fun v hv => ?_⟩ (.cons ⟨rfl, fun v hv => ?_⟩ .nil)) <;>
      change v < 4 at hv <;> interval_cases v <;> simp [Problem.wellAt, exInCell, exShare, h0.le, h1]
  · refine .cons ⟨rfl, fun v hv => ?_⟩ (.cons ⟨rfl, fun v hv => ?_⟩ (.cons ⟨rfl, fun v hv => ?_⟩ .nil)) <;>
      change v < 4 at hv <;> interval_cases v <;> simp [Problem.wellAt, exInCell, exShareOut, h0.le, h1]
  · change p < 2 at hp
    rw [show (exFine a).n = 4 from rfl, exInCell_sum _ hp]
    simp only [exShare]
    interval_cases p <;> simp
  · change p < 2 at hp
    rw [show (exFine a).n = 4 from rfl, exInCell_sum _ hp]
    simp only [exShareOut]
    interval_cases p <;> simp
  · change p < 2 at hp
    rw [show (exFine a).n = 4 from rfl, exInCell_sum _ hp]
    simp only [exFine, exCoarse]
    interval_cases p <;> norm_num

theorem exFine_outlet {a : ℚ} (h0 : 0 < a) (h1 : a ≤ 1) :
    exCoarse.forward.OneOutlet exInCell (fun p => p + 2) (exFine a).forward := by
  refine ⟨fun p hp => ?_, fun u hu v hv => ?_, fun u hu => ?_, fun v hv => ?_⟩
  · change p < 2 at hp
    exact ⟨by show p + 2 < 4; omega, by unfold exInCell; omega⟩
  · change u < 4 at hu
    change v < 4 at hv
    simp only [Problem.forward, exFine_flux h0.le h1, exInCell]
    interval_cases u <;> interval_cases v <;> simp
  · change u < 4 at hu
    unfold Flow.total Flow.inflow
    simp only [Problem.forward, exFine_flux h0.le h1]
    rw [show (exFine a).n = 4 from rfl, exInCell_sum (p := exInCell u) _ (Nat.mod_lt _ (by decide))]
    simp only [exInCell, exFine, Problem.source, Problem.wellAt]
    interval_cases u <;> simp [sum_range_succ, max_eq_left h0.le] <;> linarith
  · change v < 4 at hv
    simp only [Problem.forward, exFine_flux h0.le h1, exInCell]
    interval_cases v <;> simp

/-- If everything comes into cell 1 through part 1, then in the reversed flow everything leaves it there. -/
theorem exFine_inlet : exCoarse.backward.OneOutlet exInCell (fun p => p) (exFine 1).backward := by
  refine ⟨fun p hp => ?_, fun u hu v hv => ?_, fun u hu => ?_, fun v hv => ?_⟩
  · change p < 2 at hp
    exact ⟨by show p < 4; omega, by unfold exInCell; omega⟩
  · change u < 4 at hu
    change v < 4 at hv
    simp only [Problem.backward, exFine_flux one_pos.le le_rfl, exInCell]
    interval_cases u <;> interval_cases v <;> simp
  · change u < 4 at hu
    unfold Flow.total Flow.inflow
    simp only [Problem.backward, exFine_flux one_pos.le le_rfl]
    rw [show (exFine 1).n = 4 from rfl, exInCell_sum (p := exInCell u) _ (Nat.mod_lt _ (by decide))]
    simp only [exInCell, exFine, Problem.sink, Problem.wellAt]
    interval_cases u <;> simp
  · change v < 4 at hv
    simp only [Problem.backward, exFine_flux one_pos.le le_rfl, exInCell]
    interval_cases v <;> simp

theorem exCoarse_total : ∀ v < 2, 1 ≤ exCoarse.forward.total v ∧ 1 ≤ exCoarse.backward.total v := by
  intro v hv
  unfold Flow.total Flow.inflow
  simp only [Problem.forward, Problem.backward, exCoarse_flux]
  simp only [exCoarse, Problem.source, Problem.sink, Problem.wellAt]
  interval_cases v <;> simp

theorem exFine_total {a : ℚ} (h0 : 1 / 3 ≤ a) (h1 : a ≤ 1) : ∀ v < 4,
    1 ≤ (exFine a).forward.total v ∧ 1 ≤ (exFine a).backward.total v := by
  intro v hv
  have h0' : 0 ≤ a := by linarith
  unfold Flow.total Flow.inflow
  simp only [Problem.forward, Problem.backward, exFine_flux h0' h1]
  simp only [exFine, Problem.source, Problem.sink, Problem.wellAt]
  have ha : 0 ≤ 1 - a := by linarith
  have hb := le_max_right (a - 1) 0
  have hd := le_max_right (-a) 0
  interval_cases v <;> simp [sum_range_succ, max_eq_left h0', max_eq_left ha] <;> (try constructor) <;> linarith

theorem exCoarse_accepted : InjectionAccepts exCoarse.inflowMap [⟨⟨[65]⟩, []⟩, ⟨⟨[66]⟩, []⟩] ∧
    ProductionAccepts exCoarse.inflowMap [⟨⟨[80]⟩, []⟩] := by
  have ip : ∀ x : ℚ, 0 < x → Arith.lt Arith.zero (X.fin x) = true := by
    intro x hx; rw [X_zero, X_lt]; simpa using hx
  have ineg : ∀ x : ℚ, x < 0 → IsNegative (X.fin x) := by
    intro x hx; unfold IsNegative; rw [X_zero, X_lt, X_lt]; simp; exact ⟨hx, hx.le⟩
  constructor
  · intro s hs
    simp only [List.mem_cons, List.not_mem_nil, or_false] at hs
    rcases hs with rfl | rfl
    · exact ⟨⟨_, .head _, rfl, _, .head _, ip 2 (by norm_num)⟩, by intro c hc; simp [CellSet.cells] at hc⟩
    · exact ⟨⟨_, .tail _ (.head _), rfl, _, .head _, ip 1 (by norm_num)⟩, by intro c hc; simp [CellSet.cells] at hc⟩
  · intro s hs
    simp only [List.mem_cons, List.not_mem_nil, or_false] at hs
    subst hs
    exact ⟨⟨_, .tail _ (.tail _ (.head _)), rfl, _, .head _, ineg (-3) (by norm_num)⟩, by intro c hc; simp [CellSet.cells] at hc⟩

theorem exFine_accepted {a : ℚ} (h0 : 0 < a) : InjectionAccepts (exFine a).inflowMap [⟨⟨[65]⟩, []⟩, ⟨⟨[66]⟩, []⟩] ∧
    ProductionAccepts (exFine a).inflowMap [⟨⟨[80]⟩, []⟩] := by
  have ip : ∀ x : ℚ, 0 < x → Arith.lt Arith.zero (X.fin x) = true := by
    intro x hx; rw [X_zero, X_lt]; simpa using hx
  have ineg : ∀ x : ℚ, x < 0 → IsNegative (X.fin x) := by
    intro x hx; unfold IsNegative; rw [X_zero, X_lt, X_lt]; simp; exact ⟨hx, hx.le⟩
  constructor
  · intro s hs
    simp only [List.mem_cons, List.not_mem_nil, or_false] at hs
    rcases hs with rfl | rfl
    · exact ⟨⟨_, .head _, rfl, _, .head _, ip 2 (by norm_num)⟩, by intro c hc; simp [CellSet.cells] at hc⟩
    · exact ⟨⟨_, .tail _ (.head _), rfl, _, .head _, ip a h0⟩, by intro c hc; simp [CellSet.cells] at hc⟩
  · intro s hs
    simp only [List.mem_cons, List.not_mem_nil, or_false] at hs
    subst hs
    exact ⟨⟨_, .tail _ (.tail _ (.head _)), rfl, _, .head _, ineg (-3) (by norm_num)⟩, by intro c hc; simp [CellSet.cells] at hc⟩

theorem exFine_fast {a : ℚ} (h0 : 1 / 3 ≤ a) (h1 : a ≤ 1) : (∀ q < 2, ¬ exCoarse.forward.Slow q ∧ ¬ exCoarse.backward.Slow q) ∧
    ∀ u < 4, ¬ (exFine a).forward.Slow u ∧ ¬ (exFine a).backward.Slow u := by
  have hc : (1 : ℚ) / cap ≤ 1 := by unfold cap; norm_num
  have hcap : (0 : ℚ) < cap := by unfold cap; norm_num
  have hpv : ∀ u, (exFine a).pv u / cap ≤ 1 / cap := fun u => div_le_div_of_nonneg_right (by
    unfold exFine; simp only; split_ifs <;> norm_num) hcap.le
  refine ⟨fun q hq => ⟨fun h => ?_, fun h => ?_⟩, fun u hu => ⟨fun h => ?_, fun h => ?_⟩⟩
  · exact absurd (lt_of_lt_of_le h hc) (not_lt.mpr (exCoarse_total q hq).1)
  · exact absurd (lt_of_lt_of_le h hc) (not_lt.mpr (exCoarse_total q hq).2)
  · exact absurd (lt_of_lt_of_le h ((hpv u).trans hc)) (not_lt.mpr (exFine_total h0 h1 u hu).1)
  · exact absurd (lt_of_lt_of_le h ((hpv u).trans hc)) (not_lt.mpr (exFine_total h0 h1 u hu).2)

/-- C101: all hypotheses hold, whether a third of what comes into cell 1 comes into part 1 or everything does. -/
example {a : ℚ} (ha : a = 1 / 3 ∨ a = 1) : ∃ g calls g' calls' S S' T T', exCoarse.GivenTo g calls ∧ (exFine a).GivenTo g' calls' ∧
    InjectionReturns g calls [⟨⟨[65]⟩, []⟩, ⟨⟨[66]⟩, []⟩] (.ok S) ∧ InjectionReturns g' calls' [⟨⟨[65]⟩, []⟩, ⟨⟨[66]⟩, []⟩] (.ok S') ∧
    ProductionReturns g calls [⟨⟨[80]⟩, []⟩] (.ok T) ∧ ProductionReturns g' calls' [⟨⟨[80]⟩, []⟩] (.ok T') ∧
    valueAt (S'.concentration ⟨[66]⟩) 3 = valueAt (S.concentration ⟨[66]⟩) 1 ∧
    valueAt (T'.concentration ⟨[80]⟩) 2 = valueAt (T.concentration ⟨[80]⟩) 0 ∧
    fieldAt S'.timeOfFlight 3 = fieldAt S.timeOfFlight 1 ∧
    valueAt (S'.timeOfFlightOf ⟨[65]⟩) 3 = valueAt (S.timeOfFlightOf ⟨[65]⟩) 1 ∧
    (a = 1 → fieldAt T'.timeOfFlight 0 = fieldAt T.timeOfFlight 0 ∧
      valueAt (T'.timeOfFlightOf ⟨[80]⟩) 0 = valueAt (T.timeOfFlightOf ⟨[80]⟩) 0) ∧
    pairVolume S' T' (arr 4 (exFine a).pv) ⟨[65]⟩ ⟨[80]⟩ = pairVolume S T (arr 2 exCoarse.pv) ⟨[65]⟩ ⟨[80]⟩ ∧
    pairFluxes S' T' ⟨[65]⟩ ⟨[80]⟩ (exFine a).inflowMap = pairFluxes S T ⟨[65]⟩ ⟨[80]⟩ exCoarse.inflowMap := by
  have h3 : 1 / 3 ≤ a := by rcases ha with rfl | rfl <;> norm_num
  have h0 : 0 < a := by linarith
  have h1 : a ≤ 1 := by rcases ha with rfl | rfl <;> norm_num
  have V := exCoarse_valid
  have V' := exFine_valid a
  obtain ⟨g, calls, h⟩ := exists_given V (by decide)
  obtain ⟨g', calls', h'⟩ := exists_given V' (by unfold exFine; simp; decide)
  obtain ⟨S, hS⟩ := (C40_valid_problem V h _).1 exCoarse_accepted.1
  obtain ⟨T, hT⟩ := (C40_valid_problem V h _).2.2.1 exCoarse_accepted.2
  obtain ⟨S', hS'⟩ := (C40_valid_problem V' h' _).1 (exFine_accepted h0).1
  obtain ⟨T', hT'⟩ := (C40_valid_problem V' h' _).2.2.1 (exFine_accepted h0).2
  obtain ⟨r1, r2⟩ := exFine_refined h0 h1
  obtain ⟨s1, s2, s3, s4, s5⟩ := exFine_shares h0 h1
  obtain ⟨f1, f2⟩ := exFine_fast h3 h1
  have acy := exCoarse_acyclic
  have acy' := exFine_acyclic h0.le h1
  have hlt : ∀ {u v}, v < 2 → exCoarse.forward.Reach u v → u < 2 := by
    intro u v hv hr
    rcases Relation.ReflTransGen.cases_head hr with rfl | ⟨_, e, _⟩
    · exact hv
    · exact e.1
  have hlt' : ∀ {u v}, v < 2 → exCoarse.forward.Reach v u → u < 2 := by
    intro u v hv hr
    rcases Relation.ReflTransGen.cases_tail hr with rfl | ⟨_, _, e⟩
    · exact hv
    · exact e.2.1
  have time := C101_time_injection V V' h h' (i := ⟨[65]⟩) ⟨_, .head _, rfl⟩ ⟨_, .head _, rfl⟩ s3 s5 (p := 1) (by decide) r1 s1 acy acy'
    (exFine_outlet h0 h1) hS hS' fun q hq => ⟨(f1 q (hlt (by decide) hq)).1, fun u hu _ => (f2 u hu).1⟩
  have pairs := C101_pairs V V' h h' r1 s1 s3 r2 s2 s4 s5 acy acy' hS hS' hT hT' (i := ⟨[65]⟩) (p := ⟨[80]⟩) ⟨_, .head _, rfl⟩
    ⟨_, .head _, rfl⟩ ⟨_, .head _, rfl⟩ ⟨_, .head _, rfl⟩
  refine ⟨g, calls, g', calls', S, S', T, T', h, h', hS, hS', hT, hT', ?_, ?_, time.1, time.2, fun e => ?_, pairs.1, pairs.2⟩
  · exact C101_injection V V' h h' (i := ⟨[66]⟩) ⟨_, .tail _ (.head _), rfl⟩ ⟨_, .tail _ (.head _), rfl⟩ r1 s1 acy acy' hS hS' 3
      (by show 3 < 4; decide)
  · exact C101_production V V' h h' (i := ⟨[80]⟩) ⟨_, .head _, rfl⟩ ⟨_, .head _, rfl⟩ r2 s2 acy acy' hT hT' 2 (by show 2 < 4; decide)
  · subst e
    exact C101_time_production V V' h h' (i := ⟨[80]⟩) ⟨_, .head _, rfl⟩ ⟨_, .head _, rfl⟩ s4 s5 (p := 0) (by decide) r2 s2 acy acy'
      exFine_inlet hT hT' fun q hq => ⟨(f1 q (hlt' (by decide) hq)).2, fun u hu _ => (f2 u hu).2⟩

/-! ### A cycle -/

/-- `exWhirl` with cell 2 divided in the parts 2 and 4. -/
def exWhirlFine : Problem ℚ where
  n := 5
  conns := [(0, 1), (1, 2), (2, 4), (4, 3), (3, 1)]
  nphase := 1
  phi c _ := if c = 0 then 2 else if c = 4 then 1 else 3
  pv _ := 1
  wells := [⟨⟨[65]⟩, [0], fun _ => 2⟩, ⟨⟨[80]⟩, [3], fun _ => -2⟩]

def whirlWhole (u : Nat) : Nat := if u = 4 then 2 else u
def whirlShare (u : Nat) : ℚ := if u = 4 then 0 else 1
def whirlShareOut (u : Nat) : ℚ := if u = 2 then 0 else 1

theorem whirlFine_valid : exWhirlFine.Valid where
  int := by decide
  pos := by decide
  some_connection := by decide
  range := by decide
  pv v _ := by show (0 : ℚ) ≤ 1; norm_num
  wells_sorted := by unfold exWhirlFine; simp; decide
  cells_sorted := by unfold exWhirlFine; simp
  cells_range := by unfold exWhirlFine; simp

theorem whirlFine_flux : ∀ u < 5, ∀ v < 5, exWhirlFine.flux u v =
    if u = 0 ∧ v = 1 then 2 else if u = 1 ∧ v = 2 ∨ u = 2 ∧ v = 4 ∨ u = 4 ∧ v = 3 then 3 else if u = 3 ∧ v = 1 then 1 else 0 := by
  intro u hu v hv
  have n2 : ∀ c, exWhirlFine.net c = if c = 0 then 2 else if c = 4 then 1 else 3 := fun c => by unfold Problem.net exWhirlFine; simp
  unfold Problem.flux Problem.carried
  rw [show exWhirlFine.conns = [(0, 1), (1, 2), (2, 4), (4, 3), (3, 1)] from rfl]
  simp only [List.length_cons, List.length_nil, sum_range_succ, sum_range_zero, n2]
  interval_cases u <;> interval_cases v <;> simp

theorem whirlCoarse_flux : ∀ u < 4, ∀ v < 4, exWhirl.flux u v =
    if u = 0 ∧ v = 1 then 2 else if u = 1 ∧ v = 2 ∨ u = 2 ∧ v = 3 then 3 else if u = 3 ∧ v = 1 then 1 else 0 := by
  intro u hu v hv
  unfold Problem.flux Problem.carried
  rw [show exWhirl.conns = [(0, 1), (1, 2), (2, 3), (3, 1)] from rfl]
  simp only [List.length_cons, List.length_nil, sum_range_succ, sum_range_zero, whirl_net]
  interval_cases u <;> interval_cases v <;> simp

theorem whirlFine_parts (x : Nat → ℚ) {p : Nat} (hp : p < 4) :
    ∑ u ∈ range 5 with whirlWhole u = p, x u = x p + if p = 2 then x 4 else 0 := by
  rw [Finset.sum_filter]
  simp only [sum_range_succ, sum_range_zero, whirlWhole]
  interval_cases p <;> simp

theorem whirlFine_refined : exWhirl.forward.Refined whirlWhole whirlShare exWhirlFine.forward ∧
    exWhirl.backward.Refined whirlWhole whirlShareOut exWhirlFine.backward := by
  have e24 : exWhirlFine.forward.Edge 2 4 := ⟨by decide, by decide, by
    show 0 < exWhirlFine.flux 2 4; rw [whirlFine_flux 2 (by decide) 4 (by decide)]; norm_num⟩
  have hcell : ∀ u < 5, whirlWhole u < 4 := by decide
  constructor
  · refine ⟨hcell, fun u _ => ?_, fun v hv p hp hne => ?_, fun u hu => ?_⟩
    · unfold whirlShare; split_ifs <;> norm_num
    · change v < 5 at hv
      change p < 4 at hp
      have e : ∀ u < 5, exWhirlFine.forward.w u v = exWhirlFine.flux u v := fun _ _ => rfl
      rw [show exWhirlFine.forward.n = 5 from rfl, whirlFine_parts _ hp, e p (by omega), e 4 (by omega),
        whirlFine_flux p (by omega) v hv, whirlFine_flux 4 (by omega) v hv,
        show exWhirl.forward.w p (whirlWhole v) = exWhirl.flux p (whirlWhole v) from rfl, whirlCoarse_flux p hp _ (hcell v hv)]
      revert hne
      simp only [whirlWhole, whirlShare]
      interval_cases v <;> interval_cases p <;> simp
    · change u < 5 at hu
      by_cases h4 : u = 4
      · subst h4
        exact ⟨2, by decide, rfl, by simp [whirlShare], .single e24⟩
      · exact ⟨u, hu, rfl, by simp [whirlShare, h4], .refl⟩
  · refine ⟨hcell, fun u _ => ?_, fun v hv p hp hne => ?_, fun u hu => ?_⟩
    · unfold whirlShareOut; split_ifs <;> norm_num
    · change v < 5 at hv
      change p < 4 at hp
      have e : ∀ u < 5, exWhirlFine.backward.w u v = exWhirlFine.flux v u := fun _ _ => rfl
      rw [show exWhirlFine.backward.n = 5 from rfl, whirlFine_parts _ hp, e p (by omega), e 4 (by omega),
        whirlFine_flux v hv p (by omega), whirlFine_flux v hv 4 (by omega),
        show exWhirl.backward.w p (whirlWhole v) = exWhirl.flux (whirlWhole v) p from rfl, whirlCoarse_flux _ (hcell v hv) p hp]
      revert hne
      simp only [whirlWhole, whirlShareOut]
      interval_cases v <;> interval_cases p <;> simp
    · change u < 5 at hu
      by_cases h2 : u = 2
      · subst h2
        exact ⟨4, by decide, rfl, by simp [whirlShareOut], .single ⟨e24.2.1, e24.1, e24.2.2⟩⟩
      · exact ⟨u, hu, rfl, by simp [whirlShareOut, h2], .refl⟩

theorem whirlFine_shares : exWhirl.InjectsShares whirlWhole whirlShare exWhirlFine ∧
    exWhirl.ProducesShares whirlWhole whirlShareOut exWhirlFine := by
  constructor <;>
  · refine .cons ⟨rfl, fun v hv => ?_⟩ (.cons ⟨rfl, fun v hv => ?_⟩ .nil) <;>
      change v < 5 at hv <;> interval_cases v <;> simp [Problem.wellAt, whirlWhole, whirlShare, whirlShareOut]

theorem whirlFine_noLoop : ∀ v < exWhirlFine.n, ¬ exWhirlFine.forward.Loop v := by
  intro v hv hl
  change v < 5 at hv
  refine hl.1 ?_
  show exWhirlFine.flux v v = 0
  rw [whirlFine_flux v hv v hv]
  interval_cases v <;> simp

def whirlFineGraph : ConnectivityGraph := ⟨5, [0, 1, 1, 2, 2, 4, 4, 3, 3, 1]⟩

def whirlFineCalls : List (Call Double) :=
  [.assignPoreVolume [Arith.lit 1, Arith.lit 1, Arith.lit 1, Arith.lit 1, Arith.lit 1],
   .assignConnectionFlux ⟨5, 1, [Arith.lit 2, Arith.lit 3, Arith.lit 3, Arith.lit 3, Arith.lit 1]⟩,
   .assignInflowFlux [(⟨[65]⟩, [(0, Arith.lit 2)]), (⟨[80]⟩, [(3, Arith.lit (-2))])]]

theorem whirlFine_net (c : Nat) : exWhirlFine.net c = if c = 0 then 2 else if c = 4 then 1 else 3 := by
  unfold Problem.net exWhirlFine; simp

theorem whirlFine_stored : exWhirlFine.StoredIn whirlFineGraph whirlFineCalls where
  graph := {
    cells := rfl
    count := rfl
    connection := by
      intro i hi
      have hi : i < 5 := hi
      interval_cases i <;> rfl }
  pv := ⟨_, rfl, by decide +kernel⟩
  flux := by
    refine ⟨1, fun c _ => if c = 0 then Arith.lit 2 else if c = 4 then Arith.lit 1 else Arith.lit 3, ⟨_, rfl, rfl, rfl, ?_⟩, ?_⟩
    · intro c hc p hp
      have hp : p = 0 := by omega
      subst hp
      have hc : c < 5 := hc
      interval_cases c <;> rfl
    · intro c hc
      have hc : c < 5 := hc
      rw [whirlFine_net]
      interval_cases c <;> decide +kernel
  inflow := by decide +kernel

theorem whirlFine_ordinary : exWhirlFine.OfOrdinarySize 5 where
  flux c _ := by
    rw [whirlFine_net]
    right
    split <;> [norm_num; split <;> norm_num]
  well w hw v hv := by
    simp only [exWhirlFine, List.mem_cons, List.not_mem_nil, or_false] at hw
    right
    rcases hw with rfl | rfl <;> norm_num
  pv v _ := by
    right
    unfold exWhirlFine
    norm_num
  degree v := (List.length_filter_le _ _).trans (by decide)
  wells v := (List.length_filter_le _ _).trans (by decide)
  bound := by norm_num

theorem whirl_ordinary_five : exWhirl.OfOrdinarySize 5 where
  flux := whirl_ordinary.flux
  well := whirl_ordinary.well
  pv := whirl_ordinary.pv
  degree v := (whirl_ordinary.degree v).trans (by decide)
  wells v := (whirl_ordinary.wells v).trans (by decide)
  bound := by norm_num

theorem whirlFine_total : (∀ v < exWhirlFine.n, exWhirlFine.forward.total v ≤ 2 ^ 100) ∧
    ∀ v < exWhirlFine.n, exWhirlFine.backward.total v ≤ 2 ^ 100 := by
  constructor
  · intro v hv
    have hv : v < 5 := hv
    unfold Flow.total Flow.inflow
    simp only [Problem.forward]
    interval_cases v <;>
      simp [exWhirlFine, Finset.sum_range_succ, Problem.source, Problem.wellAt, Problem.flux, Problem.carried, Problem.net] <;> norm_num
  · intro v hv
    have hv : v < 5 := hv
    unfold Flow.total Flow.inflow
    simp only [Problem.backward]
    interval_cases v <;>
      simp [exWhirlFine, Finset.sum_range_succ, Problem.sink, Problem.wellAt, Problem.flux, Problem.carried, Problem.net] <;> norm_num

set_option maxRecDepth 100000 in
theorem whirlFine_injection : ∃ S, InjectionReturns whirlFineGraph whirlFineCalls [CellSet.ofCells ⟨[65]⟩ [0]] (.ok S) := by
  obtain ⟨S, hS⟩ := isOk_spec
    (show isOk (injectionOutcome whirlFineGraph whirlFineCalls noFailure 100 [CellSet.ofCells ⟨[65]⟩ [0]]) = true by decide +kernel)
  exact ⟨S, (Fuel.injection_returns.mpr ⟨100, hS, by simp⟩).1⟩

set_option maxRecDepth 100000 in
theorem whirlFine_production : ∃ S, ProductionReturns whirlFineGraph whirlFineCalls [CellSet.ofCells ⟨[80]⟩ [3]] (.ok S) := by
  obtain ⟨S, hS⟩ := isOk_spec
    (show isOk (productionOutcome whirlFineGraph whirlFineCalls noFailure 100 [CellSet.ofCells ⟨[80]⟩ [3]]) = true by decide +kernel)
  exact ⟨S, (Fuel.production_returns.mpr ⟨100, hS, by simp⟩).1⟩

/-- C101 with a cycle, with `double`s: a cell on the cycle is divided in two. -/
example : ∃ S T S' T', InjectionReturns whirlGraph whirlCalls [CellSet.ofCells ⟨[65]⟩ [0]] (.ok S) ∧
    ProductionReturns whirlGraph whirlCalls [CellSet.ofCells ⟨[80]⟩ [3]] (.ok T) ∧
    InjectionReturns whirlFineGraph whirlFineCalls [CellSet.ofCells ⟨[65]⟩ [0]] (.ok S') ∧
    ProductionReturns whirlFineGraph whirlFineCalls [CellSet.ofCells ⟨[80]⟩ [3]] (.ok T') ∧
    (∀ m m' t t', exWhirl.forward.Carries (posCells ⟨⟨[65]⟩, [0], fun _ => (2 : ℚ)⟩) exWhirl.forward.cycleInflow m →
      exWhirlFine.forward.Carries (posCells ⟨⟨[65]⟩, [0], fun _ => (2 : ℚ)⟩) exWhirlFine.forward.cycleInflow m' →
      exWhirl.forward.Carries (posCells ⟨⟨[65]⟩, [0], fun _ => (2 : ℚ)⟩) exWhirl.forward.total t →
      exWhirlFine.forward.Carries (posCells ⟨⟨[65]⟩, [0], fun _ => (2 : ℚ)⟩) exWhirlFine.forward.total t' →
      |doubleAt (S'.concentration ⟨[65]⟩) 4 - doubleAt (S.concentration ⟨[65]⟩) 2|
        ≤ 1 / 1000000000 * (m 2 + m' 4) + ((4 * 5 + 6 : Nat) : ℚ) / 2 ^ 51 * (t 2 + t' 4)) ∧
    ∀ m m' t t', exWhirl.backward.Carries (negCells ⟨⟨[80]⟩, [3], fun _ => (-2 : ℚ)⟩) exWhirl.backward.cycleInflow m →
      exWhirlFine.backward.Carries (negCells ⟨⟨[80]⟩, [3], fun _ => (-2 : ℚ)⟩) exWhirlFine.backward.cycleInflow m' →
      exWhirl.backward.Carries (negCells ⟨⟨[80]⟩, [3], fun _ => (-2 : ℚ)⟩) exWhirl.backward.total t →
      exWhirlFine.backward.Carries (negCells ⟨⟨[80]⟩, [3], fun _ => (-2 : ℚ)⟩) exWhirlFine.backward.total t' →
      |doubleAt (T'.concentration ⟨[80]⟩) 2 - doubleAt (T.concentration ⟨[80]⟩) 2|
        ≤ 1 / 1000000000 * (m 2 + m' 2) + ((4 * 5 + 6 : Nat) : ℚ) / 2 ^ 51 * (t 2 + t' 2) := by
  obtain ⟨S, hS, _⟩ := whirl_injection
  obtain ⟨⟨T, hT⟩, _⟩ := whirl_production
  obtain ⟨S', hS'⟩ := whirlFine_injection
  obtain ⟨T', hT'⟩ := whirlFine_production
  refine ⟨S, T, S', T', hS, hT, hS', hT', fun m m' t t' hm hm' ht ht' => ?_, fun m m' t t' hm hm' ht ht' => ?_⟩
  · exact C101_injection_double exWhirl_valid whirlFine_valid whirl_ordinary_five whirlFine_ordinary whirl_stored whirlFine_stored
      whirl_noLoop whirlFine_noLoop (w := ⟨⟨[65]⟩, [0], fun _ => 2⟩) (w' := ⟨⟨[65]⟩, [0], fun _ => 2⟩) (.head _) (.head _) rfl
      ⟨_, .head _, rfl⟩ ⟨_, .head _, rfl⟩ whirlFine_refined.1 whirlFine_shares.1 whirl_total.1 whirlFine_total.1 hS hS' hm hm' ht ht'
      4 (by decide)
  · exact C101_production_double exWhirl_valid whirlFine_valid whirl_ordinary_five whirlFine_ordinary whirl_stored whirlFine_stored
      whirl_noLoop whirlFine_noLoop (w := ⟨⟨[80]⟩, [3], fun _ => -2⟩) (w' := ⟨⟨[80]⟩, [3], fun _ => -2⟩) (.tail _ (.head _))
      (.tail _ (.head _)) rfl ⟨_, .head _, rfl⟩ ⟨_, .head _, rfl⟩ whirlFine_refined.2 whirlFine_shares.2 whirl_total.2
      whirlFine_total.2 hT hT' hm hm' ht ht' 2 (by decide)

/-- C101 with a cycle, in exact arithmetic: the two problems can be given to toolboxes. -/
example : (∃ g, ∃ calls : List (Call (X ℚ)), exWhirl.GivenTo g calls) ∧
    (∃ g, ∃ calls : List (Call (X ℚ)), exWhirlFine.GivenTo g calls) ∧
    exWhirl.forward.Refined whirlWhole whirlShare exWhirlFine.forward ∧ exWhirl.InjectsShares whirlWhole whirlShare exWhirlFine ∧
    (∀ v < exWhirl.n, ¬ exWhirl.forward.Loop v) ∧ ∀ v < exWhirlFine.n, ¬ exWhirlFine.forward.Loop v :=
  ⟨exists_given exWhirl_valid (by decide), exists_given whirlFine_valid (by decide), whirlFine_refined.1, whirlFine_shares.1,
    whirl_noLoop, whirlFine_noLoop⟩

end Verif.Props
