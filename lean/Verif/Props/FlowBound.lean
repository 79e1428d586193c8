/-
C74: an upper bound for times-of-flight.  Exact arithmetic, cycle-free flow.
-/
import Verif.Props.FlowLaws
import Verif.Spec.FlowLaws

namespace Verif.Props
open Verif.Spec Verif.Toolbox Verif.Solver Verif.Derived Finset

variable {K : Type} [Field K] [LinearOrder K] [IsStrictOrderedRing K] [Archimedean K]

omit [Archimedean K] in
theorem fill_nonneg {F : Flow K} (hw : F.Valid) {v : Nat} (hv : v < F.n) : 0 ≤ F.pv v / F.total v :=
  div_nonneg (hw.pv_nonneg v hv) (add_nonneg (sum_nonneg fun u hu => hw.w_nonneg u v (mem_range.mp hu) hv) (hw.src_nonneg v hv))

omit [Archimedean K] in
theorem upstreamFill_nonneg {F : Flow K} (hw : F.Valid) (v : Nat) : 0 ≤ F.upstreamFill v := by
  unfold Flow.upstreamFill
  apply sum_nonneg
  intro u hu
  split
  · exact fill_nonneg hw (mem_range.mp hu)
  · exact le_rfl

omit [Archimedean K] in
theorem upstreamFill_self {F : Flow K} (hw : F.Valid) {v : Nat} (hv : v < F.n) : F.pv v / F.total v ≤ F.upstreamFill v := by
  classical
  unfold Flow.upstreamFill
  have := single_le_sum (s := range F.n) (f := fun u => if F.Reach u v then F.pv u / F.total u else 0) (fun u hu => by
    show 0 ≤ if F.Reach u v then F.pv u / F.total u else 0
    split
    · exact fill_nonneg hw (mem_range.mp hu)
    · exact le_rfl) (mem_range.mpr hv)
  rw [if_pos (show F.Reach v v from Relation.ReflTransGen.refl)] at this
  convert this

omit [Archimedean K] in
theorem upstreamFill_edge {F : Flow K} (hw : F.Valid) (hacy : F.Acyclic) {u v : Nat} (e : F.Edge u v) :
    F.upstreamFill u + F.pv v / F.total v ≤ F.upstreamFill v := by
  classical
  have h1 : F.pv v / F.total v = ∑ x ∈ range F.n, if x = v then F.pv x / F.total x else 0 := by
    rw [sum_ite_eq' (range F.n) v, if_pos (mem_range.mpr e.2.1)]
  have h2 : ∀ v, F.upstreamFill v = ∑ u ∈ range F.n, if F.Reach u v then F.pv u / F.total u else 0 := by
    intro v; unfold Flow.upstreamFill; congr!
  rw [h2, h2, h1, ← sum_add_distrib]
  apply sum_le_sum
  intro x hx
  have hf := fill_nonneg hw (mem_range.mp hx)
  by_cases hxv : x = v
  · subst hxv
    have : ¬ F.Reach x u := fun hr => by
      exact hacy x (Relation.TransGen.tail' hr e)
    rw [if_neg this, if_pos rfl, if_pos (show F.Reach x x from Relation.ReflTransGen.refl), zero_add]
  · rw [if_neg hxv, add_zero]
    by_cases hr : F.Reach x u
    · rw [if_pos hr, if_pos (show F.Reach x v from hr.tail e)]
    · rw [if_neg hr]
      split
      · exact hf
      · exact le_rfl

omit [Archimedean K] in
/-- The bound for a field that satisfies the balances. -/
theorem facts_upper {F : Flow K} (hw : F.Valid) (hacy : F.Acyclic) {V start : Nat → Prop} {inj τ c : Nat → K}
    (hf : Facts F V start inj τ c) (hinj : ∀ v < F.n, 0 ≤ inj v) : ∀ v < F.n, V v → 0 < c v → τ v ≤ F.upstreamFill v := by
  refine acyclic_induction hacy (P := fun v => V v → 0 < c v → τ v ≤ F.upstreamFill v) ?_
  intro v hvn ih hV hc
  have hnd : ¬ (start v ∧ F.src v = 0) := fun hd => hc.ne' (hf.dead v hV hd.1 hd.2)
  have hb := hf.exact v hV hnd (hacy v)
  have ht0 : 0 ≤ F.total v :=
    add_nonneg (sum_nonneg fun u hu => hw.w_nonneg u v (mem_range.mp hu) hvn) (hw.src_nonneg v hvn)
  have ht : 0 < F.total v := by
    refine lt_of_le_of_ne ht0 fun h0 => ?_
    obtain ⟨p, hpn, _, _, hsrc, hreach⟩ := hf.source v hvn hc
    have hwn : ∀ u ∈ range F.n, 0 ≤ F.w u v := fun u hu => hw.w_nonneg u v (mem_range.mp hu) hvn
    have h1 := sum_nonneg hwn
    have h2 := hw.src_nonneg v hvn
    have h3 : (∑ u ∈ range F.n, F.w u v) + F.src v = 0 := h0.symm
    rcases Relation.ReflTransGen.cases_tail hreach with e | ⟨x, _, hx⟩
    · rw [← e] at hsrc; linarith
    · have := (sum_eq_zero_iff_of_nonneg hwn).mp (by linarith) x (mem_range.mpr hx.1)
      have hx3 := hx.2.2
      rw [this] at hx3; exact lt_irrefl _ hx3
  by_cases hs : F.total v < F.pv v / cap
  · rw [hf.capped v hV (Or.inl hs)]
    refine le_trans ?_ (upstreamFill_self hw hvn)
    rw [le_div_iff₀ ht]
    rw [lt_div_iff₀ cap_pos] at hs
    linarith
  · have hx := hf.texact v hV hs hc (hacy v)
    have hVu : ∀ u, 0 < c u → V u := fun u hu => by
      by_contra hn; rw [hf.off u hn] at hu; exact lt_irrefl _ hu
    have hsum : ∑ u ∈ range F.n, τ u * c u * F.w u v
        ≤ (F.upstreamFill v - F.pv v / F.total v) * ∑ u ∈ range F.n, c u * F.w u v := by
      rw [mul_sum]
      apply sum_le_sum
      intro u hu
      have hun := mem_range.mp hu
      rcases (hw.w_nonneg u v hun hvn).lt_or_eq with h | h
      · rcases (hf.nonneg u hun).2.lt_or_eq with hcu | hcu
        · have h1 := ih u ⟨hun, hvn, h⟩ (hVu u hcu) hcu
          have h2 := upstreamFill_edge hw hacy ⟨hun, hvn, h⟩
          rw [mul_assoc]
          exact mul_le_mul_of_nonneg_right (by linarith) (mul_pos hcu h).le
        · rw [← hcu]; simp
      · rw [← h]; simp
    have hle : ∑ u ∈ range F.n, c u * F.w u v ≤ F.total v * c v := by
      rw [hb]; linarith [hinj v hvn]
    have hd : 0 ≤ F.upstreamFill v - F.pv v / F.total v := sub_nonneg.mpr (upstreamFill_self hw hvn)
    have h3 : F.total v * c v * τ v ≤ F.total v * c v * F.upstreamFill v := by
      calc F.total v * c v * τ v = F.pv v * c v + ∑ u ∈ range F.n, τ u * c u * F.w u v := hx
        _ ≤ F.pv v * c v + (F.upstreamFill v - F.pv v / F.total v) * (F.total v * c v) := by
            linarith [mul_le_mul_of_nonneg_left hle hd]
        _ = F.total v * c v * F.upstreamFill v := by field_simp; ring
    exact le_of_mul_le_mul_left h3 (mul_pos ht hc)

section solver
variable {F : Flow K} {d : SolverData (X K)} {st : SolverState (X K)}

/-- **C74** Global field: in a cell downstream of a source, at most the time it takes to fill all cells upstream of it one
    after the other. -/
theorem C74_global (h : SolverFor F d st) (hacy : F.Acyclic) {l : List (X K)} (hl : GlobalReturns d st (.ok l)) :
    ∀ v < F.n, (∃ p, p < F.n ∧ 0 < F.src p ∧ F.Reach p v) → fieldAt l v ≤ F.upstreamFill v := by
  obtain ⟨τ, c, hr, _, hf⟩ := global_facts h
  have e := hl.unique hr
  cases e
  have hpos : ∀ p v, F.Reach p v → p < F.n → 0 < F.src p → 0 < c v := by
    intro p v hreach hp hs
    induction hreach with
    | refl => exact hf.pos p hp (fun hd => hs.ne' hd.2) (Or.inl hs)
    | tail _ e ih =>
      exact hf.pos _ e.2.1 (fun hd => hd.1.ne' hd.2) (Or.inr ⟨_, e.1, ih, e.2.2⟩)
  rintro v hv ⟨p, hp, hs, hreach⟩
  rw [arr_fieldAt _ _ hv]
  exact (min_le_left _ _).trans
    (facts_upper h.valid hacy hf (fun v hv => h.valid.src_nonneg v hv) v hv hv (hpos p v hreach hp hs))

/-- **C74** Field of one tracer. -/
theorem C74_local (h : SolverFor F d st) (hacy : F.Acyclic) {starts : List Nat} (hp : ∀ p ∈ starts, p < F.n)
    {ls : Nat → K} (hls : ∀ p ∈ starts, 0 ≤ ls p) {sol : LocalSolution (X K)}
    (hr : LocalReturns d st (valuesOf starts ls) (.ok sol)) :
    ∀ v < F.n, valueAt sol.tof v ≤ F.upstreamFill v := by
  classical
  obtain ⟨τ, c, hf, hpos, cells, hs, hm, rfl⟩ := local_ok h hp hls hr
  intro v hv
  show valueAt (valuesOf cells fun v => min (τ v) cap) v ≤ _
  rw [valueAt_valuesOf hs]
  split
  · rename_i hc
    have hd := (hm v).mp hc
    refine (min_le_left _ _).trans (facts_upper h.valid hacy hf (fun v _ => ?_) v hv hd (hpos v hd))
    unfold injected
    split
    · exact hls v (by assumption)
    · exact le_rfl
  · exact upstreamFill_nonneg h.valid v

end solver

theorem Diag.upper {F : Flow K} {wells : List (WellFlux K)} {cs : WellFlux K → List Nat} {f : WellFlux K → Nat → K}
    {starts : List CellSet} {sol : Solution (X K)} (D : Diag F wells cs f starts sol) (hacy : F.Acyclic) :
    (∀ v < F.n, (∃ p, p < F.n ∧ 0 < F.src p ∧ F.Reach p v) → fieldAt sol.timeOfFlight v ≤ F.upstreamFill v) ∧
    ∀ i, ∀ v < F.n, valueAt (sol.timeOfFlightOf i) v ≤ F.upstreamFill v := by
  obtain ⟨d, st, h1, h2, h3⟩ := D.solved
  refine ⟨C74_global h1 hacy h2, ?_⟩
  intro i
  rcases D.well i with ⟨h, _⟩ | ⟨w, hw, rfl, _, hs⟩
  · intro v _
    rw [h]
    exact upstreamFill_nonneg h1.valid v
  · obtain ⟨l, hl, e1, _⟩ := h3 w hw hs
    rw [e1]
    exact C74_local h1 hacy (D.side.range w hw) (fun p hp => (D.side.pos w hw p hp).le) hl

section toolbox
variable {P : Problem K} (hP : P.Valid) {g : ConnectivityGraph} {calls : List (Call (X K))} (h : P.GivenTo g calls)
  {starts : List CellSet} {sol : Solution (X K)}
include hP h

/-- **C74** Injection diagnostics: the time-of-flight of a cell, global and of each injector, is at most the time it takes to fill
    all cells upstream of it one after the other.  (The global one of a cell that is not downstream of a source is 200 years.) -/
theorem C74_injection (hacy : P.forward.Acyclic) (hr : InjectionReturns g calls starts (.ok sol)) :
    (∀ v < P.n, (∃ p, p < P.n ∧ 0 < P.source p ∧ P.forward.Reach p v) →
      fieldAt sol.timeOfFlight v ≤ P.forward.upstreamFill v) ∧
    ∀ i, ∀ v < P.n, valueAt (sol.timeOfFlightOf i) v ≤ P.forward.upstreamFill v :=
  (diag_injection hP h hr).upper hacy

/-- **C74** Production diagnostics: the same with the cells downstream. -/
theorem C74_production (hacy : P.forward.Acyclic) (hr : ProductionReturns g calls starts (.ok sol)) :
    (∀ v < P.n, (∃ p, p < P.n ∧ 0 < P.sink p ∧ P.forward.Reach v p) →
      fieldAt sol.timeOfFlight v ≤ P.backward.upstreamFill v) ∧
    ∀ i, ∀ v < P.n, valueAt (sol.timeOfFlightOf i) v ≤ P.backward.upstreamFill v := by
  obtain ⟨a, b⟩ := (diag_production hP h hr).upper (backward_acyclic hacy)
  refine ⟨fun v hv ⟨p, h1, h2, h3⟩ => a v hv ⟨p, h1, h2, backward_reach.mpr h3⟩, b⟩

end toolbox
end Verif.Props
