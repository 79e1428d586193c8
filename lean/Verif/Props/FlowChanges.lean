/-
C72, C73: how the fields change when pore volumes, fluxes and inflow change.  Exact arithmetic, cycle-free flow.
-/
import Verif.Props.FlowLaws
import Verif.Spec.FlowLaws

namespace Verif.Props
open Verif.Spec Verif.Toolbox Verif.Solver Verif.Derived Finset

variable {K : Type} [Field K] [LinearOrder K] [IsStrictOrderedRing K] [Archimedean K]

omit [Archimedean K] in
/-- Comparison of two solutions of upwind balances, on a set of cells closed under going upstream. -/
theorem upwind_le {F : Flow K} (hw : F.Valid) (hacy : F.Acyclic) {S : Nat → Prop} (hS : ∀ u v, F.Edge u v → S v → S u)
    {x y p q : Nat → K} (hx : ∀ v < F.n, S v → F.total v * x v ≤ p v + ∑ u ∈ range F.n, x u * F.w u v)
    (hy : ∀ v < F.n, S v → q v + ∑ u ∈ range F.n, y u * F.w u v ≤ F.total v * y v) (hpq : ∀ v < F.n, S v → p v ≤ q v)
    (h0 : ∀ v < F.n, S v → F.total v = 0 → x v ≤ y v) : ∀ v < F.n, S v → x v ≤ y v := by
  refine acyclic_induction hacy (P := fun v => S v → x v ≤ y v) ?_
  intro v hvn ih hSv
  have hnn : 0 ≤ F.total v := add_nonneg (sum_nonneg fun u hu => hw.w_nonneg u v (mem_range.mp hu) hvn) (hw.src_nonneg v hvn)
  rcases hnn.lt_or_eq with ht | ht
  · have hsum : ∑ u ∈ range F.n, x u * F.w u v ≤ ∑ u ∈ range F.n, y u * F.w u v := by
      apply sum_le_sum
      intro u hu
      have hun := mem_range.mp hu
      rcases (hw.w_nonneg u v hun hvn).lt_or_eq with h | h
      · exact mul_le_mul_of_nonneg_right (ih u ⟨hun, hvn, h⟩ (hS u v ⟨hun, hvn, h⟩ hSv)) h.le
      · rw [← h]; simp
    have := hx v hvn hSv
    have := hy v hvn hSv
    have := hpq v hvn hSv
    exact le_of_mul_le_mul_left (by linarith) ht
  · exact h0 v hvn hSv ht.symm

section proportional
variable {k : K} {F G : Flow K} (hG : Flow.Proportional k F G)
include hG

omit [Archimedean K] in
theorem prop_edge {u v : Nat} : G.Edge u v ↔ F.Edge u v := by
  unfold Flow.Edge
  rw [hG.size, hG.flux]
  simp only [mul_pos_iff_of_pos_left hG.pos]

omit [Archimedean K] in
theorem prop_reach {u v : Nat} : G.Reach u v ↔ F.Reach u v := by
  have : G.Edge = F.Edge := by funext a b; exact propext (prop_edge hG)
  unfold Flow.Reach; rw [this]

omit [Archimedean K] in
theorem prop_acyclic (h : F.Acyclic) : G.Acyclic := by
  have : G.Edge = F.Edge := by funext a b; exact propext (prop_edge hG)
  unfold Flow.Acyclic; rw [this]; exact h

omit [IsStrictOrderedRing K] [Archimedean K] in
theorem prop_total (v : Nat) : G.total v = k * F.total v := by
  unfold Flow.total Flow.inflow
  rw [hG.size, hG.src, mul_add, mul_sum]
  congr 1
  exact sum_congr rfl fun u _ => hG.flux u v

omit [IsStrictOrderedRing K] [Archimedean K] in
theorem prop_sum (q : Nat → K) (v : Nat) : ∑ u ∈ range G.n, q u * G.w u v = k * ∑ u ∈ range F.n, q u * F.w u v := by
  rw [hG.size, mul_sum]
  apply sum_congr rfl
  intro u _
  rw [hG.flux]; ring

/-- The fields of the cells downstream of `starts`. -/
theorem local_change {d d' : SolverData (X K)} {st st' : SolverState (X K)} (h : SolverFor F d st) (h' : SolverFor G d' st')
    (hacy : F.Acyclic) {starts : List Nat} (hp : ∀ p ∈ starts, p < F.n) {ls : Nat → K} (hls : ∀ p ∈ starts, 0 ≤ ls p)
    {sol sol' : LocalSolution (X K)} (hr : LocalReturns d st (valuesOf starts ls) (.ok sol))
    (hr' : LocalReturns d' st' (valuesOf starts fun v => k * ls v) (.ok sol')) :
    (∀ v < F.n, valueAt sol.concentration v = valueAt sol'.concentration v) ∧
    ∃ τ τ' : Nat → K, ∀ v < F.n,
      (F.Downstream starts v → valueAt sol.tof v = min (τ v) cap ∧ valueAt sol'.tof v = min (τ' v) cap) ∧
      (¬ F.Downstream starts v → valueAt sol.tof v = 0 ∧ valueAt sol'.tof v = 0) ∧
      (F.Downstream starts v → (∀ u, F.Reach u v → ¬ F.Slow u ∧ ¬ G.Slow u) →
        (∀ a : K, 0 ≤ a → (∀ u < F.n, a * F.pv u ≤ G.pv u) → a * τ v ≤ k * τ' v) ∧
        (∀ a : K, 0 ≤ a → (∀ u < F.n, G.pv u ≤ a * F.pv u) → k * τ' v ≤ a * τ v)) := by
  classical
  have hls' : ∀ p ∈ starts, 0 ≤ k * ls p := fun p hps => mul_nonneg hG.pos.le (hls p hps)
  have hpG : ∀ p ∈ starts, p < G.n := by rw [hG.size]; exact hp
  obtain ⟨τ, c, hf, hpos, cells, hs, hm, rfl⟩ := local_ok h hp hls hr
  obtain ⟨τ', c', hf', hpos', cells', hs', hm', rfl⟩ := local_ok h' hpG hls' hr'
  have hdown : ∀ v, G.Downstream starts v ↔ F.Downstream starts v := by
    intro v; unfold Flow.Downstream; simp only [prop_reach hG]
  have hval : ∀ (q : Nat → K) v, valueAt (valuesOf cells q) v = if F.Downstream starts v then q v else 0 := by
    intro q v
    rw [valueAt_valuesOf hs]
    by_cases hd : F.Downstream starts v
    · rw [if_pos hd, if_pos ((hm v).mpr hd)]
    · rw [if_neg hd, if_neg fun hc => hd ((hm v).mp hc)]
  have hval' : ∀ (q : Nat → K) v, valueAt (valuesOf cells' q) v = if F.Downstream starts v then q v else 0 := by
    intro q v
    rw [valueAt_valuesOf hs']
    by_cases hd : F.Downstream starts v
    · rw [if_pos hd, if_pos ((hm' v).mpr ((hdown v).mpr hd))]
    · rw [if_neg hd, if_neg fun hc => hd ((hdown v).mp ((hm' v).mp hc))]
  have off' : ∀ v, ¬ F.Downstream starts v → c' v = 0 := fun v hd => hf'.off v fun hc => hd ((hdown v).mp hc)
  have hdead : ∀ v, F.Downstream starts v → ¬ (v ∈ starts ∧ F.src v = 0) := fun v hd hc =>
    (hpos v hd).ne' (hf.dead v hd hc.1 hc.2)
  have hdead' : ∀ v, F.Downstream starts v → ¬ (v ∈ starts ∧ G.src v = 0) := fun v hd hc =>
    (hpos' v ((hdown v).mpr hd)).ne' (hf'.dead v ((hdown v).mpr hd) hc.1 hc.2)
  have htot : ∀ v < F.n, F.total v = 0 → ¬ F.Downstream starts v := by
    intro v hvn h0 hd
    have hw : ∀ u ∈ range F.n, 0 ≤ F.w u v := fun u hu => h.valid.w_nonneg u v (mem_range.mp hu) hvn
    have h1 := sum_nonneg hw
    have h2 := h.valid.src_nonneg v hvn
    have h3 : (∑ u ∈ range F.n, F.w u v) + F.src v = 0 := h0
    have h4 : ∑ u ∈ range F.n, F.w u v = 0 := by linarith
    obtain ⟨p, hps, hreach⟩ := hd
    rcases Relation.ReflTransGen.cases_tail hreach with e | ⟨x, _, hx⟩
    · exact hdead v ⟨p, hps, hreach⟩ ⟨by rw [e]; exact hps, by linarith⟩
    · have := (sum_eq_zero_iff_of_nonneg hw).mp h4 x (mem_range.mpr hx.1)
      have hx3 := hx.2.2
      rw [this] at hx3; exact lt_irrefl _ hx3
  -- concentrations
  have hb : ∀ v < F.n, F.total v * c v = injected starts ls v + ∑ u ∈ range F.n, c u * F.w u v := by
    intro v hvn
    by_cases hd : F.Downstream starts v
    · rw [hf.exact v hd (hdead v hd) (hacy v), add_comm]
    · have e := facts_off hf h.valid (fun _ _ => downstream_edge) hvn hd (fun _ => 1)
      simp only [one_mul] at e
      rw [e, hf.off v hd]
      unfold injected
      rw [if_neg fun hm => hd ⟨v, hm, Relation.ReflTransGen.refl⟩]; ring
  have hb' : ∀ v < F.n, F.total v * c' v = injected starts ls v + ∑ u ∈ range F.n, c' u * F.w u v := by
    intro v hvn
    have hvG : v < G.n := by rw [hG.size]; exact hvn
    apply mul_left_cancel₀ hG.pos.ne'
    rw [← mul_assoc, ← prop_total hG, mul_add, ← prop_sum hG]
    have hinj : k * injected starts ls v = injected starts (fun v => k * ls v) v := by
      unfold injected; split <;> simp
    rw [hinj]
    by_cases hd : G.Downstream starts v
    · rw [hf'.exact v hd (hdead' v ((hdown v).mp hd)) (prop_acyclic hG hacy v), add_comm]
    · have e := facts_off hf' h'.valid (fun _ _ => downstream_edge) hvG hd (fun _ => 1)
      simp only [one_mul] at e
      rw [e, hf'.off v hd]
      unfold injected
      rw [if_neg fun hm => hd ⟨v, hm, Relation.ReflTransGen.refl⟩]; ring
  have hcc : ∀ v < F.n, c v = c' v := by
    intro v hvn
    have hz : ∀ v < F.n, True → F.total v = 0 → c v = c' v := fun v hvn _ h0 => by
      rw [hf.off v (htot v hvn h0), off' v (htot v hvn h0)]
    apply le_antisymm
    · exact upwind_le h.valid hacy (S := fun _ => True) (fun _ _ _ _ => trivial) (p := injected starts ls)
        (q := injected starts ls) (fun v hvn _ => (hb v hvn).le) (fun v hvn _ => (hb' v hvn).ge) (fun _ _ _ => le_rfl)
        (fun v hvn t h0 => (hz v hvn t h0).le) v hvn trivial
    · exact upwind_le h.valid hacy (S := fun _ => True) (fun _ _ _ _ => trivial) (p := injected starts ls)
        (q := injected starts ls) (fun v hvn _ => (hb' v hvn).le) (fun v hvn _ => (hb v hvn).ge) (fun _ _ _ => le_rfl)
        (fun v hvn t h0 => (hz v hvn t h0).ge) v hvn trivial
  refine ⟨?_, τ, τ', ?_⟩
  · intro v hvn
    rw [hval, hval', hcc v hvn]
  -- times
  let S : Nat → Prop := fun v => ∀ u, F.Reach u v → ¬ F.Slow u ∧ ¬ G.Slow u
  have hS : ∀ u v, F.Edge u v → S v → S u := fun u v e hv x hx => hv x (hx.tail e)
  have ht : ∀ a, ∀ v < F.n, S v → F.total v * (a * (τ v * c v)) = a * F.pv v * c v
      + ∑ u ∈ range F.n, a * (τ u * c u) * F.w u v := by
    intro a v hvn hSv
    have e : ∑ u ∈ range F.n, a * (τ u * c u) * F.w u v = a * ∑ u ∈ range F.n, τ u * c u * F.w u v := by
      rw [mul_sum]; exact sum_congr rfl fun u _ => by ring
    rw [e]
    by_cases hd : F.Downstream starts v
    · have := hf.texact v hd (hSv v Relation.ReflTransGen.refl).1 (hpos v hd) (hacy v)
      have h2 : F.total v * (a * (τ v * c v)) = a * (F.total v * c v * τ v) := by ring
      rw [h2, this]; ring
    · rw [facts_off hf h.valid (fun _ _ => downstream_edge) hvn hd, hf.off v hd]; ring
  have ht' : ∀ v < F.n, S v → F.total v * (k * (τ' v * c v)) = G.pv v * c v
      + ∑ u ∈ range F.n, k * (τ' u * c u) * F.w u v := by
    intro v hvn hSv
    have hvG : v < G.n := by rw [hG.size]; exact hvn
    have e : ∑ u ∈ range F.n, k * (τ' u * c u) * F.w u v = ∑ u ∈ range G.n, τ' u * c' u * G.w u v := by
      rw [hG.size]
      exact sum_congr rfl fun u hu => by rw [hG.flux, hcc u (mem_range.mp hu)]; ring
    rw [e, hcc v hvn]
    by_cases hd : G.Downstream starts v
    · rw [← hf'.texact v hd (hSv v Relation.ReflTransGen.refl).2 (hpos' v hd) (prop_acyclic hG hacy v), prop_total hG]; ring
    · rw [facts_off hf' h'.valid (fun _ _ => downstream_edge) hvG hd, hf'.off v hd]; ring
  have hc0 : ∀ v < F.n, 0 ≤ c v := fun v hvn => (hf.nonneg v hvn).2
  intro v hvn
  refine ⟨fun hd => ?_, fun hd => ?_, fun hd hSv => ⟨fun a _ hpv => ?_, fun a _ hpv => ?_⟩⟩
  · rw [hval, hval', if_pos hd]; exact ⟨rfl, if_pos hd⟩
  · rw [hval, hval', if_neg hd]; exact ⟨rfl, if_neg hd⟩
  · have := upwind_le h.valid hacy hS (x := fun v => a * (τ v * c v)) (y := fun v => k * (τ' v * c v))
      (p := fun v => a * F.pv v * c v) (q := fun v => G.pv v * c v)
      (fun v hvn hSv => (ht a v hvn hSv).le) (fun v hvn hSv => (ht' v hvn hSv).ge)
      (fun v hvn _ => mul_le_mul_of_nonneg_right (hpv v hvn) (hc0 v hvn))
      (fun v hvn _ h0 => by
        show a * (τ v * c v) ≤ k * (τ' v * c v)
        rw [hf.off v (htot v hvn h0)]; simp) v hvn hSv
    have this : a * (τ v * c v) ≤ k * (τ' v * c v) := this
    rw [← mul_assoc, ← mul_assoc] at this
    exact le_of_mul_le_mul_right this (hpos v hd)
  · have := upwind_le h.valid hacy hS (x := fun v => k * (τ' v * c v)) (y := fun v => a * (τ v * c v))
      (p := fun v => G.pv v * c v) (q := fun v => a * F.pv v * c v)
      (fun v hvn hSv => (ht' v hvn hSv).le) (fun v hvn hSv => (ht a v hvn hSv).ge)
      (fun v hvn _ => mul_le_mul_of_nonneg_right (hpv v hvn) (hc0 v hvn))
      (fun v hvn _ h0 => by
        show k * (τ' v * c v) ≤ a * (τ v * c v)
        rw [hf.off v (htot v hvn h0)]; simp) v hvn hSv
    have this : k * (τ' v * c v) ≤ a * (τ v * c v) := this
    rw [← mul_assoc, ← mul_assoc] at this
    exact le_of_mul_le_mul_right this (hpos v hd)

/-- The global fields. -/
theorem global_change {d d' : SolverData (X K)} {st st' : SolverState (X K)} (h : SolverFor F d st) (h' : SolverFor G d' st')
    (hacy : F.Acyclic) {l l' : List (X K)} (hl : GlobalReturns d st (.ok l)) (hl' : GlobalReturns d' st' (.ok l')) :
    ∃ τ τ' : Nat → K, ∀ v < F.n, fieldAt l v = min (τ v) cap ∧ fieldAt l' v = min (τ' v) cap ∧
      ((τ v = cap ∧ τ' v = cap) ∨ ((∀ u, F.Reach u v → ¬ F.Slow u ∧ ¬ G.Slow u) →
        (∀ a : K, 0 ≤ a → (∀ u < F.n, a * F.pv u ≤ G.pv u) → a * τ v ≤ k * τ' v) ∧
        (∀ a : K, 0 ≤ a → (∀ u < F.n, G.pv u ≤ a * F.pv u) → k * τ' v ≤ a * τ v))) := by
  obtain ⟨τ, c, hr, _, hf⟩ := global_facts h
  obtain ⟨τ', c', hr', _, hf'⟩ := global_facts h'
  have e := hl.unique hr
  have e' := hl'.unique hr'
  cases e
  cases e'
  have hnd : ∀ v < F.n, ¬ (0 < F.src v ∧ F.src v = 0) := fun v _ hc => by
    rw [hc.2] at hc; exact lt_irrefl _ hc.1
  have hnd' : ∀ v < G.n, ¬ (0 < G.src v ∧ G.src v = 0) := fun v _ hc => by
    rw [hc.2] at hc; exact lt_irrefl _ hc.1
  have hnn : ∀ v < F.n, ∀ u < F.n, 0 ≤ F.w u v := fun v hv u hu => h.valid.w_nonneg u v hu hv
  have hb : ∀ v < F.n, F.total v * c v = F.src v + ∑ u ∈ range F.n, c u * F.w u v := fun v hvn => by
    rw [hf.exact v hvn (hnd v hvn) (hacy v), add_comm]
  have hb' : ∀ v < F.n, F.total v * c' v = F.src v + ∑ u ∈ range F.n, c' u * F.w u v := by
    intro v hvn
    have hvG : v < G.n := by rw [hG.size]; exact hvn
    apply mul_left_cancel₀ hG.pos.ne'
    rw [← mul_assoc, ← prop_total hG, mul_add, ← prop_sum hG, ← hG.src,
      hf'.exact v hvG (hnd' v hvG) (prop_acyclic hG hacy v), add_comm]
  have htot : ∀ v < F.n, F.total v = 0 → c v = 0 ∧ c' v = 0 := by
    intro v hvn h0
    have hw : ∀ u ∈ range F.n, 0 ≤ F.w u v := fun u hu => hnn v hvn u (mem_range.mp hu)
    have h1 := sum_nonneg hw
    have h2 := h.valid.src_nonneg v hvn
    have h3 : (∑ u ∈ range F.n, F.w u v) + F.src v = 0 := h0
    have h4 : ∑ u ∈ range F.n, F.w u v = 0 := by linarith
    have h5 : F.src v = 0 := by linarith
    have hno : ¬ ∃ p, 0 < F.src p ∧ F.Reach p v := by
      rintro ⟨p, hp, hreach⟩
      rcases Relation.ReflTransGen.cases_tail hreach with e | ⟨x, _, hx⟩
      · rw [← e, h5] at hp; exact lt_irrefl _ hp
      · have := (sum_eq_zero_iff_of_nonneg hw).mp h4 x (mem_range.mpr hx.1)
        have hx3 := hx.2.2
        rw [this] at hx3; exact lt_irrefl _ hx3
    have hvG : v < G.n := by rw [hG.size]; exact hvn
    constructor
    · refine ((hf.nonneg v hvn).2.lt_or_eq.resolve_left fun hc => ?_).symm
      obtain ⟨p, _, _, _, hsrc, hreach⟩ := hf.source v hvn hc
      exact hno ⟨p, hsrc, hreach⟩
    · refine ((hf'.nonneg v hvG).2.lt_or_eq.resolve_left fun hc => ?_).symm
      obtain ⟨p, _, _, _, hsrc, hreach⟩ := hf'.source v hvG hc
      rw [hG.src, mul_pos_iff_of_pos_left hG.pos] at hsrc
      exact hno ⟨p, hsrc, (prop_reach hG).mp hreach⟩
  have hcc : ∀ v < F.n, c v = c' v := by
    intro v hvn
    have hz : ∀ v < F.n, True → F.total v = 0 → c v = c' v := fun v hvn _ h0 => by
      rw [(htot v hvn h0).1, (htot v hvn h0).2]
    apply le_antisymm
    · exact upwind_le h.valid hacy (S := fun _ => True) (fun _ _ _ _ => trivial) (p := F.src)
        (q := F.src) (fun v hvn _ => (hb v hvn).le) (fun v hvn _ => (hb' v hvn).ge) (fun _ _ _ => le_rfl)
        (fun v hvn t h0 => (hz v hvn t h0).le) v hvn trivial
    · exact upwind_le h.valid hacy (S := fun _ => True) (fun _ _ _ _ => trivial) (p := F.src)
        (q := F.src) (fun v hvn _ => (hb' v hvn).le) (fun v hvn _ => (hb v hvn).ge) (fun _ _ _ => le_rfl)
        (fun v hvn t h0 => (hz v hvn t h0).ge) v hvn trivial
  have hc0 : ∀ v < F.n, 0 ≤ c v := fun v hvn => (hf.nonneg v hvn).2
  -- nothing arrives in a cell without tracer
  have hzero : ∀ (q : Nat → K), ∀ v < F.n, c v = 0 → ∑ u ∈ range F.n, q u * c u * F.w u v = 0 := by
    intro q v hvn hc
    have h1 := hb v hvn
    rw [hc, mul_zero] at h1
    have hw : ∀ u ∈ range F.n, 0 ≤ c u * F.w u v := fun u hu =>
      mul_nonneg (hc0 u (mem_range.mp hu)) (hnn v hvn u (mem_range.mp hu))
    have h2 := sum_nonneg hw
    have h3 := h.valid.src_nonneg v hvn
    apply sum_eq_zero
    intro u hu
    have := (sum_eq_zero_iff_of_nonneg hw).mp (by linarith) u hu
    rw [mul_assoc, this, mul_zero]
  let S : Nat → Prop := fun v => ∀ u, F.Reach u v → ¬ F.Slow u ∧ ¬ G.Slow u
  have hS : ∀ u v, F.Edge u v → S v → S u := fun u v e hv x hx => hv x (hx.tail e)
  have ht : ∀ a, ∀ v < F.n, S v → F.total v * (a * (τ v * c v)) = a * F.pv v * c v
      + ∑ u ∈ range F.n, a * (τ u * c u) * F.w u v := by
    intro a v hvn hSv
    have e : ∑ u ∈ range F.n, a * (τ u * c u) * F.w u v = a * ∑ u ∈ range F.n, τ u * c u * F.w u v := by
      rw [mul_sum]; exact sum_congr rfl fun u _ => by ring
    rw [e]
    rcases (hc0 v hvn).lt_or_eq with hp | hp
    · have := hf.texact v hvn (hSv v Relation.ReflTransGen.refl).1 hp (hacy v)
      have h2 : F.total v * (a * (τ v * c v)) = a * (F.total v * c v * τ v) := by ring
      rw [h2, this]; ring
    · rw [hzero _ v hvn hp.symm, ← hp]; ring
  have ht' : ∀ v < F.n, S v → F.total v * (k * (τ' v * c v)) = G.pv v * c v
      + ∑ u ∈ range F.n, k * (τ' u * c u) * F.w u v := by
    intro v hvn hSv
    have hvG : v < G.n := by rw [hG.size]; exact hvn
    rcases (hc0 v hvn).lt_or_eq with hp | hp
    · have e : ∑ u ∈ range F.n, k * (τ' u * c u) * F.w u v = ∑ u ∈ range G.n, τ' u * c' u * G.w u v := by
        rw [hG.size]
        exact sum_congr rfl fun u hu => by rw [hG.flux, hcc u (mem_range.mp hu)]; ring
      rw [e]
      rw [hcc v hvn] at hp ⊢
      rw [← hf'.texact v hvG (hSv v Relation.ReflTransGen.refl).2 hp (prop_acyclic hG hacy v), prop_total hG]; ring
    · have e : ∑ u ∈ range F.n, k * (τ' u * c u) * F.w u v = ∑ u ∈ range F.n, (k * τ' u) * c u * F.w u v :=
        sum_congr rfl fun u _ => by ring
      rw [e, hzero _ v hvn hp.symm, ← hp]; ring
  refine ⟨τ, τ', fun v hvn => ?_⟩
  have hvG : v < G.n := by rw [hG.size]; exact hvn
  refine ⟨arr_fieldAt _ _ hvn, arr_fieldAt _ _ hvG, ?_⟩
  rcases (hc0 v hvn).lt_or_eq with hp | hp
  · refine Or.inr fun hSv => ⟨fun a _ hpv => ?_, fun a _ hpv => ?_⟩
    · have := upwind_le h.valid hacy hS (x := fun v => a * (τ v * c v)) (y := fun v => k * (τ' v * c v))
        (p := fun v => a * F.pv v * c v) (q := fun v => G.pv v * c v)
        (fun v hvn hSv => (ht a v hvn hSv).le) (fun v hvn hSv => (ht' v hvn hSv).ge)
        (fun v hvn _ => mul_le_mul_of_nonneg_right (hpv v hvn) (hc0 v hvn))
        (fun v hvn _ h0 => by
          show a * (τ v * c v) ≤ k * (τ' v * c v)
          rw [(htot v hvn h0).1]; simp) v hvn hSv
      have this : a * (τ v * c v) ≤ k * (τ' v * c v) := this
      rw [← mul_assoc, ← mul_assoc] at this
      exact le_of_mul_le_mul_right this hp
    · have := upwind_le h.valid hacy hS (x := fun v => k * (τ' v * c v)) (y := fun v => a * (τ v * c v))
        (p := fun v => G.pv v * c v) (q := fun v => a * F.pv v * c v)
        (fun v hvn hSv => (ht' v hvn hSv).le) (fun v hvn hSv => (ht a v hvn hSv).ge)
        (fun v hvn _ => mul_le_mul_of_nonneg_right (hpv v hvn) (hc0 v hvn))
        (fun v hvn _ h0 => by
          show k * (τ' v * c v) ≤ a * (τ v * c v)
          rw [(htot v hvn h0).1]; simp) v hvn hSv
      have this : k * (τ' v * c v) ≤ a * (τ v * c v) := this
      rw [← mul_assoc, ← mul_assoc] at this
      exact le_of_mul_le_mul_right this hp
  · exact Or.inl ⟨hf.capped v hvn (Or.inr hp.symm), hf'.capped v hvG (Or.inr (by rw [← hcc v hvn]; exact hp.symm))⟩

end proportional

section diag
variable {k : K} {F G : Flow K} {wells : List (WellFlux K)} {cs : WellFlux K → List Nat} {f : WellFlux K → Nat → K}
  {starts : List CellSet} {sol sol' : Solution (X K)}

/-- Two capped times, the second from the problem with fluxes times `k` and other pore volumes. -/
def Related (F G : Flow K) (k : K) (t t' : K) : Prop :=
  ∃ x x' : K, t = min x cap ∧ t' = min x' cap ∧ ((x = x' ∧ (x = cap ∨ x = 0)) ∨
    ((∀ a : K, 0 ≤ a → (∀ u < F.n, a * F.pv u ≤ G.pv u) → a * x ≤ k * x') ∧
     (∀ a : K, 0 ≤ a → (∀ u < F.n, G.pv u ≤ a * F.pv u) → k * x' ≤ a * x)))

theorem Diag.change (hG : Flow.Proportional k F G) (hacy : F.Acyclic) (D : Diag F wells cs f starts sol)
    {q : WellFlux K → WellFlux K} (hq : ∀ w, (q w).id = w.id ∧ cs (q w) = cs w ∧ f (q w) = fun v => k * f w v)
    (D' : Diag G (wells.map q) cs f starts sol') :
    (∀ i, ∀ v < F.n, valueAt (sol'.concentration i) v = valueAt (sol.concentration i) v) ∧
    ∀ v < F.n, (∀ u, F.Reach u v → ¬ F.Slow u ∧ ¬ G.Slow u) →
      Related F G k (fieldAt sol.timeOfFlight v) (fieldAt sol'.timeOfFlight v) ∧
      ∀ i, Related F G k (valueAt (sol.timeOfFlightOf i) v) (valueAt (sol'.timeOfFlightOf i) v) := by
  obtain ⟨d, st, h1, h2, h3⟩ := D.solved
  obtain ⟨d', st', h1', h2', h3'⟩ := D'.solved
  have hwell : ∀ i, (valueAt (sol.timeOfFlightOf i) = (fun _ => 0) ∧ valueAt (sol'.timeOfFlightOf i) = (fun _ => 0) ∧
      valueAt (sol.concentration i) = (fun _ => 0) ∧ valueAt (sol'.concentration i) = (fun _ => 0)) ∨
      ∃ w ∈ wells, ∃ l l', LocalReturns d st (valuesOf (cs w) (f w)) (.ok l) ∧
        LocalReturns d' st' (valuesOf (cs w) fun v => k * f w v) (.ok l') ∧
        sol.timeOfFlightOf i = l.tof ∧ sol.concentration i = l.concentration ∧
        sol'.timeOfFlightOf i = l'.tof ∧ sol'.concentration i = l'.concentration := by
    intro i
    by_cases hi : ∃ s ∈ starts, s.id = i
    · right
      obtain ⟨s, hs, rfl⟩ := hi
      obtain ⟨w, hw, e, _⟩ := D.known s hs
      obtain ⟨l, a1, a2, a3⟩ := h3 w hw ⟨s, hs, e.symm⟩
      obtain ⟨l', b1, b2, b3⟩ := h3' (q w) (List.mem_map.mpr ⟨w, hw, rfl⟩) ⟨s, hs, ((hq w).1.trans e).symm⟩
      rw [(hq w).2.1, (hq w).2.2] at b1
      rw [(hq w).1, e] at b2 b3
      rw [e] at a2 a3
      exact ⟨w, hw, l, l', a1, b1, a2, a3, b2, b3⟩
    · left
      have z : valueAt ([] : CellSetValues (X K)) = fun _ => 0 := rfl
      rw [(D.other i hi).1, (D.other i hi).2, (D'.other i hi).1, (D'.other i hi).2]
      exact ⟨z, z, z, z⟩
  constructor
  · intro i v hv
    rcases hwell i with ⟨_, _, e1, e2⟩ | ⟨w, hw, l, l', a1, b1, _, e1, _, e2⟩
    · rw [e1, e2]
    · rw [e1, e2]
      exact ((local_change hG h1 h1' hacy (D.side.range w hw) (fun p hp => (D.side.pos w hw p hp).le) a1 b1).1 v hv).symm
  · intro v hv hslow
    constructor
    · obtain ⟨x, x', hx⟩ := global_change hG h1 h1' hacy h2 h2'
      obtain ⟨e1, e2, e3⟩ := hx v hv
      refine ⟨x v, x' v, e1, e2, ?_⟩
      rcases e3 with ⟨c1, c2⟩ | e3
      · exact Or.inl ⟨c1.trans c2.symm, Or.inl c1⟩
      · exact Or.inr (e3 hslow)
    · intro i
      rcases hwell i with ⟨e1, e2, _⟩ | ⟨w, hw, l, l', a1, b1, e1, _, e2, _⟩
      · rw [e1, e2]
        exact ⟨0, 0, (min_eq_left cap_pos.le).symm, (min_eq_left cap_pos.le).symm, Or.inl ⟨rfl, Or.inr rfl⟩⟩
      · rw [e1, e2]
        obtain ⟨_, x, x', hx⟩ := local_change hG h1 h1' hacy (D.side.range w hw) (fun p hp => (D.side.pos w hw p hp).le) a1 b1
        obtain ⟨c1, c2, c3⟩ := hx v hv
        by_cases hd : F.Downstream (cs w) v
        · exact ⟨x v, x' v, (c1 hd).1, (c1 hd).2, Or.inr (c3 hd hslow)⟩
        · rw [(c2 hd).1, (c2 hd).2]
          exact ⟨0, 0, (min_eq_left cap_pos.le).symm, (min_eq_left cap_pos.le).symm, Or.inl ⟨rfl, Or.inr rfl⟩⟩

omit [Archimedean K] in
theorem Related.mono {t t' : K} (h : Related F G 1 t t') (hpv : ∀ u < F.n, F.pv u ≤ G.pv u) : t ≤ t' := by
  obtain ⟨x, x', rfl, rfl, h⟩ := h
  rcases h with ⟨rfl, _⟩ | ⟨h, _⟩
  · exact le_rfl
  · have := h 1 zero_le_one fun u hu => by rw [one_mul]; exact hpv u hu
    rw [one_mul, one_mul] at this
    exact min_le_min_right _ this

omit [IsStrictOrderedRing K] [Archimedean K] in
theorem Related.scale {t t' m : K} (h : Related F G k t t') (hm : 0 ≤ m) (hpv : ∀ u < F.n, G.pv u = m * F.pv u)
    (ht : t < cap) (ht' : t' < cap) : k * t' = m * t := by
  obtain ⟨x, x', rfl, rfl, h⟩ := h
  have hx : x < cap := by
    by_contra hc; rw [min_eq_right (not_lt.mp hc)] at ht; exact lt_irrefl _ ht
  have hx' : x' < cap := by
    by_contra hc; rw [min_eq_right (not_lt.mp hc)] at ht'; exact lt_irrefl _ ht'
  rw [min_eq_left hx.le, min_eq_left hx'.le]
  rcases h with ⟨e, e' | e'⟩ | ⟨h1, h2⟩
  · rw [e'] at hx; exact absurd hx (lt_irrefl _)
  · rw [← e, e']; simp
  · exact le_antisymm (h2 m hm fun u hu => (hpv u hu).le) (h1 m hm fun u hu => (hpv u hu).ge)

end diag

/-! ### C72: more pore volume -/

section toolbox
variable {P : Problem K} (hP : P.Valid) {g g' : ConnectivityGraph} {calls calls' : List (Call (X K))} (h : P.GivenTo g calls)
  {starts : List CellSet} {sol sol' : Solution (X K)}
include hP h

/-- **C72** Larger pore volumes never give a smaller time-of-flight in a cell, global or of an injector, if no cell upstream takes
    more than 200 years to fill; the concentrations do not change.  Without that condition a time may become smaller:
    `C72_fails_with_slow_cell`. -/
theorem C72_injection_partial {pv' : Nat → K} (hpv : ∀ v < P.n, P.pv v ≤ pv' v) (h' : (P.withPoreVolume pv').GivenTo g' calls')
    (hacy : P.forward.Acyclic) (hr : InjectionReturns g calls starts (.ok sol))
    (hr' : InjectionReturns g' calls' starts (.ok sol')) :
    (∀ i, ∀ v < P.n, valueAt (sol'.concentration i) v = valueAt (sol.concentration i) v) ∧
    ∀ v < P.n, (∀ u, P.forward.Reach u v →
        pv' u ≤ ((∑ x ∈ range P.n, P.flux x u) + P.source u) * (200 * 365 * 24 * 60 * 60)) →
      fieldAt sol.timeOfFlight v ≤ fieldAt sol'.timeOfFlight v ∧
      ∀ i, valueAt (sol.timeOfFlightOf i) v ≤ valueAt (sol'.timeOfFlightOf i) v := by
  have hP' : (P.withPoreVolume pv').Valid :=
    ⟨hP.int, hP.pos, hP.some_connection, hP.range, fun v hv => (hP.pv v hv).trans (hpv v hv), hP.wells_sorted, hP.cells_sorted,
      hP.cells_range⟩
  have hG : Flow.Proportional 1 P.forward (P.withPoreVolume pv').forward :=
    ⟨one_pos, rfl, fun _ _ => (one_mul _).symm, fun _ => (one_mul _).symm⟩
  obtain ⟨a, b⟩ := (diag_injection hP h hr).change hG hacy (q := fun w => w)
    (fun w => ⟨rfl, rfl, by funext v; rw [one_mul]⟩) (by rw [List.map_id']; exact diag_injection hP' h' hr')
  refine ⟨a, fun v hv hs => ?_⟩
  obtain ⟨b1, b2⟩ := b v hv fun u hu => by
    have hun : u < P.n := by
      rcases Relation.ReflTransGen.cases_head hu with e | ⟨x, e, _⟩
      · rw [e]; exact hv
      · exact e.1
    have h1 : pv' u / cap ≤ P.forward.total u := (div_le_iff₀ cap_pos).mpr (hs u hu)
    exact ⟨not_lt.mpr ((div_le_div_of_nonneg_right (hpv u hun) cap_pos.le).trans h1), not_lt.mpr h1⟩
  exact ⟨b1.mono hpv, fun i => (b2 i).mono hpv⟩

/-- **C72** The same for producers. -/
theorem C72_production_partial {pv' : Nat → K} (hpv : ∀ v < P.n, P.pv v ≤ pv' v) (h' : (P.withPoreVolume pv').GivenTo g' calls')
    (hacy : P.forward.Acyclic) (hr : ProductionReturns g calls starts (.ok sol))
    (hr' : ProductionReturns g' calls' starts (.ok sol')) :
    (∀ i, ∀ v < P.n, valueAt (sol'.concentration i) v = valueAt (sol.concentration i) v) ∧
    ∀ v < P.n, (∀ u, P.forward.Reach v u →
        pv' u ≤ ((∑ x ∈ range P.n, P.flux u x) + P.sink u) * (200 * 365 * 24 * 60 * 60)) →
      fieldAt sol.timeOfFlight v ≤ fieldAt sol'.timeOfFlight v ∧
      ∀ i, valueAt (sol.timeOfFlightOf i) v ≤ valueAt (sol'.timeOfFlightOf i) v := by
  have hP' : (P.withPoreVolume pv').Valid :=
    ⟨hP.int, hP.pos, hP.some_connection, hP.range, fun v hv => (hP.pv v hv).trans (hpv v hv), hP.wells_sorted, hP.cells_sorted,
      hP.cells_range⟩
  have hG : Flow.Proportional 1 P.backward (P.withPoreVolume pv').backward :=
    ⟨one_pos, rfl, fun _ _ => (one_mul _).symm, fun _ => (one_mul _).symm⟩
  obtain ⟨a, b⟩ := (diag_production hP h hr).change hG (backward_acyclic hacy) (q := fun w => w)
    (fun w => ⟨rfl, rfl, by funext v; rw [one_mul]⟩) (by rw [List.map_id']; exact diag_production hP' h' hr')
  refine ⟨a, fun v hv hs => ?_⟩
  obtain ⟨b1, b2⟩ := b v hv fun u hu => by
    have hun : u < P.n := by
      rcases Relation.ReflTransGen.cases_head hu with e | ⟨x, e, _⟩
      · rw [e]; exact hv
      · exact e.1
    have h1 : pv' u / cap ≤ P.backward.total u := (div_le_iff₀ cap_pos).mpr (hs u (backward_reach.mp hu))
    exact ⟨not_lt.mpr ((div_le_div_of_nonneg_right (hpv u hun) cap_pos.le).trans h1), not_lt.mpr h1⟩
  exact ⟨b1.mono hpv, fun i => (b2 i).mono hpv⟩

end toolbox

/-! ### C73: other units -/

section scaled
variable {P : Problem K} {k m : K}

omit [Archimedean K] in
theorem scaled_valid (hP : P.Valid) (hm : 0 ≤ m) : (P.scaled k m).Valid where
  int := hP.int
  pos := hP.pos
  some_connection := hP.some_connection
  range := hP.range
  pv v hv := mul_nonneg hm (hP.pv v hv)
  wells_sorted := List.pairwise_map.mpr hP.wells_sorted
  cells_sorted w hw := by
    obtain ⟨w, hw', rfl⟩ := List.mem_map.mp hw
    exact hP.cells_sorted w hw'
  cells_range w hw := by
    obtain ⟨w, hw', rfl⟩ := List.mem_map.mp hw
    exact hP.cells_range w hw'

omit [Archimedean K] in
theorem scaled_flux (hk : 0 < k) (u v : Nat) : (P.scaled k m).flux u v = k * P.flux u v := by
  unfold Problem.flux
  rw [mul_sum]
  apply sum_congr rfl
  intro c _
  have hnet : (P.scaled k m).net c = k * P.net c := by
    unfold Problem.net; rw [mul_sum]; rfl
  have hmax : ∀ x : K, max (k * x) 0 = k * max x 0 := by
    intro x
    rw [mul_max_of_nonneg _ _ hk.le, mul_zero]
  unfold Problem.carried
  rw [hnet, ← mul_neg, hmax, hmax, mul_add]
  show (if P.conns[c]? = some (u, v) then _ else _) + (if P.conns[c]? = some (v, u) then _ else _) = _
  split <;> split <;> simp

omit [LinearOrder K] [IsStrictOrderedRing K] [Archimedean K] in
theorem wellAt_scaled (w : WellFlux K) (v : Nat) :
    Problem.wellAt { w with val := fun v => k * w.val v } v = k * Problem.wellAt w v := by
  unfold Problem.wellAt
  show (if v ∈ w.cells then _ else _) = _
  split <;> simp

omit [Archimedean K] in
theorem scaled_source (hk : 0 < k) (v : Nat) :
    (P.scaled k m).source v = k * P.source v ∧ (P.scaled k m).sink v = k * P.sink v := by
  have hmax : ∀ x : K, max (k * x) 0 = k * max x 0 := by
    intro x
    rw [mul_max_of_nonneg _ _ hk.le, mul_zero]
  unfold Problem.source Problem.sink Problem.scaled
  simp only [List.map_map, Function.comp_def, wellAt_scaled, ← mul_neg, hmax]
  exact ⟨List.sum_map_mul_left _ _ _, List.sum_map_mul_left _ _ _⟩

variable (hP : P.Valid) {g g' : ConnectivityGraph} {calls calls' : List (Call (X K))} (h : P.GivenTo g calls)
  {starts : List CellSet} {sol sol' : Solution (X K)} (hk : 0 < k) (hm : 0 < m) (h' : (P.scaled k m).GivenTo g' calls')
include hP h hk hm h'

/-- **C73** If all fluxes and inflow values are multiplied by `k` and all pore volumes by `m`, injection diagnostics give the same
    concentrations, and times multiplied by `m / k`: in every cell such that no cell upstream of it takes more than 200 years to
    fill, before or after, and for every time below 200 years before and after. -/
theorem C73_injection (hacy : P.forward.Acyclic) (hr : InjectionReturns g calls starts (.ok sol))
    (hr' : InjectionReturns g' calls' starts (.ok sol')) :
    (∀ i, ∀ v < P.n, valueAt (sol'.concentration i) v = valueAt (sol.concentration i) v) ∧
    ∀ v < P.n, (∀ u, P.forward.Reach u v →
        P.pv u ≤ ((∑ x ∈ range P.n, P.flux x u) + P.source u) * (200 * 365 * 24 * 60 * 60) ∧
        m * P.pv u ≤ k * ((∑ x ∈ range P.n, P.flux x u) + P.source u) * (200 * 365 * 24 * 60 * 60)) →
      (fieldAt sol.timeOfFlight v < 200 * 365 * 24 * 60 * 60 → fieldAt sol'.timeOfFlight v < 200 * 365 * 24 * 60 * 60 →
        fieldAt sol'.timeOfFlight v = m / k * fieldAt sol.timeOfFlight v) ∧
      ∀ i, valueAt (sol.timeOfFlightOf i) v < 200 * 365 * 24 * 60 * 60 →
        valueAt (sol'.timeOfFlightOf i) v < 200 * 365 * 24 * 60 * 60 →
        valueAt (sol'.timeOfFlightOf i) v = m / k * valueAt (sol.timeOfFlightOf i) v := by
  have hG : Flow.Proportional k P.forward (P.scaled k m).forward :=
    ⟨hk, rfl, scaled_flux hk, fun v => (scaled_source hk v).1⟩
  obtain ⟨a, b⟩ := (diag_injection hP h hr).change hG hacy (q := fun w => { w with val := fun v => k * w.val v })
    (fun w => ⟨rfl, by simp only [posCells, mul_pos_iff_of_pos_left hk], rfl⟩)
    (diag_injection (scaled_valid hP hm.le) h' hr')
  have hdiv : ∀ t t' : K, k * t' = m * t → t' = m / k * t := by
    intro t t' e
    rw [div_mul_eq_mul_div, ← e, mul_div_cancel_left₀ _ hk.ne']
  refine ⟨a, fun v hv hs => ?_⟩
  obtain ⟨b1, b2⟩ := b v hv fun u hu => by
    refine ⟨not_lt.mpr ((div_le_iff₀ cap_pos).mpr (hs u hu).1), not_lt.mpr ?_⟩
    rw [prop_total hG]
    exact (div_le_iff₀ cap_pos).mpr (hs u hu).2
  exact ⟨fun t t' => hdiv _ _ (b1.scale hm.le (fun _ _ => rfl) t t'),
    fun i t t' => hdiv _ _ ((b2 i).scale hm.le (fun _ _ => rfl) t t')⟩

/-- **C73** The same for production diagnostics. -/
theorem C73_production (hacy : P.forward.Acyclic) (hr : ProductionReturns g calls starts (.ok sol))
    (hr' : ProductionReturns g' calls' starts (.ok sol')) :
    (∀ i, ∀ v < P.n, valueAt (sol'.concentration i) v = valueAt (sol.concentration i) v) ∧
    ∀ v < P.n, (∀ u, P.forward.Reach v u →
        P.pv u ≤ ((∑ x ∈ range P.n, P.flux u x) + P.sink u) * (200 * 365 * 24 * 60 * 60) ∧
        m * P.pv u ≤ k * ((∑ x ∈ range P.n, P.flux u x) + P.sink u) * (200 * 365 * 24 * 60 * 60)) →
      (fieldAt sol.timeOfFlight v < 200 * 365 * 24 * 60 * 60 → fieldAt sol'.timeOfFlight v < 200 * 365 * 24 * 60 * 60 →
        fieldAt sol'.timeOfFlight v = m / k * fieldAt sol.timeOfFlight v) ∧
      ∀ i, valueAt (sol.timeOfFlightOf i) v < 200 * 365 * 24 * 60 * 60 →
        valueAt (sol'.timeOfFlightOf i) v < 200 * 365 * 24 * 60 * 60 →
        valueAt (sol'.timeOfFlightOf i) v = m / k * valueAt (sol.timeOfFlightOf i) v := by
  have hG : Flow.Proportional k P.backward (P.scaled k m).backward :=
    ⟨hk, rfl, fun u v => scaled_flux hk v u, fun v => (scaled_source hk v).2⟩
  have hneg : ∀ x, k * x < 0 ↔ x < 0 := fun x => by
    rw [← neg_pos, ← mul_neg, mul_pos_iff_of_pos_left hk, neg_pos]
  obtain ⟨a, b⟩ := (diag_production hP h hr).change hG (backward_acyclic hacy)
    (q := fun w => { w with val := fun v => k * w.val v })
    (fun w => ⟨rfl, by simp only [negCells, hneg], by funext v; exact (mul_neg _ _).symm⟩)
    (diag_production (scaled_valid hP hm.le) h' hr')
  have hdiv : ∀ t t' : K, k * t' = m * t → t' = m / k * t := by
    intro t t' e
    rw [div_mul_eq_mul_div, ← e, mul_div_cancel_left₀ _ hk.ne']
  refine ⟨a, fun v hv hs => ?_⟩
  obtain ⟨b1, b2⟩ := b v hv fun u hu => by
    have hs := hs u (backward_reach.mp hu)
    refine ⟨not_lt.mpr ((div_le_iff₀ cap_pos).mpr hs.1), not_lt.mpr ?_⟩
    rw [prop_total hG]
    exact (div_le_iff₀ cap_pos).mpr hs.2
  exact ⟨fun t t' => hdiv _ _ (b1.scale hm.le (fun _ _ => rfl) t t'),
    fun i t t' => hdiv _ _ ((b2 i).scale hm.le (fun _ _ => rfl) t t')⟩

end scaled
end Verif.Props
