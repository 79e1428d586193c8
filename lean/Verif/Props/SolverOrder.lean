/-
C32: results for cycle-free flow do not depend on orders or numbering; C17: what a solve does when
memory runs out.
-/
import Verif.Props.Solver
import Verif.Props.Tarjan
import Mathlib.Data.Finset.Card
import Mathlib.Tactic.IntervalCases
import Mathlib.Algebra.BigOperators.Group.Finset.Defs

namespace Verif.Props
open Finset Verif.Spec Verif.Solver Verif.Tarjan

section generic
variable {R : Type} [Arith R] {d : SolverData R} {st : SolverState R} {n : Nat}

/-- **C32** (any arithmetic, rounding included) The global field of a cycle-free graph is what one obtains
    by updating the cells in any topological order. -/
theorem C32_global_any_order (hd : GraphPair d n) (hacy : ∀ v, ¬ Relation.TransGen (Edge d n) v v)
    {l : List R} (hl : GlobalReturns d st (.ok l)) {seq : List Nat}
    (hseq : TopologicalOrder (Edge d n) (· < n) seq) :
    ∃ starts s, setupStartArrayFromSource d (List.replicate n false) = .ok starts ∧
      visitCells d starts d.sourceTerm n seq = .ok s ∧ l = s.1.map fun t => Arith.min t maxTof := by
  obtain ⟨N, hN⟩ := hl
  exact global_visit hd hacy hseq (le_max_right N _) (hN _ (le_max_left _ (n + numEdges n d.g.startPointers)) st .new)

/-- **C32** (any arithmetic) The same for a tracer, and the cells downstream of its start cells. -/
theorem C32_local_any_order (hd : GraphPair d n) (hacy : ∀ v, ¬ Relation.TransGen (Edge d n) v v)
    (hst : st.localSource.length = n)
    {startset : CellSetValues R} {starts : List Nat} (hk : (startset.map fun e => e.1) = starts.map fun v : Nat => (v : Int))
    (hp : ∀ p ∈ starts, p < n) {sol : LocalSolution R} (hr : LocalReturns d st startset (.ok sol)) {seq : List Nat}
    (hseq : TopologicalOrder (Edge d n) (fun v => ∃ p ∈ starts, Relation.ReflTransGen (Edge d n) p v) seq) :
    ∃ isStart s, setupStartArray (List.replicate n false) startset = .ok isStart ∧
      visitCells d isStart (setupLocalSource (List.replicate n Arith.zero) startset).1 n seq = .ok s ∧
      ∀ v : Nat, sol.tof.find (v : Int) = (if v ∈ seq then s.1[v]?.map fun t => Arith.min t maxTof else none) ∧
        sol.concentration.find (v : Int) = (if v ∈ seq then s.2[v]? else none) := by
  obtain ⟨N, hN⟩ := hr
  exact local_visit hd hacy hk hp hseq (le_max_right N _) hst
    (hN _ (le_max_left _ (n + numEdges n d.g.startPointers)) st .new)

end generic

variable {K : Type} [Field K] [LinearOrder K]

variable [IsStrictOrderedRing K] [Archimedean K]
variable {F G : Flow K} {d d' : SolverData (X K)} {st st' : SolverState (X K)}

/-- A solver for a flow problem holds a graph and its reversal. -/
theorem graphPair_of (h : SolverFor F d st) :
    GraphPair d F.n ∧ Edge d F.n = F.Edge ∧ st.localSource.length = F.n := by
  obtain ⟨hd, hl⟩ := isSolver_of h
  have he : Edge d F.n = F.Edge := by
    funext u v; exact propext (hasEdge_iff hd.graph u v)
  refine ⟨⟨hd.graph.isGraph h.valid.int, hd.graph.adj.size, by rw [hd.pv, arr_length], ?_⟩, he, hl⟩
  intro v hv
  refine ⟨_, hd.reverse.rows v hv, ?_⟩
  intro e hm
  unfold flowRow at hm
  obtain ⟨u, hu, rfl⟩ := List.mem_map.mp hm
  obtain ⟨hu1, hu2⟩ := List.mem_filter.mp hu
  exact ⟨u, rfl, (hasEdge_iff hd.graph u v).mpr ⟨List.mem_range.mp hu1, hv, by simpa using hu2⟩⟩

/-- The hypotheses of the two theorems above for the cycle-free example. -/
example : ∃ (d : SolverData (X ℚ)) (st : SolverState (X ℚ)) (l : List (X ℚ)) (sol : LocalSolution (X ℚ)), GraphPair d 4 ∧
    (∀ v, ¬ Relation.TransGen (Edge d 4) v v) ∧ st.localSource.length = 4 ∧ GlobalReturns d st (.ok l) ∧
    LocalReturns d st (valuesOf [0] fun _ => 1) (.ok sol) ∧
    TopologicalOrder (Edge d 4) (· < 4) [1, 0, 2, 3] ∧ TopologicalOrder (Edge d 4) (· < 4) [0, 1, 2, 3] := by
  obtain ⟨d, st, h⟩ := exAcyclic_solver
  obtain ⟨h1, h2, h3⟩ := graphPair_of h
  obtain ⟨l, hl⟩ := (C28_terminates h).1
  obtain ⟨sol, hr⟩ := exAcyclic_local h
  have hn : exAcyclic.n = 4 := rfl
  rw [hn] at h1 h2 h3
  have hedge : ∀ {u v : Nat}, Edge d 4 u v → (u = 0 ∧ v = 2) ∨ (u = 1 ∧ v = 2) ∨ (u = 2 ∧ v = 3) := by
    intro u v hE
    rw [h2] at hE
    have := (fluxOf_pos (cs := [(0, 2, (1 : ℚ)), (1, 2, 3), (2, 3, 4)]) (by simp) u v).2.mp hE.2.2
    simp at this
    omega
  refine ⟨d, st, l, sol, h1, by rw [h2]; exact exAcyclic_acyclic, h3, hl, hr, ⟨by decide, ?_, ?_⟩, ⟨by decide, ?_, ?_⟩⟩
  · intro v; simp; omega
  · intro pre v post e u hu hE
    have hE := hedge hE
    rcases pre with _ | ⟨a, _ | ⟨b, _ | ⟨c, _ | ⟨x, pre⟩⟩⟩⟩ <;> simp at e
    · obtain ⟨rfl, rfl⟩ := e; simp at hu; omega
    · obtain ⟨_, rfl, rfl⟩ := e; simp at hu; omega
    · obtain ⟨_, _, rfl, rfl⟩ := e; simp at hu; omega
    · obtain ⟨_, _, _, rfl, rfl⟩ := e; simp at hu; omega
  · intro v; simp; omega
  · intro pre v post e u hu hE
    have hE := hedge hE
    rcases pre with _ | ⟨a, _ | ⟨b, _ | ⟨c, _ | ⟨x, pre⟩⟩⟩⟩ <;> simp at e
    · obtain ⟨rfl, rfl⟩ := e; simp at hu; omega
    · obtain ⟨_, rfl, rfl⟩ := e; simp at hu; omega
    · obtain ⟨_, _, rfl, rfl⟩ := e; simp at hu; omega
    · obtain ⟨_, _, _, rfl, rfl⟩ := e; simp at hu; omega

/-! ### Renumbering -/

section renumber
variable {σ : Nat → Nat}

omit [IsStrictOrderedRing K] [Archimedean K] in
theorem surj (h : Renumbered σ F G) : ∀ b < F.n, ∃ v < F.n, σ v = b := by
  have hs := Finset.surj_on_of_inj_on_of_card_le (s := range F.n) (t := range F.n) (fun v _ => σ v)
    (fun v hv => mem_range.mpr (h.cells v (mem_range.mp hv)))
    (fun u v hu hv e => h.inj u (mem_range.mp hu) v (mem_range.mp hv) e) (le_refl _)
  intro b hb
  obtain ⟨v, hv, e⟩ := hs b (mem_range.mpr hb)
  exact ⟨v, mem_range.mp hv, e.symm⟩

omit [IsStrictOrderedRing K] [Archimedean K] in
theorem sum_renumber (h : Renumbered σ F G) (f : Nat → K) : ∑ u ∈ range G.n, f u = ∑ u ∈ range F.n, f (σ u) := by
  rw [h.size]
  symm
  refine sum_bij (fun u _ => σ u) (fun u hu => mem_range.mpr (h.cells u (mem_range.mp hu)))
    (fun u hu v hv e => h.inj u (mem_range.mp hu) v (mem_range.mp hv) e) ?_ (fun u _ => rfl)
  intro b hb
  obtain ⟨v, hv, e⟩ := surj h b (mem_range.mp hb)
  exact ⟨v, mem_range.mpr hv, e⟩

omit [IsStrictOrderedRing K] [Archimedean K] in
theorem total_renumber (h : Renumbered σ F G) {v : Nat} (hv : v < F.n) : G.total (σ v) = F.total v := by
  unfold Flow.total Flow.inflow
  rw [sum_renumber h, h.src v hv]
  congr 1
  exact sum_congr rfl fun u hu => h.flux u (mem_range.mp hu) v hv

omit [IsStrictOrderedRing K] [Archimedean K] in
theorem acyclic_renumber (h : Renumbered σ F G) (hacy : F.Acyclic) : G.Acyclic := by
  have hedge : ∀ a b, G.Edge a b → ∃ u v, u < F.n ∧ v < F.n ∧ σ u = a ∧ σ v = b ∧ F.Edge u v := by
    rintro a b ⟨ha, hb, hw⟩
    rw [h.size] at ha hb
    obtain ⟨u, hu, rfl⟩ := surj h a ha
    obtain ⟨v, hv, rfl⟩ := surj h b hb
    rw [h.flux u hu v hv] at hw
    exact ⟨u, v, hu, hv, rfl, rfl, hu, hv, hw⟩
  have key : ∀ a b, Relation.TransGen G.Edge a b →
      ∃ u v, u < F.n ∧ v < F.n ∧ σ u = a ∧ σ v = b ∧ Relation.TransGen F.Edge u v := by
    intro a b hab
    induction hab with
    | single e =>
      obtain ⟨u, v, hu, hv, e1, e2, e3⟩ := hedge _ _ e
      exact ⟨u, v, hu, hv, e1, e2, .single e3⟩
    | tail _ e ih =>
      obtain ⟨u, v, hu, hv, e1, e2, e3⟩ := ih
      obtain ⟨u', v', hu', hv', e1', e2', e3'⟩ := hedge _ _ e
      have : u' = v := h.inj u' hu' v hv (by rw [e1', e2])
      subst this
      exact ⟨u, v', hu, hv', e1, e2', e3.tail e3'⟩
  intro a ha
  obtain ⟨u, v, hu, hv, e1, e2, e3⟩ := key a a ha
  have := h.inj u hu v hv (by rw [e1, e2])
  subst this
  exact hacy u e3

omit [Archimedean K] in
theorem total_pos (hF : F.Valid) {V start : Nat → Prop} {inj τ c : Nat → K} (hf : Facts F V start inj τ c) {v : Nat}
    (hv : v < F.n) (hc : 0 < c v) : 0 < F.total v := by
  obtain ⟨p, hp, _, _, hs, hr⟩ := hf.source v hv hc
  have h0 : 0 ≤ F.inflow v := sum_nonneg fun u hu => hF.w_nonneg u v (mem_range.mp hu) hv
  unfold Flow.total
  rcases Relation.ReflTransGen.cases_tail hr with e | ⟨u, _, e⟩
  · subst e; linarith
  · have h1 : F.w u v ≤ F.inflow v := single_le_sum (f := fun u => F.w u v)
      (fun u hu => hF.w_nonneg u v (mem_range.mp hu) hv) (mem_range.mpr e.1)
    have := hF.src_nonneg v hv
    have := e.2.2
    linarith

theorem local_tof_off (h : SolverFor F d st) {starts : List Nat} (hp : ∀ p ∈ starts, p < F.n) {ls : Nat → K}
    (hls : ∀ p ∈ starts, 0 ≤ ls p) {sol : LocalSolution (X K)}
    (hr : LocalReturns d st (valuesOf starts ls) (.ok sol)) {v : Nat} (hd : ¬ F.Downstream starts v) :
    valueAt sol.tof v = 0 := by
  obtain ⟨τ, c, _, _, cells, hs, hm, rfl⟩ := local_ok h hp hls hr
  show valueAt (valuesOf cells _) v = 0
  rw [valueAt_valuesOf hs, if_neg fun h => hd ((hm v).mp h)]

/-- The balance equations determine the values. -/
theorem facts_unique (hren : Renumbered σ F G) (hF : F.Valid) (hG : G.Valid) (hacy : F.Acyclic)
    {V V' start start' : Nat → Prop} {inj inj' τ τ' c c' : Nat → K}
    (hf : Facts F V start inj τ c) (hf' : Facts G V' start' inj' τ' c')
    (hbal : ∀ v < F.n, F.total v * c v = (∑ u ∈ range F.n, c u * F.w u v) + inj v)
    (hbal' : ∀ v < G.n, G.total v * c' v = (∑ u ∈ range G.n, c' u * G.w u v) + inj' v)
    (hinj : ∀ v < F.n, inj' (σ v) = inj v) :
    ∀ v < F.n, c' (σ v) = c v ∧ (0 < c v → τ' (σ v) = τ v) := by
  have hacy' := acyclic_renumber hren hacy
  have hV : ∀ v, ¬ V v → ¬ 0 < c v := fun v h h' => by rw [hf.off v h] at h'; exact lt_irrefl _ h'
  have hV' : ∀ v, ¬ V' v → ¬ 0 < c' v := fun v h h' => by rw [hf'.off v h] at h'; exact lt_irrefl _ h'
  refine acyclic_induction hacy ?_
  intro v hv ih
  have hv' : σ v < G.n := by rw [hren.size]; exact hren.cells v hv
  have hw0 : ∀ u < F.n, ¬ F.Edge u v → F.w u v = 0 := fun u hu hne =>
    le_antisymm (not_lt.mp fun h => hne ⟨hu, hv, h⟩) (hF.w_nonneg u v hu hv)
  have hc : c' (σ v) = c v := by
    have e1 := hbal v hv
    have e2 := hbal' (σ v) hv'
    rw [sum_renumber hren, total_renumber hren hv, hinj v hv] at e2
    have e3 : ∑ u ∈ range F.n, c' (σ u) * G.w (σ u) (σ v) = ∑ u ∈ range F.n, c u * F.w u v := by
      apply sum_congr rfl
      intro u hu
      have hun := mem_range.mp hu
      rw [hren.flux u hun v hv]
      by_cases he : F.Edge u v
      · rw [(ih u he).1]
      · rw [hw0 u hun he, mul_zero, mul_zero]
    rw [e3, ← e1] at e2
    by_cases ht : F.total v = 0
    · have h1 : c v = 0 := le_antisymm (not_lt.mp fun h => by
        have := total_pos hF hf hv h; rw [ht] at this; exact lt_irrefl _ this) (hf.nonneg v hv).2
      have h2 : c' (σ v) = 0 := le_antisymm (not_lt.mp fun h => by
        have := total_pos hG hf' hv' h
        rw [total_renumber hren hv, ht] at this; exact lt_irrefl _ this) (hf'.nonneg _ hv').2
      rw [h1, h2]
    · exact mul_left_cancel₀ ht e2
  refine ⟨hc, fun hpos => ?_⟩
  have hpos' : 0 < c' (σ v) := by rw [hc]; exact hpos
  have hVv : V v := by_contra fun h => hV v h hpos
  have hVv' : V' (σ v) := by_contra fun h => hV' _ h hpos'
  by_cases hslow : F.total v < F.pv v / cap
  · rw [hf.capped v hVv (Or.inl hslow), hf'.capped (σ v) hVv' (Or.inl (by
      rw [total_renumber hren hv, hren.pv v hv]; exact hslow))]
  · have e1 := hf.texact v hVv hslow hpos (hacy v)
    have e2 := hf'.texact (σ v) hVv' (by rw [total_renumber hren hv, hren.pv v hv]; exact hslow) hpos' (hacy' _)
    rw [sum_renumber hren, total_renumber hren hv, hren.pv v hv, hc] at e2
    have e3 : ∑ u ∈ range F.n, τ' (σ u) * c' (σ u) * G.w (σ u) (σ v) = ∑ u ∈ range F.n, τ u * c u * F.w u v := by
      apply sum_congr rfl
      intro u hu
      have hun := mem_range.mp hu
      rw [hren.flux u hun v hv]
      by_cases he : F.Edge u v
      · have hi := ih u he
        rw [hi.1]
        rcases eq_or_lt_of_le (hf.nonneg u hun).2 with h0 | h0
        · rw [← h0]; ring
        · rw [hi.2 h0]
      · rw [hw0 u hun he, mul_zero, mul_zero]
    rw [e3, ← e1] at e2
    exact mul_left_cancel₀ (ne_of_gt (mul_pos (total_pos hF hf hv hpos) hpos)) e2

/-- **C32** (exact arithmetic) Two solvers for the same cycle-free problem with differently numbered cells
    compute the same tracer in corresponding cells. -/
theorem C32_local_renumbering (h : SolverFor F d st) (h' : SolverFor G d' st') (hren : Renumbered σ F G)
    (hacy : F.Acyclic) {starts starts' : List Nat} (hp : ∀ p ∈ starts, p < F.n)
    (hs : ∀ v < F.n, σ v ∈ starts' ↔ v ∈ starts) (hp' : ∀ p ∈ starts', p < F.n)
    {ls ls' : Nat → K} (hls : ∀ p ∈ starts, 0 ≤ ls p ∧ ls' (σ p) = ls p)
    {sol sol' : LocalSolution (X K)} (hr : LocalReturns d st (valuesOf starts ls) (.ok sol))
    (hr' : LocalReturns d' st' (valuesOf starts' ls') (.ok sol')) :
    ∀ v < F.n, valueAt sol'.concentration (σ v) = valueAt sol.concentration v ∧
      valueAt sol'.tof (σ v) = valueAt sol.tof v := by
  have hpG : ∀ p ∈ starts', p < G.n := by rw [hren.size]; exact hp'
  have hlsG : ∀ p ∈ starts', 0 ≤ ls' p := by
    intro p hps
    obtain ⟨v, hv, rfl⟩ := surj hren p (hp' p hps)
    have hv := (hs v hv).mp hps
    rw [(hls v hv).2]; exact (hls v hv).1
  have hls0 : ∀ p ∈ starts, 0 ≤ ls p := fun p hps => (hls p hps).1
  obtain ⟨τ, hf, hval⟩ := local_values h hp hls0 hr
  obtain ⟨τ', hf', hval'⟩ := local_values h' hpG hlsG hr'
  have key := facts_unique hren h.valid h'.valid hacy hf hf' (C26_balance_exact h hacy hp hls0 hr)
    (C26_balance_exact h' (acyclic_renumber hren hacy) hpG hlsG hr') (by
      intro v hv
      unfold injected
      by_cases hm : v ∈ starts
      · rw [if_pos hm, if_pos ((hs v hv).mpr hm), (hls v hm).2]
      · rw [if_neg hm, if_neg fun h => hm ((hs v hv).mp h)])
  intro v hv
  refine ⟨(key v hv).1, ?_⟩
  by_cases hd : F.Downstream starts v
  · obtain ⟨hc, ht, _⟩ := hval v hd
    have hc' : 0 < valueAt sol'.concentration (σ v) := by rw [(key v hv).1]; exact hc
    have hd' : G.Downstream starts' (σ v) := by_contra fun hn => by
      rw [hf'.off _ hn] at hc'; exact lt_irrefl _ hc'
    rw [ht, (hval' _ hd').2.1, (key v hv).2 hc]
  · have hc : valueAt sol.concentration v = 0 := hf.off v hd
    have hd' : ¬ G.Downstream starts' (σ v) := fun hn => by
      have := (hval' _ hn).1
      rw [(key v hv).1, hc] at this; exact lt_irrefl _ this
    rw [local_tof_off h hp hls0 hr hd, local_tof_off h' hpG hlsG hr' hd']

/-- **C32** (exact arithmetic) The same for the global field. -/
theorem C32_global_renumbering (h : SolverFor F d st) (h' : SolverFor G d' st') (hren : Renumbered σ F G)
    (hacy : F.Acyclic) {l l' : List (X K)} (hl : GlobalReturns d st (.ok l)) (hl' : GlobalReturns d' st' (.ok l')) :
    ∀ v < F.n, fieldAt l' (σ v) = fieldAt l v := by
  obtain ⟨τ, c, hr, _, hf⟩ := global_facts h
  obtain ⟨τ', c', hr', _, hf'⟩ := global_facts h'
  have e := hl.unique hr
  have e' := hl'.unique hr'
  cases e
  cases e'
  have hlive : ∀ (F : Flow K) (v : Nat), ¬ (0 < F.src v ∧ F.src v = 0) := fun F v hh => by
    rw [hh.2] at hh; exact lt_irrefl _ hh.1
  have key := facts_unique hren h.valid h'.valid hacy hf hf' (fun v hv => hf.exact v hv (hlive F v) (hacy v))
    (fun v hv => hf'.exact v hv (hlive G v) (acyclic_renumber hren hacy v)) hren.src
  intro v hv
  have hv' : σ v < G.n := by rw [hren.size]; exact hren.cells v hv
  rw [arr_fieldAt _ _ hv, arr_fieldAt _ _ hv']
  rcases eq_or_lt_of_le (hf.nonneg v hv).2 with h0 | h0
  · rw [hf.capped v hv (Or.inr h0.symm), hf'.capped (σ v) hv' (Or.inr (by rw [(key v hv).1, ← h0]))]
  · rw [(key v hv).2 h0]

end renumber

/-- **C32** (exact arithmetic) The results are functions of the flow problem: two solvers for the same cycle-free
    problem, whatever their inner representation, return the same field and the same tracer values. -/
theorem C32_flow_determines (h : SolverFor F d st) (h' : SolverFor F d' st') (hacy : F.Acyclic) :
    (∃ l, GlobalReturns d st (.ok l) ∧ GlobalReturns d' st' (.ok l)) ∧
    ∀ (starts : List Nat) (ls : Nat → K), (∀ p ∈ starts, p < F.n) → (∀ p ∈ starts, 0 < ls p) →
      (∀ p ∈ starts, 0 < F.src p) → ∃ sol, LocalReturns d st (valuesOf starts ls) (.ok sol) ∧
        LocalReturns d' st' (valuesOf starts ls) (.ok sol) := by
  have hren : Renumbered id F F := ⟨rfl, fun _ h => h, fun _ _ _ _ e => e, fun _ _ _ _ => rfl, fun _ _ => rfl, fun _ _ => rfl⟩
  constructor
  · obtain ⟨τ, c, hr, _, _⟩ := global_facts h
    obtain ⟨τ', c', hr', _, _⟩ := global_facts h'
    refine ⟨_, hr, ?_⟩
    have := C32_global_renumbering h h' hren hacy hr hr'
    rw [arr_congr (f := fun v => min (τ v) cap) (g := fun v => min (τ' v) cap)]
    · exact hr'
    · intro v hv
      have := this v hv
      rw [arr_fieldAt _ _ hv, id, arr_fieldAt _ _ hv] at this
      exact this.symm
  · intro starts ls hp hls hs
    obtain ⟨sol, hr⟩ := C30_accepts_others h hp hls hs
    obtain ⟨sol', hr'⟩ := C30_accepts_others h' hp hls hs
    refine ⟨sol, hr, ?_⟩
    have key := C32_local_renumbering (starts' := starts) (ls' := ls) h h' hren hacy hp (fun v _ => Iff.rfl) hp
      (fun p hps => ⟨(hls p hps).le, rfl⟩) hr hr'
    obtain ⟨τ, c, _, _, cells, hsort, hm, rfl⟩ := local_ok h hp (fun p hps => (hls p hps).le) hr
    obtain ⟨τ', c', _, _, cells', hsort', hm', rfl⟩ := local_ok h' hp (fun p hps => (hls p hps).le) hr'
    have hcells : cells' = cells := by
      have hn : cells.Nodup := hsort.imp fun hab => ne_of_lt hab
      have hn' : cells'.Nodup := hsort'.imp fun hab => ne_of_lt hab
      exact List.Perm.eq_of_pairwise (fun a b _ _ h1 h2 => absurd h1 (lt_asymm h2)) hsort' hsort
        ((List.perm_ext_iff_of_nodup hn' hn).mpr fun v => (hm' v).trans (hm v).symm)
    subst hcells
    have hlt : ∀ v ∈ cells', v < F.n := fun v hv => by
      obtain ⟨p, hps, hreach⟩ := (hm v).mp hv
      exact reach_lt (hp p hps) hreach
    have hv : ∀ f g : Nat → K, (∀ v < F.n, valueAt (valuesOf cells' g) v = valueAt (valuesOf cells' f) v) →
        valuesOf cells' f = valuesOf cells' g := by
      intro f g hfg
      unfold valuesOf
      apply List.map_congr_left
      intro v hv
      have := hfg v (hlt v hv)
      rw [valueAt_valuesOf hsort, valueAt_valuesOf hsort, if_pos hv, if_pos hv] at this
      rw [this]
    rw [hv c c' fun v h => (key v h).1, hv _ _ fun v h => (key v h).2]
    exact hr'

/-- The cycle-free example with the numbers 0 and 1 exchanged. -/
def exSwapped : Flow ℚ :=
  ⟨4, fluxOf [(2, 3, 4), (1, 2, 1), (0, 2, 3)], fun _ => 1, fun v => if v = 1 then 1 else if v = 0 then 3 else 0⟩

example : ∃ (d d' : SolverData (X ℚ)) (st st' : SolverState (X ℚ)) (sol sol' : LocalSolution (X ℚ)),
    SolverFor exAcyclic d st ∧ SolverFor exSwapped d' st' ∧
    Renumbered (fun v => if v = 0 then 1 else if v = 1 then 0 else v) exAcyclic exSwapped ∧
    LocalReturns d st (valuesOf [0] fun _ => 1) (.ok sol) ∧ LocalReturns d' st' (valuesOf [1] fun _ => 1) (.ok sol') := by
  obtain ⟨d, st, h⟩ := exAcyclic_solver
  have hx : ∃ d st, SolverFor exSwapped d st :=
    solverFor_of_connections _ (by decide) (by simp) _ (by simp) _ (by intro v _; split; norm_num; split <;> norm_num)
  obtain ⟨d', st', h'⟩ := hx
  obtain ⟨sol, hr⟩ := exAcyclic_local h
  obtain ⟨sol', hr', _⟩ := C25_concentration_range h' (starts := [1]) (ls := fun _ => 1) (by simp [exSwapped])
    (by simp [exSwapped])
  refine ⟨d, d', st, st', sol, sol', h, h', ⟨rfl, ?_, ?_, ?_, ?_, ?_⟩, hr, hr'⟩
  · intro v hv; simp only [exAcyclic] at hv ⊢; split; omega; split <;> omega
  · intro u _ v _ e; split at e <;> split at e <;> (try split at e) <;> (try split at e) <;> omega
  · intro u hu v hv
    simp only [exAcyclic] at hu hv
    show fluxOf _ _ _ = fluxOf _ _ _
    interval_cases u <;> interval_cases v <;> simp [fluxOf]
  · intro v _; rfl
  · intro v hv
    simp only [exAcyclic] at hv
    interval_cases v <;> simp [exAcyclic, exSwapped]

/-! ### C17: a solve without memory -/

section alloc
variable {R : Type} [Arith R] {d : SolverData R} {n : Nat}

omit [Arith R] in
theorem assert_size (hd : GraphPair d n) : assertThat (d.g.startPointers.length == n + 1) = .ok () :=
  assertThat_ok (by simp [hd.size])

omit [Arith R] in
/-- **C17** `solveGlobal()` when memory runs out: a missing result of `tarjan()` is used nevertheless, by
    `tarjan_reverse_sccresult()`, which dereferences the null pointer; a failure in the latter is reported. -/
theorem C17_ordering_out_of_memory (hd : GraphPair d n) (al : Alloc) (fuel : Nat)
    (hf : n + numEdges n d.g.startPointers ≤ fuel) (s : List Int × List Nat) :
    (¬ (al.workspace = true ∧ al.status = true ∧ al.result.all = true) →
      computeOrdering d.g n al fuel s = .ub .nullDeref) ∧
    (al.workspace = true → al.status = true → al.result.all = true → al.reverse.all = false →
      computeOrdering d.g n al fuel s = .throw .runtimeError) := by
  constructor
  · intro h
    unfold computeOrdering
    simp only [Res.bind_eq, assert_size hd, Res.ok_bind,
      (C17_null_iff_allocation_failed_partial hd.graph al.workspace al.status al.result fuel hf).1.mpr h]
    rfl
  · intro h1 h2 h3 h4
    obtain ⟨scc, comps, e1, hst, _⟩ := tarjan_run hd.graph al.result h3
    unfold computeOrdering reverseOrThrow
    simp only [Res.bind_eq, assert_size hd, Res.ok_bind, h1, h2, e1 fuel hf, reverse_fail hst _ h4]
    rfl

omit [Arith R] in
/-- **C17** The same for the ordering of a local solve.  There a missing workspace is caught by the
    assertion in `tarjan_reachable_sccs()`. -/
theorem C17_localOrdering_out_of_memory (hd : GraphPair d n) (al : Alloc) (fuel : Nat)
    (hf : n + numEdges n d.g.startPointers ≤ fuel) (starts : List Nat) (hs : ∀ p ∈ starts, p < n) (s : List Int × List Nat) :
    (¬ (al.workspace = true ∧ al.status = true) →
      computeLocalOrdering d.g n (starts.map fun p : Nat => (p : Int)) al fuel s = .ub .assertFail) ∧
    (al.workspace = true → al.status = true → al.result.all = false →
      computeLocalOrdering d.g n (starts.map fun p : Nat => (p : Int)) al fuel s = .ub .nullDeref) ∧
    (al.workspace = true → al.status = true → al.result.all = true → al.reverse.all = false →
      computeLocalOrdering d.g n (starts.map fun p : Nat => (p : Int)) al fuel s = .throw .runtimeError) := by
  have hnv := hd.graph.vertices_int
  have hI : INT_MAX = 2147483647 := rfl
  have hw : IsWorkSpace { nvert := n, status := List.replicate n none, link := List.replicate n none
                          time := List.replicate n none } := ⟨by simp, by simp, by simp, by show n < _; omega⟩
  have hcw : al.workspace = true → al.status = true → createWorkspace al.workspace al.status n
      = some { nvert := n, status := List.replicate n none, link := List.replicate n none
               time := List.replicate n none } := by
    intro h1 h2; rw [h1, h2]; rfl
  refine ⟨?_, ?_, ?_⟩
  · intro h
    unfold computeLocalOrdering createWorkspace
    simp only [Res.bind_eq, assert_size hd, Res.ok_bind]
    cases h1 : al.workspace <;> cases h2 : al.status <;> simp_all <;> rfl
  · intro h1 h2 h3
    obtain ⟨w', e⟩ := ((C17_null_iff_allocation_failed_partial hd.graph al.workspace al.status al.result fuel hf).2 starts _ hs
      hw (le_refl _)).mpr h3
    unfold computeLocalOrdering
    have hc := hcw h1 h2
    simp only [Res.bind_eq, assert_size hd, Res.ok_bind, hc, e]
    rfl
  · intro h1 h2 h3 h4
    obtain ⟨scc, w', e, _, _, hst, _⟩ := reachable_run hd.graph starts hs _ hw (le_refl _) al.result h3
    have hc := hcw h1 h2
    unfold computeLocalOrdering reverseOrThrow
    simp only [Res.bind_eq, assert_size hd, Res.ok_bind, hc, e fuel hf, reverse_fail hst _ h4]
    rfl

/-- **C17** is false of a solve: if the result of `tarjan()` cannot be allocated, `solveGlobal()` dereferences
    the null pointer instead of reporting the failure. -/
theorem C17_solve_dereferences_null (hd : GraphPair d n) (hsrc : d.sourceTerm.length = n) (al : Alloc)
    (h : ¬ (al.workspace = true ∧ al.status = true ∧ al.result.all = true)) (fuel : Nat)
    (hf : n + numEdges n d.g.startPointers ≤ fuel) (st : SolverState R) :
    (solveGlobal d al fuel st).2 = .ub .nullDeref := by
  have hloop : ∀ (xs : List Nat), (∀ x ∈ xs, x < n) → ∀ b : List Bool, b.length = n →
      ∃ b', (forEach xs b fun b cell => do
        let x ← rd d.sourceTerm cell
        if Arith.lt Arith.zero x then wr b cell true else pure b) = .ok b' := by
    intro xs
    induction xs with
    | nil => intro _ b _; exact ⟨b, rfl⟩
    | cons x xs ih =>
      intro hx b hb
      have hxn := hx x List.mem_cons_self
      rw [forEach_cons]
      simp only [Res.bind_eq, Res.pure_eq, rd_ok (show x < d.sourceTerm.length by omega), Res.ok_bind]
      split
      · rw [wr_ok (by omega), Res.ok_bind]
        exact ih (fun y hy => hx y (List.mem_cons_of_mem _ hy)) _ (by simpa using hb)
      · rw [Res.ok_bind]; exact ih (fun y hy => hx y (List.mem_cons_of_mem _ hy)) _ hb
  obtain ⟨b, hb⟩ := hloop (List.range n) (fun x hx => List.mem_range.mp hx) (List.replicate n false) (by simp)
  unfold solveGlobal prepareForSolve
  have hs : setupStartArrayFromSource d (List.replicate n false) = .ok b := by
    unfold setupStartArrayFromSource; rw [hd.pv]; exact hb
  simp only [hd.pv, hs, finish, (C17_ordering_out_of_memory hd al fuel hf _).1 h]

end alloc

example : ∃ d : SolverData (X ℚ), GraphPair d 4 ∧ d.sourceTerm.length = 4 := by
  obtain ⟨d, st, h⟩ := exAcyclic_solver
  obtain ⟨hd, _⟩ := isSolver_of h
  exact ⟨d, (graphPair_of h).1, by rw [hd.source, arr_length]; rfl⟩

end Verif.Props
