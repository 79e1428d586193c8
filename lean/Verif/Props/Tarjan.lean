/-
Properties C10 to C17: strongly connected components.
The vocabulary is in `Spec/SCC.lean`.
-/
import Verif.Proofs.TarjanReverse

namespace Verif.Props
open Verif.Spec Verif.Tarjan

variable {nv : Nat} {ia : List Nat} {ja : List Int}

/-- A graph with a cycle 0 → 1 → 2 → 0, a self-loop at 3, parallel edges 2 → 3 and an isolated
    vertex 4: the theorems below apply to it. -/
theorem exampleGraph : IsGraph 5 [0, 1, 2, 5, 6, 6] [1, 2, 0, 3, 3, 3] := by
  refine ⟨by decide, by decide, by decide, by decide, by decide, by decide⟩

/-! ### C10, C11, C12: tarjan() -/

/-- **C10** The components are non-empty and contain each vertex exactly once. -/
theorem C10_each_vertex_once (hG : IsGraph nv ia ja) (fuel : Nat) (hf : nv + numEdges nv ia ≤ fuel)
    (a : AllocSCC) (ha : a.all = true) :
    ∃ scc comps, tarjan true true a nv ia ja fuel = .ok (some scc) ∧ Shows scc comps ∧
      (∀ c ∈ comps, c ≠ []) ∧ comps.flatten.Nodup ∧ ∀ v, v ∈ comps.flatten ↔ v < nv := by
  obtain ⟨scc, comps, e, hst, hs⟩ := tarjan_run hG a ha
  exact ⟨scc, comps, e fuel hf, hst.shows, hs.nonempty, hs.once, hs.cover⟩

/-- **C11** Two vertices lie in the same component exactly if each is reachable from the other. -/
theorem C11_components_are_strong (hG : IsGraph nv ia ja) (fuel : Nat)
    (hf : nv + numEdges nv ia ≤ fuel) (a : AllocSCC) (ha : a.all = true) :
    ∃ scc comps, tarjan true true a nv ia ja fuel = .ok (some scc) ∧ Shows scc comps ∧
      ∀ u < nv, ∀ v < nv, (∃ c ∈ comps, u ∈ c ∧ v ∈ c) ↔
        Reachable nv ia ja u v ∧ Reachable nv ia ja v u := by
  obtain ⟨scc, comps, e, hst, hs⟩ := tarjan_run hG a ha
  refine ⟨scc, comps, e fuel hf, hst.shows, ?_⟩
  intro u hu v hv
  constructor
  · rintro ⟨c, hc, h1, h2⟩
    obtain ⟨k, hk⟩ := List.mem_iff_getElem?.mp hc
    exact (hs.same k k c c u v hk hk h1 h2).mp rfl
  · intro hr
    obtain ⟨A, hA, huA⟩ := List.mem_flatten.mp ((hs.cover u).mpr hu)
    obtain ⟨B, hB, hvB⟩ := List.mem_flatten.mp ((hs.cover v).mpr hv)
    obtain ⟨i, hi⟩ := List.mem_iff_getElem?.mp hA
    obtain ⟨j, hj⟩ := List.mem_iff_getElem?.mp hB
    have := (hs.same i j A B u v hi hj huA hvB).mpr hr
    subst this
    rw [hi] at hj; simp only [Option.some.injEq] at hj; subst hj
    exact ⟨A, hA, huA, hvB⟩

/-- **C12** An edge from component `a` to component `b` implies `b ≤ a`. -/
theorem C12_reverse_topological (hG : IsGraph nv ia ja) (fuel : Nat)
    (hf : nv + numEdges nv ia ≤ fuel) (al : AllocSCC) (ha : al.all = true) :
    ∃ scc comps, tarjan true true al nv ia ja fuel = .ok (some scc) ∧ Shows scc comps ∧
      ∀ (a b : Nat) A B u v, comps[a]? = some A → comps[b]? = some B → u ∈ A → v ∈ B →
        HasEdge nv ia ja u v → b ≤ a := by
  obtain ⟨scc, comps, e, hst, hs⟩ := tarjan_run hG al ha
  exact ⟨scc, comps, e fuel hf, hst.shows, hs.order⟩

/-- The hypotheses of C10 to C12 are met by the example graph, and its components are
    `{3}`, `{0, 1, 2}`, `{4}`. -/
example : ∃ scc comps, tarjan true true ⟨true, true, true⟩ 5 [0, 1, 2, 5, 6, 6] [1, 2, 0, 3, 3, 3] 11
      = .ok (some scc) ∧ Shows scc comps ∧ comps.flatten.Nodup ∧ ∀ v, v ∈ comps.flatten ↔ v < 5 := by
  obtain ⟨scc, comps, h1, h2, _, h3, h4⟩ := C10_each_vertex_once exampleGraph 11 (by decide)
    ⟨true, true, true⟩ rfl
  exact ⟨scc, comps, h1, h2, h3, h4⟩

/-! ### C13: tarjan_reachable_sccs() -/

/-- **C13** The call returns the strongly connected components of the part of the graph
    that is reachable from the start points, in reverse topological order. -/
theorem C13_reachable_components (hG : IsGraph nv ia ja) (starts : List Nat)
    (hs : ∀ p ∈ starts, p < nv) (w : WorkSpace) (hw : IsWorkSpace w) (hnv : nv ≤ w.nvert)
    (a : AllocSCC) (ha : a.all = true) (fuel : Nat) (hf : nv + numEdges nv ia ≤ fuel) :
    ∃ scc w' comps, reachableSccs a nv ia ja (starts.map fun p : Nat => (p : Int)) (some w) fuel
        = .ok (some scc, some w') ∧ Shows scc comps ∧
      IsSCCs nv ia ja (fun v => ∃ p ∈ starts, Reachable nv ia ja p v) comps := by
  obtain ⟨scc, w', e, _, _, hst, hc⟩ := reachable_run hG starts hs w hw hnv a ha
  exact ⟨scc, w', _, e fuel hf, hst.shows, hc⟩

/-- **C13**, second half: start points given in another order or repeatedly lead to the same
    components (as sets of vertices). -/
theorem C13_start_order_irrelevant (starts starts' : List Nat) (hm : ∀ p, p ∈ starts ↔ p ∈ starts')
    {comps comps' : List (List Nat)}
    (h : IsSCCs nv ia ja (fun v => ∃ p ∈ starts, Reachable nv ia ja p v) comps)
    (h' : IsSCCs nv ia ja (fun v => ∃ p ∈ starts', Reachable nv ia ja p v) comps') :
    ∀ c ∈ comps, ∃ c' ∈ comps', ∀ v, v ∈ c ↔ v ∈ c' := by
  intro c hc
  obtain ⟨u, hu⟩ := List.exists_mem_of_ne_nil c (h.nonempty c hc)
  have hcov : ∀ v, v ∈ comps.flatten ↔ v ∈ comps'.flatten := by
    intro v; rw [h.cover, h'.cover]
    constructor <;> rintro ⟨p, hp, hr⟩
    · exact ⟨p, (hm p).mp hp, hr⟩
    · exact ⟨p, (hm p).mpr hp, hr⟩
  obtain ⟨c', hc', hu'⟩ := List.mem_flatten.mp ((hcov u).mp (List.mem_flatten.mpr ⟨c, hc, hu⟩))
  obtain ⟨i, hi⟩ := List.mem_iff_getElem?.mp hc
  obtain ⟨j, hj⟩ := List.mem_iff_getElem?.mp hc'
  refine ⟨c', hc', ?_⟩
  intro v
  constructor
  · intro hv
    have hr := (h.same i i c c u v hi hi hu hv).mp rfl
    obtain ⟨d, hd, hvd⟩ := List.mem_flatten.mp ((hcov v).mp (List.mem_flatten.mpr ⟨c, hc, hv⟩))
    obtain ⟨k, hk⟩ := List.mem_iff_getElem?.mp hd
    have := (h'.same j k c' d u v hj hk hu' hvd).mpr hr
    subst this
    rw [hj] at hk; simp only [Option.some.injEq] at hk; subst hk; exact hvd
  · intro hv
    have hr := (h'.same j j c' c' u v hj hj hu' hv).mp rfl
    obtain ⟨d, hd, hvd⟩ := List.mem_flatten.mp ((hcov v).mpr (List.mem_flatten.mpr ⟨c', hc', hv⟩))
    obtain ⟨k, hk⟩ := List.mem_iff_getElem?.mp hd
    have := (h.same i k c d u v hi hk hu hvd).mpr hr
    subst this
    rw [hi] at hk; simp only [Option.some.injEq] at hk; subst hk; exact hvd

/-- A workspace larger than the graph, with leftover contents. -/
def exampleWorkSpace : WorkSpace :=
  { nvert := 6, status := List.replicate 6 (some 3), link := List.replicate 6 none
    time := List.replicate 6 (some (-2)) }

theorem exampleWorkSpace_ok : IsWorkSpace exampleWorkSpace :=
  ⟨by decide, by decide, by decide, by decide⟩

example : ∃ scc w' comps, reachableSccs ⟨true, true, true⟩ 5 [0, 1, 2, 5, 6, 6] [1, 2, 0, 3, 3, 3] [2, 3, 2]
      (some exampleWorkSpace) 11 = .ok (some scc, w') ∧ Shows scc comps ∧ 3 ∈ comps.flatten := by
  obtain ⟨scc, w', comps, h1, h2, h3⟩ := C13_reachable_components exampleGraph [2, 3, 2] (by decide)
    exampleWorkSpace exampleWorkSpace_ok (by decide) ⟨true, true, true⟩ rfl 11 (by decide)
  exact ⟨scc, some w', comps, h1, h2, (h3.cover 3).mpr ⟨3, by decide, .refl⟩⟩

/-! ### C14: memory safety and termination -/

/-- **C14** Whatever the allocations do, `tarjan()` ends with a result or with the null pointer
    within `vertices + edges` rounds of its main loop: no access out of bounds, no
    uninitialised read, no overflow, no failing assertion, no further round needed. -/
theorem C14_tarjan_safe (hG : IsGraph nv ia ja) (b1 b2 : Bool) (a : AllocSCC) :
    ∃ r, ∀ fuel, nv + numEdges nv ia ≤ fuel → tarjan b1 b2 a nv ia ja fuel = .ok r := by
  by_cases hb : b1 = true ∧ b2 = true ∧ a.all = true
  · obtain ⟨rfl, rfl, ha⟩ := hb
    obtain ⟨scc, _, e, _⟩ := tarjan_run hG a ha
    exact ⟨_, e⟩
  · refine ⟨none, fun fuel _ => ?_⟩
    unfold tarjan createWorkspace
    by_cases ha : a.all = true
    · cases b1 <;> cases b2 <;> simp_all
    · rw [allocate_none nv a (by simpa using ha)]
      cases b1 <;> cases b2 <;> rfl

/-- **C14** for `tarjan_reachable_sccs()`, for every workspace that is large enough; the
    workspace remains usable. -/
theorem C14_reachable_safe (hG : IsGraph nv ia ja) (starts : List Nat) (hs : ∀ p ∈ starts, p < nv)
    (w : WorkSpace) (hw : IsWorkSpace w) (hnv : nv ≤ w.nvert) (a : AllocSCC) :
    ∃ r w', (∀ fuel, nv + numEdges nv ia ≤ fuel →
      reachableSccs a nv ia ja (starts.map fun p : Nat => (p : Int)) (some w) fuel
        = .ok (r, some w')) ∧ IsWorkSpace w' ∧ w'.nvert = w.nvert := by
  by_cases ha : a.all = true
  · obtain ⟨scc, w', e, h1, h2, _⟩ := reachable_run hG starts hs w hw hnv a ha
    exact ⟨_, w', e, h1, h2⟩
  · refine ⟨none, w, fun fuel _ => ?_, hw, rfl⟩
    unfold reachableSccs
    simp only [Res.bind_eq, Res.pure_eq, allocate_none _ a (by simpa using ha),
      assertThat_ok (show decide (w.nvert ≥ nv) = true by simpa using hnv), Res.ok_bind]

theorem obtained_stored {scc : SCCResult} (h : Obtained scc) :
    ∃ comps, Stored scc comps ∧ ∀ c ∈ comps, c ≠ [] := by
  induction h with
  | @tarjan nv ia ja b1 b2 a fuel scc hG hf he =>
    by_cases hb : b1 = true ∧ b2 = true ∧ a.all = true
    · obtain ⟨rfl, rfl, ha⟩ := hb
      obtain ⟨scc', comps, e, hst, hs⟩ := tarjan_run hG a ha
      rw [e fuel hf] at he
      simp only [Res.ok.injEq, Option.some.injEq] at he; subst he
      exact ⟨comps, hst, hs.nonempty⟩
    · exfalso
      unfold tarjan createWorkspace at he
      by_cases ha : a.all = true
      · cases b1 <;> cases b2 <;> simp_all
      · rw [allocate_none nv a (by simpa using ha)] at he
        cases b1 <;> cases b2 <;> simp at he
  | @reachable nv ia ja a w w' fuel scc starts hG hs hw hnv hf he =>
    by_cases ha : a.all = true
    · obtain ⟨scc', w'', e, _, _, hst, hc⟩ := reachable_run hG starts hs w hw hnv a ha
      rw [e fuel hf] at he
      simp only [Res.ok.injEq, Prod.mk.injEq, Option.some.injEq] at he
      obtain ⟨rfl, _⟩ := he
      exact ⟨_, hst, hc.nonempty⟩
    · exfalso
      unfold reachableSccs at he
      simp only [Res.bind_eq, Res.pure_eq, allocate_none _ a (by simpa using ha),
        assertThat_ok (show decide (w.nvert ≥ nv) = true by simpa using hnv), Res.ok_bind] at he
      simp at he
  | @reversed a scc scc' _ he ih =>
    obtain ⟨comps, hst, hne⟩ := ih
    by_cases ha : a.all = true
    · obtain ⟨scc'', e, hst'⟩ := reverse_spec hst hne a ha
      rw [e] at he
      simp only [Res.ok.injEq, Prod.mk.injEq, Option.some.injEq, true_and] at he; subst he
      exact ⟨_, hst', fun c hc => hne c (List.mem_reverse.mp hc)⟩
    · rw [reverse_fail hst a (by simpa using ha)] at he
      simp at he

/-- **C14** for the results: every obtained result can be read completely, and reversed
    (or left alone if memory is short), without touching foreign or unwritten memory. -/
theorem C14_results_readable {scc : SCCResult} (h : Obtained scc) (a : AllocSCC) :
    (∃ comps, Shows scc comps) ∧ ∃ r, reverseSccResult a (some scc) = .ok r := by
  obtain ⟨comps, hst, hne⟩ := obtained_stored h
  refine ⟨⟨comps, hst.shows⟩, ?_⟩
  by_cases ha : a.all = true
  · obtain ⟨scc', e, _⟩ := reverse_spec hst hne a ha
    exact ⟨_, e⟩
  · exact ⟨_, reverse_fail hst a (by simpa using ha)⟩

/-! ### C15: reversal -/

/-- **C15** Reversal lists the same components in the opposite order and leaves each component
    as it was; without memory it reports failure and changes nothing. -/
theorem C15_reverse {scc : SCCResult} (h : Obtained scc) :
    ∃ comps, Shows scc comps ∧ ∀ a : AllocSCC,
      (a.all = true → ∃ scc', reverseSccResult a (some scc) = .ok (true, some scc') ∧
        Shows scc' comps.reverse ∧
        ∀ a' : AllocSCC, a'.all = true → ∃ scc'',
          reverseSccResult a' (some scc') = .ok (true, some scc'') ∧ Shows scc'' comps) ∧
      (a.all = false → reverseSccResult a (some scc) = .ok (false, some scc)) := by
  obtain ⟨comps, hst, hne⟩ := obtained_stored h
  refine ⟨comps, hst.shows, fun a => ⟨fun ha => ?_, fun ha => reverse_fail hst a ha⟩⟩
  obtain ⟨scc', e, hst'⟩ := reverse_spec hst hne a ha
  refine ⟨scc', e, hst'.shows, fun a' ha' => ?_⟩
  obtain ⟨scc'', e', hst''⟩ := reverse_spec hst' (fun c hc => hne c (List.mem_reverse.mp hc)) a' ha'
  rw [List.reverse_reverse] at hst''
  exact ⟨scc'', e', hst''.shows⟩

example : ∃ scc, Obtained scc ∧ ∃ comps, Shows scc comps ∧ comps.flatten ≠ [] := by
  obtain ⟨scc, comps, h1, h2, _, _, h4⟩ := C10_each_vertex_once exampleGraph 11 (by decide)
    ⟨true, true, true⟩ rfl
  refine ⟨scc, .tarjan exampleGraph (by decide) h1, comps, h2, ?_⟩
  intro he
  have := (h4 0).mpr (by decide)
  rw [he] at this; simp at this

/-! ### C16: reuse of a workspace -/

/-- **C16** After any history of searches, successful or short of memory, on a workspace of
    any sufficient size, a search shows the same components in the same order as on
    any other sufficiently large workspace. -/
theorem C16_workspace_reuse (n : Nat) (hn : n < 18446744073709551616) (history : List SearchCall)
    (hh : ∀ c ∈ history, c.Valid n) (hG : IsGraph nv ia ja) (starts : List Nat)
    (hs : ∀ p ∈ starts, p < nv) (hnv : nv ≤ n) (a : AllocSCC) (ha : a.all = true)
    (w : WorkSpace) (hw : IsWorkSpace w) (hnw : nv ≤ w.nvert) :
    ∃ w1 scc scc' w1' w' comps,
      forEach history (createWorkspace true true n) SearchCall.perform = .ok (some w1) ∧
      reachableSccs a nv ia ja (starts.map fun p : Nat => (p : Int)) (some w1) (nv + numEdges nv ia)
        = .ok (some scc, w1') ∧
      reachableSccs a nv ia ja (starts.map fun p : Nat => (p : Int)) (some w) (nv + numEdges nv ia)
        = .ok (some scc', w') ∧
      Shows scc comps ∧ Shows scc' comps := by
  have hist : ∀ w0 : WorkSpace, IsWorkSpace w0 → w0.nvert = n →
      ∃ w1, forEach history (some w0) SearchCall.perform = .ok (some w1) ∧ IsWorkSpace w1 ∧
        w1.nvert = n := by
    clear hs hnv hnw hG
    induction history with
    | nil => intro w0 h0 hn0; exact ⟨w0, rfl, h0, hn0⟩
    | cons c history ih =>
      intro w0 h0 hn0
      obtain ⟨hg, hst, hle⟩ := hh c (by simp)
      obtain ⟨r, w1, e, h1, h2⟩ := C14_reachable_safe hg c.starts hst w0 h0 (by omega) c.alloc
      obtain ⟨w2, e2, h3, h4⟩ := ih (fun d hd => hh d (by simp [hd])) w1 h1 (by omega)
      refine ⟨w2, ?_, h3, h4⟩
      rw [forEach_cons]
      have : SearchCall.perform (some w0) c = .ok (some w1) := by
        unfold SearchCall.perform; rw [e _ (le_refl _)]; rfl
      rw [this]; exact e2
  obtain ⟨w1, e1, h1, h2⟩ := hist _ (show IsWorkSpace { nvert := n, status := List.replicate n none
                                                        link := List.replicate n none
                                                        time := List.replicate n none } from
    ⟨by simp, by simp, by simp, hn⟩) rfl
  obtain ⟨scc, w1', e2, _, _, hst, _⟩ := reachable_run hG starts hs w1 h1 (by omega) a ha
  obtain ⟨scc', w', e3, _, _, hst', _⟩ := reachable_run hG starts hs w hw hnw a ha
  exact ⟨w1, scc, scc', some w1', some w', _, e1, e2 _ (le_refl _), e3 _ (le_refl _), hst.shows, hst'.shows⟩

example : ∃ w1 scc w', forEach [(⟨5, [0, 1, 2, 5, 6, 6], [1, 2, 0, 3, 3, 3], [4, 0], ⟨true, true, true⟩⟩ : SearchCall),
      ⟨5, [0, 1, 2, 5, 6, 6], [1, 2, 0, 3, 3, 3], [4, 0], ⟨true, false, true⟩⟩]
      (createWorkspace true true 7) SearchCall.perform = .ok (some w1) ∧
    reachableSccs ⟨true, true, true⟩ 5 [0, 1, 2, 5, 6, 6] [1, 2, 0, 3, 3, 3] [1] (some w1) 11
      = .ok (some scc, w') := by
  obtain ⟨w1, scc, _, w1', _, _, h1, h2, _⟩ := C16_workspace_reuse 7 (by decide)
    [⟨5, [0, 1, 2, 5, 6, 6], [1, 2, 0, 3, 3, 3], [4, 0], ⟨true, true, true⟩⟩,
      ⟨5, [0, 1, 2, 5, 6, 6], [1, 2, 0, 3, 3, 3], [4, 0], ⟨true, false, true⟩⟩]
    (by
      intro c hc
      simp only [List.mem_cons, List.not_mem_nil, or_false] at hc
      rcases hc with rfl | rfl <;> exact ⟨exampleGraph, by decide, by decide⟩)
    exampleGraph [1] (by decide) (by decide) ⟨true, true, true⟩ rfl exampleWorkSpace exampleWorkSpace_ok
    (by decide)
  exact ⟨w1, scc, w1', h1, h2⟩

/-! ### C17: allocation failure -/

/-- **C17** for the component routines: the null pointer is returned exactly when an
    allocation failed.  Missing: the C++ solver, which the claim also covers, does not take the
    null pointer as a failure; see `C17_solve_dereferences_null`. -/
theorem C17_null_iff_allocation_failed_partial (hG : IsGraph nv ia ja) (b1 b2 : Bool) (a : AllocSCC)
    (fuel : Nat) (hf : nv + numEdges nv ia ≤ fuel) :
    (tarjan b1 b2 a nv ia ja fuel = .ok none ↔ ¬ (b1 = true ∧ b2 = true ∧ a.all = true)) ∧
    (∀ (starts : List Nat) (w : WorkSpace), (∀ p ∈ starts, p < nv) → IsWorkSpace w → nv ≤ w.nvert →
      ((∃ w', reachableSccs a nv ia ja (starts.map fun p : Nat => (p : Int)) (some w) fuel
        = .ok (none, w')) ↔ a.all = false)) := by
  constructor
  · by_cases hb : b1 = true ∧ b2 = true ∧ a.all = true
    · obtain ⟨rfl, rfl, ha⟩ := hb
      obtain ⟨scc, _, e, _⟩ := tarjan_run hG a ha
      rw [e fuel hf]; simp [ha]
    · simp only [hb, not_false_eq_true, iff_true]
      unfold tarjan createWorkspace
      by_cases ha : a.all = true
      · cases b1 <;> cases b2 <;> simp_all
      · rw [allocate_none nv a (by simpa using ha)]
        cases b1 <;> cases b2 <;> rfl
  · intro starts w hs hw hnv
    by_cases ha : a.all = true
    · obtain ⟨scc, w', e, _⟩ := reachable_run hG starts hs w hw hnv a ha
      rw [e fuel hf]; simp [ha]
    · have ha' : a.all = false := by simpa using ha
      simp only [ha', iff_true]
      refine ⟨some w, ?_⟩
      unfold reachableSccs
      simp only [Res.bind_eq, Res.pure_eq, allocate_none _ a ha',
        assertThat_ok (show decide (w.nvert ≥ nv) = true by simpa using hnv), Res.ok_bind]

/-- **C17**, continued: `tarjan_reverse_sccresult` does not accept that null pointer. -/
theorem C17_reverse_of_null (a : AllocSCC) : reverseSccResult a none = .ub .nullDeref := rfl

example : tarjan true true ⟨true, false, true⟩ 5 [0, 1, 2, 5, 6, 6] [1, 2, 0, 3, 3, 3] 11 = .ok none :=
  (C17_null_iff_allocation_failed_partial exampleGraph true true ⟨true, false, true⟩ 11 (by decide)).1.mpr
    (by simp [AllocSCC.all])

end Verif.Props
