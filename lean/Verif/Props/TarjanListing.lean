/-
Property C65: the order in which the vertices of one component are listed.
The vocabulary is in `Spec/SCC.lean`.
-/
import Verif.Props.Tarjan

namespace Verif.Props
open Verif.Spec Verif.Tarjan

variable {nv : Nat} {ia : List Nat} {ja : List Int}

/-- **C65** for `tarjan()`: within each component every vertex but the last has an edge coming in
    from a vertex that is listed later; the last has an edge coming in from another component, or it is the lowest
    vertex of all that lead to it. -/
theorem C65_tarjan_listing (hG : IsGraph nv ia ja) (fuel : Nat) (hf : nv + numEdges nv ia ≤ fuel)
    (a : AllocSCC) (ha : a.all = true) :
    ∃ scc comps, tarjan true true a nv ia ja fuel = .ok (some scc) ∧ Shows scc comps ∧
      ∀ c ∈ comps, (∀ pre u post, c = pre ++ u :: post → post ≠ [] → ∃ p ∈ post, HasEdge nv ia ja p u) ∧
        ∃ l u, c = l ++ [u] ∧ ((∃ p, p ∉ c ∧ HasEdge nv ia ja p u) ∨ ∀ v, Reachable nv ia ja v u → u ≤ v) := by
  obtain ⟨scc, comps, e, hst, hs, he⟩ := tarjan_run_entry hG a ha
  exact ⟨scc, comps, e fuel hf, hst.shows, fun c hc => ⟨hs.inner c hc, he c hc⟩⟩

/-- **C65** for `tarjan_reachable_sccs()`; the last vertex has an edge coming in from another component that can be
    reached from the start points, or it is a start point. -/
theorem C65_reachable_listing (hG : IsGraph nv ia ja) (starts : List Nat) (hs : ∀ p ∈ starts, p < nv)
    (w : WorkSpace) (hw : IsWorkSpace w) (hnv : nv ≤ w.nvert) (a : AllocSCC) (ha : a.all = true)
    (fuel : Nat) (hf : nv + numEdges nv ia ≤ fuel) :
    ∃ scc w' comps, reachableSccs a nv ia ja (starts.map fun p : Nat => (p : Int)) (some w) fuel
        = .ok (some scc, some w') ∧ Shows scc comps ∧
      ∀ c ∈ comps, (∀ pre u post, c = pre ++ u :: post → post ≠ [] → ∃ p ∈ post, HasEdge nv ia ja p u) ∧
        ∃ l u, c = l ++ [u] ∧ ((∃ p, p ∉ c ∧ (∃ q ∈ starts, Reachable nv ia ja q p) ∧ HasEdge nv ia ja p u) ∨
          u ∈ starts) := by
  obtain ⟨scc, w', e, _, _, hst, hc, he⟩ := reachable_run_entry hG starts hs w hw hnv a ha
  exact ⟨scc, w', _, e fuel hf, hst.shows, fun c h => ⟨hc.inner c h, he c h⟩⟩

/-- A list in which every element but the last is the target of an edge from a later element, while
    no element has edges to two elements, runs against the edges. -/
theorem against_of_inner {E : Nat → Nat → Prop} : ∀ {c : List Nat}, c.Nodup →
    (∀ pre u post, c = pre ++ u :: post → post ≠ [] → ∃ p ∈ post, E p u) →
    (∀ p ∈ c, ∀ u ∈ c, ∀ v ∈ c, E p u → E p v → u = v) → c.IsChain fun u p => E p u
  | [], _, _, _ => .nil
  | [_], _, _, _ => .singleton _
  | u :: w :: post, hnd, hin, huniq => by
    have hnd' := List.nodup_cons.mp hnd
    have ih := against_of_inner (c := w :: post) hnd'.2
      (fun pre x q e hq => hin (u :: pre) x q (by rw [e]; rfl) hq)
      (fun p hp x hx y hy => huniq p (List.mem_cons_of_mem _ hp) x (List.mem_cons_of_mem _ hx) y
        (List.mem_cons_of_mem _ hy))
    obtain ⟨p, hp, hE⟩ := hin [] u (w :: post) rfl (by simp)
    rcases List.mem_cons.mp hp with rfl | hp'
    · exact .cons_cons hE ih
    · exfalso
      obtain ⟨l, r, rfl⟩ := List.append_of_mem hp'
      have : ∃ x ∈ w :: l, E p x := by
        rcases List.eq_nil_or_concat l with rfl | ⟨l', x, rfl⟩
        · exact ⟨w, by simp, by simpa using ih.rel⟩
        · refine ⟨x, by simp, ?_⟩
          have h2 : (w :: (l'.concat x ++ p :: r)) = (w :: l') ++ (x :: p :: r) := by simp
          rw [h2] at ih
          exact (List.isChain_append.mp ih).2.1.rel
      obtain ⟨x, hx, hEx⟩ := this
      have hxc : x ∈ w :: (l ++ p :: r) := by
        rcases List.mem_cons.mp hx with rfl | h
        · simp
        · simp [h]
      have := huniq p (by simp) u (by simp) x (List.mem_cons_of_mem _ hxc) hE hEx
      exact hnd'.1 (this ▸ hxc)

/-- **C65**, the consequence for a ring: a component in which no vertex has edges to two of its
    vertices is listed against the direction of its edges. -/
theorem C65_ring_backwards (hG : IsGraph nv ia ja) (fuel : Nat) (hf : nv + numEdges nv ia ≤ fuel)
    (a : AllocSCC) (ha : a.all = true) :
    ∃ scc comps, tarjan true true a nv ia ja fuel = .ok (some scc) ∧ Shows scc comps ∧
      ∀ c ∈ comps, (∀ p ∈ c, ∀ u ∈ c, ∀ v ∈ c, HasEdge nv ia ja p u → HasEdge nv ia ja p v → u = v) →
        c.IsChain fun u p => HasEdge nv ia ja p u := by
  obtain ⟨scc, comps, e, hst, hs⟩ := tarjan_run hG a ha
  exact ⟨scc, comps, e fuel hf, hst.shows, fun c hc h =>
    against_of_inner ((List.nodup_flatten.mp hs.once).1 c hc) (hs.inner c hc) h⟩

/-- In the example graph the ring 0 → 1 → 2 → 0 has three cells, and it is listed backwards. -/
example : ∃ scc comps, tarjan true true ⟨true, true, true⟩ 5 [0, 1, 2, 5, 6, 6] [1, 2, 0, 3, 3, 3] 11
      = .ok (some scc) ∧ Shows scc comps ∧ ∃ c ∈ comps, 0 ∈ c ∧ 1 ∈ c ∧ 2 ∈ c ∧
        c.IsChain fun u p => HasEdge 5 [0, 1, 2, 5, 6, 6] [1, 2, 0, 3, 3, 3] p u := by
  have hE : ∀ u v, HasEdge 5 [0, 1, 2, 5, 6, 6] [1, 2, 0, 3, 3, 3] u v ↔
      (u = 0 ∧ v = 1) ∨ (u = 1 ∧ v = 2) ∨ (u = 2 ∧ v = 0) ∨ (u = 2 ∧ v = 3) ∨ (u = 3 ∧ v = 3) := by
    intro u v
    constructor
    · rintro ⟨hu, hv⟩
      have : u = 0 ∨ u = 1 ∨ u = 2 ∨ u = 3 ∨ u = 4 := by omega
      rcases this with rfl | rfl | rfl | rfl | rfl <;> simp [rowOf] at hv <;> omega
    · rintro (⟨rfl, rfl⟩ | ⟨rfl, rfl⟩ | ⟨rfl, rfl⟩ | ⟨rfl, rfl⟩ | ⟨rfl, rfl⟩) <;> exact ⟨by decide, by decide⟩
  obtain ⟨scc, comps, e, hst, hs⟩ := tarjan_run exampleGraph ⟨true, true, true⟩ rfl
  refine ⟨scc, comps, e 11 (by decide), hst.shows, ?_⟩
  have h01 : Reachable 5 [0, 1, 2, 5, 6, 6] [1, 2, 0, 3, 3, 3] 0 1 := .single ((hE _ _).mpr (by simp))
  have h12 : Reachable 5 [0, 1, 2, 5, 6, 6] [1, 2, 0, 3, 3, 3] 1 2 := .single ((hE _ _).mpr (by simp))
  have h20 : Reachable 5 [0, 1, 2, 5, 6, 6] [1, 2, 0, 3, 3, 3] 2 0 := .single ((hE _ _).mpr (by simp))
  have h33 : ∀ u v, HasEdge 5 [0, 1, 2, 5, 6, 6] [1, 2, 0, 3, 3, 3] u v → u = 3 → v = 3 := by
    intro u v h hu; rw [hE] at h; omega
  have h3 : ∀ v, Reachable 5 [0, 1, 2, 5, 6, 6] [1, 2, 0, 3, 3, 3] 3 v → v = 3 := by
    intro v h
    induction h with
    | refl => rfl
    | tail _ h ih => exact h33 _ _ h ih
  have comp : ∀ u v, u < 5 → v < 5 → Reachable 5 [0, 1, 2, 5, 6, 6] [1, 2, 0, 3, 3, 3] u v →
      Reachable 5 [0, 1, 2, 5, 6, 6] [1, 2, 0, 3, 3, 3] v u → ∀ c ∈ comps, u ∈ c → v ∈ c := by
    intro u v hu hv r1 r2 c hc huc
    obtain ⟨d, hd, hvd⟩ := List.mem_flatten.mp ((hs.cover v).mpr hv)
    obtain ⟨i, hi⟩ := List.mem_iff_getElem?.mp hc
    obtain ⟨j, hj⟩ := List.mem_iff_getElem?.mp hd
    have := (hs.same i j c d u v hi hj huc hvd).mpr ⟨r1, r2⟩
    subst this
    rw [hi] at hj; simp only [Option.some.injEq] at hj; subst hj
    exact hvd
  obtain ⟨c, hc, h0⟩ := List.mem_flatten.mp ((hs.cover 0).mpr (by decide))
  refine ⟨c, hc, h0, comp 0 1 (by decide) (by decide) h01 (h12.trans h20) c hc h0,
    comp 0 2 (by decide) (by decide) (h01.trans h12) h20 c hc h0, ?_⟩
  apply against_of_inner ((List.nodup_flatten.mp hs.once).1 c hc) (hs.inner c hc)
  have hn3 : 3 ∉ c := by
    intro h
    obtain ⟨i, hi⟩ := List.mem_iff_getElem?.mp hc
    have := h3 0 ((hs.same i i c c 3 0 hi hi h h0).mp rfl).1
    omega
  intro p _ u hu v hv e1 e2
  rw [hE] at e1 e2
  have : u ≠ 3 := fun h => hn3 (h ▸ hu)
  have : v ≠ 3 := fun h => hn3 (h ▸ hv)
  omega

/-- The hypotheses of the statement for `tarjan_reachable_sccs()` are met; the ring is entered at the start point. -/
example : ∃ scc w' comps, reachableSccs ⟨true, true, true⟩ 5 [0, 1, 2, 5, 6, 6] [1, 2, 0, 3, 3, 3] [1]
      (some exampleWorkSpace) 11 = .ok (some scc, w') ∧ Shows scc comps ∧ comps.length ≤ scc.ncomp ∧
      ∀ c ∈ comps, ∃ l u, c = l ++ [u] ∧ (u = 1 ∨ ∃ p, p ∉ c ∧ HasEdge 5 [0, 1, 2, 5, 6, 6] [1, 2, 0, 3, 3, 3] p u) := by
  obtain ⟨scc, w', comps, h1, h2, h3⟩ := C65_reachable_listing exampleGraph [1] (by decide)
    exampleWorkSpace exampleWorkSpace_ok (by decide) ⟨true, true, true⟩ rfl 11 (by decide)
  refine ⟨scc, some w', comps, h1, h2, le_of_eq h2.num.symm, fun c hc => ?_⟩
  obtain ⟨_, l, u, e, h⟩ := h3 c hc
  refine ⟨l, u, e, ?_⟩
  rcases h with ⟨p, a, _, b⟩ | h
  · exact Or.inr ⟨p, a, b⟩
  · exact Or.inl (by simpa using h)

end Verif.Props
