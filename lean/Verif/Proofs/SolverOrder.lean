/-
The ordering functions of the solver store the components of the search, most upstream first.
-/
import Verif.Model.TracerTofSolver
import Verif.Proofs.TarjanReverse

namespace Verif.Solver
open Verif.Spec Verif.Tarjan

variable {R : Type}

/-- Where the components begin. -/
def offsets (comps : List (List Nat)) : List Nat := (List.range (comps.length + 1)).map (off comps)

/-- The cells of the components, one after the other. -/
def cellsOf (comps : List (List Nat)) : List Int := comps.flatten.map fun v : Nat => (v : Int)

theorem copyInto_spec (xs : List Int) : ∀ (seq : List Int) (b : Nat), b + xs.length ≤ seq.length →
    copyInto seq b xs = .ok (seq.take b ++ xs ++ seq.drop (b + xs.length)) := by
  induction xs with
  | nil => intro seq b _; simp [copyInto]
  | cons x xs ih =>
    intro seq b h
    simp only [List.length_cons] at h
    simp only [copyInto, wr_ok (show b < seq.length by omega), Res.ok_bind]
    rw [ih (seq.set b x) (b + 1) (by simp; omega)]
    have h1 : (seq.set b x).take (b + 1) = seq.take b ++ [x] := by
      rw [List.take_add_one, List.take_set_of_le (le_refl _)]; simp [show b < seq.length by omega]
    have h2 : (seq.set b x).drop (b + 1 + xs.length) = seq.drop (b + (xs.length + 1)) := by
      rw [List.drop_set_of_lt (by omega)]; congr 1; omega
    rw [h1, h2]; simp

theorem resize_length {α : Type} (v : List α) (n : Nat) (x : α) : (resize v n x).length = n := by
  unfold resize; simp; omega

theorem resize_take {α : Type} (v : List α) (n : Nat) (x : α) (h : n ≤ v.length) : resize v n x = v.take n := by
  unfold resize; simp [show n - v.length = 0 by omega]

theorem off_mono (comps : List (List Nat)) (k : Nat) : off comps k ≤ comps.flatten.length := off_le comps k

theorem offsets_length (comps : List (List Nat)) : (offsets comps).length = comps.length + 1 := by simp [offsets]

theorem offsets_getElem? (comps : List (List Nat)) {k : Nat} (h : k ≤ comps.length) :
    (offsets comps)[k]? = some (off comps k) := by
  unfold offsets; rw [List.getElem?_map, List.getElem?_range (by omega)]; rfl

theorem extractOrdering_spec {scc : SCCResult} {comps : List (List Nat)} (hs : Shows scc comps) {n : Nat}
    (hn : comps.flatten.length ≤ n) (hI : n ≤ INT_MAX) (hlen : comps.length ≤ n) (s : List Int × List Nat) :
    ∃ seq, extractOrdering scc n s = .ok (seq, offsets comps) ∧ seq.length = n ∧
      seq.take comps.flatten.length = cellsOf comps := by
  unfold extractOrdering
  have h1 : intOfSize (getNumComponents scc) = .ok (comps.length : Int) := by
    rw [hs.num]; unfold intOfSize; rw [if_pos (by omega)]
  simp only [Res.bind_eq, h1, Res.ok_bind, Int.toNat_natCast]
  rw [wr_ok (show 0 < (resize s.2 (comps.length + 1) 0).length by rw [resize_length]; omega), Res.ok_bind]
  obtain ⟨r, e, hr1, hr2, hr3, hr4⟩ := forEach_range_inv (n := comps.length)
    (s := (resize s.1 n 0, (resize s.2 (comps.length + 1) 0).set 0 0)) (f := extractComponent scc)
    (fun k r => r.1.length = n ∧ r.1.take (off comps k) = cellsOf (comps.take k) ∧
      r.2.length = comps.length + 1 ∧ ∀ j ≤ k, r.2[j]? = some (off comps j))
    (by
      refine ⟨resize_length _ _ _, by simp [off, cellsOf], by simp [resize_length], ?_⟩
      intro j hj
      obtain rfl : j = 0 := by omega
      rw [List.getElem?_set_self (by rw [resize_length]; omega)]; simp [off])
    (by
      rintro k ⟨seq, st⟩ hk ⟨h1, h2, h3, h4⟩
      have hck : comps[k]? = some comps[k] := List.getElem?_eq_getElem hk
      have hoff := off_succ hck
      have hle := off_mono comps (k + 1)
      simp only at h1 h2 h3 h4
      unfold extractComponent
      simp only [Res.bind_eq, Res.pure_eq, hs.comp k _ hck, Res.ok_bind, rd_of_getElem? (h4 k (le_refl _))]
      rw [copyInto_spec _ seq _ (by simp; omega)]
      have h5 : intOfSize (off comps k + (comps[k].map fun v : Nat => (v : Int)).length)
          = .ok ((off comps (k + 1) : Nat) : Int) := by
        unfold intOfSize
        rw [List.length_map, ← hoff, if_pos (by omega)]
      simp only [Res.ok_bind, h5, Int.toNat_natCast]
      rw [wr_ok (by omega)]
      refine ⟨_, rfl, ?_, ?_, ?_, ?_⟩
      · simp; omega
      · simp only [List.length_map]
        rw [List.take_append_of_le_length (by simp; omega)]
        rw [List.take_of_length_le (by simp; omega), h2]
        unfold cellsOf
        rw [List.take_succ_eq_append_getElem hk, List.flatten_append, List.map_append]
        simp only [List.flatten_cons, List.flatten_nil, List.append_nil]
      · simp [h3]
      · intro j hj
        by_cases e : j = k + 1
        · subst e; rw [List.getElem?_set_self (by omega)]
        · rw [List.getElem?_set_ne (by omega)]; exact h4 j (by omega))
  refine ⟨r.1, ?_, hr1, ?_⟩
  · rw [e]
    congr 1
    refine Prod.ext rfl ?_
    show r.2 = offsets comps
    apply List.ext_getElem?
    intro j
    by_cases hj : j ≤ comps.length
    · rw [hr4 j hj, offsets_getElem? comps hj]
    · rw [List.getElem?_eq_none (by omega), List.getElem?_eq_none (by rw [offsets_length]; omega)]
  · rw [off_length] at hr2; rw [hr2]; simp

theorem back_offsets (comps : List (List Nat)) : back (offsets comps) = .ok comps.flatten.length := by
  unfold back
  rw [offsets_length]
  rw [rd_of_getElem? (offsets_getElem? comps (k := comps.length + 1 - 1) (by omega))]
  rw [Nat.add_sub_cancel, off_length]

/-- Components listed most upstream first. -/
structure Topo (nv : Nat) (ia : List Nat) (ja : List Int) (V : Nat → Prop) (comps : List (List Nat)) : Prop where
  nonempty : ∀ c ∈ comps, c ≠ []
  once : comps.flatten.Nodup
  cover : ∀ v, v ∈ comps.flatten ↔ V v
  strong : ∀ c ∈ comps, ∀ u ∈ c, ∀ v ∈ c, Reachable nv ia ja u v
  weak : ∀ c ∈ comps, ∀ u ∈ c, ∀ v, V v → Reachable nv ia ja u v → Reachable nv ia ja v u → v ∈ c
  order : ∀ pre c post, comps = pre ++ c :: post → ∀ x ∈ c, ∀ v ∈ pre.flatten, ¬ HasEdge nv ia ja x v

theorem Topo.of_sccs {nv ia ja V comps} (h : IsSCCs nv ia ja V comps) : Topo nv ia ja V comps.reverse := by
  have hmem : ∀ v, v ∈ comps.reverse.flatten ↔ v ∈ comps.flatten := by
    intro v; simp [List.mem_flatten]
  constructor
  · intro c hc; exact h.nonempty c (List.mem_reverse.mp hc)
  · exact ((List.reverse_perm comps).flatten).nodup_iff.mpr h.once
  · intro v; rw [hmem]; exact h.cover v
  · intro c hc u hu v hv
    obtain ⟨k, hk⟩ := List.mem_iff_getElem?.mp (List.mem_reverse.mp hc)
    exact ((h.same k k c c u v hk hk hu hv).mp rfl).1
  · intro c hc u hu v hV h1 h2
    obtain ⟨k, hk⟩ := List.mem_iff_getElem?.mp (List.mem_reverse.mp hc)
    obtain ⟨d, hd, hvd⟩ := List.mem_flatten.mp ((h.cover v).mpr hV)
    obtain ⟨j, hj⟩ := List.mem_iff_getElem?.mp hd
    have := (h.same k j c d u v hk hj hu hvd).mpr ⟨h1, h2⟩
    subst this
    rw [hk] at hj; simp only [Option.some.injEq] at hj; subst hj; exact hvd
  · intro pre c post e x hx v hv hedge
    obtain ⟨d, hd, hvd⟩ := List.mem_flatten.mp hv
    have e' : comps = post.reverse ++ c :: pre.reverse := by
      have := congrArg List.reverse e; simpa using this
    have hc : comps[post.length]? = some c := by rw [e']; simp
    obtain ⟨j, hj⟩ := List.mem_iff_getElem?.mp (List.mem_reverse.mpr hd)
    have hdj : comps[post.length + 1 + j]? = some d := by
      rw [e', List.getElem?_append_right (by simp; omega)]
      simp only [List.length_reverse]
      rw [show post.length + 1 + j - post.length = j + 1 by omega]
      simpa using hj
    have := h.order post.length (post.length + 1 + j) c d x v hc hdj hx hvd hedge
    omega

theorem length_le_flatten {comps : List (List Nat)} (h : ∀ c ∈ comps, c ≠ []) :
    comps.length ≤ comps.flatten.length := by
  induction comps with
  | nil => simp
  | cons c l ih =>
    have := List.length_pos_iff.mpr (h c List.mem_cons_self)
    have := ih fun d hd => h d (List.mem_cons_of_mem _ hd)
    simp only [List.length_cons, List.flatten_cons, List.length_append]; omega

/-- Distinct numbers below `n` are at most `n` many. -/
theorem length_le_of_nodup {l : List Nat} (hn : l.Nodup) {n : Nat} (h : ∀ v ∈ l, v < n) : l.length ≤ n := by
  have : l.toFinset ⊆ Finset.range n := by
    intro v hv; exact Finset.mem_range.mpr (h v (List.mem_toFinset.mp hv))
  have := Finset.card_le_card this
  rw [Finset.card_range, List.toFinset_card_of_nodup hn] at this
  exact this

/-- All allocations of a solve succeed. -/
structure Alloc.Good (al : Alloc) : Prop where
  workspace : al.workspace = true
  status : al.status = true
  result : al.result.all = true
  reverse : al.reverse.all = true

section
variable {n : Nat} {g : AssembledConnections R}

/-- The order, with what is known about the listing of each component. -/
theorem computeOrdering_listing (hG : IsGraph n g.startPointers g.neighbourhood)
    (hl : g.startPointers.length = n + 1) {al : Alloc} (ha : al.Good) :
    ∃ comps, IsSCCs n g.startPointers g.neighbourhood (· < n) comps ∧
      (∀ c ∈ comps, ∃ l u, c = l ++ [u] ∧ ((∃ p, p ∉ c ∧ HasEdge n g.startPointers g.neighbourhood p u) ∨
        ∀ v, Reachable n g.startPointers g.neighbourhood v u → u ≤ v)) ∧
      ∀ fuel, n + numEdges n g.startPointers ≤ fuel → ∀ s,
        computeOrdering g n al fuel s = .ok (cellsOf comps.reverse, offsets comps.reverse) := by
  obtain ⟨scc, comps, e1, hst, hsc, hen⟩ := tarjan_run_entry hG al.result ha.result
  obtain ⟨scc', e2, hst'⟩ := reverse_spec hst hsc.nonempty al.reverse ha.reverse
  have ht := Topo.of_sccs hsc
  refine ⟨comps, hsc, hen, ?_⟩
  intro fuel hf s
  have hflat : comps.reverse.flatten.length = n := by
    apply le_antisymm
    · exact length_le_of_nodup ht.once fun v hv => (ht.cover v).mp hv
    · have : Finset.range n ⊆ comps.reverse.flatten.toFinset := by
        intro v hv; exact List.mem_toFinset.mpr ((ht.cover v).mpr (Finset.mem_range.mp hv))
      have := Finset.card_le_card this
      rwa [Finset.card_range, List.toFinset_card_of_nodup ht.once] at this
  obtain ⟨seq, e3, hl3, h3⟩ := extractOrdering_spec hst'.shows (n := n) (by omega) hG.vertices_int
    (by have := length_le_flatten ht.nonempty; omega) s
  have hseq : seq = cellsOf comps.reverse := by
    rw [← h3, hflat, ← hl3, List.take_length]
  unfold computeOrdering reverseOrThrow
  simp only [Res.bind_eq, Res.pure_eq, assertThat_ok (show (g.startPointers.length == n + 1) = true by simp [hl]),
    ha.workspace, ha.status, e1 fuel hf, Res.ok_bind, e2, e3, back_offsets,
    assertThat_ok (show (comps.reverse.flatten.length == n) = true by simpa using hflat), hseq]

theorem computeOrdering_spec (hG : IsGraph n g.startPointers g.neighbourhood)
    (hl : g.startPointers.length = n + 1) {al : Alloc} (ha : al.Good) :
    ∃ comps, Topo n g.startPointers g.neighbourhood (· < n) comps ∧
      ∀ fuel, n + numEdges n g.startPointers ≤ fuel → ∀ s,
        computeOrdering g n al fuel s = .ok (cellsOf comps, offsets comps) := by
  obtain ⟨comps, h1, _, h2⟩ := computeOrdering_listing hG hl ha
  exact ⟨comps.reverse, Topo.of_sccs h1, h2⟩

theorem computeLocalOrdering_spec (hG : IsGraph n g.startPointers g.neighbourhood)
    (hl : g.startPointers.length = n + 1) {al : Alloc} (ha : al.Good) (starts : List Nat)
    (hs : ∀ p ∈ starts, p < n) :
    ∃ comps, Topo n g.startPointers g.neighbourhood
        (fun v => ∃ p ∈ starts, Reachable n g.startPointers g.neighbourhood p v) comps ∧
      ∀ fuel, n + numEdges n g.startPointers ≤ fuel → ∀ s,
        computeLocalOrdering g n (starts.map fun p : Nat => (p : Int)) al fuel s
          = .ok (cellsOf comps, offsets comps) := by
  have hnv := hG.vertices_int
  have hI : INT_MAX = 2147483647 := rfl
  let work : WorkSpace := { nvert := n, status := List.replicate n none
                            link := List.replicate n none, time := List.replicate n none }
  have hw : IsWorkSpace work := ⟨by simp [work], by simp [work], by simp [work], by simp [work]; omega⟩
  obtain ⟨scc, w', e1, _, _, hst, hsc⟩ := reachable_run hG starts hs work hw (le_refl _) al.result ha.result
  generalize (Ghost.init.search n (adjOf n g.startPointers g.neighbourhood) starts).done = comps at hst hsc
  obtain ⟨scc', e2, hst'⟩ := reverse_spec hst hsc.nonempty al.reverse ha.reverse
  have ht := Topo.of_sccs hsc
  refine ⟨comps.reverse, ht, ?_⟩
  intro fuel hf s
  have hflat : comps.reverse.flatten.length ≤ n := by
    apply length_le_of_nodup ht.once
    intro v hv
    obtain ⟨p, hp, hr⟩ := (ht.cover v).mp hv
    exact reachable_lt hG (hs p hp) hr
  obtain ⟨seq, e3, hl3, h3⟩ := extractOrdering_spec hst'.shows hflat hG.vertices_int
    (by have := length_le_flatten ht.nonempty; omega) s
  have hcw : createWorkspace al.workspace al.status n = some work := by
    rw [ha.workspace, ha.status]; rfl
  unfold computeLocalOrdering reverseOrThrow
  simp only [Res.bind_eq, Res.pure_eq, assertThat_ok (show (g.startPointers.length == n + 1) = true by simp [hl]),
    hcw, e1 fuel hf, Res.ok_bind, e2, e3, back_offsets]
  rw [resize_take _ _ _ (by omega), h3]

end

end Verif.Solver
