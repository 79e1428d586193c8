/-
The values in a cell whose upstream cells lie on no cycle are computed from what is upstream of it.
Any arithmetic.
-/
import Verif.Proofs.SolverVisit
import Verif.Proofs.RoundingFlow

namespace Verif.Upstream
open Verif.Spec Verif.Solver Verif.Toolbox Verif.Tarjan

variable {R : Type} [Arith R]

section frame
variable {d : SolverData R} {b : List Bool} {ls : List R}

/-- No other cells than those of `c` have changed. -/
def Only (c : List Nat) (s s' : List R × List R) : Prop :=
  s'.1.length = s.1.length ∧ s'.2.length = s.2.length ∧ ∀ u : Nat, u ∉ c → s'.1[u]? = s.1[u]? ∧ s'.2[u]? = s.2[u]?

omit [Arith R] in
theorem Only.refl (c : List Nat) (s : List R × List R) : Only c s s := ⟨rfl, rfl, fun _ _ => ⟨rfl, rfl⟩⟩

omit [Arith R] in
theorem Only.trans {c : List Nat} {s t r : List R × List R} (h : Only c s t) (h' : Only c t r) : Only c s r :=
  ⟨h'.1.trans h.1, h'.2.1.trans h.2.1, fun u hu =>
    ⟨(h'.2.2 u hu).1.trans (h.2.2 u hu).1, (h'.2.2 u hu).2.trans (h.2.2 u hu).2⟩⟩

omit [Arith R] in
theorem Only.mono {c c' : List Nat} {s t : List R × List R} (h : Only c s t) (hc : ∀ u ∈ c, u ∈ c') : Only c' s t :=
  ⟨h.1, h.2.1, fun u hu => h.2.2 u fun hm => hu (hc u hm)⟩

theorem size_of_nat {v : Nat} (hv : v ≤ INT_MAX) : sizeOfInt (v : Int) = v := by
  rw [sizeOfInt_nonneg (by omega) (by exact_mod_cast hv)]; simp

theorem single_only {s s' : List R × List R} {v : Nat} (hv : v ≤ INT_MAX) (h : solveSingleCell d b ls s (v : Int) = .ok s') :
    Only [v] s s' := by
  obtain ⟨p, _, _, _, rfl⟩ := single_ok_iff.mp h
  rw [size_of_nat hv]
  refine ⟨by simp, by simp, fun u hu => ?_⟩
  have : v ≠ u := fun e => hu (by simp [e])
  simp [List.getElem?_set_ne this]

theorem sweep_only : ∀ (c : List Nat), (∀ v ∈ c, v ≤ INT_MAX) → ∀ {s s' : (List R × List R) × (R × R)},
    forEach (c.map fun v : Nat => (v : Int)) s (sweepCell d b ls) = .ok s' → Only c s.1 s'.1
  | [], _, s, s', h => by cases h; exact .refl _ _
  | v :: c, hc, s, s', h => by
    rw [List.map_cons, forEach_cons] at h
    obtain ⟨t, h1, h2⟩ := Res.bind_ok_iff.mp h
    unfold sweepCell at h1
    simp only [Res.bind_eq, Res.pure_eq, Res.bind_ok_iff] at h1
    obtain ⟨_, _, _, _, f, hf, _, _, _, _, e⟩ := h1
    cases e
    have := sweep_only c (fun v hv => hc v (List.mem_cons_of_mem _ hv)) h2
    exact ((single_only (hc v List.mem_cons_self) hf).mono (by simp)).trans (this.mono fun u hu => List.mem_cons_of_mem _ hu)

theorem gaussSeidel_only {c : List Nat} (hc : ∀ v ∈ c, v ≤ INT_MAX) : ∀ (fuel : Nat) {s : (List R × List R) × (R × R)}
    {s' : List R × List R}, gaussSeidel d b ls (c.map fun v : Nat => (v : Int)) fuel s = .ok s' → Only c s.1 s' := by
  intro fuel
  induction fuel with
  | zero =>
    intro s s' h
    unfold gaussSeidel at h
    split at h
    · cases h
    · cases h; exact .refl _ _
  | succ fuel ih =>
    intro s s' h
    unfold gaussSeidel at h
    split at h
    · obtain ⟨t, h1, h2⟩ := Res.bind_ok_iff.mp h
      exact (sweep_only c hc h1).trans (ih h2)
    · cases h; exact .refl _ _

theorem component_only {comps : List (List Nat)} {k : Nat} {c : List Nat} (hck : comps[k]? = some c) (hc : ∀ v ∈ c, v ≤ INT_MAX)
    {fuel : Nat} {s s' : List R × List R}
    (h : solveComponent d b ls (cellsOf comps) (offsets comps) fuel s k = .ok s') :
    Only c s s' ∧ ∀ v, c = [v] → solveSingleCell d b ls s (v : Int) = .ok s' := by
  have hk : k < comps.length := by
    by_contra h; rw [List.getElem?_eq_none (by omega)] at hck; cases hck
  unfold solveComponent at h
  simp only [Res.bind_eq, rd_of_getElem? (offsets_getElem? comps (k := k + 1) (by omega)),
    rd_of_getElem? (offsets_getElem? comps (k := k) (by omega)), Res.ok_bind, off_succ hck,
    Nat.add_sub_cancel_left, readCells_comp hck] at h
  match c, hc, h with
  | [], hc, h => exact ⟨gaussSeidel_only (c := []) (by simp) fuel h, by simp⟩
  | [v], hc, h => exact ⟨single_only (hc v (by simp)) h, fun w e => by cases e; exact h⟩
  | v :: w :: c, hc, h => exact ⟨gaussSeidel_only (c := v :: w :: c) hc fuel h, by simp⟩

/-- The cells that form a component of their own, and whose upwind neighbours come before, have at
    the end the values computed from what is there at the end. -/
theorem loop_fixed {comps : List (List Nat)} (hI : ∀ v ∈ comps.flatten, v ≤ INT_MAX) (hnd : comps.flatten.Nodup)
    {P : Nat → Prop}
    (hup : ∀ (j v : Nat), comps[j]? = some [v] → P v → ∃ nb, d.gReverse.cellNeighbourhood (v : Int) = .ok nb ∧
      ∀ e ∈ nb, sizeOfInt e.1 ∉ (comps.drop j).flatten)
    {fuel : Nat} {s : List R × List R} : ∀ k ≤ comps.length, ∀ s',
    forEach (List.range k) s (solveComponent d b ls (cellsOf comps) (offsets comps) fuel) = .ok s' →
    Only (comps.take k).flatten s s' ∧
    ∀ j v, j < k → comps[j]? = some [v] → P v → ∃ p, cellVals d b ls s' (v : Int) = .ok p ∧
      s'.1[v]? = some p.1 ∧ s'.2[v]? = some p.2 := by
  intro k
  induction k with
  | zero =>
    intro _ s' h
    cases h
    exact ⟨.refl _ _, by simp⟩
  | succ k ih =>
    intro hk s' h
    rw [List.range_succ, forEach_append] at h
    obtain ⟨t, h1, h2⟩ := Res.bind_ok_iff.mp h
    rw [forEach_cons] at h2
    obtain ⟨t', h2, h3⟩ := Res.bind_ok_iff.mp h2
    cases h3
    obtain ⟨i1, i2⟩ := ih (by omega) t h1
    have hck : comps[k]? = some comps[k] := List.getElem?_eq_getElem (by omega)
    obtain ⟨c1, c2⟩ := component_only hck (fun v hv => hI v (List.mem_flatten.mpr ⟨_, List.getElem_mem (by omega), hv⟩)) h2
    refine ⟨?_, ?_⟩
    · rw [List.take_succ_eq_append_getElem (by omega), List.flatten_append]
      exact (i1.mono fun u hu => List.mem_append_left _ hu).trans (c1.mono fun u hu => List.mem_append_right _ (by simpa using hu))
    · intro j v hj hcj hP
      obtain ⟨nb, hnb, hne⟩ := hup j v hcj hP
      have hdrop : ∀ m, j ≤ m → ∀ (hm : m < comps.length), ∀ u ∈ comps[m], u ∈ (comps.drop j).flatten := by
        intro m hjm hm u hu
        refine List.mem_flatten.mpr ⟨comps[m], ?_, hu⟩
        rw [List.mem_iff_getElem?]
        exact ⟨m - j, by rw [List.getElem?_drop, show j + (m - j) = m by omega, List.getElem?_eq_getElem hm]⟩
      by_cases hjk : j = k
      · subst hjk
        rw [hck] at hcj
        simp only [Option.some.injEq] at hcj
        have h4 := c2 v hcj
        have hvI : v ≤ INT_MAX := hI v (List.mem_flatten.mpr ⟨_, List.getElem_mem (by omega : j < comps.length), by rw [hcj]; simp⟩)
        obtain ⟨p, hp, hl1, hl2, rfl⟩ := single_ok_iff.mp h4
        rw [size_of_nat hvI] at hl1 hl2 ⊢
        refine ⟨p, ?_, List.getElem?_set_self hl1, List.getElem?_set_self hl2⟩
        rw [← hp]
        apply cellVals_congr hnb
        intro e he
        have : v ≠ sizeOfInt e.1 := fun e' => hne e he (e' ▸ hdrop j (le_refl _) (by omega) v (by rw [hcj]; simp))
        simp [List.getElem?_set_ne this]
      · obtain ⟨p, p1, p2, p3⟩ := i2 j v (by omega) hcj hP
        have hv : v ∉ comps[k] := by
          intro hm
          have hjl : j < comps.length := by omega
          have hpw := (List.nodup_flatten.mp hnd).2
          have := List.pairwise_iff_getElem.mp hpw j k hjl (by omega) (by omega)
          rw [List.getElem?_eq_getElem hjl] at hcj
          simp only [Option.some.injEq] at hcj
          exact this (by rw [hcj]; simp) hm
        refine ⟨p, ?_, ?_, ?_⟩
        · rw [← p1]
          apply cellVals_congr hnb
          intro e he
          exact c1.2.2 _ fun hm => hne e he (hdrop k (by omega) (by omega) _ hm)
        · rw [(c1.2.2 v hv).1, p2]
        · rw [(c1.2.2 v hv).2, p3]

end frame

section pair
variable {d d' : SolverData R} {b b' : List Bool} {ls ls' : List R}

/-- In the cells of `U`, which has the upwind neighbours of its cells, both computations have the same data. -/
structure SameData (d d' : SolverData R) (b b' : List Bool) (ls ls' : List R) (U : Nat → Prop) : Prop where
  source : ∀ v, U v → d'.sourceTerm[v]? = d.sourceTerm[v]?
  influx : ∀ v, U v → d'.influx[v]? = d.influx[v]?
  pv : ∀ v, U v → d'.pv[v]? = d.pv[v]?
  start : ∀ v, U v → b'[v]? = b[v]?
  localSource : ∀ v, U v → ls'[v]? = ls[v]?
  upwind : ∀ v, U v → ∃ nb, d.gReverse.cellNeighbourhood (v : Int) = .ok nb ∧ d'.gReverse.cellNeighbourhood (v : Int) = .ok nb ∧
    ∀ e ∈ nb, U (sizeOfInt e.1)

theorem cellVals_same {U : Nat → Prop} (h : SameData d d' b b' ls ls' U) {s s' : List R × List R} {v : Nat} (hv : U v)
    (hI : v ≤ INT_MAX) {nb : List (Int × R)} (hnb : d.gReverse.cellNeighbourhood (v : Int) = .ok nb)
    (hs : ∀ e ∈ nb, s'.1[sizeOfInt e.1]? = s.1[sizeOfInt e.1]? ∧ s'.2[sizeOfInt e.1]? = s.2[sizeOfInt e.1]?) :
    cellVals d' b' ls' s' (v : Int) = cellVals d b ls s (v : Int) := by
  rw [← cellVals_congr (s := s') (t := s) hnb hs]
  obtain ⟨nb', h1, h2, _⟩ := h.upwind v hv
  unfold cellVals withLocalSource rd
  simp only [size_of_nat hI, h.source v hv, h.influx v hv, h.pv v hv, h.start v hv, h.localSource v hv, h1, h2]

/-- Each cell of `U` that is visited is a component of its own, and its upwind neighbours come before it. -/
structure Placed (d : SolverData R) (comps : List (List Nat)) (U : Nat → Prop) : Prop where
  int : ∀ v ∈ comps.flatten, v ≤ INT_MAX
  once : comps.flatten.Nodup
  single : ∀ v, U v → v ∈ comps.flatten → ∃ j : Nat, comps[j]? = some [v]
  before : ∀ (j v : Nat), comps[j]? = some [v] → U v → ∃ nb, d.gReverse.cellNeighbourhood (v : Int) = .ok nb ∧
      ∀ e ∈ nb, sizeOfInt e.1 ∉ (comps.drop j).flatten

theorem same_values {U : Nat → Prop} (h : SameData d d' b b' ls ls' U) {comps comps' : List (List Nat)}
    (hp : Placed d comps U) (hp' : Placed d' comps' U) (hc : ∀ v, U v → (v ∈ comps'.flatten ↔ v ∈ comps.flatten))
    {n n' : Nat} (hn : ∀ v, U v → v < n ∧ v < n') {fuel : Nat} {s s' : List R × List R}
    (hs : forEach (List.range comps.length) (List.replicate n Arith.zero, List.replicate n Arith.zero)
      (solveComponent d b ls (cellsOf comps) (offsets comps) fuel) = .ok s)
    (hs' : forEach (List.range comps'.length) (List.replicate n' Arith.zero, List.replicate n' Arith.zero)
      (solveComponent d' b' ls' (cellsOf comps') (offsets comps') fuel) = .ok s') :
    ∀ v, U v → s'.1[v]? = s.1[v]? ∧ s'.2[v]? = s.2[v]? := by
  obtain ⟨o, f⟩ := loop_fixed hp.int hp.once hp.before _ (le_refl _) s hs
  obtain ⟨o', f'⟩ := loop_fixed hp'.int hp'.once hp'.before _ (le_refl _) s' hs'
  rw [List.take_length] at o o'
  have hout : ∀ v, U v → v ∉ comps.flatten → s'.1[v]? = s.1[v]? ∧ s'.2[v]? = s.2[v]? := by
    intro v hv hm
    obtain ⟨a1, a2⟩ := o.2.2 v hm
    obtain ⟨b1, b2⟩ := o'.2.2 v fun h => hm ((hc v hv).mp h)
    obtain ⟨l1, l2⟩ := hn v hv
    rw [a1, a2, b1, b2]
    simp [l1, l2]
  have key : ∀ j v : Nat, U v → comps[j]? = some [v] → s'.1[v]? = s.1[v]? ∧ s'.2[v]? = s.2[v]? := by
    intro j
    induction j using Nat.strong_induction_on with
    | _ j ih =>
      intro v hv hcj
      have hjl : j < comps.length := by
        by_contra h; rw [List.getElem?_eq_none (by omega)] at hcj; cases hcj
      have hmem : v ∈ comps.flatten := List.mem_flatten.mpr ⟨[v], List.mem_of_getElem? hcj, by simp⟩
      obtain ⟨j', hcj'⟩ := hp'.single v hv ((hc v hv).mpr hmem)
      have hjl' : j' < comps'.length := by
        by_contra h; rw [List.getElem?_eq_none (by omega)] at hcj'; cases hcj'
      obtain ⟨p, p1, p2, p3⟩ := f j v hjl hcj hv
      obtain ⟨q, q1, q2, q3⟩ := f' j' v hjl' hcj' hv
      obtain ⟨nb, hnb, hne⟩ := hp.before j v hcj hv
      obtain ⟨nb2, hnb2, _, hU⟩ := h.upwind v hv
      rw [hnb] at hnb2; cases hnb2
      have e := cellVals_same h (s := s) (s' := s') hv (hp.int v hmem) hnb (fun e he => by
        by_cases hm : sizeOfInt e.1 ∈ comps.flatten
        · obtain ⟨i, hi⟩ := hp.single _ (hU e he) hm
          refine ih i ?_ _ (hU e he) hi
          by_contra hij
          refine hne e he (List.mem_flatten.mpr ⟨_, ?_, List.mem_singleton.mpr rfl⟩)
          rw [List.mem_iff_getElem?]
          exact ⟨i - j, by rw [List.getElem?_drop, show j + (i - j) = i by omega, hi]⟩
        · exact hout _ (hU e he) hm)
      rw [q1, p1] at e
      cases e
      rw [q2, p2, q3, p3]
      exact ⟨rfl, rfl⟩
  intro v hv
  by_cases hm : v ∈ comps.flatten
  · obtain ⟨j, hj⟩ := hp.single v hv hm
    exact key j v hv hj
  · exact hout v hv hm

omit [Arith R] in
/-- The components of the search. -/
theorem placed_of_topo {n : Nat} (hd : GraphPair d n) {V : Nat → Prop} (hV : ∀ v, V v → v < n) {comps : List (List Nat)}
    (ht : Topo n d.g.startPointers d.g.neighbourhood V comps) {U : Nat → Prop}
    (hacy : ∀ v, U v → ¬ Relation.TransGen (Edge d n) v v) : Placed d comps U := by
  have hI := hd.graph.vertices_int
  refine ⟨fun v hv => ?_, ht.once, ?_, ?_⟩
  · have := hV v ((ht.cover v).mp hv)
    omega
  · intro v hv hm
    obtain ⟨c, hc, hvc⟩ := List.mem_flatten.mp hm
    obtain ⟨j, hj⟩ := List.mem_iff_getElem?.mp hc
    refine ⟨j, ?_⟩
    rw [hj]
    have hnd : c.Nodup := (List.nodup_flatten.mp ht.once).1 c hc
    have hall : ∀ w ∈ c, w = v := by
      intro w hw
      by_contra hne
      rcases Relation.reflTransGen_iff_eq_or_transGen.mp (ht.strong c hc v hvc w hw) with e | h1
      · exact hne e
      exact hacy v hv (h1.trans_left (ht.strong c hc w hw v hvc))
    match c, hnd, hvc, hall with
    | [], _, hvc, _ => simp at hvc
    | [a], _, _, hall => rw [hall a (by simp)]
    | a :: a' :: c, hnd, _, hall =>
      exact absurd ((hall a (by simp)).trans (hall a' (by simp)).symm) (fun e => (List.nodup_cons.mp hnd).1 (by rw [e]; simp))
  · intro j v hcj hv
    have hjl : j < comps.length := by
      by_contra h; rw [List.getElem?_eq_none (by omega)] at hcj; cases hcj
    have hmem : v ∈ comps.flatten := List.mem_flatten.mpr ⟨[v], List.mem_of_getElem? hcj, by simp⟩
    obtain ⟨nb, hnb, hn⟩ := hd.upwind v (hV v ((ht.cover v).mp hmem))
    refine ⟨nb, hnb, fun e he hm => ?_⟩
    obtain ⟨u, hu, hedge⟩ := hn e he
    rw [hu, sizeOfInt_nat hedge.1 hI] at hm
    obtain ⟨c, hc, huc⟩ := List.mem_flatten.mp hm
    obtain ⟨i, hi⟩ := List.mem_iff_getElem?.mp hc
    rw [List.getElem?_drop] at hi
    have hil : j + i < comps.length := by
      by_contra h; rw [List.getElem?_eq_none (by omega)] at hi; cases hi
    by_cases h0 : i = 0
    · subst h0
      rw [Nat.add_zero, hcj] at hi
      cases hi
      rw [List.mem_singleton] at huc
      subst huc
      exact hacy u hv (.single hedge)
    · rw [List.getElem?_eq_getElem hil] at hi
      simp only [Option.some.injEq] at hi
      refine ht.order (comps.take (j + i)) c (comps.drop (j + i + 1)) ?_ u huc v ?_ hedge
      · rw [← hi, List.getElem_cons_drop, List.take_append_drop]
      · refine List.mem_flatten.mpr ⟨[v], ?_, by simp⟩
        rw [List.mem_iff_getElem?]
        exact ⟨j, by rw [List.getElem?_take_of_lt (by omega), hcj]⟩

/-! ### The calls -/

theorem global_loop {n : Nat} (hd : GraphPair d n) {fuel : Nat} (hf : n + numEdges n d.g.startPointers ≤ fuel)
    {st : SolverState R} {l : List R} (h : (solveGlobal d Alloc.good fuel st).2 = .ok l) :
    ∃ comps b s, Topo n d.g.startPointers d.g.neighbourhood (· < n) comps ∧
      setupStartArrayFromSource d (List.replicate n false) = .ok b ∧
      forEach (List.range comps.length) (List.replicate n Arith.zero, List.replicate n Arith.zero)
        (solveComponent d b d.sourceTerm (cellsOf comps) (offsets comps) fuel) = .ok s ∧
      l = s.1.map fun t => Arith.min t maxTof := by
  obtain ⟨comps, ht, horder⟩ := computeOrdering_spec hd.graph hd.size Alloc.good_good
  unfold solveGlobal prepareForSolve at h
  simp only [hd.pv] at h
  cases hs : setupStartArrayFromSource d (List.replicate n false) with
  | throw e => rw [hs] at h; simp [finish] at h
  | ub e => rw [hs] at h; simp [finish] at h
  | diverge => rw [hs] at h; simp [finish] at h
  | ok b =>
    rw [hs] at h
    simp only [finish, horder fuel hf] at h
    refine ⟨comps, b, ?_⟩
    unfold solve at h
    rw [offsets_length, Nat.add_sub_cancel] at h
    cases hv : forEach (List.range comps.length) (List.replicate n Arith.zero, List.replicate n Arith.zero)
        (solveComponent d b d.sourceTerm (cellsOf comps) (offsets comps) fuel) with
    | throw e => rw [hv] at h; simp [Res.bind_eq, Res.bind] at h
    | ub e => rw [hv] at h; simp [Res.bind_eq, Res.bind] at h
    | diverge => rw [hv] at h; simp [Res.bind_eq, Res.bind] at h
    | ok s =>
      rw [hv] at h
      simp only [Res.bind_eq, Res.ok_bind, Res.pure_eq, Res.ok.injEq] at h
      exact ⟨s, ht, rfl, rfl, h.symm⟩

theorem local_loop {n : Nat} (hd : GraphPair d n) {startset : CellSetValues R}
    {starts : List Nat} (hk : (startset.map fun e => e.1) = starts.map fun v : Nat => (v : Int))
    (hp : ∀ p ∈ starts, p < n) {fuel : Nat} (hf : n + numEdges n d.g.startPointers ≤ fuel) {st : SolverState R}
    (hl : st.localSource.length = n) {sol : LocalSolution R} (h : (solveLocal d Alloc.good fuel startset st).2 = .ok sol) :
    ∃ comps b s, Topo n d.g.startPointers d.g.neighbourhood (fun v => ∃ p ∈ starts, Relation.ReflTransGen (Edge d n) p v) comps ∧
      setupStartArray (List.replicate n false) startset = .ok b ∧
      (setupLocalSource (List.replicate n Arith.zero) startset).2 = .ok () ∧
      forEach (List.range comps.length) (List.replicate n Arith.zero, List.replicate n Arith.zero)
        (solveComponent d b (setupLocalSource (List.replicate n Arith.zero) startset).1 (cellsOf comps) (offsets comps) fuel) = .ok s ∧
      ∀ v : Nat, sol.tof.find (v : Int) = (if v ∈ comps.flatten then s.1[v]?.map fun t => Arith.min t maxTof else none) ∧
        sol.concentration.find (v : Int) = (if v ∈ comps.flatten then s.2[v]? else none) := by
  obtain ⟨comps, ht, horder⟩ := computeLocalOrdering_spec hd.graph hd.size Alloc.good_good starts hp
  have hV : ∀ v, (∃ p ∈ starts, Relation.ReflTransGen (Edge d n) p v) → v < n := by
    rintro v ⟨p, hps, hr⟩
    rcases Relation.ReflTransGen.cases_tail hr with e | ⟨x, _, e⟩
    · rw [e]; exact hp p hps
    · have := hd.graph.range x e.1 _ e.2
      omega
  have hIc : ∀ v ∈ comps.flatten, v ≤ INT_MAX := fun v hv => by
    have := hV v ((ht.cover v).mp hv)
    have := hd.graph.vertices_int
    omega
  rw [solveLocal_indep Alloc.good fuel startset st { localSource := List.replicate n Arith.zero } (by simp [hl])] at h
  unfold solveLocal prepareForSolve at h
  simp only [hd.pv] at h
  cases hs : setupStartArray (List.replicate n false) startset with
  | throw e => rw [hs] at h; simp [finish] at h
  | ub e => rw [hs] at h; simp [finish] at h
  | diverge => rw [hs] at h; simp [finish] at h
  | ok b =>
    rw [hs] at h
    simp only [finish, hk, horder fuel hf] at h
    cases hls : setupLocalSource (List.replicate n Arith.zero) startset with
    | mk ls r =>
      rw [hls] at h
      simp only at h
      match r, h with
      | .ok (), h =>
        unfold solve at h
        simp only [offsets_length, Nat.add_sub_cancel] at h
        cases hv : forEach (List.range comps.length) (List.replicate n Arith.zero, List.replicate n Arith.zero)
            (solveComponent d b ls (cellsOf comps) (offsets comps) fuel) with
        | throw e => rw [hv] at h; simp [Res.bind_eq, Res.bind] at h
        | ub e => rw [hv] at h; simp [Res.bind_eq, Res.bind] at h
        | diverge => rw [hv] at h; simp [Res.bind_eq, Res.bind] at h
        | ok s =>
          rw [hv] at h
          simp only [Res.bind_eq, Res.ok_bind, Res.pure_eq] at h
          cases hcl : cleanupLocalSource ls startset with
          | throw e => rw [hcl] at h; simp at h
          | ub e => rw [hcl] at h; simp at h
          | diverge => rw [hcl] at h; simp at h
          | ok ls' =>
            rw [hcl] at h
            simp only at h
            cases hco : collect (s.1.map fun t => Arith.min t maxTof) s.2 (cellsOf comps) (offsets comps) with
            | throw e => rw [hco] at h; simp at h
            | ub e => rw [hco] at h; simp at h
            | diverge => rw [hco] at h; simp at h
            | ok sol' =>
              rw [hco] at h
              simp only [Res.ok.injEq] at h
              subst h
              refine ⟨comps, b, s, ht, rfl, rfl, hv, ?_⟩
              have hread : readCells (cellsOf comps) 0 comps.flatten.length = .ok (cellsOf comps) := by
                have hl : (cellsOf comps).length = comps.flatten.length := by unfold cellsOf; rw [List.length_map]
                unfold readCells
                rw [if_pos (by omega), List.drop_zero, ← hl, List.take_length]
              unfold collect at hco
              simp only [Res.bind_eq, back_offsets, Res.ok_bind, hread] at hco
              intro v
              have := collect_find _ _ comps.flatten hIc _ _ hco (v : Int)
              rw [this.1, this.2]
              by_cases hvs : v ∈ comps.flatten <;> simp [hvs, OMap.find]

end pair

end Verif.Upstream
