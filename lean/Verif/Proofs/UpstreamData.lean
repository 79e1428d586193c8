/-
Two computations from data that are alike in all cells upstream of some cells.  Any arithmetic.
-/
import Verif.Proofs.Upstream

namespace Verif.Upstream
open Verif.Spec Verif.Solver Verif.Toolbox Verif.Tarjan

variable {R : Type} [Arith R]

/-! ### What the parts of a solver are made from -/

section parts

omit [Arith R] in
theorem startArray_find {n : Nat} (hI : n ≤ INT_MAX) : ∀ (ss : CellSetValues R), (∀ e ∈ ss, 0 ≤ e.1 ∧ e.1 < (n : Int)) →
    ∀ {b b' : List Bool}, b.length = n → setupStartArray b ss = .ok b' →
    ∀ v < n, b'[v]? = if (OMap.find ss (v : Int)).isSome then some true else b[v]?
  | [], _, b, b', _, h, v, _ => by cases h; simp [OMap.find]
  | p :: ss, hr, b, b', hb, h, v, hv => by
    unfold setupStartArray at h
    rw [forEach_cons] at h
    obtain ⟨b1, h1, h2⟩ := Res.bind_ok_iff.mp h
    have hp := hr p List.mem_cons_self
    have hsz : sizeOfInt p.1 = p.1.toNat := sizeOfInt_nonneg (by omega) (by omega)
    rw [hsz] at h1
    obtain ⟨hlt, rfl⟩ := wr_eq_ok_iff.mp h1
    have := startArray_find hI ss (fun e he => hr e (List.mem_cons_of_mem _ he)) (by simpa using hb) h2 v hv
    rw [this, OMap.find_cons]
    by_cases hpv : p.1 = (v : Int)
    · have : p.1.toNat = v := by omega
      rw [this, List.getElem?_set_self (by omega), if_pos hpv]
      simp
    · have hne : p.1.toNat ≠ v := by omega
      rw [List.getElem?_set_ne hne, if_neg hpv]

theorem localSource_find {n : Nat} (hI : n ≤ INT_MAX) : ∀ (ss : CellSetValues R), OMap.Sorted ss →
    (∀ e ∈ ss, 0 ≤ e.1 ∧ e.1 < (n : Int)) → ∀ {ls : List R}, ls.length = n → (setupLocalSource ls ss).2 = .ok () →
    ∀ v < n, (setupLocalSource ls ss).1[v]? = match OMap.find ss (v : Int) with | some x => some x | none => ls[v]?
  | [], _, _, ls, _, _, v, _ => by simp [setupLocalSource, OMap.find]
  | p :: ss, hs, hr, ls, hl, h, v, hv => by
    have hp := hr p List.mem_cons_self
    have hsz : sizeOfInt p.1 = p.1.toNat := sizeOfInt_nonneg (by omega) (by omega)
    unfold setupLocalSource at h ⊢
    split at h
    · cases h
    · rename_i hneg
      rw [if_neg hneg]
      rw [hsz, wr_ok (show p.1.toNat < ls.length by omega)] at h ⊢
      simp only at h ⊢
      have hs' := List.pairwise_cons.mp hs
      have := localSource_find hI ss hs'.2 (fun e he => hr e (List.mem_cons_of_mem _ he)) (by simpa using hl) h v hv
      rw [this, OMap.find_cons]
      by_cases hpv : p.1 = (v : Int)
      · have e : p.1.toNat = v := by omega
        have hno : OMap.find ss (v : Int) = none := by
          rw [OMap.find_none_iff]
          intro x hx e'
          have := hs'.1 x hx
          omega
        rw [hno, if_pos hpv]
        simp only
        rw [e, List.getElem?_set_self (by omega)]
      · have hne : p.1.toNat ≠ v := by omega
        rw [if_neg hpv, List.getElem?_set_ne hne]

theorem sourceStart_find {d : SolverData R} {n : Nat} (hpv : d.pv.length = n) {b : List Bool}
    (h : setupStartArrayFromSource d (List.replicate n false) = .ok b) :
    ∀ v < n, b[v]? = (d.sourceTerm[v]?).map (Arith.lt Arith.zero) := by
  unfold setupStartArrayFromSource at h
  rw [hpv] at h
  have key : ∀ k ≤ n, ∀ b, forEach (List.range k) (List.replicate n false) (fun (b : List Bool) cell => do
      let x ← rd d.sourceTerm cell
      if Arith.lt Arith.zero x then wr b cell true else pure b) = .ok b →
      b.length = n ∧ ∀ v < n, b[v]? = if v < k then (d.sourceTerm[v]?).map (Arith.lt Arith.zero) else some false := by
    intro k
    induction k with
    | zero =>
      intro _ b h
      cases h
      exact ⟨by simp, fun v hv => by simp [hv]⟩
    | succ k ih =>
      intro hk b h
      rw [List.range_succ, forEach_append] at h
      obtain ⟨c, h1, h2⟩ := Res.bind_ok_iff.mp h
      obtain ⟨i1, i2⟩ := ih (by omega) c h1
      rw [forEach_cons] at h2
      obtain ⟨c', h2, h3⟩ := Res.bind_ok_iff.mp h2
      cases h3
      obtain ⟨x, h3, h4⟩ := Res.bind_ok_iff.mp h2
      rw [rd_eq_ok_iff] at h3
      have hb : b = c.set k (Arith.lt Arith.zero x) := by
        split at h4
        · rename_i hx
          obtain ⟨_, rfl⟩ := wr_eq_ok_iff.mp h4
          rw [hx]
        · rename_i hx
          cases h4
          have := i2 k (by omega)
          rw [if_neg (lt_irrefl k)] at this
          rw [Bool.not_eq_true] at hx
          rw [hx]
          refine (List.ext_getElem? fun i => ?_).symm
          by_cases e : k = i
          · subst e; rw [List.getElem?_set_self (by omega), this]
          · rw [List.getElem?_set_ne e]
      subst hb
      refine ⟨by simpa using i1, fun v hv => ?_⟩
      by_cases e : k = v
      · subst e
        rw [List.getElem?_set_self (by omega), if_pos (by omega), h3]; rfl
      · rw [List.getElem?_set_ne e, i2 v hv]
        by_cases h' : v < k
        · rw [if_pos h', if_pos (by omega)]
        · rw [if_neg h', if_neg (by omega)]
  intro v hv
  have := (key n (le_refl _) b h).2 v hv
  rw [this, if_pos hv]

omit [Arith R] in
theorem find_insertAll (l : List (CellSetID × Int × R)) (m : OMap Int R) (c : Int) :
    OMap.find (l.foldl (fun m e => OMap.insert m e.2.1 e.2.2) m) c =
      (OMap.find m c).or (((l.filter fun e => decide (e.2.1 = c)).head?).map fun e => e.2.2) := by
  induction l generalizing m with
  | nil => simp
  | cons e l ih =>
    rw [List.foldl_cons, ih, OMap.insert_eq, List.filter_cons]
    by_cases h : e.2.1 = c
    · subst h
      cases hf : OMap.find m e.2.1 with
      | some x => simp [hf]
      | none => simp [OMap.find_assign]
    · have h2 : OMap.find (if (OMap.find m e.2.1).isSome then m else OMap.assign m e.2.1 e.2.2) c = OMap.find m c := by
        split
        · rfl
        · rw [OMap.find_assign, if_neg h]
      rw [h2]
      simp [h]

/-- The values of a cell set in a cell depend on the entries for the cell. -/
theorem find_byId (l : List (CellSetID × Int × R)) (i : CellSetID) (c : Int) :
    OMap.find (OMap.at_ (gather l).byId i []) c =
      (((l.filter fun e => decide (e.2.1 = c)).filter fun e => decide (e.1 = i)).head?).map fun e => e.2.2 := by
  unfold OMap.at_
  rw [gather_byId, List.filter_comm]
  split
  · rw [Option.getD_some, find_insertAll]; simp [OMap.find]
  · rename_i hno
    have : l.filter (fun e => decide (e.1 = i)) = [] := by
      rw [List.filter_eq_nil_iff]
      intro e he hd
      exact hno ⟨e, he, by simpa using hd⟩
    rw [this]; rfl

theorem byId_sorted (l : List (CellSetID × Int × R)) (i : CellSetID) : OMap.Sorted (OMap.at_ (gather l).byId i []) := by
  unfold OMap.at_
  rw [gather_byId]
  split
  · rw [Option.getD_some]
    generalize l.filter (fun e => decide (e.1 = i)) = l'
    have : ∀ m : OMap Int R, OMap.Sorted m → OMap.Sorted (l'.foldl (fun m e => OMap.insert m e.2.1 e.2.2) m) := by
      induction l' with
      | nil => intro m h; exact h
      | cons e l' ih => intro m h; exact ih _ (OMap.sorted_insert h _ _)
    exact this _ OMap.sorted_nil
  · exact OMap.sorted_nil

/-- What a solver is made from. -/
theorem create_facts {n : Nat} (hI : n ≤ INT_MAX) {D : List (Int × Int × R)}
    (hD : ∀ c ∈ D, (0 ≤ c.1 ∧ c.1 < n) ∧ (0 ≤ c.2.1 ∧ c.2.1 < n)) {pv : List R} (hpv : pv.length = n)
    {l : List (CellSetID × Int × R)} (hl : ∀ e ∈ l, 0 ≤ e.2.1 ∧ e.2.1 < n) {d : SolverData R} {st : SolverState R}
    (h : Solver.create (graphsOf n D).1 (graphsOf n D).2 pv (gather l).only = .ok (d, st)) :
    d.g = (graphsOf n D).1 ∧ d.gReverse = (graphsOf n D).2 ∧ d.pv = pv ∧ st.localSource.length = n ∧
      ∀ v < n, d.influx[v]? = some (((rowOfFlow n (swapEnds D) v).map fun e => e.2).foldl Arith.add Arith.zero) ∧
        d.sourceTerm[v]? =
          some (((l.filter fun e => decide (e.2.1 = (v : Int))).map fun e => e.2.2).foldl Arith.add Arith.zero) := by
  obtain ⟨hG, _⟩ := graphsOf_good hI hD
  obtain ⟨r1, r2⟩ := graphsOf_rows hI hD
  obtain ⟨io, h1, h2, h3⟩ := influx_eq hI hG r1
  unfold Solver.create at h
  simp only [Res.bind_eq, h1, Res.ok_bind, Res.pure_eq, Res.bind_ok_iff] at h
  obtain ⟨src, hsrc, e⟩ := h
  cases e
  rw [hpv] at hsrc
  obtain ⟨s1, s2, s3, s4⟩ := Rounding.expandSparse_entries hI (gather_sorted l).1 (gather_range hl).1 hsrc
  refine ⟨rfl, rfl, rfl, by simp [hpv], fun v hv => ⟨h3 v hv, ?_⟩⟩
  have hf := gather_only l (v : Int)
  by_cases he : ∃ e ∈ l, e.2.1 = (v : Int)
  · rw [if_pos he] at hf
    have := s2 _ (OMap.find_some_mem hf)
    simpa using this
  · rw [if_neg he, OMap.find_none_iff] at hf
    have hnil : (l.filter fun e => decide (e.2.1 = (v : Int))) = [] := by
      rw [List.filter_eq_nil_iff]
      intro e hel
      simp only [decide_eq_true_eq]
      exact fun h => he ⟨e, hel, h⟩
    rw [hnil]
    exact s4 v hv hf

/-- Something is carried from `u` to `v`. -/
def Goes (D : List (Int × Int × R)) (u v : Nat) : Prop := ∃ w, ((u : Int), (v : Int), w) ∈ D

theorem edge_iff {n : Nat} (hI : n ≤ INT_MAX) {D : List (Int × Int × R)}
    (hD : ∀ c ∈ D, (0 ≤ c.1 ∧ c.1 < n) ∧ (0 ≤ c.2.1 ∧ c.2.1 < n)) {u v : Nat} :
    HasEdge n (graphsOf n D).1.startPointers (graphsOf n D).1.neighbourhood u v ↔ Goes D u v := by
  obtain ⟨g1, e1, _, a1, _⟩ := compressStep_ok hI hD
  unfold graphsOf
  rw [e1]
  constructor
  · rintro ⟨hu, hm⟩
    exact (a1.mem u hu _).mp hm
  · rintro ⟨w, hw⟩
    have hu : u < n := by have := (hD _ hw).1; simp only at this; omega
    exact ⟨hu, (a1.mem u hu _).mpr ⟨w, hw⟩⟩

theorem graphPair_of {n : Nat} (hI : n ≤ INT_MAX) {D : List (Int × Int × R)}
    (hD : ∀ c ∈ D, (0 ≤ c.1 ∧ c.1 < n) ∧ (0 ≤ c.2.1 ∧ c.2.1 < n)) {d : SolverData R}
    (hg : d.g = (graphsOf n D).1) (hr : d.gReverse = (graphsOf n D).2) (hpv : d.pv.length = n) : GraphPair d n := by
  obtain ⟨hG, _⟩ := graphsOf_good hI hD
  refine ⟨hg ▸ hG.isGraph hI, hg ▸ hG.size, hpv, fun v hv => ⟨_, hr ▸ (graphsOf_rows hI hD).2 v hv, fun e he => ?_⟩⟩
  unfold rowOfFlow at he
  obtain ⟨u, hu, rfl⟩ := List.mem_map.mp he
  have hj := (List.mem_filter.mp hu).2
  rw [joins_swap] at hj
  rw [hg]
  exact ⟨u, rfl, (edge_iff hI hD).mpr (joins_iff.mp hj)⟩

end parts

/-! ### Two computations -/

section alike

/-- `U` has the cells upstream of its cells, none of which is on a cycle, and in the cells of `U` the data are the same. -/
structure Alike (n n' : Nat) (D D' : List (Int × Int × R)) (pv pv' : List R) (l l' : List (CellSetID × Int × R))
    (U : Nat → Prop) : Prop where
  below : ∀ v, U v → v < n ∧ v < n'
  closed : ∀ u v, Goes D u v → U v → U u
  acyclic : ∀ v, U v → ¬ Relation.TransGen (Goes D) v v
  flow : ∀ v, U v → ∀ u : Nat, weightsOf D' (u : Int) (v : Int) = weightsOf D (u : Int) (v : Int)
  pv : ∀ v, U v → pv'[v]? = pv[v]?
  rates : ∀ v, U v → (l'.filter fun e => decide (e.2.1 = ((v : Nat) : Int))) = l.filter fun e => decide (e.2.1 = ((v : Nat) : Int))

variable {n n' : Nat} {D D' : List (Int × Int × R)} {pv pv' : List R} {l l' : List (CellSetID × Int × R)} {U : Nat → Prop}

omit [Arith R] in
theorem goes_iff {D : List (Int × Int × R)} {u v : Nat} : Goes D u v ↔ weightsOf D (u : Int) (v : Int) ≠ [] := by
  unfold Goes weightsOf
  rw [← joins_iff]
  unfold joins
  simp only [ne_eq, List.map_eq_nil_iff, List.filter_eq_nil_iff, List.any_eq_true]
  push Not
  rfl

omit [Arith R] in
theorem Alike.goes (h : Alike n n' D D' pv pv' l l' U) {u v : Nat} (hv : U v) : Goes D' u v ↔ Goes D u v := by
  rw [goes_iff, goes_iff, h.flow v hv u]

omit [Arith R] in
theorem Alike.reach (h : Alike n n' D D' pv pv' l l' U) {p v : Nat} (hv : U v) (hr : Relation.ReflTransGen (Goes D') p v) :
    U p ∧ Relation.ReflTransGen (Goes D) p v := by
  induction hr using Relation.ReflTransGen.head_induction_on with
  | refl => exact ⟨hv, .refl⟩
  | head hab _ ih =>
    have e := (h.goes ih.1).mp hab
    exact ⟨h.closed _ _ e ih.1, .head e ih.2⟩

omit [Arith R] in
theorem Alike.symm (h : Alike n n' D D' pv pv' l l' U) : Alike n' n D' D pv' pv l' l U := by
  refine ⟨fun v hv => (h.below v hv).symm, fun u v hg hv => h.closed u v ((h.goes hv).mp hg) hv, ?_, fun v hv u => (h.flow v hv u).symm,
    fun v hv => (h.pv v hv).symm, fun v hv => (h.rates v hv).symm⟩
  intro v hv hc
  obtain ⟨w, h1, h2⟩ := Relation.TransGen.head'_iff.mp hc
  obtain ⟨hw, h3⟩ := h.reach hv h2
  exact h.acyclic v hv (Relation.TransGen.head' ((h.goes hw).mp h1) h3)

theorem Alike.row (h : Alike n n' D D' pv pv' l l' U) (hD : ∀ c ∈ D, (0 ≤ c.1 ∧ c.1 < n) ∧ (0 ≤ c.2.1 ∧ c.2.1 < n))
    (hD' : ∀ c ∈ D', (0 ≤ c.1 ∧ c.1 < n') ∧ (0 ≤ c.2.1 ∧ c.2.1 < n')) {v : Nat} (hv : U v) :
    rowOfFlow n' (swapEnds D') v = rowOfFlow n (swapEnds D) v := by
  have hflow : ∀ u : Nat, flowOf (swapEnds D') v u = flowOf (swapEnds D) v u := by
    intro u
    rw [flowOf_swap, flowOf_swap]
    unfold flowOf
    rw [h.flow v hv u]
  have hj : joins (swapEnds D') v = joins (swapEnds D) v := by
    funext u
    rw [joins_swap, joins_swap, Bool.eq_iff_iff, joins_iff, joins_iff]
    exact h.goes hv
  have hlt : ∀ u, joins (swapEnds D) v u = true → u < n ∧ u < n' := by
    intro u hu
    rw [joins_swap, joins_iff] at hu
    obtain ⟨w', hw'⟩ := (h.goes hv).mpr hu
    obtain ⟨w, hw⟩ := hu
    have a := (hD _ hw).1
    have b := (hD' _ hw').1
    simp only at a b
    omega
  have key : ∀ m k, (∀ u, joins (swapEnds D) v u = true → u < m) →
      (List.range (m + k)).filter (joins (swapEnds D) v) = (List.range m).filter (joins (swapEnds D) v) := by
    intro m k hm
    induction k with
    | zero => rfl
    | succ k ih =>
      rw [← Nat.add_assoc, List.range_succ, List.filter_append, ih]
      have : joins (swapEnds D) v (m + k) = false := by
        by_contra hc
        rw [Bool.not_eq_false] at hc
        have := hm _ hc
        omega
      simp [this]
  have hr : (List.range n').filter (joins (swapEnds D) v) = (List.range n).filter (joins (swapEnds D) v) := by
    rcases Nat.le_total n n' with hle | hle
    · obtain ⟨k, rfl⟩ := Nat.exists_eq_add_of_le hle
      exact key n k fun u hu => (hlt u hu).1
    · obtain ⟨k, rfl⟩ := Nat.exists_eq_add_of_le hle
      exact (key n' k fun u hu => (hlt u hu).2).symm
  unfold rowOfFlow
  rw [hj, hr]
  simp only [hflow]

/-- In the cells of `U` both computations give the same. -/
structure SolutionSame (U : Nat → Prop) (ids ids' : List CellSetID) (sol sol' : Solution R) : Prop where
  global : ∀ v, U v → sol'.timeOfFlight[v]? = sol.timeOfFlight[v]?
  tof : ∀ i ∈ ids, i ∈ ids' → ∀ v : Nat, U v → (sol'.timeOfFlightOf i).find (v : Int) = (sol.timeOfFlightOf i).find (v : Int)
  conc : ∀ i ∈ ids, i ∈ ids' → ∀ v : Nat, U v → (sol'.concentration i).find (v : Int) = (sol.concentration i).find (v : Int)

theorem sameData_of (hI : n ≤ INT_MAX) (hI' : n' ≤ INT_MAX) (h : Alike n n' D D' pv pv' l l' U)
    (hD : ∀ c ∈ D, (0 ≤ c.1 ∧ c.1 < n) ∧ (0 ≤ c.2.1 ∧ c.2.1 < n))
    (hD' : ∀ c ∈ D', (0 ≤ c.1 ∧ c.1 < n') ∧ (0 ≤ c.2.1 ∧ c.2.1 < n'))
    (hpv : pv.length = n) (hpv' : pv'.length = n') (hl : ∀ e ∈ l, 0 ≤ e.2.1 ∧ e.2.1 < n) (hl' : ∀ e ∈ l', 0 ≤ e.2.1 ∧ e.2.1 < n')
    {d d' : SolverData R} {st st' : SolverState R}
    (hc : Solver.create (graphsOf n D).1 (graphsOf n D).2 pv (gather l).only = .ok (d, st))
    (hc' : Solver.create (graphsOf n' D').1 (graphsOf n' D').2 pv' (gather l').only = .ok (d', st'))
    {b b' : List Bool} {ls ls' : List R} (hb : ∀ v, U v → b'[v]? = b[v]?) (hls : ∀ v, U v → ls'[v]? = ls[v]?) :
    SameData d d' b b' ls ls' U := by
  obtain ⟨a1, a2, a3, a4, a5⟩ := create_facts hI hD hpv hl hc
  obtain ⟨b1, b2, b3, b4, b5⟩ := create_facts hI' hD' hpv' hl' hc'
  refine ⟨fun v hv => ?_, fun v hv => ?_, fun v hv => ?_, hb, hls, fun v hv => ?_⟩
  · rw [(a5 v (h.below v hv).1).2, (b5 v (h.below v hv).2).2, h.rates v hv]
  · rw [(a5 v (h.below v hv).1).1, (b5 v (h.below v hv).2).1, h.row hD hD' hv]
  · rw [a3, b3, h.pv v hv]
  · refine ⟨_, a2 ▸ (graphsOf_rows hI hD).2 v (h.below v hv).1, ?_, fun e he => ?_⟩
    · rw [b2, (graphsOf_rows hI' hD').2 v (h.below v hv).2, h.row hD hD' hv]
    · unfold rowOfFlow at he
      obtain ⟨u, hu, rfl⟩ := List.mem_map.mp he
      have hj := (List.mem_filter.mp hu).2
      rw [joins_swap, joins_iff] at hj
      have hu := h.closed u v hj hv
      simp only
      rw [size_of_nat (by have := (h.below u hu).1; omega)]
      exact hu

theorem computeSolution_same (hI : n ≤ INT_MAX) (hI' : n' ≤ INT_MAX) (h : Alike n n' D D' pv pv' l l' U)
    (hD : ∀ c ∈ D, (0 ≤ c.1 ∧ c.1 < n) ∧ (0 ≤ c.2.1 ∧ c.2.1 < n))
    (hD' : ∀ c ∈ D', (0 ≤ c.1 ∧ c.1 < n') ∧ (0 ≤ c.2.1 ∧ c.2.1 < n'))
    (hpv : pv.length = n) (hpv' : pv'.length = n') (hl : ∀ e ∈ l, 0 ≤ e.2.1 ∧ e.2.1 < n) (hl' : ∀ e ∈ l', 0 ≤ e.2.1 ∧ e.2.1 < n')
    {starts starts' : List CellSet} {sol sol' : Solution R} {fuel : Nat}
    (hf : n + numEdges n (graphsOf n D).1.startPointers ≤ fuel) (hf' : n' + numEdges n' (graphsOf n' D').1.startPointers ≤ fuel)
    (hs : computeSolution (graphsOf n D).1 (graphsOf n D).2 pv (gather l).only (gather l).byId noFailure fuel starts = .ok sol)
    (hs' : computeSolution (graphsOf n' D').1 (graphsOf n' D').2 pv' (gather l').only (gather l').byId noFailure fuel starts'
      = .ok sol') :
    SolutionSame U (starts.map CellSet.id) (starts'.map CellSet.id) sol sol' := by
  obtain ⟨d, st, tof, h1, h2, h3, rfl⟩ := (computeSolution_ok_iff (a := Alloc.good)).mp hs
  obtain ⟨d', st', tof', h1', h2', h3', rfl⟩ := (computeSolution_ok_iff (a := Alloc.good)).mp hs'
  obtain ⟨a1, a2, a3, a4, a5⟩ := create_facts hI hD hpv hl h1
  obtain ⟨b1, b2, b3, b4, b5⟩ := create_facts hI' hD' hpv' hl' h1'
  have hd := graphPair_of hI hD a1 a2 (a3 ▸ hpv)
  have hd' := graphPair_of hI' hD' b1 b2 (b3 ▸ hpv')
  have hE : ∀ u v, Edge d n u v ↔ Goes D u v := fun u v => by
    unfold Spec.Edge; rw [a1]; exact edge_iff hI hD
  have hE' : ∀ u v, Edge d' n' u v ↔ Goes D' u v := fun u v => by
    unfold Spec.Edge; rw [b1]; exact edge_iff hI' hD'
  have hEq : Edge d n = Goes D := by funext u v; exact propext (hE u v)
  have hEq' : Edge d' n' = Goes D' := by funext u v; exact propext (hE' u v)
  have hacy : ∀ v, U v → ¬ Relation.TransGen (Edge d n) v v := hEq ▸ h.acyclic
  have hacy' : ∀ v, U v → ¬ Relation.TransGen (Edge d' n') v v := hEq' ▸ h.symm.acyclic
  rw [← a1] at hf
  rw [← b1] at hf'
  -- global
  have hglobal : ∀ v, U v → tof'[v]? = tof[v]? := by
    obtain ⟨comps, b, s, ht, hb, hv, rfl⟩ := global_loop hd hf h2
    obtain ⟨comps', b', s', ht', hb', hv', rfl⟩ := global_loop hd' hf' h2'
    have hsrc : ∀ v, U v → d'.sourceTerm[v]? = d.sourceTerm[v]? := fun v hv => by
      rw [(a5 v (h.below v hv).1).2, (b5 v (h.below v hv).2).2, h.rates v hv]
    have hsame := sameData_of hI hI' h hD hD' hpv hpv' hl hl' h1 h1' (b := b) (b' := b') (ls := d.sourceTerm) (ls' := d'.sourceTerm)
      (fun v hv => by
        rw [sourceStart_find hd.pv hb v (h.below v hv).1, sourceStart_find hd'.pv hb' v (h.below v hv).2, hsrc v hv])
      hsrc
    have := same_values hsame (placed_of_topo hd (fun v h => h) ht hacy) (placed_of_topo hd' (fun v h => h) ht' hacy')
      (fun v hv => by
        rw [ht.cover, ht'.cover]
        exact ⟨fun _ => (h.below v hv).1, fun _ => (h.below v hv).2⟩) h.below hv hv'
    intro v hv
    rw [List.getElem?_map, List.getElem?_map, (this v hv).1]
  -- local
  have hlocal : ∀ i, ∀ x x', localOf d st Alloc.good fuel (gather l).byId i = .ok x →
      localOf d' st' Alloc.good fuel (gather l').byId i = .ok x' → ∀ v : Nat, U v →
      x'.tof.find (v : Int) = x.tof.find (v : Int) ∧ x'.concentration.find (v : Int) = x.concentration.find (v : Int) := by
    intro i x x' hx hx'
    unfold localOf at hx hx'
    have hfind : ∀ v : Nat, U v → OMap.find (OMap.at_ (gather l').byId i []) (v : Int) = OMap.find (OMap.at_ (gather l).byId i []) (v : Int) := by
      intro v hv
      rw [find_byId, find_byId, h.rates v hv]
    have hsort := byId_sorted l i
    have hsort' := byId_sorted l' i
    have hrange := (gather_range hl).2 i
    have hrange' := (gather_range hl').2 i
    revert hx hx' hfind hsort hsort' hrange hrange'
    generalize OMap.at_ (gather l).byId i [] = ss
    generalize OMap.at_ (gather l').byId i [] = ss'
    intro hx hx' hfind hsort hsort' hrange hrange'
    have hkeys : ∀ (ss : CellSetValues R) (m : Nat), (∀ e ∈ ss, 0 ≤ e.1 ∧ e.1 < (m : Int)) →
        (ss.map fun e => e.1) = (ss.map fun e => e.1.toNat).map fun v : Nat => (v : Int) := by
      intro ss m hr
      rw [List.map_map]
      apply List.map_congr_left
      intro e he
      have := hr e he
      simp only [Function.comp]
      omega
    have hin : ∀ (ss : CellSetValues R) (m : Nat), (∀ e ∈ ss, 0 ≤ e.1 ∧ e.1 < (m : Int)) → ∀ p ∈ ss.map (fun e => e.1.toNat), p < m := by
      intro ss m hr p hp
      obtain ⟨e, he, rfl⟩ := List.mem_map.mp hp
      have := hr e he
      omega
    have hst : ∀ (ss : CellSetValues R) (m : Nat), (∀ e ∈ ss, 0 ≤ e.1 ∧ e.1 < (m : Int)) → ∀ p : Nat,
        p ∈ ss.map (fun e => e.1.toNat) ↔ (OMap.find ss (p : Int)).isSome := by
      intro ss m hr p
      rw [OMap.find_isSome_iff]
      simp only [List.mem_map]
      constructor
      · rintro ⟨e, he, rfl⟩
        have := hr e he
        exact ⟨e, he, by omega⟩
      · rintro ⟨e, he, e'⟩
        exact ⟨e, he, by omega⟩
    obtain ⟨comps, b, s, ht, hb, hlsk, hv, hres⟩ := local_loop hd (hkeys ss n hrange) (hin ss n hrange) hf a4 hx
    obtain ⟨comps', b', s', ht', hb', hlsk', hv', hres'⟩ := local_loop hd' (hkeys ss' n' hrange') (hin ss' n' hrange') hf' b4 hx'
    have hsame := sameData_of hI hI' h hD hD' hpv hpv' hl hl' h1 h1' (b := b) (b' := b')
      (ls := (setupLocalSource (List.replicate n Arith.zero) ss).1) (ls' := (setupLocalSource (List.replicate n' Arith.zero) ss').1)
      (fun v hv => by
        rw [startArray_find hI ss hrange (by simp) hb v (h.below v hv).1, startArray_find hI' ss' hrange' (by simp) hb' v (h.below v hv).2,
          hfind v hv]
        simp [h.below v hv])
      (fun v hv => by
        rw [localSource_find hI ss hsort hrange (by simp) hlsk v (h.below v hv).1,
          localSource_find hI' ss' hsort' hrange' (by simp) hlsk' v (h.below v hv).2, hfind v hv]
        simp [h.below v hv])
    have hVn : ∀ (d : SolverData R) (m : Nat) (_ : GraphPair d m) (st : List Nat), (∀ p ∈ st, p < m) →
        ∀ v, (∃ p ∈ st, Relation.ReflTransGen (Edge d m) p v) → v < m := by
      rintro d m hd st hp v ⟨p, hps, hr⟩
      rcases Relation.ReflTransGen.cases_tail hr with e | ⟨x, _, e⟩
      · rw [e]; exact hp p hps
      · have := hd.graph.range x e.1 _ e.2
        omega
    have hcov : ∀ v, U v → (v ∈ comps'.flatten ↔ v ∈ comps.flatten) := by
      intro v hv
      rw [ht.cover, ht'.cover, hEq, hEq']
      constructor
      · rintro ⟨p, hp, hr⟩
        obtain ⟨hU, hr⟩ := h.reach hv hr
        refine ⟨p, ?_, hr⟩
        rw [hst ss n hrange, ← hfind p hU, ← hst ss' n' hrange']
        exact hp
      · rintro ⟨p, hp, hr⟩
        obtain ⟨hU, hr⟩ := h.symm.reach hv hr
        refine ⟨p, ?_, hr⟩
        rw [hst ss' n' hrange', hfind p hU, ← hst ss n hrange]
        exact hp
    have hval := same_values hsame (placed_of_topo hd (hVn d n hd _ (hin ss n hrange)) ht hacy)
      (placed_of_topo hd' (hVn d' n' hd' _ (hin ss' n' hrange')) ht' hacy') hcov h.below hv hv'
    intro v hv
    obtain ⟨r1, r2⟩ := hres v
    obtain ⟨q1, q2⟩ := hres' v
    rw [r1, r2, q1, q2, (hval v hv).1, (hval v hv).2]
    simp only [hcov v hv, and_self]
  obtain ⟨r1, r2, r3, _, _⟩ := recordAll_spec (okOf d st Alloc.good fuel (gather l).byId) (starts.map CellSet.id)
    ({ tof := tof } : Solution R)
  obtain ⟨q1, q2, q3, _, _⟩ := recordAll_spec (okOf d' st' Alloc.good fuel (gather l').byId) (starts'.map CellSet.id)
    ({ tof := tof' } : Solution R)
  refine ⟨?_, ?_, ?_⟩
  · intro v hv
    unfold Solution.timeOfFlight
    rw [r1, q1]
    exact hglobal v hv
  · intro i hi hi' v hv
    unfold Solution.timeOfFlightOf Solution.solutionValues
    rw [r3, q3, if_pos hi, if_pos hi']
    obtain ⟨t, ht, rfl⟩ := List.mem_map.mp hi
    obtain ⟨t', ht', e⟩ := List.mem_map.mp hi'
    obtain ⟨x, hx⟩ := h3 t ht
    obtain ⟨x', hx'⟩ := h3' t' ht'
    rw [e] at hx'
    simp only [okOf, hx, hx']
    exact (hlocal _ x x' hx hx' v hv).1
  · intro i hi hi' v hv
    unfold Solution.concentration Solution.solutionValues
    rw [r2, q2, if_pos hi, if_pos hi']
    obtain ⟨t, ht, rfl⟩ := List.mem_map.mp hi
    obtain ⟨t', ht', e⟩ := List.mem_map.mp hi'
    obtain ⟨x, hx⟩ := h3 t ht
    obtain ⟨x', hx'⟩ := h3' t' ht'
    rw [e] at hx'
    simp only [okOf, hx, hx']
    exact (hlocal _ x x' hx hx' v hv).2

end alike

end Verif.Upstream
