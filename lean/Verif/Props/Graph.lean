/-
Properties C01-C09: the assembled connection graph.

Each theorem is followed by an `example` showing a concrete, non-trivial input that meets
its hypotheses.
-/
import Verif.Proofs.GraphIter

namespace Verif.Props
open Spec
variable {R : Type} [Arith R]

omit [Arith R] in
private theorem freshI : -1 ≤ ({} : AssembledConnections R).conns.maxI ∧
    ({} : AssembledConnections R).conns.maxI < (INT_MAX : Int) :=
  ⟨by show (-1 : Int) ≤ -1; omega, by show (-1 : Int) < _; decide⟩

omit [Arith R] in
private theorem freshJ : -1 ≤ ({} : AssembledConnections R).conns.maxJ ∧
    ({} : AssembledConnections R).conns.maxJ < (INT_MAX : Int) :=
  ⟨by show (-1 : Int) ≤ -1; omega, by show (-1 : Int) < _; decide⟩

theorem fresh_ok (cs : List (Conn R)) (n : Nat) (hn : n < 18446744073709551616)
    (hmix : ¬ Mixed cs) (hv : ∀ c ∈ cs, ValidConn c) (hlt : ∀ c ∈ cs, c.1 < n) :
    ∃ g, (freshWith cs).compressStep n = (g, .ok ()) ∧ g.numRows = n ∧
      IsAdjacency n (fun i j => ∃ w, (i, j, w) ∈ cs) g.startPointers g.neighbourhood ∧
      (∀ ws, cs = weighted ws →
        HasWeights n ws g.startPointers g.neighbourhood g.connectionWeight) := by
  have hr : ∀ c ∈ cs, (-2147483648 ≤ c.1 ∧ c.1 ≤ 2147483647) ∧
      (-2147483648 ≤ c.2.1 ∧ c.2.1 ≤ 2147483647) := by
    intro c hc; have := hv c hc; unfold ValidConn ValidIndex at this; omega
  have hfr : (({} : AssembledConnections R).conns.maxI) = -1 := rfl
  obtain ⟨g, h1, _, _, _, _, _, h2, h3, h4⟩ := (compress_outcome ({} : AssembledConnections R) cs n hn
    rfl rfl rfl freshI freshJ hr).2.2.2 hmix hlt
    (fun _ => by rw [hfr]; omega) hv
  have hmax : max ((addTo ({} : AssembledConnections R) cs).conns.maxI + 1).toNat n = n := by
    have := (addTo_conns ({} : AssembledConnections R) cs).2.2.2.2.1
    have h5 := (foldl_max_le (fun c : Conn R => c.1) cs (-1) (n - 1)).mpr
      ⟨by omega, fun c hc => by have := hlt c hc; omega⟩
    rw [show (({} : AssembledConnections R).conns.maxI) = -1 from rfl] at this
    rw [← this] at h5
    omega
  rw [hmax] at h2 h4
  refine ⟨g, h1, ?_, h2, ?_⟩
  · unfold AssembledConnections.numRows
    rw [h2.size]; simp
  · intro ws hws
    by_cases hne : ws = []
    · subst hne
      have hcs : cs = [] := hws
      subst hcs
      have hw := h3 (by simp)
      have hnb : g.neighbourhood = [] := by
        rw [h2.flatten_eq (xs := g.neighbourhood) rfl, List.flatMap_eq_nil_iff]
        intro r hr
        rw [List.eq_nil_iff_forall_not_mem]
        intro j hj
        obtain ⟨w, h⟩ := (h2.mem r (by simpa using hr) j).mp hj
        simp at h
      refine ⟨?_, ?_⟩
      · rw [hw, hnb]; rfl
      · intro r _ q _ _ j hj; rw [hnb] at hj; simp at hj
    · exact h4 ws hws hne

/-- **C01** `compress(n)` builds the sorted adjacency structure of the connections given. -/
theorem C01_compress_is_adjacency (cs : List (Conn R)) (n : Nat) (hn : n < 18446744073709551616)
    (hmix : ¬ Mixed cs) (hv : ∀ c ∈ cs, ValidConn c) (hlt : ∀ c ∈ cs, c.1 < n) :
    ∃ g, (freshWith cs).compress n = .ok g ∧ g.numRows = n ∧
      IsAdjacency n (fun i j => ∃ w, (i, j, w) ∈ cs) g.startPointers g.neighbourhood := by
  obtain ⟨g, h1, h2, h3, _⟩ := fresh_ok cs n hn hmix hv hlt
  exact ⟨g, compress_of_step_ok h1, h2, h3⟩

/-- Inputs of C01: out of order, with a repeated connection, a self-loop and an empty row. -/
example : let cs : List (Conn R) := [(3, 1, none), (0, 2, none), (3, 0, none), (3, 1, none), (2, 2, none)]
    ¬ Mixed cs ∧ (∀ c ∈ cs, ValidConn c) ∧ (∀ c ∈ cs, c.1 < (5 : Nat)) := by
  simp [Mixed, ValidConn, ValidIndex]

/-- **C02** The weight stored for `(i, j)` is `0` plus all weights given for it, in call
    order, for any addition. -/
theorem C02_weights_accumulate (ws : List (Int × Int × R)) (n : Nat) (hn : n < 18446744073709551616)
    (hv : ∀ c ∈ ws, ValidIndex c.1 ∧ ValidIndex c.2.1) (hlt : ∀ c ∈ ws, c.1 < n) :
    ∃ g, (freshWith (weighted ws)).compress n = .ok g ∧
      IsAdjacency n (fun i j => ∃ w, (i, j, w) ∈ ws) g.startPointers g.neighbourhood ∧
      HasWeights n ws g.startPointers g.neighbourhood g.connectionWeight ∧
      ∀ r < n, ∀ j,
        ((∃ w, ((r : Int), j, w) ∈ ws) →
          lookupWeight g r j = some ((weightsOf ws r j).foldl Arith.add Arith.zero)) ∧
        ((¬ ∃ w, ((r : Int), j, w) ∈ ws) → lookupWeight g r j = none) := by
  obtain ⟨g, h1, _, h3, h4⟩ := fresh_ok (weighted ws) n hn
    (by rintro ⟨_, c, hc, hc'⟩; simp [weighted] at hc; obtain ⟨_, _, _, _, rfl⟩ := hc; simp at hc')
    (by intro c hc; simp [weighted] at hc; obtain ⟨a, b, w, h, rfl⟩ := hc; exact hv _ h)
    (by intro c hc; simp [weighted] at hc; obtain ⟨a, b, w, h, rfl⟩ := hc; exact hlt _ h)
  have ha : IsAdjacency n (fun i j => ∃ w, (i, j, w) ∈ ws) g.startPointers g.neighbourhood := by
    refine h3.congr ?_
    intro r _ j
    constructor
    · rintro ⟨w, h⟩
      simp only [weighted, List.mem_map, Prod.mk.injEq, Prod.exists] at h
      obtain ⟨a, b, v, h, rfl, rfl, rfl⟩ := h; exact ⟨v, h⟩
    · rintro ⟨w, h⟩
      exact ⟨some w, by simp only [weighted, List.mem_map]; exact ⟨_, h, rfl⟩⟩
  refine ⟨g, compress_of_step_ok h1, ha, h4 ws rfl, ?_⟩
  intro r hr j
  exact lookupWeight_eq g ws ha (h4 ws rfl) r hr j

/-- Inputs of C02: the connection `(1, 0)` is given three times. -/
example (a b c d : R) : let ws := [(1, 0, a), (0, 1, b), (1, 0, c), (1, 0, d)]
    (∀ c ∈ ws, ValidIndex c.1 ∧ ValidIndex c.2.1) ∧ (∀ c ∈ ws, c.1 < (2 : Nat)) ∧
    weightsOf ws 1 0 = [a, c, d] := by
  simp [ValidIndex, weightsOf]

/-- **C03** The structure does not depend on the order in which connections were added; with
    exact addition neither do the weights. -/
theorem C03_order_independent (cs cs' : List (Conn R)) (hp : cs.Perm cs') (n : Nat)
    (hn : n < 18446744073709551616) (hmix : ¬ Mixed cs) (hv : ∀ c ∈ cs, ValidConn c)
    (hlt : ∀ c ∈ cs, c.1 < n) :
    ∃ g g', (freshWith cs).compress n = .ok g ∧ (freshWith cs').compress n = .ok g' ∧
      g.startPointers = g'.startPointers ∧ g.neighbourhood = g'.neighbourhood ∧
      (ExactAdd R → (∀ c ∈ cs, c.2.2.isSome) → g.connectionWeight = g'.connectionWeight) := by
  have hmix' : ¬ Mixed cs' := fun ⟨⟨a, ha, ha'⟩, b, hb, hb'⟩ =>
    hmix ⟨⟨a, hp.mem_iff.mpr ha, ha'⟩, b, hp.mem_iff.mpr hb, hb'⟩
  obtain ⟨g, h1, _, h3, h4⟩ := fresh_ok cs n hn hmix hv hlt
  obtain ⟨g', h1', _, h3', h4'⟩ := fresh_ok cs' n hn hmix' (fun c hc => hv c (hp.mem_iff.mpr hc))
    (fun c hc => hlt c (hp.mem_iff.mpr hc))
  have hu := h3.unique (h3'.congr (E' := fun i j => ∃ w, (i, j, w) ∈ cs) (by
    intro r _ j; simp only [hp.mem_iff]))
  refine ⟨g, g', compress_of_step_ok h1, compress_of_step_ok h1', hu.1, hu.2, ?_⟩
  intro hex hsome
  -- the weighted lists behind `cs` and `cs'`
  have hlift : ∀ l : List (Conn R), (∀ c ∈ l, c.2.2.isSome) →
      l = weighted (l.filterMap fun c => c.2.2.map fun w => (c.1, c.2.1, w)) := by
    intro l hl
    induction l with
    | nil => rfl
    | cons c l ih =>
      obtain ⟨i, j, w⟩ := c
      cases w with
      | none => have := hl (i, j, none) (by simp); simp at this
      | some w =>
        simp only [weighted] at ih ⊢
        simp only [List.filterMap_cons, Option.map_some, List.map_cons, List.cons.injEq, true_and]
        exact ih fun c hc => hl c (by simp [hc])
  have e1 := hlift cs hsome
  have e2 := hlift cs' (fun c hc => hsome c (hp.mem_iff.mpr hc))
  have w1 := h4 _ e1
  have w2 := h4' _ e2
  rw [← hu.1, ← hu.2] at w2
  refine w1.unique h3 w2 ?_
  intro i j
  apply ExactAdd.foldl_perm hex
  unfold weightsOf
  exact (((hp.filterMap _).filter _).map _)

example : ([(3, 1, none), (0, 2, none), (3, 0, none)] : List (Conn R)).Perm
    [(0, 2, none), (3, 0, none), (3, 1, none)] := by
  refine (List.Perm.swap _ _ _).trans ?_
  exact List.Perm.cons _ (List.Perm.swap _ _ _)

/-- **C04** `compress(n)` on a newly filled object rejects exactly the mixed lists and the
    lists with a source index outside the row range, and changes nothing when it does. -/
theorem C04_rejects_exactly (cs : List (Conn R)) (n : Nat) (hn : n < 18446744073709551616)
    (hint : ∀ c ∈ cs, IsInt c.1 ∧ IsInt c.2.1) :
    (((freshWith cs).compressStep n).2 = .throw .logicError ↔ Mixed cs) ∧
    (((freshWith cs).compressStep n).2 = .throw .invalidArgument ↔
      ¬ Mixed cs ∧ cs ≠ [] ∧ ((∃ c ∈ cs, (n : Int) ≤ c.1) ∨ ∀ c ∈ cs, c.1 < 0)) ∧
    (∀ e, ((freshWith cs).compressStep n).2 = .throw e →
      ((freshWith cs).compressStep n).1 = freshWith cs) := by
  obtain ⟨o1, o2, o3, o4⟩ := compress_outcome ({} : AssembledConnections R) cs n hn
    rfl rfl rfl freshI freshJ hint
  have hfr : (({} : AssembledConnections R).conns.maxI) = -1 := rfl
  unfold freshWith
  by_cases hmix : Mixed cs
  · rw [o1 hmix]; simp [hmix]
  · by_cases hbad : cs ≠ [] ∧ ((∃ c ∈ cs, (n : Int) ≤ c.1) ∨ ∀ c ∈ cs, c.1 < 0)
    · rw [o2 hmix hbad.1 (by rcases hbad.2 with h | h
                             · exact Or.inl h
                             · exact Or.inr (Or.inr ⟨hfr, h⟩))]
      refine ⟨?_, ?_, fun _ _ => rfl⟩
      · simp [hmix]
      · exact ⟨fun _ => ⟨hmix, hbad⟩, fun _ => rfl⟩
    · have hlt : ∀ c ∈ cs, c.1 < (n : Int) := by
        intro c hc
        by_contra h
        exact hbad ⟨by rintro rfl; simp at hc, Or.inl ⟨c, hc, by omega⟩⟩
      have hex : cs ≠ [] → ({} : AssembledConnections R).conns.maxI = -1 → ∃ c ∈ cs, 0 ≤ c.1 := by
        intro hne _
        by_contra h
        exact hbad ⟨hne, Or.inr fun c hc => by
          by_contra h'; exact h ⟨c, hc, by omega⟩⟩
      by_cases hval : ∀ c ∈ cs, ValidConn c
      · obtain ⟨g', e, _⟩ := o4 hmix hlt (fun _ => by rw [hfr]; omega) hval
        rw [e]
        refine ⟨by simp [hmix], ⟨fun h => by simp at h, fun h => absurd h.2 hbad⟩, ?_⟩
        intro e he; simp at he
      · have hval' : ∃ c ∈ cs, ¬ ValidConn c := by
          by_contra h; exact hval fun c hc => by by_contra h'; exact h ⟨c, hc, h'⟩
        obtain ⟨g', u, e, hu⟩ := o3 hmix hlt (fun _ => by rw [hfr]; omega) hex hval'
        rw [e]
        refine ⟨by simp [hmix], ⟨fun h => by simp at h, fun h => absurd h.2 hbad⟩, ?_⟩
        intro e he; simp at he

/-- Both kinds of rejection occur. -/
example (a : R) : Mixed [((0 : Int), (1 : Int), some a), (1, 0, none)] ∧
    (∃ c ∈ ([((5 : Int), (1 : Int), some a)] : List (Conn R)), ((3 : Nat) : Int) ≤ c.1) := by
  simp [Mixed]

/-- **C05**, first part: valid indices never lead to undefined behaviour. -/
theorem C05_valid_indices_are_safe (cs : List (Conn R)) (n : Nat) (hn : n < 18446744073709551616)
    (hv : ∀ c ∈ cs, ValidConn c) : ∀ u, ((freshWith cs).compressStep n).2 ≠ .ub u := by
  have hint : ∀ c ∈ cs, IsInt c.1 ∧ IsInt c.2.1 := by
    intro c hc; have := hv c hc; unfold ValidConn ValidIndex at this; unfold IsInt; omega
  have hfr : (({} : AssembledConnections R).conns.maxI) = -1 := rfl
  obtain ⟨o1, o2, o3, o4⟩ := compress_outcome ({} : AssembledConnections R) cs n hn
    rfl rfl rfl freshI freshJ hint
  intro u
  unfold freshWith
  by_cases hmix : Mixed cs
  · rw [o1 hmix]; simp
  · by_cases hlt : ∀ c ∈ cs, c.1 < (n : Int)
    · obtain ⟨g', e, _⟩ := o4 hmix hlt (fun _ => by rw [hfr]; omega) hv
      rw [e]; simp
    · have : ∃ c ∈ cs, (n : Int) ≤ c.1 := by
        by_contra h; exact hlt fun c hc => by by_contra h'; exact h ⟨c, hc, by omega⟩
      rw [o2 hmix (by rintro rfl; simp at this) (Or.inl this)]; simp

/-- **C05**, second part: an index that is negative (or the largest `int`) and is not rejected
    by one of the two exceptions always leads to undefined behaviour: to an access out of bounds if no
    index is the largest `int`. -/
theorem C05_invalid_indices_are_undefined (cs : List (Conn R)) (n : Nat)
    (hn : n < 18446744073709551616) (hint : ∀ c ∈ cs, IsInt c.1 ∧ IsInt c.2.1)
    (hbad : ∃ c ∈ cs, ¬ ValidConn c) (hnr : ∀ e, ((freshWith cs).compressStep n).2 ≠ .throw e) :
    ∃ u, ((freshWith cs).compressStep n).2 = .ub u ∧
      ((∀ c ∈ cs, c.1 < INT_MAX ∧ c.2.1 < INT_MAX) → u = .outOfBounds) := by
  have hfr : (({} : AssembledConnections R).conns.maxI) = -1 := rfl
  obtain ⟨o1, o2, o3, o4⟩ := compress_outcome ({} : AssembledConnections R) cs n hn
    rfl rfl rfl freshI freshJ hint
  unfold freshWith at *
  have hne : cs ≠ [] := by rintro rfl; simp at hbad
  by_cases hmix : Mixed cs
  · exact absurd (by rw [o1 hmix]) (hnr .logicError)
  · by_cases hlt : ∀ c ∈ cs, c.1 < (n : Int)
    · by_cases hex : ∃ c ∈ cs, 0 ≤ c.1
      · obtain ⟨g', u, e, hu⟩ := o3 hmix hlt (fun _ => by rw [hfr]; omega) (fun _ _ => hex) hbad
        exact ⟨u, by rw [e], hu⟩
      · have h := o2 hmix hne (Or.inr (Or.inr ⟨hfr, fun c hc => by
          by_contra h'; exact hex ⟨c, hc, by omega⟩⟩))
        exact absurd (by rw [h]) (hnr .invalidArgument)
    · have : ∃ c ∈ cs, (n : Int) ≤ c.1 := by
        by_contra h; exact hlt fun c hc => by by_contra h'; exact h ⟨c, hc, by omega⟩
      exact absurd (by rw [o2 hmix hne (Or.inl this)]) (hnr .invalidArgument)

/-- An input of the second part of C05: source 0, sink -1, one row. -/
example : ((freshWith ([(0, -1, none)] : List (Conn R))).compressStep 1).2 = .ub .outOfBounds := by
  suffices h : ∀ e, ((freshWith ([(0, -1, none)] : List (Conn R))).compressStep 1).2 ≠ .throw e by
    obtain ⟨u, h1, h2⟩ := C05_invalid_indices_are_undefined ([(0, -1, none)] : List (Conn R)) 1 (by decide) (by simp [IsInt])
      (by simp [ValidConn, ValidIndex]) h
    rw [h1, h2 (by simp [INT_MAX])]
  have := C04_rejects_exactly ([(0, -1, none)] : List (Conn R)) 1 (by decide) (by simp [IsInt])
  intro e
  cases e with
  | logicError => rw [ne_eq, this.1]; simp [Mixed]
  | invalidArgument => rw [ne_eq, this.2.1]; simp [Mixed]
  | runtimeError =>
    obtain ⟨o1, o2, o3, o4⟩ := compress_outcome ({} : AssembledConnections R)
      [(0, -1, none)] 1 (by decide) rfl rfl rfl freshI freshJ
      (by simp)
    obtain ⟨g', u, e, hu⟩ := o3 (by simp [Mixed]) (by simp) (fun _ => by show (-1 : Int) < 1; decide)
      (fun _ _ => by simp) (by simp [ValidConn, ValidIndex])
    unfold freshWith
    rw [e]; simp

/-! ### C06: reuse after `compress` -/

theorem compressStep_max (g : AssembledConnections R) (n : Nat) :
    (g.compressStep n).1.conns.maxI = g.conns.maxI ∧ (g.compressStep n).1.conns.maxJ = g.conns.maxJ := by
  unfold AssembledConnections.compressStep
  split
  · exact ⟨rfl, rfl⟩
  · split <;> exact ⟨rfl, rfl⟩

private theorem compressStep_pending (g : AssembledConnections R) (n : Nat)
    (h : (g.compressStep n).2 = .ok ()) : (g.compressStep n).1.conns.i = [] ∧
      (g.compressStep n).1.conns.j = [] ∧ (g.compressStep n).1.conns.v = [] := by
  unfold AssembledConnections.compressStep at h ⊢
  split at h
  · simp at h
  · rename_i hv
    rw [if_neg hv]
    split at h
    · exact ⟨rfl, rfl, rfl⟩
    · rename_i h1 h2; simp only at h
      subst h
      exact absurd h1 (by simp)

theorem afterCalls_max (calls : List (GraphCall R)) :
    (afterCalls calls).conns.maxI = (connsOf calls).foldl (fun m c => max m c.1) (-1) ∧
    (afterCalls calls).conns.maxJ = (connsOf calls).foldl (fun m c => max m c.2.1) (-1) := by
  suffices H : ∀ g : AssembledConnections R,
      (calls.foldl doCall g).conns.maxI = (connsOf calls).foldl (fun m c => max m c.1) g.conns.maxI ∧
      (calls.foldl doCall g).conns.maxJ = (connsOf calls).foldl (fun m c => max m c.2.1) g.conns.maxJ
    from H {}
  induction calls with
  | nil => intro g; exact ⟨rfl, rfl⟩
  | cons c calls ih =>
    intro g
    have h := ih (doCall g c)
    cases c with
    | add c =>
      obtain ⟨i, j, w⟩ := c
      cases w <;> simpa [connsOf, doCall, addOne, AssembledConnections.addConnection,
        AssembledConnections.addConnectionW, Connections.add, Connections.addW] using h
    | compress n =>
      have hm := compressStep_max g n
      simp only [doCall, hm.1, hm.2] at h
      simpa [connsOf, doCall] using h

/-- **C06** (partial).  After a successful `compress()`, the next `compress(m)` has the outcome
    and the graph a fresh object would give for the connections added since, *provided every
    source index of the earlier history is below `m`*.  Missing from the full claim: earlier
    sources at or above `m` (see `C06_old_sources_are_rejected`), and the weights of an
    unweighted new graph (see `C06_old_weights_stay`); in both cases the claim is false. -/
theorem C06_new_graph_partial (calls : List (GraphCall R)) (k : Nat) (cs : List (Conn R)) (m : Nat)
    (hm : m < 18446744073709551616)
    (hok : ((afterCalls calls).compressStep k).2 = .ok ())
    (hold : ∀ c ∈ connsOf calls, ValidConn c ∧ c.1 < m) (hnew : ∀ c ∈ cs, ValidConn c) :
    let reused := (addTo (afterCalls (calls ++ [.compress k])) cs).compressStep m
    let fresh := (freshWith cs).compressStep m
    reused.2 = fresh.2 ∧
    (fresh.2 = .ok () → reused.1.startPointers = fresh.1.startPointers ∧
      reused.1.neighbourhood = fresh.1.neighbourhood ∧
      (cs ≠ [] → (∀ c ∈ cs, c.2.2.isSome) →
        reused.1.connectionWeight = fresh.1.connectionWeight)) := by
  intro reused fresh
  have hg : afterCalls (calls ++ [.compress k]) = ((afterCalls calls).compressStep k).1 := by
    simp [afterCalls, doCall]
  have hmax := afterCalls_max calls
  have hst := compressStep_max (afterCalls calls) k
  have hpend := compressStep_pending _ _ hok
  rw [hmax.1, hmax.2] at hst
  rw [← hg] at hst hpend
  have hI := le_foldl_max (fun c : Conn R => c.1) (connsOf calls) (-1)
  have hJ := le_foldl_max (fun c : Conn R => c.2.1) (connsOf calls) (-1)
  have hI2 := (foldl_max_le (fun c : Conn R => c.1) (connsOf calls) (-1) (INT_MAX - 1)).mpr
    ⟨by decide, fun c hc => by have := (hold c hc).1.1.2; unfold INT_MAX; omega⟩
  have hI3 := (foldl_max_le (fun c : Conn R => c.1) (connsOf calls) (-1) (m - 1)).mpr
    ⟨by omega, fun c hc => by have := (hold c hc).2; omega⟩
  have hJ2 := (foldl_max_le (fun c : Conn R => c.2.1) (connsOf calls) (-1) (INT_MAX - 1)).mpr
    ⟨by decide, fun c hc => by have := (hold c hc).1.2.2; unfold INT_MAX; omega⟩
  rw [← hst.1] at hI hI2 hI3
  rw [← hst.2] at hJ hJ2
  have hint : ∀ c ∈ cs, IsInt c.1 ∧ IsInt c.2.1 := by
    intro c hc; have := hnew c hc; unfold ValidConn ValidIndex at this; unfold IsInt; omega
  have hfr : (({} : AssembledConnections R).conns.maxI) = -1 := rfl
  obtain ⟨o1, o2, o3, o4⟩ := compress_outcome (afterCalls (calls ++ [.compress k])) cs m hm
    hpend.1 hpend.2.1 hpend.2.2 ⟨hI.1, by omega⟩ ⟨hJ.1, by omega⟩ hint
  obtain ⟨p1, p2, p3, p4⟩ := compress_outcome ({} : AssembledConnections R) cs m hm
    rfl rfl rfl freshI freshJ hint
  by_cases hmix : Mixed cs
  · have e1 : reused.2 = .throw .logicError := by simp only [reused]; rw [o1 hmix]
    have e2 : fresh.2 = .throw .logicError := by simp only [fresh]; unfold freshWith; rw [p1 hmix]
    exact ⟨by rw [e1, e2], fun h => by rw [e2] at h; simp at h⟩
  by_cases hlt : ∀ c ∈ cs, c.1 < (m : Int)
  swap
  · have hex : ∃ c ∈ cs, (m : Int) ≤ c.1 := by
      by_contra h; exact hlt fun c hc => by by_contra h'; exact h ⟨c, hc, by omega⟩
    have hne : cs ≠ [] := by rintro rfl; simp at hex
    have e1 : reused.2 = .throw .invalidArgument := by
      simp only [reused]; rw [o2 hmix hne (Or.inl hex)]
    have e2 : fresh.2 = .throw .invalidArgument := by
      simp only [fresh]; unfold freshWith; rw [p2 hmix hne (Or.inl hex)]
    exact ⟨by rw [e1, e2], fun h => by rw [e2] at h; simp at h⟩
  obtain ⟨g1, e1, _, _, _, _, _, a1, _, w1⟩ := o4 hmix hlt (fun _ => by omega) hnew
  obtain ⟨g2, e2, _, _, _, _, _, a2, _, w2⟩ := p4 hmix hlt (fun _ => by rw [hfr]; omega) hnew
  have hm1 : max ((addTo (afterCalls (calls ++ [.compress k])) cs).conns.maxI + 1).toNat m = m := by
    rw [(addTo_conns _ cs).2.2.2.2.1]
    have := (foldl_max_le (fun c : Conn R => c.1) cs
      (afterCalls (calls ++ [.compress k])).conns.maxI (m - 1)).mpr
      ⟨hI3, fun c hc => by have := hlt c hc; omega⟩
    omega
  have hm2 : max ((addTo ({} : AssembledConnections R) cs).conns.maxI + 1).toNat m = m := by
    rw [(addTo_conns _ cs).2.2.2.2.1, hfr]
    have := (foldl_max_le (fun c : Conn R => c.1) cs (-1) (m - 1)).mpr
      ⟨by omega, fun c hc => by have := hlt c hc; omega⟩
    omega
  rw [hm1] at a1 w1
  rw [hm2] at a2 w2
  have hr : reused = (g1, .ok ()) := e1
  have hf : fresh = (g2, .ok ()) := e2
  have hu := a1.unique a2
  rw [hr, hf]
  refine ⟨rfl, fun _ => ⟨hu.1, hu.2, ?_⟩⟩
  intro hne hsome
  have hlift : ∀ l : List (Conn R), (∀ c ∈ l, c.2.2.isSome) →
      l = weighted (l.filterMap fun c => c.2.2.map fun w => (c.1, c.2.1, w)) := by
    intro l hl
    induction l with
    | nil => rfl
    | cons c l ih =>
      obtain ⟨i, j, w⟩ := c
      cases w with
      | none => have := hl (i, j, none) (by simp); simp at this
      | some w =>
        simp only [weighted] at ih ⊢
        simp only [List.filterMap_cons, Option.map_some, List.map_cons, List.cons.injEq, true_and]
        exact ih fun c hc => hl c (by simp [hc])
  have hw := hlift cs hsome
  have hwne : (cs.filterMap fun c => c.2.2.map fun w => (c.1, c.2.1, w)) ≠ [] := by
    intro h; rw [h] at hw; exact hne hw
  have x1 := w1 _ hw hwne
  have x2 := w2 _ hw hwne
  rw [← hu.1, ← hu.2] at x2
  exact x1.unique a1 x2 fun _ _ => rfl

/-- **C06** is false in general: once the history contains a source index that is not below
    `m`, every later non-empty, consistent list of connections is rejected by `compress(m)`,
    although a fresh object accepts it (C01). -/
theorem C06_old_sources_are_rejected (calls : List (GraphCall R)) (k : Nat) (cs : List (Conn R))
    (m : Nat) (hm : m < 18446744073709551616)
    (hok : ((afterCalls calls).compressStep k).2 = .ok ())
    (hold : ∀ c ∈ connsOf calls, ValidConn c) (hbig : ∃ c ∈ connsOf calls, (m : Int) ≤ c.1)
    (hnew : ∀ c ∈ cs, ValidConn c ∧ c.1 < m) (hne : cs ≠ []) (hmix : ¬ Mixed cs) :
    ((addTo (afterCalls (calls ++ [.compress k])) cs).compressStep m).2 = .throw .invalidArgument ∧
    ((freshWith cs).compressStep m).2 = .ok () := by
  have hg : afterCalls (calls ++ [.compress k]) = ((afterCalls calls).compressStep k).1 := by
    simp [afterCalls, doCall]
  have hmax := afterCalls_max calls
  have hst := compressStep_max (afterCalls calls) k
  have hpend := compressStep_pending _ _ hok
  rw [hmax.1, hmax.2] at hst
  rw [← hg] at hst hpend
  have hI := le_foldl_max (fun c : Conn R => c.1) (connsOf calls) (-1)
  have hJ := le_foldl_max (fun c : Conn R => c.2.1) (connsOf calls) (-1)
  have hI2 := (foldl_max_le (fun c : Conn R => c.1) (connsOf calls) (-1) (INT_MAX - 1)).mpr
    ⟨by decide, fun c hc => by have := (hold c hc).1.2; unfold INT_MAX; omega⟩
  have hJ2 := (foldl_max_le (fun c : Conn R => c.2.1) (connsOf calls) (-1) (INT_MAX - 1)).mpr
    ⟨by decide, fun c hc => by have := (hold c hc).2.2; unfold INT_MAX; omega⟩
  rw [← hst.1] at hI hI2
  rw [← hst.2] at hJ hJ2
  have hint : ∀ c ∈ cs, IsInt c.1 ∧ IsInt c.2.1 := by
    intro c hc; have := (hnew c hc).1; unfold ValidConn ValidIndex at this; unfold IsInt; omega
  obtain ⟨_, o2, _, _⟩ := compress_outcome (afterCalls (calls ++ [.compress k])) cs m hm
    hpend.1 hpend.2.1 hpend.2.2 ⟨hI.1, by omega⟩ ⟨hJ.1, by omega⟩ hint
  constructor
  · obtain ⟨c, hc, hcm⟩ := hbig
    rw [o2 hmix hne (Or.inr (Or.inl (le_trans hcm (hI.2 c hc))))]
  · obtain ⟨g, e, _⟩ := fresh_ok cs m hm hmix (fun c hc => (hnew c hc).1) (fun c hc => (hnew c hc).2)
    rw [e]

/-- A history for C06: a graph on 5 rows is compressed, then a smaller one is asked for. -/
example : ((afterCalls ([.add (4, 0, none)] : List (GraphCall R))).compressStep 5).2 = .ok () ∧
    ((addTo (afterCalls ([.add (4, 0, none), .compress 5] : List (GraphCall R)))
      [(0, 1, none)]).compressStep 2).2 = .throw .invalidArgument := by
  have h1 : ((afterCalls ([.add (4, 0, none)] : List (GraphCall R))).compressStep 5).2 = .ok () := by
    obtain ⟨g, e, _⟩ := fresh_ok ([(4, 0, none)] : List (Conn R)) 5 (by decide) (by simp [Mixed])
      (by simp [ValidConn, ValidIndex]) (by simp)
    have : afterCalls ([.add (4, 0, none)] : List (GraphCall R)) = freshWith [(4, 0, none)] := rfl
    rw [this, e]
  refine ⟨h1, ?_⟩
  exact (C06_old_sources_are_rejected [.add (4, 0, none)] 5 [(0, 1, none)] 2 (by decide) h1
    (by simp [connsOf, ValidConn, ValidIndex]) (by simp [connsOf])
    (by simp [ValidConn, ValidIndex]) (by simp) (by simp [Mixed])).1

/-- **C06** is also false for weights: an unweighted graph built after a weighted one still
    reports the old weights. -/
theorem C06_old_weights_stay (calls : List (GraphCall R)) (k : Nat) (cs : List (Conn R)) (m : Nat)
    (hm : m < 18446744073709551616)
    (hok : ((afterCalls calls).compressStep k).2 = .ok ())
    (hold : ∀ c ∈ connsOf calls, ValidConn c ∧ c.1 < m) (hnew : ∀ c ∈ cs, ValidConn c ∧ c.1 < m)
    (hplain : ∀ c ∈ cs, c.2.2.isNone) :
    ((addTo (afterCalls (calls ++ [.compress k])) cs).compressStep m).1.connectionWeight
      = (afterCalls (calls ++ [.compress k])).connectionWeight := by
  have hg : afterCalls (calls ++ [.compress k]) = ((afterCalls calls).compressStep k).1 := by
    simp [afterCalls, doCall]
  have hmax := afterCalls_max calls
  have hst := compressStep_max (afterCalls calls) k
  have hpend := compressStep_pending _ _ hok
  rw [hmax.1, hmax.2] at hst
  rw [← hg] at hst hpend
  have hI := le_foldl_max (fun c : Conn R => c.1) (connsOf calls) (-1)
  have hJ := le_foldl_max (fun c : Conn R => c.2.1) (connsOf calls) (-1)
  have hI2 := (foldl_max_le (fun c : Conn R => c.1) (connsOf calls) (-1) (INT_MAX - 1)).mpr
    ⟨by decide, fun c hc => by have := (hold c hc).1.1.2; unfold INT_MAX; omega⟩
  have hI3 := (foldl_max_le (fun c : Conn R => c.1) (connsOf calls) (-1) (m - 1)).mpr
    ⟨by omega, fun c hc => by have := (hold c hc).2; omega⟩
  have hJ2 := (foldl_max_le (fun c : Conn R => c.2.1) (connsOf calls) (-1) (INT_MAX - 1)).mpr
    ⟨by decide, fun c hc => by have := (hold c hc).1.2.2; unfold INT_MAX; omega⟩
  rw [← hst.1] at hI hI2 hI3
  rw [← hst.2] at hJ hJ2
  have hint : ∀ c ∈ cs, IsInt c.1 ∧ IsInt c.2.1 := by
    intro c hc; have := (hnew c hc).1; unfold ValidConn ValidIndex at this; unfold IsInt; omega
  obtain ⟨_, _, _, o4⟩ := compress_outcome (afterCalls (calls ++ [.compress k])) cs m hm
    hpend.1 hpend.2.1 hpend.2.2 ⟨hI.1, by omega⟩ ⟨hJ.1, by omega⟩ hint
  obtain ⟨g1, e1, _, _, _, _, _, _, s1, _⟩ := o4
    (by rintro ⟨⟨c, hc, hc'⟩, _⟩; have := hplain c hc; cases h : c.2.2 <;> simp_all)
    (fun c hc => (hnew c hc).2) (fun _ => by omega) (fun c hc => (hnew c hc).1)
  rw [e1]; exact s1 hplain

/-! ### C07: transposition -/

/-- **C07** Exchanging source and sink in every connection transposes the stored graph: the
    weight found for `(i, j)` in one is the weight found for `(j, i)` in the other (`none`
    on both sides if the connection does not exist). -/
theorem C07_transpose (ws : List (Int × Int × R)) (n n' : Nat) (hn : n < 18446744073709551616)
    (hn' : n' < 18446744073709551616) (hv : ∀ c ∈ ws, ValidIndex c.1 ∧ ValidIndex c.2.1)
    (hlt : ∀ c ∈ ws, c.1 < n ∧ c.2.1 < n') :
    ∃ g g', (freshWith (weighted ws)).compress n = .ok g ∧
      (freshWith (weighted (ws.map fun c => (c.2.1, c.1, c.2.2)))).compress n' = .ok g' ∧
      ∀ i < n, ∀ j < n', lookupWeight g i j = lookupWeight g' j i := by
  obtain ⟨g, e, _, _, l⟩ := C02_weights_accumulate ws n hn hv (fun c hc => (hlt c hc).1)
  obtain ⟨g', e', _, _, l'⟩ := C02_weights_accumulate (ws.map fun c => (c.2.1, c.1, c.2.2)) n' hn'
    (by intro c hc; obtain ⟨d, hd, rfl⟩ := List.mem_map.mp hc; exact ⟨(hv d hd).2, (hv d hd).1⟩)
    (by intro c hc; obtain ⟨d, hd, rfl⟩ := List.mem_map.mp hc; exact (hlt d hd).2)
  refine ⟨g, g', e, e', ?_⟩
  intro i hi j hj
  have hmem : (∃ w, ((j : Int), (i : Int), w) ∈ ws.map fun c => (c.2.1, c.1, c.2.2)) ↔
      ∃ w, ((i : Int), (j : Int), w) ∈ ws := by
    constructor
    · rintro ⟨w, h⟩
      obtain ⟨⟨a, b, v⟩, hd, hd'⟩ := List.mem_map.mp h
      simp only [Prod.mk.injEq] at hd'
      obtain ⟨rfl, rfl, rfl⟩ := hd'
      exact ⟨v, hd⟩
    · rintro ⟨w, h⟩; exact ⟨w, List.mem_map.mpr ⟨_, h, rfl⟩⟩
  have hws : weightsOf (ws.map fun c => (c.2.1, c.1, c.2.2)) j i = weightsOf ws i j := by
    unfold weightsOf
    rw [List.filter_map, List.map_map]
    congr 1
    apply List.filter_congr
    intro c _
    simp [Bool.and_comm]
  by_cases h : ∃ w, ((i : Int), (j : Int), w) ∈ ws
  · rw [(l i hi j).1 h, (l' j hj i).1 (hmem.mpr h), hws]
  · rw [(l i hi j).2 h, (l' j hj i).2 (fun h' => h (hmem.mp h'))]

example (a b : R) : let ws := [(1, 0, a), (0, 2, b), (1, 0, b)]
    (∀ c ∈ ws, ValidIndex c.1 ∧ ValidIndex c.2.1) ∧
    (∀ c ∈ ws, c.1 < ((2 : Nat) : Int) ∧ c.2.1 < ((3 : Nat) : Int)) := by
  simp [ValidIndex]

/-! ### C08, C09: iteration and output -/

/-- **C08** Looping over all rows and over `cellNeighbourhood(row)` meets each connection once,
    ascending by row and then column, and with exact addition the weights met add up to all
    the weights given. -/
theorem C08_iteration (ws : List (Int × Int × R)) (n : Nat) (hn : n ≤ INT_MAX)
    (hv : ∀ c ∈ ws, ValidIndex c.1 ∧ ValidIndex c.2.1) (hlt : ∀ c ∈ ws, c.1 < n) :
    ∃ g L, (freshWith (weighted ws)).compress n = .ok g ∧ g.numRows = n ∧
      (∀ r < n, g.cellNeighbourhood r = .ok (L r)) ∧
      ((visited n L).Pairwise fun a b => a.1 < b.1 ∨ (a.1 = b.1 ∧ a.2.1 < b.2.1)) ∧
      (∀ r j, (∃ w, (r, j, w) ∈ visited n L) ↔ ∃ w, ((r : Int), j, w) ∈ ws) ∧
      (ExactAdd R → ((visited n L).map fun x => x.2.2).foldl Arith.add Arith.zero
        = (ws.map fun c => c.2.2).foldl Arith.add Arith.zero) := by
  have hn64 : n < 18446744073709551616 := by unfold INT_MAX at hn; omega
  obtain ⟨g, e, ha, hw, _⟩ := C02_weights_accumulate ws n hn64 hv hlt
  refine ⟨g, fun r => (rowOf g.startPointers g.neighbourhood r).zip
    (rowOf g.startPointers g.connectionWeight r), e, ?_, ?_, ?_, ?_, ?_⟩
  · unfold AssembledConnections.numRows; rw [ha.size]; simp
  · intro r hr
    exact cellNeighbourhood_eq g ha hw.size r hr (by omega)
  · have h := pairsOf_sorted ha
    rw [← visited_pairs ha hw.size, List.pairwise_map] at h
    exact h
  · intro r j
    have h : (∃ w, (r, j, w) ∈ visited n fun r => (rowOf g.startPointers g.neighbourhood r).zip
        (rowOf g.startPointers g.connectionWeight r)) ↔
        (r, j) ∈ pairsOf n g.startPointers g.neighbourhood := by
      rw [← visited_pairs ha hw.size, List.mem_map]
      constructor
      · rintro ⟨w, h⟩; exact ⟨_, h, rfl⟩
      · rintro ⟨⟨a, b, w⟩, h, he⟩
        simp only [Prod.mk.injEq] at he
        obtain ⟨rfl, rfl⟩ := he; exact ⟨w, h⟩
    rw [h, mem_pairsOf ha]
    constructor
    · exact fun h => h.2
    · rintro ⟨w, h⟩
      have := hlt _ h
      exact ⟨by simpa using this, w, h⟩
  · intro hex
    exact visited_sum hex ha hw (fun c hc => ⟨(hv c hc).1.1, hlt c hc⟩)

/-- **C09** (partial).  Printing writes one line per connection, in (row, column) order, with
    precision 16 and scientific format (bit 8 of the flags), and restores the precision.  Missing from the full
    claim: the format flags are not restored (`C09_flags_after_print`). -/
theorem C09_print_partial (ws : List (Int × Int × R)) (n : Nat) (hn : n ≤ INT_MAX)
    (hv : ∀ c ∈ ws, ValidIndex c.1 ∧ ValidIndex c.2.1) (hlt : ∀ c ∈ ws, c.1 < n) (os : OStream R) :
    ∃ g L os', (freshWith (weighted ws)).compress n = .ok g ∧
      (∀ r < n, g.cellNeighbourhood r = .ok (L r)) ∧
      g.print os = .ok os' ∧
      os'.out = os.out ++ (visited n L).map (fun x =>
        ((x.1 : Int), x.2.1, x.2.2, 16, os.flags ||| 2 ^ 8)) ∧
      os'.precision = os.precision ∧ os'.flags = os.flags ||| 2 ^ 8 := by
  rw [show 2 ^ 8 = scientificFlag from rfl]
  obtain ⟨g, L, e, hr, hL, _⟩ := C08_iteration ws n hn hv hlt
  have hnar : (narrowInt g.numRows).toNat = n := by
    rw [hr]; unfold narrowInt; unfold INT_MAX at hn
    rw [Nat.mod_eq_of_lt (by omega), if_pos (by omega)]; simp
  have hwrite : ∀ (r : Nat) (l : List (Int × R)) (o : OStream R),
      l.foldl (fun os c => os.writeLine (r : Int) c) o = { o with
        out := o.out ++ l.map fun c => ((r : Int), c.1, c.2, o.precision, o.flags) } := by
    intro r l
    induction l with
    | nil => intro o; simp
    | cons c l ih => intro o; rw [List.foldl_cons, ih]; simp [OStream.writeLine]
  obtain ⟨o', e1, h1⟩ := forEach_range_inv (n := n)
    (s := (⟨16, os.flags ||| scientificFlag, os.out⟩ : OStream R))
    (f := fun os cell => do
      let nb ← g.cellNeighbourhood cell
      pure (nb.foldl (fun os c => os.writeLine cell c) os))
    (fun k o => o = ⟨16, os.flags ||| scientificFlag, os.out ++ (visited k L).map (fun x =>
        ((x.1 : Int), x.2.1, x.2.2, 16, os.flags ||| scientificFlag))⟩)
    (by simp [visited])
    (by
      intro r o hr ho
      simp only [Res.bind_eq, hL r hr, Res.ok_bind, Res.pure_eq]
      refine ⟨_, rfl, ?_⟩
      rw [hwrite, ho]
      simp [visited, List.range_succ, Function.comp_def])
  refine ⟨g, L, ⟨os.precision, (os.flags ||| scientificFlag) ||| os.flags, o'.out⟩, e, hL, ?_, ?_, rfl, ?_⟩
  · unfold AssembledConnections.print
    simp only [OStream.setPrecision, OStream.setf, hnar, Res.bind_eq, Res.pure_eq] at e1 ⊢
    simp only [e1, Res.ok_bind, h1]
  · rw [h1]
  · simp only
    rw [Nat.or_assoc, Nat.or_comm scientificFlag, ← Nat.or_assoc, Nat.or_self]

/-- **C09** is false in general: the flags come back changed exactly when the stream was not
    already in scientific format. -/
theorem C09_flags_after_print (ws : List (Int × Int × R)) (n : Nat) (hn : n ≤ INT_MAX)
    (hv : ∀ c ∈ ws, ValidIndex c.1 ∧ ValidIndex c.2.1) (hlt : ∀ c ∈ ws, c.1 < n) (os : OStream R) :
    ∃ g os', (freshWith (weighted ws)).compress n = .ok g ∧ g.print os = .ok os' ∧
      (os'.flags = os.flags ↔ os.flags.testBit 8 = true) := by
  obtain ⟨g, L, os', e, _, p, _, _, h⟩ := C09_print_partial ws n hn hv hlt os
  refine ⟨g, os', e, p, ?_⟩
  rw [h]
  constructor
  · intro h
    rw [← h, Nat.testBit_or, Nat.testBit_two_pow_self, Bool.or_true]
  · intro hb
    apply Nat.eq_of_testBit_eq
    intro i
    rw [Nat.testBit_or, Nat.testBit_two_pow]
    by_cases hi : 8 = i
    · subst hi; rw [hb]; rfl
    · simp [hi]

/-- A stream with default flags has different flags afterwards. -/
example (a : R) : ∃ g os', (freshWith (weighted [((0 : Int), (1 : Int), a)])).compress 2 = .ok g ∧
    g.print ⟨6, 4098, []⟩ = .ok os' ∧ os'.flags ≠ 4098 := by
  obtain ⟨g, os', e, p, h⟩ := C09_flags_after_print [((0 : Int), (1 : Int), a)] 2 (by decide)
    (by simp [ValidIndex]) (by simp) ⟨6, 4098, []⟩
  exact ⟨g, os', e, p, by rw [ne_eq, h]; show ¬ Nat.testBit 4098 8 = true; decide⟩

end Verif.Props
