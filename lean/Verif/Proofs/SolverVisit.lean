/-
For cycle-free graphs the order in which the cells are visited does not matter, in any arithmetic.
-/
import Verif.Proofs.SolverTop
import Verif.Spec.SolverCalls

namespace Verif.Solver
open Verif.Spec Verif.Tarjan

variable {R : Type} [Arith R]

/-- The values `solveSingleCell` stores. -/
def cellVals (d : SolverData R) (isStart : List Bool) (localSource : List R)
    (s : List R × List R) (cell : Int) : Res (R × R) := do
  let i := sizeOfInt cell
  let src ← rd d.sourceTerm i
  let start ← rd isStart i
  let inflx ← rd d.influx i
  let total := Arith.add inflx (cellSource src start)
  let nb ← d.gReverse.cellNeighbourhood cell
  let up ← forEach nb (Arith.zero, Arith.zero) (addUpwind s.1 s.2)
  let contrib ← withLocalSource start localSource i up.2
  assertThat (Arith.le Arith.zero total)
  assertThat (Arith.le Arith.zero contrib)
  let c ← cellTracer total contrib
  let pv ← rd d.pv i
  pure (cellTof pv total c up.1, c)

variable {d : SolverData R} {isStart : List Bool} {localSource : List R}

theorem single_ok_iff {s s' : List R × List R} {cell : Int} :
    solveSingleCell d isStart localSource s cell = .ok s' ↔
      ∃ p, cellVals d isStart localSource s cell = .ok p ∧ sizeOfInt cell < s.1.length ∧ sizeOfInt cell < s.2.length ∧
        s' = (s.1.set (sizeOfInt cell) p.1, s.2.set (sizeOfInt cell) p.2) := by
  unfold solveSingleCell cellVals
  simp only [Res.bind_eq, Res.pure_eq, Res.bind_ok_iff, wr_eq_ok_iff]
  constructor
  · rintro ⟨a1, h1, a2, h2, a3, h3, a4, h4, a5, h5, a6, h6, a7, h7, a8, h8, a9, h9, a10, ⟨h10, rfl⟩, a11, h11, a12,
      ⟨h12, rfl⟩, h13⟩
    cases h13
    exact ⟨_, ⟨a1, h1, a2, h2, a3, h3, a4, h4, a5, h5, a6, h6, a7, h7, a8, h8, a9, h9, a11, h11, rfl⟩, h12, h10, rfl⟩
  · rintro ⟨p, ⟨a1, h1, a2, h2, a3, h3, a4, h4, a5, h5, a6, h6, a7, h7, a8, h8, a9, h9, a11, h11, hp⟩, h12, h10, rfl⟩
    cases hp
    exact ⟨a1, h1, a2, h2, a3, h3, a4, h4, a5, h5, a6, h6, a7, h7, a8, h8, a9, h9, _, ⟨h10, rfl⟩, a11, h11, _,
      ⟨h12, rfl⟩, rfl⟩

theorem cellVals_congr {s t : List R × List R} {cell : Int} {nb : List (Int × R)}
    (hnb : d.gReverse.cellNeighbourhood cell = .ok nb)
    (h : ∀ e ∈ nb, s.1[sizeOfInt e.1]? = t.1[sizeOfInt e.1]? ∧ s.2[sizeOfInt e.1]? = t.2[sizeOfInt e.1]?) :
    cellVals d isStart localSource s cell = cellVals d isStart localSource t cell := by
  have hup : ∀ x, forEach nb x (addUpwind s.1 s.2) = forEach nb x (addUpwind t.1 t.2) := by
    intro x
    apply forEach_congr
    intro y e he
    unfold addUpwind rd
    rw [(h e he).1, (h e he).2]
  unfold cellVals
  simp only [Res.bind_eq, hnb, Res.ok_bind, hup]

/-- `seq` lists each upwind neighbour of a cell, if at all, before the cell. -/
def Upwind (d : SolverData R) (seq : List Nat) : Prop :=
  ∀ (pre : List Nat) (v : Nat) (post : List Nat), seq = pre ++ v :: post → ∃ nb, d.gReverse.cellNeighbourhood (v : Int) = .ok nb ∧
    ∀ e ∈ nb, ∀ u ∈ v :: post, sizeOfInt e.1 ≠ u

/-- Visit the cells of `seq`. -/
def visit (d : SolverData R) (isStart : List Bool) (localSource : List R) (seq : List Nat)
    (s : List R × List R) : Res (List R × List R) :=
  forEach (seq.map fun v : Nat => (v : Int)) s (solveSingleCell d isStart localSource)

theorem visit_cons (v : Nat) (seq : List Nat) (s : List R × List R) :
    visit d isStart localSource (v :: seq) s
      = (solveSingleCell d isStart localSource s v).bind (visit d isStart localSource seq) := rfl

theorem Upwind.tail {v : Nat} {seq : List Nat} (h : Upwind d (v :: seq)) : Upwind d seq := by
  intro pre x post e
  exact h (v :: pre) x post (by rw [e]; rfl)

/-- After a successful visit each visited cell has the values computed from the final state, and
    the other cells are unchanged. -/
theorem visit_fixed : ∀ (seq : List Nat), (∀ v ∈ seq, v ≤ INT_MAX) → seq.Nodup → Upwind d seq → ∀ s s',
    visit d isStart localSource seq s = .ok s' →
    s'.1.length = s.1.length ∧ s'.2.length = s.2.length ∧
    (∀ i : Nat, i ∉ seq → s'.1[i]? = s.1[i]? ∧ s'.2[i]? = s.2[i]?) ∧
    ∀ v ∈ seq, v < s.1.length ∧ v < s.2.length ∧ ∃ p, cellVals d isStart localSource s' v = .ok p ∧
      s'.1[v]? = some p.1 ∧ s'.2[v]? = some p.2
  | [], _, _, _, s, s', h => by
    cases h
    exact ⟨rfl, rfl, fun _ _ => ⟨rfl, rfl⟩, by simp⟩
  | v :: seq, hI, hnd, hup, s, s', h => by
    have hsz : sizeOfInt (v : Int) = v := by
      rw [sizeOfInt_nonneg (by omega) (by exact_mod_cast hI v List.mem_cons_self)]; simp
    obtain ⟨hv, hnd'⟩ := List.nodup_cons.mp hnd
    rw [visit_cons] at h
    obtain ⟨s1, h1, h2⟩ := Res.bind_ok_iff.mp h
    obtain ⟨p, hp, hl1, hl2, rfl⟩ := single_ok_iff.mp h1
    rw [hsz] at hl1 hl2 h2
    obtain ⟨g1, g2, g3, g4⟩ := visit_fixed seq (fun x hx => hI x (List.mem_cons_of_mem _ hx)) hnd' hup.tail _ _ h2
    simp only [List.length_set] at g1 g2 g4
    refine ⟨g1, g2, ?_, ?_⟩
    · intro i hi
      rw [List.mem_cons, not_or] at hi
      have := g3 i hi.2
      simp only [List.getElem?_set_ne (Ne.symm hi.1)] at this
      exact this
    · intro x hx
      rcases List.mem_cons.mp hx with rfl | hx
      · refine ⟨hl1, hl2, p, ?_, ?_, ?_⟩
        · obtain ⟨nb, hnb, hne⟩ := hup [] x seq rfl
          rw [← hp]
          apply cellVals_congr hnb
          intro e he
          have hnot : sizeOfInt e.1 ∉ seq := fun hm => hne e he _ (List.mem_cons_of_mem _ hm) rfl
          have hne' : sizeOfInt e.1 ≠ x := hne e he x List.mem_cons_self
          have := g3 _ hnot
          simp only [List.getElem?_set_ne (Ne.symm hne')] at this
          exact this
        · rw [(g3 x hv).1]; exact List.getElem?_set_self hl1
        · rw [(g3 x hv).2]; exact List.getElem?_set_self hl2
      · exact g4 x hx

/-- A visit in another order reaches the state of which every cell is computed. -/
theorem visit_reaches {s s' : List R × List R} (hl1 : s'.1.length = s.1.length) (hl2 : s'.2.length = s.2.length) :
    ∀ (seq : List Nat), (∀ v ∈ seq, v ≤ INT_MAX) → seq.Nodup → Upwind d seq → ∀ t : List R × List R,
    t.1.length = s.1.length → t.2.length = s.2.length →
    (∀ i : Nat, i ∉ seq → s'.1[i]? = t.1[i]? ∧ s'.2[i]? = t.2[i]?) →
    (∀ v ∈ seq, v < s.1.length ∧ v < s.2.length ∧ ∃ p, cellVals d isStart localSource s' v = .ok p ∧
      s'.1[v]? = some p.1 ∧ s'.2[v]? = some p.2) →
    visit d isStart localSource seq t = .ok s'
  | [], _, _, _, t, h1, h2, hoff, _ => by
    have e1 : s'.1 = t.1 := List.ext_getElem? fun i => (hoff i (by simp)).1
    have e2 : s'.2 = t.2 := List.ext_getElem? fun i => (hoff i (by simp)).2
    show Res.ok t = .ok s'
    rw [show t = s' from Prod.ext e1.symm e2.symm]
  | v :: seq, hI, hnd, hup, t, h1, h2, hoff, hfix => by
    have hsz : sizeOfInt (v : Int) = v := by
      rw [sizeOfInt_nonneg (by omega) (by exact_mod_cast hI v List.mem_cons_self)]; simp
    obtain ⟨hv, hnd'⟩ := List.nodup_cons.mp hnd
    obtain ⟨k1, k2, p, hp, p1, p2⟩ := hfix v List.mem_cons_self
    obtain ⟨nb, hnb, hne⟩ := hup [] v seq rfl
    have hval : cellVals d isStart localSource t v = .ok p := by
      rw [← hp]
      symm
      apply cellVals_congr hnb
      intro e he
      exact hoff _ fun hm => hne e he _ hm rfl
    have hstep : solveSingleCell d isStart localSource t v = .ok (t.1.set v p.1, t.2.set v p.2) :=
      single_ok_iff.mpr ⟨p, hval, by rw [hsz]; omega, by rw [hsz]; omega, by rw [hsz]⟩
    rw [visit_cons, hstep, Res.ok_bind]
    refine visit_reaches hl1 hl2 seq (fun x hx => hI x (List.mem_cons_of_mem _ hx)) hnd' hup.tail _
      (by simpa using h1) (by simpa using h2) ?_ (fun x hx => hfix x (List.mem_cons_of_mem _ hx))
    intro i hi
    by_cases e : i = v
    · subst e
      simp only
      rw [List.getElem?_set_self (by omega), List.getElem?_set_self (by omega), p1, p2]
      exact ⟨rfl, rfl⟩
    · simp only [List.getElem?_set_ne (Ne.symm e)]
      exact hoff i (by simp [e, hi])

/-- Two upwind orders of the same cells give the same result. -/
theorem visit_order {seq seq' : List Nat} (hI : ∀ v ∈ seq, v ≤ INT_MAX) (hnd : seq.Nodup) (hperm : seq'.Perm seq)
    (hup : Upwind d seq) (hup' : Upwind d seq') {s s' : List R × List R}
    (h : visit d isStart localSource seq s = .ok s') : visit d isStart localSource seq' s = .ok s' := by
  obtain ⟨g1, g2, g3, g4⟩ := visit_fixed seq hI hnd hup s s' h
  exact visit_reaches g1 g2 seq' (fun v hv => hI v (hperm.mem_iff.mp hv)) (hperm.nodup_iff.mpr hnd) hup' s rfl rfl
    (fun i hi => g3 i fun hm => hi (hperm.mem_iff.mpr hm)) (fun v hv => g4 v (hperm.mem_iff.mp hv))

/-! ### Whole calls on cycle-free graphs -/

/-- Solving components of one cell each is visiting the cells. -/
theorem solve_singles {comps : List (List Nat)} (hc : ∀ c ∈ comps, ∃ v, c = [v]) (fuel : Nat) (s : List R × List R) :
    solve d isStart localSource (cellsOf comps) (offsets comps) fuel s
      = (visit d isStart localSource comps.flatten s).bind
          fun s => .ok (s.1.map fun t => Arith.min t maxTof, s.2) := by
  have hstep : ∀ (k c : Nat) (s : List R × List R), comps[k]? = some [c] →
      solveComponent d isStart localSource (cellsOf comps) (offsets comps) fuel s k
        = solveSingleCell d isStart localSource s (c : Int) := by
    intro k c s hck
    have hk : k < comps.length := by
      by_contra h; rw [List.getElem?_eq_none (by omega)] at hck; cases hck
    unfold solveComponent
    simp only [Res.bind_eq, rd_of_getElem? (offsets_getElem? comps (k := k + 1) (by omega)),
      rd_of_getElem? (offsets_getElem? comps (k := k) (by omega)), Res.ok_bind, off_succ hck,
      Nat.add_sub_cancel_left, readCells_comp hck]
    rfl
  have hloop : ∀ k ≤ comps.length, forEach (List.range k) s
      (solveComponent d isStart localSource (cellsOf comps) (offsets comps) fuel)
        = visit d isStart localSource (comps.take k).flatten s := by
    intro k
    induction k with
    | zero => intro _; rfl
    | succ k ih =>
      intro hk
      obtain ⟨v, hv⟩ := hc comps[k] (List.getElem_mem (by omega))
      have hck : comps[k]? = some [v] := by rw [List.getElem?_eq_getElem (by omega), hv]
      rw [List.range_succ, forEach_append, ih (by omega), List.take_succ_eq_append_getElem (by omega), hv,
        List.flatten_append]
      unfold visit
      rw [List.map_append, forEach_append]
      congr 1; funext t
      simp only [forEach_cons, forEach_nil, List.flatten_cons, List.flatten_nil, List.append_nil, List.map_cons, List.map_nil]
      rw [hstep k v t hck]
  unfold solve
  simp only [Res.bind_eq, Res.pure_eq, offsets_length, Nat.add_sub_cancel, hloop comps.length (le_refl _), List.take_length]

/-- In a cycle-free graph every component is a single cell. -/
theorem singles_of_acyclic {n : Nat} {ia : List Nat} {ja : List Int} {V : Nat → Prop} {comps : List (List Nat)}
    (ht : Topo n ia ja V comps) (hacy : ∀ v, ¬ Relation.TransGen (HasEdge n ia ja) v v) :
    ∀ c ∈ comps, ∃ v, c = [v] := by
  intro c hc
  have hnd : c.Nodup := (List.nodup_flatten.mp ht.once).1 c hc
  match c, hc, hnd with
  | [], hc, _ => exact absurd rfl (ht.nonempty _ hc)
  | [v], _, _ => exact ⟨v, rfl⟩
  | a :: b :: l, hc, hnd =>
    exfalso
    have hab : a ≠ b := fun e => (List.nodup_cons.mp hnd).1 (by rw [e]; simp)
    have h1 := ht.strong _ hc a (by simp) b (by simp)
    have h2 := ht.strong _ hc b (by simp) a (by simp)
    rcases Relation.reflTransGen_iff_eq_or_transGen.mp h1 with e | h1
    · exact hab e.symm
    rcases Relation.reflTransGen_iff_eq_or_transGen.mp h2 with e | h2
    · exact hab e
    exact hacy a (h1.trans h2)

theorem flatten_singles {comps : List (List Nat)} (hc : ∀ c ∈ comps, ∃ v, c = [v]) :
    comps = comps.flatten.map fun v => [v] := by
  induction comps with
  | nil => rfl
  | cons c comps ih =>
    obtain ⟨v, rfl⟩ := hc c List.mem_cons_self
    have := ih fun c h => hc c (List.mem_cons_of_mem _ h)
    simp only [List.flatten_cons, List.map_append, List.map_cons, List.map_nil, List.cons_append, List.nil_append]
    rw [← this]

theorem topologicalOrder_of_topo {n : Nat} {ia : List Nat} {ja : List Int} {V : Nat → Prop} {comps : List (List Nat)}
    (ht : Topo n ia ja V comps) (hacy : ∀ v, ¬ Relation.TransGen (HasEdge n ia ja) v v) :
    TopologicalOrder (HasEdge n ia ja) V comps.flatten := by
  refine ⟨ht.once, ht.cover, ?_⟩
  intro pre v post e u hu he
  rcases List.mem_cons.mp hu with rfl | hu
  · exact hacy u (Relation.TransGen.single he)
  · obtain ⟨p1, p2, rfl⟩ := List.append_of_mem hu
    have hs := flatten_singles (singles_of_acyclic ht hacy)
    rw [e] at hs
    refine ht.order ((pre ++ v :: p1).map fun v => [v]) [u] (p2.map fun v => [v]) ?_ u (by simp) v ?_ he
    · rw [hs]; simp
    · rw [List.mem_flatten]
      exact ⟨[v], List.mem_map.mpr ⟨v, by simp, rfl⟩, by simp⟩

theorem upwind_of_order {n : Nat} (hd : GraphPair d n) {V : Nat → Prop} (hV : ∀ v, V v → v < n) {seq : List Nat}
    (h : TopologicalOrder (Edge d n) V seq) : Upwind d seq := by
  intro pre v post e
  have hv : v < n := hV v ((h.cells v).mp (by rw [e]; simp))
  obtain ⟨nb, hnb, hn⟩ := hd.upwind v hv
  refine ⟨nb, hnb, ?_⟩
  intro x hx u hu he
  obtain ⟨u', hu', hedge⟩ := hn x hx
  have hI := hd.graph.vertices_int
  have hlt := hedge.1
  rw [hu', sizeOfInt_nat hlt hI] at he
  subst he
  exact h.order pre v post e u' hu hedge

/-- `solveGlobal()` on a cycle-free graph: any topological order of the cells gives the result. -/
theorem global_visit {n : Nat} (hd : GraphPair d n) (hacy : ∀ v, ¬ Relation.TransGen (Edge d n) v v)
    {seq : List Nat} (hseq : TopologicalOrder (Edge d n) (· < n) seq)
    {fuel : Nat} (hf : n + numEdges n d.g.startPointers ≤ fuel) {st : SolverState R} {l : List R}
    (h : (solveGlobal d Alloc.good fuel st).2 = .ok l) :
    ∃ starts s, setupStartArrayFromSource d (List.replicate n false) = .ok starts ∧
      visitCells d starts d.sourceTerm n seq = .ok s ∧ l = s.1.map fun t => Arith.min t maxTof := by
  obtain ⟨comps, ht, horder⟩ := computeOrdering_spec hd.graph hd.size Alloc.good_good
  unfold solveGlobal prepareForSolve at h
  simp only [hd.pv] at h
  cases hs : setupStartArrayFromSource d (List.replicate n false) with
  | throw e => rw [hs] at h; simp [finish] at h
  | ub e => rw [hs] at h; simp [finish] at h
  | diverge => rw [hs] at h; simp [finish] at h
  | ok starts =>
    rw [hs] at h
    simp only [finish, horder fuel hf, solve_singles (singles_of_acyclic ht hacy)] at h
    cases hv : visit d starts d.sourceTerm comps.flatten (List.replicate n Arith.zero, List.replicate n Arith.zero) with
    | throw e => rw [hv] at h; simp at h
    | ub e => rw [hv] at h; simp at h
    | diverge => rw [hv] at h; simp at h
    | ok s =>
      rw [hv] at h
      simp only [Res.ok_bind, Res.ok.injEq] at h
      have htop := topologicalOrder_of_topo ht hacy
      have hperm : seq.Perm comps.flatten := (List.perm_ext_iff_of_nodup hseq.once ht.once).mpr fun v =>
        (hseq.cells v).trans (ht.cover v).symm
      refine ⟨starts, s, rfl, ?_, h.symm⟩
      exact visit_order (fun v hv => by
          have := (ht.cover v).mp hv
          have := hd.graph.vertices_int
          omega) ht.once hperm (upwind_of_order hd (fun v h => h) htop) (upwind_of_order hd (fun v h => h) hseq) hv

theorem collect_find (tof tracer : List R) : ∀ (l : List Nat), (∀ v ∈ l, v ≤ INT_MAX) → ∀ r r' : LocalSolution R,
    forEach (l.map fun v : Nat => (v : Int)) r (collectCell tof tracer) = .ok r' →
    ∀ k : Int, r'.tof.find k = (if k.toNat ∈ l ∧ 0 ≤ k then tof[k.toNat]? else r.tof.find k) ∧
      r'.concentration.find k = (if k.toNat ∈ l ∧ 0 ≤ k then tracer[k.toNat]? else r.concentration.find k)
  | [], _, r, r', h, k => by cases h; simp
  | v :: l, hI, r, r', h, k => by
    have hsz : sizeOfInt (v : Int) = v := by
      rw [sizeOfInt_nonneg (by omega) (by exact_mod_cast hI v List.mem_cons_self)]; simp
    rw [List.map_cons, forEach_cons] at h
    obtain ⟨r1, h1, h2⟩ := Res.bind_ok_iff.mp h
    unfold collectCell at h1
    simp only [Res.bind_eq, Res.pure_eq, hsz] at h1
    obtain ⟨t, ht, h1⟩ := Res.bind_ok_iff.mp h1
    obtain ⟨c, hc, h1⟩ := Res.bind_ok_iff.mp h1
    have ih := collect_find tof tracer l (fun x hx => hI x (List.mem_cons_of_mem _ hx)) r1 r' h2 k
    rw [rd_eq_ok_iff] at ht hc
    split at h1
    · cases h1
    · cases h1
      rw [ih.1, ih.2]
      simp only [OMap.find_assign]
      by_cases hl : k.toNat ∈ l ∧ 0 ≤ k
      · rw [if_pos hl, if_pos hl, if_pos ⟨List.mem_cons_of_mem _ hl.1, hl.2⟩, if_pos ⟨List.mem_cons_of_mem _ hl.1, hl.2⟩]
        exact ⟨rfl, rfl⟩
      · rw [if_neg hl, if_neg hl]
        by_cases hk : k = (v : Int)
        · subst hk; simp [ht, hc]
        · rw [if_neg (Ne.symm hk), if_neg (Ne.symm hk)]
          have hnot : ¬ (k.toNat ∈ v :: l ∧ 0 ≤ k) := by
            rintro ⟨hm, h0⟩
            rcases List.mem_cons.mp hm with e | e
            · omega
            · exact hl ⟨e, h0⟩
          rw [if_neg hnot, if_neg hnot]
          exact ⟨rfl, rfl⟩

/-- `solveLocal()` on a cycle-free graph: any topological order of the downstream cells gives the result. -/
theorem local_visit {n : Nat} (hd : GraphPair d n) (hacy : ∀ v, ¬ Relation.TransGen (Edge d n) v v)
    {startset : CellSetValues R} {starts : List Nat} (hk : (startset.map fun e => e.1) = starts.map fun v : Nat => (v : Int))
    (hp : ∀ p ∈ starts, p < n) {seq : List Nat}
    (hseq : TopologicalOrder (Edge d n) (fun v => ∃ p ∈ starts, Relation.ReflTransGen (Edge d n) p v) seq)
    {fuel : Nat} (hf : n + numEdges n d.g.startPointers ≤ fuel) {st : SolverState R} (hl : st.localSource.length = n)
    {sol : LocalSolution R} (h : (solveLocal d Alloc.good fuel startset st).2 = .ok sol) :
    ∃ isStart s, setupStartArray (List.replicate n false) startset = .ok isStart ∧
      visitCells d isStart (setupLocalSource (List.replicate n Arith.zero) startset).1 n seq = .ok s ∧
      ∀ v : Nat, sol.tof.find (v : Int) = (if v ∈ seq then s.1[v]?.map fun t => Arith.min t maxTof else none) ∧
        sol.concentration.find (v : Int) = (if v ∈ seq then s.2[v]? else none) := by
  obtain ⟨comps, ht, horder⟩ := computeLocalOrdering_spec hd.graph hd.size Alloc.good_good starts hp
  have hV : ∀ v, (∃ p ∈ starts, Relation.ReflTransGen (Edge d n) p v) → v < n := by
    rintro v ⟨p, hps, hr⟩
    rcases Relation.ReflTransGen.cases_tail hr with e | ⟨x, _, e⟩
    · rw [e]; exact hp p hps
    · have := hd.graph.range x e.1 _ e.2
      omega
  have htop := topologicalOrder_of_topo ht hacy
  have hperm : seq.Perm comps.flatten := (List.perm_ext_iff_of_nodup hseq.once ht.once).mpr fun v =>
    (hseq.cells v).trans (ht.cover v).symm
  have hIc : ∀ v ∈ comps.flatten, v ≤ INT_MAX := fun v hv => by
    have := hV v ((ht.cover v).mp hv)
    have := hd.graph.vertices_int
    omega
  rw [solveLocal_indep Alloc.good fuel startset st { localSource := List.replicate n Arith.zero } (by simp [hl])] at h
  unfold solveLocal prepareForSolve at h
  simp only [hd.pv] at h
  cases hs : setupStartArray (List.replicate n false) startset with
  | throw e => rw [hs] at h; simp [finish] at h
  | ub e => rw [hs] at h; simp [finish] at h
  | diverge => rw [hs] at h; simp [finish] at h
  | ok b =>
    rw [hs] at h
    simp only [finish, hk, horder fuel hf] at h
    cases hls : setupLocalSource (List.replicate n Arith.zero) startset with
    | mk ls r =>
      rw [hls] at h
      simp only at h
      match r, h with
      | .ok (), h =>
        simp only [solve_singles (singles_of_acyclic ht hacy)] at h
        cases hv : visit d b ls comps.flatten (List.replicate n Arith.zero, List.replicate n Arith.zero) with
        | throw e => rw [hv] at h; simp at h
        | ub e => rw [hv] at h; simp at h
        | diverge => rw [hv] at h; simp at h
        | ok s =>
          rw [hv] at h
          simp only [Res.ok_bind] at h
          cases hcl : cleanupLocalSource ls startset with
          | throw e => rw [hcl] at h; simp at h
          | ub e => rw [hcl] at h; simp at h
          | diverge => rw [hcl] at h; simp at h
          | ok ls' =>
            rw [hcl] at h
            simp only at h
            cases hco : collect (s.1.map fun t => Arith.min t maxTof) s.2 (cellsOf comps) (offsets comps) with
            | throw e => rw [hco] at h; simp at h
            | ub e => rw [hco] at h; simp at h
            | diverge => rw [hco] at h; simp at h
            | ok sol' =>
              rw [hco] at h
              simp only [Res.ok.injEq] at h
              subst h
              refine ⟨b, s, rfl, visit_order hIc ht.once hperm (upwind_of_order hd hV htop) (upwind_of_order hd hV hseq) hv, ?_⟩
              have hread : readCells (cellsOf comps) 0 comps.flatten.length = .ok (cellsOf comps) := by
                have hl : (cellsOf comps).length = comps.flatten.length := by unfold cellsOf; rw [List.length_map]
                unfold readCells
                rw [if_pos (by omega), List.drop_zero, ← hl, List.take_length]
              unfold collect at hco
              simp only [Res.bind_eq, back_offsets, Res.ok_bind, hread] at hco
              intro v
              have := collect_find _ _ comps.flatten hIc _ _ hco (v : Int)
              have hiff : ((v : Int).toNat ∈ comps.flatten ∧ 0 ≤ (v : Int)) ↔ v ∈ seq := by
                rw [hperm.mem_iff]; simp
              rw [this.1, this.2]
              by_cases hvs : v ∈ seq
              · rw [if_pos (hiff.mpr hvs), if_pos (hiff.mpr hvs), if_pos hvs, if_pos hvs]
                simp
              · rw [if_neg (fun h => hvs (hiff.mp h)), if_neg (fun h => hvs (hiff.mp h)), if_neg hvs, if_neg hvs]
                exact ⟨rfl, rfl⟩
      | .throw e, h => simp at h
      | .ub e, h => simp at h
      | .diverge, h => simp at h

end Verif.Solver
