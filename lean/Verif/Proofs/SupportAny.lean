/-
The cells of a local solution, whatever the arithmetic.
-/
import Verif.Proofs.Ends
import Verif.Proofs.RoundingToolbox
import Verif.Spec.Support

namespace Verif.Solver
open Verif.Tarjan Verif.Toolbox Verif.Counter Verif.Spec

variable {R : Type} [Arith R]

/-- The maps are sorted, and no concentration at or below zero is stored. -/
theorem collect_sorted (tof tracer : List R) : ∀ (l : List Int) (r r' : LocalSolution R),
    forEach l r (collectCell tof tracer) = .ok r' →
    OMap.Sorted r.tof → OMap.Sorted r.concentration → (∀ e ∈ r.concentration, Arith.le e.2 Arith.zero = false) →
    OMap.Sorted r'.tof ∧ OMap.Sorted r'.concentration ∧ ∀ e ∈ r'.concentration, Arith.le e.2 Arith.zero = false
  | [], r, r', h, h1, h2, h3 => by cases h; exact ⟨h1, h2, h3⟩
  | v :: l, r, r', h, h1, h2, h3 => by
    rw [forEach_cons] at h
    obtain ⟨r1, e1, e2⟩ := Res.bind_ok_iff.mp h
    unfold collectCell at e1
    simp only [Res.bind_eq, Res.pure_eq] at e1
    obtain ⟨t, _, e1⟩ := Res.bind_ok_iff.mp e1
    obtain ⟨c, _, e1⟩ := Res.bind_ok_iff.mp e1
    split at e1
    · cases e1
    · rename_i hle
      cases e1
      refine collect_sorted tof tracer l _ r' e2 (OMap.sorted_assign h1 _ _) (OMap.sorted_assign h2 _ _) fun e he => ?_
      rcases (OMap.mem_assign_iff h2).mp he with rfl | ⟨he, _⟩
      · simpa using hle
      · exact h3 e he

/-- What a local solution looks like. -/
structure Lives (V : Nat → Prop) (l : LocalSolution R) : Prop where
  tof : OMap.Sorted l.tof
  conc : OMap.Sorted l.concentration
  pos : ∀ e ∈ l.concentration, Arith.le e.2 Arith.zero = false
  cells : ∀ k : Int, ((l.tof.find k).isSome ↔ ∃ v : Nat, k = v ∧ V v) ∧
    ((l.concentration.find k).isSome ↔ ∃ v : Nat, k = v ∧ V v)

theorem local_lives {d : SolverData R} {n : Nat} (hd : Ready d n) {startset : CellSetValues R}
    (hp : ∀ e ∈ startset, 0 ≤ e.1 ∧ e.1 < n) {fuel : Nat} (hf : n + numEdges n d.g.startPointers ≤ fuel)
    {s : SolverState R} {sol : LocalSolution R} (h : (solveLocal d Alloc.good fuel startset s).2 = .ok sol) :
    Lives (fun v => ∃ e ∈ startset, Reachable n d.g.startPointers d.g.neighbourhood e.1.toNat v) sol := by
  have hcast : (startset.map fun p => p.1) = (startset.map fun p => p.1.toNat).map fun v : Nat => (v : Int) := by
    rw [List.map_map]
    apply List.map_congr_left
    intro e he
    have := hp e he
    simp only [Function.comp]; omega
  have hlt : ∀ p ∈ startset.map fun p => p.1.toNat, p < n := by
    intro p h
    obtain ⟨e, he, rfl⟩ := List.mem_map.mp h
    have := hp e he
    omega
  obtain ⟨comps, ht, horder⟩ := computeLocalOrdering_spec (hd.graph.isGraph hd.int) hd.graph.size Alloc.good_good _ hlt
  unfold solveLocal prepareForSolve at h
  simp only [hd.pv, finish_snd] at h
  obtain ⟨b, _, h⟩ := Res.bind_ok_iff.mp h
  rw [hcast, horder fuel hf, Res.ok_bind] at h
  obtain ⟨_, _, h⟩ := Res.bind_ok_iff.mp h
  obtain ⟨f, _, h⟩ := Res.bind_ok_iff.mp h
  obtain ⟨ls, _, h⟩ := Res.bind_ok_iff.mp h
  rw [Res.bind_ok_iff] at h
  obtain ⟨r, hco, h⟩ := h
  cases h
  have hn := hd.int
  have hV : ∀ v, v ∈ comps.flatten → v < n := by
    intro v hv
    obtain ⟨p, hps, hr⟩ := (ht.cover v).mp hv
    rcases Relation.ReflTransGen.cases_tail hr with e | ⟨x, _, e⟩
    · rw [e]; exact hlt p hps
    · have := (hd.graph.isGraph hd.int).range x e.1 _ e.2
      omega
  have hread : readCells (cellsOf comps) 0 comps.flatten.length = .ok (cellsOf comps) := by
    have hl : (cellsOf comps).length = comps.flatten.length := by unfold cellsOf; rw [List.length_map]
    unfold readCells
    rw [if_pos (by omega), List.drop_zero, ← hl, List.take_length]
  unfold collect at hco
  simp only [Res.bind_eq, back_offsets, Res.ok_bind, hread] at hco
  obtain ⟨s1, s2, s3⟩ := collect_sorted _ _ _ _ _ hco OMap.sorted_nil OMap.sorted_nil (by simp)
  have hset : ∀ v, v ∈ comps.flatten ↔ ∃ e ∈ startset, Reachable n d.g.startPointers d.g.neighbourhood e.1.toNat v := by
    intro v
    rw [ht.cover v]
    simp only [List.mem_map]
    constructor
    · rintro ⟨_, ⟨e, he, rfl⟩, hr⟩; exact ⟨e, he, hr⟩
    · rintro ⟨e, he, hr⟩; exact ⟨_, ⟨e, he, rfl⟩, hr⟩
  refine ⟨s1, s2, s3, fun k => ?_⟩
  have hfind := collect_find _ _ comps.flatten (fun v hv => by have := hV v hv; omega) _ _ hco k
  have hk : (∃ v : Nat, k = v ∧ ∃ e ∈ startset, Reachable n d.g.startPointers d.g.neighbourhood e.1.toNat v) ↔
      k.toNat ∈ comps.flatten ∧ 0 ≤ k := by
    constructor
    · rintro ⟨v, rfl, h⟩
      exact ⟨by simpa using (hset v).mpr h, by omega⟩
    · rintro ⟨h1, h2⟩
      exact ⟨k.toNat, by omega, (hset _).mp h1⟩
  have hget : ∀ (l : List Nat) (r r' : LocalSolution R), (∀ v ∈ l, v ≤ INT_MAX) →
      forEach (l.map fun v : Nat => (v : Int)) r (collectCell f.1 f.2) = .ok r' →
      ∀ v ∈ l, f.1[v]?.isSome ∧ f.2[v]?.isSome := by
    intro l
    induction l with
    | nil => intro _ _ _ _ v hv; cases hv
    | cons x l ih =>
      intro r r' hI h v hv
      rw [List.map_cons, forEach_cons] at h
      obtain ⟨r1, e1, e2⟩ := Res.bind_ok_iff.mp h
      rcases List.mem_cons.mp hv with rfl | hv
      · unfold collectCell at e1
        have hsz : sizeOfInt (v : Int) = v := by
          rw [sizeOfInt_nonneg (by omega) (by exact_mod_cast hI v List.mem_cons_self)]; simp
        simp only [Res.bind_eq, Res.pure_eq, hsz] at e1
        obtain ⟨t, e3, e1⟩ := Res.bind_ok_iff.mp e1
        obtain ⟨c, e4, e1⟩ := Res.bind_ok_iff.mp e1
        rw [rd_eq_ok_iff] at e3 e4
        rw [e3, e4]
        exact ⟨rfl, rfl⟩
      · exact ih r1 r' (fun x hx => hI x (List.mem_cons_of_mem _ hx)) e2 v hv
  have hget := hget comps.flatten _ _ (fun v hv => by have := hV v hv; omega) hco
  rw [hk, hfind.1, hfind.2]
  by_cases hin : k.toNat ∈ comps.flatten ∧ 0 ≤ k
  · rw [if_pos hin, if_pos hin]
    obtain ⟨a, b⟩ := hget _ hin.1
    exact ⟨⟨fun _ => hin, fun _ => a⟩, ⟨fun _ => hin, fun _ => b⟩⟩
  · rw [if_neg hin, if_neg hin]
    exact ⟨⟨fun h => (by cases h), fun h => (hin h).elim⟩, ⟨fun h => (by cases h), fun h => (hin h).elim⟩⟩

end Verif.Solver

namespace Verif.Toolbox
open Verif.Tarjan Verif.Solver Verif.Counter Verif.Spec

variable {R : Type} [Arith R]

omit [Arith R] in
theorem insert_fold_key (l : List (CellSetID × Int × R)) (m : OMap Int R) {c : Int}
    (h : (∃ e ∈ m, e.1 = c) ∨ ∃ x ∈ l, x.2.1 = c) :
    ∃ e ∈ l.foldl (fun m e => OMap.insert m e.2.1 e.2.2) m, e.1 = c := by
  induction l generalizing m with
  | nil =>
    rcases h with h | ⟨x, hx, _⟩
    · exact h
    · cases hx
  | cons x l ih =>
    refine ih _ ?_
    have key : ∀ c', ((∃ e ∈ m, e.1 = c') ∨ x.2.1 = c') → ∃ e ∈ OMap.insert m x.2.1 x.2.2, e.1 = c' := by
      intro c' hc
      have hfind : (OMap.find (OMap.insert m x.2.1 x.2.2) c').isSome := by
        rw [OMap.insert_eq]
        have hm : (∃ e ∈ m, e.1 = c') → (OMap.find m c').isSome := by
          rintro ⟨e, he, rfl⟩
          exact OMap.find_isSome_iff.mpr (List.mem_map.mpr ⟨e, he, rfl⟩)
        split
        · rename_i h
          rcases hc with hc | rfl
          · exact hm hc
          · exact h
        · rw [OMap.find_assign]
          split
          · rfl
          · rename_i hne
            rcases hc with hc | hc
            · exact hm hc
            · exact (hne hc).elim
      obtain ⟨e, he, h⟩ := List.mem_map.mp (OMap.find_isSome_iff.mp hfind)
      exact ⟨e, he, h⟩
    rcases h with h | ⟨y, hy, e⟩
    · exact Or.inl (key c (Or.inl h))
    · rcases List.mem_cons.mp hy with rfl | hy
      · exact Or.inl (key c (Or.inr e))
      · exact Or.inr ⟨y, hy, e⟩

theorem byId_key {l : List (CellSetID × Int × R)} {i : CellSetID} {c : Int} (h : ∃ x ∈ l, x.1 = i ∧ x.2.1 = c) :
    ∃ e ∈ OMap.at_ (gather l).byId i [], e.1 = c := by
  obtain ⟨x, hx, h1, h2⟩ := h
  unfold OMap.at_
  rw [gather_byId, if_pos ⟨x, hx, h1⟩]
  exact insert_fold_key _ _ (Or.inr ⟨x, List.mem_filter.mpr ⟨hx, by simpa using h1⟩, h2⟩)

theorem mem_directed_iff {cs : List (Nat × Nat)} {x : Nat → R} {u v : Nat} :
    (∃ w, ((u : Int), (v : Int), w) ∈ directed cs x) ↔ Sends cs x u v := by
  constructor
  · rintro ⟨w, h⟩
    unfold directed at h
    obtain ⟨l, hl, h⟩ := List.mem_flatten.mp h
    obtain ⟨e, he, rfl⟩ := List.mem_map.mp hl
    have hc := List.mem_zipIdx_iff_getElem?.mp he
    refine ⟨e.2, ?_⟩
    unfold orient at h
    split at h
    · rename_i hlt
      simp only [List.mem_singleton, Prod.mk.injEq, Nat.cast_inj] at h
      left
      rw [hc, h.1, h.2.1]
      exact ⟨rfl, hlt⟩
    · rename_i hlt
      split at h
      · rename_i hlt'
        simp only [List.mem_singleton, Prod.mk.injEq, Nat.cast_inj] at h
        right
        rw [hc, h.1, h.2.1]
        exact ⟨rfl, hlt', by simpa using hlt⟩
      · cases h
  · rintro ⟨c, ⟨h1, h2⟩ | ⟨h1, h2, h3⟩⟩
    · refine ⟨x c, List.mem_flatten.mpr ⟨_, List.mem_map.mpr ⟨((u, v), c), List.mem_zipIdx_iff_getElem?.mpr h1, rfl⟩, ?_⟩⟩
      unfold orient
      rw [if_pos h2]
      exact List.mem_singleton.mpr rfl
    · refine ⟨Arith.neg (x c), List.mem_flatten.mpr
        ⟨_, List.mem_map.mpr ⟨((v, u), c), List.mem_zipIdx_iff_getElem?.mpr h1, rfl⟩, ?_⟩⟩
      unfold orient
      rw [if_neg (by simp [h3]), if_pos h2]
      exact List.mem_singleton.mpr rfl

/-- The edges of both graphs. -/
theorem graphsOf_edges {n : Nat} (hn : n ≤ INT_MAX) {D : List (Int × Int × R)}
    (h : ∀ c ∈ D, (0 ≤ c.1 ∧ c.1 < n) ∧ (0 ≤ c.2.1 ∧ c.2.1 < n)) (u v : Nat) :
    (HasEdge n (graphsOf n D).1.startPointers (graphsOf n D).1.neighbourhood u v ↔ ∃ w, ((u : Int), (v : Int), w) ∈ D) ∧
    (HasEdge n (graphsOf n D).2.startPointers (graphsOf n D).2.neighbourhood u v ↔ ∃ w, ((v : Int), (u : Int), w) ∈ D) := by
  have hsw : ∀ c ∈ swapEnds D, (0 ≤ c.1 ∧ c.1 < n) ∧ (0 ≤ c.2.1 ∧ c.2.1 < n) := by
    intro c hc
    obtain ⟨e, he, rfl⟩ := List.mem_map.mp hc
    exact ⟨(h e he).2, (h e he).1⟩
  obtain ⟨g1, e1, _, a1, _⟩ := compressStep_ok hn h
  obtain ⟨g2, e2, _, a2, _⟩ := compressStep_ok hn hsw
  unfold graphsOf
  rw [e1, e2]
  constructor
  · constructor
    · rintro ⟨hu, hm⟩
      exact (a1.mem u hu _).mp hm
    · rintro ⟨w, hw⟩
      have hu : u < n := by have := (h _ hw).1; simp only at this; omega
      exact ⟨hu, (a1.mem u hu _).mpr ⟨w, hw⟩⟩
  · constructor
    · rintro ⟨hu, hm⟩
      obtain ⟨w, hw⟩ := (a2.mem u hu _).mp hm
      obtain ⟨e, he, e'⟩ := List.mem_map.mp hw
      simp only [Prod.mk.injEq] at e'
      refine ⟨w, ?_⟩
      rw [← e'.1, ← e'.2.1, ← e'.2.2]
      exact he
    · rintro ⟨w, hw⟩
      have hu : u < n := by have := (h _ hw).2; simp only at this; omega
      exact ⟨hu, (a2.mem u hu _).mpr ⟨w, List.mem_map.mpr ⟨_, hw, rfl⟩⟩⟩

/-- Fields of a solution. -/
theorem fieldsOn_of_lives {V : Nat → Prop} {L : LocalSolution R} (h : Lives V L) {sol : Solution R} {i : CellSetID}
    (h1 : sol.timeOfFlightOf i = L.tof) (h2 : sol.concentration i = L.concentration) : FieldsOn V sol i := by
  have hkey : ∀ k : Int, k ∈ (L.tof.map fun e => e.1) ↔ k ∈ L.concentration.map fun e => e.1 := by
    intro k
    obtain ⟨a, b⟩ := h.cells k
    rw [OMap.find_isSome_iff] at a b
    exact a.trans b.symm
  constructor
  · rw [h1, h2]
    refine List.Perm.eq_of_pairwise (le := fun a b : Int => a < b) ?_ (OMap.keys_sorted h.tof) (OMap.keys_sorted h.conc) ?_
    · intro a b _ _ h1 h2; exact absurd h2 (lt_asymm h1)
    · exact (List.perm_ext_iff_of_nodup (OMap.keys_nodup h.tof) (OMap.keys_nodup h.conc)).mpr hkey
  · rw [h2]; exact OMap.keys_sorted h.conc
  · rw [h2]
    intro k
    have := (h.cells k).2
    rw [OMap.find_isSome_iff] at this
    exact this
  · rw [h2]; exact h.pos

theorem computeSolution_fields {g gr : AssembledConnections R} {n : Nat} (hI : n ≤ INT_MAX) (hg : GoodGraph g n)
    (hgr : GoodGraph gr n) {pv : List R} (hpv : pv.length = n) {l : List (CellSetID × Int × R)}
    (hl : ∀ e ∈ l, 0 ≤ e.2.1 ∧ e.2.1 < n) {fuel : Nat} (hf : n + numEdges n g.startPointers ≤ fuel)
    {starts : List CellSet} {sol : Solution R}
    (h : computeSolution g gr pv (gather l).only (gather l).byId noFailure fuel starts = .ok sol)
    {i : CellSetID} (hi : ∃ s ∈ starts, s.id = i) :
    FieldsOn (fun v => ∃ p : Nat, (∃ x ∈ l, x.1 = i ∧ x.2.1 = p) ∧ Reachable n g.startPointers g.neighbourhood p v) sol i := by
  obtain ⟨h1, h2⟩ := gather_range hl
  obtain ⟨d, st, hcr', hd, hls⟩ := create_ready hI hg hgr hpv h1
  obtain ⟨d', st', tof, hcr, hgl, hloc, rfl⟩ := (computeSolution_ok_iff (a := Alloc.good)).mp h
  rw [hcr'] at hcr; cases hcr
  have hdg : d.g = g := by
    unfold Solver.create at hcr'
    simp only [Res.bind_eq, Res.pure_eq, Res.bind_ok_iff] at hcr'
    obtain ⟨_, _, _, _, e⟩ := hcr'
    cases e
    rfl
  obtain ⟨s, hs, rfl⟩ := hi
  obtain ⟨L, hL⟩ := hloc s hs
  have hok : okOf d st Alloc.good fuel (gather l).byId s.id = L := by unfold okOf; rw [hL]
  have hlives := local_lives hd (h2 s.id) (by rw [hdg]; exact hf) hL
  rw [hdg] at hlives
  have hmem : s.id ∈ starts.map CellSet.id := List.mem_map.mpr ⟨s, hs, rfl⟩
  obtain ⟨_, r1, r2, _, _⟩ := recordAll_spec (okOf d st Alloc.good fuel (gather l).byId) (starts.map CellSet.id) { tof := tof }
  have hf := fieldsOn_of_lives hlives
    (sol := recordAll (okOf d st Alloc.good fuel (gather l).byId) (starts.map CellSet.id) { tof := tof }) (i := s.id)
    (by unfold Solution.timeOfFlightOf Solution.solutionValues; rw [r2, if_pos hmem, hok])
    (by unfold Solution.concentration Solution.solutionValues; rw [r1, if_pos hmem, hok])
  refine ⟨hf.same, hf.order, fun k => (hf.cells k).trans ?_, hf.positive⟩
  refine exists_congr fun v => and_congr_right fun _ => ?_
  constructor
  · rintro ⟨e, he, hr⟩
    have := h2 s.id e he
    exact ⟨e.1.toNat, ⟨(s.id, e), Rounding.byId_mem he, rfl, by show e.1 = _; omega⟩, hr⟩
  · rintro ⟨p, hx, hr⟩
    obtain ⟨e, he, e1⟩ := byId_key hx
    refine ⟨e, he, ?_⟩
    rw [e1]; simpa using hr

end Verif.Toolbox
