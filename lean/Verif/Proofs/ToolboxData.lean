/-
Start sets, signs and connections of a toolbox.
-/
import Verif.Proofs.ToolboxExact

namespace Verif.Toolbox
open Verif.Spec Verif.Solver

variable {R : Type} [Arith R]

/-! ### Histories -/

theorem lastSome_nil {α β : Type} (f : α → Option β) : lastSome f [] = none := rfl

theorem lastSome_append' {α β : Type} (f : α → Option β) (a b : List α) :
    lastSome f (a ++ b) = (lastSome f b).or (lastSome f a) := by
  unfold lastSome
  rw [List.reverse_append, List.findSome?_append]

theorem lastSome_spec {α β : Type} {f : α → Option β} {l : List α} {b : β} (h : lastSome f l = some b) :
    ∃ x ∈ l, f x = some b := by
  unfold lastSome at h
  obtain ⟨x, hx, e⟩ := List.exists_of_findSome?_eq_some h
  exact ⟨x, List.mem_reverse.mp hx, e⟩

theorem lastPoreVolume_length {g : ConnectivityGraph} {calls : List (Call R)} {pv : List R}
    (h : lastPoreVolume g calls = some pv) : pv.length = g.numCells := by
  obtain ⟨c, _, e⟩ := lastSome_spec h
  cases c with
  | assignPoreVolume p =>
    simp only at e
    split at e
    · rename_i hl; cases e; exact hl
    · cases e
  | _ => cases e

theorem lastFlux_count {g : ConnectivityGraph} {calls : List (Call R)} {f : ConnectionValues R}
    (h : lastFlux g calls = some f) : f.numConnections = g.numConnections := by
  obtain ⟨c, _, e⟩ := lastSome_spec h
  cases c with
  | assignConnectionFlux p =>
    simp only at e
    split at e
    · rename_i hl; cases e; exact hl
    · cases e
  | _ => cases e

theorem essential_last (g : ConnectivityGraph) (calls : List (Call R)) :
    lastPoreVolume g (essential g calls) = lastPoreVolume g calls ∧
    lastFlux g (essential g calls) = lastFlux g calls ∧
    lastInflow (essential g calls) = lastInflow calls := by
  unfold essential
  cases h1 : lastPoreVolume g calls <;> cases h2 : lastFlux g calls <;> cases h3 : lastInflow calls <;>
    refine ⟨?_, ?_, ?_⟩ <;>
    simp only [Option.toList_none, Option.toList_some, List.map_nil, List.map_cons, List.nil_append, List.cons_append,
      lastPoreVolume, lastFlux, lastInflow, lastSome, List.reverse_cons, List.reverse_nil, List.findSome?] <;>
    (first | rfl | skip) <;>
    (try simp only [lastPoreVolume_length h1, if_true]) <;>
    (try simp only [lastFlux_count h2, if_true])

/-! ### Completeness of the data -/

/-- Complete data on a non-trivial grid. -/
theorem outcome_complete {rev : Bool} {g : ConnectivityGraph} {pv : List R} {f : ConnectionValues R} {s : Split R}
    {al : Nat → Alloc} {fuel : Nat} {starts : List CellSet} (h1 : pv ≠ []) (h2 : f.numConnections ≠ 0) :
    outcome rev g pv f s al fuel starts =
      (checkStartSets s.byId s.only starts).bind fun _ => (graphs g f).bind fun gs =>
        computeSolution (if rev then gs.2 else gs.1) (if rev then gs.1 else gs.2) pv s.only s.byId al fuel starts := by
  unfold outcome
  rw [if_neg]
  simp only [Bool.or_eq_true, List.isEmpty_iff, beq_iff_eq, not_or]
  exact ⟨h1, h2⟩

/-! ### Accepted start sets -/

omit [Arith R] in
theorem mem_entries {m : InflowFlux R} {x : CellSetID × Int × R} :
    x ∈ entries m ↔ ∃ set ∈ m, ∃ e ∈ set.2, x = (set.1, e.1, e.2) := by
  unfold entries
  simp only [List.mem_flatMap, List.mem_map]
  constructor
  · rintro ⟨s, hs, e, he, rfl⟩; exact ⟨s, hs, e, he, rfl⟩
  · rintro ⟨s, hs, e, he, rfl⟩; exact ⟨s, hs, e, he, rfl⟩

theorem find_byId_none {l : List (CellSetID × Int × R)} {i : CellSetID} :
    OMap.find (gather l).byId i = none ↔ ¬ ∃ e ∈ l, e.1 = i := by
  rw [gather_byId]
  split <;> simp_all

theorem find_only_none {l : List (CellSetID × Int × R)} {c : Int} :
    OMap.find (gather l).only c = none ↔ ¬ ∃ e ∈ l, e.2.1 = c := by
  rw [gather_only]
  split <;> simp_all

theorem positives_id (m : InflowFlux R) (i : CellSetID) :
    (∃ e ∈ positives (entries m), e.1 = i) ↔ HasInflow m i := by
  unfold HasInflow
  constructor
  · rintro ⟨x, hx, rfl⟩
    obtain ⟨h1, h2⟩ := List.mem_filter.mp hx
    obtain ⟨s, hs, e, he, rfl⟩ := mem_entries.mp h1
    exact ⟨s, hs, rfl, e, he, h2⟩
  · rintro ⟨s, hs, rfl, e, he, h⟩
    exact ⟨_, List.mem_filter.mpr ⟨mem_entries.mpr ⟨s, hs, e, he, rfl⟩, h⟩, rfl⟩

theorem positives_cell (m : InflowFlux R) (c : Int) :
    (∃ e ∈ positives (entries m), e.2.1 = c) ↔ InflowCell m c := by
  unfold InflowCell
  constructor
  · rintro ⟨x, hx, rfl⟩
    obtain ⟨h1, h2⟩ := List.mem_filter.mp hx
    obtain ⟨s, hs, e, he, rfl⟩ := mem_entries.mp h1
    exact ⟨s, hs, e, he, rfl, h2⟩
  · rintro ⟨s, hs, e, he, rfl, h⟩
    exact ⟨_, List.mem_filter.mpr ⟨mem_entries.mpr ⟨s, hs, e, he, rfl⟩, h⟩, rfl⟩

theorem negatives_mem (m : InflowFlux R) (x : CellSetID × Int × R) :
    x ∈ negatives (entries m) ↔ ∃ set ∈ m, ∃ e ∈ set.2, IsNegative e.2 ∧ x = (set.1, e.1, Arith.neg e.2) := by
  unfold negatives IsNegative
  constructor
  · intro hx
    obtain ⟨y, hy, rfl⟩ := List.mem_map.mp hx
    obtain ⟨h1, h2⟩ := List.mem_filter.mp hy
    obtain ⟨s, hs, e, he, rfl⟩ := mem_entries.mp h1
    simp only [Bool.and_eq_true, Bool.not_eq_true'] at h2
    exact ⟨s, hs, e, he, ⟨h2.2, h2.1⟩, rfl⟩
  · rintro ⟨s, hs, e, he, ⟨h1, h2⟩, rfl⟩
    exact List.mem_map.mpr ⟨(s.1, e.1, e.2), List.mem_filter.mpr ⟨mem_entries.mpr ⟨s, hs, e, he, rfl⟩, by simp [h1, h2]⟩, rfl⟩

theorem negatives_id (m : InflowFlux R) (i : CellSetID) :
    (∃ e ∈ negatives (entries m), e.1 = i) ↔ HasOutflow m i := by
  unfold HasOutflow
  constructor
  · rintro ⟨x, hx, rfl⟩
    obtain ⟨s, hs, e, he, h, rfl⟩ := (negatives_mem m x).mp hx
    exact ⟨s, hs, rfl, e, he, h⟩
  · rintro ⟨s, hs, rfl, e, he, h⟩
    exact ⟨_, (negatives_mem m _).mpr ⟨s, hs, e, he, h, rfl⟩, rfl⟩

theorem negatives_cell (m : InflowFlux R) (c : Int) :
    (∃ e ∈ negatives (entries m), e.2.1 = c) ↔ OutflowCell m c := by
  unfold OutflowCell
  constructor
  · rintro ⟨x, hx, rfl⟩
    obtain ⟨s, hs, e, he, h, rfl⟩ := (negatives_mem m x).mp hx
    exact ⟨s, hs, e, he, rfl, h⟩
  · rintro ⟨s, hs, e, he, rfl, h⟩
    exact ⟨_, (negatives_mem m _).mpr ⟨s, hs, e, he, h, rfl⟩, rfl⟩

open Classical in
theorem check_injection (m : InflowFlux R) (starts : List CellSet) :
    checkStartSets (splitInflow m).1.byId (splitInflow m).1.only starts =
      if InjectionAccepts m starts then .ok () else .throw .runtimeError := by
  rw [checkStartSets_eq, splitInflow_eq]
  simp only [find_byId_none, find_only_none, positives_id, positives_cell]
  unfold InjectionAccepts
  by_cases h : ∀ s ∈ starts, HasInflow m s.id ∧ ∀ c ∈ s.cells, InflowCell m c
  · rw [if_pos h, if_neg]
    rintro ⟨s, hs, hn | ⟨c, hc, hn⟩⟩
    · exact hn (h s hs).1
    · exact hn ((h s hs).2 c hc)
  · rw [if_neg h, if_pos]
    push Not at h
    obtain ⟨s, hs, h⟩ := h
    by_cases hi : HasInflow m s.id
    · obtain ⟨c, hc, hn⟩ := h hi
      exact ⟨s, hs, Or.inr ⟨c, hc, hn⟩⟩
    · exact ⟨s, hs, Or.inl hi⟩

open Classical in
theorem check_production (m : InflowFlux R) (starts : List CellSet) :
    checkStartSets (splitInflow m).2.byId (splitInflow m).2.only starts =
      if ProductionAccepts m starts then .ok () else .throw .runtimeError := by
  rw [checkStartSets_eq, splitInflow_eq]
  simp only [find_byId_none, find_only_none, negatives_id, negatives_cell]
  unfold ProductionAccepts
  by_cases h : ∀ s ∈ starts, HasOutflow m s.id ∧ ∀ c ∈ s.cells, OutflowCell m c
  · rw [if_pos h, if_neg]
    rintro ⟨s, hs, hn | ⟨c, hc, hn⟩⟩
    · exact hn (h s hs).1
    · exact hn ((h s hs).2 c hc)
  · rw [if_neg h, if_pos]
    push Not at h
    obtain ⟨s, hs, h⟩ := h
    by_cases hi : HasOutflow m s.id
    · obtain ⟨c, hc, hn⟩ := h hi
      exact ⟨s, hs, Or.inr ⟨c, hc, hn⟩⟩
    · exact ⟨s, hs, Or.inl hi⟩

/-! ### Signs -/

theorem positives_positivePart (m : InflowFlux R) : positives (entries (positivePart m)) = positives (entries m) := by
  unfold positives entries positivePart
  rw [List.flatMap_map, List.filter_flatMap, List.filter_flatMap]
  apply List.flatMap_congr
  intro s _
  rw [List.filter_map, List.filter_map, List.filter_filter]
  congr 1
  apply List.filter_congr
  intro e _
  simp [Function.comp]

theorem negatives_negativePart (m : InflowFlux R) : negatives (entries (negativePart m)) = negatives (entries m) := by
  unfold negatives entries negativePart
  congr 1
  rw [List.flatMap_map, List.filter_flatMap, List.filter_flatMap]
  apply List.flatMap_congr
  intro s _
  rw [List.filter_map, List.filter_map, List.filter_filter]
  congr 1
  apply List.filter_congr
  intro e _
  simp only [Function.comp]
  cases Arith.lt e.2 Arith.zero <;> simp

theorem positives_negated (hs : SignLaws R) (m : InflowFlux R) :
    positives (entries (negated m)) = negatives (entries m) := by
  unfold positives negatives entries negated
  rw [List.flatMap_map, List.filter_flatMap, List.filter_flatMap, List.map_flatMap]
  apply List.flatMap_congr
  intro s _
  rw [List.map_map, List.filter_map, List.filter_map, List.map_map]
  have : s.2.filter ((fun e : CellSetID × Int × R => Arith.lt Arith.zero e.2.2) ∘
        ((fun e : Int × R => (s.1, e.1, e.2)) ∘ fun e : Int × R => (e.1, Arith.neg e.2)))
      = s.2.filter ((fun e : CellSetID × Int × R => !Arith.lt Arith.zero e.2.2 && Arith.lt e.2.2 Arith.zero) ∘
        fun e : Int × R => (s.1, e.1, e.2)) := by
    apply List.filter_congr
    intro e _
    simp only [Function.comp, hs.neg_pos]
    cases h : Arith.lt Arith.zero e.2 with
    | true => simp [hs.one_sign _ h]
    | false => simp
  rw [this]; rfl

theorem negatives_negated (hs : SignLaws R) (m : InflowFlux R) :
    negatives (entries (negated m)) = positives (entries m) := by
  unfold positives negatives entries negated
  rw [List.flatMap_map, List.filter_flatMap, List.filter_flatMap, List.map_flatMap]
  apply List.flatMap_congr
  intro s _
  rw [List.map_map, List.filter_map, List.filter_map, List.map_map]
  have : s.2.filter ((fun e : CellSetID × Int × R => !Arith.lt Arith.zero e.2.2 && Arith.lt e.2.2 Arith.zero) ∘
        ((fun e : Int × R => (s.1, e.1, e.2)) ∘ fun e : Int × R => (e.1, Arith.neg e.2)))
      = s.2.filter ((fun e : CellSetID × Int × R => Arith.lt Arith.zero e.2.2) ∘
        fun e : Int × R => (s.1, e.1, e.2)) := by
    apply List.filter_congr
    intro e _
    simp only [Function.comp, hs.neg_pos, hs.neg_lt]
    cases h : Arith.lt Arith.zero e.2 with
    | true => simp [hs.one_sign _ h]
    | false => simp
  rw [this]
  apply List.map_congr_left
  intro e _
  simp [Function.comp, hs.neg_neg]

/-- The sum of negated values is the negated sum, up to the sign of zero. -/
theorem phaseSum_neg (hs : SignLaws R) (phi : Nat → R) (np : Nat) :
    phaseSum (fun p => Arith.neg (phi p)) np = Arith.neg (phaseSum phi np) ∨
      (Arith.eq (phaseSum phi np) Arith.zero = true ∧
       Arith.eq (phaseSum (fun p => Arith.neg (phi p)) np) Arith.zero = true) := by
  induction np with
  | zero => exact Or.inr ⟨hs.zero_eq, hs.zero_eq⟩
  | succ n ih =>
    have e : ∀ phi : Nat → R, phaseSum phi (n + 1) = Arith.add (phaseSum phi n) (phi n) := by
      intro phi
      unfold phaseSum
      rw [List.range_succ, List.map_append, List.foldl_append]; rfl
    rw [e, e]
    rcases ih with h | ⟨h1, h2⟩
    · rw [h]; exact hs.neg_add _ _
    · exact hs.zero_add _ _ _ h1 h2

theorem orient_neg (hs : SignLaws R) (e : Nat × Nat) {x y : R}
    (h : y = Arith.neg x ∨ (Arith.eq x Arith.zero = true ∧ Arith.eq y Arith.zero = true)) :
    orient e y = swapEnds (orient e x) ∧ orient (e.2, e.1) y = orient e x := by
  unfold orient swapEnds
  rcases h with rfl | ⟨h1, h2⟩
  · rw [hs.neg_pos, hs.neg_lt, hs.neg_neg]
    by_cases hp : Arith.lt Arith.zero x = true
    · simp [hp, hs.one_sign _ hp]
    · by_cases hn : Arith.lt x Arith.zero = true
      · simp [hp, hn]
      · simp [hp, hn]
  · simp [hs.zero_sign _ h1, hs.zero_sign _ h2]

omit [Arith R] in
theorem swapEnds_swapEnds (l : List (Int × Int × R)) : swapEnds (swapEnds l) = l := by
  unfold swapEnds; rw [List.map_map]; simp [Function.comp_def]

theorem directed_neg (hs : SignLaws R) (cs : List (Nat × Nat)) {x y : Nat → R}
    (h : ∀ c, y c = Arith.neg (x c) ∨ (Arith.eq (x c) Arith.zero = true ∧ Arith.eq (y c) Arith.zero = true)) :
    directed cs y = swapEnds (directed cs x) := by
  unfold directed swapEnds
  rw [List.map_flatten, List.map_map]
  congr 2
  funext e
  exact (orient_neg hs e.1 (h e.2)).1

theorem graphsOf_swap (n : Nat) (D : List (Int × Int × R)) :
    graphsOf n (swapEnds D) = ((graphsOf n D).2, (graphsOf n D).1) := by
  unfold graphsOf; rw [swapEnds_swapEnds]

/-- Exact arithmetic satisfies the sign laws. -/
theorem signLaws_exact (K : Type) [Field K] [LinearOrder K] [IsStrictOrderedRing K] : SignLaws (X K) where
  neg_neg x := by cases x <;> simp [Arith.neg, X.neg]
  neg_pos x := by
    rw [X_zero]
    cases x <;> simp [Arith.neg, X.neg, Arith.lt, X.lt]
  neg_lt x := by
    rw [X_zero]
    cases x <;> simp [Arith.neg, X.neg, Arith.lt, X.lt]
  one_sign x := by
    rw [X_zero]
    cases x <;> simp [Arith.lt, X.lt]
    exact fun h => h.le
  zero_eq := by rw [X_zero, X_eq]; simp
  zero_sign x := by
    rw [X_zero]
    cases x <;> simp [Arith.lt, X.lt, Arith.eq, X.eq]
    intro h; subst h; simp
  neg_add x y := by
    left
    cases x <;> cases y <;> simp [Arith.neg, X.neg, Arith.add, X.add, add_comm]
  zero_add x y z := by
    intro h1 h2
    left
    rw [X_zero] at h1 h2
    cases x <;> simp [Arith.eq, X.eq] at h1
    cases y <;> simp [Arith.eq, X.eq] at h2
    subst h1; subst h2
    cases z <;> simp [Arith.neg, X.neg, Arith.add, X.add]

/-! ### Lengths -/

theorem solveSingleCell_length {d : SolverData R} {isStart : List Bool} {ls : List R} {s t : List R × List R} {c : Int}
    (h : solveSingleCell d isStart ls s c = .ok t) : t.1.length = s.1.length ∧ t.2.length = s.2.length := by
  unfold solveSingleCell at h
  simp only [Res.bind_eq, Res.pure_eq, Res.bind_ok_iff] at h
  obtain ⟨_, _, _, _, _, _, _, _, _, _, _, _, _, _, _, _, _, _, tr, h1, _, _, tf, h2, h3⟩ := h
  cases h3
  rw [wr_eq_ok_iff] at h1 h2
  exact ⟨by rw [h2.2]; simp, by rw [h1.2]; simp⟩

theorem gaussSeidel_length {d : SolverData R} {isStart : List Bool} {ls : List R} {cells : List Int} (fuel : Nat)
    {s : (List R × List R) × (R × R)} {t : List R × List R}
    (h : gaussSeidel d isStart ls cells fuel s = .ok t) : t.1.length = s.1.1.length ∧ t.2.length = s.1.2.length := by
  induction fuel generalizing s with
  | zero =>
    unfold gaussSeidel at h
    split at h
    · cases h
    · cases h; exact ⟨rfl, rfl⟩
  | succ n ih =>
    unfold gaussSeidel at h
    split at h
    · simp only [Res.bind_eq, Res.bind_ok_iff] at h
      obtain ⟨s', h1, h2⟩ := h
      have := ih h2
      have hk : s'.1.1.length = s.1.1.length ∧ s'.1.2.length = s.1.2.length := by
        refine (forEach_ok (s := (s.1, Arith.zero, Arith.zero)) (fun s' : (List R × List R) × (R × R) =>
          s'.1.1.length = s.1.1.length ∧ s'.1.2.length = s.1.2.length) ⟨rfl, rfl⟩ ?_ h1).1
        intro a b c _ ha hb
        unfold sweepCell at hb
        simp only [Res.bind_eq, Res.pure_eq, Res.bind_ok_iff] at hb
        obtain ⟨_, _, _, _, f, hf, _, _, _, _, e⟩ := hb
        cases e
        have := solveSingleCell_length hf
        exact ⟨this.1.trans ha.1, this.2.trans ha.2⟩
      exact ⟨this.1.trans hk.1, this.2.trans hk.2⟩
    · cases h; exact ⟨rfl, rfl⟩

theorem solve_length {d : SolverData R} {isStart : List Bool} {ls : List R} {sq : List Int} {cst : List Nat} {fuel : Nat}
    {s t : List R × List R} (h : solve d isStart ls sq cst fuel s = .ok t) :
    t.1.length = s.1.length ∧ t.2.length = s.2.length := by
  unfold solve at h
  simp only [Res.bind_eq, Res.pure_eq, Res.bind_ok_iff] at h
  obtain ⟨s', h1, h2⟩ := h
  cases h2
  obtain ⟨this, _⟩ := forEach_ok (fun s' : List R × List R => s'.1.length = s.1.length ∧ s'.2.length = s.2.length) ⟨rfl, rfl⟩ (by
    intro a b c _ ha hb
    unfold solveComponent at hb
    simp only [Res.bind_eq, Res.bind_ok_iff] at hb
    obtain ⟨_, _, _, _, cells, _, hb⟩ := hb
    have key : b.1.length = a.1.length ∧ b.2.length = a.2.length := by
      split at hb
      · exact solveSingleCell_length hb
      · exact gaussSeidel_length fuel hb
    exact ⟨key.1.trans ha.1, key.2.trans ha.2⟩) h1
  exact ⟨by simpa using this.1, this.2⟩

theorem solveGlobal_length {d : SolverData R} {al : Alloc} {fuel : Nat} {s : SolverState R} {tof : List R}
    (h : (solveGlobal d al fuel s).2 = .ok tof) : tof.length = d.pv.length := by
  unfold solveGlobal at h
  simp only [finish_snd, Res.bind_ok_iff] at h
  obtain ⟨_, _, _, _, f, hf, e⟩ := h
  cases e
  have := (solve_length hf).1
  simpa [prepareForSolve] using this

/-- Which ids a solution knows after the solves, in any arithmetic and for any allocation outcomes. -/
theorem solveSets_keys {d : SolverData R} {al : Nat → Alloc} {fuel : Nat} {byId : InflowFlux R} {starts : List CellSet}
    {k : Nat} {s : SolverState R} {sol sol' : Solution R} (h : solveSets d al fuel byId starts k s sol = .ok sol')
    (hs : OMap.Sorted sol.tracer) :
    sol'.tof = sol.tof ∧ OMap.Sorted sol'.tracer ∧
      (∀ i, (OMap.find sol'.tracer i).isSome ↔ (∃ s ∈ starts, s.id = i) ∨ (OMap.find sol.tracer i).isSome) ∧
      (∀ i, (OMap.find sol'.tracerToF i).isSome ↔ (∃ s ∈ starts, s.id = i) ∨ (OMap.find sol.tracerToF i).isSome) := by
  induction starts generalizing k s sol with
  | nil => unfold solveSets at h; cases h; exact ⟨rfl, hs, by simp, by simp⟩
  | cons x rest ih =>
    unfold solveSets at h
    simp only [Res.bind_ok_iff] at h
    obtain ⟨l, _, h⟩ := h
    obtain ⟨h1, h2, h3, h4⟩ := ih h (OMap.sorted_assign hs _ _)
    refine ⟨h1, h2, ?_, ?_⟩
    · intro i
      rw [h3 i]
      show _ ∨ (OMap.find (OMap.assign sol.tracer x.id l.concentration) i).isSome ↔ _
      rw [OMap.find_assign]
      by_cases hi : x.id = i <;> simp [hi]
    · intro i
      rw [h4 i]
      show _ ∨ (OMap.find (OMap.assign sol.tracerToF x.id l.tof) i).isSome ↔ _
      rw [OMap.find_assign]
      by_cases hi : x.id = i <;> simp [hi]

end Verif.Toolbox
