/-
Renaming wells: what the toolbox stores, and what it computes from it.
-/
import Verif.Spec.Rename
import Verif.Proofs.ToolboxData

namespace Verif.Toolbox
open Verif.Spec Verif.Solver

variable {R : Type} [Arith R]

/-- An entry under its new name. -/
def renEntry (ρ : CellSetID → CellSetID) (e : CellSetID × Int × R) : CellSetID × Int × R := (ρ e.1, e.2)

omit [Arith R] in
theorem entries_map (ρ : CellSetID → CellSetID) (m : InflowFlux R) :
    entries (m.map fun set => (ρ set.1, set.2)) = (entries m).map (renEntry ρ) := by
  unfold entries
  rw [List.flatMap_map, List.map_flatMap]
  congr 1
  funext set
  rw [List.map_map]
  rfl

omit [Arith R] in
theorem entries_filter (m : InflowFlux R) (i : CellSetID) :
    (entries m).filter (fun e => decide (e.1 = i)) = entries (m.filter fun set => decide (set.1 = i)) := by
  induction m with
  | nil => rfl
  | cons set m ih =>
    unfold entries at ih ⊢
    rw [List.flatMap_cons, List.filter_append, ih, List.filter_cons]
    by_cases h : set.1 = i
    · rw [if_pos (by simpa using h), List.flatMap_cons, List.filter_eq_self.mpr]
      intro a ha
      obtain ⟨e, _, rfl⟩ := List.mem_map.mp ha
      simpa using h
    · rw [if_neg (by simpa using h), List.filter_eq_nil_iff.mpr, List.nil_append]
      intro a ha
      obtain ⟨e, _, rfl⟩ := List.mem_map.mp ha
      simpa using h

omit [Arith R] in
theorem filter_names {m : InflowFlux R} (h : (m.map fun set => set.1).Nodup) (i : CellSetID) :
    (m.filter fun set => decide (set.1 = i)).length ≤ 1 := by
  induction m with
  | nil => simp
  | cons set m ih =>
    rw [List.map_cons, List.nodup_cons] at h
    rw [List.filter_cons]
    by_cases hi : set.1 = i
    · rw [if_pos (by simpa using hi), List.length_cons, List.filter_eq_nil_iff.mpr, List.length_nil]
      intro a ha
      have : a.1 ≠ i := fun e => h.1 (by rw [hi, ← e]; exact List.mem_map_of_mem ha)
      simpa using this
    · rw [if_neg (by simpa using hi)]
      exact ih h.2

theorem short_perm {α : Type} {a b : List α} (h : a.Perm b) (hb : b.length ≤ 1) : a = b := by
  match b, hb with
  | [], _ => exact h.eq_nil
  | [x], _ => exact List.perm_singleton.mp h

omit [Arith R] in
theorem renamed_filter {ρ : CellSetID → CellSetID} (hρ : Function.Injective ρ) {m m' : InflowFlux R} (h : Renamed ρ m m')
    (i : CellSetID) :
    (entries m').filter (fun e => decide (e.1 = ρ i)) = ((entries m).filter fun e => decide (e.1 = i)).map (renEntry ρ) := by
  rw [entries_filter, entries_filter, ← entries_map]
  congr 1
  have h1 := h.sets.filter fun set => decide (set.1 = ρ i)
  rw [← short_perm h1 (filter_names h.names _), List.filter_map]
  congr 1
  apply List.filter_congr
  intro a _
  simp [hρ.eq_iff]

omit [Arith R] in
theorem renamed_entries {ρ : CellSetID → CellSetID} {m m' : InflowFlux R} (h : Renamed ρ m m') :
    ((entries m).map (renEntry ρ)).Perm (entries m') := by
  rw [← entries_map]
  exact h.sets.flatMap_right _

/-- The list `l'` has the entries of `l` under new names; those of one name are in the same order. -/
structure RenEntries (ρ : CellSetID → CellSetID) (l l' : List (CellSetID × Int × R)) : Prop where
  perm : (l.map (renEntry ρ)).Perm l'
  one : ∀ i, l'.filter (fun e => decide (e.1 = ρ i)) = (l.filter fun e => decide (e.1 = i)).map (renEntry ρ)

omit [Arith R] in
theorem RenEntries.filter {ρ : CellSetID → CellSetID} {l l' : List (CellSetID × Int × R)} (h : RenEntries ρ l l')
    (p : Int × R → Bool) : RenEntries ρ (l.filter fun e => p e.2) (l'.filter fun e => p e.2) := by
  constructor
  · have := h.perm.filter fun e => p e.2
    rw [List.filter_map] at this
    exact this
  · intro i
    have := congrArg (List.filter fun e => p e.2) (h.one i)
    rw [List.filter_map, List.filter_filter, List.filter_filter] at this
    rw [List.filter_filter, List.filter_filter]
    refine Eq.trans ?_ (this.trans ?_)
    · apply List.filter_congr; intro a _; exact Bool.and_comm _ _
    · congr 1
      apply List.filter_congr; intro a _; exact Bool.and_comm _ _

omit [Arith R] in
theorem RenEntries.map {ρ : CellSetID → CellSetID} {l l' : List (CellSetID × Int × R)} (h : RenEntries ρ l l')
    (f : Int × R → Int × R) : RenEntries ρ (l.map fun e => (e.1, f e.2)) (l'.map fun e => (e.1, f e.2)) := by
  constructor
  · have := h.perm.map fun e => (e.1, f e.2)
    rw [List.map_map] at this ⊢
    exact this
  · intro i
    have := congrArg (List.map fun e : CellSetID × Int × R => (e.1, f e.2)) (h.one i)
    rw [List.filter_map, List.filter_map, List.map_map]
    rw [List.map_map] at this
    exact this

theorem positives_ren {ρ : CellSetID → CellSetID} (hρ : Function.Injective ρ) {m m' : InflowFlux R} (h : Renamed ρ m m') :
    RenEntries ρ (positives (entries m)) (positives (entries m')) :=
  RenEntries.filter ⟨renamed_entries h, renamed_filter hρ h⟩ fun e => Arith.lt Arith.zero e.2

theorem negatives_ren {ρ : CellSetID → CellSetID} (hρ : Function.Injective ρ) {m m' : InflowFlux R} (h : Renamed ρ m m') :
    RenEntries ρ (negatives (entries m)) (negatives (entries m')) :=
  (RenEntries.filter ⟨renamed_entries h, renamed_filter hρ h⟩
    fun e => !Arith.lt Arith.zero e.2 && Arith.lt e.2 Arith.zero).map fun e => (e.1, Arith.neg e.2)

/-- The values of a cell. -/
def valuesAt (l : List (CellSetID × Int × R)) (c : Int) : List R :=
  (l.filter fun e => decide (e.2.1 = c)).map fun e => e.2.2

omit [Arith R] in
theorem RenEntries.values {ρ : CellSetID → CellSetID} {l l' : List (CellSetID × Int × R)} (h : RenEntries ρ l l') (c : Int) :
    (valuesAt l c).Perm (valuesAt l' c) := by
  have := (h.perm.filter fun e => decide (e.2.1 = c)).map fun e => e.2.2
  rw [List.filter_map, List.map_map] at this
  exact this

omit [Arith R] in
theorem RenEntries.cell {ρ : CellSetID → CellSetID} {l l' : List (CellSetID × Int × R)} (h : RenEntries ρ l l') (c : Int) :
    (∃ e ∈ l', e.2.1 = c) ↔ ∃ e ∈ l, e.2.1 = c := by
  constructor
  · rintro ⟨e, he, hc⟩
    obtain ⟨x, hx, rfl⟩ := List.mem_map.mp (h.perm.mem_iff.mpr he)
    exact ⟨x, hx, hc⟩
  · rintro ⟨e, he, hc⟩
    exact ⟨renEntry ρ e, h.perm.mem_iff.mp (List.mem_map_of_mem he), hc⟩

theorem RenEntries.only {ρ : CellSetID → CellSetID} {l l' : List (CellSetID × Int × R)} (h : RenEntries ρ l l')
    (hs : ∀ c, addedUp (valuesAt l c) = addedUp (valuesAt l' c)) : (gather l').only = (gather l).only := by
  refine OMap.ext (gather_sorted l').1 (gather_sorted l).1 fun c => ?_
  rw [gather_only, gather_only]
  have := hs c
  unfold addedUp valuesAt at this
  rw [this]
  by_cases hc : ∃ e ∈ l, e.2.1 = c
  · rw [if_pos hc, if_pos ((h.cell c).mpr hc)]
  · rw [if_neg hc, if_neg fun h' => hc ((h.cell c).mp h')]

theorem RenEntries.byId {ρ : CellSetID → CellSetID} (hρ : Function.Injective ρ) {l l' : List (CellSetID × Int × R)}
    (h : RenEntries ρ l l') (i : CellSetID) :
    OMap.find (gather l').byId (ρ i) = OMap.find (gather l).byId i := by
  rw [gather_byId, gather_byId, h.one i, List.foldl_map]
  have : (∃ e ∈ l', e.1 = ρ i) ↔ ∃ e ∈ l, e.1 = i := by
    constructor
    · rintro ⟨e, he, hc⟩
      obtain ⟨x, hx, rfl⟩ := List.mem_map.mp (h.perm.mem_iff.mpr he)
      exact ⟨x, hx, hρ hc⟩
    · rintro ⟨e, he, hc⟩
      exact ⟨renEntry ρ e, h.perm.mem_iff.mp (List.mem_map_of_mem he), by rw [← hc]; rfl⟩
  by_cases hc : ∃ e ∈ l, e.1 = i
  · rw [if_pos hc, if_pos (this.mpr hc)]; rfl
  · rw [if_neg hc, if_neg fun h' => hc (this.mp h')]

/-! ### The computation -/

/-- The stored values agree up to the names. -/
structure SplitRen (ρ : CellSetID → CellSetID) (s s' : Split R) : Prop where
  only : s'.only = s.only
  byId : ∀ i, OMap.find s'.byId (ρ i) = OMap.find s.byId i

omit [Arith R] in
theorem check_renamed {ρ : CellSetID → CellSetID} {s s' : Split R} (h : SplitRen ρ s s') (starts : List CellSet) :
    checkStartSets s'.byId s'.only (starts.map (renamedStart ρ)) = checkStartSets s.byId s.only starts := by
  unfold checkStartSets
  induction starts with
  | nil => rfl
  | cons a l ih =>
    rw [List.map_cons]
    unfold forEach
    beta_reduce
    have e1 : OMap.find s'.byId (renamedStart ρ a).id = OMap.find s.byId a.id := h.byId a.id
    rw [e1, h.only]
    rw [h.only] at ih
    have e2 : (renamedStart ρ a).cells = a.cells := rfl
    rw [e2]
    congr 1
    funext _
    exact ih

/-- Solutions under construction. -/
structure SolRen (ρ : CellSetID → CellSetID) (s s' : Solution R) : Prop where
  tof : s'.tof = s.tof
  tracer : ∀ i, OMap.find s'.tracer (ρ i) = OMap.find s.tracer i
  tracerToF : ∀ i, OMap.find s'.tracerToF (ρ i) = OMap.find s.tracerToF i
  other : ∀ j, (∀ i, ρ i ≠ j) → OMap.find s'.tracer j = none

omit [Arith R] in
theorem SolRen.assign {ρ : CellSetID → CellSetID} (hρ : Function.Injective ρ) {s s' : Solution R} (h : SolRen ρ s s')
    (i : CellSetID) (x y : CellSetValues R) :
    SolRen ρ ((s.assignTimeOfFlight i x).assignConcentration i y)
      ((s'.assignTimeOfFlight (ρ i) x).assignConcentration (ρ i) y) := by
  refine ⟨h.tof, fun k => ?_, fun k => ?_, fun j hj => ?_⟩
  · show OMap.find (s'.tracer.assign (ρ i) y) (ρ k) = OMap.find (s.tracer.assign i y) k
    rw [OMap.find_assign, OMap.find_assign, h.tracer]
    simp only [hρ.eq_iff]
  · show OMap.find (s'.tracerToF.assign (ρ i) x) (ρ k) = OMap.find (s.tracerToF.assign i x) k
    rw [OMap.find_assign, OMap.find_assign, h.tracerToF]
    simp only [hρ.eq_iff]
  · show OMap.find (s'.tracer.assign (ρ i) y) j = none
    rw [OMap.find_assign, if_neg (hj i)]
    exact h.other j hj

omit [Arith R] in
theorem SolRen.solution {ρ : CellSetID → CellSetID} {s s' : Solution R} (h : SolRen ρ s s') : RenamedSolution ρ s s' := by
  refine ⟨h.tof, fun i => ?_, fun i => ?_, fun j => ?_⟩
  · unfold Solution.concentration Solution.solutionValues
    rw [h.tracer]
  · unfold Solution.timeOfFlightOf Solution.solutionValues
    rw [h.tracerToF]
  · unfold Solution.startPoints
    rw [show (s'.tracer.map fun t => t.1) = s'.tracer.map Prod.fst from rfl, ← OMap.find_isSome_iff]
    constructor
    · intro hj
      by_cases hr : ∃ i, ρ i = j
      · obtain ⟨i, rfl⟩ := hr
        rw [h.tracer, OMap.find_isSome_iff] at hj
        exact ⟨i, hj, rfl⟩
      · rw [h.other j fun i e => hr ⟨i, e⟩] at hj
        cases hj
    · rintro ⟨i, hi, rfl⟩
      rw [h.tracer, OMap.find_isSome_iff]
      exact hi

theorem solveSets_renamed {ρ : CellSetID → CellSetID} (hρ : Function.Injective ρ) {b b' : InflowFlux R}
    (hb : ∀ i, OMap.find b' (ρ i) = OMap.find b i) (d : SolverData R) (al : Nat → Alloc) (fuel : Nat) (starts : List CellSet) :
    ∀ (k : Nat) (st : SolverState R) (s s' : Solution R), SolRen ρ s s' →
      SameUpTo ρ (solveSets d al fuel b starts k st s) (solveSets d al fuel b' (starts.map (renamedStart ρ)) k st s') := by
  induction starts with
  | nil => intro k st s s' h; exact h.solution
  | cons a l ih =>
    intro k st s s' h
    rw [List.map_cons]
    unfold solveSets
    have e1 : OMap.at_ b' (renamedStart ρ a).id [] = OMap.at_ b a.id [] := by
      show OMap.at_ b' (ρ a.id) [] = _
      unfold OMap.at_
      rw [hb]
    simp only [e1]
    cases hr : (solveLocal d (al k) fuel (OMap.at_ b a.id []) st).2 with
    | ok x => exact ih _ _ _ _ (h.assign hρ a.id _ _)
    | throw e => exact rfl
    | ub u => exact rfl
    | diverge => trivial

theorem outcome_renamed {ρ : CellSetID → CellSetID} (hρ : Function.Injective ρ) {s s' : Split R} (h : SplitRen ρ s s')
    (rev : Bool) (g : ConnectivityGraph) (pv : List R) (f : ConnectionValues R) (al : Nat → Alloc) (fuel : Nat)
    (starts : List CellSet) :
    SameUpTo ρ (outcome rev g pv f s al fuel starts) (outcome rev g pv f s' al fuel (starts.map (renamedStart ρ))) := by
  unfold outcome
  split
  · exact rfl
  · rw [check_renamed h]
    cases checkStartSets s.byId s.only starts with
    | throw e => exact rfl
    | ub u => exact rfl
    | diverge => trivial
    | ok _ =>
      show SameUpTo ρ ((graphs g f).bind _) ((graphs g f).bind _)
      cases graphs g f with
      | throw e => exact rfl
      | ub u => exact rfl
      | diverge => trivial
      | ok gs =>
        show SameUpTo ρ (computeSolution _ _ _ _ _ _ _ _) (computeSolution _ _ _ _ _ _ _ _)
        unfold computeSolution
        rw [h.only]
        show SameUpTo ρ ((Solver.create _ _ pv s.only).bind _) ((Solver.create _ _ pv s.only).bind _)
        cases Solver.create (if rev then gs.2 else gs.1) (if rev then gs.1 else gs.2) pv s.only with
        | throw e => exact rfl
        | ub u => exact rfl
        | diverge => trivial
        | ok sv =>
          show SameUpTo ρ ((solveGlobal sv.1 (al 0) fuel sv.2).2.bind _) ((solveGlobal sv.1 (al 0) fuel sv.2).2.bind _)
          cases (solveGlobal sv.1 (al 0) fuel sv.2).2 with
          | throw e => exact rfl
          | ub u => exact rfl
          | diverge => trivial
          | ok t => exact solveSets_renamed hρ h.byId sv.1 al fuel starts _ _ _ _ ⟨rfl, fun _ => rfl, fun _ => rfl, fun _ _ => rfl⟩

/-! ### The values of a cell -/

theorem inflowsAt_eq (m : InflowFlux R) (c : Int) : valuesAt (positives (entries m)) c = inflowsAt m c := by
  unfold valuesAt positives entries inflowsAt
  induction m with
  | nil => rfl
  | cons set m ih =>
    rw [List.flatMap_cons, List.flatMap_cons, List.filter_append, List.filter_append, List.map_append, ih]
    congr 1
    rw [List.filter_filter, List.filter_map, List.map_map]
    rfl

/-- The negative values of a cell, with positive sign. -/
theorem outflowsAt_eq (m : InflowFlux R) (c : Int) :
    valuesAt (negatives (entries m)) c = (outflowsAt m c).map Arith.neg := by
  unfold valuesAt negatives entries outflowsAt
  induction m with
  | nil => rfl
  | cons set m ih =>
    rw [List.flatMap_cons, List.flatMap_cons, List.filter_append, List.map_append, List.filter_append, List.map_append,
      List.map_append, ih]
    congr 1
    rw [List.filter_map, List.filter_map, List.filter_map, List.filter_filter, List.map_map, List.map_map, List.map_map]
    congr 1
    apply List.filter_congr
    intro e _
    show (decide (e.1 = c) && (!Arith.lt Arith.zero e.2 && Arith.lt e.2 Arith.zero)) = _
    rw [Bool.and_comm (!Arith.lt Arith.zero e.2)]

end Verif.Toolbox
