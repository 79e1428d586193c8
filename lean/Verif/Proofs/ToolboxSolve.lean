/-
The solves of a diagnostics call, in any arithmetic.
-/
import Verif.Proofs.ToolboxSplit
import Verif.Props.Solver

namespace Verif.Toolbox
open Verif.Spec Verif.Solver

variable {R : Type} [Arith R]

omit [Arith R] in
/-- Record the local solution of one id. -/
def record (sol : Solution R) (i : CellSetID) (l : LocalSolution R) : Solution R :=
  (sol.assignTimeOfFlight i l.tof).assignConcentration i l.concentration

omit [Arith R] in
/-- Record the local solutions of several ids. -/
def recordAll (L : CellSetID → LocalSolution R) (ids : List CellSetID) (sol : Solution R) : Solution R :=
  ids.foldl (fun sol i => record sol i (L i)) sol

omit [Arith R] in
theorem recordAll_spec (L : CellSetID → LocalSolution R) (ids : List CellSetID) (sol : Solution R) :
    (recordAll L ids sol).tof = sol.tof ∧
    (∀ i, OMap.find (recordAll L ids sol).tracer i =
      if i ∈ ids then some (L i).concentration else OMap.find sol.tracer i) ∧
    (∀ i, OMap.find (recordAll L ids sol).tracerToF i =
      if i ∈ ids then some (L i).tof else OMap.find sol.tracerToF i) ∧
    (OMap.Sorted sol.tracer → OMap.Sorted (recordAll L ids sol).tracer) ∧
    (OMap.Sorted sol.tracerToF → OMap.Sorted (recordAll L ids sol).tracerToF) := by
  induction ids generalizing sol with
  | nil => simp [recordAll]
  | cons a ids ih =>
    obtain ⟨h1, h2, h3, h4, h5⟩ := ih (record sol a (L a))
    have e : recordAll L (a :: ids) sol = recordAll L ids (record sol a (L a)) := rfl
    rw [e]
    refine ⟨h1, ?_, ?_, fun h => h4 (OMap.sorted_assign h _ _), fun h => h5 (OMap.sorted_assign h _ _)⟩
    · intro i
      rw [h2 i]
      show (if i ∈ ids then _ else OMap.find (OMap.assign sol.tracer a (L a).concentration) i) = _
      rw [OMap.find_assign]
      by_cases hi : i ∈ ids
      · simp [hi]
      · by_cases ha : a = i
        · subst ha; simp
        · simp [hi, ha, Ne.symm ha]
    · intro i
      rw [h3 i]
      show (if i ∈ ids then _ else OMap.find (OMap.assign sol.tracerToF a (L a).tof) i) = _
      rw [OMap.find_assign]
      by_cases hi : i ∈ ids
      · simp [hi]
      · by_cases ha : a = i
        · subst ha; simp
        · simp [hi, ha, Ne.symm ha]

omit [Arith R] in
/-- Only the set of ids matters. -/
theorem recordAll_congr (L : CellSetID → LocalSolution R) {ids ids' : List CellSetID} (h : ∀ i, i ∈ ids ↔ i ∈ ids')
    {sol : Solution R} (h1 : OMap.Sorted sol.tracer) (h2 : OMap.Sorted sol.tracerToF) :
    recordAll L ids sol = recordAll L ids' sol := by
  obtain ⟨a1, a2, a3, a4, a5⟩ := recordAll_spec L ids sol
  obtain ⟨b1, b2, b3, b4, b5⟩ := recordAll_spec L ids' sol
  have e1 := OMap.ext (a4 h1) (b4 h1) fun i => by rw [a2, b2]; simp only [h i]
  have e2 := OMap.ext (a5 h2) (b5 h2) fun i => by rw [a3, b3]; simp only [h i]
  cases hA : recordAll L ids sol
  cases hB : recordAll L ids' sol
  rw [hA] at a1 e1 e2
  rw [hB] at b1 e1 e2
  simp only at a1 b1 e1 e2
  rw [a1, b1, e1, e2]

/-- The local solve of an id on the newly constructed solver. -/
def localOf (d : SolverData R) (st : SolverState R) (a : Alloc) (fuel : Nat) (byId : InflowFlux R) (i : CellSetID) :
    Res (LocalSolution R) := (solveLocal d a fuel (byId.at_ i []) st).2

/-- The result of an id, if there is one. -/
def okOf (d : SolverData R) (st : SolverState R) (a : Alloc) (fuel : Nat) (byId : InflowFlux R) (i : CellSetID) :
    LocalSolution R :=
  match localOf d st a fuel byId i with
  | .ok l => l
  | _ => ⟨[], []⟩

theorem solveSets_eq {g gr : AssembledConnections R} {pv : List R} {source : CellSetValues R}
    {d : SolverData R} {st : SolverState R} (h : Solver.create g gr pv source = .ok (d, st))
    (a : Alloc) (fuel : Nat) (byId : InflowFlux R) (starts : List CellSet) (k : Nat) (sol : Solution R)
    {s : SolverState R} (hs : AfterSolves d st s) :
    solveSets d (fun _ => a) fuel byId starts k s sol =
      forEach starts sol fun sol start => (localOf d st a fuel byId start.id).bind fun l => .ok (record sol start.id l) := by
  induction starts generalizing k sol s with
  | nil => rfl
  | cons start rest ih =>
    unfold solveSets
    rw [forEach_cons]
    simp only
    rw [(Props.C22_history_independent h hs a fuel).2 (byId.at_ start.id [])]
    show Res.bind (localOf d st a fuel byId start.id) _ = _
    cases hl : localOf d st a fuel byId start.id with
    | ok l => exact ih (k + 1) _ (.loc a fuel _ hs)
    | throw e => rfl
    | ub u => rfl
    | diverge => rfl

theorem forEach_record {d : SolverData R} {st : SolverState R} {a : Alloc} {fuel : Nat} {byId : InflowFlux R}
    (starts : List CellSet) (sol : Solution R)
    (h : ∀ s ∈ starts, ∃ l, localOf d st a fuel byId s.id = .ok l) :
    (forEach starts sol fun sol start => (localOf d st a fuel byId start.id).bind fun l => .ok (record sol start.id l))
      = .ok (recordAll (okOf d st a fuel byId) (starts.map CellSet.id) sol) := by
  induction starts generalizing sol with
  | nil => rfl
  | cons s rest ih =>
    obtain ⟨l, hl⟩ := h s (by simp)
    rw [forEach_cons, hl, Res.ok_bind, Res.ok_bind, ih _ fun s' hs' => h s' (by simp [hs'])]
    unfold recordAll
    rw [List.map_cons, List.foldl_cons]
    have : okOf d st a fuel byId s.id = l := by unfold okOf; rw [hl]
    rw [this]

theorem forEach_record_ok {d : SolverData R} {st : SolverState R} {a : Alloc} {fuel : Nat} {byId : InflowFlux R}
    {starts : List CellSet} {sol sol' : Solution R}
    (h : (forEach starts sol fun sol start => (localOf d st a fuel byId start.id).bind fun l => .ok (record sol start.id l))
      = .ok sol') : ∀ s ∈ starts, ∃ l, localOf d st a fuel byId s.id = .ok l := by
  induction starts generalizing sol with
  | nil => intro s hs; simp at hs
  | cons x rest ih =>
    rw [forEach_cons, Res.bind_ok_iff] at h
    obtain ⟨sol1, h1, h2⟩ := h
    rw [Res.bind_ok_iff] at h1
    obtain ⟨l, hl, _⟩ := h1
    intro s hs
    rcases List.mem_cons.mp hs with rfl | hs
    · exact ⟨l, hl⟩
    · exact ih h2 s hs

/-- When a diagnostics computation returns a solution, and which. -/
theorem computeSolution_ok_iff {g gr : AssembledConnections R} {pv : List R} {only : CellSetValues R}
    {byId : InflowFlux R} {a : Alloc} {fuel : Nat} {starts : List CellSet} {sol : Solution R} :
    computeSolution g gr pv only byId (fun _ => a) fuel starts = .ok sol ↔
      ∃ d st tof, Solver.create g gr pv only = .ok (d, st) ∧ (solveGlobal d a fuel st).2 = .ok tof ∧
        (∀ s ∈ starts, ∃ l, localOf d st a fuel byId s.id = .ok l) ∧
        sol = recordAll (okOf d st a fuel byId) (starts.map CellSet.id) { tof := tof } := by
  unfold computeSolution
  simp only [Res.bind_eq, Res.bind_ok_iff]
  constructor
  · rintro ⟨⟨d, st⟩, h1, tof, h2, h3⟩
    rw [solveSets_eq h1 a fuel byId starts 1 _ (.global a fuel .new)] at h3
    have h4 := forEach_record_ok h3
    rw [forEach_record _ _ h4] at h3
    cases h3
    exact ⟨d, st, tof, h1, h2, h4, rfl⟩
  · rintro ⟨d, st, tof, h1, h2, h4, rfl⟩
    refine ⟨(d, st), h1, tof, h2, ?_⟩
    rw [solveSets_eq h1 a fuel byId starts 1 _ (.global a fuel .new), forEach_record _ _ h4]
    rfl

/-! ### Start sets -/

theorem forEach_check {α : Type} (xs : List α) (p : α → Prop) [DecidablePred p] :
    (forEach xs () fun _ x => if p x then Res.throw Exc.runtimeError else .ok ()) =
      if ∃ x ∈ xs, p x then .throw .runtimeError else .ok () := by
  induction xs with
  | nil => simp
  | cons x xs ih =>
    rw [forEach_cons]
    by_cases h : p x
    · simp [h]
    · simp only [if_false, Res.ok_bind, ih, List.mem_cons, exists_eq_or_imp, h, false_or]

/-- The start sets are checked against the stored values. -/
theorem checkStartSets_eq (byId : InflowFlux R) (only : CellSetValues R) (starts : List CellSet) :
    checkStartSets byId only starts =
      if ∃ s ∈ starts, OMap.find byId s.id = none ∨ ∃ c ∈ s.cells, OMap.find only c = none
      then .throw .runtimeError else .ok () := by
  have h1 : ∀ s : CellSet, (if (byId.find s.id).isNone then (Res.throw Exc.runtimeError : Res Unit)
      else forEach s.cells () fun _ cell => if only.count cell ≠ 1 then .throw .runtimeError else .ok ()) =
      if (OMap.find byId s.id = none ∨ ∃ c ∈ s.cells, OMap.find only c = none) then .throw .runtimeError else .ok () := by
    intro s
    have h2 : ∀ c, only.count c ≠ 1 ↔ OMap.find only c = none := by
      intro c
      unfold OMap.count
      cases OMap.find only c <;> simp
    have h3 := forEach_check s.cells (fun c => only.count c ≠ 1)
    simp only [h2] at h3
    by_cases hn : OMap.find byId s.id = none
    · simp [hn]
    · have : (OMap.find byId s.id).isNone = false := by
        cases h : OMap.find byId s.id <;> simp_all
      simp only [this, Bool.false_eq_true, if_false, hn, false_or, h2]
      exact h3
  unfold checkStartSets
  simp only [h1]
  exact forEach_check starts _

end Verif.Toolbox
