/-
The number of steps allowed to the loops does not matter as long as it is large enough.
-/
import Verif.Proofs.ToolboxHistory
import Verif.Proofs.Res

namespace Verif.Fuel
open Verif.Spec Verif.Solver Verif.Toolbox Verif.Tarjan

/-- `r'` is what more steps make of `r`. -/
def Sub {α : Type} (r r' : Res α) : Prop := r = .diverge ∨ r' = r

theorem Sub.refl {α : Type} (r : Res α) : Sub r r := Or.inr rfl

theorem Sub.bind {α β : Type} {r r' : Res α} {k k' : α → Res β} (h : Sub r r') (hk : ∀ a, Sub (k a) (k' a)) :
    Sub (r.bind k) (r'.bind k') := by
  rcases h with rfl | rfl
  · exact Or.inl rfl
  · cases r' with
    | ok a => exact hk a
    | throw e => exact Or.inr rfl
    | ub u => exact Or.inr rfl
    | diverge => exact Or.inl rfl

theorem Sub.forEach {α σ : Type} {f f' : σ → α → Res σ} (h : ∀ s x, Sub (f s x) (f' s x)) (xs : List α) (s : σ) :
    Sub (Verif.forEach xs s f) (Verif.forEach xs s f') := by
  induction xs generalizing s with
  | nil => exact Sub.refl _
  | cons x xs ih =>
    rw [forEach_cons, forEach_cons]
    exact (h s x).bind fun a => ih a

/-- The same, for loops that return the number of steps left: `k` more of them. -/
def Lift {σ : Type} (k : Nat) (r r' : Res (σ × Nat)) : Prop :=
  r = .diverge ∨ r' = r.bind fun x => .ok (x.1, x.2 + k)

theorem Lift.bind {σ β : Type} {k : Nat} {r r' : Res (σ × Nat)} {f : σ × Nat → Res β} {f' : σ × Nat → Res β}
    (h : Lift k r r') (hf : ∀ s n, Sub (f (s, n)) (f' (s, n + k))) : Sub (r.bind f) (r'.bind f') := by
  rcases h with rfl | rfl
  · exact Or.inl rfl
  · cases r with
    | ok a => exact hf a.1 a.2
    | throw e => exact Or.inr rfl
    | ub u => exact Or.inr rfl
    | diverge => exact Or.inl rfl

theorem Lift.bind' {σ τ : Type} {k : Nat} {r r' : Res (σ × Nat)} {f : σ × Nat → Res (τ × Nat)} {f' : σ × Nat → Res (τ × Nat)}
    (h : Lift k r r') (hf : ∀ s n, Lift k (f (s, n)) (f' (s, n + k))) : Lift k (r.bind f) (r'.bind f') := by
  rcases h with rfl | rfl
  · exact Or.inl rfl
  · cases r with
    | ok a => exact hf a.1 a.2
    | throw e => exact Or.inr rfl
    | ub u => exact Or.inr rfl
    | diverge => exact Or.inl rfl

theorem Lift.of {α τ : Type} {k : Nat} {r : Res α} {f f' : α → Res (τ × Nat)}
    (hf : ∀ a, Lift k (f a) (f' a)) : Lift k (r.bind f) (r.bind f') := by
  cases r with
  | ok a => exact hf a
  | throw e => exact Or.inr rfl
  | ub u => exact Or.inr rfl
  | diverge => exact Or.inl rfl

/-! ### Components -/

theorem localLoop_lift (ia : List Nat) (ja : List Int) (k : Nat) : ∀ fuel s clock,
    Lift k (localLoop ia ja fuel s clock) (localLoop ia ja (fuel + k) s clock) := by
  intro fuel
  induction fuel with
  | zero =>
    intro s clock
    by_cases h : s.scc.vtop = s.scc.vbase
    · right
      unfold localLoop
      rw [if_pos h, if_pos h]
      rfl
    · left
      unfold localLoop
      rw [if_neg h]
  | succ fuel ih =>
    intro s clock
    by_cases h : s.scc.vtop = s.scc.vbase
    · right
      unfold localLoop
      rw [if_pos h, if_pos h]
      show _ = Res.ok _
      simp
    · rw [show fuel + 1 + k = (fuel + k) + 1 by omega]
      unfold localLoop
      rw [if_neg h, if_neg h]
      exact Lift.of fun r => ih r.1 r.2

theorem tarjanLocal_lift (start : Nat) (ia : List Nat) (ja : List Int) (s : Run) (fuel k : Nat) :
    Lift k (tarjanLocal start ia ja s fuel) (tarjanLocal start ia ja s (fuel + k)) := by
  unfold tarjanLocal
  simp only [Res.bind_eq, Res.pure_eq]
  refine Lift.of fun scc => Lift.bind' (localLoop_lift ia ja k _ _ _) fun s n => ?_
  refine Lift.of fun _ => Or.inr ?_
  rfl

theorem globalLoop_lift (ia : List Nat) (ja : List Int) (k : Nat) : ∀ rounds start s fuel,
    Lift k (globalLoop ia ja rounds start s fuel) (globalLoop ia ja rounds start s (fuel + k)) := by
  intro rounds
  induction rounds with
  | zero =>
    intro start s fuel
    unfold globalLoop
    split
    · exact Or.inl rfl
    · exact Or.inr rfl
  | succ rounds ih =>
    intro start s fuel
    unfold globalLoop
    split
    · simp only [Res.bind_eq]
      refine Lift.bind' (tarjanLocal_lift _ _ _ _ _ _) fun s n => Lift.of fun next => ?_
      exact ih _ _ _
    · exact Or.inr rfl

theorem tarjan_sub (w st : Bool) (a : AllocSCC) (nv : Nat) (ia : List Nat) (ja : List Int) (fuel k : Nat) :
    Sub (tarjan w st a nv ia ja fuel) (tarjan w st a nv ia ja (fuel + k)) := by
  unfold tarjan
  split
  · unfold tarjanGlobal
    simp only [Res.bind_eq, Res.pure_eq]
    refine Lift.bind (k := k) ?_ fun s n => Sub.refl _
    exact Lift.of fun s => Lift.of fun start => globalLoop_lift _ _ _ _ _ _ _
  · exact Sub.refl _

theorem reachableLoop_lift (ia : List Nat) (ja : List Int) (k : Nat) (pts : List Int) : ∀ s fuel,
    Lift k (reachableLoop ia ja pts s fuel) (reachableLoop ia ja pts s (fuel + k)) := by
  unfold reachableLoop
  induction pts with
  | nil => intro s fuel; exact Or.inr rfl
  | cons p pts ih =>
    intro s fuel
    rw [forEach_cons, forEach_cons]
    refine Lift.bind' ?_ fun s n => ih s n
    simp only [Res.bind_eq, Res.pure_eq]
    refine Lift.of fun st => ?_
    split
    · exact Or.inr rfl
    · exact tarjanLocal_lift _ _ _ _ _ _

theorem reachableSccs_sub (a : AllocSCC) (nv : Nat) (ia : List Nat) (ja : List Int) (pts : List Int)
    (work : Option WorkSpace) (fuel k : Nat) :
    Sub (reachableSccs a nv ia ja pts work fuel) (reachableSccs a nv ia ja pts work (fuel + k)) := by
  unfold reachableSccs
  split
  · exact Sub.refl _
  · simp only [Res.bind_eq, Res.pure_eq]
    refine (Sub.refl _).bind fun _ => ?_
    split
    · exact Sub.refl _
    · refine (Sub.refl _).bind fun s => ?_
      exact Lift.bind (reachableLoop_lift _ _ _ _ _ _) fun s n => Sub.refl _

variable {R : Type}

theorem computeOrdering_sub (g : AssembledConnections R) (n : Nat) (al : Alloc) (fuel k : Nat) (s : List Int × List Nat) :
    Sub (computeOrdering g n al fuel s) (computeOrdering g n al (fuel + k) s) := by
  unfold computeOrdering
  simp only [Res.bind_eq]
  exact (Sub.refl _).bind fun _ => (tarjan_sub _ _ _ _ _ _ _ _).bind fun _ => Sub.refl _

theorem computeLocalOrdering_sub (g : AssembledConnections R) (n : Nat) (starts : List Int) (al : Alloc) (fuel k : Nat)
    (s : List Int × List Nat) :
    Sub (computeLocalOrdering g n starts al fuel s) (computeLocalOrdering g n starts al (fuel + k) s) := by
  unfold computeLocalOrdering
  simp only [Res.bind_eq]
  exact (Sub.refl _).bind fun _ => (reachableSccs_sub _ _ _ _ _ _ _ _).bind fun _ => Sub.refl _

/-! ### Solves -/

variable [Arith R]

theorem gaussSeidel_sub (d : SolverData R) (b : List Bool) (ls : List R) (cells : List Int) (k : Nat) : ∀ fuel s,
    Sub (gaussSeidel d b ls cells fuel s) (gaussSeidel d b ls cells (fuel + k) s) := by
  intro fuel
  induction fuel with
  | zero =>
    intro s
    unfold gaussSeidel
    split
    · exact Or.inl rfl
    · exact Sub.refl _
  | succ fuel ih =>
    intro s
    rw [show fuel + 1 + k = (fuel + k) + 1 by omega]
    unfold gaussSeidel
    split
    · simp only [Res.bind_eq]
      exact (Sub.refl _).bind fun s => ih s
    · exact Sub.refl _

theorem solve_sub (d : SolverData R) (b : List Bool) (ls : List R) (sq : List Int) (cst : List Nat) (fuel k : Nat)
    (s : List R × List R) : Sub (solve d b ls sq cst fuel s) (solve d b ls sq cst (fuel + k) s) := by
  unfold solve
  simp only [Res.bind_eq]
  refine Sub.bind (Sub.forEach (fun s comp => ?_) _ _) fun _ => Sub.refl _
  unfold solveComponent
  simp only [Res.bind_eq]
  refine (Sub.refl _).bind fun _ => (Sub.refl _).bind fun _ => (Sub.refl _).bind fun cells => ?_
  unfold solveMultiCell
  split
  · exact Sub.refl _
  · exact gaussSeidel_sub _ _ _ _ _ _ _

/-- The same for a call on an object: the object, too, ends up the same. -/
def SubP {S α : Type} (p p' : S × Res α) : Prop := p.2 = .diverge ∨ p' = p

theorem SubP.finish {S α β : Type} {s : S} {r r' : Res α} {k k' : α → S × Res β} (h : Sub r r')
    (hk : ∀ a, SubP (k a) (k' a)) : SubP (Solver.finish s r k) (Solver.finish s r' k') := by
  rcases h with rfl | rfl
  · exact Or.inl rfl
  · cases r' with
    | ok a => exact hk a
    | throw e => exact Or.inr rfl
    | ub u => exact Or.inr rfl
    | diverge => exact Or.inl rfl

theorem solveGlobal_sub (d : SolverData R) (al : Alloc) (fuel k : Nat) (s : SolverState R) :
    SubP (solveGlobal d al fuel s) (solveGlobal d al (fuel + k) s) := by
  unfold solveGlobal
  refine SubP.finish (Sub.refl _) fun _ => SubP.finish (computeOrdering_sub _ _ _ _ _ _) fun _ =>
    SubP.finish (solve_sub _ _ _ _ _ _ _ _) fun _ => Or.inr rfl

theorem solveLocal_sub (d : SolverData R) (al : Alloc) (fuel k : Nat) (ss : CellSetValues R) (s : SolverState R) :
    SubP (solveLocal d al fuel ss s) (solveLocal d al (fuel + k) ss s) := by
  unfold solveLocal
  exact SubP.finish (Sub.refl _) fun _ => SubP.finish (computeLocalOrdering_sub _ _ _ _ _ _ _) fun _ =>
    SubP.finish (Sub.refl _) fun _ => SubP.finish (solve_sub _ _ _ _ _ _ _ _) fun _ => Or.inr rfl

/-! ### Diagnostics -/

theorem solveSets_sub (d : SolverData R) (al : Nat → Alloc) (fuel k : Nat) (byId : InflowFlux R) (starts : List CellSet) :
    ∀ j s sol, Sub (solveSets d al fuel byId starts j s sol) (solveSets d al (fuel + k) byId starts j s sol) := by
  induction starts with
  | nil => intro j s sol; exact Sub.refl _
  | cons x xs ih =>
    intro j s sol
    unfold solveSets
    simp only
    rcases solveLocal_sub d (al j) fuel k (byId.at_ x.id []) s with h | h
    · left; rw [h]; rfl
    · rw [h]
      exact (Sub.refl _).bind fun l => ih _ _ _

theorem computeSolution_sub (g gr : AssembledConnections R) (pv : List R) (only : CellSetValues R) (byId : InflowFlux R)
    (al : Nat → Alloc) (fuel k : Nat) (starts : List CellSet) :
    Sub (computeSolution g gr pv only byId al fuel starts) (computeSolution g gr pv only byId al (fuel + k) starts) := by
  unfold computeSolution
  simp only [Res.bind_eq]
  refine (Sub.refl _).bind fun solver => ?_
  rcases solveGlobal_sub solver.1 (al 0) fuel k solver.2 with h | h
  · left; rw [h]; rfl
  · rw [h]
    exact (Sub.refl _).bind fun tof => solveSets_sub _ _ _ _ _ _ _ _ _

theorem outcome_sub (rev : Bool) (g : ConnectivityGraph) (pv : List R) (f : ConnectionValues R) (s : Split R)
    (al : Nat → Alloc) (fuel k : Nat) (starts : List CellSet) :
    Sub (outcome rev g pv f s al fuel starts) (outcome rev g pv f s al (fuel + k) starts) := by
  unfold outcome
  split
  · exact Sub.refl _
  · exact (Sub.refl _).bind fun _ => (Sub.refl _).bind fun gs => computeSolution_sub _ _ _ _ _ _ _ _ _

/-- A call that has ended within some number of steps ends the same way if more are allowed. -/
theorem injection_stable {g : ConnectivityGraph} {calls : List (Call R)} {al : Nat → Alloc} {fuel : Nat} {starts : List CellSet}
    (h : injectionOutcome g calls al fuel starts ≠ .diverge) {fuel' : Nat} (hf : fuel ≤ fuel') :
    injectionOutcome g calls al fuel' starts = injectionOutcome g calls al fuel starts := by
  obtain ⟨k, rfl⟩ := Nat.exists_eq_add_of_le hf
  rw [injectionOutcome_eq] at h ⊢
  rw [injectionOutcome_eq]
  rcases outcome_sub false g ((lastPoreVolume g calls).getD []) ((lastFlux g calls).getD (ConnectionValues.create 0 0))
    (splitInflow ((lastInflow calls).getD [])).1 al fuel k starts with h' | h'
  · exact absurd h' h
  · exact h'

theorem production_stable {g : ConnectivityGraph} {calls : List (Call R)} {al : Nat → Alloc} {fuel : Nat} {starts : List CellSet}
    (h : productionOutcome g calls al fuel starts ≠ .diverge) {fuel' : Nat} (hf : fuel ≤ fuel') :
    productionOutcome g calls al fuel' starts = productionOutcome g calls al fuel starts := by
  obtain ⟨k, rfl⟩ := Nat.exists_eq_add_of_le hf
  rw [productionOutcome_eq] at h ⊢
  rw [productionOutcome_eq]
  rcases outcome_sub true g ((lastPoreVolume g calls).getD []) ((lastFlux g calls).getD (ConnectionValues.create 0 0))
    (splitInflow ((lastInflow calls).getD [])).2 al fuel k starts with h' | h'
  · exact absurd h' h
  · exact h'

/-- A result after some number of steps is the result of the call. -/
theorem injection_returns {g : ConnectivityGraph} {calls : List (Call R)} {starts : List CellSet} {r : Res (Solution R)} :
    (InjectionReturns g calls starts r ∧ r ≠ .diverge) ↔
      ∃ fuel, injectionOutcome g calls noFailure fuel starts = r ∧ r ≠ .diverge := by
  constructor
  · rintro ⟨⟨N, hN⟩, h⟩
    exact ⟨N, hN N le_rfl, h⟩
  · rintro ⟨N, rfl, h⟩
    exact ⟨⟨N, fun fuel hf => injection_stable h hf⟩, h⟩

theorem production_returns {g : ConnectivityGraph} {calls : List (Call R)} {starts : List CellSet} {r : Res (Solution R)} :
    (ProductionReturns g calls starts r ∧ r ≠ .diverge) ↔
      ∃ fuel, productionOutcome g calls noFailure fuel starts = r ∧ r ≠ .diverge := by
  constructor
  · rintro ⟨⟨N, hN⟩, h⟩
    exact ⟨N, hN N le_rfl, h⟩
  · rintro ⟨N, rfl, h⟩
    exact ⟨⟨N, fun fuel hf => production_stable h hf⟩, h⟩

end Verif.Fuel
