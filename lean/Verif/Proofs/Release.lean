/-
Builds without assertions: where no assertion fails they compute the same, and they are memory safe.
-/
import Verif.Spec.Release
import Verif.Proofs.SweepAcyclic

namespace Verif.Release
open Verif.Solver Verif.Toolbox Verif.Spec Verif.Counter Verif.Tarjan

/-! ### Agreement -/

/-- With assertions the computation stops at one, or both builds do the same. -/
def Agree {α : Type} (r c : Res α) : Prop := r = .ub .assertFail ∨ c = r

theorem Agree.refl {α : Type} (r : Res α) : Agree r r := Or.inr rfl

theorem Agree.bind {α β : Type} {r c : Res α} {k k' : α → Res β} (h : Agree r c)
    (hk : ∀ a, r = .ok a → Agree (k a) (k' a)) : Agree (r.bind k) (c.bind k') := by
  rcases h with rfl | rfl
  · exact Or.inl rfl
  · cases c with
    | ok a => exact hk a rfl
    | throw e => exact Or.inr rfl
    | ub u => exact Or.inr rfl
    | diverge => exact Or.inr rfl

theorem Agree.forEach {α σ : Type} {f f' : σ → α → Res σ} (h : ∀ s x, Agree (f s x) (f' s x)) :
    ∀ (xs : List α) s, Agree (forEach xs s f) (forEach xs s f') := by
  intro xs
  induction xs with
  | nil => intro s; exact Agree.refl _
  | cons x xs ih =>
    intro s
    rw [forEach_cons, forEach_cons]
    exact (h s x).bind fun a _ => ih a

theorem Agree.assert_bind {β : Type} {b : Bool} {k : Unit → Res β} {c : Res β} (h : b = true → Agree (k ()) c) :
    Agree ((assertThat b).bind k) c := by
  cases b
  · exact Or.inl rfl
  · exact h rfl

/-- The same for a call on an object. -/
def AgreeP {S α : Type} (p c : S × Res α) : Prop := p.2 = .ub .assertFail ∨ c = p

theorem AgreeP.finish {S α β : Type} {s : S} {r c : Res α} {k k' : α → S × Res β} (h : Agree r c)
    (hk : ∀ a, r = .ok a → AgreeP (k a) (k' a)) :
    AgreeP (Solver.finish s r k) (Solver.finish s c k') := by
  rcases h with rfl | rfl
  · exact Or.inl rfl
  · cases c with
    | ok a => exact hk a rfl
    | throw e => exact Or.inr rfl
    | ub u => exact Or.inr rfl
    | diverge => exact Or.inr rfl

variable {R : Type} [Arith R]

theorem single_agree (d : SolverData R) (b : List Bool) (ls : List R) (s : List R × List R) (c : Int) :
    Agree (solveSingleCell d b ls s c) (solveSingleCellRelease d b ls s c) := by
  unfold solveSingleCell solveSingleCellRelease
  simp only [Res.bind_eq]
  refine (Agree.refl _).bind fun _ _ => (Agree.refl _).bind fun _ _ => (Agree.refl _).bind fun _ _ => ?_
  refine (Agree.refl _).bind fun _ _ => (Agree.refl _).bind fun _ _ => (Agree.refl _).bind fun _ _ => ?_
  refine Agree.assert_bind fun _ => Agree.assert_bind fun _ => ?_
  unfold cellTracer cellTracerRelease
  split
  · simp only [Res.bind_eq, Res.bind_assoc]
    exact Agree.assert_bind fun _ => Agree.refl _
  · exact Agree.refl _

theorem sweep_agree (d : SolverData R) (b : List Bool) (ls : List R) (s : (List R × List R) × (R × R)) (c : Int) :
    Agree (sweepCell d b ls s c) (sweepCellRelease d b ls s c) := by
  unfold sweepCell sweepCellRelease
  simp only [Res.bind_eq]
  refine (Agree.refl _).bind fun _ _ => (Agree.refl _).bind fun _ _ => ?_
  exact (single_agree d b ls _ c).bind fun _ _ => Agree.refl _

theorem gaussSeidel_agree (d : SolverData R) (b : List Bool) (ls : List R) (cells : List Int) : ∀ fuel s,
    Agree (gaussSeidel d b ls cells fuel s) (gaussSeidelRelease d b ls cells fuel s) := by
  intro fuel
  induction fuel with
  | zero =>
    intro s
    unfold gaussSeidel gaussSeidelRelease
    split <;> exact Agree.refl _
  | succ k ih =>
    intro s
    unfold gaussSeidel gaussSeidelRelease
    split
    · simp only [Res.bind_eq]
      exact (Agree.forEach (sweep_agree d b ls) cells _).bind fun s _ => ih s
    · exact Agree.refl _

theorem solve_agree (f : Nat) (d : SolverData R) (b : List Bool) (ls : List R) (sq : List Int) (cst : List Nat)
    (s : List R × List R) : Agree (uncounted f d b ls sq cst s) (release f d b ls sq cst s) := by
  unfold uncounted release solve
  simp only [Res.bind_eq]
  refine (Agree.forEach (fun s k => ?_) _ _).bind fun _ _ => Agree.refl _
  unfold solveComponent solveComponentRelease
  simp only [Res.bind_eq]
  refine (Agree.refl _).bind fun _ _ => (Agree.refl _).bind fun _ _ => (Agree.refl _).bind fun cells _ => ?_
  match cells with
  | [] => exact gaussSeidel_agree d b ls _ f _
  | [c] => exact single_agree d b ls s c
  | c :: c' :: cs => exact gaussSeidel_agree d b ls _ f _

theorem solveGlobal_agree (f : Nat) (d : SolverData R) (al : Alloc) (fuel : Nat) (s : SolverState R) :
    AgreeP (solveGlobalWith (uncounted f) d al fuel s) (solveGlobalWith (release f) d al fuel s) := by
  unfold solveGlobalWith
  exact AgreeP.finish (Agree.refl _) fun _ _ => AgreeP.finish (Agree.refl _) fun _ _ =>
    AgreeP.finish (solve_agree f _ _ _ _ _ _) fun _ _ => Or.inr rfl

theorem solveLocal_agree (f : Nat) (d : SolverData R) (al : Alloc) (fuel : Nat) (ss : CellSetValues R) (s : SolverState R) :
    AgreeP (solveLocalWith (uncounted f) d al fuel ss s) (solveLocalWith (release f) d al fuel ss s) := by
  unfold solveLocalWith
  exact AgreeP.finish (Agree.refl _) fun _ _ => AgreeP.finish (Agree.refl _) fun _ _ => AgreeP.finish (Agree.refl _) fun _ _ =>
    AgreeP.finish (solve_agree f _ _ _ _ _ _) fun _ _ => Or.inr rfl

theorem solveSets_agree (f : Nat) (d : SolverData R) (al : Nat → Alloc) (fuel : Nat) (byId : InflowFlux R)
    (starts : List CellSet) : ∀ j s sol,
    Agree (solveSetsWith (uncounted f) d al fuel byId starts j s sol)
      (solveSetsWith (release f) d al fuel byId starts j s sol) := by
  induction starts with
  | nil => intro j s sol; unfold solveSetsWith; exact Agree.refl _
  | cons x xs ih =>
    intro j s sol
    unfold solveSetsWith
    simp only
    rcases solveLocal_agree f d (al j) fuel (byId.at_ x.id []) s with e | e
    · rw [e]; exact Or.inl rfl
    · rw [e]
      exact (Agree.refl _).bind fun l _ => ih _ _ _

theorem computeSolution_agree (f : Nat) (g gr : AssembledConnections R) (pv : List R) (only : CellSetValues R)
    (byId : InflowFlux R) (al : Nat → Alloc) (fuel : Nat) (starts : List CellSet) :
    Agree (computeSolutionWith (uncounted f) g gr pv only byId al fuel starts)
      (computeSolutionWith (release f) g gr pv only byId al fuel starts) := by
  unfold computeSolutionWith
  simp only [Res.bind_eq]
  refine (Agree.refl _).bind fun solver _ => ?_
  rcases solveGlobal_agree f solver.1 (al 0) fuel solver.2 with e | e
  · rw [e]; exact Or.inl rfl
  · rw [e]
    exact (Agree.refl _).bind fun tof _ => solveSets_agree f _ _ _ _ _ _ _ _

theorem injDiag_agree (f : Nat) (t : Toolbox R) (al : Nat → Alloc) (fuel : Nat) (starts : List CellSet) :
    (injDiagWith (release f) t al fuel starts).1 = (injDiagWith (uncounted f) t al fuel starts).1 ∧
    Agree (injDiagWith (uncounted f) t al fuel starts).2 (injDiagWith (release f) t al fuel starts).2 := by
  unfold injDiagWith
  split
  · exact ⟨rfl, Agree.refl _⟩
  · cases checkStartSets t.injById t.onlyInflow starts with
    | ok x =>
      simp only [Solver.finish]
      cases t.ensureBuilt.2 with
      | ok x => exact ⟨rfl, computeSolution_agree ..⟩
      | throw e => simp only; exact ⟨trivial, Agree.refl _⟩
      | ub e => simp only; exact ⟨trivial, Agree.refl _⟩
      | diverge => simp only; exact ⟨trivial, Agree.refl _⟩
    | throw e => simp only [Solver.finish]; exact ⟨trivial, Agree.refl _⟩
    | ub e => simp only [Solver.finish]; exact ⟨trivial, Agree.refl _⟩
    | diverge => simp only [Solver.finish]; exact ⟨trivial, Agree.refl _⟩

theorem prodDiag_agree (f : Nat) (t : Toolbox R) (al : Nat → Alloc) (fuel : Nat) (starts : List CellSet) :
    (prodDiagWith (release f) t al fuel starts).1 = (prodDiagWith (uncounted f) t al fuel starts).1 ∧
    Agree (prodDiagWith (uncounted f) t al fuel starts).2 (prodDiagWith (release f) t al fuel starts).2 := by
  unfold prodDiagWith
  split
  · exact ⟨rfl, Agree.refl _⟩
  · cases checkStartSets t.prodById t.onlyOutflow starts with
    | ok x =>
      simp only [Solver.finish]
      cases t.ensureBuilt.2 with
      | ok x => exact ⟨rfl, computeSolution_agree ..⟩
      | throw e => simp only; exact ⟨trivial, Agree.refl _⟩
      | ub e => simp only; exact ⟨trivial, Agree.refl _⟩
      | diverge => simp only; exact ⟨trivial, Agree.refl _⟩
    | throw e => simp only [Solver.finish]; exact ⟨trivial, Agree.refl _⟩
    | ub e => simp only [Solver.finish]; exact ⟨trivial, Agree.refl _⟩
    | diverge => simp only [Solver.finish]; exact ⟨trivial, Agree.refl _⟩

/-! ### Memory safety -/

/-- Ends without undefined behaviour and without a failed assertion. -/
inductive Quiet {α : Type} : Res α → Prop
  | ok (a : α) : Quiet (.ok a)
  | logicError : Quiet (.throw .logicError)
  | diverge : Quiet .diverge

theorem Quiet.bind {α β : Type} {r : Res α} {k : α → Res β} (h : Quiet r) (hk : ∀ a, r = .ok a → Quiet (k a)) :
    Quiet (r.bind k) := by
  cases h with
  | ok a => exact hk a rfl
  | logicError => exact .logicError
  | diverge => exact .diverge

theorem quiet_forEach {α σ : Type} {f : σ → α → Res σ} (P : σ → Prop) {xs : List α} {s : σ} (h0 : P s)
    (hs : ∀ s, ∀ x ∈ xs, P s → Quiet (f s x)) (hp : ∀ s s', ∀ x ∈ xs, P s → f s x = .ok s' → P s') :
    Quiet (forEach xs s f) := by
  induction xs generalizing s with
  | nil => exact .ok _
  | cons x xs ih =>
    rw [forEach_cons]
    exact (hs s x (by simp) h0).bind fun a ha =>
      ih (hp s a x (by simp) h0 ha) (fun s y hy => hs s y (by simp [hy])) fun s s' y hy => hp s s' y (by simp [hy])

variable {d : SolverData R} {n : Nat} {isStart : List Bool} {ls : List R}

/-- A cell can always be solved for. -/
theorem single_returns (hd : Ready d n) (h1 : isStart.length = n) (h2 : ls.length = n) {s : List R × List R} (hs : Sized n s)
    {v : Nat} (hv : v < n) : ∃ t, solveSingleCellRelease d isStart ls s (v : Int) = .ok t ∧ Sized n t := by
  have hI := hd.int
  have hsz : sizeOfInt (v : Int) = v := by rw [sizeOfInt_nonneg (by omega) (by omega)]; simp
  obtain ⟨nb, hnb, hr⟩ := hd.reverse.rows hI hv
  have hup : ∃ up, forEach nb (Arith.zero, Arith.zero) (addUpwind s.1 s.2) = .ok up := by
    obtain ⟨u, hu, _⟩ := forEach_inv (xs := nb) (s := ((Arith.zero : R), (Arith.zero : R))) (f := addUpwind s.1 s.2)
      (fun _ _ => True) trivial (by
      intro pre x post t e _
      have hx := hr x (by rw [e]; simp)
      have hxs : sizeOfInt x.1 < n := by rw [sizeOfInt_nonneg (by omega) (by omega)]; omega
      unfold addUpwind
      simp only [Res.bind_eq, rd_ok (show sizeOfInt x.1 < s.1.length by rw [hs.1]; omega), Res.ok_bind,
        rd_ok (show sizeOfInt x.1 < s.2.length by rw [hs.2]; omega), Res.pure_eq]
      exact ⟨_, rfl, trivial⟩)
    exact ⟨u, hu⟩
  obtain ⟨up, hup⟩ := hup
  have hls : ∀ b x, ∃ y, withLocalSource b ls v x = .ok y := by
    intro b x
    unfold withLocalSource
    cases b
    · exact ⟨_, rfl⟩
    · simp only [Res.bind_eq, rd_ok (show v < ls.length by omega), Res.ok_bind, Res.pure_eq]; exact ⟨_, rfl⟩
  unfold solveSingleCellRelease
  simp only [hsz, Res.bind_eq, rd_ok (show v < d.sourceTerm.length by rw [hd.source]; exact hv), Res.ok_bind,
    rd_ok (show v < isStart.length by omega), rd_ok (show v < d.influx.length by rw [hd.influx]; exact hv), hnb, hup]
  obtain ⟨y, hy⟩ := hls (isStart[v]'(by omega)) up.2
  rw [hy, Res.ok_bind]
  rw [wr_ok (show v < s.2.length by rw [hs.2]; exact hv), Res.ok_bind, rd_ok (show v < d.pv.length by rw [hd.pv]; exact hv),
    Res.ok_bind, wr_ok (show v < s.1.length by rw [hs.1]; exact hv), Res.ok_bind]
  exact ⟨_, rfl, by simpa using hs.1, by simpa using hs.2⟩

theorem sweep_returns (hd : Ready d n) (h1 : isStart.length = n) (h2 : ls.length = n)
    {s : (List R × List R) × (R × R)} (hs : Sized n s.1) {v : Nat} (hv : v < n) :
    ∃ t, sweepCellRelease d isStart ls s (v : Int) = .ok t ∧ Sized n t.1 := by
  have hI := hd.int
  have hsz : sizeOfInt (v : Int) = v := by rw [sizeOfInt_nonneg (by omega) (by omega)]; simp
  unfold sweepCellRelease
  obtain ⟨f, hf, this⟩ := single_returns hd h1 h2 hs hv
  simp only [hsz, Res.bind_eq, rd_ok (show v < s.1.1.length by rw [hs.1]; exact hv), Res.ok_bind,
    rd_ok (show v < s.1.2.length by rw [hs.2]; exact hv), hf]
  rw [rd_ok (show v < f.1.length by rw [this.1]; exact hv), Res.ok_bind,
    rd_ok (show v < f.2.length by rw [this.2]; exact hv), Res.ok_bind]
  exact ⟨_, rfl, this⟩

theorem gaussSeidel_quiet (hd : Ready d n) (h1 : isStart.length = n) (h2 : ls.length = n) {cells : List Nat}
    (hc : ∀ v ∈ cells, v < n) (fuel : Nat) : ∀ {s : (List R × List R) × (R × R)}, Sized n s.1 →
    (∃ t, gaussSeidelRelease d isStart ls (cells.map fun v : Nat => (v : Int)) fuel s = .ok t ∧ Sized n t) ∨
    gaussSeidelRelease d isStart ls (cells.map fun v : Nat => (v : Int)) fuel s = .diverge := by
  induction fuel with
  | zero =>
    intro s hs
    unfold gaussSeidelRelease
    split
    · exact Or.inr rfl
    · exact Or.inl ⟨_, rfl, hs⟩
  | succ k ih =>
    intro s hs
    unfold gaussSeidelRelease
    split
    · simp only [Res.bind_eq]
      obtain ⟨t, ht, hts⟩ := forEach_inv (xs := cells.map fun v : Nat => (v : Int)) (s := (s.1, ((Arith.zero : R), (Arith.zero : R))))
        (f := sweepCellRelease d isStart ls) (fun _ s => Sized n s.1) hs (by
        intro pre x post s e hs
        have hx : x ∈ cells.map fun v : Nat => (v : Int) := by rw [e]; simp
        obtain ⟨v, hv, rfl⟩ := List.mem_map.mp hx
        exact sweep_returns hd h1 h2 hs (hc v hv))
      rw [ht, Res.ok_bind]
      exact ih hts
    · exact Or.inl ⟨_, rfl, hs⟩

/-- What a way to solve has to guarantee. -/
def QuietFn (slv : SolveFn R) (d : SolverData R) (n : Nat) : Prop :=
  ∀ (isStart : List Bool) (ls : List R), isStart.length = n → ls.length = n → ∀ comps : List (List Nat),
    (∀ c ∈ comps, ∀ v ∈ c, v < n) → ∀ s, Sized n s →
    (∃ t, slv d isStart ls (cellsOf comps) (offsets comps) s = .ok t ∧ Sized n t) ∨
    slv d isStart ls (cellsOf comps) (offsets comps) s = .diverge

theorem release_quiet (hd : Ready d n) (fuel : Nat) : QuietFn (release fuel) d n := by
  intro isStart ls h1 h2 comps hc s hs
  have hcomp : ∀ (s : List R × List R) (k : Nat), k < comps.length → Sized n s →
      (∃ t, solveComponentRelease d isStart ls (cellsOf comps) (offsets comps) fuel s k = .ok t ∧ Sized n t) ∨
      solveComponentRelease d isStart ls (cellsOf comps) (offsets comps) fuel s k = .diverge := by
    intro s k hk hs
    have hck : comps[k]? = some comps[k] := List.getElem?_eq_getElem hk
    have hm := List.getElem_mem hk
    generalize comps[k] = c at hck hm
    unfold solveComponentRelease
    simp only [Res.bind_eq, rd_of_getElem? (offsets_getElem? comps (k := k + 1) (by omega)),
      rd_of_getElem? (offsets_getElem? comps (k := k) (by omega)), Res.ok_bind, off_succ hck,
      Nat.add_sub_cancel_left, readCells_comp hck]
    split
    · rename_i cell hcell
      match c, hcell with
      | [v], hcell =>
        simp only [List.map_cons, List.map_nil, List.cons.injEq, and_true] at hcell
        subst hcell
        exact Or.inl (single_returns hd h1 h2 hs (hc _ hm v (by simp)))
    · exact gaussSeidel_quiet hd h1 h2 (hc c hm) fuel hs
  have hall : ∀ (ks : List Nat), (∀ k ∈ ks, k < comps.length) → ∀ s, Sized n s →
      (∃ t, forEach ks s (solveComponentRelease d isStart ls (cellsOf comps) (offsets comps) fuel) = .ok t ∧ Sized n t) ∨
      forEach ks s (solveComponentRelease d isStart ls (cellsOf comps) (offsets comps) fuel) = .diverge := by
    intro ks
    induction ks with
    | nil => intro _ s hs; exact Or.inl ⟨_, rfl, hs⟩
    | cons k ks ih =>
      intro hk s hs
      rw [forEach_cons]
      rcases hcomp s k (hk k List.mem_cons_self) hs with ⟨t, e, ht⟩ | e
      · rw [e, Res.ok_bind]
        exact ih (fun k h => hk k (List.mem_cons_of_mem _ h)) t ht
      · rw [e]; exact Or.inr rfl
  unfold release
  simp only [Res.bind_eq, Res.pure_eq]
  rcases hall (List.range ((offsets comps).length - 1)) (by
    intro k hk; have := List.mem_range.mp hk; rw [offsets_length] at this; omega) s hs with ⟨t, e, ht⟩ | e
  · rw [e, Res.ok_bind]
    exact Or.inl ⟨_, rfl, by simpa using ht.1, ht.2⟩
  · rw [e]; exact Or.inr rfl

/-- `solveGlobal` returns or is still sweeping. -/
theorem solveGlobal_quiet (hd : Ready d n) : ∃ N, ∀ fuel, N ≤ fuel → ∀ slv, QuietFn slv d n → ∀ s,
    (∃ t, (solveGlobalWith slv d Alloc.good fuel s).2 = .ok t ∧ (solveGlobalWith slv d Alloc.good fuel s).1.localSource.length = n) ∨
    (solveGlobalWith slv d Alloc.good fuel s).2 = .diverge := by
  have hG := hd.graph.isGraph hd.int
  obtain ⟨comps, ht, horder⟩ := Solver.computeOrdering_spec hG hd.graph.size Alloc.good_good
  refine ⟨n + numEdges n d.g.startPointers, fun fuel hf slv hslv s => ?_⟩
  unfold solveGlobalWith prepareForSolve
  simp only [hd.pv]
  have hst : ∃ b, setupStartArrayFromSource d (List.replicate n false) = .ok b ∧ b.length = n := by
    unfold setupStartArrayFromSource
    rw [hd.pv]
    obtain ⟨b, hb, hl⟩ := forEach_range_inv (n := n) (s := List.replicate n false)
      (f := fun b cell => do
        let x ← rd d.sourceTerm cell
        if Arith.lt Arith.zero x then wr b cell true else pure b) (fun _ b => b.length = n) (by simp) (by
      intro k b hk hb
      simp only [Res.bind_eq, rd_ok (show k < d.sourceTerm.length by rw [hd.source]; exact hk), Res.ok_bind]
      split
      · exact ⟨_, wr_ok (by omega), by simpa using hb⟩
      · exact ⟨_, rfl, hb⟩)
    exact ⟨b, hb, hl⟩
  obtain ⟨b, hb, hbl⟩ := hst
  rw [hb]
  simp only [Solver.finish, horder fuel hf]
  have hc : ∀ c ∈ comps, ∀ v ∈ c, v < n := fun c hc v hv => (ht.cover v).mp (List.mem_flatten.mpr ⟨c, hc, hv⟩)
  rcases hslv b d.sourceTerm hbl hd.source comps hc (List.replicate n Arith.zero, List.replicate n Arith.zero)
    ⟨by simp, by simp⟩ with ⟨t, e, _⟩ | e
  · rw [e]
    refine Or.inl ⟨_, rfl, ?_⟩
    simp only [List.length_replicate, hd.source]
  · rw [e]; exact Or.inr rfl

theorem setupLocalSource_quiet {n : Nat} (hI : n ≤ INT_MAX) {startset : CellSetValues R} (hp : ∀ e ∈ startset, 0 ≤ e.1 ∧ e.1 < n)
    {ls : List R} (hl : ls.length = n) :
    (setupLocalSource ls startset).1.length = n ∧ Quiet (setupLocalSource ls startset).2 := by
  induction startset generalizing ls with
  | nil => exact ⟨hl, .ok _⟩
  | cons p ps ih =>
    unfold setupLocalSource
    have hx := hp p (by simp)
    have hsz : sizeOfInt p.1 < ls.length := by rw [sizeOfInt_nonneg (by omega) (by omega)]; omega
    split
    · exact ⟨hl, .logicError⟩
    · rw [wr_ok hsz]
      exact ih (fun e he => hp e (by simp [he])) (by simpa using hl)

/-- `solveLocal` returns, rejects a value or is still sweeping. -/
theorem solveLocal_quiet (hd : Ready d n) {startset : CellSetValues R} (hp : ∀ e ∈ startset, 0 ≤ e.1 ∧ e.1 < n) :
    ∃ N, ∀ fuel, N ≤ fuel → ∀ slv, QuietFn slv d n → ∀ s : SolverState R, s.localSource.length = n →
      Quiet (solveLocalWith slv d Alloc.good fuel startset s).2 ∧
      ∀ t, (solveLocalWith slv d Alloc.good fuel startset s).2 = .ok t →
        (solveLocalWith slv d Alloc.good fuel startset s).1.localSource.length = n := by
  have hI := hd.int
  have hG := hd.graph.isGraph hI
  have hcast : (startset.map fun p => p.1) = (startset.map fun p => p.1.toNat).map fun v : Nat => (v : Int) := by
    rw [List.map_map]
    apply List.map_congr_left
    intro e he
    have := hp e he
    simp only [Function.comp]; omega
  have hlt : ∀ p ∈ startset.map fun p => p.1.toNat, p < n := by
    intro p h
    obtain ⟨e, he, rfl⟩ := List.mem_map.mp h
    have := hp e he
    omega
  obtain ⟨comps, ht, horder⟩ := Solver.computeLocalOrdering_spec hG hd.graph.size Alloc.good_good _ hlt
  refine ⟨n + numEdges n d.g.startPointers, fun fuel hf slv hslv s hls => ?_⟩
  have hc : ∀ c ∈ comps, ∀ v ∈ c, v < n := by
    intro c hc v hv
    obtain ⟨p, hpm, hr⟩ := (ht.cover v).mp (List.mem_flatten.mpr ⟨c, hc, hv⟩)
    rcases Relation.ReflTransGen.cases_tail hr with e | ⟨x, _, hx⟩
    · rw [e]; exact hlt p hpm
    · have := hG.range x hx.1 _ hx.2; omega
  unfold solveLocalWith prepareForSolve
  simp only [hd.pv]
  have hst : ∃ b, setupStartArray (List.replicate n false) startset = .ok b ∧ b.length = n := by
    unfold setupStartArray
    obtain ⟨b, hb, hl⟩ := forEach_inv (xs := startset) (s := List.replicate n false)
      (f := fun b p => wr b (sizeOfInt p.1) true) (fun _ b => b.length = n) (by simp) (by
      intro pre x post b e hb
      have hx := hp x (by rw [e]; simp)
      have hsz : sizeOfInt x.1 < n := by rw [sizeOfInt_nonneg (by omega) (by omega)]; omega
      exact ⟨_, wr_ok (by omega), by simpa using hb⟩)
    exact ⟨b, hb, hl⟩
  obtain ⟨b, hb, hbl⟩ := hst
  rw [hb, hcast]
  simp only [Solver.finish, horder fuel hf]
  obtain ⟨hl1, hl2⟩ := setupLocalSource_quiet hI hp hls
  generalize setupLocalSource s.localSource startset = ls at hl1 hl2 ⊢
  obtain ⟨ls, r0⟩ := ls
  simp only at hl1 hl2
  cases hl2 with
  | logicError => exact ⟨.logicError, fun _ h => by cases h⟩
  | diverge => exact ⟨.diverge, fun _ h => by cases h⟩
  | ok u =>
    simp only
    rcases hslv b ls hbl hl1 comps hc (List.replicate n Arith.zero, List.replicate n Arith.zero)
      ⟨by simp, by simp⟩ with ⟨a, e, ha⟩ | e
    · rw [e]
      simp only
      have hcl : ∃ l, cleanupLocalSource ls startset = .ok l ∧ l.length = n := by
        unfold cleanupLocalSource
        obtain ⟨l, hl, hll⟩ := forEach_inv (xs := startset) (s := ls)
          (f := fun ls p => wr ls (sizeOfInt p.1) Arith.zero) (fun _ b => b.length = n) hl1 (by
          intro pre x post b e hb
          have hx := hp x (by rw [e]; simp)
          have hsz : sizeOfInt x.1 < n := by rw [sizeOfInt_nonneg (by omega) (by omega)]; omega
          exact ⟨_, wr_ok (by omega), by simpa using hb⟩)
        exact ⟨l, hl, hll⟩
      obtain ⟨l, hl, hll⟩ := hcl
      rw [hl]
      simp only
      have hcol : Quiet (collect a.1 a.2 (cellsOf comps) (offsets comps)) := by
        unfold collect
        simp only [Res.bind_eq, back_offsets, Res.ok_bind]
        have : readCells (cellsOf comps) 0 comps.flatten.length = .ok (cellsOf comps) := by
          have e : comps.flatten.length = (cellsOf comps).length := by unfold cellsOf; rw [List.length_map]
          unfold readCells
          rw [e, if_pos (by omega), List.drop_zero, List.take_length]
        rw [this, Res.ok_bind]
        refine quiet_forEach (fun _ => True) trivial ?_ (fun _ _ _ _ _ _ => trivial)
        intro q x hx _
        obtain ⟨v, hv, rfl⟩ := List.mem_map.mp hx
        obtain ⟨c, hcm, hvc⟩ := List.mem_flatten.mp hv
        have hv := hc c hcm v hvc
        have hsz : sizeOfInt (v : Int) = v := by rw [sizeOfInt_nonneg (by omega) (by omega)]; simp
        unfold collectCell
        simp only [hsz, Res.bind_eq, rd_ok (show v < a.1.length by rw [ha.1]; exact hv), Res.ok_bind,
          rd_ok (show v < a.2.length by rw [ha.2]; exact hv)]
        split
        · exact .logicError
        · exact .ok _
      generalize collect a.1 a.2 (cellsOf comps) (offsets comps) = r at hcol ⊢
      cases hcol with
      | ok a => exact ⟨.ok _, fun _ _ => hll⟩
      | logicError => exact ⟨.logicError, fun _ h => by cases h⟩
      | diverge => exact ⟨.diverge, fun _ h => by cases h⟩
    · rw [e]; exact ⟨.diverge, fun _ h => by cases h⟩

/-- The computation of a solution from consistent data. -/
theorem computeSolution_quiet {g gr : AssembledConnections R} {n : Nat} (hI : n ≤ INT_MAX) (hg : GoodGraph g n)
    (hgr : GoodGraph gr n) {pv : List R} (hpv : pv.length = n) {l : List (CellSetID × Int × R)}
    (hl : ∀ e ∈ l, 0 ≤ e.2.1 ∧ e.2.1 < n) (starts : List CellSet) :
    ∃ N, ∀ fuel, N ≤ fuel →
      Quiet (computeSolutionWith (release fuel) g gr pv (gather l).only (gather l).byId noFailure fuel starts) := by
  obtain ⟨h1, h2⟩ := gather_range hl
  obtain ⟨d, st, hcr, hd, hls⟩ := create_ready hI hg hgr hpv h1
  obtain ⟨N0, hN0⟩ := solveGlobal_quiet hd
  have hN : ∃ N, ∀ fuel, N ≤ fuel → ∀ j sol (s : SolverState R), s.localSource.length = n →
      Quiet (solveSetsWith (release fuel) d noFailure fuel (gather l).byId starts j s sol) := by
    induction starts with
    | nil => exact ⟨0, fun _ _ _ _ _ _ => .ok _⟩
    | cons x rest ih =>
      obtain ⟨N, hN⟩ := ih
      obtain ⟨M, hM⟩ := solveLocal_quiet hd (h2 x.id)
      refine ⟨max N M, fun fuel hf j sol s hs => ?_⟩
      obtain ⟨q, hq⟩ := hM fuel (le_trans (le_max_right _ _) hf) _ (release_quiet hd fuel) s hs
      unfold solveSetsWith
      exact q.bind fun t ht => hN fuel (le_trans (le_max_left _ _) hf) _ _ _ (hq t ht)
  obtain ⟨N, hN⟩ := hN
  refine ⟨max N0 N, fun fuel hf => ?_⟩
  unfold computeSolutionWith
  simp only [Res.bind_eq, hcr, Res.ok_bind]
  rcases hN0 fuel (le_trans (le_max_left _ _) hf) _ (release_quiet hd fuel) st with ⟨t, e, hls'⟩ | e
  · show Quiet (Res.bind (solveGlobalWith (release fuel) d Alloc.good fuel st).2 _)
    rw [e, Res.ok_bind]
    exact hN fuel (le_trans (le_max_right _ _) hf) _ _ _ hls'
  · show Quiet (Res.bind (solveGlobalWith (release fuel) d Alloc.good fuel st).2 _)
    rw [e]; exact .diverge

end Verif.Release
