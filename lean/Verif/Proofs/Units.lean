/-
Multiplying pore volumes, fluxes and inflow by one factor changes no step of the computation.
-/
import Verif.Spec.Units
import Verif.Proofs.Res

namespace Verif.Units
open Verif.Solver Verif.Toolbox Verif.Spec

/-! ### Outcomes -/

section outcomes
variable {α β γ : Type}

@[simp] theorem map_bind (f : β → γ) (r : Res α) (k : α → Res β) :
    mapResult f (r.bind k) = r.bind fun a => mapResult f (k a) := by cases r <;> rfl

@[simp] theorem bind_map (f : α → β) (r : Res α) (k : β → Res γ) :
    (mapResult f r).bind k = r.bind fun a => k (f a) := by cases r <;> rfl

@[simp] theorem map_ok (f : α → β) (a : α) : mapResult f (.ok a) = .ok (f a) := rfl
@[simp] theorem map_throw (f : α → β) (e : Exc) : mapResult f (.throw e) = .throw e := rfl
@[simp] theorem map_ub (f : α → β) (e : UB) : mapResult f (.ub e) = .ub e := rfl
@[simp] theorem map_diverge (f : α → β) : mapResult f .diverge = .diverge := rfl

theorem map_map (f : α → β) (g : β → γ) (r : Res α) : mapResult g (mapResult f r) = mapResult (fun a => g (f a)) r := by
  cases r <;> rfl

@[simp] theorem rd_map (f : α → β) (l : List α) (i : Nat) : rd (l.map f) i = mapResult f (rd l i) := by
  unfold rd
  rw [List.getElem?_map]
  cases l[i]? <;> rfl

@[simp] theorem wr_map (f : α → β) (l : List α) (i : Nat) (x : α) : wr (l.map f) i (f x) = mapResult (List.map f) (wr l i x) := by
  unfold wr
  rw [List.length_map]
  split
  · rw [map_ok, List.map_set]
  · rfl

theorem forEach_list (f : α → β) (xs : List α) (s : γ) (g : γ → β → Res γ) :
    forEach (xs.map f) s g = forEach xs s fun s x => g s (f x) := by
  induction xs generalizing s with
  | nil => rfl
  | cons x xs ih =>
    rw [List.map_cons, forEach_cons, forEach_cons]
    cases g s (f x) <;> simp [ih]

theorem forEach_state {f : β → γ} {g : β → α → Res β} {g' : γ → α → Res γ}
    (h : ∀ s x, g' (f s) x = mapResult f (g s x)) (xs : List α) (s : β) :
    forEach xs (f s) g' = mapResult f (forEach xs s g) := by
  induction xs generalizing s with
  | nil => rfl
  | cons x xs ih =>
    rw [forEach_cons, forEach_cons, h]
    cases g s x <;> simp [ih]

end outcomes

/-! ### Factors -/

/-- `f` multiplies by a positive number. -/
structure Factor {R : Type} [Arith R] (f : R → R) : Prop where
  zero : f Arith.zero = Arith.zero
  inf : f Arith.inf = Arith.inf
  neg : ∀ a, Arith.neg (f a) = f (Arith.neg a)
  add : ∀ a b, Arith.add (f a) (f b) = f (Arith.add a b)
  mul : ∀ a b, Arith.mul a (f b) = f (Arith.mul a b)
  mul' : ∀ a b, Arith.mul (f a) b = f (Arith.mul a b)
  div : ∀ a b, Arith.div (f a) (f b) = Arith.div a b
  div' : ∀ a b, Arith.div (f a) b = f (Arith.div a b)
  lt : ∀ a b, Arith.lt (f a) (f b) = Arith.lt a b
  le : ∀ a b, Arith.le (f a) (f b) = Arith.le a b
  eq : ∀ a b, Arith.eq (f a) (f b) = Arith.eq a b

namespace Factor
variable {R : Type} [Arith R] {f : R → R} (hf : Factor f)
include hf

theorem pos (a : R) : Arith.lt Arith.zero (f a) = Arith.lt Arith.zero a := by
  have := hf.lt Arith.zero a
  rwa [hf.zero] at this

theorem negative (a : R) : Arith.lt (f a) Arith.zero = Arith.lt a Arith.zero := by
  have := hf.lt a Arith.zero
  rwa [hf.zero] at this

theorem nonneg (a : R) : Arith.le Arith.zero (f a) = Arith.le Arith.zero a := by
  have := hf.le Arith.zero a
  rwa [hf.zero] at this

theorem isZero (a : R) : Arith.eq (f a) Arith.zero = Arith.eq a Arith.zero := by
  have := hf.eq a Arith.zero
  rwa [hf.zero] at this

end Factor

/-! ### Assembled graphs -/

variable {R : Type}

/-- The graph with other weights. -/
def mapConns (f : R → R) (c : Connections R) : Connections R := { c with v := c.v.map f }
def mapCSR (f : R → R) (g : CSR R) : CSR R := { g with sa := g.sa.map f }
def mapGraph (f : R → R) (g : AssembledConnections R) : AssembledConnections R :=
  { conns := mapConns f g.conns, csr := mapCSR f g.csr }

section graphs
variable (f : R → R)

theorem map_ite {α β : Type} (f : α → β) (p : Prop) [Decidable p] (a b : Res α) :
    mapResult f (if p then a else b) = if p then mapResult f a else mapResult f b := by split <;> rfl

theorem accumulateRowEntries_map (g : CSR R) (n : Int) (rows : List Int) :
    CSR.accumulateRowEntries (mapCSR f g) n rows = mapResult (mapCSR f) (CSR.accumulateRowEntries g n rows) := by
  simp [CSR.accumulateRowEntries, mapCSR]

theorem createGraph_map (g : CSR R) (rows cols : List Int) :
    CSR.createGraph (mapCSR f g) rows cols = mapResult (mapCSR f) (CSR.createGraph g rows cols) := by
  simp [CSR.createGraph, mapCSR, map_ite]

theorem remapElementIndex_map (g : CSR R) (elm : List Nat) :
    CSR.remapElementIndex (mapCSR f g) elm = mapResult (mapCSR f) (CSR.remapElementIndex g elm) := by
  simp [CSR.remapElementIndex, mapCSR]

theorem transpose_map (g : CSR R) : CSR.transpose (mapCSR f g) = mapResult (mapCSR f) (CSR.transpose g) := by
  unfold CSR.transpose
  simp only [Res.bind_eq, map_bind, accumulateRowEntries_map, createGraph_map, remapElementIndex_map, bind_map,
    show (mapCSR f g).ia = g.ia from rfl, show (mapCSR f g).ja = g.ja from rfl, show (mapCSR f g).elmIdx = g.elmIdx from rfl,
    show (mapCSR f g).numCols = g.numCols from rfl]
  rfl

theorem sort_map (g : CSR R) : CSR.sort (mapCSR f g) = mapResult (mapCSR f) (CSR.sort g) := by
  unfold CSR.sort
  simp only [Res.bind_eq, map_bind, transpose_map, bind_map]

theorem condenseDuplicates_map (g : CSR R) :
    CSR.condenseDuplicates (mapCSR f g) = mapResult (mapCSR f) (CSR.condenseDuplicates g) := by
  unfold CSR.condenseDuplicates
  simp only [Res.bind_eq, map_bind, show (mapCSR f g).ia = g.ia from rfl, show (mapCSR f g).ja = g.ja from rfl,
    show (mapCSR f g).elmIdx = g.elmIdx from rfl]
  congr 1
  funext x
  rw [show ({ mapCSR f g with ia := x.1, ja := x.2.2.1, elmIdx := x.2.2.2 } : CSR R)
    = mapCSR f { g with ia := x.1, ja := x.2.2.1, elmIdx := x.2.2.2 } from rfl, remapElementIndex_map, bind_map]
  rfl

theorem assemble_map (g : CSR R) (c : Connections R) :
    CSR.assemble (mapCSR f g) (mapConns f c) = mapResult (mapCSR f) (CSR.assemble g c) := by
  unfold CSR.assemble
  simp only [Res.bind_eq, map_bind, accumulateRowEntries_map, createGraph_map, bind_map, show (mapConns f c).i = c.i from rfl,
    show (mapConns f c).j = c.j from rfl, show (mapConns f c).maxI = c.maxI from rfl, show (mapConns f c).maxJ = c.maxJ from rfl]
  rfl

variable {f} [Arith R] (hf : Factor f)
include hf

theorem accumulateConnWeights_map (g : CSR R) (v : List R) :
    CSR.accumulateConnWeights (mapCSR f g) (v.map f) = mapResult (mapCSR f) (CSR.accumulateConnWeights g v) := by
  unfold CSR.accumulateConnWeights
  rw [List.length_map, map_ite]
  congr 1
  simp only [Res.bind_eq, map_bind, show (mapCSR f g).ja = g.ja from rfl, show (mapCSR f g).elmIdx = g.elmIdx from rfl]
  rw [List.zip_map_right, forEach_list]
  have h := forEach_state (f := List.map f) (g := fun sa (e : Nat × R) => do let x ← rd sa e.1; wr sa e.1 (Arith.add x e.2))
    (g' := fun sa e => do let x ← rd sa e.1; wr sa e.1 (Arith.add x (f e.2)))
    (fun s x => by simp only [Res.bind_eq, rd_map, bind_map, hf.add, wr_map, map_bind]) (g.elmIdx.zip v)
    (List.replicate g.ja.length Arith.zero)
  rw [List.map_replicate, hf.zero] at h
  simp only [Res.bind_eq, Prod.map, id] at h ⊢
  rw [h, bind_map]
  rfl

theorem applyWeights_map (g : CSR R) (c : Connections R) :
    CSR.applyWeights (mapCSR f g) (mapConns f c) = mapResult (mapCSR f) (CSR.applyWeights g c) := by
  unfold CSR.applyWeights
  rw [map_ite, show (mapConns f c).isWeighted = c.isWeighted by simp [Connections.isWeighted, mapConns], ← accumulateConnWeights_map hf]
  rfl

omit hf [Arith R] in
theorem extendRows_map (g : CSR R) (n : Nat) : CSR.extendRows (mapCSR f g) n = mapResult (mapCSR f) (CSR.extendRows g n) := by
  unfold CSR.extendRows
  rw [map_ite]
  simp only [Res.bind_eq, map_bind]
  rfl

theorem createStep_map (g : CSR R) (c : Connections R) (n : Nat) :
    CSR.createStep (mapCSR f g) (mapConns f c) n = ((mapCSR f (CSR.createStep g c n).1), (CSR.createStep g c n).2) := by
  unfold CSR.createStep
  rw [show (mapConns f c).isEmpty = c.isEmpty from rfl, show (mapConns f c).maxI = c.maxI from rfl]
  split
  · rfl
  · simp only [assemble_map, bind_map, sort_map]
    rw [show ((CSR.assemble g c).bind fun a => mapResult (mapCSR f) a.sort).bind CSR.condenseDuplicates
      = mapResult (mapCSR f) (((CSR.assemble g c).bind CSR.sort).bind CSR.condenseDuplicates) by
        cases CSR.assemble g c <;> simp [condenseDuplicates_map]]
    cases ((CSR.assemble g c).bind CSR.sort).bind CSR.condenseDuplicates with
    | ok g1 =>
      simp only [map_ok, applyWeights_map hf]
      cases CSR.applyWeights g1 c with
      | ok g2 =>
        simp only [map_ok, extendRows_map]
        cases CSR.extendRows g2 n <;> rfl
      | throw e => rfl
      | ub u => rfl
      | diverge => rfl
    | throw e => rfl
    | ub u => rfl
    | diverge => rfl

theorem compressStep_map (g : AssembledConnections R) (n : Nat) :
    (mapGraph f g).compressStep n = (mapGraph f (g.compressStep n).1, (g.compressStep n).2) := by
  unfold AssembledConnections.compressStep
  rw [show (mapGraph f g).conns.isValid = g.conns.isValid by simp [Connections.isValid, mapGraph, mapConns]]
  split
  · rfl
  · rw [show (mapGraph f g).csr = mapCSR f g.csr from rfl, show (mapGraph f g).conns = mapConns f g.conns from rfl,
      createStep_map hf]
    rcases CSR.createStep g.csr g.conns n with ⟨c, r⟩
    cases r <;> rfl

omit hf [Arith R] in
theorem cellNeighbourhood_map (g : AssembledConnections R) (cell : Int) :
    (mapGraph f g).cellNeighbourhood cell = mapResult (List.map fun e => (e.1, f e.2)) (g.cellNeighbourhood cell) := by
  unfold AssembledConnections.cellNeighbourhood
  simp only [Res.bind_eq, map_bind, map_ite, show (mapGraph f g).startPointers = g.startPointers from rfl,
    show (mapGraph f g).neighbourhood = g.neighbourhood from rfl,
    show (mapGraph f g).connectionWeight = g.connectionWeight.map f from rfl, List.length_map, map_ub]
  congr 1; funext a; congr 1; funext b; congr 1; funext _
  congr 1
  show Res.ok _ = Res.ok _
  rw [List.zip_map_right, ← List.map_drop, ← List.map_take]
  rfl

end graphs

/-! ### The solver -/

section solver
variable [Arith R] {f : R → R}

def mapData (f : R → R) (d : SolverData R) : SolverData R where
  g := mapGraph f d.g
  gReverse := mapGraph f d.gReverse
  pv := d.pv.map f
  influx := d.influx.map f
  outflux := d.outflux.map f
  sourceTerm := d.sourceTerm.map f

/-- Times and concentrations stay, the local source is multiplied. -/
def mapState (f : R → R) (s : SolverState R) : SolverState R := { s with localSource := s.localSource.map f }

def mapValues (f : R → R) (v : CellSetValues R) : CellSetValues R := v.map fun e => (e.1, f e.2)

variable (hf : Factor f)
include hf

theorem expandSparse_map (n : Nat) (v : CellSetValues R) :
    expandSparse n (mapValues f v) = mapResult (List.map f) (expandSparse n v) := by
  unfold expandSparse mapValues
  rw [forEach_list]
  have h := forEach_state (f := List.map f) (g := fun r (d : Int × R) => wr r (sizeOfInt d.1) d.2)
    (g' := fun r d => wr r (sizeOfInt d.1) (f d.2)) (fun s x => wr_map f s _ _) v (List.replicate n Arith.zero)
  rwa [List.map_replicate, hf.zero] at h

theorem addFlux_map (cell : Nat) (s : List R × List R) (c : Int × R) :
    addFlux cell (Prod.map (List.map f) (List.map f) s) (c.1, f c.2)
      = mapResult (Prod.map (List.map f) (List.map f)) (addFlux cell s c) := by
  simp [addFlux, hf.add]

theorem inOutFlux_map (g : AssembledConnections R) :
    inOutFlux (mapGraph f g) = mapResult (Prod.map (List.map f) (List.map f)) (inOutFlux g) := by
  unfold inOutFlux
  rw [show (mapGraph f g).numRows = g.numRows from rfl]
  simp only
  split
  · rfl
  · have h := forEach_state (f := Prod.map (List.map f) (List.map f))
      (g := fun s (cell : Nat) => do let nb ← g.cellNeighbourhood cell; forEach nb s (addFlux cell))
      (g' := fun s (cell : Nat) => do let nb ← (mapGraph f g).cellNeighbourhood cell; forEach nb s (addFlux cell))
      (fun s x => by
        simp only [Res.bind_eq, cellNeighbourhood_map, bind_map, map_bind]
        congr 1; funext nb
        rw [forEach_list]
        exact forEach_state (fun s c => addFlux_map hf x s c) nb s)
      (List.range (narrowInt g.numRows).toNat)
      (List.replicate (narrowInt g.numRows).toNat Arith.zero, List.replicate (narrowInt g.numRows).toNat Arith.zero)
    rw [Prod.map_apply, List.map_replicate, hf.zero] at h
    exact h

theorem create_map (g g' : AssembledConnections R) (pv : List R) (source : CellSetValues R) :
    Solver.create (mapGraph f g) (mapGraph f g') (pv.map f) (mapValues f source)
      = mapResult (Prod.map (mapData f) (mapState f)) (Solver.create g g' pv source) := by
  unfold Solver.create
  simp only [Res.bind_eq, map_bind, inOutFlux_map hf, bind_map, List.length_map, expandSparse_map hf]
  congr 1; funext io; congr 1; funext src
  show Res.ok _ = Res.ok _
  simp [mapData, mapState, hf.zero]

theorem addUpwind_map (tof tracer : List R) (s : R × R) (c : Int × R) :
    addUpwind tof tracer (Prod.map f f s) (c.1, f c.2) = mapResult (Prod.map f f) (addUpwind tof tracer s c) := by
  simp [addUpwind, hf.add, hf.mul]

theorem cellSource_map (x : R) (b : Bool) : cellSource (f x) b = f (cellSource x b) := by
  unfold cellSource
  rw [hf.isZero]
  split
  · exact hf.inf.symm
  · rfl

theorem withLocalSource_map (b : Bool) (ls : List R) (i : Nat) (x : R) :
    withLocalSource b (ls.map f) i (f x) = mapResult f (withLocalSource b ls i x) := by
  unfold withLocalSource
  split <;> simp [hf.add]

theorem cellTracer_map (total contrib : R) : cellTracer (f total) (f contrib) = cellTracer total contrib := by
  unfold cellTracer
  rw [hf.isZero, hf.isZero, hf.div]

theorem cellTof_map (pv total c up : R) : cellTof (f pv) (f total) c (f up) = cellTof pv total c up := by
  unfold cellTof
  simp only [hf.mul', hf.add, hf.div, hf.div', hf.lt]

theorem solveSingleCell_map (d : SolverData R) (b : List Bool) (ls : List R) (s : List R × List R) (cell : Int) :
    solveSingleCell (mapData f d) b (ls.map f) s cell = solveSingleCell d b ls s cell := by
  unfold solveSingleCell
  have hup : ∀ nb : List (Int × R), forEach (nb.map fun e => (e.1, f e.2)) (Arith.zero, Arith.zero) (addUpwind s.1 s.2)
      = mapResult (Prod.map f f) (forEach nb (Arith.zero, Arith.zero) (addUpwind s.1 s.2)) := by
    intro nb
    rw [forEach_list]
    have h := forEach_state (f := Prod.map f f) (g := addUpwind s.1 s.2)
      (g' := fun t c => addUpwind s.1 s.2 t (c.1, f c.2)) (fun t c => addUpwind_map hf _ _ t c) nb (Arith.zero, Arith.zero)
    rwa [Prod.map_apply, hf.zero] at h
  simp only [Res.bind_eq, mapData, rd_map, bind_map, cellNeighbourhood_map, hup, cellSource_map hf, hf.add, hf.nonneg,
    Prod.map_fst, Prod.map_snd, withLocalSource_map hf, cellTracer_map hf, cellTof_map hf]

theorem gaussSeidel_map (d : SolverData R) (b : List Bool) (ls : List R) (cells : List Int) (fuel : Nat)
    (s : (List R × List R) × (R × R)) :
    gaussSeidel (mapData f d) b (ls.map f) cells fuel s = gaussSeidel d b ls cells fuel s := by
  have h : sweepCell (mapData f d) b (ls.map f) = sweepCell d b ls := by
    funext s c
    unfold sweepCell
    simp only [solveSingleCell_map hf]
  induction fuel generalizing s with
  | zero => unfold gaussSeidel; rfl
  | succ n ih => unfold gaussSeidel; simp only [h, ih]

theorem solve_map (d : SolverData R) (b : List Bool) (ls : List R) (seq : List Int) (cs : List Nat) (fuel : Nat)
    (s : List R × List R) : solve (mapData f d) b (ls.map f) seq cs fuel s = solve d b ls seq cs fuel s := by
  have h : solveComponent (mapData f d) b (ls.map f) seq cs fuel = solveComponent d b ls seq cs fuel := by
    funext s c
    unfold solveComponent solveMultiCell
    simp only [solveSingleCell_map hf, gaussSeidel_map hf]
  unfold solve
  rw [h]

theorem startFromSource_map (d : SolverData R) (b : List Bool) :
    setupStartArrayFromSource (mapData f d) b = setupStartArrayFromSource d b := by
  unfold setupStartArrayFromSource
  simp only [mapData, List.length_map, Res.bind_eq, rd_map, bind_map, hf.pos]

omit hf [Arith R] in
theorem startArray_map (b : List Bool) (v : CellSetValues R) : setupStartArray b (mapValues f v) = setupStartArray b v := by
  unfold setupStartArray mapValues
  rw [forEach_list]

theorem localSource_map (ls : List R) (v : CellSetValues R) :
    setupLocalSource (ls.map f) (mapValues f v) = Prod.map (List.map f) id (setupLocalSource ls v) := by
  induction v generalizing ls with
  | nil => rfl
  | cons p ps ih =>
    show setupLocalSource (ls.map f) ((p.1, f p.2) :: mapValues f ps) = _
    unfold setupLocalSource
    simp only [hf.negative, wr_map]
    split
    · rfl
    · cases wr ls (sizeOfInt p.1) p.2 <;> simp [ih]

theorem cleanup_map (ls : List R) (v : CellSetValues R) :
    cleanupLocalSource (ls.map f) (mapValues f v) = mapResult (List.map f) (cleanupLocalSource ls v) := by
  unfold cleanupLocalSource mapValues
  rw [forEach_list]
  refine forEach_state (fun s x => ?_) v ls
  have h := wr_map f s (sizeOfInt x.1) Arith.zero
  rwa [hf.zero] at h

theorem solveGlobal_map (d : SolverData R) (al : Alloc) (fuel : Nat) (s : SolverState R) :
    solveGlobal (mapData f d) al fuel (mapState f s) = Prod.map (mapState f) id (solveGlobal d al fuel s) := by
  unfold solveGlobal
  simp only [startFromSource_map hf, prepareForSolve, mapState, show (mapData f d).pv.length = d.pv.length from List.length_map _]
  cases setupStartArrayFromSource d (List.replicate d.pv.length false) with
  | ok b =>
    simp only [finish, show computeOrdering (mapData f d).g = computeOrdering d.g from rfl]
    cases computeOrdering d.g d.pv.length al fuel (s.sequence, s.componentStarts) with
    | ok o =>
      simp only [show (mapData f d).sourceTerm = d.sourceTerm.map f from rfl, solve_map hf]
      cases solve d b d.sourceTerm o.1 o.2 fuel (List.replicate d.pv.length Arith.zero, List.replicate d.pv.length Arith.zero) with
      | ok r => simp [mapState, hf.zero]
      | throw e => rfl
      | ub u => rfl
      | diverge => rfl
    | throw e => rfl
    | ub u => rfl
    | diverge => rfl
  | throw e => rfl
  | ub u => rfl
  | diverge => rfl

theorem solveLocal_map (d : SolverData R) (al : Alloc) (fuel : Nat) (v : CellSetValues R) (s : SolverState R) :
    solveLocal (mapData f d) al fuel (mapValues f v) (mapState f s) = Prod.map (mapState f) id (solveLocal d al fuel v s) := by
  unfold solveLocal
  simp only [prepareForSolve, mapState, show (mapData f d).pv.length = d.pv.length from List.length_map _, startArray_map,
    show ((mapValues f v).map fun p => p.1) = v.map fun p => p.1 by simp [mapValues]]
  cases setupStartArray (List.replicate d.pv.length false) v with
  | ok b =>
    simp only [finish, show computeLocalOrdering (mapData f d).g = computeLocalOrdering d.g from rfl]
    cases computeLocalOrdering d.g d.pv.length (v.map fun p => p.1) al fuel (s.sequence, s.componentStarts) with
    | ok o =>
      simp only [localSource_map hf, Prod.map_fst, Prod.map_snd, id]
      rcases setupLocalSource s.localSource v with ⟨ls, r⟩
      cases r with
      | ok u =>
        simp only [solve_map hf]
        cases solve d b ls o.1 o.2 fuel (List.replicate d.pv.length Arith.zero, List.replicate d.pv.length Arith.zero) with
        | ok r =>
          simp only [cleanup_map hf]
          cases cleanupLocalSource ls v with
          | ok ls' =>
            simp only [map_ok]
            cases collect r.1 r.2 o.1 o.2 <;> rfl
          | throw e => rfl
          | ub u => rfl
          | diverge => rfl
        | throw e => rfl
        | ub u => rfl
        | diverge => rfl
      | throw e => rfl
      | ub u => rfl
      | diverge => rfl
    | throw e => rfl
    | ub u => rfl
    | diverge => rfl
  | throw e => rfl
  | ub u => rfl
  | diverge => rfl

end solver

/-! ### The toolbox -/

section maps
variable {κ α β : Type} [LT κ] [DecidableLT κ] (f : α → β)

theorem find_map (m : OMap κ α) (k : κ) : OMap.find (m.map fun e => (e.1, f e.2)) k = (OMap.find m k).map f := by
  induction m with
  | nil => rfl
  | cons e m ih =>
    rw [List.map_cons]
    unfold OMap.find
    simp only
    split
    · rfl
    · exact ih

theorem assign_map (m : OMap κ α) (k : κ) (v : α) :
    OMap.assign (m.map fun e => (e.1, f e.2)) k (f v) = (OMap.assign m k v).map fun e => (e.1, f e.2) := by
  induction m with
  | nil => rfl
  | cons e m ih =>
    rw [List.map_cons]
    unfold OMap.assign
    simp only
    split
    · rfl
    · split
      · rw [ih]; rfl
      · rfl

theorem insert_map (m : OMap κ α) (k : κ) (v : α) :
    OMap.insert (m.map fun e => (e.1, f e.2)) k (f v) = (OMap.insert m k v).map fun e => (e.1, f e.2) := by
  unfold OMap.insert
  rw [find_map]
  cases OMap.find m k with
  | none => exact assign_map f m k v
  | some x => rfl

theorem at_map (m : OMap κ α) (k : κ) (x : α) :
    OMap.at_ (m.map fun e => (e.1, f e.2)) k (f x) = f (OMap.at_ m k x) := by
  unfold OMap.at_
  rw [find_map]
  cases OMap.find m k <;> rfl

theorem count_map (m : OMap κ α) (k : κ) : OMap.count (m.map fun e => (e.1, f e.2)) k = OMap.count m k := by
  unfold OMap.count
  rw [find_map]
  cases OMap.find m k <;> rfl

end maps

def mapInflow (f : R → R) (m : InflowFlux R) : InflowFlux R := m.map fun e => (e.1, mapValues f e.2)

def mapSplit (f : R → R) (s : Split R) : Split R := { only := mapValues f s.only, byId := mapInflow f s.byId }

def mapFlux (f : R → R) (v : ConnectionValues R) : ConnectionValues R := { v with data := v.data.map f }

def mapToolbox (f : R → R) (t : Toolbox R) : Toolbox R where
  g := t.g
  pvol := t.pvol.map f
  flux := mapFlux f t.flux
  injById := mapInflow f t.injById
  prodById := mapInflow f t.prodById
  onlyInflow := mapValues f t.onlyInflow
  onlyOutflow := mapValues f t.onlyOutflow
  downstream := mapGraph f t.downstream
  upstream := mapGraph f t.upstream
  connBuilt := t.connBuilt

section toolbox
variable [Arith R] {f : R → R} (hf : Factor f)
include hf

theorem put_map (s : Split R) (id : CellSetID) (cell : Int) (x : R) :
    (mapSplit f s).put id cell (f x) = mapSplit f (s.put id cell x) := by
  unfold Split.put mapSplit
  have h1 := at_map f s.only cell Arith.zero
  rw [hf.zero] at h1
  have h2 := at_map (mapValues f) s.byId id []
  congr 1
  · show OMap.assign (mapValues f s.only) cell (Arith.add (OMap.at_ (mapValues f s.only) cell Arith.zero) (f x)) = _
    unfold mapValues
    rw [h1, hf.add]
    exact assign_map f s.only cell _
  · show OMap.assign (mapInflow f s.byId) id (OMap.insert (OMap.at_ (mapInflow f s.byId) id []) cell (f x)) = _
    rw [show OMap.at_ (mapInflow f s.byId) id [] = mapValues f (OMap.at_ s.byId id []) from h2]
    rw [show OMap.insert (mapValues f (OMap.at_ s.byId id [])) cell (f x)
      = mapValues f (OMap.insert (OMap.at_ s.byId id []) cell x) from insert_map f _ cell x]
    exact assign_map (mapValues f) s.byId id _

theorem splitEntry_map (id : CellSetID) (s : Split R × Split R) (e : Int × R) :
    splitEntry id (Prod.map (mapSplit f) (mapSplit f) s) (e.1, f e.2) = Prod.map (mapSplit f) (mapSplit f) (splitEntry id s e) := by
  unfold splitEntry
  simp only [hf.pos, hf.negative, hf.neg, Prod.map_fst, Prod.map_snd, put_map hf]
  split
  · rfl
  · split <;> rfl

theorem splitInflow_map (m : InflowFlux R) :
    splitInflow (mapInflow f m) = Prod.map (mapSplit f) (mapSplit f) (splitInflow m) := by
  unfold splitInflow mapInflow
  rw [List.foldl_map]
  have h1 : ∀ (id : CellSetID) (l : CellSetValues R) (s : Split R × Split R),
      (mapValues f l).foldl (splitEntry id) (Prod.map (mapSplit f) (mapSplit f) s)
        = Prod.map (mapSplit f) (mapSplit f) (l.foldl (splitEntry id) s) := by
    intro id l
    induction l with
    | nil => intro s; rfl
    | cons e l ih =>
      intro s
      show (mapValues f l).foldl (splitEntry id) (splitEntry id _ (e.1, f e.2)) = _
      rw [splitEntry_map hf, ih]
      rfl
  have h2 : ∀ (m : InflowFlux R) (s : Split R × Split R),
      m.foldl (fun s set => (mapValues f set.2).foldl (splitEntry set.1) s) (Prod.map (mapSplit f) (mapSplit f) s)
        = Prod.map (mapSplit f) (mapSplit f) (m.foldl (fun s set => set.2.foldl (splitEntry set.1) s) s) := by
    intro m
    induction m with
    | nil => intro s; rfl
    | cons e m ih =>
      intro s
      rw [List.foldl_cons, List.foldl_cons, h1, ih]
  exact h2 m ({}, {})

theorem assignInflow_map (t : Toolbox R) (m : InflowFlux R) :
    (mapToolbox f t).assignInflowFlux (mapInflow f m) = mapToolbox f (t.assignInflowFlux m) := by
  unfold Toolbox.assignInflowFlux
  rw [splitInflow_map hf]
  rfl

theorem connectionFlux_map (v : ConnectionValues R) (c : Nat) :
    connectionFlux (mapFlux f v) c = mapResult f (connectionFlux v c) := by
  unfold connectionFlux
  have h := forEach_state (f := f) (g := fun sum phase => do let x ← v.get c phase; pure (Arith.add sum x))
    (g' := fun sum phase => do let x ← (mapFlux f v).get c phase; pure (Arith.add sum x))
    (fun s x => by
      have e : (mapFlux f v).get c x = mapResult f (v.get c x) := by
        unfold ConnectionValues.get
        rw [map_ite, map_throw]
        show (if c ≥ v.nconn ∨ x ≥ v.nphase then _ else rd (v.data.map f) (v.slot c x)) = _
        rw [rd_map]
      rw [e]
      simp only [Res.bind_eq, bind_map, map_bind]
      congr 1; funext y
      show Res.ok _ = Res.ok _
      rw [hf.add]) (List.range v.numPhases) Arith.zero
  rw [hf.zero] at h
  exact h

theorem addFluxOf_map (g : ConnectivityGraph) (v : ConnectionValues R) (s : AssembledConnections R × AssembledConnections R)
    (c : Nat) : addFluxOf g (mapFlux f v) (Prod.map (mapGraph f) (mapGraph f) s) c
      = mapResult (Prod.map (mapGraph f) (mapGraph f)) (addFluxOf g v s c) := by
  have ha : ∀ (a : AssembledConnections R) i j x, (mapGraph f a).addConnectionW i j (f x) = mapGraph f (a.addConnectionW i j x) := by
    intro a i j x
    simp [AssembledConnections.addConnectionW, Connections.addW, Connections.add, mapGraph, mapConns]
  unfold addFluxOf
  simp only [Res.bind_eq, map_bind, connectionFlux_map hf, bind_map, hf.pos, hf.negative, hf.neg, map_ite, Prod.map_fst,
    Prod.map_snd, ha]
  rfl

theorem addFluxes_map (g : ConnectivityGraph) (v : ConnectionValues R) (l : List Nat)
    (s : AssembledConnections R × AssembledConnections R) :
    addFluxes g (mapFlux f v) l (Prod.map (mapGraph f) (mapGraph f) s)
      = Prod.map (Prod.map (mapGraph f) (mapGraph f)) id (addFluxes g v l s) := by
  induction l generalizing s with
  | nil => rfl
  | cons c l ih =>
    unfold addFluxes
    rw [addFluxOf_map hf]
    cases addFluxOf g v s c with
    | ok a => exact ih a
    | throw e => rfl
    | ub u => rfl
    | diverge => rfl

theorem build_map (t : Toolbox R) :
    (mapToolbox f t).buildAssembledConnections = Prod.map (mapToolbox f) id t.buildAssembledConnections := by
  unfold Toolbox.buildAssembledConnections
  have h : addFluxes t.g (mapFlux f t.flux) (List.range t.g.numConnections) ({}, {})
      = Prod.map (Prod.map (mapGraph f) (mapGraph f)) id (addFluxes t.g t.flux (List.range t.g.numConnections) ({}, {})) :=
    addFluxes_map hf t.g t.flux (List.range t.g.numConnections) ({}, {})
  rw [show (mapToolbox f t).g = t.g from rfl, show (mapToolbox f t).flux = mapFlux f t.flux from rfl]
  rw [h]
  rcases addFluxes t.g t.flux (List.range t.g.numConnections) ({}, {}) with ⟨⟨d, u⟩, r⟩
  cases r with
  | ok _ =>
    simp only [finish, Prod.map_apply, id, compressStep_map hf]
    rcases d.compressStep (sizeOfInt (narrowInt t.g.numCells)) with ⟨d, r⟩
    cases r with
    | ok _ =>
      simp only
      rcases u.compressStep (sizeOfInt (narrowInt t.g.numCells)) with ⟨u, r⟩
      cases r <;> rfl
    | throw e => rfl
    | ub u => rfl
    | diverge => rfl
  | throw e => rfl
  | ub u => rfl
  | diverge => rfl

theorem ensureBuilt_map (t : Toolbox R) : (mapToolbox f t).ensureBuilt = Prod.map (mapToolbox f) id t.ensureBuilt := by
  unfold Toolbox.ensureBuilt
  rw [show (mapToolbox f t).connBuilt = t.connBuilt from rfl]
  split
  · rfl
  · exact build_map hf t

omit hf [Arith R] in
theorem checkStartSets_map (byId : InflowFlux R) (only : CellSetValues R) (starts : List CellSet) :
    checkStartSets (mapInflow f byId) (mapValues f only) starts = checkStartSets byId only starts := by
  unfold checkStartSets
  congr 1
  funext _ s
  rw [show (mapInflow f byId).find s.id = (byId.find s.id).map (mapValues f) from find_map _ _ _, Option.isNone_map]
  simp only [show ∀ c, (mapValues f only).count c = only.count c from fun c => count_map f only c]

theorem solveSets_map (d : SolverData R) (al : Nat → Alloc) (fuel : Nat) (byId : InflowFlux R) (starts : List CellSet) (k : Nat)
    (s : SolverState R) (sol : Solution R) :
    solveSets (mapData f d) al fuel (mapInflow f byId) starts k (mapState f s) sol = solveSets d al fuel byId starts k s sol := by
  induction starts generalizing k s sol with
  | nil => rfl
  | cons c starts ih =>
    unfold solveSets
    simp only
    rw [show (mapInflow f byId).at_ c.id [] = mapValues f (byId.at_ c.id []) from at_map (mapValues f) byId c.id [],
      solveLocal_map hf]
    simp only [Prod.map_fst, Prod.map_snd, id]
    congr 1; funext l
    exact ih _ _ _

theorem computeSolution_map (g g' : AssembledConnections R) (pv : List R) (only : CellSetValues R) (byId : InflowFlux R)
    (al : Nat → Alloc) (fuel : Nat) (starts : List CellSet) :
    computeSolution (mapGraph f g) (mapGraph f g') (pv.map f) (mapValues f only) (mapInflow f byId) al fuel starts
      = computeSolution g g' pv only byId al fuel starts := by
  unfold computeSolution
  simp only [Res.bind_eq, create_map hf, bind_map, Prod.map_fst, Prod.map_snd, solveGlobal_map hf, id, solveSets_map hf]

theorem injDiag_map (t : Toolbox R) (al : Nat → Alloc) (fuel : Nat) (starts : List CellSet) :
    (mapToolbox f t).injDiag al fuel starts = Prod.map (mapToolbox f) id (t.injDiag al fuel starts) := by
  unfold Toolbox.injDiag
  rw [show (mapToolbox f t).pvol.isEmpty = t.pvol.isEmpty by simp [mapToolbox],
    show (mapToolbox f t).flux.numConnections = t.flux.numConnections from rfl]
  split
  · rfl
  · rw [show (mapToolbox f t).injById = mapInflow f t.injById from rfl,
      show (mapToolbox f t).onlyInflow = mapValues f t.onlyInflow from rfl, checkStartSets_map]
    cases checkStartSets t.injById t.onlyInflow starts with
    | ok _ =>
      simp only [finish, ensureBuilt_map hf, Prod.map_fst, Prod.map_snd, id]
      rcases t.ensureBuilt with ⟨t, r⟩
      cases r with
      | ok _ => exact congrArg _ (computeSolution_map hf ..)
      | throw e => rfl
      | ub u => rfl
      | diverge => rfl
    | throw e => rfl
    | ub u => rfl
    | diverge => rfl

theorem prodDiag_map (t : Toolbox R) (al : Nat → Alloc) (fuel : Nat) (starts : List CellSet) :
    (mapToolbox f t).prodDiag al fuel starts = Prod.map (mapToolbox f) id (t.prodDiag al fuel starts) := by
  unfold Toolbox.prodDiag
  rw [show (mapToolbox f t).pvol.isEmpty = t.pvol.isEmpty by simp [mapToolbox],
    show (mapToolbox f t).flux.numConnections = t.flux.numConnections from rfl]
  split
  · rfl
  · rw [show (mapToolbox f t).prodById = mapInflow f t.prodById from rfl,
      show (mapToolbox f t).onlyOutflow = mapValues f t.onlyOutflow from rfl, checkStartSets_map]
    cases checkStartSets t.prodById t.onlyOutflow starts with
    | ok _ =>
      simp only [finish, ensureBuilt_map hf, Prod.map_fst, Prod.map_snd, id]
      rcases t.ensureBuilt with ⟨t, r⟩
      cases r with
      | ok _ => exact congrArg _ (computeSolution_map hf ..)
      | throw e => rfl
      | ub u => rfl
      | diverge => rfl
    | throw e => rfl
    | ub u => rfl
    | diverge => rfl

theorem step_map (t : Toolbox R) (c : Call R) : (mapToolbox f t).step (mapNumbers f c) = mapToolbox f (t.step c) := by
  cases c with
  | assignPoreVolume pv =>
    show ((mapToolbox f t).assignPoreVolume (pv.map f)).1 = mapToolbox f (t.assignPoreVolume pv).1
    unfold Toolbox.assignPoreVolume
    rw [List.length_map, show (mapToolbox f t).g = t.g from rfl]
    split <;> rfl
  | assignConnectionFlux v =>
    show ((mapToolbox f t).assignConnectionFlux (mapFlux f v)).1 = mapToolbox f (t.assignConnectionFlux v).1
    unfold Toolbox.assignConnectionFlux
    rw [show (mapFlux f v).numConnections = v.numConnections from rfl, show (mapToolbox f t).g = t.g from rfl]
    split <;> rfl
  | assignInflowFlux m => exact assignInflow_map hf t m
  | computeInjectionDiagnostics al fuel starts => exact congrArg Prod.fst (injDiag_map hf t al fuel starts)
  | computeProductionDiagnostics al fuel starts => exact congrArg Prod.fst (prodDiag_map hf t al fuel starts)

theorem toolboxAfter_map (g : ConnectivityGraph) (calls : List (Call R)) :
    toolboxAfter g (calls.map (mapNumbers f)) = mapToolbox f (toolboxAfter g calls) := by
  unfold toolboxAfter
  have h : ∀ (calls : List (Call R)) t,
      calls.foldl (fun t c => t.step (mapNumbers f c)) (mapToolbox f t) = mapToolbox f (calls.foldl Toolbox.step t) := by
    intro calls
    induction calls with
    | nil => intro t; rfl
    | cons c calls ih => intro t; rw [List.foldl_cons, List.foldl_cons, step_map hf, ih]
  rw [List.foldl_map]
  refine Eq.trans ?_ (h calls (Toolbox.create g))
  congr 1

end toolbox
end Verif.Units
