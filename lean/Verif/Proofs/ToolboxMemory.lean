/-
A diagnostics call on a machine that may run out of memory for containers: it ends as it does on the
heap alone, or it runs out and leaves the blocks of the heap as they were.
-/
import Verif.Model.ToolboxMemory
import Verif.Model.Shortage
import Verif.Proofs.HeapToolbox

namespace Verif.Memory
open Verif.Heap Verif.Solver Verif.Toolbox

variable {α β : Type}

theorem bind_eq (m : M α) (f : α → M β) : (m >>= f) = M.bind m f := rfl
theorem pure_eq (a : α) : (pure a : M α) = M.pure a := rfl

/-- The call `m` on `s` ends as `old` does on the heap of `s`, or it runs out of memory and leaves the
    blocks alone. -/
def Agrees (m : M α) (old : H α) (s : Machine) : Prop :=
  (∃ k, m s = (old s.heap).map fun p => (⟨p.1, s.room, k⟩, .ended p.2)) ∨
  ((∃ j, s.room j = false) ∧ ∃ h' k, m s = some (⟨h', s.room, k⟩, .ranOut) ∧ Step s.heap h' ∧ h'.block = s.heap.block)

/-- A call that leaves the blocks alone when it returns. -/
def Clean (old : H α) (h : Heap) : Prop :=
  ∀ h' a, old h = some (h', .ok a) → Step h h' ∧ h'.block = h.block

theorem clean_lift (r : Res α) (h : Heap) : Clean (lift r) h := by
  intro h' a e
  simp only [lift, Option.some.injEq, Prod.mk.injEq] at e
  obtain ⟨rfl, _⟩ := e
  exact ⟨.refl h, rfl⟩

theorem clean_pure (a : α) (h : Heap) : Clean (H.pure a) h := clean_lift (.ok a) h

theorem clean_ends {m : H α} {h : Heap} {r : Res α}
    (e : Ends h (m h) r [] (fun a x _ G => a = x ∧ G = []) Gone) : Clean m h := by
  intro h' a e'
  cases r with
  | ok x =>
    obtain ⟨h1, b, G, e1, st, ⟨rfl, rfl⟩, ch⟩ := e
    rw [e1] at e'; cases e'
    exact ⟨st, ch.eq⟩
  | throw x => obtain ⟨_, _, e1, _⟩ := e; rw [e1] at e'; cases e'
  | ub x => obtain ⟨_, e1⟩ := e; rw [e1] at e'; cases e'
  | diverge => obtain ⟨_, e1⟩ := e; rw [e1] at e'; cases e'

theorem Agrees.of (old : H α) (s : Machine) : Agrees (ofH old) old s := by
  refine .inl ⟨s.asked, ?_⟩
  unfold ofH
  cases old s.heap <;> rfl

theorem Agrees.pure (a : α) (s : Machine) : Agrees (M.pure a) (H.pure a) s := .inl ⟨s.asked, rfl⟩

theorem Agrees.bind {m : M α} {old : H α} {k : α → M β} {kold : α → H β} {s : Machine}
    (a : Agrees m old s) (c : Clean old s.heap)
    (b : ∀ x s', s'.room = s.room → Step s.heap s'.heap → Agrees (k x) (kold x) s') :
    Agrees (M.bind m k) (H.bind old kold) s := by
  rcases a with ⟨j, e⟩ | ⟨hj, h', j, e, st, hb⟩
  · cases ho : old s.heap with
    | none =>
      rw [ho] at e
      refine .inl ⟨j, ?_⟩
      simp only [M.bind, e, H.bind, ho, Option.map]
    | some p =>
      obtain ⟨h', r⟩ := p
      rw [ho] at e
      cases r with
      | ok x =>
        obtain ⟨st, hb⟩ := c h' x ho
        rcases b x ⟨h', s.room, j⟩ rfl st with ⟨j', e'⟩ | ⟨hj, h'', j', e', st', hb'⟩
        · refine .inl ⟨j', ?_⟩
          simp only [M.bind, e, H.bind, ho, Option.map]
          exact e'
        · refine .inr ⟨hj, h'', j', ?_, st.trans st', hb'.trans hb⟩
          simp only [M.bind, e, Option.map]
          exact e'
      | throw x => exact .inl ⟨j, by simp only [M.bind, e, H.bind, ho, Option.map]⟩
      | ub x => exact .inl ⟨j, by simp only [M.bind, e, H.bind, ho, Option.map]⟩
      | diverge => exact .inl ⟨j, by simp only [M.bind, e, H.bind, ho, Option.map]⟩
  · refine .inr ⟨hj, h', j, ?_, st, hb⟩
    simp only [M.bind, e]

/-- The request that precedes `k`. -/
theorem Agrees.ask {k : Unit → M β} {old : H β} {s : Machine}
    (b : ∀ s', s'.room = s.room → s'.heap = s.heap → Agrees (k ()) old s') : Agrees (M.bind ask k) old s := by
  cases hr : s.room s.asked with
  | true =>
    have e : M.bind Memory.ask k s = k () ⟨s.heap, s.room, s.asked + 1⟩ := by
      simp only [M.bind, Memory.ask, hr, if_true]
    rcases b ⟨s.heap, s.room, s.asked + 1⟩ rfl rfl with ⟨j, e'⟩ | ⟨hj, h', j, e', st, hb⟩
    · exact .inl ⟨j, e.trans e'⟩
    · exact .inr ⟨hj, h', j, e.trans e', st, hb⟩
  | false =>
    refine .inr ⟨⟨_, hr⟩, s.heap, s.asked + 1, ?_, .refl _, rfl⟩
    simp [M.bind, Memory.ask, hr]

/-- The end of both orderings: reverse the result, make room for it, copy it, destroy it. -/
theorem extract_agrees {s : Machine} (hv : s.heap.Valid) {p : Ptr} {X : Option Tarjan.SCCResult} {F : List Nat}
    (w : SccPtr s.heap.block p X F) (m : H β) :
    (∃ k, withUnique destroySccResult p (M.bind (ofH (reverseOrThrow p)) fun _ => M.bind ask fun _ => M.bind ask fun _ =>
        ofH m) s = ((Heap.withUnique destroySccResult p (H.bind (reverseOrThrow p) fun _ => m)) s.heap).map
          fun p => (⟨p.1, s.room, k⟩, .ended p.2)) ∨
    ((∃ j, s.room j = false) ∧ ∃ h' k,
      withUnique destroySccResult p (M.bind (ofH (reverseOrThrow p)) fun _ => M.bind ask fun _ => M.bind ask fun _ =>
        ofH m) s = some (⟨h', s.room, k⟩, .ranOut) ∧ Step s.heap h' ∧ Change s.heap.block h'.block F []) := by
  obtain ⟨al, nf, e⟩ := reverseOrThrow_spec hv w
  -- what the scope does when it is left in some way other than by running out
  have scope : ∀ (body : M β) (bodyH : H β) (h' : Heap) (r : Res β) (j : Nat),
      body s = some (⟨h', s.room, j⟩, .ended r) → bodyH s.heap = some (h', r) →
      ∃ k, withUnique destroySccResult p body s = ((Heap.withUnique destroySccResult p
        bodyH) s.heap).map fun p => (⟨p.1, s.room, k⟩, .ended p.2) := by
    intro body bodyH h' r j e1 e2
    refine ⟨j, ?_⟩
    cases p with
    | none => cases r <;> simp [withUnique, Heap.withUnique, e1, e2]
    | some p =>
      cases r with
      | ub u => simp [withUnique, Heap.withUnique, e1, e2]
      | diverge => simp [withUnique, Heap.withUnique, e1, e2]
      | ok a =>
        simp only [withUnique, Heap.withUnique, e1, e2, Option.isSome_some, if_true, M.bind, ofH, H.bind]
        cases destroySccResult (some p) h' with
        | none => rfl
        | some q => obtain ⟨h2, r2⟩ := q; cases r2 <;> rfl
      | throw a =>
        simp only [withUnique, Heap.withUnique, e1, e2, Option.isSome_some, if_true, M.bind, ofH, H.bind]
        cases destroySccResult (some p) h' with
        | none => rfl
        | some q => obtain ⟨h2, r2⟩ := q; cases r2 <;> rfl
  have none' : ∀ (body : M β) (bodyH : H β), body s = none → bodyH s.heap = none →
      withUnique destroySccResult p body s = ((Heap.withUnique destroySccResult p
        bodyH) s.heap).map fun p => (⟨p.1, s.room, 0⟩, .ended p.2) := by
    intro body bodyH e1 e2
    simp [withUnique, Heap.withUnique, e1, e2]
  cases hr : Solver.reverseOrThrow al X with
  | throw x =>
    rw [hr] at e
    obtain ⟨h', G, e1, st, q, ch⟩ := e
    exact .inl (scope _ _ h' (.throw x) s.asked (by simp [M.bind, ofH, e1]) (bind_throw e1))
  | ub x =>
    rw [hr] at e
    obtain ⟨h', e1⟩ := e
    exact .inl (scope _ _ h' (.ub x) s.asked (by simp [M.bind, ofH, e1]) (bind_ub e1))
  | diverge =>
    rw [hr] at e
    obtain ⟨h', e1⟩ := e
    exact .inl (scope _ _ h' .diverge s.asked (by simp [M.bind, ofH, e1]) (bind_diverge e1))
  | ok x =>
    rw [hr] at e
    obtain ⟨h', a, G, e1, st, q, ch⟩ := e
    -- running out while the result is held
    have out : ∀ (body : M β) (j : Nat), body s = some (⟨h', s.room, j⟩, .ranOut) → ∃ h2,
        withUnique destroySccResult p body s = some (⟨h2, s.room, j⟩, .ranOut) ∧ Step s.heap h2 ∧
          Change s.heap.block h2.block F [] := by
      intro body j e3
      obtain ⟨h2, e2, st2, ch2⟩ := destroy_holds h' G ⟨_, q⟩
      cases p with
      | none => cases q
      | some p =>
        refine ⟨h2, ?_, st.trans st2, ch.trans ch2⟩
        simp [withUnique, e3, M.bind, ofH, e2]
    cases r1 : s.room s.asked with
    | false =>
      refine .inr ⟨⟨_, r1⟩, ?_⟩
      obtain ⟨h2, k⟩ := out (M.bind (ofH (reverseOrThrow p)) fun _ => M.bind ask fun _ => M.bind ask fun _ => ofH m)
        (s.asked + 1) (by simp [M.bind, ofH, e1, ask, r1])
      exact ⟨h2, _, k⟩
    | true =>
      cases r2 : s.room (s.asked + 1) with
      | false =>
        refine .inr ⟨⟨_, r2⟩, ?_⟩
        obtain ⟨h2, k⟩ := out (M.bind (ofH (reverseOrThrow p)) fun _ => M.bind ask fun _ => M.bind ask fun _ => ofH m)
          (s.asked + 1 + 1) (by simp [M.bind, ofH, e1, ask, r1, r2])
        exact ⟨h2, _, k⟩
      | true =>
        left
        cases hm : m h' with
        | none =>
          exact ⟨0, none' _ _ (by simp [M.bind, ofH, e1, ask, r1, r2, hm]) (by rw [bind_ok e1, hm])⟩
        | some y =>
          obtain ⟨h3, r⟩ := y
          refine scope _ _ h3 r (s.asked + 1 + 1) ?_ (by rw [bind_ok e1, hm])
          simp [M.bind, ofH, e1, ask, r1, r2, hm]

variable {R : Type}

theorem computeOrdering_agrees (g : AssembledConnections R) (n fuel : Nat) (o : List Int × List Nat) {s : Machine}
    (hv : s.heap.Valid) : Agrees (computeOrdering g n fuel o) (Heap.computeOrdering g n fuel o) s := by
  unfold computeOrdering Heap.computeOrdering
  simp only [bind_eq, Heap.bind_eq]
  refine Agrees.bind (.of _ s) (clean_lift _ _) fun _ s' hr st => ?_
  replace hv := st.valid hv
  obtain ⟨ws, st', al, nf, e⟩ := tarjan_spec n g.startPointers g.neighbourhood fuel hv
  cases hx : Tarjan.tarjan ws st' al n g.startPointers g.neighbourhood fuel with
  | throw x => rw [hx] at e; obtain ⟨_, _, _, _, f, _⟩ := e; exact f.elim
  | ub u =>
    rw [hx] at e; obtain ⟨h', e⟩ := e
    refine .inl ⟨s'.asked, ?_⟩
    rw [bind_ub e]; simp [M.bind, ofH, e]
  | diverge =>
    rw [hx] at e; obtain ⟨h', e⟩ := e
    refine .inl ⟨s'.asked, ?_⟩
    rw [bind_diverge e]; simp [M.bind, ofH, e]
  | ok X =>
    rw [hx] at e
    obtain ⟨h', p, G, e1, st1, s1, ch1⟩ := e
    have := extract_agrees (s := ⟨h', s'.room, s'.asked⟩) (st1.valid hv) s1 (do
      let scc ← loadScc p
      let s ← lift (extractOrdering scc n o)
      let last ← lift (back s.2)
      lift (assertThat (last == n))
      pure s)
    rcases this with ⟨k, e2⟩ | ⟨hj, h2, k, e2, st2, ch2⟩
    · refine .inl ⟨k, ?_⟩
      rw [bind_ok e1]
      simp only [Heap.bind_eq] at e2
      rw [← e2]
      simp only [M.bind, ofH, e1]
    · refine .inr ⟨hj, h2, k, ?_, st1.trans st2, (ch1.trans ch2).eq⟩
      simp only [Heap.bind_eq] at e2
      rw [← e2]
      simp only [M.bind, ofH, e1]

theorem computeLocalOrdering_agrees (g : AssembledConnections R) (n : Nat) (cells : List Int) (fuel : Nat)
    (o : List Int × List Nat) {s : Machine} (hv : s.heap.Valid) :
    Agrees (computeLocalOrdering g n cells fuel o) (Heap.computeLocalOrdering g n cells fuel o) s := by
  unfold computeLocalOrdering Heap.computeLocalOrdering
  simp only [bind_eq, Heap.bind_eq]
  refine Agrees.ask fun s0 hr0 hs0 => ?_
  replace hv : s0.heap.Valid := by rw [hs0]; exact hv
  refine Agrees.bind (.of _ s0) (clean_lift _ _) fun _ s' hr st => ?_
  replace hv := st.valid hv
  obtain ⟨h1, q, ws, st', F, ew, st1, nf1, w1, ch1⟩ := createWorkspace_spec n hv
  obtain ⟨al, nf, e⟩ := workspaceScope_spec n g.startPointers g.neighbourhood cells fuel (st1.valid hv) w1
  cases hx : Tarjan.reachableSccs al n g.startPointers g.neighbourhood cells (Tarjan.createWorkspace ws st' n) fuel with
  | throw x => rw [hx] at e; obtain ⟨_, _, _, _, f, _⟩ := e; exact f.elim
  | ub u =>
    rw [hx] at e; obtain ⟨h', e⟩ := e
    refine .inl ⟨s'.asked, ?_⟩
    rw [bind_ok ew, bind_ub e]; simp [M.bind, ofH, ew, e]
  | diverge =>
    rw [hx] at e; obtain ⟨h', e⟩ := e
    refine .inl ⟨s'.asked, ?_⟩
    rw [bind_ok ew, bind_diverge e]; simp [M.bind, ofH, ew, e]
  | ok X =>
    rw [hx] at e
    obtain ⟨h', p, G, e1, st2, s1, ch2⟩ := e
    have := extract_agrees (s := ⟨h', s'.room, s'.asked⟩) (st2.valid (st1.valid hv)) s1 (do
      let scc ← loadScc p
      let s ← lift (extractOrdering scc n o)
      let last ← lift (back s.2)
      pure (resize s.1 last 0, s.2))
    simp only [Heap.bind_eq] at this
    rcases this with ⟨k, e2⟩ | ⟨hj, h2, k, e2, st3, ch3⟩
    · refine .inl ⟨k, ?_⟩
      rw [bind_ok ew, bind_ok e1, ← e2]
      simp only [M.bind, ofH, ew, e1]
    · refine .inr ⟨hj, h2, k, ?_, (st1.trans st2).trans st3, ((ch1.trans ch2).trans ch3).eq⟩
      rw [← e2]
      simp only [M.bind, ofH, ew, e1]

/-- A call of the solver whose state is dropped when it ends exceptionally. -/
def drop {S : Type} (f : Heap → Option (Heap × S × Res α)) : H (S × α) := fun h =>
  match f h with
  | none => none
  | some (h', s, .ok a) => some (h', .ok (s, a))
  | some (h', _, .throw e) => some (h', .throw e)
  | some (h', _, .ub u) => some (h', .ub u)
  | some (h', _, .diverge) => some (h', .diverge)

theorem drop_finish {S γ : Type} (s : S) (m : H γ) (k : γ → Heap → Option (Heap × S × Res α)) :
    drop (Heap.finish s m k) = H.bind m fun a => drop (k a) := by
  funext h
  unfold drop Heap.finish H.bind
  cases m h with
  | none => rfl
  | some p => obtain ⟨h', r⟩ := p; cases r <;> rfl

theorem clean_drop {S : Type} {f : Heap → Option (Heap × S × Res α)} {h : Heap} {r : S × Res α}
    (e : SolverEnds h (f h) r) : Clean (drop f) h := by
  obtain ⟨h1, e1, c⟩ := e
  obtain ⟨s, r⟩ := r
  intro h' a e'
  simp only [drop, e1] at e'
  cases r with
  | ok x => cases e'; exact c (.inl ⟨_, rfl⟩)
  | throw x => cases e'
  | ub x => cases e'
  | diverge => cases e'

variable [Arith R]

theorem askPrepare_agrees {k : Unit → M β} {old : H β} {s : Machine}
    (b : ∀ s', s'.room = s.room → s'.heap = s.heap → Agrees (k ()) old s') : Agrees (M.bind askPrepare k) old s := by
  have e : M.bind askPrepare k = M.bind ask fun _ => M.bind ask fun _ => M.bind ask k := by
    unfold askPrepare
    simp only [bind_eq]
    funext s
    simp only [M.bind, ask]
    split <;> rename_i h1 <;> revert h1 <;> repeat' split
    all_goals simp_all
  rw [e]
  refine Agrees.ask fun s1 r1 e1 => Agrees.ask fun s2 r2 e2 => Agrees.ask fun s3 r3 e3 => ?_
  exact b s3 (r3.trans (r2.trans r1)) (e3.trans (e2.trans e1))

theorem solveGlobal_agrees (d : SolverData R) (fuel : Nat) (o : SolverState R) {s : Machine} (hv : s.heap.Valid) :
    Agrees (solveGlobal d fuel o) (drop (Heap.solveGlobal d fuel o)) s := by
  unfold solveGlobal Heap.solveGlobal
  simp only [bind_eq, pure_eq, drop_finish]
  refine askPrepare_agrees fun s1 r1 e1 => ?_
  replace hv : s1.heap.Valid := by rw [e1]; exact hv
  refine Agrees.bind (.of _ _) (clean_lift _ _) fun isStart s2 r2 st2 => ?_
  replace hv := st2.valid hv
  obtain ⟨al, nf, e⟩ := computeOrdering_spec d.g d.pv.length fuel
    ((prepareForSolve d o).sequence, (prepareForSolve d o).componentStarts) hv
  refine Agrees.bind (computeOrdering_agrees _ _ _ _ hv) (clean_ends e) fun q s3 r3 st3 => ?_
  refine Agrees.bind (.of _ _) (clean_lift _ _) fun f s4 r4 st4 => ?_
  refine Agrees.ask fun s5 r5 e5 => ?_
  exact Agrees.pure _ _

theorem solveLocal_agrees (d : SolverData R) (fuel : Nat) (startset : CellSetValues R) (o : SolverState R) {s : Machine}
    (hv : s.heap.Valid) : Agrees (solveLocal d fuel startset o) (drop (Heap.solveLocal d fuel startset o)) s := by
  unfold solveLocal Heap.solveLocal
  simp only [bind_eq, pure_eq, drop_finish]
  refine askPrepare_agrees fun s1 r1 e1 => ?_
  replace hv : s1.heap.Valid := by rw [e1]; exact hv
  refine Agrees.bind (.of _ _) (clean_lift _ _) fun isStart s2 r2 st2 => ?_
  replace hv := st2.valid hv
  obtain ⟨al, nf, e⟩ := computeLocalOrdering_spec d.g d.pv.length (startset.map fun p => p.1) fuel
    ((prepareForSolve d o).sequence, (prepareForSolve d o).componentStarts) hv
  refine Agrees.bind (computeLocalOrdering_agrees _ _ _ _ _ hv) (clean_ends e) fun q s3 r3 st3 => ?_
  refine Agrees.bind (.of _ _) (clean_lift _ _) fun _ s4 r4 st4 => ?_
  refine Agrees.bind (.of _ _) (clean_lift _ _) fun f s5 r5 st5 => ?_
  refine Agrees.bind (.of _ _) (clean_lift _ _) fun ls s6 r6 st6 => ?_
  refine Agrees.ask fun s7 r7 e7 => ?_
  refine Agrees.bind (.of _ _) (clean_lift _ _) fun r s8 r8 st8 => ?_
  exact Agrees.pure _ _

theorem solveSets_agrees (d : SolverData R) (fuel : Nat) (byId : InflowFlux R) :
    ∀ (sets : List CellSet) (o : SolverState R) (sol : Solution R) {s : Machine}, s.heap.Valid →
      Agrees (solveSets d fuel byId sets o sol) (Heap.solveSets d fuel byId sets o sol) s
  | [], _, sol, s, _ => Agrees.pure sol s
  | start :: rest, o, sol, s, hv => by
    have e : Heap.solveSets d fuel byId (start :: rest) o sol =
        H.bind (drop (Heap.solveLocal d fuel (byId.at_ start.id []) o)) fun p => Heap.solveSets d fuel byId rest p.1
          ((sol.assignTimeOfFlight start.id p.2.tof).assignConcentration start.id p.2.concentration) := by
      funext h
      simp only [Heap.solveSets, H.bind, drop]
      cases Heap.solveLocal d fuel (byId.at_ start.id []) o h with
      | none => rfl
      | some p => obtain ⟨h', s', r⟩ := p; cases r <;> rfl
    rw [e]
    obtain ⟨al, _, c⟩ := solveLocal_spec d fuel (byId.at_ start.id []) o hv
    simp only [solveSets, bind_eq]
    refine Agrees.bind (solveLocal_agrees _ _ _ _ hv) (clean_drop c) fun p s1 r1 st1 => ?_
    refine Agrees.ask fun s2 r2 e2 => Agrees.ask fun s3 r3 e3 => ?_
    exact solveSets_agrees d fuel byId rest _ _ (by rw [e3, e2]; exact st1.valid hv)

theorem computeSolution_agrees (g gReverse : AssembledConnections R) (pvol : List R) (only : CellSetValues R)
    (byId : InflowFlux R) (fuel : Nat) (sets : List CellSet) {s : Machine} (hv : s.heap.Valid) :
    Agrees (computeSolution g gReverse pvol only byId fuel sets) (Heap.computeSolution g gReverse pvol only byId fuel sets) s := by
  have e : Heap.computeSolution g gReverse pvol only byId fuel sets =
      H.bind (lift (Solver.create g gReverse pvol only)) fun solver =>
      H.bind (drop (Heap.solveGlobal solver.1 fuel solver.2)) fun p =>
      H.bind (Heap.solveSets solver.1 fuel byId sets p.1 ((({} : Solution R)).assignToF p.2)) H.pure := by
    unfold Heap.computeSolution
    simp only [Heap.bind_eq]
    congr 1
    funext solver h
    simp only [H.bind, drop]
    cases Heap.solveGlobal solver.1 fuel solver.2 h with
    | none => rfl
    | some p =>
      obtain ⟨h', s', r⟩ := p
      cases r with
      | ok tof =>
        simp only
        cases Heap.solveSets solver.1 fuel byId sets s' ((({} : Solution R)).assignToF tof) h' with
        | none => rfl
        | some p => obtain ⟨h2, r2⟩ := p; cases r2 <;> rfl
      | _ => rfl
  rw [e]
  unfold computeSolution
  simp only [bind_eq, pure_eq]
  refine Agrees.ask fun s1 r1 e1 => Agrees.ask fun s2 r2 e2 => Agrees.ask fun s3 r3 e3 => ?_
  replace hv : s3.heap.Valid := by rw [e3, e2, e1]; exact hv
  refine Agrees.bind (.of _ _) (clean_lift _ _) fun solver s4 r4 st4 => ?_
  replace hv := st4.valid hv
  obtain ⟨al, _, c⟩ := solveGlobal_spec solver.1 fuel solver.2 hv
  refine Agrees.bind (solveGlobal_agrees _ _ _ hv) (clean_drop c) fun p s5 r5 st5 => ?_
  replace hv := st5.valid hv
  obtain ⟨al, _, c⟩ := solveSets_spec solver.1 fuel byId sets 1 p.1 ((({} : Solution R)).assignToF p.2) hv
  refine Agrees.bind (solveSets_agrees _ _ _ _ _ _ hv) (clean_ends c) fun sol s6 r6 st6 => ?_
  exact Agrees.ask fun s7 r7 e7 => Agrees.pure _ _

/-- How a diagnostics call on an object ends: as on the heap alone, or out of memory in a state for which `Q`
    holds and with the blocks as they were. -/
def CallAgrees (m : Option (Machine × Toolbox R × Out β)) (old : Option (Heap × Toolbox R × Res β)) (s : Machine)
    (Q : Toolbox R → Prop) : Prop :=
  (∃ k, m = old.map fun p => (⟨p.1, s.room, k⟩, p.2.1, .ended p.2.2)) ∨
  ((∃ j, s.room j = false) ∧ ∃ h' k t', m = some (⟨h', s.room, k⟩, t', .ranOut) ∧ Step s.heap h' ∧
    h'.block = s.heap.block ∧ Q t')

omit [Arith R] in
theorem finish_agrees {m : M α} {old : H α} {t : Toolbox R} {k : α → Machine → Option (Machine × Toolbox R × Out β)}
    {kold : α → Heap → Option (Heap × Toolbox R × Res β)} {s : Machine} {Q : Toolbox R → Prop}
    (a : Agrees m old s) (c : Clean old s.heap) (hq : (∃ j, s.room j = false) → Q t)
    (b : ∀ x s', old s.heap = some (s'.heap, .ok x) → s'.room = s.room → CallAgrees (k x s') (kold x s'.heap) s' Q) :
    CallAgrees (finish t m k s) (Heap.finish t old kold s.heap) s Q := by
  rcases a with ⟨j, e⟩ | ⟨hj, h', j, e, st, hb⟩
  · cases ho : old s.heap with
    | none => rw [ho] at e; exact .inl ⟨0, by simp [finish, Heap.finish, e, ho]⟩
    | some p =>
      obtain ⟨h', r⟩ := p
      rw [ho] at e
      cases r with
      | ok x =>
        obtain ⟨st, hb⟩ := c h' x ho
        rcases b x ⟨h', s.room, j⟩ ho rfl with ⟨j', e'⟩ | ⟨hj, h'', j', t', e', st', hb', q⟩
        · refine .inl ⟨j', ?_⟩
          simp only [finish, Heap.finish, e, ho, Option.map]
          exact e'
        · refine .inr ⟨hj, h'', j', t', ?_, st.trans st', hb'.trans hb, q⟩
          simp only [finish, e, Option.map]
          exact e'
      | throw x => exact .inl ⟨j, by simp [finish, Heap.finish, e, ho]⟩
      | ub x => exact .inl ⟨j, by simp [finish, Heap.finish, e, ho]⟩
      | diverge => exact .inl ⟨j, by simp [finish, Heap.finish, e, ho]⟩
  · exact .inr ⟨hj, h', j, t, by simp [finish, e], st, hb, hq hj⟩

omit [Arith R] in
theorem finish_lift_agrees {r : Res α} {t : Toolbox R} {k : α → Machine → Option (Machine × Toolbox R × Out β)}
    {kold : α → Heap → Option (Heap × Toolbox R × Res β)} {s : Machine} {Q : Toolbox R → Prop}
    (b : ∀ x, r = .ok x → CallAgrees (k x s) (kold x s.heap) s Q) :
    CallAgrees (finish t (ofH (lift r)) k s) (Heap.finish t (lift r) kold s.heap) s Q := by
  cases r with
  | ok x => exact b x rfl
  | throw x => exact .inl ⟨s.asked, rfl⟩
  | ub x => exact .inl ⟨s.asked, rfl⟩
  | diverge => exact .inl ⟨s.asked, rfl⟩

omit [Arith R] in
theorem askBuild_agrees {t : Toolbox R} {left : AssembledConnections R × AssembledConnections R}
    {k : Machine → Option (Machine × Toolbox R × Out β)} {old : Option (Heap × Toolbox R × Res β)} {s : Machine}
    {Q : Toolbox R → Prop}
    (hq : t.connBuilt = false → Q { t with downstream := left.1, upstream := left.2 })
    (b : ∀ s' : Machine, s'.room = s.room → s'.heap = s.heap → CallAgrees (k s') old s' Q) :
    CallAgrees (askBuild t left k s) old s Q := by
  unfold askBuild
  by_cases hb : t.connBuilt = true
  · rw [if_pos hb]; exact b s rfl rfl
  · rw [if_neg hb]
    cases hr : s.room s.asked with
    | false =>
      refine .inr ⟨⟨_, hr⟩, s.heap, s.asked + 1, _, ?_, .refl _, rfl, hq (Bool.eq_false_iff.2 hb)⟩
      simp [finish, ask, hr]
    | true =>
      have e : finish { t with downstream := left.1, upstream := left.2 } ask (fun _ => k) s =
          k ⟨s.heap, s.room, s.asked + 1⟩ := by simp [finish, ask, hr]
      rw [e]
      exact b ⟨s.heap, s.room, s.asked + 1⟩ rfl rfl

theorem injDiag_agrees (t : Toolbox R) (left : AssembledConnections R × AssembledConnections R) (fuel : Nat)
    (sets : List CellSet) {s : Machine} (hv : s.heap.Valid) :
    CallAgrees (injDiag t left fuel sets s) (Heap.injDiag t fuel sets s.heap) s
      fun t' => ∀ al, RunsOut t (.computeInjectionDiagnostics al fuel sets) t' := by
  unfold injDiag Heap.injDiag
  cases hg : (t.pvol.isEmpty || t.flux.numConnections == 0) with
  | true => exact .inl ⟨s.asked, rfl⟩
  | false =>
    simp only [Bool.false_eq_true, if_false]
    refine finish_lift_agrees fun _ hc => ?_
    refine askBuild_agrees (fun hb al => .buildInj al fuel sets ⟨hg, hc⟩ hb _ _) fun s1 r1 e1 => ?_
    rw [← e1] at hv
    rw [← e1]
    refine finish_lift_agrees fun _ hb => ?_
    obtain ⟨al, _, c⟩ := computeSolution_spec t.ensureBuilt.1.downstream t.ensureBuilt.1.upstream
      t.ensureBuilt.1.pvol t.ensureBuilt.1.onlyInflow t.ensureBuilt.1.injById fuel sets hv
    refine finish_agrees (computeSolution_agrees _ _ _ _ _ _ _ hv) (clean_ends c)
      (fun _ al => .solveInj al fuel sets ⟨hg, hc⟩ hb) fun sol s' _ _ => .inl ⟨s'.asked, rfl⟩

theorem prodDiag_agrees (t : Toolbox R) (left : AssembledConnections R × AssembledConnections R) (fuel : Nat)
    (sets : List CellSet) {s : Machine} (hv : s.heap.Valid) :
    CallAgrees (prodDiag t left fuel sets s) (Heap.prodDiag t fuel sets s.heap) s
      fun t' => ∀ al, RunsOut t (.computeProductionDiagnostics al fuel sets) t' := by
  unfold prodDiag Heap.prodDiag
  cases hg : (t.pvol.isEmpty || t.flux.numConnections == 0) with
  | true => exact .inl ⟨s.asked, rfl⟩
  | false =>
    simp only [Bool.false_eq_true, if_false]
    refine finish_lift_agrees fun _ hc => ?_
    refine askBuild_agrees (fun hb al => .buildProd al fuel sets ⟨hg, hc⟩ hb _ _) fun s1 r1 e1 => ?_
    rw [← e1] at hv
    rw [← e1]
    refine finish_lift_agrees fun _ hb => ?_
    obtain ⟨al, _, c⟩ := computeSolution_spec t.ensureBuilt.1.upstream t.ensureBuilt.1.downstream
      t.ensureBuilt.1.pvol t.ensureBuilt.1.onlyOutflow t.ensureBuilt.1.prodById fuel sets hv
    refine finish_agrees (computeSolution_agrees _ _ _ _ _ _ _ hv) (clean_ends c)
      (fun _ al => .solveProd al fuel sets ⟨hg, hc⟩ hb) fun sol s' _ _ => .inl ⟨s'.asked, rfl⟩

end Verif.Memory
