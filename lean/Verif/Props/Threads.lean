/-
Property C93: threads that use toolboxes of their own at the same time.
-/
import Verif.Spec.Threads
import Verif.Proofs.ThreadsAlone
import Verif.Proofs.ThreadsTogether
import Verif.Props.Heap

namespace Verif.Props
open Verif.Spec Verif.Heap Verif.Threads Verif.Solver

section
variable {R : Type} [Arith R]

/-- The later answers depend on the outcomes of the later allocations only. -/
theorem answersAfter_congr (g : ConnectivityGraph) (fuel : Nat) {al al' : Nat → Nat → Alloc} :
    ∀ (reqs : List (Request R)) (calls : List (Toolbox.Call R)),
      (∀ j, calls.length ≤ j → al j = al' j) →
      answersAfter g fuel al calls reqs = answersAfter g fuel al' calls reqs
  | [], _, _ => by simp only [answersAfter]
  | .assignPoreVolume pv :: rest, calls, h => by
    simp only [answersAfter]
    exact answersAfter_congr g fuel rest _ fun j hj => h j (by simp at hj; omega)
  | .assignConnectionFlux pv :: rest, calls, h => by
    simp only [answersAfter]
    exact answersAfter_congr g fuel rest _ fun j hj => h j (by simp at hj; omega)
  | .assignInflowFlux pv :: rest, calls, h => by
    simp only [answersAfter]
    exact answersAfter_congr g fuel rest _ fun j hj => h j (by simp at hj; omega)
  | .injection s :: rest, calls, h => by
    simp only [answersAfter]
    rw [h calls.length (Nat.le_refl _)]
    rw [answersAfter_congr g fuel rest _ fun j hj => h j (by simp at hj; omega)]
  | .production s :: rest, calls, h => by
    simp only [answersAfter]
    rw [h calls.length (Nat.le_refl _)]
    rw [answersAfter_congr g fuel rest _ fun j hj => h j (by simp at hj; omega)]

theorem toolboxAfter_snoc (g : ConnectivityGraph) (calls : List (Toolbox.Call R)) (c : Toolbox.Call R) :
    toolboxAfter g (calls ++ [c]) = (toolboxAfter g calls).step c := by
  simp [toolboxAfter]

/-- What one thread does when it is alone. -/
theorem session_alone (g : ConnectivityGraph) (fuel : Nat) :
    ∀ (reqs : List (Request R)) (calls : List (Toolbox.Call R)) (answers : List (Res (Solution R)))
      (h : Heap), h.Valid →
      ∃ (al : Nat → Nat → Alloc) (h' : Heap), (h.NoFail → al = fun _ => noFailure) ∧
        Prog.run (session fuel reqs (toolboxAfter g calls) answers) h =
          some (h', answers ++ answersAfter g fuel al calls reqs) ∧
        ((∀ a ∈ answersAfter g fuel al calls reqs, goesOn a = true) → h'.block = h.block)
  | [], calls, answers, h, _ =>
    ⟨fun _ => noFailure, h, fun _ => rfl, by simp [session, answersAfter, Prog.run], fun _ => rfl⟩
  | .assignPoreVolume pv :: rest, calls, answers, h, hv => by
    have := session_alone g fuel rest (calls ++ [.assignPoreVolume pv]) answers h hv
    rw [toolboxAfter_snoc] at this
    simpa only [session, answersAfter, Toolbox.step] using this
  | .assignConnectionFlux f :: rest, calls, answers, h, hv => by
    have := session_alone g fuel rest (calls ++ [.assignConnectionFlux f]) answers h hv
    rw [toolboxAfter_snoc] at this
    simpa only [session, answersAfter, Toolbox.step] using this
  | .assignInflowFlux m :: rest, calls, answers, h, hv => by
    have := session_alone g fuel rest (calls ++ [.assignInflowFlux m]) answers h hv
    rw [toolboxAfter_snoc] at this
    simpa only [session, answersAfter, Toolbox.step] using this
  | .injection s :: rest, calls, answers, h, hv => by
    obtain ⟨a, h', nf, e, clean⟩ := C58_injection g calls fuel s h hv
    have hx : ∀ x, goesOn x = true → ((toolboxAfter g calls).injDiag a fuel s).2 = x →
        h'.block = h.block ∧ h'.Valid ∧ h'.fails = h.fails := by
      intro x hx e
      cases x <;> simp [goesOn] at hx
      · exact clean (.inl ⟨_, e⟩)
      · exact clean (.inr ⟨_, e⟩)
    -- what follows if the call returned or threw
    have go : ∀ x, goesOn x = true → injectionOutcome g calls a fuel s = x →
        ∃ (al : Nat → Nat → Alloc) (h'' : Heap), (h.NoFail → al = fun _ => noFailure) ∧
        Prog.run (session fuel rest ((toolboxAfter g calls).injDiag a fuel s).1 (answers ++ [x])) h' =
          some (h'', answers ++ answersAfter g fuel al calls (.injection s :: rest)) ∧
        ((∀ a ∈ answersAfter g fuel al calls (.injection s :: rest), goesOn a = true) →
          h''.block = h.block) := by
      intro x hx' ex
      obtain ⟨hb, hv', hf⟩ := hx x hx' ex
      obtain ⟨al, h'', nf', e', clean'⟩ := session_alone g fuel rest
        (calls ++ [.computeInjectionDiagnostics a fuel s]) (answers ++ [x]) h' hv'
      rw [toolboxAfter_snoc] at e'
      have e1 : answersAfter g fuel (fun j => if j = calls.length then a else al j) calls
          (.injection s :: rest) = x :: answersAfter g fuel al
            (calls ++ [.computeInjectionDiagnostics a fuel s]) rest := by
        simp only [answersAfter, if_true, ex, hx']
        rw [answersAfter_congr g fuel rest _ fun j hj => ?_]
        rw [if_neg (by simp at hj; omega)]
      refine ⟨fun j => if j = calls.length then a else al j, h'', ?_, ?_, ?_⟩
      · intro n
        funext j
        split
        · exact nf n
        · rw [nf' fun k => by rw [hf]; exact n k]
      · rw [e1]
        simpa only [Toolbox.step, List.append_assoc, List.singleton_append] using e'
      · intro hall
        rw [e1] at hall
        rw [clean' fun y hy => hall y (List.mem_cons_of_mem _ hy), hb]
    have stop : ∀ x, goesOn x = false → injectionOutcome g calls a fuel s = x →
        ∃ (al : Nat → Nat → Alloc) (h'' : Heap), (h.NoFail → al = fun _ => noFailure) ∧
        Prog.run (.ret (answers ++ [x])) h' =
          some (h'', answers ++ answersAfter g fuel al calls (.injection s :: rest)) ∧
        ((∀ a ∈ answersAfter g fuel al calls (.injection s :: rest), goesOn a = true) →
          h''.block = h.block) := by
      intro x hx' ex
      have e1 : answersAfter g fuel (fun _ => a) calls (.injection s :: rest) = [x] := by
        simp [answersAfter, ex, hx']
      refine ⟨fun _ => a, h', fun n => by rw [nf n], by rw [e1]; rfl, ?_⟩
      rw [e1]
      intro hall
      rw [hall x (by simp)] at hx'
      cases hx'
    simp only [session]
    rw [run_andThen, run_injDiag, e]
    simp only [keepAnswer]
    cases hr : ((toolboxAfter g calls).injDiag a fuel s).2 with
    | ok sol => exact go _ rfl hr
    | throw x => exact go _ rfl hr
    | ub u => exact stop _ rfl hr
    | diverge => exact stop _ rfl hr
  | .production s :: rest, calls, answers, h, hv => by
    obtain ⟨a, h', nf, e, clean⟩ := C58_production g calls fuel s h hv
    have hx : ∀ x, goesOn x = true → ((toolboxAfter g calls).prodDiag a fuel s).2 = x →
        h'.block = h.block ∧ h'.Valid ∧ h'.fails = h.fails := by
      intro x hx e
      cases x <;> simp [goesOn] at hx
      · exact clean (.inl ⟨_, e⟩)
      · exact clean (.inr ⟨_, e⟩)
    -- what follows if the call returned or threw
    have go : ∀ x, goesOn x = true → productionOutcome g calls a fuel s = x →
        ∃ (al : Nat → Nat → Alloc) (h'' : Heap), (h.NoFail → al = fun _ => noFailure) ∧
        Prog.run (session fuel rest ((toolboxAfter g calls).prodDiag a fuel s).1 (answers ++ [x])) h' =
          some (h'', answers ++ answersAfter g fuel al calls (.production s :: rest)) ∧
        ((∀ a ∈ answersAfter g fuel al calls (.production s :: rest), goesOn a = true) →
          h''.block = h.block) := by
      intro x hx' ex
      obtain ⟨hb, hv', hf⟩ := hx x hx' ex
      obtain ⟨al, h'', nf', e', clean'⟩ := session_alone g fuel rest
        (calls ++ [.computeProductionDiagnostics a fuel s]) (answers ++ [x]) h' hv'
      rw [toolboxAfter_snoc] at e'
      have e1 : answersAfter g fuel (fun j => if j = calls.length then a else al j) calls
          (.production s :: rest) = x :: answersAfter g fuel al
            (calls ++ [.computeProductionDiagnostics a fuel s]) rest := by
        simp only [answersAfter, if_true, ex, hx']
        rw [answersAfter_congr g fuel rest _ fun j hj => ?_]
        rw [if_neg (by simp at hj; omega)]
      refine ⟨fun j => if j = calls.length then a else al j, h'', ?_, ?_, ?_⟩
      · intro n
        funext j
        split
        · exact nf n
        · rw [nf' fun k => by rw [hf]; exact n k]
      · rw [e1]
        simpa only [Toolbox.step, List.append_assoc, List.singleton_append] using e'
      · intro hall
        rw [e1] at hall
        rw [clean' fun y hy => hall y (List.mem_cons_of_mem _ hy), hb]
    have stop : ∀ x, goesOn x = false → productionOutcome g calls a fuel s = x →
        ∃ (al : Nat → Nat → Alloc) (h'' : Heap), (h.NoFail → al = fun _ => noFailure) ∧
        Prog.run (.ret (answers ++ [x])) h' =
          some (h'', answers ++ answersAfter g fuel al calls (.production s :: rest)) ∧
        ((∀ a ∈ answersAfter g fuel al calls (.production s :: rest), goesOn a = true) →
          h''.block = h.block) := by
      intro x hx' ex
      have e1 : answersAfter g fuel (fun _ => a) calls (.production s :: rest) = [x] := by
        simp [answersAfter, ex, hx']
      refine ⟨fun _ => a, h', fun n => by rw [nf n], by rw [e1]; rfl, ?_⟩
      rw [e1]
      intro hall
      rw [hall x (by simp)] at hx'
      cases hx'
    simp only [session]
    rw [run_andThen, run_prodDiag, e]
    simp only [keepAnswer]
    cases hr : ((toolboxAfter g calls).prodDiag a fuel s).2 with
    | ok sol => exact go _ rfl hr
    | throw x => exact go _ rfl hr
    | ub u => exact stop _ rfl hr
    | diverge => exact stop _ rfl hr

theorem session_safe (fuel : Nat) (users : List (ConnectivityGraph × List (Request R))) (h : Heap) :
    ∀ p ∈ (startThreads fuel users h).threads, ∀ f g, Prog.run p (Mine.none.heap f g) ≠ none := by
  intro p hp f g
  simp only [startThreads, List.mem_map] at hp
  obtain ⟨u, -, rfl⟩ := hp
  obtain ⟨al, h', -, e, -⟩ := session_alone u.1 fuel u.2 [] [] (Mine.none.heap f g) fun _ _ => rfl
  rw [show toolboxAfter u.1 ([] : List (Toolbox.Call R)) = Toolbox.create u.1 from rfl] at e
  rw [e]
  simp

/-- **C93** Threads with toolboxes of their own, on any heap, whichever allocations fail and in
    whatever order the threads get their turns: no access is to an address without a block.  No
    block is accessed by two threads, nor any that was there before.  A thread that has finished has the
    answers it would have got alone.  When all have finished without undefined behaviour, the heap is
    as it was. -/
theorem C93_threads (fuel : Nat) (users : List (ConnectivityGraph × List (Request R))) (h : Heap)
    (hv : h.Valid) (schedule : List Nat) :
    ∃ c, (startThreads fuel users h).runSchedule schedule = some c ∧
      (∀ i j a, (i, a) ∈ c.log → (j, a) ∈ c.log → i = j) ∧
      (∀ i a, (i, a) ∈ c.log → h.block a = none) ∧
      (∀ i g reqs answers, users[i]? = some (g, reqs) → Finished c i answers →
        ∃ al : Nat → Nat → Alloc, (h.NoFail → al = fun _ => noFailure) ∧
          answers = answersAfter g fuel al [] reqs) ∧
      ((∀ i < users.length, ∃ answers, Finished c i answers ∧ ∀ a ∈ answers, goesOn a = true) →
        c.heap.block = h.block) := by
  obtain ⟨c, e, ms, fs, gs, I⟩ := Inv.schedule hv (session_safe fuel users h) schedule
    (startThreads fuel users h) _ _ _ (Inv.start hv _)
  have key : ∀ i g reqs answers, users[i]? = some (g, reqs) → Finished c i answers →
      ∃ al : Nat → Nat → Alloc, (h.NoFail → al = fun _ => noFailure) ∧
        answers = answersAfter g fuel al [] reqs ∧
        ((∀ a ∈ answers, goesOn a = true) → ∀ b, (ms i).block b = none) := by
    intro i g reqs answers hu hf
    have h0 : (startThreads fuel users h).threads[i]? = some (session fuel reqs (Toolbox.create g) []) := by
      simp [startThreads, hu]
    obtain ⟨al, h', nf, e1, clean⟩ := session_alone g fuel reqs [] []
      (Mine.none.heap (fs i) (gs i)) fun _ _ => rfl
    have e2 := I.gets i _ _ h0 hf (fs i) (gs i) fun _ _ => ⟨rfl, rfl⟩
    rw [show toolboxAfter g ([] : List (Toolbox.Call R)) = Toolbox.create g from rfl, e2] at e1
    simp only [Prog.run, List.nil_append, Option.some.injEq, Prod.mk.injEq] at e1
    obtain ⟨rfl, rfl⟩ := e1
    exact ⟨al, fun n => nf (I.noFail n i), rfl, fun hall b => congrFun (clean hall) b⟩
  refine ⟨c, e, I.one, fun i a hl => hv a (I.range _ hl).1, ?_, ?_⟩
  · intro i g reqs answers hu hf
    obtain ⟨al, nf, ea, -⟩ := key i g reqs answers hu hf
    exact ⟨al, nf, ea⟩
  · intro all
    funext a
    refine I.rest a fun i => ?_
    by_cases hi : i < users.length
    · obtain ⟨answers, hf, hall⟩ := all i hi
      obtain ⟨_, _, _, clean⟩ := key i users[i].1 users[i].2 answers (by simp [hi]) hf
      exact clean hall a
    · exact I.absent i (by simpa [startThreads] using hi) a

/-- **C93**, continued: if every thread gets turns again and again, all of them finish. -/
theorem C93_all_finish (fuel : Nat) (users : List (ConnectivityGraph × List (Request R))) (h : Heap)
    (hv : h.Valid) (schedule : Nat → Nat) (fair : Fair users.length schedule) :
    ∃ N, ∀ n, N ≤ n →
      ∃ c, (startThreads fuel users h).runSchedule ((List.range n).map schedule) = some c ∧
        ∀ i < users.length, ∃ answers, Finished c i answers := by
  have hl : (startThreads fuel users h).threads.length = users.length := by simp [startThreads]
  have := all_finish (c := startThreads fuel users h) (schedule := schedule)
    (fun n hn => by
      obtain ⟨c, e, -⟩ := C93_threads fuel users h hv ((List.range n).map schedule)
      rw [Config.after, e] at hn
      cases hn)
    (by rw [hl]; exact fair)
  rwa [hl] at this

end

/-! ### Threads that call the C interface -/

theorem alone_cStep (fuel : Nat) (hs : List Handle) (c : ApiCall) :
    alone (cStep fuel hs c) = apiStep fuel hs c := by
  cases c with
  | createWorkspace n =>
    simp only [cStep, apiStep, alone_bind, alone_createWorkspace, alone_pure]
  | destroyWorkspace i =>
    simp only [cStep, apiStep]
    rcases hs[i]? with _ | (_ | _) <;> simp only [alone_bind, alone_destroyWorkspace, alone_pure]
  | tarjan nv ia ja => simp only [cStep, apiStep, alone_bind, alone_tarjan, alone_pure]
  | reachable nv ia ja pts i =>
    simp only [cStep, apiStep]
    rcases hs[i]? with _ | (_ | _) <;> simp only [alone_bind, alone_reachableSccs, alone_pure]
  | reverse i =>
    simp only [cStep, apiStep]
    rcases hs[i]? with _ | (_ | _) <;> simp only [alone_bind, alone_reverseSccResult, alone_pure]
  | destroyResult i =>
    simp only [cStep, apiStep]
    rcases hs[i]? with _ | (_ | _) <;> simp only [alone_bind, alone_destroySccResult, alone_pure]

theorem alone_cRun (fuel : Nat) : ∀ (cs : List ApiCall) (hs : List Handle),
    alone (cRun fuel cs hs) = apiRun fuel cs hs
  | [], _ => rfl
  | c :: cs, hs => by
    simp only [cRun, apiRun, alone_bind, alone_cStep, alone_cRun fuel cs]

theorem loadWork_more {P Q : Heap} (h : ∀ a o, P.block a = some o → Q.block a = some o) {a : Nat}
    {x : Tarjan.WorkSpace} (e : Heap.loadWork (some a) P = some (P, .ok x)) :
    Heap.loadWork (some a) Q = some (Q, .ok x) := by
  simp only [Heap.loadWork, Heap.loadWorkStruct, Heap.load, bind_eq, H.bind] at e ⊢
  cases h1 : P.block a with
  | none => simp [h1] at e
  | some o =>
    rw [h a o h1]
    simp only [h1] at e
    cases o with
    | work w =>
      simp only [pure_eq, H.pure] at e ⊢
      rcases hw : w.status with _ | b
      · simp [hw] at e
      · simp only [hw] at e ⊢
        cases h2 : P.block b with
        | none => simp [h2] at e
        | some o' =>
          rw [h b o' h2]
          simp only [h2] at e ⊢
          cases o' <;> simp_all [Heap.fault, H.pure]
    | _ => simp [Heap.fault] at e

theorem loadScc_more {P Q : Heap} (h : ∀ a o, P.block a = some o → Q.block a = some o) {a : Nat}
    {x : Tarjan.SCCResult} (e : Heap.loadScc (some a) P = some (P, .ok x)) :
    Heap.loadScc (some a) Q = some (Q, .ok x) := by
  simp only [Heap.loadScc, Heap.loadSccStruct, Heap.load, bind_eq, H.bind] at e ⊢
  cases h1 : P.block a with
  | none => simp [h1] at e
  | some o =>
    rw [h a o h1]
    simp only [h1] at e
    cases o with
    | scc w =>
      simp only [pure_eq, H.pure] at e ⊢
      rcases hw : w.start with _ | b
      · simp [hw] at e
      · simp only [hw] at e ⊢
        cases h2 : P.block b with
        | none => simp [h2] at e
        | some o' =>
          rw [h b o' h2]
          simp only [h2] at e ⊢
          cases o' with
          | sizes m =>
            simp only [H.bind, Heap.load] at e ⊢
            rcases hw' : w.vert with _ | b'
            · simp [hw'] at e
            · simp only [hw'] at e ⊢
              cases h3 : P.block b' with
              | none => simp [h3] at e
              | some o'' =>
                rw [h b' o'' h3]
                simp only [h3] at e ⊢
                cases o'' <;> simp_all [Heap.fault, H.pure]
          | _ => simp [Heap.fault] at e
    | _ => simp [Heap.fault] at e

theorem reads_more {P Q : Heap} (h : ∀ a o, P.block a = some o → Q.block a = some o)
    {x : Handle} {v : Value} (r : Reads P x v) : Reads Q x v := by
  rcases x with (_ | a) | (_ | a)
  · exact r
  · obtain ⟨x, e, l⟩ := r
    exact ⟨x, e, loadWork_more h l⟩
  · exact r
  · obtain ⟨x, e, l⟩ := r
    exact ⟨x, e, loadScc_more h l⟩

/-- **C93** for threads that call the C interface with objects of their own: no access is to an
    address without a block, no block is accessed by two threads nor any that was there before, and
    a thread that has finished got what it would have got alone: its pointers lead to the values of
    its objects. -/
theorem C93_c_interface (fuel : Nat) (users : List (List ApiCall)) (h : Heap) (hv : h.Valid)
    (schedule : List Nat) :
    ∃ c, (startCalls fuel users h).runSchedule schedule = some c ∧
      (∀ i j a, (i, a) ∈ c.log → (j, a) ∈ c.log → i = j) ∧
      (∀ i a, (i, a) ∈ c.log → h.block a = none) ∧
      (∀ i calls r, users[i]? = some calls → Finished c i r →
        ∃ as : List CallAlloc, as.length = calls.length ∧
          (h.NoFail → ∀ a ∈ as, a = CallAlloc.good) ∧
          match valueRun fuel as calls [] with
          | .ok vs => ∃ hs, r = .ok hs ∧ List.Forall₂ (Reads c.heap) hs vs
          | .throw _ => False
          | .ub u => r = .ub u
          | .diverge => r = .diverge) := by
  have safe : ∀ p ∈ (startCalls fuel users h).threads, ∀ f g, Prog.run p (Mine.none.heap f g) ≠ none := by
    intro p hp f g
    obtain ⟨calls, -, rfl⟩ := List.mem_map.1 hp
    obtain ⟨as, -, -, m⟩ := C59_history fuel calls (Mine.none.heap f g) fun _ _ => rfl
    have e := congrFun (alone_cRun fuel calls []) (Mine.none.heap f g)
    intro hn
    change Prog.run _ _ = _ at e
    rw [hn] at e
    rw [← e] at m
    revert m
    cases valueRun fuel as calls [] <;> simp
  obtain ⟨c, e, ms, fs, gs, I⟩ := Inv.schedule hv safe schedule (startCalls fuel users h) _ _ _
    (Inv.start hv _)
  refine ⟨c, e, I.one, fun i a hl => hv a (I.range _ hl).1, ?_⟩
  intro i calls r hu hf
  have h0 : (startCalls fuel users h).threads[i]? = some (cRun fuel calls []) :=
    List.getElem?_map.trans (by rw [hu]; rfl)
  obtain ⟨as, hl, nf, m⟩ := C59_history fuel calls (Mine.none.heap (fs i) (gs i)) fun _ _ => rfl
  refine ⟨as, hl, fun n => nf (I.noFail n i), ?_⟩
  have e2 := I.gets i _ _ h0 hf (fs i) (gs i) fun _ _ => ⟨rfl, rfl⟩
  have e3 := congrFun (alone_cRun fuel calls []) (Mine.none.heap (fs i) (gs i))
  change Prog.run _ _ = _ at e3
  rw [e2] at e3
  simp only [Prog.run] at e3
  rw [← e3] at m
  revert m
  cases valueRun fuel as calls [] with
  | ok vs =>
    rintro ⟨h', hs, e4, rd, -⟩
    simp only [Option.some.injEq, Prod.mk.injEq] at e4
    obtain ⟨rfl, rfl⟩ := e4
    exact ⟨hs, rfl, rd.imp fun x v hr => reads_more (fun a o ho => (I.mine i a o ho).1) hr⟩
  | throw x => exact fun m => m
  | ub u =>
    rintro ⟨h', e4⟩
    simp only [Option.some.injEq, Prod.mk.injEq] at e4
    exact e4.2
  | diverge =>
    rintro ⟨h', e4⟩
    simp only [Option.some.injEq, Prod.mk.injEq] at e4
    exact e4.2

/-! ### Examples -/

/-- The second user of the examples changes the pore volumes and asks for both diagnostics. -/
def exUsers : List (ConnectivityGraph × List (Request (X ℚ))) :=
  [(exHeapGraph, [.assignPoreVolume [.fin 1, .fin 1], .assignConnectionFlux ⟨1, 1, [.fin 1]⟩,
      .assignInflowFlux [(⟨[65]⟩, [(0, .fin 1)]), (⟨[80]⟩, [(1, .fin (-1))])],
      .injection [CellSet.ofCells ⟨[65]⟩ [0]]]),
   (exHeapGraph, [.assignPoreVolume [.fin 1, .fin 2], .assignConnectionFlux ⟨1, 1, [.fin (-1)]⟩,
      .assignInflowFlux [(⟨[65]⟩, [(1, .fin 1)]), (⟨[80]⟩, [(0, .fin (-1))])],
      .production [CellSet.ofCells ⟨[80]⟩ [0]], .injection []])]

/-- The answers of a finished thread: which are solutions. -/
def solutions {α : Type} (p : Option (Prog (List (Res α)))) : Option (List Bool) :=
  match p with
  | some (.ret l) => some (l.map fun
    | .ok _ => true
    | _ => false)
  | _ => none

theorem solutions_finished {α : Type} {c : Config (List (Res α))} {i : Nat} {l : List Bool}
    (h : solutions c.threads[i]? = some l) :
    ∃ answers, Finished c i answers ∧ (answers.map fun
      | .ok _ => true
      | _ => false) = l := by
  unfold solutions at h
  split at h
  · rename_i answers e
    cases h
    exact ⟨answers, e, rfl⟩
  · cases h

/-- Access by access in turn: both threads finish with solutions. -/
theorem exUsers_alternate :
    (match (startThreads 50 exUsers (emptyHeap fun _ => false)).runSchedule
        ((List.range 500).map fun n => n % 2) with
      | some c => solutions c.threads[0]? == some [true] &&
          solutions c.threads[1]? == some [true, true]
      | none => false) = true := by decide +kernel

/-- They have the answers they would have got alone, and no block is left. -/
example : ∃ c, (startThreads 50 exUsers (emptyHeap fun _ => false)).runSchedule
      ((List.range 500).map fun n => n % 2) = some c ∧
    (∃ sol, Finished c 0 [.ok sol] ∧
      [.ok sol] = answersAfter exHeapGraph 50 (fun _ => noFailure) [] (exUsers[0]).2) ∧
    (∃ sol sol', Finished c 1 [.ok sol, .ok sol'] ∧
      [.ok sol, .ok sol'] = answersAfter exHeapGraph 50 (fun _ => noFailure) [] (exUsers[1]).2) ∧
    c.heap.block = fun _ => none := by
  obtain ⟨c, e, -, -, same, clean⟩ := C93_threads 50 exUsers (emptyHeap fun _ => false)
    (emptyHeap_valid _) ((List.range 500).map fun n => n % 2)
  have h := exUsers_alternate
  rw [e] at h
  simp only [Bool.and_eq_true, beq_iff_eq] at h
  obtain ⟨a0, f0, s0⟩ := solutions_finished h.1
  obtain ⟨a1, f1, s1⟩ := solutions_finished h.2
  obtain ⟨x, rfl, hx⟩ := List.map_eq_singleton_iff.1 s0
  obtain ⟨y, l, rfl, hy, hl⟩ := List.map_eq_cons_iff.1 s1
  obtain ⟨z, rfl, hz⟩ := List.map_eq_singleton_iff.1 hl
  cases x <;> simp at hx
  cases y <;> simp at hy
  cases z <;> simp at hz
  obtain ⟨al, nf, e0⟩ := same 0 _ _ _ rfl f0
  obtain ⟨al', nf', e1⟩ := same 1 _ _ _ rfl f1
  rw [nf fun _ => rfl] at e0
  rw [nf' fun _ => rfl] at e1
  refine ⟨c, e, ⟨_, f0, e0⟩, ⟨_, _, f1, e1⟩, clean ?_⟩
  intro i hi
  have : i = 0 ∨ i = 1 := by
    have : exUsers.length = 2 := rfl
    omega
  rcases this with rfl | rfl
  · exact ⟨_, f0, by simp [goesOn]⟩
  · exact ⟨_, f1, by simp [goesOn]⟩

/-- Two threads that call the C interface.  The first one gets three turns, then they
    get turns alternately.  One keeps a result and a workspace, the other
    destroys what it made. -/
def exCallers : List (List ApiCall) :=
  [[.tarjan 3 [0, 1, 2, 3] [1, 2, 0], .createWorkspace 4, .reverse 0],
   [.createWorkspace 4, .reachable 4 [0, 1, 1, 1, 1] [3] [0] 0, .destroyWorkspace 0, .destroyResult 1]]

/-- What a finished thread keeps: the number of blocks of each pointer. -/
def kept (p : Option (Prog (Res (List Handle)))) : Option (List Nat) :=
  match p with
  | some (.ret (.ok hs)) => some (hs.map Handle.blocks)
  | _ => none

theorem kept_finished {c : Config (Res (List Handle))} {i : Nat} {l : List Nat}
    (h : kept c.threads[i]? = some l) : ∃ hs, Finished c i (.ok hs) := by
  unfold kept at h
  split at h
  · rename_i hs e
    exact ⟨hs, e⟩
  · cases h

theorem exCallers_alternate :
    (match (startCalls 20 exCallers (emptyHeap fun _ => false)).runSchedule
        ([0, 0, 0] ++ (List.range 200).map fun n => n % 2) with
      | some c => kept c.threads[0]? == some [3, 2] && kept c.threads[1]? == some [0, 0]
      | none => false) = true := by decide +kernel

theorem exCallers_values :
    shape (valueRun 20 (List.replicate 3 CallAlloc.good) exCallers[0] []) =
      some [(true, true), (false, true)] := by decide +kernel

theorem shape_two {r : Res (List Value)} (h : shape r = some [(true, true), (false, true)]) :
    ∃ x w, r = .ok [.res (some x), .ws (some w)] := by
  cases r with
  | ok vs =>
    simp only [shape, Option.some.injEq] at h
    obtain ⟨y, l, rfl, hy, hl⟩ := List.map_eq_cons_iff.1 h
    obtain ⟨z, rfl, hz⟩ := List.map_eq_singleton_iff.1 hl
    rcases y with _ | (_ | x) <;> simp at hy
    rcases z with (_ | w) | _ <;> simp at hz
    exact ⟨x, w, rfl⟩
  | throw x => cases h
  | ub u => cases h
  | diverge => cases h

example : ∃ c hs x w, (startCalls 20 exCallers (emptyHeap fun _ => false)).runSchedule
      ([0, 0, 0] ++ (List.range 200).map fun n => n % 2) = some c ∧
    Finished c 0 (.ok hs) ∧ List.Forall₂ (Reads c.heap) hs [.res (some x), .ws (some w)] := by
  obtain ⟨c, e, -, -, same⟩ := C93_c_interface 20 exCallers (emptyHeap fun _ => false)
    (emptyHeap_valid _) ([0, 0, 0] ++ (List.range 200).map fun n => n % 2)
  have h := exCallers_alternate
  rw [e] at h
  simp only [Bool.and_eq_true, beq_iff_eq] at h
  obtain ⟨hs, e0⟩ := kept_finished h.1
  obtain ⟨as, hl, nf, m⟩ := same 0 _ _ rfl e0
  have has : as = List.replicate 3 CallAlloc.good :=
    List.eq_replicate_iff.2 ⟨hl, nf fun _ => rfl⟩
  subst has
  obtain ⟨x, w, ev⟩ := shape_two exCallers_values
  rw [show valueRun 20 (List.replicate 3 CallAlloc.good)
    [.tarjan 3 [0, 1, 2, 3] [1, 2, 0], .createWorkspace 4, .reverse 0] [] =
      .ok [.res (some x), .ws (some w)] from ev] at m
  obtain ⟨hs', e2, rd⟩ := m
  cases e2
  exact ⟨c, hs, x, w, e, e0, rd⟩

/-- The schedule is fair. -/
example : Fair exUsers.length fun n => n % 2 := by
  intro i hi n
  have : exUsers.length = 2 := rfl
  exact ⟨2 * n + i, by omega, by simp; omega⟩

end Verif.Props
