/-
The functions of tarjan.c on the heap do what `Verif.Tarjan` says, use no pointer that is
not theirs, and leave no block behind.
-/
import Verif.Proofs.HeapBasics
import Verif.Proofs.Res

namespace Verif.Heap
open Verif.Tarjan Verif.Solver

/-- A pointer to a workspace holding `x`, or null. -/
inductive WorkPtr (f : Nat → Option Obj) : Ptr → Option WorkSpace → List Nat → Prop
  | null : WorkPtr f none none []
  | some {a b : Nat} {x : WorkSpace} (w : WorkAt f a b x) : WorkPtr f (some a) (some x) [a, b]

/-- A pointer to a result holding `x`, or null. -/
inductive SccPtr (f : Nat → Option Obj) : Ptr → Option SCCResult → List Nat → Prop
  | null : SccPtr f none none []
  | some {a b c : Nat} {x : SCCResult} (w : SccAt f a b c x) :
      SccPtr f (some a) (some x) [a, b, c]

theorem WorkPtr.congr {f g : Nat → Option Obj} {p : Ptr} {x : Option WorkSpace} {F : List Nat}
    (w : WorkPtr f p x F) (h : ∀ y ∈ F, g y = f y) : WorkPtr g p x F := by
  cases w with
  | null => exact .null
  | some w => exact .some (w.congr h)

theorem SccPtr.congr {f g : Nat → Option Obj} {p : Ptr} {x : Option SCCResult} {F : List Nat}
    (w : SccPtr f p x F) (h : ∀ y ∈ F, g y = f y) : SccPtr g p x F := by
  cases w with
  | null => exact .null
  | some w => exact .some (w.congr h)

theorem WorkPtr.live {f : Nat → Option Obj} {p : Ptr} {x : Option WorkSpace} {F : List Nat}
    (w : WorkPtr f p x F) : ∀ y ∈ F, f y ≠ none := by
  cases w with
  | null => simp
  | some w => exact w.live

theorem SccPtr.live {f : Nat → Option Obj} {p : Ptr} {x : Option SCCResult} {F : List Nat}
    (w : SccPtr f p x F) : ∀ y ∈ F, f y ≠ none := by
  cases w with
  | null => simp
  | some w => exact w.live

theorem WorkPtr.nodup {f : Nat → Option Obj} {p : Ptr} {x : Option WorkSpace} {F : List Nat}
    (w : WorkPtr f p x F) : F.Nodup := by
  cases w with
  | null => simp
  | some w => exact w.nodup

theorem SccPtr.nodup {f : Nat → Option Obj} {p : Ptr} {x : Option SCCResult} {F : List Nat}
    (w : SccPtr f p x F) : F.Nodup := by
  cases w with
  | null => simp
  | some w => exact w.nodup

theorem destroyWorkspace_ptr {h : Heap} {p : Ptr} {x : Option WorkSpace} {F : List Nat}
    (w : WorkPtr h.block p x F) :
    ∃ h', destroyWorkspace p h = some (h', .ok ()) ∧ Step h h' ∧ Change h.block h'.block F [] := by
  cases w with
  | null => exact ⟨h, destroyWorkspace_null h, .refl h, .refl (by simp)⟩
  | some w => exact destroyWorkspace_spec w

theorem destroySccResult_ptr {h : Heap} {p : Ptr} {x : Option SCCResult} {F : List Nat}
    (w : SccPtr h.block p x F) :
    ∃ h', destroySccResult p h = some (h', .ok ()) ∧ Step h h' ∧ Change h.block h'.block F [] := by
  cases w with
  | null => exact ⟨h, destroySccResult_null h, .refl h, .refl (by simp)⟩
  | some w => exact destroySccResult_spec w

theorem createWorkspace_spec (n : Nat) {h : Heap} (hv : h.Valid) :
    ∃ h' p ws st F, createWorkspace n h = some (h', .ok p) ∧ Step h h' ∧
      (h.NoFail → ws = true ∧ st = true) ∧
      WorkPtr h'.block p (Tarjan.createWorkspace ws st n) F ∧ Change h.block h'.block [] F := by
  obtain ⟨a, ha⟩ : ∃ a, a = h.next + h.gap h.calls := ⟨_, rfl⟩
  obtain ⟨b, hb⟩ : ∃ b, b = a + 1 + h.gap (h.calls + 1) := ⟨_, rfl⟩
  have hn : h.block a = none := hv _ (by omega)
  have hn' : h.block b = none := hv _ (by omega)
  have e0 : ¬ b = a := by omega
  have e0' : ¬ a = b := by omega
  cases h1 : h.fails h.calls with
  | true =>
    refine ⟨{ h with calls := h.calls + 1 }, none, false, false, [], ?_, ⟨rfl, fun hv => hv⟩, ?_, ?_, ?_⟩
    · simp [createWorkspace, malloc, bind_eq, pure_eq, H.bind, H.pure, h1]
    · intro nf; have := nf h.calls; rw [h1] at this; cases this
    · exact .null
    · exact .refl (by simp)
  | false =>
    cases h2 : h.fails (h.calls + 1) with
    | true =>
      refine ⟨{ h with next := a + 1, calls := h.calls + 1 + 1 }, none, true, false, [], ?_,
        ⟨rfl, fun hv y hy => hv y (by simp at hy; omega)⟩, ?_, ?_, ?_⟩
      · simp [createWorkspace, malloc, store, destroyWorkspace, loadWorkStruct, load, free,
          bind_eq, pure_eq, H.bind, H.pure, h1, h2, ← ha]
        funext y
        by_cases hy : y = a <;> simp [hy, hn]
      · intro nf; have := nf (h.calls + 1); rw [h2] at this; cases this
      · exact .null
      · exact .refl (by simp)
    | false =>
      refine ⟨{ h with
          block := fun y => if y = a then some (.work ⟨n, some (b)⟩)
            else if y = b then some (.threeInts (List.replicate n none)
              (List.replicate n none) (List.replicate n none)) else h.block y
          next := b + 1, calls := h.calls + 1 + 1 }, some a, true, true,
        [a, b], ?_, ⟨rfl, ?_⟩, fun _ => ⟨rfl, rfl⟩, ?_, ?_⟩
      · simp [createWorkspace, malloc, store, bind_eq, pure_eq, H.bind, H.pure, h1, h2, ← ha, ← hb, e0']
        funext y
        by_cases hy : y = a <;> by_cases hy' : y = b <;> simp [hy, hy', e0]
      · intro hv y hy
        have : y ≠ a := by simp at hy; omega
        have h3 : y ≠ b := by simp at hy; omega
        simp only [this, h3, if_false]
        exact hv y (by simp at hy; omega)
      · exact .some ⟨by simp, by simp [e0]⟩
      · refine ⟨by simp [e0'], ?_, ?_, by simp⟩
        · intro y hy
          simp at hy
          rcases hy with rfl | rfl
          · exact .inr hn
          · exact .inr hn'
        · intro y _ hy
          simp at hy
          simp [hy.1, hy.2]

theorem allocateSccResult_spec (n : Nat) {h : Heap} (hv : h.Valid) :
    ∃ h' p a F, allocateSccResult n h = some (h', .ok p) ∧ Step h h' ∧
      (h.NoFail → a = AllocSCC.mk true true true) ∧
      SccPtr h'.block p (Tarjan.allocateSccResult a n) F ∧ Change h.block h'.block [] F := by
  obtain ⟨a, ha⟩ : ∃ a, a = h.next + h.gap h.calls := ⟨_, rfl⟩
  obtain ⟨b, hb⟩ : ∃ b, b = a + 1 + h.gap (h.calls + 1) := ⟨_, rfl⟩
  obtain ⟨b', hb'⟩ : ∃ b', b' = a + 1 + h.gap (h.calls + 1 + 1) := ⟨_, rfl⟩
  obtain ⟨c, hc⟩ : ∃ c, c = b + 1 + h.gap (h.calls + 1 + 1) := ⟨_, rfl⟩
  have hn : h.block a = none := hv _ (by omega)
  have hn' : h.block b = none := hv _ (by omega)
  have hn1 : h.block b' = none := hv _ (by omega)
  have hn'' : h.block c = none := hv _ (by omega)
  have e1 : ¬ c = a := by omega
  have e2 : ¬ a = c := by omega
  have e3 : ¬ b = a := by omega
  have e4 : ¬ a = b := by omega
  have e5 : ¬ b' = a := by omega
  have e6 : ¬ a = b' := by omega
  have e7 : ¬ c = b := by omega
  have e8 : ¬ b = c := by omega
  cases h1 : h.fails h.calls with
  | true =>
    refine ⟨{ h with calls := h.calls + 1 }, none, ⟨false, false, false⟩, [], ?_, ⟨rfl, fun hv => hv⟩, ?_, ?_, ?_⟩
    · simp [allocateSccResult, malloc, bind_eq, pure_eq, H.bind, H.pure, h1]
    · intro nf; have := nf h.calls; rw [h1] at this; cases this
    · exact .null
    · exact .refl (by simp)
  | false =>
    cases h2 : h.fails (h.calls + 1) with
    | true =>
      cases h3 : h.fails (h.calls + 1 + 1) with
      | true =>
        refine ⟨{ h with next := a + 1, calls := h.calls + 1 + 1 + 1 }, none,
          ⟨true, false, false⟩, [], ?_,
          ⟨rfl, fun hv y hy => hv y (by simp at hy; omega)⟩, ?_, ?_, ?_⟩
        · simp [allocateSccResult, malloc, store, destroySccResult, loadSccStruct, load, free,
            bind_eq, pure_eq, H.bind, H.pure, h1, h2, h3, ← ha]
          funext y
          by_cases hy : y = a <;> simp [hy, hn]
        · intro nf; have := nf (h.calls + 1); rw [h2] at this; cases this
        · exact .null
        · exact .refl (by simp)
      | false =>
        refine ⟨{ h with next := b' + 1, calls := h.calls + 1 + 1 + 1 }, none,
          ⟨true, false, true⟩, [], ?_,
          ⟨rfl, fun hv y hy => hv y (by simp at hy; omega)⟩, ?_, ?_, ?_⟩
        · simp [allocateSccResult, malloc, store, destroySccResult, loadSccStruct, load, free,
            bind_eq, pure_eq, H.bind, H.pure, h1, h2, h3, ← ha, ← hb', e5, e6]
          funext y
          by_cases hy : y = a <;> by_cases hy' : y = b' <;> simp [hy, hy', hn, hn1]
        · intro nf; have := nf (h.calls + 1); rw [h2] at this; cases this
        · exact .null
        · exact .refl (by simp)
    | false =>
      cases h3 : h.fails (h.calls + 1 + 1) with
      | true =>
        refine ⟨{ h with next := b + 1, calls := h.calls + 1 + 1 + 1 }, none,
          ⟨true, true, false⟩, [], ?_,
          ⟨rfl, fun hv y hy => hv y (by simp at hy; omega)⟩, ?_, ?_, ?_⟩
        · simp [allocateSccResult, malloc, store, destroySccResult, loadSccStruct, load, free,
            bind_eq, pure_eq, H.bind, H.pure, h1, h2, h3, ← ha, ← hb, e3, e4]
          funext y
          by_cases hy : y = a <;> by_cases hy' : y = b <;> simp [hy, hy', hn, hn']
        · intro nf; have := nf (h.calls + 1 + 1); rw [h3] at this; cases this
        · exact .null
        · exact .refl (by simp)
      | false =>
        refine ⟨{ h with
            block := fun y => if y = a then
                some (.scc ⟨0, some (b), some (c), 0, 0, 0, 0⟩)
              else if y = b then some (.sizes (List.replicate (n + 1) none))
              else if y = c then some (.ints (List.replicate n none)) else h.block y
            next := c + 1, calls := h.calls + 1 + 1 + 1 }, some a,
          ⟨true, true, true⟩, [a, b, c], ?_, ⟨rfl, ?_⟩,
          fun _ => rfl, ?_, ?_⟩
        · simp [allocateSccResult, malloc, store, bind_eq, pure_eq, H.bind, H.pure, h1, h2, h3, ← ha, ← hb, ← hc, e2, e4]
          funext y
          by_cases hy : y = a <;> by_cases hy' : y = b <;>
            by_cases hy'' : y = c <;> simp [hy, hy', hy'', e1, e3, e7, e8]
        · intro hv y hy
          have : y ≠ a := by simp at hy; omega
          have h3 : y ≠ b := by simp at hy; omega
          have h4 : y ≠ c := by simp at hy; omega
          simp only [this, h3, h4, if_false]
          exact hv y (by simp at hy; omega)
        · exact .some ⟨by simp, by simp [e3], by simp [e1, e7]⟩
        · refine ⟨by simp [e2, e4, e8], ?_, ?_, by simp⟩
          · intro y hy
            simp at hy
            rcases hy with rfl | rfl | rfl
            · exact .inr hn
            · exact .inr hn'
            · exact .inr hn''
          · intro y _ hy
            simp at hy
            simp [hy.1, hy.2]

/-! ### The computations on the blocks throw nothing -/

/-- The computation does not end with an exception. -/
structure NoThrow {α : Type} (r : Res α) : Prop where
  ne : ∀ e, r ≠ .throw e

namespace NoThrow
variable {α β σ : Type}

theorem ok (a : α) : NoThrow (.ok a) := ⟨fun _ h => by cases h⟩
theorem ub (u : UB) : NoThrow (.ub u : Res α) := ⟨fun _ h => by cases h⟩
theorem diverge : NoThrow (.diverge : Res α) := ⟨fun _ h => by cases h⟩
theorem pure (a : α) : NoThrow (Pure.pure a : Res α) := ok a

theorem bind {r : Res α} {f : α → Res β} (h : NoThrow r) (hf : ∀ a, NoThrow (f a)) :
    NoThrow (r >>= f) := by
  constructor
  intro e he
  cases r with
  | ok a => exact (hf a).ne e he
  | throw e' => exact h.ne e' rfl
  | ub u => cases he
  | diverge => cases he

theorem bind' {r : Res α} {f : α → Res β} (h : NoThrow r) (hf : ∀ a, NoThrow (f a)) :
    NoThrow (r.bind f) := bind h hf

theorem forEach {xs : List α} {f : σ → α → Res σ} (h : ∀ s x, NoThrow (f s x)) :
    ∀ s, NoThrow (Verif.forEach xs s f) := by
  induction xs with
  | nil => intro s; exact ok s
  | cons x xs ih => intro s; exact bind' (h s x) ih

theorem rd (v : List α) (i : Nat) : NoThrow (Verif.rd v i) := by
  unfold Verif.rd; split <;> first | exact ok _ | exact ub _

theorem wr (v : List α) (i : Nat) (x : α) : NoThrow (Verif.wr v i x) := by
  unfold Verif.wr; split <;> first | exact ok _ | exact ub _

theorem rdM (v : Mem α) (i : Nat) : NoThrow (Verif.rdM v i) := by
  unfold Verif.rdM; split <;> first | exact ok _ | exact ub _

theorem wrM (v : Mem α) (i : Nat) (x : α) : NoThrow (Verif.wrM v i x) := wr _ _ _

theorem assertThat (b : Bool) : NoThrow (Verif.assertThat b) := by
  unfold Verif.assertThat; split <;> first | exact ok _ | exact ub _

theorem intOfSize (n : Nat) : NoThrow (Verif.intOfSize n) := by
  unfold Verif.intOfSize; split <;> first | exact ok _ | exact ub _

theorem intSucc (n : Int) : NoThrow (Verif.intSucc n) := by
  unfold Verif.intSucc; split <;> first | exact ok _ | exact ub _

end NoThrow

theorem NoThrow.ite {α : Type} {c : Prop} [Decidable c] {r s : Res α} (h1 : NoThrow r)
    (h2 : NoThrow s) : NoThrow (if c then r else s) := by
  by_cases h : c
  · rw [if_pos h]; exact h1
  · rw [if_neg h]; exact h2

theorem noThrow_captureLoop (c : Nat) : ∀ n s, NoThrow (captureLoop c n s)
  | 0, _ => NoThrow.diverge
  | n + 1, s =>
    .bind (.assertThat _) fun _ => .bind (.rdM _ _) fun _ => .bind (.wrM _ _ _) fun _ =>
    .bind (.rdM _ _) fun _ => .bind (.wrM _ _ _) fun _ => .bind (.wrM _ _ _) fun _ =>
    .ite (noThrow_captureLoop c n _) (.pure _)

theorem noThrow_pushV (scc : SCCResult) (x : Nat) : NoThrow (pushV scc x) :=
  .ite (.ub _) (.bind (.wrM _ _ _) fun _ => .pure _)

theorem noThrow_pushC (scc : SCCResult) (x : Int) : NoThrow (pushC scc x) :=
  .ite (.ub _) (.bind (.wrM _ _ _) fun _ => .pure _)

theorem noThrow_captureScc (c : Nat) (s : Run) : NoThrow (captureScc c s) :=
  .bind (.rdM _ _) fun _ => .bind (.wrM _ _ _) fun _ =>
    .bind (noThrow_captureLoop _ _ _) fun _ => .pure _

theorem noThrow_completeDfs (c : Nat) (s : Run) : NoThrow (completeDfsFromVertex c s) :=
  .bind (.bind (.rdM _ _) fun _ => .bind (.rdM _ _) fun _ =>
      .ite (noThrow_captureScc _ _) (.pure _)) fun _ =>
    .ite (.bind (.rdM _ _) fun _ => .bind (.rdM _ _) fun _ => .bind (.rdM _ _) fun _ =>
      .bind (.wrM _ _ _) fun _ => .pure _) (.pure _)

theorem noThrow_visitChild (c d : Nat) (s : Run) : NoThrow (visitChild c d s) :=
  .bind (.rdM _ _) fun _ => .ite (.bind (noThrow_pushV _ _) fun _ => .pure _)
    (.ite (.bind (.rdM _ _) fun _ => .bind (.rdM _ _) fun _ => .bind (.wrM _ _ _) fun _ => .pure _)
      (.bind (.assertThat _) fun _ => .pure _))

theorem noThrow_dfsFromDescendant (c : Nat) (ia : List Nat) (ja : List Int) (s : Run) :
    NoThrow (dfsFromDescendant c ia ja s) :=
  .bind (.rdM _ _) fun _ => .bind (.assertThat _) fun _ => .bind (.rd _ _) fun _ =>
    .bind (.rd _ _) fun _ => .bind (.wrM _ _ _) fun _ => noThrow_visitChild _ _ _

theorem noThrow_discover (c : Nat) (ia : List Nat) (t : Int) (s : Run) :
    NoThrow (discoverIfRemaining c ia t s) :=
  .bind (.rdM _ _) fun _ => .ite
    (.bind (.rd _ _) fun _ => .bind (.rd _ _) fun _ => .bind (.intOfSize _) fun _ =>
      .bind (.wrM _ _ _) fun _ => .bind (.intSucc _) fun _ => .bind (.wrM _ _ _) fun _ =>
      .bind (.wrM _ _ _) fun _ => .bind (.intOfSize _) fun _ => .bind (noThrow_pushC _ _) fun _ =>
      .pure _) (.pure _)

theorem noThrow_localBody (ia : List Nat) (ja : List Int) (s : Run) (t : Int) :
    NoThrow (localBody ia ja s t) :=
  .bind (.rdM _ _) fun _ => .bind (.rdM _ _) fun _ => .bind (.assertThat _) fun _ =>
    .bind (.assertThat _) fun _ => .bind (noThrow_discover _ _ _ _) fun _ =>
    .bind (.bind (.rdM _ _) fun _ => .ite (noThrow_completeDfs _ _)
      (noThrow_dfsFromDescendant _ _ _ _)) fun _ => .pure _

theorem noThrow_localLoop (ia : List Nat) (ja : List Int) :
    ∀ n s t, NoThrow (localLoop ia ja n s t)
  | 0, s, t => by unfold localLoop; split <;> first | exact .ok _ | exact .diverge
  | n + 1, s, t => by
    unfold localLoop
    split
    · exact .ok _
    · exact .bind' (noThrow_localBody _ _ _ _) fun r => noThrow_localLoop ia ja n _ _

theorem noThrow_tarjanLocal (c : Nat) (ia : List Nat) (ja : List Int) (s : Run) (n : Nat) :
    NoThrow (tarjanLocal c ia ja s n) :=
  .bind (noThrow_pushV _ _) fun _ => .bind (noThrow_localLoop _ _ _ _ _) fun _ =>
    .bind (.assertThat _) fun _ => .pure _

theorem noThrow_findStart (w : WorkSpace) : ∀ n s, NoThrow (findStart w n s)
  | 0, _ => .ok _
  | n + 1, s => by
    unfold findStart
    refine .bind (.rdM _ _) fun _ => ?_
    split
    · exact noThrow_findStart w n _
    · exact .pure _

theorem noThrow_globalLoop (ia : List Nat) (ja : List Int) :
    ∀ n c s f, NoThrow (globalLoop ia ja n c s f)
  | 0, c, s, f => by unfold globalLoop; split <;> first | exact .ok _ | exact .diverge
  | n + 1, c, s, f => by
    unfold globalLoop
    split
    · exact .bind (noThrow_tarjanLocal _ _ _ _ _) fun _ => .bind (noThrow_findStart _ _ _) fun _ =>
        noThrow_globalLoop ia ja n _ _ _
    · exact .ok _

theorem noThrow_initialiseCsr (s : SCCResult) : NoThrow (initialiseCsr s) :=
  .bind (.wrM _ _ _) fun _ => .pure _

theorem noThrow_initialise (w : WorkSpace) (s : SCCResult) : NoThrow (initialise w s) :=
  .bind (.forEach (fun _ _ => .wrM _ _ _) _) fun _ => .bind (noThrow_initialiseCsr _) fun _ => .pure _

theorem noThrow_tarjanGlobal (ia : List Nat) (ja : List Int) (w : WorkSpace) (s : SCCResult)
    (n : Nat) : NoThrow (Tarjan.tarjanGlobal ia ja w s n) :=
  .bind (noThrow_initialise _ _) fun _ => .bind (noThrow_findStart _ _ _) fun _ =>
    noThrow_globalLoop _ _ _ _ _ _

theorem noThrow_reachableLoop (ia : List Nat) (ja : List Int) (pts : List Int) (s : Run)
    (n : Nat) : NoThrow (reachableLoop ia ja pts s n) := by
  refine .forEach (fun r p => .bind (.rdM _ _) fun _ => ?_) _
  split
  · exact .pure _
  · exact noThrow_tarjanLocal _ _ _ _ _

theorem noThrow_reverseSccCore (s d : SCCResult) : NoThrow (reverseSccCore s d) :=
  .bind (noThrow_initialiseCsr _) fun _ => .forEach (fun _ _ =>
    .bind (.rdM _ _) fun _ => .bind (.rdM _ _) fun _ => .bind (.rdM _ _) fun _ =>
    .bind (.wrM _ _ _) fun _ =>
    .bind (.forEach (fun _ _ => .bind (.rdM _ _) fun _ => .wrM _ _ _) _) fun _ =>
    .bind (.wrM _ _ _) fun _ => .pure _) _

end Verif.Heap
