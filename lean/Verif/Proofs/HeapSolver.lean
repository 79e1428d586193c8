/-
The solver on the heap does what `Verif.Solver` says and leaves no block behind.
-/
import Verif.Proofs.HeapCalls

namespace Verif.Heap
open Verif.Tarjan Verif.Solver

variable {α β : Type}

/-- Nothing is left. -/
def Gone (_ : Nat → Option Obj) (G : List Nat) : Prop := G = []

theorem withUnique_spec {γ : Type} {del : Ptr → H Unit} {p : Ptr} {body : H α} {h : Heap}
    {r : Res γ} {F : List Nat} {Q : α → γ → Prop}
    {Q' : α → γ → (Nat → Option Obj) → List Nat → Prop} {T : (Nat → Option Obj) → List Nat → Prop}
    (b : Ends h (body h) r F Q' T)
    (hdel : ∀ (h' : Heap) (G : List Nat), T h'.block G →
      ∃ h'', del p h' = some (h'', .ok ()) ∧ Step h' h'' ∧ Change h'.block h''.block G [])
    (hnull : p = none → ∀ f G, T f G → G = [])
    (hQ : ∀ a x f G, Q' a x f G → Q a x ∧ T f G) :
    Ends h (withUnique del p body h) r F (fun a x _ G => Q a x ∧ G = []) Gone := by
  cases r with
  | ok x =>
    obtain ⟨h', a, G, e, st, q, ch⟩ := b
    obtain ⟨q1, q2⟩ := hQ a x _ _ q
    cases p with
    | none =>
      have := hnull rfl _ _ q2
      subst this
      exact ⟨h', a, [], by simp [withUnique, e], st, ⟨q1, rfl⟩, ch⟩
    | some p =>
      obtain ⟨h'', e', st', ch'⟩ := hdel h' G q2
      exact ⟨h'', a, [], by simp [withUnique, e, bind_ok e', H.pure], st.trans st', ⟨q1, rfl⟩,
        ch.trans ch'⟩
  | throw x =>
    obtain ⟨h', G, e, st, q, ch⟩ := b
    cases p with
    | none =>
      have := hnull rfl _ _ q
      subst this
      exact ⟨h', [], by simp [withUnique, e], st, rfl, ch⟩
    | some p =>
      obtain ⟨h'', e', st', ch'⟩ := hdel h' G q
      exact ⟨h'', [], by simp [withUnique, e, bind_ok e', lift], st.trans st', rfl, ch.trans ch'⟩
  | ub u =>
    obtain ⟨h', e⟩ := b
    exact ⟨h', by simp [withUnique, e]⟩
  | diverge =>
    obtain ⟨h', e⟩ := b
    exact ⟨h', by simp [withUnique, e]⟩

theorem Ends.bind {γ δ : Type} {h : Heap} {m : H α} {k : α → H β} {r : Res γ} {r' : γ → Res δ}
    {F : List Nat} {Q : α → γ → (Nat → Option Obj) → List Nat → Prop}
    {Q' : β → δ → (Nat → Option Obj) → List Nat → Prop}
    {T T' : (Nat → Option Obj) → List Nat → Prop} (a : Ends h (m h) r F Q T)
    (hT : ∀ f G, T f G → T' f G)
    (b : ∀ h' a x G, r = .ok x → Step h h' → Q a x h'.block G → Ends h' (k a h') (r' x) G Q' T') :
    Ends h (H.bind m k h) (r.bind r') F Q' T' := by
  cases r with
  | ok x =>
    obtain ⟨h', y, G, e, st, q, ch⟩ := a
    have := b h' y x G rfl st q
    rw [bind_ok e]
    show Ends h _ (r' x) F Q' T'
    cases hr : r' x with
    | ok z =>
      rw [hr] at this
      obtain ⟨h'', y', G', e', st', q', ch'⟩ := this
      exact ⟨h'', y', G', e', st.trans st', q', ch.trans ch'⟩
    | throw z =>
      rw [hr] at this
      obtain ⟨h'', G', e', st', q', ch'⟩ := this
      exact ⟨h'', G', e', st.trans st', q', ch.trans ch'⟩
    | ub u => rw [hr] at this; exact this
    | diverge => rw [hr] at this; exact this
  | throw x =>
    obtain ⟨h', G, e, st, q, ch⟩ := a
    exact ⟨h', G, bind_throw e, st, hT _ _ q, ch⟩
  | ub u =>
    obtain ⟨h', e⟩ := a
    exact ⟨h', bind_ub e⟩
  | diverge =>
    obtain ⟨h', e⟩ := a
    exact ⟨h', bind_diverge e⟩

/-- A computation that does not touch the heap, within a call that owns `F`. -/
theorem Ends.lift {h : Heap} (r : Res α) {F : List Nat} (hF : F.Nodup)
    {T : (Nat → Option Obj) → List Nat → Prop} (hT : T h.block F) :
    Ends h (lift r h) r F (fun a x f G => a = x ∧ f = h.block ∧ G = F) T := by
  cases r with
  | ok a => exact ⟨h, a, F, rfl, .refl h, ⟨rfl, rfl, rfl⟩, .refl hF⟩
  | throw e => exact ⟨h, F, rfl, .refl h, hT, .refl hF⟩
  | ub u => exact ⟨h, rfl⟩
  | diverge => exact ⟨h, rfl⟩

theorem Ends.mono {γ : Type} {h : Heap} {m : Option (Heap × Res α)} {r : Res γ} {F : List Nat}
    {Q Q' : α → γ → (Nat → Option Obj) → List Nat → Prop}
    {T T' : (Nat → Option Obj) → List Nat → Prop} (a : Ends h m r F Q T)
    (hQ : ∀ a x f G, Q a x f G → Q' a x f G) (hT : ∀ f G, T f G → T' f G) : Ends h m r F Q' T' := by
  cases r with
  | ok x =>
    obtain ⟨h', y, G, e, st, q, ch⟩ := a
    exact ⟨h', y, G, e, st, hQ _ _ _ _ q, ch⟩
  | throw x =>
    obtain ⟨h', G, e, st, q, ch⟩ := a
    exact ⟨h', G, e, st, hT _ _ q, ch⟩
  | ub u => exact a
  | diverge => exact a

/-- The pointer `p` holds a result. -/
def Holds (p : Ptr) (f : Nat → Option Obj) (G : List Nat) : Prop := ∃ X, SccPtr f p X G

theorem destroy_holds {p : Ptr} (h' : Heap) (G : List Nat) (t : Holds p h'.block G) :
    ∃ h'', destroySccResult p h' = some (h'', .ok ()) ∧ Step h' h'' ∧
      Change h'.block h''.block G [] := by
  obtain ⟨X, s⟩ := t
  exact destroySccResult_ptr s

theorem holds_null {p : Ptr} (hp : p = none) (f : Nat → Option Obj) (G : List Nat)
    (t : Holds p f G) : G = [] := by
  obtain ⟨X, s⟩ := t
  subst hp
  cases s
  rfl

theorem reverseOrThrow_spec {h : Heap} (hv : h.Valid) {p : Ptr} {X : Option SCCResult}
    {F : List Nat} (w : SccPtr h.block p X F) :
    ∃ al, (h.NoFail → al = AllocSCC.mk true true true) ∧
      Ends h (reverseOrThrow p h) (Solver.reverseOrThrow al X) F
        (fun _ x f G => SccPtr f p (some x) G) (Holds p) := by
  obtain ⟨al, nf, e⟩ := reverseSccResult_spec hv w
  refine ⟨al, nf, ?_⟩
  unfold reverseOrThrow Solver.reverseOrThrow
  rw [bind_eq]
  refine Ends.bind e (fun _ _ h => h.elim) ?_
  rintro h' ok ⟨ok', Y⟩ G hr st ⟨rfl, s⟩
  cases ok with
  | false => exact ⟨h', G, rfl, .refl h', ⟨_, s⟩, .refl s.nodup⟩
  | true =>
    cases Y with
    | none =>
      -- a null result cannot have been reversed
      exfalso
      cases s
      cases w with
      | null => simp [Tarjan.reverseSccResult] at hr
    | some Y => exact ⟨h', (), G, rfl, .refl h', s, .refl s.nodup⟩

/-- The end of both orderings: reverse the result, copy it, destroy it. -/
theorem extract_spec {h : Heap} (hv : h.Valid) {p : Ptr} {X : Option SCCResult} {F : List Nat}
    (w : SccPtr h.block p X F) (k : SCCResult → Res β) :
    ∃ al, (h.NoFail → al = AllocSCC.mk true true true) ∧
      Ends h (withUnique destroySccResult p
          (H.bind (reverseOrThrow p) fun _ => H.bind (loadScc p) fun scc => lift (k scc)) h)
        ((Solver.reverseOrThrow al X).bind k) F (fun a x _ G => a = x ∧ G = []) Gone := by
  obtain ⟨al, nf, e⟩ := reverseOrThrow_spec hv w
  refine ⟨al, nf, withUnique_spec (T := Holds p) (Q := fun a x => a = x)
    (Q' := fun a x f G => a = x ∧ Holds p f G) ?_ destroy_holds holds_null (fun _ _ _ _ h => h)⟩
  refine Ends.bind e (fun _ _ h => h) ?_
  intro h' _ x G _ st s
  have hs := s
  cases s with
  | some s =>
    rw [bind_ok (loadScc_eq s)]
    refine (Ends.lift (k x) hs.nodup (T := Holds _) ⟨_, hs⟩).mono ?_ (fun _ _ h => h)
    rintro a y f G ⟨rfl, rfl, rfl⟩
    exact ⟨rfl, _, hs⟩

variable {R : Type}

/-- Two ways to write the end of `computeOrdering`. -/
theorem computeOrdering_eq (g : AssembledConnections R) (n fuel : Nat) (s : List Int × List Nat) :
    computeOrdering g n fuel s =
      H.bind (lift (assertThat (g.startPointers.length == n + 1))) fun _ =>
      H.bind (tarjan n g.startPointers g.neighbourhood fuel) fun p =>
      withUnique destroySccResult p
        (H.bind (reverseOrThrow p) fun _ => H.bind (loadScc p) fun scc => lift (
          (extractOrdering scc n s).bind fun s => (back s.2).bind fun last =>
          (assertThat (last == n)).bind fun _ => .ok s)) := by
  have e : ∀ scc, (H.bind (lift (extractOrdering scc n s)) fun s => H.bind (lift (back s.2)) fun last =>
      H.bind (lift (assertThat (last == n))) fun _ => H.pure s) = lift (
          (extractOrdering scc n s).bind fun s => (back s.2).bind fun last =>
          (assertThat (last == n)).bind fun _ => .ok s) := by
    intro scc
    funext h
    cases h1 : extractOrdering scc n s with
    | ok s' =>
      rw [bind_ok (lift_eq _ _)]
      simp only [Res.bind]
      cases h2 : back s'.2 with
      | ok l =>
        rw [bind_ok (lift_eq _ _)]
        simp only
        cases h3 : assertThat (l == n) <;> rfl
      | throw e => rfl
      | ub u => rfl
      | diverge => rfl
    | throw e => rfl
    | ub u => rfl
    | diverge => rfl
  simp only [computeOrdering, bind_eq, pure_eq]
  simp only [e]

theorem computeLocalOrdering_eq (g : AssembledConnections R) (n : Nat) (cells : List Int)
    (fuel : Nat) (s : List Int × List Nat) :
    computeLocalOrdering g n cells fuel s =
      H.bind (lift (assertThat (g.startPointers.length == n + 1))) fun _ =>
      H.bind (createWorkspace n) fun ws =>
      H.bind (withUnique destroyWorkspace ws
        (reachableSccs n g.startPointers g.neighbourhood cells ws fuel)) fun p =>
      withUnique destroySccResult p
        (H.bind (reverseOrThrow p) fun _ => H.bind (loadScc p) fun scc => lift (
          (extractOrdering scc n s).bind fun s => (back s.2).bind fun last =>
          .ok (resize s.1 last 0, s.2))) := by
  have e : ∀ scc, (H.bind (lift (extractOrdering scc n s)) fun s => H.bind (lift (back s.2)) fun last =>
      H.pure (resize s.1 last 0, s.2)) = lift (
          (extractOrdering scc n s).bind fun s => (back s.2).bind fun last =>
          .ok (resize s.1 last 0, s.2)) := by
    intro scc
    funext h
    cases h1 : extractOrdering scc n s with
    | ok s' =>
      rw [bind_ok (lift_eq _ _)]
      simp only [Res.bind]
      cases h2 : back s'.2 <;> rfl
    | throw e => rfl
    | ub u => rfl
    | diverge => rfl
  simp only [computeLocalOrdering, bind_eq, pure_eq]
  simp only [e]

/-- A call on the heap that an earlier part of the enclosing call left. -/
theorem Ends.after {γ : Type} {h h' : Heap} {m : Option (Heap × Res α)} {r : Res γ}
    {F G : List Nat} {Q : α → γ → (Nat → Option Obj) → List Nat → Prop}
    {T : (Nat → Option Obj) → List Nat → Prop} (e : Ends h' m r G Q T) (st : Step h h')
    (ch : Change h.block h'.block F G) : Ends h m r F Q T := by
  cases r with
  | ok z =>
    obtain ⟨h'', y', G', e', st', q', ch'⟩ := e
    exact ⟨h'', y', G', e', st.trans st', q', ch.trans ch'⟩
  | throw z =>
    obtain ⟨h'', G', e', st', q', ch'⟩ := e
    exact ⟨h'', G', e', st.trans st', q', ch.trans ch'⟩
  | ub u => exact e
  | diverge => exact e

theorem computeOrdering_spec (g : AssembledConnections R) (n fuel : Nat) (s : List Int × List Nat)
    {h : Heap} (hv : h.Valid) :
    ∃ al, (h.NoFail → al = Alloc.good) ∧
      Ends h (computeOrdering g n fuel s h) (Solver.computeOrdering g n al fuel s) []
        (fun a x _ G => a = x ∧ G = []) Gone := by
  rw [computeOrdering_eq]
  cases hb : (g.startPointers.length == n + 1) with
  | false =>
    refine ⟨Alloc.good, fun _ => rfl, ?_⟩
    simp only [Solver.computeOrdering, hb]
    exact ⟨h, rfl⟩
  | true =>
  obtain ⟨ws, st, al, nf, e⟩ := tarjan_spec n g.startPointers g.neighbourhood fuel hv
  have e0 : lift (assertThat true) h = some (h, .ok ()) := rfl
  rw [bind_ok e0]
  cases hr : Tarjan.tarjan ws st al n g.startPointers g.neighbourhood fuel with
  | ok X =>
    rw [hr] at e
    obtain ⟨h', p, G, e1, st1, s1, ch1⟩ := e
    obtain ⟨al', nf', e2⟩ := extract_spec (st1.valid hv) s1 (fun scc =>
          (extractOrdering scc n s).bind fun s => (back s.2).bind fun last =>
          (assertThat (last == n)).bind fun _ => .ok s)
    refine ⟨⟨ws, st, al, al'⟩, ?_, ?_⟩
    · intro h0
      obtain ⟨rfl, rfl, rfl⟩ := nf h0
      rw [nf' (st1.noFail h0)]; rfl
    · rw [bind_ok e1]
      simp only [Solver.computeOrdering, hb, hr]
      exact e2.after st1 ch1
  | throw x => rw [hr] at e; obtain ⟨_, _, _, _, f, _⟩ := e; exact f.elim
  | ub u =>
    rw [hr] at e
    obtain ⟨h', e⟩ := e
    refine ⟨⟨ws, st, al, ⟨true, true, true⟩⟩, ?_, ?_⟩
    · intro h0
      obtain ⟨rfl, rfl, rfl⟩ := nf h0
      rfl
    · simp only [Solver.computeOrdering, hb, hr]
      exact ⟨h', bind_ub e⟩
  | diverge =>
    rw [hr] at e
    obtain ⟨h', e⟩ := e
    refine ⟨⟨ws, st, al, ⟨true, true, true⟩⟩, ?_, ?_⟩
    · intro h0
      obtain ⟨rfl, rfl, rfl⟩ := nf h0
      rfl
    · simp only [Solver.computeOrdering, hb, hr]
      exact ⟨h', bind_diverge e⟩

/-- The scope of the workspace in `computeLocalOrdering`. -/
theorem workspaceScope_spec (nv : Nat) (ia : List Nat) (ja : List Int) (pts : List Int)
    (fuel : Nat) {h : Heap} (hv : h.Valid) {p : Ptr} {X : Option WorkSpace} {F : List Nat}
    (w : WorkPtr h.block p X F) :
    ∃ al, (h.NoFail → al = AllocSCC.mk true true true) ∧
      Ends h (withUnique destroyWorkspace p (reachableSccs nv ia ja pts p fuel) h)
        (Tarjan.reachableSccs al nv ia ja pts X fuel) F (fun q x f G => SccPtr f q x.1 G) := by
  obtain ⟨al, nf, e⟩ := reachableSccs_spec nv ia ja pts fuel hv w
  refine ⟨al, nf, ?_⟩
  cases hr : Tarjan.reachableSccs al nv ia ja pts X fuel with
  | ok x =>
    rw [hr] at e
    obtain ⟨h', q, _, e1, st1, ⟨G, rfl, s1, w1⟩, ch1⟩ := e
    obtain ⟨h2, e2, st2, ch2⟩ := destroyWorkspace_ptr w1
    have hd : ∀ y ∈ G, y ∉ F := by
      intro y hy hF
      have := ch1.nodup
      rw [List.nodup_append] at this
      exact this.2.2 y hF y hy rfl
    refine ⟨h2, q, G, ?_, st1.trans st2,
      s1.congr fun y hy => ch2.frame y (hd y hy) (by simp), ?_⟩
    · cases p with
      | none =>
        have e2' := destroyWorkspace_null h'
        rw [e2'] at e2
        injection e2 with e2
        injection e2 with e2 _
        subst e2
        simp [withUnique, e1]
      | some p => simp [withUnique, e1, bind_ok e2, H.pure]
    · have c2 := ch2.extend s1.nodup (fun y _ => by simp)
      rw [List.append_nil] at c2
      exact ch1.trans (c2.perm List.perm_append_comm (List.Perm.refl _))
  | throw x => rw [hr] at e; obtain ⟨_, _, _, _, f, _⟩ := e; exact f.elim
  | ub u =>
    rw [hr] at e
    obtain ⟨h', e⟩ := e
    exact ⟨h', by simp [withUnique, e]⟩
  | diverge =>
    rw [hr] at e
    obtain ⟨h', e⟩ := e
    exact ⟨h', by simp [withUnique, e]⟩

theorem computeLocalOrdering_spec (g : AssembledConnections R) (n : Nat) (cells : List Int)
    (fuel : Nat) (s : List Int × List Nat) {h : Heap} (hv : h.Valid) :
    ∃ al, (h.NoFail → al = Alloc.good) ∧
      Ends h (computeLocalOrdering g n cells fuel s h)
        (Solver.computeLocalOrdering g n cells al fuel s) []
        (fun a x _ G => a = x ∧ G = []) Gone := by
  rw [computeLocalOrdering_eq]
  cases hb : (g.startPointers.length == n + 1) with
  | false =>
    refine ⟨Alloc.good, fun _ => rfl, ?_⟩
    simp only [Solver.computeLocalOrdering, hb]
    exact ⟨h, rfl⟩
  | true =>
  have e0 : lift (assertThat true) h = some (h, .ok ()) := rfl
  rw [bind_ok e0]
  obtain ⟨h1, q, ws, st, F, ew, st1, nf1, w1, ch1⟩ := createWorkspace_spec n hv
  rw [bind_ok ew]
  obtain ⟨al, nf, e⟩ := workspaceScope_spec n g.startPointers g.neighbourhood cells fuel
    (st1.valid hv) w1
  cases hr : Tarjan.reachableSccs al n g.startPointers g.neighbourhood cells
      (Tarjan.createWorkspace ws st n) fuel with
  | ok X =>
    rw [hr] at e
    obtain ⟨h2, p, G, e2, st2, s2, ch2⟩ := e
    obtain ⟨al', nf', e3⟩ := extract_spec (st2.valid (st1.valid hv)) s2 (fun scc =>
          (extractOrdering scc n s).bind fun s => (back s.2).bind fun last =>
          .ok (resize s.1 last 0, s.2))
    refine ⟨⟨ws, st, al, al'⟩, ?_, ?_⟩
    · intro h0
      obtain ⟨rfl, rfl⟩ := nf1 h0
      rw [nf (st1.noFail h0), nf' (st2.noFail (st1.noFail h0))]; rfl
    · rw [bind_ok e2]
      simp only [Solver.computeLocalOrdering, hb, hr]
      exact e3.after (st1.trans st2) (ch1.trans ch2)
  | throw x => rw [hr] at e; obtain ⟨_, _, _, _, f, _⟩ := e; exact f.elim
  | ub u =>
    rw [hr] at e
    obtain ⟨h', e⟩ := e
    refine ⟨⟨ws, st, al, ⟨true, true, true⟩⟩, ?_, ?_⟩
    · intro h0
      obtain ⟨rfl, rfl⟩ := nf1 h0
      rw [nf (st1.noFail h0)]; rfl
    · simp only [Solver.computeLocalOrdering, hb, hr]
      exact ⟨h', bind_ub e⟩
  | diverge =>
    rw [hr] at e
    obtain ⟨h', e⟩ := e
    refine ⟨⟨ws, st, al, ⟨true, true, true⟩⟩, ?_, ?_⟩
    · intro h0
      obtain ⟨rfl, rfl⟩ := nf1 h0
      rw [nf (st1.noFail h0)]; rfl
    · simp only [Solver.computeLocalOrdering, hb, hr]
      exact ⟨h', bind_diverge e⟩

/-- How a call of the solver ends on the heap: with the state and the outcome `r`, every
    block that lived before unchanged and, unless the call ended with undefined behaviour or
    not at all, no other block. -/
def SolverEnds {S : Type} (h : Heap) (m : Option (Heap × S × Res α)) (r : S × Res α) : Prop :=
  ∃ h', m = some (h', r) ∧
    (((∃ a, r.2 = .ok a) ∨ ∃ e, r.2 = .throw e) → Step h h' ∧ h'.block = h.block)

theorem finish_spec {S γ : Type} {h : Heap} {s : S} {m : H γ} {r : Res γ}
    {k : γ → Heap → Option (Heap × S × Res α)} {k' : γ → S × Res α}
    (e : Ends h (m h) r [] (fun a x _ G => a = x ∧ G = []) Gone)
    (hk : ∀ a h', Step h h' → h'.block = h.block → SolverEnds h' (k a h') (k' a)) :
    SolverEnds h (finish s m k h) (Solver.finish s r k') := by
  cases r with
  | ok x =>
    obtain ⟨h', a, G, e, st, ⟨rfl, rfl⟩, ch⟩ := e
    obtain ⟨h'', e', f⟩ := hk a h' st ch.eq
    refine ⟨h'', by simp [finish, e, e', Solver.finish], ?_⟩
    intro hx
    obtain ⟨st', b'⟩ := f hx
    exact ⟨st.trans st', b'.trans ch.eq⟩
  | throw x =>
    obtain ⟨h', G, e, st, rfl, ch⟩ := e
    exact ⟨h', by simp [finish, e, Solver.finish], fun _ => ⟨st, ch.eq⟩⟩
  | ub u =>
    obtain ⟨h', e⟩ := e
    refine ⟨h', by simp [finish, e, Solver.finish], ?_⟩
    rintro (⟨a, ha⟩ | ⟨a, ha⟩) <;> cases ha
  | diverge =>
    obtain ⟨h', e⟩ := e
    refine ⟨h', by simp [finish, e, Solver.finish], ?_⟩
    rintro (⟨a, ha⟩ | ⟨a, ha⟩) <;> cases ha

theorem finish_lift {S γ : Type} {h : Heap} {s : S} (r : Res γ)
    {k : γ → Heap → Option (Heap × S × Res α)} {k' : γ → S × Res α}
    (hk : ∀ a, SolverEnds h (k a h) (k' a)) :
    SolverEnds h (finish s (lift r) k h) (Solver.finish s r k') := by
  cases r with
  | ok x => exact hk x
  | throw x => exact ⟨h, rfl, fun _ => ⟨.refl h, rfl⟩⟩
  | ub u => exact ⟨h, rfl, by rintro (⟨a, ha⟩ | ⟨a, ha⟩) <;> cases ha⟩
  | diverge => exact ⟨h, rfl, by rintro (⟨a, ha⟩ | ⟨a, ha⟩) <;> cases ha⟩

variable [Arith R]

theorem solveGlobal_spec (d : SolverData R) (fuel : Nat) (s : SolverState R) {h : Heap}
    (hv : h.Valid) : ∃ al, (h.NoFail → al = Alloc.good) ∧
      SolverEnds h (solveGlobal d fuel s h) (Solver.solveGlobal d al fuel s) := by
  obtain ⟨al, nf, e⟩ := computeOrdering_spec d.g d.pv.length fuel
    ((prepareForSolve d s).sequence, (prepareForSolve d s).componentStarts) hv
  refine ⟨al, nf, finish_lift _ fun isStart => ?_⟩
  refine finish_spec e fun o h' _ _ => ?_
  exact finish_lift _ fun f => ⟨h', rfl, fun _ => ⟨.refl h', rfl⟩⟩

theorem solveLocal_spec (d : SolverData R) (fuel : Nat) (startset : CellSetValues R)
    (s : SolverState R) {h : Heap} (hv : h.Valid) : ∃ al, (h.NoFail → al = Alloc.good) ∧
      SolverEnds h (solveLocal d fuel startset s h) (Solver.solveLocal d al fuel startset s) := by
  obtain ⟨al, nf, e⟩ := computeLocalOrdering_spec d.g d.pv.length (startset.map fun p => p.1) fuel
    ((prepareForSolve d s).sequence, (prepareForSolve d s).componentStarts) hv
  refine ⟨al, nf, finish_lift _ fun isStart => ?_⟩
  refine finish_spec e fun o h' _ _ => ?_
  refine finish_lift _ fun _ => ?_
  refine finish_lift _ fun f => ?_
  refine finish_lift _ fun ls => ?_
  exact finish_lift _ fun r => ⟨h', rfl, fun _ => ⟨.refl h', rfl⟩⟩

end Verif.Heap
