/-
Histories of calls of the C interface on the heap.
-/
import Verif.Spec.HeapHistory
import Verif.Proofs.HeapCalls

namespace Verif.Heap
open Verif.Tarjan Verif.Spec

/-- The handle `hd` stands for the value `v`, which lives in the blocks `F`. -/
inductive At (f : Nat → Option Obj) : Handle → Value → List Nat → Prop
  | ws {p : Ptr} {x : Option WorkSpace} {F : List Nat} (w : WorkPtr f p x F) : At f (.ws p) (.ws x) F
  | res {p : Ptr} {x : Option SCCResult} {F : List Nat} (w : SccPtr f p x F) :
      At f (.res p) (.res x) F

/-- The same for a list of handles. -/
inductive AtAll (f : Nat → Option Obj) : List (Handle × Value) → List Nat → Prop
  | nil : AtAll f [] []
  | cons {p : Handle × Value} {ps : List (Handle × Value)} {F G : List Nat} (a : At f p.1 p.2 F)
      (b : AtAll f ps G) : AtAll f (p :: ps) (F ++ G)

theorem At.congr {f g : Nat → Option Obj} {hd : Handle} {v : Value} {F : List Nat}
    (w : At f hd v F) (h : ∀ y ∈ F, g y = f y) : At g hd v F := by
  cases w with
  | ws w => exact .ws (w.congr h)
  | res w => exact .res (w.congr h)

theorem At.live {f : Nat → Option Obj} {hd : Handle} {v : Value} {F : List Nat}
    (w : At f hd v F) : ∀ y ∈ F, f y ≠ none := by
  cases w with
  | ws w => exact w.live
  | res w => exact w.live

theorem At.nodup {f : Nat → Option Obj} {hd : Handle} {v : Value} {F : List Nat}
    (w : At f hd v F) : F.Nodup := by
  cases w with
  | ws w => exact w.nodup
  | res w => exact w.nodup

theorem At.length {f : Nat → Option Obj} {hd : Handle} {v : Value} {F : List Nat}
    (w : At f hd v F) : F.length = hd.blocks := by
  cases w with
  | ws w => cases w <;> rfl
  | res w => cases w <;> rfl

theorem At.reads {h : Heap} {hd : Handle} {v : Value} {F : List Nat}
    (w : At h.block hd v F) : Reads h hd v := by
  cases w with
  | ws w =>
    cases w with
    | null => rfl
    | some w => exact ⟨_, rfl, loadWork_eq w⟩
  | res w =>
    cases w with
    | null => rfl
    | some w => exact ⟨_, rfl, loadScc_eq w⟩

theorem AtAll.congr {f g : Nat → Option Obj} {ps : List (Handle × Value)} {F : List Nat}
    (w : AtAll f ps F) (h : ∀ y ∈ F, g y = f y) : AtAll g ps F := by
  induction w with
  | nil => exact .nil
  | cons a b ih =>
    exact .cons (a.congr fun y hy => h y (List.mem_append_left _ hy))
      (ih fun y hy => h y (List.mem_append_right _ hy))

theorem AtAll.live {f : Nat → Option Obj} {ps : List (Handle × Value)} {F : List Nat}
    (w : AtAll f ps F) : ∀ y ∈ F, f y ≠ none := by
  induction w with
  | nil => simp
  | cons a b ih =>
    intro y hy
    rcases List.mem_append.1 hy with h | h
    · exact a.live y h
    · exact ih y h

theorem AtAll.length {f : Nat → Option Obj} {ps : List (Handle × Value)} {F : List Nat}
    (w : AtAll f ps F) : F.length = ((ps.map Prod.fst).map Handle.blocks).sum := by
  induction w with
  | nil => rfl
  | cons a b ih => simp [ih, a.length]

theorem AtAll.perm {f : Nat → Option Obj} {ps qs : List (Handle × Value)} (hp : ps.Perm qs) :
    ∀ {F : List Nat}, AtAll f ps F → ∃ G, AtAll f qs G ∧ F.Perm G := by
  induction hp with
  | nil => intro F w; exact ⟨F, w, .refl _⟩
  | cons p _ ih =>
    intro F w
    cases w with
    | cons a b =>
      obtain ⟨G, b', pb⟩ := ih b
      exact ⟨_, .cons a b', pb.append_left _⟩
  | swap p q ps =>
    intro F w
    cases w with
    | cons a b =>
      cases b with
      | cons b c =>
        refine ⟨_, .cons b (.cons a c), ?_⟩
        rw [← List.append_assoc, ← List.append_assoc]
        exact List.perm_append_comm.append_right _
  | trans _ _ ih1 ih2 =>
    intro F w
    obtain ⟨G, w1, p1⟩ := ih1 w
    obtain ⟨K, w2, p2⟩ := ih2 w1
    exact ⟨K, w2, p1.trans p2⟩

theorem AtAll.append {f : Nat → Option Obj} {ps qs : List (Handle × Value)} {F G : List Nat}
    (a : AtAll f ps F) (b : AtAll f qs G) : AtAll f (ps ++ qs) (F ++ G) := by
  induction a with
  | nil => exact b
  | cons a _ ih => rw [List.append_assoc]; exact .cons a ih

theorem AtAll.split {f : Nat → Option Obj} {ps qs : List (Handle × Value)} {K : List Nat}
    (a : AtAll f (ps ++ qs) K) : ∃ F G, K = F ++ G ∧ AtAll f ps F ∧ AtAll f qs G := by
  induction ps generalizing K with
  | nil => exact ⟨[], K, rfl, .nil, a⟩
  | cons p ps ih =>
    cases a with
    | cons a b =>
      obtain ⟨F, G, rfl, a', b'⟩ := ih b
      exact ⟨_, G, by rw [List.append_assoc], .cons a a', b'⟩

/-- What the program holds lives in the blocks `K`; outside of these nothing has changed since
    the blocks were `base`. -/
def Inv (base f : Nat → Option Obj) (ps : List (Handle × Value)) : Prop :=
  ∃ K, AtAll f ps K ∧ Change base f [] K

theorem Inv.perm {base f : Nat → Option Obj} {ps qs : List (Handle × Value)} (hp : ps.Perm qs)
    (i : Inv base f ps) : Inv base f qs := by
  obtain ⟨K, a, c⟩ := i
  obtain ⟨G, b, p⟩ := a.perm hp
  exact ⟨G, b, c.perm (.refl _) p⟩

/-- A call that concerns only the first handles. -/
theorem Inv.step {base f g : Nat → Option Obj} {ps qs rest : List (Handle × Value)}
    (i : Inv base f (ps ++ rest))
    (h : ∀ F, AtAll f ps F → ∃ G, AtAll g qs G ∧ Change f g F G) : Inv base g (qs ++ rest) := by
  obtain ⟨K, a, c⟩ := i
  obtain ⟨F, X, rfl, ap, ar⟩ := a.split
  obtain ⟨G, aq, ch⟩ := h F ap
  have hFX : ∀ y ∈ X, y ∉ F := by
    intro y hy hF
    have := c.nodup
    rw [List.nodup_append] at this
    exact this.2.2 y hF y hy rfl
  have hX : X.Nodup := by
    have := c.nodup
    rw [List.nodup_append] at this
    exact this.2.1
  have hGX : ∀ y ∈ X, y ∉ G := by
    intro y hy hG
    rcases ch.fresh y hG with h | h
    · exact hFX y hy h
    · exact ar.live y hy h
  refine ⟨G ++ X, aq.append (ar.congr fun y hy => ch.frame y (hFX y hy) (hGX y hy)), ?_⟩
  exact c.trans ((ch.extend hX hGX).perm List.perm_append_comm List.perm_append_comm)

theorem perm_set {α : Type} {l : List α} {i : Nat} {a b : α} (h : l[i]? = some a) :
    ∃ rest, l.Perm (a :: rest) ∧ (l.set i b).Perm (b :: rest) := by
  induction l generalizing i with
  | nil => simp at h
  | cons x l ih =>
    cases i with
    | zero =>
      simp at h
      subst h
      exact ⟨l, .refl _, .refl _⟩
    | succ i =>
      simp at h
      obtain ⟨rest, p1, p2⟩ := ih h
      refine ⟨x :: rest, (p1.cons x).trans (.swap _ _ _), ?_⟩
      rw [List.set_cons_succ]
      exact (p2.cons x).trans (.swap _ _ _)

theorem AtAll.one {f : Nat → Option Obj} {p : Handle × Value} {F : List Nat}
    (a : AtAll f [p] F) : At f p.1 p.2 F := by
  cases a with
  | cons a b => cases b with | nil => rwa [List.append_nil]

theorem At.all {f : Nat → Option Obj} {p : Handle × Value} {F : List Nat}
    (a : At f p.1 p.2 F) : AtAll f [p] F := by
  have := AtAll.cons a .nil
  rwa [List.append_nil] at this

/-- How a call ends that a program makes which holds `ps`. -/
def CallEnds (base : Nat → Option Obj) (h : Heap) (m : Option (Heap × Res (List Handle)))
    (r : Res (List Value)) : Prop :=
  match r with
  | .ok vs => ∃ h' ps, m = some (h', .ok (ps.map Prod.fst)) ∧ ps.map Prod.snd = vs ∧ Step h h' ∧
      Inv base h'.block ps
  | .throw _ => False
  | .ub u => ∃ h', m = some (h', .ub u)
  | .diverge => ∃ h', m = some (h', .diverge)

theorem map_set {α β : Type} (f : α → β) (l : List α) (i : Nat) (a : α) :
    (l.set i a).map f = (l.map f).set i (f a) := by
  rw [List.map_set]

theorem set_same {α : Type} {l : List α} {i : Nat} {a : α} (h : l[i]? = some a) :
    l.set i a = l := by
  obtain ⟨hi, rfl⟩ := List.getElem?_eq_some_iff.1 h
  exact List.set_getElem_self hi

/-- A call that does nothing. -/
theorem CallEnds.same {base : Nat → Option Obj} {h : Heap} {ps : List (Handle × Value)}
    (i : Inv base h.block ps) :
    CallEnds base h (some (h, .ok (ps.map Prod.fst))) (.ok (ps.map Prod.snd)) :=
  ⟨h, ps, rfl, rfl, .refl h, i⟩

/-- A call that yields a new object. -/
theorem CallEnds.new {base : Nat → Option Obj} {h h' : Heap} {ps : List (Handle × Value)}
    (i : Inv base h.block ps) {hd : Handle} {v : Value} {F : List Nat} (st : Step h h')
    (a : At h'.block hd v F) (ch : Change h.block h'.block [] F) :
    CallEnds base h (some (h', .ok (ps.map Prod.fst ++ [hd]))) (.ok (ps.map Prod.snd ++ [v])) := by
  refine ⟨h', ps ++ [(hd, v)], by simp, by simp, st, ?_⟩
  have := Inv.step (ps := []) (qs := [(hd, v)]) (rest := ps) (g := h'.block) i (by
    intro F' a'
    cases a'
    exact ⟨F, a.all, ch⟩)
  exact this.perm List.perm_append_comm

/-- A call that changes an object. -/
theorem Inv.change {base : Nat → Option Obj} {h h' : Heap} {ps : List (Handle × Value)}
    (i : Inv base h.block ps) {k : Nat} {p q : Handle × Value} (hk : ps[k]? = some p)
    (hq : ∀ F, At h.block p.1 p.2 F → ∃ G, At h'.block q.1 q.2 G ∧ Change h.block h'.block F G) :
    Inv base h'.block (ps.set k q) := by
  obtain ⟨rest, p1, p2⟩ := perm_set (b := q) hk
  have i' := i.perm p1
  refine Inv.perm p2.symm (Inv.step (ps := [p]) (qs := [q]) (rest := rest) i' ?_)
  intro F a
  obtain ⟨G, b, ch⟩ := hq F a.one
  exact ⟨G, b.all, ch⟩

/-- Where the object at position `k` lives. -/
theorem Inv.get {base f : Nat → Option Obj} {ps : List (Handle × Value)}
    (i : Inv base f ps) {k : Nat} {p : Handle × Value} (hk : ps[k]? = some p) :
    ∃ F, At f p.1 p.2 F := by
  obtain ⟨rest, p1, _⟩ := perm_set (b := p) hk
  obtain ⟨K, a, _⟩ := i.perm p1
  cases a with
  | cons a b => exact ⟨_, a⟩

theorem WorkPtr.unique {f : Nat → Option Obj} {p : Ptr} {x y : Option WorkSpace} {F G : List Nat}
    (a : WorkPtr f p x F) (b : WorkPtr f p y G) : x = y ∧ F = G := by
  cases a with
  | null => cases b; exact ⟨rfl, rfl⟩
  | @some a c x w =>
    cases b with
    | @some _ c' y w' =>
      have e := w.str.symm.trans w'.str
      simp only [Option.some.injEq, Obj.work.injEq, WorkStruct.mk.injEq] at e
      obtain ⟨e1, rfl⟩ := e
      have e' := w.arr.symm.trans w'.arr
      simp only [Option.some.injEq, Obj.threeInts.injEq] at e'
      refine ⟨?_, rfl⟩
      cases x; cases y; simp_all

theorem SccPtr.unique {f : Nat → Option Obj} {p : Ptr} {x y : Option SCCResult} {F G : List Nat}
    (a : SccPtr f p x F) (b : SccPtr f p y G) : x = y ∧ F = G := by
  cases a with
  | null => cases b; exact ⟨rfl, rfl⟩
  | @some a c d x w =>
    cases b with
    | @some _ c' d' y w' =>
      have e := w.str.symm.trans w'.str
      simp only [Option.some.injEq, Obj.scc.injEq, SccStruct.mk.injEq] at e
      obtain ⟨e1, rfl, rfl, e2⟩ := e
      have e' := w.start.symm.trans w'.start
      have e'' := w.vert.symm.trans w'.vert
      simp only [Option.some.injEq, Obj.sizes.injEq] at e'
      simp only [Option.some.injEq, Obj.ints.injEq] at e''
      refine ⟨?_, rfl⟩
      cases x; cases y; simp_all

theorem apiStep_spec (fuel : Nat) {base : Nat → Option Obj} {h : Heap} (hv : h.Valid)
    {ps : List (Handle × Value)} (i : Inv base h.block ps) (c : ApiCall) :
    ∃ a, (h.NoFail → a = CallAlloc.good) ∧
      CallEnds base h (apiStep fuel (ps.map Prod.fst) c h)
        (valueStep fuel a (ps.map Prod.snd) c) := by
  cases c with
  | createWorkspace n =>
    obtain ⟨h', p, ws, st, F, e, s, nf, w, ch⟩ := createWorkspace_spec n hv
    refine ⟨⟨ws, st, ⟨true, true, true⟩⟩, ?_, ?_⟩
    · intro h0; obtain ⟨rfl, rfl⟩ := nf h0; rfl
    · have := CallEnds.new i s (At.ws w) ch
      have e' : apiStep fuel (ps.map Prod.fst) (.createWorkspace n) h =
          some (h', .ok (ps.map Prod.fst ++ [.ws p])) := by
        simp only [apiStep, bind_eq, pure_eq]
        rw [bind_ok e]; rfl
      rw [e']
      exact this
  | tarjan nv ia ja =>
    obtain ⟨ws, st, al, nf, e⟩ := tarjan_spec nv ia ja fuel hv
    refine ⟨⟨ws, st, al⟩, ?_, ?_⟩
    · intro h0; obtain ⟨rfl, rfl, rfl⟩ := nf h0; rfl
    · simp only [valueStep, apiStep, bind_eq, pure_eq]
      cases hr : Tarjan.tarjan ws st al nv ia ja fuel with
      | ok x =>
        rw [hr] at e
        obtain ⟨h', p, G, e1, st1, s1, ch1⟩ := e
        rw [bind_ok e1]
        exact CallEnds.new i st1 (At.res s1) ch1
      | throw x => rw [hr] at e; obtain ⟨_, _, _, _, f, _⟩ := e; exact f.elim
      | ub u => rw [hr] at e; obtain ⟨h', e⟩ := e; exact ⟨h', bind_ub e⟩
      | diverge => rw [hr] at e; obtain ⟨h', e⟩ := e; exact ⟨h', bind_diverge e⟩
  | destroyWorkspace k =>
    refine ⟨CallAlloc.good, fun _ => rfl, ?_⟩
    simp only [valueStep, apiStep, List.getElem?_map]
    cases hk : ps[k]? with
    | none => exact CallEnds.same i
    | some p =>
      obtain ⟨F, a⟩ := i.get hk
      obtain ⟨hd, v⟩ := p
      cases a with
      | res w => exact CallEnds.same i
      | @ws p x F w =>
        obtain ⟨h', e, st, ch⟩ := destroyWorkspace_ptr w
        simp only [Option.map_some, bind_eq, pure_eq]
        rw [bind_ok e]
        refine ⟨h', ps.set k (.ws none, .ws none), by rw [map_set]; rfl, by rw [map_set], st, ?_⟩
        refine i.change hk ?_
        intro F' a'
        cases a' with
        | ws w' =>
          obtain ⟨_, rfl⟩ := w.unique w'
          exact ⟨[], At.ws .null, ch⟩
  | destroyResult k =>
    refine ⟨CallAlloc.good, fun _ => rfl, ?_⟩
    simp only [valueStep, apiStep, List.getElem?_map]
    cases hk : ps[k]? with
    | none => exact CallEnds.same i
    | some p =>
      obtain ⟨F, a⟩ := i.get hk
      obtain ⟨hd, v⟩ := p
      cases a with
      | ws w => exact CallEnds.same i
      | @res p x F w =>
        obtain ⟨h', e, st, ch⟩ := destroySccResult_ptr w
        simp only [Option.map_some, bind_eq, pure_eq]
        rw [bind_ok e]
        refine ⟨h', ps.set k (.res none, .res none), by rw [map_set]; rfl, by rw [map_set], st, ?_⟩
        refine i.change hk ?_
        intro F' a'
        cases a' with
        | res w' =>
          obtain ⟨_, rfl⟩ := w.unique w'
          exact ⟨[], At.res .null, ch⟩
  | reverse k =>
    simp only [valueStep, apiStep, List.getElem?_map]
    cases hk : ps[k]? with
    | none => exact ⟨CallAlloc.good, fun _ => rfl, CallEnds.same i⟩
    | some p =>
      obtain ⟨F, a⟩ := i.get hk
      obtain ⟨hd, v⟩ := p
      cases a with
      | ws w => exact ⟨CallAlloc.good, fun _ => rfl, CallEnds.same i⟩
      | @res p x F w =>
        obtain ⟨al, nf, e⟩ := reverseSccResult_spec hv w
        refine ⟨⟨true, true, al⟩, fun h0 => by rw [nf h0]; rfl, ?_⟩
        simp only [Option.map_some, bind_eq, pure_eq]
        cases hr : Tarjan.reverseSccResult al x with
        | ok y =>
          rw [hr] at e
          obtain ⟨h', b, G, e1, st1, ⟨_, s1⟩, ch1⟩ := e
          rw [bind_ok e1]
          have hs : (ps.map Prod.fst).set k (.res p) = ps.map Prod.fst :=
            set_same (by rw [List.getElem?_map, hk]; rfl)
          refine ⟨h', ps.set k (.res p, .res y.2), by rw [map_set, hs]; rfl, by rw [map_set], st1, ?_⟩
          refine i.change hk ?_
          intro F' a'
          cases a' with
          | res w' =>
            obtain ⟨_, rfl⟩ := w.unique w'
            exact ⟨G, At.res s1, ch1⟩
        | throw x => rw [hr] at e; obtain ⟨_, _, _, _, f, _⟩ := e; exact f.elim
        | ub u => rw [hr] at e; obtain ⟨h', e⟩ := e; exact ⟨h', bind_ub e⟩
        | diverge => rw [hr] at e; obtain ⟨h', e⟩ := e; exact ⟨h', bind_diverge e⟩
  | reachable nv ia ja pts k =>
    simp only [valueStep, apiStep, List.getElem?_map]
    cases hk : ps[k]? with
    | none => exact ⟨CallAlloc.good, fun _ => rfl, CallEnds.same i⟩
    | some p =>
      obtain ⟨F, a⟩ := i.get hk
      obtain ⟨hd, v⟩ := p
      cases a with
      | res w => exact ⟨CallAlloc.good, fun _ => rfl, CallEnds.same i⟩
      | @ws p x F w =>
        obtain ⟨al, nf, e⟩ := reachableSccs_spec nv ia ja pts fuel hv w
        refine ⟨⟨true, true, al⟩, fun h0 => by rw [nf h0]; rfl, ?_⟩
        simp only [Option.map_some, bind_eq, pure_eq]
        cases hr : Tarjan.reachableSccs al nv ia ja pts x fuel with
        | ok y =>
          rw [hr] at e
          obtain ⟨h', q, _, e1, st1, ⟨G, rfl, s1, w1⟩, ch1⟩ := e
          rw [bind_ok e1]
          have hs : (ps.map Prod.fst).set k (.ws p) = ps.map Prod.fst :=
            set_same (by rw [List.getElem?_map, hk]; rfl)
          refine ⟨h', ps.set k (.ws p, .ws y.2) ++ [(.res q, .res y.1)], ?_, ?_, st1, ?_⟩
          · rw [List.map_append, map_set, hs]; rfl
          · rw [List.map_append, map_set]; rfl
          · obtain ⟨rest, p1, p2⟩ := perm_set (b := ((.ws p, .ws y.2) : Handle × Value)) hk
            have i' := i.perm p1
            have := Inv.step (ps := [(.ws p, .ws x)])
              (qs := [(.ws p, .ws y.2), (.res q, .res y.1)]) (rest := rest) (g := h'.block) i' (by
                intro F' a'
                have a' := a'.one
                cases a' with
                | ws w' =>
                  obtain ⟨_, rfl⟩ := w.unique w'
                  exact ⟨F ++ G, .cons (At.ws w1) (At.all (At.res s1)), ch1⟩)
            refine this.perm ?_
            refine List.Perm.trans ?_ (p2.symm.append_right _)
            show ([_, _] ++ rest).Perm (_ :: (rest ++ [_]))
            exact (List.perm_append_comm (l₁ := [_]) (l₂ := rest)).cons _
        | throw x => rw [hr] at e; obtain ⟨_, _, _, _, f, _⟩ := e; exact f.elim
        | ub u => rw [hr] at e; obtain ⟨h', e⟩ := e; exact ⟨h', bind_ub e⟩
        | diverge => rw [hr] at e; obtain ⟨h', e⟩ := e; exact ⟨h', bind_diverge e⟩

theorem apiRun_spec (fuel : Nat) {base : Nat → Option Obj} (calls : List ApiCall) :
    ∀ {h : Heap} (_ : h.Valid) {ps : List (Handle × Value)} (_ : Inv base h.block ps),
    ∃ as : List CallAlloc, as.length = calls.length ∧ (h.NoFail → ∀ a ∈ as, a = CallAlloc.good) ∧
      CallEnds base h (apiRun fuel calls (ps.map Prod.fst) h)
        (valueRun fuel as calls (ps.map Prod.snd)) := by
  induction calls with
  | nil => intro h hv ps i; exact ⟨[], rfl, by simp, CallEnds.same i⟩
  | cons c cs ih =>
    intro h hv ps i
    obtain ⟨a, nf, e⟩ := apiStep_spec fuel hv i c
    simp only [apiRun, bind_eq]
    -- a list of outcomes for calls that are never made
    have pad : ∀ l : Nat, ∃ as : List CallAlloc, as.length = l ∧ ∀ a ∈ as, a = CallAlloc.good :=
      fun l => ⟨List.replicate l CallAlloc.good, by simp, by simp⟩
    obtain ⟨as, hl, hg⟩ := pad cs.length
    cases hr : valueStep fuel a (ps.map Prod.snd) c with
    | ok vs =>
      rw [hr] at e
      obtain ⟨h', ps', e1, rfl, st, i'⟩ := e
      obtain ⟨as, hl, nf', e2⟩ := ih (st.valid hv) i'
      refine ⟨a :: as, by simp [hl], ?_, ?_⟩
      · intro h0 b hb
        rcases List.mem_cons.1 hb with rfl | hb
        · exact nf h0
        · exact nf' (st.noFail h0) b hb
      · rw [bind_ok e1]
        simp only [valueRun, hr, Res.bind]
        cases hr' : valueRun fuel as cs (ps'.map Prod.snd) with
        | ok vs =>
          rw [hr'] at e2
          obtain ⟨h'', ps'', e3, e4, st', i''⟩ := e2
          exact ⟨h'', ps'', e3, e4, st.trans st', i''⟩
        | throw x => rw [hr'] at e2; exact e2
        | ub u => rw [hr'] at e2; exact e2
        | diverge => rw [hr'] at e2; exact e2
    | throw x => rw [hr] at e; exact e.elim
    | ub u =>
      rw [hr] at e
      obtain ⟨h', e⟩ := e
      refine ⟨a :: as, by simp [hl], ?_, ?_⟩
      · intro h0 b hb
        rcases List.mem_cons.1 hb with rfl | hb
        · exact nf h0
        · exact hg b hb
      · simp only [valueRun, hr, Res.bind]
        exact ⟨h', bind_ub e⟩
    | diverge =>
      rw [hr] at e
      obtain ⟨h', e⟩ := e
      refine ⟨a :: as, by simp [hl], ?_, ?_⟩
      · intro h0 b hb
        rcases List.mem_cons.1 hb with rfl | hb
        · exact nf h0
        · exact hg b hb
      · simp only [valueRun, hr, Res.bind]
        exact ⟨h', bind_diverge e⟩

theorem AtAll.reads {h : Heap} {ps : List (Handle × Value)} {F : List Nat}
    (w : AtAll h.block ps F) : ∀ p ∈ ps, Reads h p.1 p.2 := by
  induction w with
  | nil => simp
  | cons a b ih =>
    intro p hp
    rcases List.mem_cons.1 hp with rfl | hp
    · exact a.reads
    · exact ih p hp

end Verif.Heap
