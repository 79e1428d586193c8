/-
Programs with several toolboxes: the heap of implementation objects represents what the user knows.
-/
import Verif.Spec.ToolboxObjects
import Verif.Proofs.ToolboxHistory
import Mathlib.Data.Finset.Card
import Mathlib.Data.Finset.Range

namespace Verif.Toolbox
open Verif.Spec Verif.Solver

variable {R : Type} [Arith R]

/-- The heap represents what is known. -/
structure Holds (h : ObjHeap R) (k : Known R) : Prop where
  length : h.objs.length = k.length
  gone : ∀ i : Nat, k[i]? = some none → h.objs[i]? = some none
  moved : ∀ i : Nat, k[i]? = some (some none) → h.objs[i]? = some (some none)
  used : ∀ (i : Nat) g calls, k[i]? = some (some (some (g, calls))) →
    ∃ a, h.objs[i]? = some (some (some a)) ∧ h.mem[a]? = some (some (toolboxAfter g calls))
  inj : ∀ (i j : Nat) a, h.objs[i]? = some (some (some a)) → h.objs[j]? = some (some (some a)) → i = j
  cover : ∀ (a : Nat) t, h.mem[a]? = some (some t) → ∃ i : Nat, h.objs[i]? = some (some (some a))

theorem Holds.empty : Holds (R := R) {} [] := by
  constructor <;> simp

/-- A pointer for what is known of an object. -/
def PointsTo (h : ObjHeap R) : Option Nat → Option (ConnectivityGraph × List (Call R)) → Prop
  | none, none => True
  | some a, some (g, calls) => h.mem[a]? = some (some (toolboxAfter g calls))
  | _, _ => False

theorem Holds.read {h : ObjHeap R} {k : Known R} (H : Holds h k) (i : Nat) :
    (∃ u, h.pointer i = .ub u ∧ rdM k i = .ub u) ∨
    ∃ p o, h.pointer i = .ok p ∧ rdM k i = .ok o ∧ h.objs[i]? = some (some p) ∧ k[i]? = some (some o) ∧ PointsTo h p o := by
  unfold ObjHeap.pointer rdM
  match hk : k[i]? with
  | none =>
    have : h.objs[i]? = none := by
      rw [List.getElem?_eq_none_iff] at hk ⊢
      rw [H.length]; exact hk
    rw [this]
    exact Or.inl ⟨_, rfl, rfl⟩
  | some none => rw [H.gone i hk]; exact Or.inl ⟨_, rfl, rfl⟩
  | some (some none) => rw [H.moved i hk]; exact Or.inr ⟨_, _, rfl, rfl, rfl, rfl, trivial⟩
  | some (some (some (g, calls))) =>
    obtain ⟨a, h1, h2⟩ := H.used i g calls hk
    rw [h1]; exact Or.inr ⟨_, _, rfl, rfl, rfl, rfl, h2⟩

theorem endOf_spec (g : ConnectivityGraph) (calls : List (Call R)) (c : Call R) :
    (ObjHeap.callOn (toolboxAfter g calls) c).1 = toolboxAfter g (calls ++ [c]) ∧
    ObjHeap.caught (ObjHeap.callOn (toolboxAfter g calls) c).2 = endOf g calls c := by
  have e : toolboxAfter g (calls ++ [c]) = (toolboxAfter g calls).step c := by
    unfold toolboxAfter; rw [List.foldl_append]; rfl
  have hg := (holdsData g calls).graph
  rw [e]
  cases c with
  | assignPoreVolume pv =>
    refine ⟨rfl, ?_⟩
    unfold ObjHeap.callOn endOf Toolbox.assignPoreVolume
    rw [hg]
    by_cases h : pv.length = g.numCells <;> simp [h, ObjHeap.caught, Res.bind]
  | assignConnectionFlux f =>
    refine ⟨rfl, ?_⟩
    unfold ObjHeap.callOn endOf Toolbox.assignConnectionFlux
    rw [hg]
    by_cases h : f.numConnections = g.numConnections <;> simp [h, ObjHeap.caught, Res.bind]
  | assignInflowFlux m => exact ⟨rfl, rfl⟩
  | computeInjectionDiagnostics al fuel s =>
    refine ⟨rfl, ?_⟩
    unfold ObjHeap.callOn endOf injectionOutcome
    simp only
    cases ((toolboxAfter g calls).injDiag al fuel s).2 <;> rfl
  | computeProductionDiagnostics al fuel s =>
    refine ⟨rfl, ?_⟩
    unfold ObjHeap.callOn endOf productionOutcome
    simp only
    cases ((toolboxAfter g calls).prodDiag al fuel s).2 <;> rfl

theorem Holds.back {h : ObjHeap R} {k : Known R} (H : Holds h k) {i a : Nat} (hi : h.objs[i]? = some (some (some a))) :
    ∃ g calls, k[i]? = some (some (some (g, calls))) ∧ h.mem[a]? = some (some (toolboxAfter g calls)) := by
  rcases H.read i with ⟨u, e, _⟩ | ⟨p, o, _, _, e1, e2, hp⟩
  · unfold ObjHeap.pointer rdM at e
    rw [hi] at e; cases e
  · rw [hi] at e1
    cases e1
    match o, e2, hp with
    | some (g, calls), e2, hp => exact ⟨g, calls, e2, hp⟩

theorem Holds.create {h : ObjHeap R} {k : Known R} (H : Holds h k) (g : ConnectivityGraph) :
    Holds { mem := h.mem ++ [some (Toolbox.create g)], objs := h.objs ++ [some (some h.mem.length)] }
      (k ++ [some (some (g, []))]) := by
  have hl := H.length
  have e0 : toolboxAfter g [] = (Toolbox.create g : Toolbox R) := rfl
  have lt_mem : ∀ i a : Nat, h.objs[i]? = some (some (some a)) → a < h.mem.length := by
    intro i a hi
    obtain ⟨g, calls, _, h2⟩ := H.back hi
    exact (List.getElem?_eq_some_iff.mp h2).1
  constructor
  · simp [hl]
  · intro i hi
    have := H.gone i
    grind
  · intro i hi
    have := H.moved i
    grind
  · intro i g' calls hi
    have := H.used i g' calls
    by_cases hlt : i < k.length
    · rw [List.getElem?_append_left hlt] at hi
      obtain ⟨a, h1, h2⟩ := this hi
      refine ⟨a, ?_, ?_⟩
      · rw [List.getElem?_append_left (by omega)]; exact h1
      · rw [List.getElem?_append_left (lt_mem i a h1)]; exact h2
    · have : i = k.length := by grind
      subst this
      simp only [List.getElem?_append_right (le_refl _), Nat.sub_self, List.getElem?_cons_zero, Option.some.injEq,
        Prod.mk.injEq] at hi
      obtain ⟨rfl, rfl⟩ := hi
      refine ⟨h.mem.length, ?_, ?_⟩
      · rw [← hl]; simp
      · simp [e0]
  · intro i j a hi hj
    have := H.inj i j a
    have := lt_mem i a
    have := lt_mem j a
    grind
  · intro a t ha
    have := H.cover a t
    simp only at ha ⊢
    by_cases hlt : a < h.mem.length
    · rw [List.getElem?_append_left hlt] at ha
      obtain ⟨i, hi⟩ := this ha
      exact ⟨i, by grind⟩
    · exact ⟨h.objs.length, by grind⟩

theorem Holds.moveConstruct {h : ObjHeap R} {k : Known R} (H : Holds h k) {i : Nat} {p : Option Nat}
    {o : Option (ConnectivityGraph × List (Call R))} (hp : h.objs[i]? = some (some p)) (ho : k[i]? = some (some o))
    (hpo : PointsTo h p o) :
    Holds { h with objs := h.objs.set i (some none) ++ [some p] } (k.set i (some none) ++ [some o]) := by
  have hl := H.length
  constructor
  · simp [hl]
  · intro j hj
    have := H.gone j
    grind
  · intro j hj
    have := H.moved j
    simp only
    match p, o, hpo with
    | none, none, _ => grind
    | some a, some (g, calls), _ => grind
  · intro j g' calls' hj
    have := H.used j g' calls'
    match p, o, hpo with
    | none, none, _ => grind
    | some a, some (g, calls), hpo => 
      simp only [PointsTo] at hpo
      grind
  · intro j l a hj hl'
    have := H.inj j l a
    have := H.inj i j a
    have := H.inj i l a
    grind
  · intro a t ha
    obtain ⟨j, hj⟩ := H.cover a t ha
    by_cases e : j = i
    · exact ⟨h.objs.length, by grind⟩
    · exact ⟨j, by grind⟩

theorem Holds.destroy {h : ObjHeap R} {k : Known R} (H : Holds h k) {i : Nat} {p : Option Nat}
    {o : Option (ConnectivityGraph × List (Call R))} (hp : h.objs[i]? = some (some p)) (ho : k[i]? = some (some o))
    (hpo : PointsTo h p o) :
    ∃ m, h.delete p = .ok { h with mem := m } ∧ Holds { mem := m, objs := h.objs.set i none } (k.set i none) := by
  have hl := H.length
  match p, o, hpo with
  | none, none, _ =>
    refine ⟨h.mem, rfl, ?_⟩
    constructor
    · simp [hl]
    · intro j hj
      have := H.gone j
      grind
    · intro j hj
      have := H.moved j
      grind
    · intro j g' calls' hj
      have := H.used j g' calls'
      grind
    · intro j l a hj hl'
      have := H.inj j l a
      grind
    · intro a t ha
      obtain ⟨j, hj⟩ := H.cover a t ha
      exact ⟨j, by grind⟩
  | some a, some (g, calls), hpo =>
    simp only [PointsTo] at hpo
    refine ⟨h.mem.set a none, by unfold ObjHeap.delete rdM; simp only [hpo]; rfl, ?_⟩
    constructor
    · simp [hl]
    · intro j hj
      have := H.gone j
      grind
    · intro j hj
      have := H.moved j
      grind
    · intro j g' calls' hj
      have := H.used j g' calls'
      have := H.inj i j a
      grind
    · intro j l a hj hl'
      have := H.inj j l a
      grind
    · intro b t hb
      have : b ≠ a := by grind
      obtain ⟨j, hj⟩ := H.cover b t (by grind)
      exact ⟨j, by grind⟩

theorem Holds.call {h : ObjHeap R} {k : Known R} (H : Holds h k) {i a : Nat} {g : ConnectivityGraph} {calls calls' : List (Call R)}
    (hp : h.objs[i]? = some (some (some a))) (ho : k[i]? = some (some (some (g, calls))))
    (hpo : h.mem[a]? = some (some (toolboxAfter g calls))) :
    Holds { h with mem := h.mem.set a (some (toolboxAfter g calls')) } (k.set i (some (some (g, calls')))) := by
  have hl := H.length
  constructor
  · simp [hl]
  · intro j hj
    have := H.gone j
    grind
  · intro j hj
    have := H.moved j
    grind
  · intro j g' calls' hj
    have := H.used j g' calls'
    have := H.inj i j a
    grind
  · exact H.inj
  · intro b t hb
    by_cases e : b = a
    · exact ⟨i, by rw [e]; exact hp⟩
    · exact H.cover b t (by grind)

/-- `i = std::move(j)` for two objects: destroy the first, construct it anew from the second. -/
theorem Holds.moveAssign {h : ObjHeap R} {k : Known R} (H : Holds h k) {i j : Nat} (hij : i ≠ j) {p old : Option Nat}
    {o o' : Option (ConnectivityGraph × List (Call R))} (hp : h.objs[j]? = some (some p)) (ho : k[j]? = some (some o))
    (hpo : PointsTo h p o) (hq : h.objs[i]? = some (some old)) (ho' : k[i]? = some (some o')) (hpo' : PointsTo h old o') :
    ∃ m, (∀ objs, ObjHeap.delete ({ h with objs := objs }) old = .ok { mem := m, objs := objs }) ∧
      Holds { mem := m, objs := (h.objs.set j (some none)).set i (some p) } ((k.set j (some none)).set i (some o)) := by
  have hl := H.length
  have key : ∃ m, (∀ objs, ObjHeap.delete ({ h with objs := objs }) old = .ok { mem := m, objs := objs }) ∧
      (∀ b, old ≠ some b → m[b]? = h.mem[b]?) ∧ ∀ b, old = some b → m[b]? = some none := by
    match old, o', hpo' with
    | none, none, _ => exact ⟨h.mem, fun _ => rfl, fun _ _ => rfl, by simp⟩
    | some b, some (g, calls), hpo' =>
      simp only [PointsTo] at hpo'
      refine ⟨h.mem.set b none, fun objs => by unfold ObjHeap.delete rdM; simp only [hpo']; rfl, ?_, ?_⟩
      · intro c hc; grind
      · intro c hc; grind
  obtain ⟨m, e, m1, m2⟩ := key
  refine ⟨m, e, ?_⟩
  have hdiff : ∀ b, p = some b → old ≠ some b := by
    intro b h1 h2
    exact hij (H.inj i j b (by rw [hq, h2]) (by rw [hp, h1]))
  constructor
  · simp [hl]
  · intro l hl'
    have := H.gone l
    grind
  · intro l hl'
    have := H.moved l
    match p, o, hpo with
    | none, none, _ => grind
    | some a, some (g, calls), _ => grind
  · intro l g' calls' hl'
    by_cases e : l = i
    · subst e
      match p, o, hpo with
      | none, none, _ => grind
      | some a, some (g, calls), hpo =>
        simp only [PointsTo] at hpo
        have := m1 a (hdiff a rfl)
        exact ⟨a, by grind, by grind⟩
    · have hkl : k[l]? = some (some (some (g', calls'))) := by grind
      have hlj : l ≠ j := by grind
      obtain ⟨b, h1, h2⟩ := H.used l g' calls' hkl
      refine ⟨b, by grind, ?_⟩
      simp only
      rw [m1 b ?_, h2]
      intro h3
      exact e (H.inj l i b h1 (by rw [hq, h3]))
  · intro l l' a h1 h2
    have := H.inj l l' a
    have := H.inj j l a
    have := H.inj j l' a
    grind
  · intro b t hb
    simp only at hb
    have hob : old ≠ some b := by
      intro h3
      rw [m2 b h3] at hb; cases hb
    rw [m1 b hob] at hb
    obtain ⟨l, hl'⟩ := H.cover b t hb
    by_cases e : l = j
    · exact ⟨i, by grind⟩
    · exact ⟨l, by grind⟩

/-- One step: the same end, and the heaps correspond. -/
def SameEnd {E : Type} (r : Res (ObjHeap R × E)) (q : Res (Known R × E)) : Prop :=
  (∃ h k e, r = .ok (h, e) ∧ q = .ok (k, e) ∧ Holds h k) ∨ (∃ u, r = .ub u ∧ q = .ub u) ∨ (r = .diverge ∧ q = .diverge)

theorem Holds.step {h : ObjHeap R} {k : Known R} (H : Holds h k) (op : ObjOp R) : SameEnd (h.step op) (knownStep k op) := by
  cases op with
  | create g => exact Or.inl ⟨_, _, _, rfl, rfl, H.create g⟩
  | moveConstruct i =>
    unfold ObjHeap.step knownStep
    simp only [Res.bind_eq, Res.pure_eq]
    rcases H.read i with ⟨u, e1, e2⟩ | ⟨p, o, e1, e2, h1, h2, h3⟩
    · rw [e1, e2]; exact Or.inr (Or.inl ⟨u, rfl, rfl⟩)
    · unfold ObjHeap.setPointer
      rw [e1, e2]
      exact Or.inl ⟨_, _, _, rfl, rfl, H.moveConstruct h1 h2 h3⟩
  | moveAssign i j =>
    unfold ObjHeap.step knownStep
    simp only [Res.bind_eq, Res.pure_eq]
    rcases H.read j with ⟨u, e1, e2⟩ | ⟨p, o, e1, e2, h1, h2, h3⟩
    · rw [e1, e2]; exact Or.inr (Or.inl ⟨u, rfl, rfl⟩)
    · by_cases hij : i = j
      · subst hij
        have hi : i < h.objs.length := (List.getElem?_eq_some_iff.mp h1).1
        have e3 : ObjHeap.pointer { h with objs := h.objs.set i (some none) } i = .ok none := by
          unfold ObjHeap.pointer rdM
          simp only [List.getElem?_set_self hi]
        unfold ObjHeap.setPointer
        rw [e1, e2]
        simp only [Res.ok_bind, e3, ObjHeap.delete, List.set_set]
        have s1 : h.objs.set i (some p) = h.objs := by
          apply List.ext_getElem?; intro l; grind
        have s2 : k.set i (some o) = k := by
          apply List.ext_getElem?; intro l; grind
        rw [s1, s2]
        exact Or.inl ⟨_, _, _, rfl, rfl, H⟩
      · have hr : ObjHeap.pointer { h with objs := h.objs.set j (some none) } i = h.pointer i := by
          unfold ObjHeap.pointer rdM
          simp only [List.getElem?_set_ne (Ne.symm hij)]
        unfold ObjHeap.setPointer
        rw [e1, e2]
        simp only [Res.ok_bind, hr]
        rcases H.read i with ⟨u, e3, e4⟩ | ⟨p', o', e3, e4, h4, h5, h6⟩
        · rw [e3, e4]; exact Or.inr (Or.inl ⟨u, rfl, rfl⟩)
        · rw [e3, e4]
          obtain ⟨m, hm, hh⟩ := H.moveAssign hij h1 h2 h3 h4 h5 h6
          simp only [Res.ok_bind, hm]
          exact Or.inl ⟨_, _, _, rfl, rfl, hh⟩
  | destroy i =>
    unfold ObjHeap.step knownStep
    simp only [Res.bind_eq, Res.pure_eq]
    rcases H.read i with ⟨u, e1, e2⟩ | ⟨p, o, e1, e2, h1, h2, h3⟩
    · rw [e1, e2]; exact Or.inr (Or.inl ⟨u, rfl, rfl⟩)
    · rw [e1, e2]
      obtain ⟨m, hm, hh⟩ := H.destroy h1 h2 h3
      simp only [Res.ok_bind, hm]
      exact Or.inl ⟨_, _, _, rfl, rfl, hh⟩
  | call i c =>
    unfold ObjHeap.step knownStep
    simp only [Res.bind_eq, Res.pure_eq]
    rcases H.read i with ⟨u, e1, e2⟩ | ⟨p, o, e1, e2, h1, h2, h3⟩
    · rw [e1, e2]; exact Or.inr (Or.inl ⟨u, rfl, rfl⟩)
    · rw [e1, e2]
      match p, o, h1, h2, h3 with
      | none, none, _, _, _ => exact Or.inr (Or.inl ⟨_, rfl, rfl⟩)
      | some a, some (g, calls), h1, h2, h3 =>
        have h3 : h.mem[a]? = some (some (toolboxAfter g calls)) := h3
        have e4 : rdM h.mem a = .ok (toolboxAfter g calls) := by unfold rdM; rw [h3]
        obtain ⟨e5, e6⟩ := endOf_spec g calls c
        simp only [Res.ok_bind, e4, e6]
        cases hend : endOf g calls c with
        | ok e =>
          refine Or.inl ⟨_, _, _, rfl, rfl, ?_⟩
          rw [e5]
          exact H.call h1 h2 h3
        | ub u => exact Or.inr (Or.inl ⟨u, rfl, rfl⟩)
        | diverge => exact Or.inr (Or.inr ⟨rfl, rfl⟩)
        | throw e =>
          exfalso
          rw [← e6] at hend
          unfold ObjHeap.caught at hend
          split at hend <;> first | cases hend | (rename_i h; exact h _ hend)

theorem Holds.run (ops : List (ObjOp R)) : ∀ {h : ObjHeap R} {k : Known R}, Holds h k →
    SameEnd (ObjHeap.run ops h) (knownRun ops k) := by
  induction ops with
  | nil => intro h k H; exact Or.inl ⟨_, _, _, rfl, rfl, H⟩
  | cons op ops ih =>
    intro h k H
    unfold ObjHeap.run knownRun
    rcases H.step op with ⟨h', k', e, e1, e2, H'⟩ | ⟨u, e1, e2⟩ | ⟨e1, e2⟩
    · rw [e1, e2]
      simp only [Res.ok_bind]
      rcases ih H' with ⟨h'', k'', e', e1, e2, H''⟩ | ⟨u, e1, e2⟩ | ⟨e1, e2⟩
      · rw [e1, e2]; exact Or.inl ⟨_, _, _, rfl, rfl, H''⟩
      · rw [e1, e2]; exact Or.inr (Or.inl ⟨u, rfl, rfl⟩)
      · rw [e1, e2]; exact Or.inr (Or.inr ⟨rfl, rfl⟩)
    · rw [e1, e2]; exact Or.inr (Or.inl ⟨u, rfl, rfl⟩)
    · rw [e1, e2]; exact Or.inr (Or.inr ⟨rfl, rfl⟩)

/-! ### Counting -/

open Finset in
theorem length_filter_eq {α : Type} (p : α → Bool) (l : List α) :
    (l.filter p).length = ((range l.length).filter fun i => (l[i]?).any p = true).card := by
  induction l using List.reverseRecOn with
  | nil => simp
  | append_singleton l x ih =>
    have e : ((range l.length).filter fun i => ((l ++ [x])[i]?).any p = true)
        = (range l.length).filter fun i => (l[i]?).any p = true := by
      apply filter_congr
      intro i hi
      rw [List.getElem?_append_left (mem_range.mp hi)]
    rw [List.filter_append, List.length_append, ih, List.length_append, List.length_singleton, range_add_one, filter_insert, e]
    by_cases hx : p x = true
    · rw [if_pos (by simp [hx]), card_insert_of_notMem (by simp)]
      simp [hx]
    · rw [if_neg (by simpa using hx)]
      simp [hx]

/-- As many implementation objects as toolboxes in use. -/
theorem Holds.live {h : ObjHeap R} {k : Known R} (H : Holds h k) : h.live = inUse k := by
  unfold ObjHeap.live inUse
  rw [length_filter_eq, length_filter_eq]
  symm
  have known : ∀ i, i ∈ (Finset.range (List.length k)).filter (fun i => ((k[i]?).any fun o => o.join.isSome) = true) →
      ∃ a t, h.objs[i]? = some (some (some a)) ∧ h.mem[a]? = some (some t) := by
    intro i hi
    have := (Finset.mem_filter.mp hi).2
    match hk : k[i]? with
    | none => rw [hk] at this; cases this
    | some none => rw [hk] at this; cases this
    | some (some none) => rw [hk] at this; cases this
    | some (some (some (g, calls))) =>
      obtain ⟨a, h1, h2⟩ := H.used i g calls hk
      exact ⟨a, _, h1, h2⟩
  refine Finset.card_bij (fun i _ => ((h.objs[i]?).join.join).getD 0) ?_ ?_ ?_
  · intro i hi
    obtain ⟨a, t, h1, h2⟩ := known i hi
    simp only [h1, Option.join_some, Option.getD_some]
    exact Finset.mem_filter.mpr ⟨Finset.mem_range.mpr (List.getElem?_eq_some_iff.mp h2).1, by rw [h2]; rfl⟩
  · intro i hi j hj e
    obtain ⟨a, t, h1, _⟩ := known i hi
    obtain ⟨b, t', h1', _⟩ := known j hj
    simp only [h1, h1', Option.join_some, Option.getD_some] at e
    subst e
    exact H.inj i j a h1 h1'
  · intro a ha
    have := (Finset.mem_filter.mp ha).2
    match hm : h.mem[a]? with
    | none => rw [hm] at this; cases this
    | some none => rw [hm] at this; cases this
    | some (some t) =>
      obtain ⟨i, hi⟩ := H.cover a t hm
      obtain ⟨g, calls, hk, _⟩ := H.back hi
      refine ⟨i, Finset.mem_filter.mpr ⟨Finset.mem_range.mpr (List.getElem?_eq_some_iff.mp hk).1, by rw [hk]; rfl⟩, ?_⟩
      simp only [hi, Option.join_some, Option.getD_some]

end Verif.Toolbox
