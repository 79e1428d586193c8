/-
Programs with several `Solution` objects: the heap represents what the user knows.
-/
import Verif.Proofs.Objects
import Verif.Proofs.ToolboxObjects

namespace Verif.SolutionHeap
open Verif.Spec

variable {R : Type}

/-- The heap represents the logs: usable objects own distinct `Impl`s, and every `Impl` has an owner. -/
structure Rep (h : SolutionHeap R) (l : Logs R) : Prop where
  length : h.objs.length = l.length
  gone : ∀ i : Nat, l[i]? = some none → h.objs[i]? = some none
  moved : ∀ i : Nat, l[i]? = some (some none) → h.objs[i]? = some (some none)
  used : ∀ (i : Nat) L, l[i]? = some (some (some L)) →
    ∃ a, h.objs[i]? = some (some (some a)) ∧ h.mem[a]? = some (some (Solution.replay L))
  inj : ∀ (i j : Nat) a, h.objs[i]? = some (some (some a)) → h.objs[j]? = some (some (some a)) → i = j
  cover : ∀ (a : Nat) t, h.mem[a]? = some (some t) → ∃ i : Nat, h.objs[i]? = some (some (some a))

theorem Rep.empty : Rep (R := R) {} [] := by
  constructor <;> simp

/-- A pointer for what is known of an object. -/
def PointsTo (h : SolutionHeap R) : Option Nat → Option (List (Assigned R)) → Prop
  | none, none => True
  | some a, some L => h.mem[a]? = some (some (Solution.replay L))
  | _, _ => False

theorem Rep.read {h : SolutionHeap R} {l : Logs R} (H : Rep h l) (i : Nat) :
    ((∃ u, h.pointer i = .ub u) ∧ (l[i]? = none ∨ l[i]? = some none)) ∨
    ∃ p o, h.pointer i = .ok p ∧ h.objs[i]? = some (some p) ∧ l[i]? = some (some o) ∧ PointsTo h p o := by
  unfold pointer rdM
  match hk : l[i]? with
  | none =>
    have : h.objs[i]? = none := by
      rw [List.getElem?_eq_none_iff] at hk ⊢
      rw [H.length]; exact hk
    rw [this]
    exact Or.inl ⟨⟨_, rfl⟩, Or.inl rfl⟩
  | some none => rw [H.gone i hk]; exact Or.inl ⟨⟨_, rfl⟩, Or.inr rfl⟩
  | some (some none) => rw [H.moved i hk]; exact Or.inr ⟨_, _, rfl, rfl, rfl, trivial⟩
  | some (some (some L)) =>
    obtain ⟨a, h1, h2⟩ := H.used i L hk
    rw [h1]; exact Or.inr ⟨_, _, rfl, rfl, rfl, h2⟩

/-- Dereferencing works exactly for usable objects. -/
theorem Rep.deref {h : SolutionHeap R} {l : Logs R} (H : Rep h l) (i : Nat) :
    ((∃ u, h.deref i = .ub u) ∧ ∀ L, l[i]? ≠ some (some (some L))) ∨
    ∃ a L, h.deref i = .ok a ∧ h.objs[i]? = some (some (some a)) ∧ l[i]? = some (some (some L)) ∧
      h.mem[a]? = some (some (Solution.replay L)) := by
  rcases H.read i with ⟨⟨u, e⟩, hl⟩ | ⟨p, o, e, h1, h2, h3⟩
  · refine Or.inl ⟨⟨u, by simp [SolutionHeap.deref, e]⟩, fun L hL => ?_⟩
    rcases hl with hl | hl <;> rw [hl] at hL <;> cases hL
  · match p, o, e, h1, h2, h3 with
    | none, none, e, _, h2, _ =>
      refine Or.inl ⟨⟨.nullDeref, by simp [SolutionHeap.deref, e]⟩, fun L hL => ?_⟩
      rw [h2] at hL; cases hL
    | some a, some L, e, h1, h2, h3 => exact Or.inr ⟨a, L, by simp [SolutionHeap.deref, e], h1, h2, h3⟩

theorem Rep.view {h : SolutionHeap R} {l : Logs R} (H : Rep h l) {k : Nat} {L : List (Assigned R)}
    (hk : l[k]? = some (some (some L))) : h.view k = .ok (Solution.replay L) := by
  rcases H.deref k with ⟨_, h1⟩ | ⟨a, L', e, _, h2, h3⟩
  · exact absurd hk (h1 L)
  · rw [hk] at h2
    cases h2
    simp [SolutionHeap.view, e, rdM, h3]

theorem Rep.back {h : SolutionHeap R} {l : Logs R} (H : Rep h l) {i a : Nat} (hi : h.objs[i]? = some (some (some a))) :
    ∃ L, l[i]? = some (some (some L)) ∧ h.mem[a]? = some (some (Solution.replay L)) := by
  rcases H.read i with ⟨⟨u, e⟩, _⟩ | ⟨p, o, _, e1, e2, hp⟩
  · unfold pointer rdM at e
    rw [hi] at e; cases e
  · rw [hi] at e1
    cases e1
    match o, e2, hp with
    | some L, e2, hp => exact ⟨L, e2, hp⟩

theorem Rep.push {h : SolutionHeap R} {l : Logs R} (H : Rep h l) (L : List (Assigned R)) :
    Rep { mem := h.mem ++ [some (Solution.replay L)], objs := h.objs ++ [some (some h.mem.length)] }
      (l ++ [some (some L)]) := by
  have hl := H.length
  have lt_mem : ∀ i a : Nat, h.objs[i]? = some (some (some a)) → a < h.mem.length := by
    intro i a hi
    obtain ⟨_, _, h2⟩ := H.back hi
    exact (List.getElem?_eq_some_iff.mp h2).1
  constructor
  · simp [hl]
  · intro i hi
    have := H.gone i
    grind
  · intro i hi
    have := H.moved i
    grind
  · intro i L' hi
    have := H.used i L'
    by_cases hlt : i < l.length
    · rw [List.getElem?_append_left hlt] at hi
      obtain ⟨a, h1, h2⟩ := this hi
      refine ⟨a, ?_, ?_⟩
      · rw [List.getElem?_append_left (by omega)]; exact h1
      · rw [List.getElem?_append_left (lt_mem i a h1)]; exact h2
    · have : i = l.length := by grind
      subst this
      simp only [List.getElem?_append_right (le_refl _), Nat.sub_self, List.getElem?_cons_zero, Option.some.injEq] at hi
      subst hi
      refine ⟨h.mem.length, ?_, ?_⟩
      · rw [← hl]; simp
      · simp
  · intro i j a hi hj
    have := H.inj i j a
    have := lt_mem i a
    have := lt_mem j a
    grind
  · intro a t ha
    have := H.cover a t
    simp only at ha ⊢
    by_cases hlt : a < h.mem.length
    · rw [List.getElem?_append_left hlt] at ha
      obtain ⟨i, hi⟩ := this ha
      exact ⟨i, by grind⟩
    · exact ⟨h.objs.length, by grind⟩

theorem Rep.move {h : SolutionHeap R} {l : Logs R} (H : Rep h l) {i : Nat} {p : Option Nat}
    {o : Option (List (Assigned R))} (hp : h.objs[i]? = some (some p)) (ho : l[i]? = some (some o))
    (hpo : PointsTo h p o) :
    Rep { h with objs := h.objs.set i (some none) ++ [some p] } (l.set i (some none) ++ [some o]) := by
  have hl := H.length
  constructor
  · simp [hl]
  · intro j hj
    have := H.gone j
    grind
  · intro j hj
    have := H.moved j
    simp only
    match p, o, hpo with
    | none, none, _ => grind
    | some a, some L, _ => grind
  · intro j L' hj
    have := H.used j L'
    match p, o, hpo with
    | none, none, _ => grind
    | some a, some L, hpo =>
      simp only [PointsTo] at hpo
      grind
  · intro j k a hj hk
    have := H.inj j k a
    have := H.inj i j a
    have := H.inj i k a
    grind
  · intro a t ha
    obtain ⟨j, hj⟩ := H.cover a t ha
    by_cases e : j = i
    · exact ⟨h.objs.length, by grind⟩
    · exact ⟨j, by grind⟩

theorem Rep.destroy {h : SolutionHeap R} {l : Logs R} (H : Rep h l) {i : Nat} {p : Option Nat}
    {o : Option (List (Assigned R))} (hp : h.objs[i]? = some (some p)) (ho : l[i]? = some (some o))
    (hpo : PointsTo h p o) :
    ∃ m, h.delete p = .ok { h with mem := m } ∧ Rep { mem := m, objs := h.objs.set i none } (l.set i none) := by
  have hl := H.length
  match p, o, hpo with
  | none, none, _ =>
    refine ⟨h.mem, rfl, ?_⟩
    constructor
    · simp [hl]
    · intro j hj
      have := H.gone j
      grind
    · intro j hj
      have := H.moved j
      grind
    · intro j L' hj
      have := H.used j L'
      grind
    · intro j k a hj hk
      have := H.inj j k a
      grind
    · intro a t ha
      obtain ⟨j, hj⟩ := H.cover a t ha
      exact ⟨j, by grind⟩
  | some a, some L, hpo =>
    simp only [PointsTo] at hpo
    refine ⟨h.mem.set a none, by unfold delete rdM; simp only [hpo]; rfl, ?_⟩
    constructor
    · simp [hl]
    · intro j hj
      have := H.gone j
      grind
    · intro j hj
      have := H.moved j
      grind
    · intro j L' hj
      have := H.used j L'
      have := H.inj i j a
      grind
    · intro j k a hj hk
      have := H.inj j k a
      grind
    · intro b t hb
      have : b ≠ a := by grind
      obtain ⟨j, hj⟩ := H.cover b t (by grind)
      exact ⟨j, by grind⟩

theorem Rep.set {h : SolutionHeap R} {l : Logs R} (H : Rep h l) {i a : Nat} {L : List (Assigned R)} (L' : List (Assigned R))
    (hp : h.objs[i]? = some (some (some a))) (ho : l[i]? = some (some (some L)))
    (hpo : h.mem[a]? = some (some (Solution.replay L))) :
    Rep { h with mem := h.mem.set a (some (Solution.replay L')) } (l.set i (some (some L'))) := by
  have hl := H.length
  constructor
  · simp [hl]
  · intro j hj
    have := H.gone j
    grind
  · intro j hj
    have := H.moved j
    grind
  · intro j L'' hj
    have := H.used j L''
    have := H.inj i j a
    grind
  · exact H.inj
  · intro b t hb
    by_cases e : b = a
    · exact ⟨i, by rw [e]; exact hp⟩
    · exact H.cover b t (by grind)

/-- One assignment. -/
theorem Rep.modify {h : SolutionHeap R} {l : Logs R} (H : Rep h l) (k : Nat) (e : Assigned R) :
    (∀ l', note l k e = some l' → ∃ h', h.modify k (fun s => s.applyA e) = .ok h' ∧ Rep h' l') ∧
    (note l k e = none → ∃ u, h.modify k (fun s => s.applyA e) = .ub u) := by
  rcases H.deref k with ⟨⟨u, h1⟩, h2⟩ | ⟨a, L, h1, h2, h3, h4⟩
  · refine ⟨fun l' hl => ?_, fun _ => ⟨u, by simp [SolutionHeap.modify, h1]⟩⟩
    unfold note at hl
    split at hl
    · rename_i L hk; exact absurd hk (h2 L)
    · cases hl
  · constructor
    · intro l' hl
      simp only [note, h3, Option.some.injEq] at hl
      subst hl
      refine ⟨_, by simp [SolutionHeap.modify, h1, rdM, h4]; rfl, ?_⟩
      have := H.set (L ++ [e]) h2 h3 h4
      rw [Solution.replay_append] at this
      exact this
    · intro hl
      simp [note, h3] at hl

theorem Rep.step {h : SolutionHeap R} {l : Logs R} (H : Rep h l) (op : SolutionOp R) :
    (∀ l', logStep l op = some l' → ∃ h', h.step op = .ok h' ∧ Rep h' l') ∧
    (logStep l op = none → ∃ u, h.step op = .ub u) := by
  cases op with
  | create =>
    refine ⟨?_, by simp [logStep]⟩
    intro l' hl
    simp only [logStep, Option.some.injEq] at hl; subst hl
    exact ⟨_, rfl, H.push []⟩
  | copy k =>
    rcases H.deref k with ⟨⟨u, h1⟩, h2⟩ | ⟨a, L, h1, h2, h3, h4⟩
    · refine ⟨fun l' hl => ?_, fun _ => ⟨u, by simp [SolutionHeap.step, SolutionHeap.view, h1]⟩⟩
      simp only [logStep] at hl
      cases hl
    · constructor
      · intro l' hl
        simp only [logStep, h3, Option.some.injEq] at hl
        subst hl
        exact ⟨_, by simp [SolutionHeap.step, H.view h3], H.push L⟩
      · intro hl
        simp [logStep, h3] at hl
  | move k =>
    rcases H.read k with ⟨⟨u, e⟩, hl⟩ | ⟨p, o, e, h1, h2, h3⟩
    · refine ⟨fun l' h' => ?_, fun _ => ⟨u, by simp [SolutionHeap.step, e]⟩⟩
      simp only [logStep] at h'
      rcases hl with hl | hl <;> simp [hl] at h'
    · constructor
      · intro l' hl
        simp only [logStep, h2, Option.some.injEq] at hl
        subst hl
        exact ⟨_, by simp [SolutionHeap.step, e], H.move h1 h2 h3⟩
      · intro hl
        simp [logStep, h2] at hl
  | destroy k =>
    rcases H.read k with ⟨⟨u, e⟩, hl⟩ | ⟨p, o, e, h1, h2, h3⟩
    · refine ⟨fun l' h' => ?_, fun _ => ⟨u, by simp [SolutionHeap.step, e]⟩⟩
      simp only [logStep] at h'
      rcases hl with hl | hl <;> simp [hl] at h'
    · constructor
      · intro l' hl
        simp only [logStep, h2, Option.some.injEq] at hl
        subst hl
        obtain ⟨m, hm, hr⟩ := H.destroy h1 h2 h3
        exact ⟨_, by simp [SolutionHeap.step, e, hm], hr⟩
      · intro hl
        simp [logStep, h2] at hl
  | assignGlobalToF k t => exact H.modify k (.global t)
  | assignToF k i x => exact H.modify k (.tof i x)
  | assignConc k i x => exact H.modify k (.conc i x)

theorem Rep.run {h : SolutionHeap R} {l : Logs R} (r : Rep h l) (ops : List (SolutionOp R)) :
    (∀ l', ops.foldlM logStep l = some l' → ∃ h', forEach ops h SolutionHeap.step = .ok h' ∧ Rep h' l') ∧
    (ops.foldlM logStep l = none → ∃ u, forEach ops h SolutionHeap.step = .ub u) := by
  induction ops generalizing h l with
  | nil =>
    refine ⟨?_, by simp⟩
    intro l' hl
    simp at hl; subst hl
    exact ⟨h, rfl, r⟩
  | cons op ops ih =>
    obtain ⟨s1, s2⟩ := r.step op
    simp only [List.foldlM_cons, forEach_cons]
    cases hl : logStep l op with
    | none =>
      obtain ⟨u, hu⟩ := s2 hl
      simp [hu]
    | some l1 =>
      obtain ⟨h1, e1, r1⟩ := s1 l1 hl
      rw [e1]
      exact ih r1

/-- As many `Impl`s as usable objects. -/
theorem Rep.live {h : SolutionHeap R} {k : Logs R} (H : Rep h k) : h.live = usable k := by
  unfold SolutionHeap.live usable
  rw [Toolbox.length_filter_eq, Toolbox.length_filter_eq]
  symm
  have known : ∀ i, i ∈ (Finset.range (List.length k)).filter (fun i => ((k[i]?).any fun o => o.join.isSome) = true) →
      ∃ a t, h.objs[i]? = some (some (some a)) ∧ h.mem[a]? = some (some t) := by
    intro i hi
    have := (Finset.mem_filter.mp hi).2
    match hk : k[i]? with
    | none => rw [hk] at this; cases this
    | some none => rw [hk] at this; cases this
    | some (some none) => rw [hk] at this; cases this
    | some (some (some L)) =>
      obtain ⟨a, h1, h2⟩ := H.used i L hk
      exact ⟨a, _, h1, h2⟩
  refine Finset.card_bij (fun i _ => ((h.objs[i]?).join.join).getD 0) ?_ ?_ ?_
  · intro i hi
    obtain ⟨a, t, h1, h2⟩ := known i hi
    simp only [h1, Option.join_some, Option.getD_some]
    exact Finset.mem_filter.mpr ⟨Finset.mem_range.mpr (List.getElem?_eq_some_iff.mp h2).1, by rw [h2]; rfl⟩
  · intro i hi j hj e
    obtain ⟨a, t, h1, _⟩ := known i hi
    obtain ⟨b, t', h1', _⟩ := known j hj
    simp only [h1, h1', Option.join_some, Option.getD_some] at e
    subst e
    exact H.inj i j a h1 h1'
  · intro a ha
    have := (Finset.mem_filter.mp ha).2
    match hm : h.mem[a]? with
    | none => rw [hm] at this; cases this
    | some none => rw [hm] at this; cases this
    | some (some t) =>
      obtain ⟨i, hi⟩ := H.cover a t hm
      obtain ⟨L, hk, _⟩ := H.back hi
      refine ⟨i, Finset.mem_filter.mpr ⟨Finset.mem_range.mpr (List.getElem?_eq_some_iff.mp hk).1, by rw [hk]; rfl⟩, ?_⟩
      simp only [hi, Option.join_some, Option.getD_some]

/-! ### References -/

/-- Where an `Impl` is found: in the object `o`, or nowhere. -/
def At (h : SolutionHeap R) (a : Nat) : Option Nat → Prop
  | some j => h.objs[j]? = some (some (some a))
  | none => h.mem[a]? = some none

theorem Rep.at_step {h h' : SolutionHeap R} {l l' : Logs R} (H : Rep h l) {op : SolutionOp R} (e : h.step op = .ok h')
    (_ : Rep h' l') {a : Nat} {o : Option Nat} (ha : At h a o) :
    ∃ o' n', (∀ ops, holder h.objs.length o (op :: ops) = holder n' o' ops) ∧ n' = h'.objs.length ∧ At h' a o' := by
  have hmod : ∀ {k f}, h.modify k f = .ok h' → h'.objs = h.objs ∧ (h.mem[a]? = some none → h'.mem[a]? = some none) := by
    intro k f hm
    rcases H.deref k with ⟨⟨u, h1⟩, h2⟩ | ⟨b, L, h1, h2, h3, h4⟩
    · simp [SolutionHeap.modify, h1] at hm
    · simp [SolutionHeap.modify, h1, rdM, h4] at hm
      subst hm
      refine ⟨rfl, fun hn => ?_⟩
      simp only
      rw [List.getElem?_set_ne, hn]
      rintro rfl
      rw [hn] at h4; cases h4
  have keep : ∀ {k f}, h.modify k f = .ok h' → h.objs.length = h'.objs.length ∧ At h' a o := by
    intro k f hm
    obtain ⟨h1, h2⟩ := hmod hm
    refine ⟨by rw [h1], ?_⟩
    match o, ha with
    | some j, ha => simp only [At] at ha ⊢; rw [h1]; exact ha
    | none, ha => exact h2 ha
  have grow : ∀ {s}, h' = { mem := h.mem ++ [s], objs := h.objs ++ [some (some h.mem.length)] } → At h' a o := by
    intro s hs
    subst hs
    match o, ha with
    | some j, ha =>
      simp only [At] at ha ⊢
      rw [List.getElem?_append_left (List.getElem?_eq_some_iff.mp ha).1, ha]
    | none, ha =>
      simp only [At] at ha ⊢
      rw [List.getElem?_append_left (List.getElem?_eq_some_iff.mp ha).1, ha]
  cases op with
  | create =>
    simp only [SolutionHeap.step, Res.ok.injEq] at e
    exact ⟨o, h.objs.length + 1, fun ops => rfl, by rw [← e]; simp, grow e.symm⟩
  | copy k =>
    rcases H.deref k with ⟨⟨u, h1⟩, h2⟩ | ⟨b, L, h1, h2, h3, h4⟩
    · simp [SolutionHeap.step, SolutionHeap.view, h1] at e
    · simp [SolutionHeap.step, H.view h3] at e
      exact ⟨o, h.objs.length + 1, fun ops => rfl, by rw [← e]; simp, grow e.symm⟩
  | move k =>
    rcases H.read k with ⟨⟨u, e1⟩, hl⟩ | ⟨p, q, e1, h1, h2, h3⟩
    · simp [SolutionHeap.step, e1] at e
    · simp [SolutionHeap.step, e1] at e
      subst e
      refine ⟨_, h.objs.length + 1, fun ops => rfl, by simp, ?_⟩
      split
      · rename_i hk
        subst hk
        simp only [At] at ha ⊢
        have : p = some a := by rw [h1] at ha; simpa using ha
        subst this
        rw [List.getElem?_append_right (by simp)]; simp
      · rename_i hk
        match o, ha, hk with
        | some j, ha, hk =>
          have : k ≠ j := fun e => hk (by rw [e])
          simp only [At] at ha ⊢
          rw [List.getElem?_append_left (by simpa using (List.getElem?_eq_some_iff.mp ha).1), List.getElem?_set_ne this, ha]
        | none, ha, _ => exact ha
  | destroy k =>
    rcases H.read k with ⟨⟨u, e1⟩, hl⟩ | ⟨p, q, e1, h1, h2, h3⟩
    · simp [SolutionHeap.step, e1] at e
    · obtain ⟨m, hm, _⟩ := H.destroy h1 h2 h3
      simp [SolutionHeap.step, e1, hm] at e
      subst e
      refine ⟨_, h.objs.length, fun ops => rfl, by simp, ?_⟩
      have hdel : ∀ b, p = some b → m = h.mem.set b none := by
        rintro b rfl
        match q, h3 with
        | some L, h3 =>
          simp only [PointsTo] at h3
          simp [delete, rdM, h3] at hm
          exact hm.symm
      have hnone : p = none → m = h.mem := by
        rintro rfl
        simp [delete] at hm
        rw [hm]
      split
      · rename_i hk
        subst hk
        simp only [At] at ha ⊢
        have : p = some a := by rw [h1] at ha; simpa using ha
        obtain ⟨L, _, hL⟩ := H.back ha
        rw [hdel a this, List.getElem?_set_self (List.getElem?_eq_some_iff.mp hL).1]
      · rename_i hk
        match o, ha, hk with
        | some j, ha, hk =>
          have : k ≠ j := fun e => hk (by rw [e])
          simp only [At] at ha ⊢
          rw [List.getElem?_set_ne this, ha]
        | none, ha, _ =>
          simp only [At] at ha ⊢
          cases hp : p with
          | none => rw [hnone hp, ha]
          | some b =>
            rw [hdel b hp, List.getElem?_set]
            split
            · rename_i hb; rw [if_pos (by rw [hb]; exact (List.getElem?_eq_some_iff.mp ha).1)]
            · exact ha
  | assignGlobalToF k t => exact ⟨o, _, fun ops => rfl, (keep e).1, (keep e).2⟩
  | assignToF k i x => exact ⟨o, _, fun ops => rfl, (keep e).1, (keep e).2⟩
  | assignConc k i x => exact ⟨o, _, fun ops => rfl, (keep e).1, (keep e).2⟩

theorem Rep.at_run (ops : List (SolutionOp R)) : ∀ {h h' : SolutionHeap R} {l : Logs R}, Rep h l →
    forEach ops h SolutionHeap.step = .ok h' → ∀ {a : Nat} {o : Option Nat}, At h a o →
    At h' a (holder h.objs.length o ops) := by
  induction ops with
  | nil => intro h h' l _ e a o ha; cases e; exact ha
  | cons op ops ih =>
    intro h h' l H e a o ha
    rw [forEach_cons] at e
    obtain ⟨s1, s2⟩ := H.step op
    cases hl : logStep l op with
    | none =>
      obtain ⟨u, hu⟩ := s2 hl
      simp [hu] at e
    | some l1 =>
      obtain ⟨h1, e1, r1⟩ := s1 l1 hl
      rw [e1] at e
      obtain ⟨o', n', k1, k2, k3⟩ := H.at_step e1 r1 ha
      rw [k1 ops, k2]
      exact ih r1 e k3

end Verif.SolutionHeap
