/-
Threads that run together: whatever the schedule, each of them does what it does alone.
-/
import Verif.Model.Threads
import Verif.Spec.Heap
import Mathlib.Logic.Function.Basic

namespace Verif.Threads
open Verif.Heap Prog

variable {α : Type}

/-- The part of the heap that belongs to one thread. -/
structure Mine where
  block : Nat → Option Obj
  next : Nat
  calls : Nat

/-- The heap the thread would see if it were alone. -/
def Mine.heap (m : Mine) (fails : Nat → Bool) (gap : Nat → Nat) : Heap :=
  ⟨m.block, m.next, m.calls, fails, gap⟩

/-- At the beginning a thread has nothing. -/
def Mine.none : Mine := ⟨fun _ => Option.none, 0, 0⟩

/-- Alone, the program gets from `p₀` to `p` and has `m` then, if the allocations made on the way
    end as `f` and `g` say. -/
def Gets (p₀ p : Prog α) (m : Mine) (f : Nat → Bool) (g : Nat → Nat) : Prop :=
  ∀ (f' : Nat → Bool) (g' : Nat → Nat), (∀ j < m.calls, f' j = f j ∧ g' j = g j) →
    run p₀ (Mine.none.heap f' g') = run p (m.heap f' g')

/-- The state of the threads together in terms of the states of each of them alone. -/
structure Inv (h₀ : Heap) (ps : List (Prog α)) (c : Config α) (ms : Nat → Mine)
    (fs : Nat → Nat → Bool) (gs : Nat → Nat → Nat) : Prop where
  len : c.threads.length = ps.length
  le : h₀.next ≤ c.heap.next
  valid : c.heap.Valid
  fails : c.heap.fails = h₀.fails
  gets : ∀ i p₀ p, ps[i]? = some p₀ → c.threads[i]? = some p → Gets p₀ p (ms i) (fs i) (gs i)
  noFail : h₀.NoFail → ∀ i j, fs i j = false
  next : ∀ i, (ms i).next ≤ c.heap.next
  mine : ∀ i a o, (ms i).block a = some o → c.heap.block a = some o ∧ (i, a) ∈ c.log
  range : ∀ x ∈ c.log, h₀.next ≤ x.2 ∧ x.2 < c.heap.next
  one : ∀ i j a, (i, a) ∈ c.log → (j, a) ∈ c.log → i = j
  rest : ∀ a, (∀ i, (ms i).block a = none) → c.heap.block a = h₀.block a
  absent : ∀ i, ps.length ≤ i → ∀ a, (ms i).block a = none

/-- The beginning. -/
theorem Inv.start {h₀ : Heap} (hv : h₀.Valid) (ps : List (Prog α)) :
    Inv h₀ ps ⟨h₀, ps, []⟩ (fun _ => Mine.none) (fun _ _ => false) (fun _ _ => 0) where
  len := rfl
  le := Nat.le_refl _
  valid := hv
  fails := rfl
  gets := by
    intro i p₀ p h1 h2
    have : some p₀ = some p := h1.symm.trans h2
    cases this
    exact fun _ _ _ => rfl
  noFail := fun _ _ _ => rfl
  next := fun _ => Nat.zero_le _
  mine := by intro i a o h; cases h
  range := by simp
  one := by simp
  rest := fun _ _ => rfl
  absent := fun _ _ _ => rfl

section
variable {h₀ : Heap} {ps : List (Prog α)} {c : Config α} {ms : Nat → Mine} {fs : Nat → Nat → Bool}
  {gs : Nat → Nat → Nat}

/-- The program alone does not fault at this point either. -/
theorem Inv.ne_none (I : Inv h₀ ps c ms fs gs)
    (safe : ∀ p ∈ ps, ∀ f g, run p (Mine.none.heap f g) ≠ none) {i : Nat} {p : Prog α}
    (hp : c.threads[i]? = some p) : run p ((ms i).heap (fs i) (gs i)) ≠ none := by
  obtain ⟨hi, -⟩ := List.getElem?_eq_some_iff.1 hp
  have hi' : i < ps.length := I.len ▸ hi
  have h0 : ps[i]? = some ps[i] := List.getElem?_eq_getElem hi'
  rw [← I.gets i _ p h0 hp (fs i) (gs i) (fun _ _ => ⟨rfl, rfl⟩)]
  exact safe _ (List.getElem_mem hi') _ _

/-- A thread changes what belongs to it, without an allocation. -/
theorem Inv.change (I : Inv h₀ ps c ms fs gs) (hv₀ : h₀.Valid) {i a : Nat} {p q : Prog α}
    (hp : c.threads[i]? = some p) (x : Option Obj) (hl : (i, a) ∈ c.log)
    (hstep : ∀ f g, run p ((ms i).heap f g) = run q
      (Heap.mk (fun b => if b = a then x else (ms i).block b) (ms i).next (ms i).calls f g)) :
    Inv h₀ ps
      ⟨{ c.heap with block := fun b => if b = a then x else c.heap.block b },
        c.threads.set i q, (i, a) :: c.log⟩
      (Function.update ms i
        ⟨fun b => if b = a then x else (ms i).block b, (ms i).next, (ms i).calls⟩) fs gs where
  len := by simp [I.len]
  le := I.le
  valid := by
    intro b hb
    have := (I.range _ hl).2
    have : b ≠ a := by simp at hb; omega
    simp only [this, if_false]
    exact I.valid b hb
  fails := I.fails
  gets := by
    intro j p₀ p' h1 h2
    by_cases hj : j = i
    · subst hj
      obtain ⟨hi, -⟩ := List.getElem?_eq_some_iff.1 hp
      simp only [List.getElem?_set_self hi, Option.some.injEq] at h2
      subst h2
      intro f' g' hfg
      simp only [Function.update_self] at hfg ⊢
      rw [I.gets j p₀ p h1 hp f' g' hfg, hstep]
      rfl
    · simp only [List.getElem?_set_ne (Ne.symm hj)] at h2
      rw [Function.update_of_ne hj]
      exact I.gets j p₀ p' h1 h2
  noFail := I.noFail
  next := by
    intro j
    by_cases hj : j = i
    · subst hj; simp only [Function.update_self]; exact I.next j
    · rw [Function.update_of_ne hj]; exact I.next j
  mine := by
    intro j b o h
    by_cases hj : j = i
    · subst hj
      simp only [Function.update_self] at h
      by_cases hb : b = a
      · subst hb
        simp only [if_true] at h ⊢
        exact ⟨h, by simp⟩
      · simp only [hb, if_false] at h ⊢
        exact ⟨(I.mine j b o h).1, List.mem_cons_of_mem _ (I.mine j b o h).2⟩
    · rw [Function.update_of_ne hj] at h
      obtain ⟨h1, h2⟩ := I.mine j b o h
      have hb : b ≠ a := by
        rintro rfl
        exact hj (I.one _ _ _ h2 hl)
      simp only [hb, if_false]
      exact ⟨h1, List.mem_cons_of_mem _ h2⟩
  range := by
    intro y hy
    rcases List.mem_cons.1 hy with rfl | hy
    · exact I.range _ hl
    · exact I.range y hy
  one := by
    intro j k b h1 h2
    have e : ∀ z : Nat × Nat, z ∈ (i, a) :: c.log → z ∈ c.log := by
      intro z hz
      rcases List.mem_cons.1 hz with rfl | hz
      · exact hl
      · exact hz
    exact I.one j k b (e _ h1) (e _ h2)
  rest := by
    intro b hb
    by_cases hba : b = a
    · subst hba
      have := hb i
      simp only [Function.update_self, if_true] at this
      simp only [if_true, this]
      exact (hv₀ b (I.range _ hl).1).symm
    · simp only [hba, if_false]
      refine I.rest b fun j => ?_
      by_cases hj : j = i
      · subst hj
        have := hb j
        simpa only [Function.update_self, hba, if_false] using this
      · have := hb j
        rwa [Function.update_of_ne hj] at this
  absent := by
    intro j hj b
    obtain ⟨hi, -⟩ := List.getElem?_eq_some_iff.1 hp
    have := I.len
    rw [Function.update_of_ne (by omega)]
    exact I.absent j hj b

/-- One turn. -/
theorem Inv.turn (I : Inv h₀ ps c ms fs gs) (hv₀ : h₀.Valid)
    (safe : ∀ p ∈ ps, ∀ f g, run p (Mine.none.heap f g) ≠ none) (i : Nat) :
    ∃ c', c.turn i = some c' ∧ ∃ ms' fs' gs', Inv h₀ ps c' ms' fs' gs' := by
  unfold Config.turn
  cases hp : c.threads[i]? with
  | none => exact ⟨c, rfl, ms, fs, gs, I⟩
  | some p =>
    have ne := I.ne_none safe hp
    cases p with
    | ret a => exact ⟨c, rfl, ms, fs, gs, I⟩
    | fault => exact absurd rfl ne
    | free a k =>
      simp only [run, Mine.heap, Heap.free] at ne
      cases hb : (ms i).block a with
      | none => simp [hb] at ne
      | some o =>
        obtain ⟨hs, hl⟩ := I.mine i a o hb
        simp only [Heap.free, hs]
        refine ⟨_, rfl, _, _, _, I.change hv₀ hp none hl fun f g => ?_⟩
        simp only [run, Mine.heap, Heap.free, hb]
    | load a k =>
      simp only [run, Mine.heap, Heap.load] at ne
      cases hb : (ms i).block a with
      | none => simp [hb] at ne
      | some o =>
        obtain ⟨hs, hl⟩ := I.mine i a o hb
        simp only [Heap.load, hs]
        have J := I.change (q := k o) hv₀ hp (some o) hl fun f g => by
          simp only [run, Mine.heap, Heap.load, hb]
          congr 2
          funext b
          by_cases h : b = a <;> simp [h, hb]
        have e : (fun b => if b = a then some o else c.heap.block b) = c.heap.block := by
          funext b
          by_cases h : b = a <;> simp [h, hs]
        rw [e] at J
        exact ⟨_, rfl, _, _, _, J⟩
    | store a x k =>
      simp only [run, Mine.heap, Heap.store] at ne
      cases hb : (ms i).block a with
      | none => simp [hb] at ne
      | some o =>
        obtain ⟨hs, hl⟩ := I.mine i a o hb
        simp only [Heap.store, hs]
        refine ⟨_, rfl, _, _, _, I.change hv₀ hp (some x) hl fun f g => ?_⟩
        simp only [run, Mine.heap, Heap.store, hb]
    | malloc o k =>
      obtain ⟨hi, -⟩ := List.getElem?_eq_some_iff.1 hp
      cases hf : c.heap.fails c.heap.calls with
      | true =>
        simp only [Heap.malloc, hf, if_true]
        refine ⟨_, rfl, Function.update ms i ⟨(ms i).block, (ms i).next, (ms i).calls + 1⟩,
          Function.update fs i (Function.update (fs i) (ms i).calls true), gs, ?_⟩
        refine ⟨by simp [I.len], I.le, I.valid, I.fails, ?_, ?_, ?_, ?_, ?_, ?_, ?_,
          fun j hj b => by
            have := I.len
            rw [Function.update_of_ne (by omega)]
            exact I.absent j hj b⟩
        · intro j p₀ p' h1 h2
          by_cases hj : j = i
          · subst hj
            simp only [List.getElem?_set_self hi, Option.some.injEq] at h2
            subst h2
            intro f' g' hfg
            simp only [Function.update_self] at hfg ⊢
            have h3 := hfg (ms j).calls (Nat.lt_succ_self _)
            simp only [Function.update_self] at h3
            rw [I.gets j p₀ _ h1 hp f' g' fun m hm => by
              have := hfg m (Nat.lt_succ_of_lt hm)
              rwa [Function.update_of_ne (Nat.ne_of_lt hm)] at this]
            simp only [run, Mine.heap, Heap.malloc, h3.1, if_true]
          · simp only [List.getElem?_set_ne (Ne.symm hj)] at h2
            rw [Function.update_of_ne hj, Function.update_of_ne hj]
            exact I.gets j p₀ p' h1 h2
        · intro nf
          have := nf c.heap.calls
          rw [← I.fails, hf] at this
          cases this
        · intro j
          by_cases hj : j = i
          · subst hj; simp only [Function.update_self]; exact I.next j
          · rw [Function.update_of_ne hj]; exact I.next j
        · intro j b x h
          by_cases hj : j = i
          · subst hj; simp only [Function.update_self] at h; simpa using I.mine j b x h
          · rw [Function.update_of_ne hj] at h; simpa using I.mine j b x h
        · simpa using I.range
        · simpa using I.one
        · intro b hb
          refine I.rest b fun j => ?_
          have := hb j
          by_cases hj : j = i
          · subst hj; simpa only [Function.update_self] using this
          · rwa [Function.update_of_ne hj] at this
      | false =>
        obtain ⟨a, ha⟩ : ∃ a, a = c.heap.next + c.heap.gap c.heap.calls := ⟨_, rfl⟩
        simp only [Heap.malloc, hf, ← ha]
        have hna : c.heap.block a = none := I.valid a (by omega)
        have hfresh : ∀ j, (j, a) ∉ c.log := fun j h => by
          have := (I.range _ h).2
          simp at this; omega
        have hle := I.le
        refine ⟨_, rfl, Function.update ms i
            ⟨fun b => if b = a then some o else (ms i).block b, a + 1, (ms i).calls + 1⟩,
          Function.update fs i (Function.update (fs i) (ms i).calls false),
          Function.update gs i (Function.update (gs i) (ms i).calls (a - (ms i).next)), ?_⟩
        refine ⟨by simp [I.len], by simp; omega, ?_, I.fails, ?_, ?_, ?_, ?_, ?_, ?_, ?_,
          fun j hj b => by
            have := I.len
            rw [Function.update_of_ne (by omega)]
            exact I.absent j hj b⟩
        · intro b hb
          simp at hb
          have : b ≠ a := by omega
          simp only [this, if_false]
          exact I.valid b (by omega)
        · intro j p₀ p' h1 h2
          by_cases hj : j = i
          · subst hj
            simp only [List.getElem?_set_self hi, Option.some.injEq] at h2
            subst h2
            intro f' g' hfg
            simp only [Function.update_self] at hfg ⊢
            have h3 := hfg (ms j).calls (Nat.lt_succ_self _)
            simp only [Function.update_self] at h3
            rw [I.gets j p₀ _ h1 hp f' g' fun m hm => by
              have := hfg m (Nat.lt_succ_of_lt hm)
              rwa [Function.update_of_ne (Nat.ne_of_lt hm),
                Function.update_of_ne (Nat.ne_of_lt hm)] at this]
            have hn := I.next j
            have e : (ms j).next + g' (ms j).calls = a := by rw [h3.2]; omega
            simp [run, Mine.heap, Heap.malloc, h3.1, e]
          · simp only [List.getElem?_set_ne (Ne.symm hj)] at h2
            rw [Function.update_of_ne hj, Function.update_of_ne hj, Function.update_of_ne hj]
            exact I.gets j p₀ p' h1 h2
        · intro nf j m
          by_cases hj : j = i
          · subst hj
            rw [Function.update_self]
            by_cases hm : m = (ms j).calls
            · subst hm; simp
            · rw [Function.update_of_ne hm]; exact I.noFail nf j m
          · rw [Function.update_of_ne hj]; exact I.noFail nf j m
        · intro j
          by_cases hj : j = i
          · subst hj; simp
          · rw [Function.update_of_ne hj]
            have := I.next j
            simp; omega
        · intro j b x h
          by_cases hj : j = i
          · subst hj
            simp only [Function.update_self] at h
            by_cases hb : b = a
            · subst hb
              simp only [if_true] at h
              simpa using h
            · simp only [hb, if_false] at h ⊢
              have := I.mine j b x h
              exact ⟨this.1, List.mem_append_right _ this.2⟩
          · rw [Function.update_of_ne hj] at h
            obtain ⟨h1, h2⟩ := I.mine j b x h
            have hb : b ≠ a := by
              rintro rfl
              exact hfresh _ h2
            simp only [hb, if_false]
            exact ⟨h1, List.mem_append_right _ h2⟩
        · intro y hy
          rcases List.mem_append.1 hy with hy | hy
          · simp at hy
            subst hy
            simp; omega
          · have := I.range y hy
            simp; omega
        · intro j m b h1 h2
          simp only [Option.toList_some, List.map_cons, List.map_nil, List.cons_append,
            List.nil_append, List.mem_cons, Prod.mk.injEq] at h1 h2
          rcases h1 with ⟨rfl, rfl⟩ | h1 <;> rcases h2 with ⟨rfl, h2⟩ | h2
          · rfl
          · exact absurd h2 (hfresh _)
          · subst h2; exact absurd h1 (hfresh _)
          · exact I.one j m b h1 h2
        · intro b hb
          have hba : b ≠ a := by
            rintro rfl
            have := hb i
            simp at this
          simp only [hba, if_false]
          refine I.rest b fun j => ?_
          have := hb j
          by_cases hj : j = i
          · subst hj
            simpa only [Function.update_self, hba, if_false] using this
          · rwa [Function.update_of_ne hj] at this

end

/-- Every schedule. -/
theorem Inv.schedule {h₀ : Heap} {ps : List (Prog α)} (hv₀ : h₀.Valid)
    (safe : ∀ p ∈ ps, ∀ f g, run p (Mine.none.heap f g) ≠ none) :
    ∀ (s : List Nat) (c : Config α) (ms : Nat → Mine) (fs : Nat → Nat → Bool) (gs : Nat → Nat → Nat),
      Inv h₀ ps c ms fs gs →
      ∃ c', c.runSchedule s = some c' ∧ ∃ ms' fs' gs', Inv h₀ ps c' ms' fs' gs'
  | [], c, ms, fs, gs, I => ⟨c, rfl, ms, fs, gs, I⟩
  | i :: s, c, ms, fs, gs, I => by
    obtain ⟨c', e, ms', fs', gs', I'⟩ := I.turn hv₀ safe i
    obtain ⟨c'', e', J⟩ := Inv.schedule hv₀ safe s c' ms' fs' gs' I'
    exact ⟨c'', by simp only [Config.runSchedule, e, e'], J⟩

/-! ### Threads that get turns again and again finish -/

theorem runSchedule_append (s t : List Nat) (c : Config α) :
    c.runSchedule (s ++ t) = match c.runSchedule s with
      | none => none
      | some c' => c'.runSchedule t := by
  induction s generalizing c with
  | nil => rfl
  | cons i s ih =>
    simp only [List.cons_append, Config.runSchedule]
    cases c.turn i with
    | none => rfl
    | some c' => exact ih c'

/-- The threads after `n` turns. -/
def Config.after (c : Config α) (schedule : Nat → Nat) (n : Nat) : Option (Config α) :=
  c.runSchedule ((List.range n).map schedule)

theorem Config.after_succ (c : Config α) (schedule : Nat → Nat) (n : Nat) :
    c.after schedule (n + 1) = match c.after schedule n with
      | none => none
      | some c' => c'.turn (schedule n) := by
  unfold Config.after
  rw [List.range_succ, List.map_append, runSchedule_append]
  cases c.runSchedule ((List.range n).map schedule) with
  | none => rfl
  | some c' =>
    simp only [List.map_cons, List.map_nil, Config.runSchedule]
    cases c'.turn (schedule n) <;> rfl

/-- A turn of another thread. -/
theorem turn_other {c c' : Config α} {i j : Nat} (h : c.turn j = some c') (hij : j ≠ i) :
    c'.threads[i]? = c.threads[i]? := by
  unfold Config.turn at h
  split at h
  · cases h; rfl
  · cases h; rfl
  · cases h
  · split at h
    · cases h; exact List.getElem?_set_ne hij
    · cases h
  · split at h
    · cases h; exact List.getElem?_set_ne hij
    · cases h
  · split at h
    · cases h; exact List.getElem?_set_ne hij
    · cases h
  · split at h
    · cases h; exact List.getElem?_set_ne hij
    · cases h

/-- What the program is after one more access. -/
inductive Prog.Child : Prog α → Prog α → Prop
  | malloc (o : Obj) (k : Ptr → Prog α) (p : Ptr) : Child (k p) (.malloc o k)
  | free (a : Nat) (k : Prog α) : Child k (.free a k)
  | load (a : Nat) (k : Obj → Prog α) (o : Obj) : Child (k o) (.load a k)
  | store (a : Nat) (o : Obj) (k : Prog α) : Child k (.store a o k)

theorem turn_own {c c' : Config α} {i : Nat} {p : Prog α} (h : c.turn i = some c')
    (hp : c.threads[i]? = some p) : (∃ a, p = .ret a ∧ c' = c) ∨
      ∃ q, Prog.Child q p ∧ c'.threads[i]? = some q := by
  obtain ⟨hi, -⟩ := List.getElem?_eq_some_iff.1 hp
  unfold Config.turn at h
  rw [hp] at h
  cases p with
  | ret a => cases h; exact .inl ⟨a, rfl, rfl⟩
  | fault => cases h
  | malloc o k =>
    simp only at h
    split at h
    · rename_i h' p' _
      cases h; exact .inr ⟨k p', .malloc o k p', List.getElem?_set_self hi⟩
    · cases h
  | free a k =>
    simp only at h
    split at h
    · cases h; exact .inr ⟨k, .free a k, List.getElem?_set_self hi⟩
    · cases h
  | load a k =>
    simp only at h
    split at h
    · rename_i h' o _
      cases h; exact .inr ⟨k o, .load a k o, List.getElem?_set_self hi⟩
    · cases h
  | store a o k =>
    simp only at h
    split at h
    · cases h; exact .inr ⟨k, .store a o k, List.getElem?_set_self hi⟩
    · cases h

theorem Prog.child_wf (p : Prog α) : Acc Prog.Child p := by
  induction p with
  | ret a => exact ⟨_, fun q h => by cases h⟩
  | fault => exact ⟨_, fun q h => by cases h⟩
  | malloc o k ih => exact ⟨_, fun q h => by cases h; exact ih _⟩
  | free a k ih => exact ⟨_, fun q h => by cases h; exact ih⟩
  | load a k ih => exact ⟨_, fun q h => by cases h; exact ih _⟩
  | store a o k ih => exact ⟨_, fun q h => by cases h; exact ih⟩

/-- A thread that has finished stays so. -/
theorem finished_stays {c : Config α} {schedule : Nat → Nat} (all : ∀ n, c.after schedule n ≠ none)
    {i : Nat} {a : α} {n : Nat} {c₁ : Config α} (e : c.after schedule n = some c₁)
    (hf : c₁.threads[i]? = some (.ret a)) (m : Nat) :
    ∃ c₂, c.after schedule (n + m) = some c₂ ∧ c₂.threads[i]? = some (.ret a) := by
  induction m with
  | zero => exact ⟨c₁, e, hf⟩
  | succ m ih =>
    obtain ⟨c₂, e2, hf2⟩ := ih
    have := Config.after_succ c schedule (n + m)
    rw [e2] at this
    cases ht : c₂.turn (schedule (n + m)) with
    | none => exact absurd (this.trans ht) (all _)
    | some c₃ =>
      refine ⟨c₃, this.trans ht, ?_⟩
      by_cases hj : schedule (n + m) = i
      · rw [hj] at ht
        rcases turn_own ht hf2 with ⟨b, e1, rfl⟩ | ⟨q, hq, -⟩
        · exact hf2
        · cases hq
      · rw [turn_other ht hj]; exact hf2

/-- A thread that gets turns again and again finishes. -/
theorem finishes {c : Config α} {schedule : Nat → Nat} (all : ∀ n, c.after schedule n ≠ none)
    {i : Nat} (again : ∀ n, ∃ m, n ≤ m ∧ schedule m = i) (p : Prog α) :
    ∀ (n : Nat) (c₁ : Config α), c.after schedule n = some c₁ → c₁.threads[i]? = some p →
      ∃ m c₂ a, c.after schedule m = some c₂ ∧ c₂.threads[i]? = some (.ret a) := by
  induction Prog.child_wf p with
  | intro p _ ih =>
    intro n c₁ e hp
    obtain ⟨m, hm, hs⟩ := again n
    -- the thread waits for its turn, or gets one earlier
    obtain ⟨d, rfl⟩ := Nat.exists_eq_add_of_le hm
    clear hm
    induction d generalizing n c₁ with
    | zero =>
      have e2 := Config.after_succ c schedule n
      rw [e] at e2
      simp only [Nat.add_zero] at hs
      rw [hs] at e2
      cases ht : c₁.turn i with
      | none => exact absurd (e2.trans ht) (all _)
      | some c₂ =>
        rcases turn_own ht hp with ⟨a, rfl, rfl⟩ | ⟨q, hq, hq'⟩
        · exact ⟨n, _, a, e, hp⟩
        · exact ih q hq (n + 1) c₂ (e2.trans ht) hq'
    | succ d ihd =>
      have e2 := Config.after_succ c schedule n
      rw [e] at e2
      cases ht : c₁.turn (schedule n) with
      | none => exact absurd (e2.trans ht) (all _)
      | some c₂ =>
        by_cases hj : schedule n = i
        · rw [hj] at ht e2
          rcases turn_own ht hp with ⟨a, rfl, rfl⟩ | ⟨q, hq, hq'⟩
          · exact ⟨n, _, a, e, hp⟩
          · exact ih q hq (n + 1) c₂ (e2.trans ht) hq'
        · exact ihd (n + 1) c₂ (e2.trans ht) (by rw [turn_other ht hj]; exact hp)
            (by rw [← hs]; congr 1; omega)

theorem turn_length {c c' : Config α} {j : Nat} (h : c.turn j = some c') :
    c'.threads.length = c.threads.length := by
  unfold Config.turn at h
  split at h
  · cases h; rfl
  · cases h; rfl
  · cases h
  · split at h
    · cases h; exact List.length_set ..
    · cases h
  · split at h
    · cases h; exact List.length_set ..
    · cases h
  · split at h
    · cases h; exact List.length_set ..
    · cases h
  · split at h
    · cases h; exact List.length_set ..
    · cases h

/-- All threads finish. -/
theorem all_finish {c : Config α} {schedule : Nat → Nat} (all : ∀ n, c.after schedule n ≠ none)
    (again : ∀ i < c.threads.length, ∀ n, ∃ m, n ≤ m ∧ schedule m = i) :
    ∃ N, ∀ n, N ≤ n → ∃ c', c.after schedule n = some c' ∧
      ∀ i < c.threads.length, ∃ a, c'.threads[i]? = some (.ret a) := by
  have key : ∀ k ≤ c.threads.length, ∃ N, ∀ n, N ≤ n → ∃ c', c.after schedule n = some c' ∧
      ∀ i < k, ∃ a, c'.threads[i]? = some (.ret a) := by
    intro k
    induction k with
    | zero =>
      intro _
      refine ⟨0, fun n _ => ?_⟩
      obtain ⟨c', e⟩ := Option.ne_none_iff_exists'.1 (all n)
      exact ⟨c', e, fun i hi => absurd hi (Nat.not_lt_zero i)⟩
    | succ k ih =>
      intro hk
      obtain ⟨N, hN⟩ := ih (by omega)
      have h0 : c.after schedule 0 = some c := rfl
      obtain ⟨m, c₂, a, e, hf⟩ := finishes all (again k hk) c.threads[k] 0 c h0
        (List.getElem?_eq_getElem hk)
      refine ⟨max N m, fun n hn => ?_⟩
      obtain ⟨c', e', hc'⟩ := hN n (le_trans (Nat.le_max_left _ _) hn)
      refine ⟨c', e', fun i hi => ?_⟩
      rcases Nat.lt_succ_iff_lt_or_eq.1 hi with h | rfl
      · exact hc' i h
      · obtain ⟨c₃, e3, hf3⟩ := finished_stays all e hf (n - m)
        have : m + (n - m) = n := by
          have := le_trans (Nat.le_max_right N m) hn
          omega
        rw [this, e'] at e3
        cases e3
        exact ⟨a, hf3⟩
  exact key _ (Nat.le_refl _)

end Verif.Threads
