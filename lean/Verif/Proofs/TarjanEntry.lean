/- Where a depth-first search enters the components it completes. -/
import Verif.Proofs.TarjanInv

namespace Verif.Tarjan

variable {nv : Nat} {adj : Nat → List Nat} {Rch : Nat → Prop} {g : Ghost}

/-- The completed set contains everything reachable from it. -/
theorem Inv.done_closed (h : Inv nv adj Rch g) {u v : Nat} (hu : u ∈ g.done.flatten)
    (hr : Reach adj u v) : v ∈ g.done.flatten := by
  induction hr with
  | refl => exact hu
  | tail _ he ih =>
    rename_i p q _
    obtain ⟨C, hC, hp⟩ := List.mem_flatten.mp ih
    obtain ⟨pre, post, hs⟩ := List.append_of_mem hC
    rcases h.closed pre C post hs p hp q he with hq | hq
    · obtain ⟨C', h1, h2⟩ := List.mem_flatten.mp hq
      exact List.mem_flatten.mpr ⟨C', by rw [hs]; simp [h1], h2⟩
    · exact List.mem_flatten.mpr ⟨C, hC, hq⟩

theorem Inv.act (h : Inv nv adj Rch g) (hcl : ∀ u, Rch u → ∀ v ∈ adj u, v < nv ∧ Rch v) (hp : g.pend = none) :
    Inv nv adj Rch (g.act adj) := by
  unfold Ghost.act
  split
  · rename_i c seg rest hfr
    have hcS : c ∈ stk g.frames := by rw [hfr]; simp
    have hge := (h.st_stk c).mpr hcS
    split
    · rename_i h0
      have hf : Finishing adj g c seg rest := ⟨hfr, hp, h0⟩
      unfold Ghost.finish
      rw [hfr]
      simp only
      split
      · rename_i hroot
        exact h.capture hf hroot
      · rename_i hroot
        obtain ⟨p, segp, rest', rfl, hr⟩ := h.not_root hf hroot
        exact h.merge hf hr
    · rename_i h0
      split
      · rename_i child hch
        exact h.descend hcl hfr hp (by omega) hch
      · exact h
  · exact h

theorem Inv.step (h : Inv nv adj Rch g) (hcl : ∀ u, Rch u → ∀ v ∈ adj u, v < nv ∧ Rch v) :
    Inv nv adj Rch (g.step adj) := by
  unfold Ghost.step
  split
  · rename_i c hp
    exact (h.discover hp).act hcl rfl
  · rename_i hp
    exact h.act hcl hp

/-- Each completed component was entered at its last vertex: along an edge from outside, or because
    the search began there, which `Sd` describes. -/
structure Entered (Rch Sd : Nat → Prop) (adj : Nat → List Nat) (g : Ghost) : Prop where
  pend : ∀ p, g.pend = some p → g.frames = [] → Sd p
  base : ∀ f ∈ g.frames.getLast?, Sd f.1
  done : ∀ c ∈ g.done, ∃ l u, c = l ++ [u] ∧ ((∃ p, p ∉ c ∧ Rch p ∧ Edge adj p u) ∨ Sd u)

variable {Sd : Nat → Prop}

theorem Entered.act (e : Entered Rch Sd adj g) (h : Inv nv adj Rch g) (hp : g.pend = none) :
    Entered Rch Sd adj (g.act adj) := by
  unfold Ghost.act
  split
  · rename_i c seg rest hfr
    split
    · rename_i h0
      have hf : Finishing adj g c seg rest := ⟨hfr, hp, h0⟩
      have hb := e.base
      rw [hfr] at hb
      unfold Ghost.finish
      rw [hfr]
      simp only
      split
      · obtain ⟨_, _, t3⟩ := h.time_facts hfr
        have hpath := h.path
        rw [hfr] at hpath
        refine ⟨fun p h1 _ => by simp [Ghost.capture, hp] at h1, ?_, ?_⟩
        · intro f hf'
          simp only [Ghost.capture] at hf'
          apply hb
          cases rest with
          | nil => simp at hf'
          | cons a l => simpa using hf'
        · intro d hd
          simp only [Ghost.capture, List.mem_append, List.mem_singleton] at hd
          rcases hd with hd | rfl
          · exact e.done d hd
          · refine ⟨seg, c, rfl, ?_⟩
            cases rest with
            | nil => exact Or.inr (hb (c, seg) (by simp))
            | cons a l =>
              refine Or.inl ⟨a.1, fun hm => t3 _ hm (by simp), (h.lt a.1 (Or.inr (by rw [hfr]; simp))).2, (List.isChain_cons_cons.mp hpath).1⟩
      · rename_i hroot
        obtain ⟨p, segp, rest', rfl, _⟩ := h.not_root hf hroot
        refine ⟨fun p h1 _ => by simp [Ghost.merge, hp] at h1, ?_, e.done⟩
        intro f hf'
        simp only [Ghost.merge] at hf'
        cases rest' with
        | nil =>
          simp only [List.getLast?_singleton, Option.mem_def, Option.some.injEq] at hf'
          subst hf'
          exact hb (p, segp) (by simp)
        | cons a l => exact hb f (by simpa using hf')
    · split
      · rename_i child _
        unfold Ghost.descend
        split
        · exact ⟨fun p _ h2 => by simp [hfr] at h2, e.base, e.done⟩
        · split
          · exact ⟨fun p h1 _ => by simp [hp] at h1, e.base, e.done⟩
          · exact ⟨fun p h1 _ => by simp [hp] at h1, e.base, e.done⟩
      · exact e
  · exact e

theorem Entered.step (e : Entered Rch Sd adj g) (h : Inv nv adj Rch g) : Entered Rch Sd adj (g.step adj) := by
  unfold Ghost.step
  split
  · rename_i c hp
    refine Entered.act ⟨fun p h1 _ => by simp [Ghost.discover] at h1, ?_, e.done⟩ (h.discover hp) rfl
    intro f hf
    simp only [Ghost.discover] at hf
    cases hfr : g.frames with
    | nil =>
      rw [hfr] at hf
      simp only [List.getLast?_singleton, Option.mem_def, Option.some.injEq] at hf
      subst hf
      exact e.pend c hp hfr
    | cons a l =>
      rw [hfr] at hf
      exact e.base f (by rw [hfr]; simpa using hf)
  · rename_i hp
    exact e.act h hp

theorem Entered.run (hcl : ∀ u, Rch u → ∀ v ∈ adj u, v < nv ∧ Rch v) : ∀ (m : Nat) {g : Ghost}, Entered Rch Sd adj g →
    Inv nv adj Rch g → Entered Rch Sd adj (g.run adj m)
  | 0, _, e, _ => e
  | m + 1, g, e, h => by
    unfold Ghost.run
    split
    · exact e
    · exact Entered.run hcl m (e.step h) (h.step hcl)

theorem Entered.begin (e : Entered Rch Sd adj g) {start : Nat} (hs : Sd start) : Entered Rch Sd adj (g.begin start) := by
  refine ⟨fun p h1 _ => ?_, e.base, e.done⟩
  simp only [Ghost.begin, Option.some.injEq] at h1
  exact h1 ▸ hs

end Verif.Tarjan
