/- Facts about the adjacency specification: uniqueness, and the whole graph as the
   concatenation of its rows. -/
import Verif.Spec.Graph
import Mathlib.Data.List.Sort
import Mathlib.Data.List.Nodup
import Mathlib.Data.List.Perm.Subperm
import Mathlib.Tactic.Linarith

namespace Verif.Spec

theorem sorted_ext {l l' : List Int} (h : l.Pairwise (· < ·)) (h' : l'.Pairwise (· < ·))
    (hm : ∀ x, x ∈ l ↔ x ∈ l') : l = l' := by
  have hp : l.Perm l' := by
    rw [List.perm_ext_iff_of_nodup (h.imp fun h => ne_of_lt h) (h'.imp fun h => ne_of_lt h)]
    exact hm
  exact hp.eq_of_pairwise (fun a b _ _ h1 h2 => absurd h1 (not_lt_of_gt h2)) h h'

namespace IsAdjacency
variable {n : Nat} {E : Int → Int → Prop} {sp : List Nat} {nb : List Int}

theorem mono_getD (h : IsAdjacency n E sp nb) {a b : Nat} (hab : a ≤ b) (hb : b ≤ n) :
    sp.getD a 0 ≤ sp.getD b 0 := by
  have hbl : b < sp.length := by have := h.size; omega
  have hal : a < sp.length := by omega
  rcases Nat.lt_or_ge a b with hlt | hge
  · have := List.pairwise_iff_getElem.mp h.mono a b hal hbl hlt
    simpa [List.getD_eq_getElem?_getD, hal, hbl] using this
  · have : a = b := by omega
    subst this; exact le_refl _

theorem last_getD (h : IsAdjacency n E sp nb) : sp.getD n 0 = nb.length := by
  simp [List.getD_eq_getElem?_getD, h.last]

theorem first_getD (h : IsAdjacency n E sp nb) : sp.getD 0 0 = 0 := by
  simp [List.getD_eq_getElem?_getD, h.first]

theorem le_length (h : IsAdjacency n E sp nb) {r : Nat} (hr : r ≤ n) : sp.getD r 0 ≤ nb.length := by
  rw [← h.last_getD]; exact h.mono_getD hr (le_refl _)

theorem length_rowOf (h : IsAdjacency n E sp nb) {r : Nat} (hr : r < n) {α : Type} {xs : List α}
    (hx : xs.length = nb.length) :
    (rowOf sp xs r).length = sp.getD (r + 1) 0 - sp.getD r 0 := by
  unfold rowOf
  have := h.le_length (r := r + 1) (by omega)
  simp only [List.length_take, List.length_drop]
  omega

theorem rowOf_getElem? (h : IsAdjacency n E sp nb) {r : Nat} (hr : r < n) {α : Type} {xs : List α}
    (t : Nat) (ht : t < sp.getD (r + 1) 0 - sp.getD r 0) :
    (rowOf sp xs r)[t]? = xs[sp.getD r 0 + t]? := by
  unfold rowOf
  rw [List.getElem?_take_of_lt ht, List.getElem?_drop]

/-- The prefix up to row `r` is the concatenation of the rows before `r`. -/
theorem take_eq (h : IsAdjacency n E sp nb) {α : Type} {xs : List α} {r : Nat} (hr : r ≤ n) :
    xs.take (sp.getD r 0) = (List.range r).flatMap (rowOf sp xs) := by
  induction r with
  | zero => rw [h.first_getD]; simp
  | succ r ih =>
    rw [List.range_succ, List.flatMap_append, ← ih (by omega)]
    have hm := h.mono_getD (a := r) (b := r + 1) (by omega) hr
    simp only [List.flatMap_cons, List.flatMap_nil, List.append_nil]
    unfold rowOf
    rw [← List.take_add]
    congr 1; omega

theorem flatten_eq (h : IsAdjacency n E sp nb) {α : Type} {xs : List α} (hx : xs.length = nb.length) :
    xs = (List.range n).flatMap (rowOf sp xs) := by
  rw [← h.take_eq (le_refl n), h.last_getD, ← hx, List.take_length]

/-- Position `q` belongs to exactly one row. -/
theorem exists_row (h : IsAdjacency n E sp nb) {q : Nat} (hq : q < nb.length) :
    ∃ r < n, sp.getD r 0 ≤ q ∧ q < sp.getD (r + 1) 0 := by
  have key : ∀ k ≤ n, q < sp.getD k 0 → ∃ r < n, sp.getD r 0 ≤ q ∧ q < sp.getD (r + 1) 0 := by
    intro k
    induction k with
    | zero => intro _ hk; rw [h.first_getD] at hk; omega
    | succ k ih =>
      intro hk hlt
      by_cases h1 : q < sp.getD k 0
      · exact ih (by omega) h1
      · exact ⟨k, by omega, by omega, hlt⟩
  exact key n (le_refl n) (by rw [h.last_getD]; exact hq)

/-- A graph has only one adjacency structure. -/
theorem unique (h : IsAdjacency n E sp nb) {sp' nb'} (h' : IsAdjacency n E sp' nb') :
    sp = sp' ∧ nb = nb' := by
  have hrow : ∀ r < n, rowOf sp nb r = rowOf sp' nb' r := fun r hr =>
    sorted_ext (h.sorted r hr) (h'.sorted r hr) fun x => by rw [h.mem r hr, h'.mem r hr]
  have hsp : ∀ r ≤ n, sp.getD r 0 = sp'.getD r 0 := by
    intro r hr
    induction r with
    | zero => rw [h.first_getD, h'.first_getD]
    | succ r ih =>
      have e := congrArg List.length (hrow r (by omega))
      rw [h.length_rowOf (by omega) rfl, h'.length_rowOf (by omega) rfl] at e
      have m1 := h.mono_getD (a := r) (b := r + 1) (by omega) hr
      have m2 := h'.mono_getD (a := r) (b := r + 1) (by omega) hr
      have := ih (by omega)
      omega
  constructor
  · apply List.ext_getElem
    · rw [h.size, h'.size]
    · intro i h1 h2
      have := hsp i (by have := h.size; omega)
      simpa [List.getD_eq_getElem?_getD, h1, h2] using this
  · rw [h.flatten_eq (xs := nb) rfl, h'.flatten_eq (xs := nb') rfl]
    apply List.flatMap_congr
    intro r hr; exact hrow r (by simpa using hr)

theorem congr (h : IsAdjacency n E sp nb) {E' : Int → Int → Prop}
    (he : ∀ r < n, ∀ j, E (r : Int) j ↔ E' r j) : IsAdjacency n E' sp nb :=
  ⟨h.size, h.first, h.mono, h.last, h.sorted, fun r hr j => by rw [h.mem r hr, he r hr]⟩

end IsAdjacency

/-- Weights are determined by the graph and the sums. -/
theorem HasWeights.unique {R : Type} [Arith R] {n : Nat} {E : Int → Int → Prop} {sp nb}
    {cs cs' : List (Int × Int × R)} {w w' : List R} (ha : IsAdjacency n E sp nb)
    (h : HasWeights n cs sp nb w) (h' : HasWeights n cs' sp nb w')
    (he : ∀ i j, (weightsOf cs i j).foldl Arith.add Arith.zero
      = (weightsOf cs' i j).foldl Arith.add Arith.zero) : w = w' := by
  apply List.ext_getElem
  · rw [h.size, h'.size]
  · intro q h1 h2
    have hq : q < nb.length := by rw [← h.size]; exact h1
    obtain ⟨r, hr, a, b⟩ := ha.exists_row hq
    have e1 := h.sum r hr q a b nb[q] (by simp [hq])
    have e2 := h'.sum r hr q a b nb[q] (by simp [hq])
    rw [he, ← e2] at e1
    simpa [h1, h2] using e1

end Verif.Spec
