/-
C08, C09 for loops with iterators.
-/
import Verif.Proofs.NeighbourhoodIteration
import Verif.Props.Graph

namespace Verif.Props
open Verif.Spec

variable {R : Type} [Arith R]

/-- **C08** A range-for statement over `cellNeighbourhood(row)` ends after one step per connection and
    runs its body, whatever it does, once for each connection of the row, ascending by column; iterators never leave the arrays, and
    the assertion in `operator!=` holds.  (`forEach l s body` runs `body` on the elements of `l` in
    order, until the first exception.) -/
theorem C08_range_for (ws : List (Int × Int × R)) (n : Nat) (hn : n ≤ INT_MAX)
    (hv : ∀ c ∈ ws, ValidIndex c.1 ∧ ValidIndex c.2.1) (hlt : ∀ c ∈ ws, c.1 < n) :
    ∃ g, ∃ L : Nat → List (Int × R), (freshWith (weighted ws)).compress n = .ok g ∧ g.numRows = n ∧
      (∀ r < n, ∀ (σ : Type) (body : σ → Int × R → Res σ) (s : σ) (fuel : Nat), (L r).length < fuel →
        g.rangeFor fuel r s body = forEach (L r) s body) ∧
      (∀ r < n, (L r).Pairwise fun a b => a.1 < b.1) ∧
      ∀ r < n, ∀ j, (∃ w, (j, w) ∈ L r) ↔ ∃ w, ((r : Int), j, w) ∈ ws := by
  obtain ⟨g, L, e, h1, h2, h3, h4, _⟩ := C08_iteration ws n hn hv hlt
  have hmem : ∀ r < n, ∀ c ∈ L r, (r, c.1, c.2) ∈ visited n L := by
    intro r hr c hc
    unfold visited
    exact List.mem_flatMap.mpr ⟨r, List.mem_range.mpr hr, List.mem_map.mpr ⟨c, hc, rfl⟩⟩
  refine ⟨g, L, e, h1, fun r hr σ body s fuel hf => AssembledConnections.rangeFor_eq body (h2 r hr) hf s, ?_, ?_⟩
  · intro r hr
    have hs : ((L r).map fun c => (r, c.1, c.2)).Sublist (visited n L) := by
      unfold visited
      obtain ⟨a, b, hab⟩ := List.append_of_mem (List.mem_range.mpr hr)
      rw [hab, List.flatMap_append, List.flatMap_cons]
      exact (List.sublist_append_left _ _).trans (List.sublist_append_right _ _)
    have := h3.sublist hs
    rw [List.pairwise_map] at this
    refine this.imp ?_
    rintro a b (h | h)
    · exact absurd h (lt_irrefl _)
    · exact h.2
  · intro r hr j
    rw [← h4 r j]
    constructor
    · rintro ⟨w, hw⟩; exact ⟨w, hmem r hr _ hw⟩
    · rintro ⟨w, hw⟩
      unfold visited at hw
      obtain ⟨r', _, hc⟩ := List.mem_flatMap.mp hw
      obtain ⟨c, hc', e⟩ := List.mem_map.mp hc
      simp only [Prod.mk.injEq] at e
      obtain ⟨rfl, rfl, rfl⟩ := e
      exact ⟨_, hc'⟩

theorem le_sum_range {α : Type} (L : Nat → List α) {n r : Nat} (hr : r < n) :
    (L r).length ≤ ((List.range n).map fun r => (L r).length).sum := by
  induction n with
  | zero => omega
  | succ n ih =>
    rw [List.range_succ, List.map_append, List.sum_append]
    simp only [List.map_cons, List.map_nil, List.sum_cons, List.sum_nil]
    rcases Nat.lt_or_ge r n with h | h
    · have := ih h; omega
    · have : r = n := by omega
      subst this; omega

/-- **C09** Printing with iterators writes what printing row by row writes. -/
theorem C09_print_iterators (ws : List (Int × Int × R)) (n : Nat) (hn : n ≤ INT_MAX)
    (hv : ∀ c ∈ ws, ValidIndex c.1 ∧ ValidIndex c.2.1) (hlt : ∀ c ∈ ws, c.1 < n) :
    ∃ g, (freshWith (weighted ws)).compress n = .ok g ∧
      ∃ N, ∀ fuel ≥ N, ∀ os : OStream R, g.printIter fuel os = g.print os := by
  obtain ⟨g, L, e, h1, h2, _⟩ := C08_iteration ws n hn hv hlt
  have hnar : (narrowInt g.numRows).toNat = n := by
    rw [h1]; unfold narrowInt; unfold INT_MAX at hn
    rw [Nat.mod_eq_of_lt (by omega), if_pos (by omega)]; simp
  refine ⟨g, e, ((List.range n).map fun r => (L r).length).sum + 1, fun fuel hf os => ?_⟩
  unfold AssembledConnections.printIter AssembledConnections.print
  have hfold : ∀ (cell : Nat) (l : List (Int × R)) (os : OStream R),
      forEach l os (fun os c => .ok (os.writeLine (cell : Int) c)) = .ok (l.foldl (fun os c => os.writeLine (cell : Int) c) os) := by
    intro cell l
    induction l with
    | nil => intro os; rfl
    | cons c l ih => intro os; simp only [forEach, Res.ok_bind, List.foldl_cons, ih]
  have key : ∀ l : List Nat, (∀ r ∈ l, r < n) → ∀ os : OStream R,
      forEach l os (fun os (cell : Nat) => g.rangeFor fuel cell os fun os c => .ok (os.writeLine cell c))
        = forEach l os (fun os (cell : Nat) => do
          let nb ← g.cellNeighbourhood cell
          pure (nb.foldl (fun os c => os.writeLine cell c) os)) := by
    intro l
    induction l with
    | nil => intro _ os; rfl
    | cons r l ih =>
      intro hl os
      have hr := hl r (by simp)
      have hlen : (L r).length < fuel := by
        have := le_sum_range L hr
        omega
      have := AssembledConnections.rangeFor_eq (fun (os : OStream R) c => .ok (os.writeLine r c)) (h2 r hr) hlen os
      simp only [forEach, Res.bind_eq, this, hfold, h2 r hr, Res.ok_bind, Res.pure_eq]
      have ih' := ih (fun r h => hl r (by simp [h]))
      simp only [Res.bind_eq, Res.pure_eq] at ih'
      exact ih' _
  simp only [hnar, key (List.range n) fun r h => List.mem_range.mp h]

/-- Two rows, three connections, one of them twice. -/
example (a b c d : R) : let ws := [(0, 1, a), (1, 0, b), (0, 1, c), (0, 0, d)]
    (∀ c ∈ ws, ValidIndex c.1 ∧ ValidIndex c.2.1) ∧ (∀ c ∈ ws, c.1 < (2 : Nat)) := by
  simp [ValidIndex]

end Verif.Props
