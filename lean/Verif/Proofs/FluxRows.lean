/-
The rows of a toolbox's graphs, and the inflow of each cell, in any arithmetic.
-/
import Verif.Proofs.ToolboxSafe

namespace Verif.Toolbox
open Verif.Spec Verif.Solver

variable {R : Type} [Arith R]

omit [Arith R] in
/-- There is a connection from `u` to `v`. -/
def joins (D : List (Int × Int × R)) (u v : Nat) : Bool := D.any fun c => c.1 == (u : Int) && c.2.1 == (v : Int)

/-- What flows from `u` to `v`: `0` plus the weights given for the pair. -/
def flowOf (D : List (Int × Int × R)) (u v : Nat) : R :=
  (weightsOf D (u : Int) (v : Int)).foldl Arith.add Arith.zero

/-- The neighbours of `u` in ascending order, each with its flow. -/
def rowOfFlow (n : Nat) (D : List (Int × Int × R)) (u : Nat) : List (Int × R) :=
  ((List.range n).filter (joins D u)).map fun v : Nat => ((v : Int), flowOf D u v)

omit [Arith R] in
theorem joins_iff {D : List (Int × Int × R)} {u v : Nat} : joins D u v = true ↔ ∃ w, ((u : Int), (v : Int), w) ∈ D := by
  unfold joins
  simp only [List.any_eq_true, Bool.and_eq_true, beq_iff_eq]
  constructor
  · rintro ⟨⟨a, b, w⟩, h, e1, e2⟩
    simp only at e1 e2
    subst e1; subst e2
    exact ⟨w, h⟩
  · rintro ⟨w, h⟩; exact ⟨_, h, rfl, rfl⟩

omit [Arith R] in
theorem joins_swap (D : List (Int × Int × R)) (u v : Nat) : joins (swapEnds D) u v = joins D v u := by
  unfold joins swapEnds
  rw [List.any_map]
  congr 1; funext c
  simp [Bool.and_comm]

omit [Arith R] in
theorem weightsOf_swapEnds (D : List (Int × Int × R)) (i j : Int) : weightsOf (swapEnds D) i j = weightsOf D j i := by
  unfold weightsOf swapEnds
  rw [List.filter_map, List.map_map]
  congr 1
  apply List.filter_congr
  intro c _
  simp [Bool.and_comm]

theorem flowOf_swap (D : List (Int × Int × R)) (u v : Nat) : flowOf (swapEnds D) u v = flowOf D v u := by
  unfold flowOf; rw [weightsOf_swapEnds]

theorem row_eq {g : AssembledConnections R} {n : Nat} (hI : n ≤ INT_MAX) {D : List (Int × Int × R)}
    (hD : ∀ c ∈ D, (0 ≤ c.1 ∧ c.1 < n) ∧ (0 ≤ c.2.1 ∧ c.2.1 < n))
    (ha : IsAdjacency n (fun i j => ∃ w, (i, j, w) ∈ D) g.startPointers g.neighbourhood)
    (hw : HasWeights n D g.startPointers g.neighbourhood g.connectionWeight) {u : Nat} (hu : u < n) :
    g.cellNeighbourhood (u : Int) = .ok (rowOfFlow n D u) := by
  rw [cellNeighbourhood_eq g ha hw.size u hu (by omega)]
  congr 1
  have hrow : rowOf g.startPointers g.neighbourhood u
      = ((List.range n).filter (joins D u)).map fun v : Nat => (v : Int) := by
    apply sorted_ext (ha.sorted u hu)
    · rw [List.pairwise_map]
      refine List.Pairwise.imp (fun h => by exact_mod_cast h) (List.Pairwise.filter _ List.pairwise_lt_range)
    · intro j
      rw [ha.mem u hu]
      simp only [List.mem_map, List.mem_filter, List.mem_range]
      constructor
      · rintro ⟨w, h⟩
        have := (hD _ h).2
        simp only at this
        refine ⟨j.toNat, ⟨by omega, joins_iff.mpr ⟨w, ?_⟩⟩, by omega⟩
        rw [Int.toNat_of_nonneg this.1]; exact h
      · rintro ⟨v, ⟨_, h3⟩, rfl⟩; exact joins_iff.mp h3
  have hlen : (rowOf g.startPointers g.connectionWeight u).length = (rowOf g.startPointers g.neighbourhood u).length := by
    rw [ha.length_rowOf hu hw.size, ha.length_rowOf hu rfl]
  have hwt : rowOf g.startPointers g.connectionWeight u
      = ((List.range n).filter (joins D u)).map fun v : Nat => flowOf D u v := by
    apply List.ext_getElem?
    intro k
    by_cases hk : k < (rowOf g.startPointers g.neighbourhood u).length
    · have hk' := hk
      rw [ha.length_rowOf hu rfl] at hk'
      have h1 := ha.rowOf_getElem? hu (xs := g.connectionWeight) k (by omega)
      have h2 := ha.rowOf_getElem? hu (xs := g.neighbourhood) k (by omega)
      have hk3 : k < ((List.range n).filter (joins D u)).length := by
        rw [hrow] at hk; simpa using hk
      rw [hrow, List.getElem?_map, List.getElem?_eq_getElem hk3, Option.map_some] at h2
      rw [h1, List.getElem?_map, List.getElem?_eq_getElem hk3, Option.map_some,
        hw.sum u hu _ (by omega) (by omega) _ h2.symm]
      rfl
    · rw [List.getElem?_eq_none (by omega), List.getElem?_eq_none]
      rw [hrow] at hk; simpa using hk
  rw [hrow, hwt]
  unfold rowOfFlow
  rw [List.zip_map']

/-- The inflow of `v` from the cells below `k`. -/
def inflowFrom (D : List (Int × Int × R)) (v k : Nat) : R :=
  (((List.range k).filter fun u => joins D u v).map fun u => flowOf D u v).foldl Arith.add Arith.zero

theorem inflowFrom_succ (D : List (Int × Int × R)) (v k : Nat) :
    inflowFrom D v (k + 1) = if joins D k v then Arith.add (inflowFrom D v k) (flowOf D k v) else inflowFrom D v k := by
  unfold inflowFrom
  rw [List.range_succ, List.filter_append, List.map_append, List.foldl_append]
  by_cases h : joins D k v <;> simp [h]

theorem influx_eq {g : AssembledConnections R} {n : Nat} (hI : n ≤ INT_MAX) {D : List (Int × Int × R)}
    (hg : GoodGraph g n) (hrow : ∀ u < n, g.cellNeighbourhood (u : Int) = .ok (rowOfFlow n D u)) :
    ∃ io, inOutFlux g = .ok io ∧ io.1.length = n ∧
      ∀ v < n, io.1[v]? = some (((rowOfFlow n (swapEnds D) v).map fun e => e.2).foldl Arith.add Arith.zero) := by
  have hI' : INT_MAX = 2147483647 := rfl
  have hn : narrowInt g.numRows = (n : Int) := by
    unfold AssembledConnections.numRows
    rw [hg.size, if_neg (by omega), Nat.add_sub_cancel]
    unfold narrowInt
    simp only
    split <;> omega
  unfold inOutFlux
  simp only [hn, Int.toNat_natCast]
  rw [if_neg (by omega)]
  obtain ⟨s, h1, h2, h3, h4⟩ := forEach_range_inv (n := n)
    (s := (List.replicate n (Arith.zero : R), List.replicate n (Arith.zero : R)))
    (f := fun s cell => do
      let nb ← g.cellNeighbourhood cell
      forEach nb s (addFlux cell)) (fun k s => s.1.length = n ∧ s.2.length = n ∧
        ∀ v < n, s.1[v]? = some (inflowFrom D v k)) (by
    refine ⟨by simp, by simp, fun v hv => ?_⟩
    simp [hv, inflowFrom]) (by
    intro k s hk hs
    simp only [Res.bind_eq, hrow k hk, Res.ok_bind]
    unfold rowOfFlow
    -- one row, neighbour by neighbour
    obtain ⟨t, ht, ht1, ht2, ht3⟩ := forEach_inv
      (xs := ((List.range n).filter (joins D k)).map fun v : Nat => ((v : Int), flowOf D k v)) (f := addFlux k) (s := s)
      (fun pre (t : List R × List R) => t.1.length = n ∧ t.2.length = n ∧
        ∀ v < n, t.1[v]? = some (if (v : Int) ∈ pre.map Prod.fst then Arith.add (inflowFrom D v k) (flowOf D k v)
          else inflowFrom D v k)) (by simpa using hs) (by
      intro pre x post t e ht
      have hx : x ∈ ((List.range n).filter (joins D k)).map fun v : Nat => ((v : Int), flowOf D k v) := by rw [e]; simp
      obtain ⟨u, hu, rfl⟩ := List.mem_map.mp hx
      have hun : u < n := by
        have := (List.mem_filter.mp hu).1
        simpa using this
      have hnot : (u : Int) ∉ pre.map Prod.fst := by
        have hnd : (((List.range n).filter (joins D k)).map fun v : Nat => ((v : Int), flowOf D k v)).map Prod.fst |>.Nodup := by
          rw [List.map_map]
          refine List.Nodup.map ?_ (List.Nodup.filter _ List.nodup_range)
          intro a b h
          simpa using h
        rw [e, List.map_append, List.nodup_append] at hnd
        intro hmem
        exact hnd.2.2 _ hmem _ (by simp) rfl
      have hsz : sizeOfInt (u : Int) = u := by rw [sizeOfInt_nonneg (by omega) (by omega)]; simp
      have hold := ht.2.2 u hun
      rw [if_neg hnot] at hold
      unfold addFlux
      simp only [hsz, Res.bind_eq, rd_of_getElem? hold, Res.ok_bind, wr_ok (show u < t.1.length by omega),
        rd_ok (show k < t.2.length by omega), wr_ok (show k < t.2.length by omega), Res.pure_eq]
      refine ⟨_, rfl, by simpa using ht.1, by simpa using ht.2.1, ?_⟩
      intro v hv
      by_cases hvu : v = u
      · subst hvu
        rw [List.getElem?_set_self (by omega), if_pos (by simp)]
      · simp only [List.getElem?_set_ne (Ne.symm hvu), List.map_append, List.mem_append, List.map_cons, List.map_nil,
          List.mem_singleton, Nat.cast_inj, hvu, or_false]
        exact ht.2.2 v hv)
    refine ⟨t, ht, ht1, ht2, fun v hv => ?_⟩
    rw [ht3 v hv, inflowFrom_succ]
    congr 1
    have : (v : Int) ∈ (((List.range n).filter (joins D k)).map fun v : Nat => ((v : Int), flowOf D k v)).map Prod.fst
        ↔ joins D k v = true := by
      rw [List.map_map]
      simp only [List.mem_map, List.mem_filter, List.mem_range, Function.comp]
      constructor
      · rintro ⟨a, ⟨_, h⟩, e⟩
        rw [Nat.cast_inj] at e; subst e; exact h
      · intro h; exact ⟨v, ⟨hv, h⟩, rfl⟩
    by_cases h : joins D k v = true
    · rw [if_pos (this.mpr h), if_pos h]
    · rw [if_neg (fun hh => h (this.mp hh)), if_neg h])
  refine ⟨s, h1, h2, fun v hv => ?_⟩
  rw [h4 v hv]
  congr 1
  unfold rowOfFlow inflowFrom
  rw [List.map_map]
  have e1 : joins (swapEnds D) v = fun u => joins D u v := by funext u; exact joins_swap D v u
  rw [e1]
  congr 1
  apply List.map_congr_left
  intro u _
  simp [Function.comp, flowOf_swap]

/-- Rows of both graphs. -/
theorem graphsOf_rows {n : Nat} (hn : n ≤ INT_MAX) {D : List (Int × Int × R)}
    (h : ∀ c ∈ D, (0 ≤ c.1 ∧ c.1 < n) ∧ (0 ≤ c.2.1 ∧ c.2.1 < n)) :
    (∀ u < n, (graphsOf n D).1.cellNeighbourhood (u : Int) = .ok (rowOfFlow n D u)) ∧
    ∀ u < n, (graphsOf n D).2.cellNeighbourhood (u : Int) = .ok (rowOfFlow n (swapEnds D) u) := by
  have h' : ∀ c ∈ swapEnds D, (0 ≤ c.1 ∧ c.1 < (n : Int)) ∧ (0 ≤ c.2.1 ∧ c.2.1 < (n : Int)) := by
    intro c hc
    have := h _ (mem_swapEnds hc)
    exact ⟨this.2, this.1⟩
  obtain ⟨g1, e1, _, a1, w1⟩ := compressStep_ok hn h
  obtain ⟨g2, e2, _, a2, w2⟩ := compressStep_ok hn h'
  unfold graphsOf
  rw [e1, e2]
  exact ⟨fun u hu => row_eq hn h a1 w1 hu, fun u hu => row_eq hn h' a2 w2 hu⟩

end Verif.Toolbox
