/-
A graph assembled from connections with positive fluxes holds these fluxes.
-/
import Verif.Props.Graph
import Verif.Proofs.SolverRun
import Verif.Spec.SolverCalls

namespace Verif.Solver
open Verif.Spec

variable {K : Type} [Field K] [LinearOrder K]

theorem foldl_fin (l : List K) (a : K) :
    (l.map X.fin).foldl Arith.add (X.fin a) = X.fin (a + l.sum) := by
  induction l generalizing a with
  | nil => simp
  | cons x l ih => rw [List.map_cons, List.foldl_cons, X_add, ih, List.sum_cons, add_assoc]

theorem weightsOf_flow (cs : List (Nat × Nat × K)) (u v : Nat) :
    (weightsOf (cs.map fun c => ((c.1 : Int), (c.2.1 : Int), X.fin c.2.2)) (u : Int) (v : Int)).foldl Arith.add Arith.zero
      = X.fin (fluxOf cs u v) := by
  have h : weightsOf (cs.map fun c => ((c.1 : Int), (c.2.1 : Int), X.fin c.2.2)) (u : Int) (v : Int)
      = ((cs.filter fun c => decide (c.1 = u ∧ c.2.1 = v)).map fun c => c.2.2).map X.fin := by
    unfold weightsOf
    rw [List.filter_map, List.map_map, List.map_map]
    have : cs.filter ((fun c : Int × Int × X K => c.1 == (u : Int) && c.2.1 == (v : Int)) ∘
        fun c => ((c.1 : Int), (c.2.1 : Int), X.fin c.2.2)) = cs.filter fun c => decide (c.1 = u ∧ c.2.1 = v) := by
      apply List.filter_congr
      intro c _
      simp only [Function.comp]
      rw [Bool.eq_iff_iff]; simp
    rw [this]; rfl
  rw [h, X_zero, foldl_fin, zero_add]; rfl

variable [IsStrictOrderedRing K]

theorem fluxOf_pos {cs : List (Nat × Nat × K)} (hpos : ∀ c ∈ cs, 0 < c.2.2) (u v : Nat) :
    0 ≤ fluxOf cs u v ∧ (0 < fluxOf cs u v ↔ ∃ x, (u, v, x) ∈ cs) := by
  have key : ∀ l : List K, (∀ x ∈ l, 0 < x) → 0 ≤ l.sum ∧ (0 < l.sum ↔ l ≠ []) := by
    intro l
    induction l with
    | nil => intro _; simp
    | cons x l ih =>
      intro hl
      have h1 := hl x List.mem_cons_self
      have h2 := (ih fun y hy => hl y (List.mem_cons_of_mem _ hy)).1
      rw [List.sum_cons]
      exact ⟨by linarith, ⟨fun _ => by simp, fun _ => by linarith⟩⟩
  obtain ⟨h1, h2⟩ := key ((cs.filter fun c => decide (c.1 = u ∧ c.2.1 = v)).map fun c => c.2.2) (by
    intro x hx
    obtain ⟨c, hc, rfl⟩ := List.mem_map.mp hx
    exact hpos c (List.mem_filter.mp hc).1)
  refine ⟨h1, h2.trans ?_⟩
  rw [ne_eq, List.map_eq_nil_iff]
  constructor
  · intro hne
    obtain ⟨c, hc⟩ := List.exists_mem_of_ne_nil _ hne
    obtain ⟨hc1, hc2⟩ := List.mem_filter.mp hc
    obtain ⟨a, b, x⟩ := c
    simp only [decide_eq_true_eq] at hc2
    obtain ⟨rfl, rfl⟩ := hc2
    exact ⟨x, hc1⟩
  · rintro ⟨x, hx⟩ e
    have : (u, v, x) ∈ cs.filter fun c => decide (c.1 = u ∧ c.2.1 = v) := List.mem_filter.mpr ⟨hx, by simp⟩
    rw [e] at this; simp at this

/-- `addConnection` for each connection, then `compress`. -/
theorem hasFlow_compress (cs : List (Nat × Nat × K)) {n : Nat} (hn : n ≤ INT_MAX)
    (hc : ∀ c ∈ cs, c.1 < n ∧ c.2.1 < n ∧ 0 < c.2.2) :
    ∃ g, (freshWith (flowCalls cs)).compress n = .ok g ∧ HasFlow g n (fluxOf cs) := by
  set ws : List (Int × Int × X K) := cs.map fun c => ((c.1 : Int), (c.2.1 : Int), X.fin c.2.2) with hws
  have hI : INT_MAX = 2147483647 := rfl
  have hpos : ∀ c ∈ cs, 0 < c.2.2 := fun c h => (hc c h).2.2
  have hmem : ∀ (u : Nat) (j : Int), (∃ w, ((u : Int), j, w) ∈ ws) ↔
      ∃ v : Nat, j = v ∧ v < n ∧ 0 < fluxOf cs u v := by
    intro u j
    constructor
    · rintro ⟨w, h⟩
      obtain ⟨⟨a, b, x⟩, hcm, e⟩ := List.mem_map.mp h
      simp only [Prod.mk.injEq, Nat.cast_inj] at e
      obtain ⟨rfl, rfl, _⟩ := e
      exact ⟨b, rfl, (hc _ hcm).2.1, (fluxOf_pos hpos a b).2.mpr ⟨x, hcm⟩⟩
    · rintro ⟨v, rfl, _, hw⟩
      obtain ⟨x, hx⟩ := (fluxOf_pos hpos u v).2.mp hw
      exact ⟨X.fin x, List.mem_map.mpr ⟨_, hx, rfl⟩⟩
  obtain ⟨g, e, ha, hw, _⟩ := Props.C02_weights_accumulate ws n (by omega)
    (by
      intro c hcw
      obtain ⟨c, hcm, rfl⟩ := List.mem_map.mp hcw
      have := hc c hcm
      unfold ValidIndex; simp only; omega)
    (by
      intro c hcw
      obtain ⟨c, hcm, rfl⟩ := List.mem_map.mp hcw
      have := hc c hcm
      simp only; omega)
  refine ⟨g, e, ?_, ?_⟩
  · refine ha.congr ?_
    intro r _ j
    rw [hmem]
    constructor
    · rintro ⟨v, h1, h2, h3⟩; exact ⟨r, v, rfl, h1, h2, h3⟩
    · rintro ⟨u, v, h0, h1, h2, h3⟩
      rw [Nat.cast_inj] at h0; subst h0
      exact ⟨v, h1, h2, h3⟩
  · intro u hu
    rw [cellNeighbourhood_eq g ha hw.size u hu (by omega)]
    congr 1
    have hrow : rowOf g.startPointers g.neighbourhood u
        = ((List.range n).filter fun v => decide (0 < fluxOf cs u v)).map fun v : Nat => (v : Int) := by
      apply sorted_ext (ha.sorted u hu)
      · rw [List.pairwise_map]
        refine List.Pairwise.imp (fun h => by exact_mod_cast h) (List.Pairwise.filter _ List.pairwise_lt_range)
      · intro j
        rw [ha.mem u hu, hmem]
        simp only [List.mem_map, List.mem_filter, List.mem_range, decide_eq_true_eq]
        constructor
        · rintro ⟨v, h1, h2, h3⟩; exact ⟨v, ⟨h2, h3⟩, h1.symm⟩
        · rintro ⟨v, ⟨h2, h3⟩, h1⟩; exact ⟨v, h1.symm, h2, h3⟩
    have hlen : (rowOf g.startPointers g.connectionWeight u).length = (rowOf g.startPointers g.neighbourhood u).length := by
      rw [ha.length_rowOf hu hw.size, ha.length_rowOf hu rfl]
    have hwt : rowOf g.startPointers g.connectionWeight u
        = ((List.range n).filter fun v => decide (0 < fluxOf cs u v)).map fun v : Nat => X.fin (fluxOf cs u v) := by
      apply List.ext_getElem?
      intro k
      by_cases hk : k < (rowOf g.startPointers g.neighbourhood u).length
      · have hk' := hk
        rw [ha.length_rowOf hu rfl] at hk'
        have h1 := ha.rowOf_getElem? hu (xs := g.connectionWeight) k (by omega)
        have h2 := ha.rowOf_getElem? hu (xs := g.neighbourhood) k (by omega)
        have hk3 : k < ((List.range n).filter fun v => decide (0 < fluxOf cs u v)).length := by
          rw [hrow] at hk; simpa using hk
        rw [hrow, List.getElem?_map, List.getElem?_eq_getElem hk3, Option.map_some] at h2
        rw [h1, List.getElem?_map, List.getElem?_eq_getElem hk3, Option.map_some,
          hw.sum u hu _ (by omega) (by omega) _ h2.symm, weightsOf_flow]
      · rw [List.getElem?_eq_none (by omega), List.getElem?_eq_none]
        rw [hrow] at hk; simpa using hk
    rw [hrow, hwt]
    unfold flowRow
    rw [List.zip_map']

omit [LinearOrder K] [IsStrictOrderedRing K] in
theorem fluxOf_swap (cs : List (Nat × Nat × K)) (u v : Nat) :
    fluxOf (cs.map fun c => (c.2.1, c.1, c.2.2)) u v = fluxOf cs v u := by
  unfold fluxOf
  rw [List.filter_map, List.map_map]
  congr 1
  have : cs.filter ((fun c : Nat × Nat × K => decide (c.1 = u ∧ c.2.1 = v)) ∘ fun c => (c.2.1, c.1, c.2.2))
      = cs.filter fun c => decide (c.1 = v ∧ c.2.1 = u) := by
    apply List.filter_congr
    intro c _
    simp only [Function.comp]
    rw [Bool.eq_iff_iff]; simp [and_comm]
  rw [this]; rfl

/-- Every list of connections with positive fluxes gives a solver. -/
theorem solverFor_of_connections (cs : List (Nat × Nat × K)) {n : Nat} (hn : n ≤ INT_MAX)
    (hc : ∀ c ∈ cs, c.1 < n ∧ c.2.1 < n ∧ 0 < c.2.2) (pv : Nat → K) (hpv : ∀ v < n, 0 ≤ pv v)
    (src : Nat → K) (hsrc : ∀ v < n, 0 ≤ src v) : ∃ d st, SolverFor ⟨n, fluxOf cs, pv, src⟩ d st := by
  have hpos : ∀ c ∈ cs, 0 < c.2.2 := fun c h => (hc c h).2.2
  obtain ⟨g, _, hg⟩ := hasFlow_compress cs hn hc
  obtain ⟨gr, _, hgr⟩ := hasFlow_compress (cs.map fun c => (c.2.1, c.1, c.2.2)) hn (by
    intro c h
    obtain ⟨c', h', rfl⟩ := List.mem_map.mp h
    have := hc c' h'
    exact ⟨this.2.1, this.1, this.2.2⟩)
  have e : fluxOf (cs.map fun c => (c.2.1, c.1, c.2.2)) = fun u v => fluxOf cs v u := by
    funext u v; exact fluxOf_swap cs u v
  rw [e] at hgr
  have hF : Flow.Valid (⟨n, fluxOf cs, pv, src⟩ : Flow K) := ⟨fun u v _ _ => (fluxOf_pos hpos u v).1, hpv, hsrc, hn⟩
  obtain ⟨d, st, hcr, _, _⟩ := create_exact hF hg hgr (ps := List.range n) (fun p hp => List.mem_range.mp hp)
    (fun v hv hm => absurd (List.mem_range.mpr hv) hm)
  exact ⟨d, st, hF, g, gr, List.range n, hg, hgr, fun p hp => List.mem_range.mp hp,
    fun v hv hm => absurd (List.mem_range.mpr hv) hm, hcr⟩

end Verif.Solver
