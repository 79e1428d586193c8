/-
The solver of the chain and ring, made from connections and sources.
-/
import Verif.Proofs.EndlessSolve
import Verif.Proofs.AccuracyData

namespace Verif.Endless
open Verif.Solver Verif.Spec Verif.Tarjan Verif.Toolbox Verif.Rounding Double

/-- The connections, with their fluxes. -/
def links (N : Nat) : List (Int × Int × Double) :=
  (List.range N).map (fun v : Nat => ((v : Int), ((v + 1 : Nat) : Int), ofNat 19)) ++
    [((N : Int), ((N + 1 : Nat) : Int), ofNat 20), (((N + 1 : Nat) : Int), ((N + 2 : Nat) : Int), ofNat 38),
     (((N + 2 : Nat) : Int), (N : Int), ofNat 1)]

/-- The flux from `u` to `v`. -/
def fluxAt (N u : Nat) : Double := if u < N then ofNat 19 else if u = N then ofNat 20 else if u = N + 1 then ofNat 38 else ofNat 1

theorem mem_links {N : Nat} {c : Int × Int × Double} :
    c ∈ links N ↔ ∃ u v : Nat, chainRing N u v ∧ c = ((u : Int), (v : Int), fluxAt N u) := by
  unfold links
  simp only [List.mem_append, List.mem_map, List.mem_range, List.mem_cons, List.not_mem_nil, or_false]
  constructor
  · rintro (⟨u, hu, rfl⟩ | rfl | rfl | rfl)
    · exact ⟨u, u + 1, Or.inl ⟨hu, rfl⟩, by simp [fluxAt, hu]⟩
    · exact ⟨N, N + 1, by unfold chainRing; omega, by simp [fluxAt]⟩
    · exact ⟨N + 1, N + 2, by unfold chainRing; omega, by simp [fluxAt]⟩
    · exact ⟨N + 2, N, by unfold chainRing; omega, by simp [fluxAt]⟩
  · rintro ⟨u, v, ⟨h1, rfl⟩ | ⟨rfl, rfl⟩ | ⟨rfl, rfl⟩ | ⟨rfl, rfl⟩, rfl⟩
    · exact Or.inl ⟨u, h1, by simp [fluxAt, h1]⟩
    · right; left; simp [fluxAt]
    · right; right; left; simp [fluxAt]
    · right; right; right; simp [fluxAt]

theorem links_range (N : Nat) : ∀ c ∈ links N, (0 ≤ c.1 ∧ c.1 < (N + 3 : Nat)) ∧ (0 ≤ c.2.1 ∧ c.2.1 < (N + 3 : Nat)) := by
  intro c hc
  obtain ⟨u, v, h, rfl⟩ := mem_links.mp hc
  unfold chainRing at h
  simp only
  omega

theorem ofNat_notNegative {k : Nat} (hk : k ≤ 2 ^ 50) : NotNegative (ofNat k) := by
  rw [notNegative_iff rounded]
  show X.lt (val _) _ = _
  rw [val_ofNat hk]
  simp [X.lt]

theorem links_nonneg (N : Nat) : ∀ c ∈ links N, NotNegative c.2.2 := by
  intro c hc
  obtain ⟨u, v, _, rfl⟩ := mem_links.mp hc
  simp only
  unfold fluxAt
  split
  · exact ofNat_notNegative (by norm_num)
  · split
    · exact ofNat_notNegative (by norm_num)
    · split <;> exact ofNat_notNegative (by norm_num)

theorem joins_links (N u v : Nat) : joins (links N) u v = true ↔ chainRing N u v := by
  rw [Toolbox.joins_iff]
  constructor
  · rintro ⟨w, h⟩
    obtain ⟨a, b, h, e⟩ := mem_links.mp h
    simp only [Prod.mk.injEq, Nat.cast_inj] at e
    obtain ⟨rfl, rfl, _⟩ := e
    exact h
  · intro h; exact ⟨_, mem_links.mpr ⟨u, v, h, rfl⟩⟩

theorem weightsOf_links {N u v : Nat} (h : chainRing N u v) : weightsOf (links N) (u : Int) (v : Int) = [fluxAt N u] := by
  have hpre : ∀ M, weightsOf ((List.range M).map (fun v : Nat => ((v : Int), ((v + 1 : Nat) : Int), ofNat 19))) (u : Int) (v : Int)
      = if u < M ∧ v = u + 1 then [ofNat 19] else [] := by
    intro M
    induction M with
    | zero => simp [weightsOf]
    | succ M ih =>
      have happ : ∀ (a b : List (Int × Int × Double)) (i j : Int), weightsOf (a ++ b) i j = weightsOf a i j ++ weightsOf b i j := by
        intro a b i j; simp [weightsOf]
      rw [List.range_succ, List.map_append, happ, ih]
      by_cases hM : u = M
      · subst hM
        by_cases hv : v = u + 1
        · subst hv; simp [weightsOf]
        · rw [if_neg (by omega), if_neg (by omega)]
          simp [weightsOf]
          omega
      · have : weightsOf (List.map (fun v : Nat => ((v : Int), ((v + 1 : Nat) : Int), ofNat 19)) [M]) (u : Int) (v : Int) = [] := by
          simp [weightsOf]; omega
        rw [this, List.append_nil]
        by_cases h1 : u < M ∧ v = u + 1
        · rw [if_pos h1, if_pos (by omega)]
        · rw [if_neg h1, if_neg (by omega)]
  have happ : ∀ (a b : List (Int × Int × Double)) (i j : Int), weightsOf (a ++ b) i j = weightsOf a i j ++ weightsOf b i j := by
    intro a b i j; simp [weightsOf]
  unfold links
  rw [happ, hpre]
  rcases h with ⟨h1, rfl⟩ | ⟨rfl, rfl⟩ | ⟨rfl, rfl⟩ | ⟨rfl, rfl⟩
  · rw [if_pos ⟨h1, rfl⟩]
    have : weightsOf [((N : Int), ((N + 1 : Nat) : Int), ofNat 20), (((N + 1 : Nat) : Int), ((N + 2 : Nat) : Int), ofNat 38),
        (((N + 2 : Nat) : Int), (N : Int), ofNat 1)] (u : Int) ((u + 1 : Nat) : Int) = [] := by
      have e1 : ¬ (N : Int) = (u : Int) := by omega
      have e2 : ¬ (N : Int) + 1 = (u : Int) := by omega
      have e3 : ¬ (N : Int) + 2 = (u : Int) := by omega
      simp [weightsOf, e1, e2, e3]
    rw [this]
    simp [fluxAt, h1]
  · rw [if_neg (by omega)]
    simp [weightsOf, fluxAt]
  · rw [if_neg (by omega)]
    simp [weightsOf, fluxAt]
  · rw [if_neg (by omega)]
    simp [weightsOf, fluxAt]

theorem flowOf_links {N u v : Nat} (h : chainRing N u v) : flowOf (links N) u v = fluxAt N u := by
  unfold flowOf
  rw [weightsOf_links h]
  simp only [List.foldl_cons, List.foldl_nil, zero_eq]
  have : ∀ k : Nat, k ≤ 2 ^ 50 → Arith.add (ofNat 0) (ofNat k) = ofNat k := fun k hk => by
    rw [add_ofNat (by norm_num) hk, Nat.zero_add]
  unfold fluxAt
  split
  · exact this _ (by norm_num)
  · split
    · exact this _ (by norm_num)
    · split <;> exact this _ (by norm_num)

/-- The rows of the upwind graph. -/
theorem row_links {N : Nat} (hN : 1 ≤ N) {v : Nat} (hv : v < N + 3) : rowOfFlow (N + 3) (swapEnds (links N)) v = rowAt N v := by
  have hrow : ∀ us : List Nat, us.Pairwise (· < ·) → (∀ u, u ∈ us ↔ chainRing N u v) →
      rowOfFlow (N + 3) (swapEnds (links N)) v = us.map fun u : Nat => ((u : Int), fluxAt N u) := by
    intro us hs hm
    unfold rowOfFlow
    have : (List.range (N + 3)).filter (joins (swapEnds (links N)) v) = us := by
      have hp : ((List.range (N + 3)).filter (joins (swapEnds (links N)) v)).Pairwise (· < ·) :=
        List.Pairwise.filter _ List.pairwise_lt_range
      refine List.Perm.eq_of_pairwise (le := (· < ·)) (fun a b _ _ h1 h2 => by omega) hp hs ?_
      rw [List.perm_ext_iff_of_nodup (hp.imp fun h => ne_of_lt h) (hs.imp fun h => ne_of_lt h)]
      intro u
      rw [List.mem_filter, List.mem_range, Toolbox.joins_swap, joins_links, hm]
      constructor
      · exact fun h => h.2
      · intro h
        refine ⟨?_, h⟩
        unfold chainRing at h; omega
    rw [this]
    apply List.map_congr_left
    intro u hu
    rw [flowOf_swap, flowOf_links ((hm u).mp hu)]
  unfold rowAt
  by_cases h0 : v = 0
  · subst h0
    rw [if_pos rfl]
    exact hrow [] (by simp) (fun u => by
      simp only [List.not_mem_nil, false_iff]; unfold chainRing; omega)
  rw [if_neg h0]
  by_cases h1 : v < N
  · rw [if_pos h1, hrow [v - 1] (by simp) (fun u => by simp only [List.mem_singleton]; unfold chainRing; omega)]
    simp only [List.map_cons, List.map_nil, fluxAt]
    rw [if_pos (by omega)]
  rw [if_neg h1]
  by_cases h2 : v = N
  · subst h2
    rw [if_pos rfl, hrow [v - 1, v + 2] (by simp; omega) (fun u => by
      simp only [List.mem_cons, List.not_mem_nil, or_false]; unfold chainRing; omega)]
    simp only [List.map_cons, List.map_nil, fluxAt]
    rw [if_pos (by omega), if_neg (by omega), if_neg (by omega), if_neg (by omega)]
  rw [if_neg h2]
  by_cases h3 : v = N + 1
  · subst h3
    rw [if_pos rfl, hrow [N] (by simp) (fun u => by simp only [List.mem_singleton]; unfold chainRing; omega)]
    simp [fluxAt]
  · rw [if_neg h3, hrow [N + 1] (by simp) (fun u => by simp only [List.mem_singleton]; unfold chainRing; omega)]
    simp [fluxAt]

theorem influx_links {N : Nat} (hN : 1 ≤ N) {v : Nat} (hv : v < N + 3) :
    ((rowAt N v).map fun e => e.2).foldl Arith.add Arith.zero = influxAt N v := by
  have h0 : ∀ k : Nat, k ≤ 2 ^ 50 → Arith.add (ofNat 0) (ofNat k) = ofNat k := fun k hk => by
    rw [add_ofNat (by norm_num) hk, Nat.zero_add]
  unfold rowAt influxAt
  rw [zero_eq]
  by_cases e0 : v = 0
  · simp [e0]
  by_cases e1 : v < N
  · simp [e0, e1, h0 19 (by norm_num)]
  by_cases e2 : v = N
  · subst e2
    simp [e0, h0 19 (by norm_num), add_ofNat (a := 19) (b := 1) (by norm_num) (by norm_num)]
  by_cases e3 : v = N + 1
  · subst e3
    simp [h0 20 (by norm_num)]
  · have e4 : v = N + 2 := by omega
    subst e4
    simp [h0 38 (by norm_num)]

/-- What the sources are made from. -/
def wellsAt (N : Nat) (i j : CellSetID) : List (CellSetID × Int × Double) :=
  [(i, (0 : Int), ofNat 19), (j, ((N + 1 : Nat) : Int), ofNat 18)]

/-- The pore volumes as an array. -/
def poreVolumes (N : Nat) : List Double := (List.range (N + 3)).map (pvAt N)

theorem pvAt_nonneg (N v : Nat) : NotNegative (pvAt N v) := by
  unfold pvAt
  split <;> exact ofNat_notNegative (by norm_num)

/-- The edges of the downstream graph. -/
theorem edge_links {N : Nat} (hI : N + 3 ≤ INT_MAX) (u v : Nat) :
    HasEdge (N + 3) (graphsOf (N + 3) (links N)).1.startPointers (graphsOf (N + 3) (links N)).1.neighbourhood u v
      ↔ chainRing N u v := by
  obtain ⟨g, h1, _, h3, _⟩ := compressStep_ok hI (links_range N)
  unfold HasEdge graphsOf
  rw [h1]
  simp only
  rw [← joins_links, Toolbox.joins_iff]
  constructor
  · rintro ⟨hu, hr⟩
    exact (h3.mem u hu _).mp hr
  · intro hw
    have hu : u < N + 3 := by
      have := (joins_links N u v).mp (Toolbox.joins_iff.mpr hw)
      unfold chainRing at this; omega
    exact ⟨hu, (h3.mem u hu _).mpr hw⟩

/-- The solver made from these data. -/
theorem create_chainRing {N : Nat} (hN : 1 ≤ N) (hI : N + 3 ≤ INT_MAX) (i j : CellSetID) {d : SolverData Double} {st : SolverState Double}
    (hc : Solver.create (graphsOf (N + 3) (links N)).1 (graphsOf (N + 3) (links N)).2 (poreVolumes N)
      (gather (wellsAt N i j)).only = .ok (d, st)) :
    d.g = (graphsOf (N + 3) (links N)).1 ∧ d.pv.length = N + 3 ∧
      ∃ b, setupStartArrayFromSource d (List.replicate d.pv.length false) = .ok b ∧ IsChainRing N d b d.sourceTerm := by
  have hpl : (poreVolumes N).length = N + 3 := by simp [poreVolumes]
  have hl : ∀ e ∈ wellsAt N i j, 0 ≤ e.2.1 ∧ e.2.1 < (N + 3 : Nat) := by
    intro e he
    simp only [wellsAt, List.mem_cons, List.not_mem_nil, or_false] at he
    rcases he with rfl | rfl
    · simp only; omega
    · simp only; omega
  have hln : ∀ e ∈ wellsAt N i j, NotNegative e.2.2 := by
    intro e he
    simp only [wellsAt, List.mem_cons, List.not_mem_nil, or_false] at he
    rcases he with rfl | rfl <;> exact ofNat_notNegative (by norm_num)
  obtain ⟨_, hg, _, hval⟩ := create_fits rounded hI (links_range N) (links_nonneg N) hpl (by
    intro x hx
    obtain ⟨v, _, rfl⟩ := List.mem_map.mp hx
    exact pvAt_nonneg _ _) hl hln hc
  have hrest : d.pv = poreVolumes N ∧ d.gReverse = (graphsOf (N + 3) (links N)).2 := by
    unfold Solver.create at hc
    simp only [Res.bind_eq, Res.pure_eq, Res.bind_ok_iff] at hc
    obtain ⟨_, _, _, _, e⟩ := hc
    cases e
    exact ⟨rfl, rfl⟩
  obtain ⟨hdpv, hrev⟩ := hrest
  have hsrc : ∀ v < N + 3, d.sourceTerm[v]? = some (srcAt N v) := by
    intro v hv
    rw [(hval v hv).2]
    congr 1
    have h0 : ∀ k : Nat, k ≤ 2 ^ 50 → Arith.add (ofNat 0) (ofNat k) = ofNat k := fun k hk => by
      rw [add_ofNat (by norm_num) hk, Nat.zero_add]
    unfold wellsAt srcAt
    rw [zero_eq]
    by_cases e0 : v = 0
    · subst e0
      have e1' : ¬ (N : Int) + 1 = 0 := by omega
      simp [h0 19 (by norm_num), e1']
    · by_cases e1 : v = N + 1
      · subst e1
        have e0' : ¬ (0 : Int) = (N : Int) + 1 := by omega
        simp [h0 18 (by norm_num), e0']
      · have e0' : ¬ (0 : Int) = (v : Int) := by omega
        have e1' : ¬ (N : Int) + 1 = (v : Int) := by omega
        simp [e0, e1, e0', e1']
  have hlt : ∀ k, Arith.lt Arith.zero (srcAt N k) = decide (k = 0 ∨ k = N + 1) := by
    intro k
    unfold srcAt
    by_cases e0 : k = 0
    · rw [if_pos e0, zero_eq, lt_ofNat (by norm_num) (by norm_num)]
      simp [e0]
    · by_cases e1 : k = N + 1
      · rw [if_neg e0, if_pos e1, zero_eq, lt_ofNat (by norm_num) (by norm_num)]
        simp [e1]
      · rw [if_neg e0, if_neg e1, zero_eq, lt_ofNat (by norm_num) (by norm_num)]
        simp [e0, e1]
  -- the start array
  obtain ⟨b, hb1, hb2⟩ : ∃ b, setupStartArrayFromSource d (List.replicate d.pv.length false) = .ok b ∧
      ∀ v < N + 3, b[v]? = some (decide (v = 0 ∨ v = N + 1)) := by
    unfold setupStartArrayFromSource
    rw [hdpv, hpl]
    obtain ⟨b, h1, h2, h3⟩ := forEach_range_inv (n := N + 3) (s := List.replicate (N + 3) false)
      (f := fun b cell => do
        let x ← rd d.sourceTerm cell
        if Arith.lt Arith.zero x then wr b cell true else pure b)
      (fun k b => b.length = N + 3 ∧ ∀ v < N + 3, b[v]? = some (decide (v < k ∧ (v = 0 ∨ v = N + 1)))) (by
        refine ⟨List.length_replicate .., fun v hv => ?_⟩
        rw [List.getElem?_replicate, if_pos hv]
        simp) (by
        intro k b hk ⟨hbl, hb⟩
        simp only [Res.bind_eq, Res.pure_eq, rd_of_getElem? (hsrc k hk), Res.ok_bind]
        rw [hlt]
        by_cases hkk : k = 0 ∨ k = N + 1
        · rw [decide_eq_true hkk, if_pos rfl, wr_ok (by omega)]
          refine ⟨_, rfl, by simpa using hbl, fun v hv => ?_⟩
          by_cases e : v = k
          · subst e
            rw [List.getElem?_set_self (by omega)]
            simp [hkk]
          · rw [List.getElem?_set_ne (Ne.symm e), hb v hv]
            congr 2
            apply propext
            omega
        · rw [decide_eq_false hkk]
          refine ⟨b, rfl, hbl, fun v hv => ?_⟩
          rw [hb v hv]
          congr 2
          apply propext
          omega)
    refine ⟨b, h1, fun v hv => ?_⟩
    rw [h3 v hv]
    congr 2
    apply propext
    omega
  refine ⟨hg, by rw [hdpv, hpl], b, hb1, hN, hI, hsrc, hb2, rfl, ?_, ?_, ?_⟩
  · intro v hv
    rw [(hval v hv).1, row_links hN hv, influx_links hN hv]
  · intro v hv
    rw [hdpv]
    unfold poreVolumes
    rw [List.getElem?_map, List.getElem?_range hv]; rfl
  · intro v hv
    rw [hrev, (graphsOf_rows hI (links_range N)).2 v hv, row_links hN hv]

/-- The order in which its cells are visited. -/
theorem ordering_chainRing {N : Nat} (hN : 1 ≤ N) (hI : N + 3 ≤ INT_MAX) {al : Alloc} (ha : al.Good) :
    ∃ comps : List (List Nat), comps = (List.range N).map (fun v => [v]) ++ [[N + 2, N + 1, N]] ∧
      ∀ fuel, (N + 3) + numEdges (N + 3) (graphsOf (N + 3) (links N)).1.startPointers ≤ fuel →
        ∀ s, computeOrdering (graphsOf (N + 3) (links N)).1 (N + 3) al fuel s = .ok (cellsOf comps, offsets comps) := by
  obtain ⟨hgood, _⟩ := graphsOf_good hI (links_range N)
  have hsl : (graphsOf (N + 3) (links N)).1.startPointers.length = N + 3 + 1 := by
    obtain ⟨E, h, _⟩ := hgood.adj; exact h.size
  obtain ⟨comps, h1, h2, h3⟩ := computeOrdering_listing (hgood.isGraph hI) hsl ha
  exact ⟨comps.reverse, comps_eq hN (fun u v => edge_links hI u v) h1 h2, fun fuel hf s => h3 fuel hf s⟩

theorem partway_zero (N : Nat) :
    (List.replicate (N + 3) (Arith.zero : Double), List.replicate (N + 3) (Arith.zero : Double)) = partway N 0 := by
  unfold partway
  rw [zero_eq]
  simp

/-- The global solve does not return. -/
theorem solveGlobal_endless {N : Nat} (hN : N = 10000) (i j : CellSetID) {d : SolverData Double} {st : SolverState Double}
    (hc : Solver.create (graphsOf (N + 3) (links N)).1 (graphsOf (N + 3) (links N)).2 (poreVolumes N)
      (gather (wellsAt N i j)).only = .ok (d, st)) {al : Alloc} (ha : al.Good) {fuel : Nat}
    (hf : (N + 3) + numEdges (N + 3) (graphsOf (N + 3) (links N)).1.startPointers ≤ fuel) :
    (solveGlobal d al fuel st).2 = .diverge := by
  have hN1 : 1 ≤ N := by omega
  have hI : N + 3 ≤ INT_MAX := by unfold INT_MAX; omega
  obtain ⟨hg, hpl, b, hb, hring⟩ := create_chainRing hN1 hI i j hc
  obtain ⟨comps, hcomps, hord⟩ := ordering_chainRing hN1 hI ha
  have hsolve : solve d b d.sourceTerm (cellsOf comps) (offsets comps) fuel (partway N 0) = .diverge := by
    subst hN
    exact solve_chainRing hring fuel hcomps
  unfold solveGlobal prepareForSolve
  simp only
  rw [hb]
  simp only [finish]
  rw [hg, hpl, hord fuel hf]
  simp only
  rw [partway_zero, hsolve]

end Verif.Endless
