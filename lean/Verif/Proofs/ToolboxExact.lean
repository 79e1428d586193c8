/-
Diagnostics of a valid problem, in exact arithmetic.
-/
import Verif.Proofs.ToolboxSolve
import Verif.Proofs.ToolboxFlux

namespace Verif.Toolbox
open Verif.Spec Verif.Solver Finset

variable {K : Type} [Field K] [LinearOrder K]

/-! ### The fluxes -/

theorem phaseSum_fin (phi : Nat → K) (np : Nat) :
    phaseSum (fun p => X.fin (phi p)) np = X.fin (∑ p ∈ range np, phi p) := by
  unfold phaseSum
  have := foldl_fin ((List.range np).map phi) (0 : K)
  rw [List.map_map] at this
  rw [X_zero]
  rw [show (List.range np).map (fun p => X.fin (phi p)) = (List.range np).map (X.fin ∘ phi) from rfl, this, zero_add]
  congr 1

/-- One oriented connection with exact flux. -/
def orientK (e : Nat × Nat) (x : K) : List (Nat × Nat × K) :=
  if 0 < x then [(e.1, e.2, x)] else if x < 0 then [(e.2, e.1, -x)] else []

/-- The oriented connections of a problem. -/
def directedK (P : Problem K) : List (Nat × Nat × K) :=
  (P.conns.zipIdx.map fun e => orientK e.1 (P.net e.2)).flatten

/-- As handed to the graphs. -/
def lift (l : List (Nat × Nat × K)) : List (Int × Int × X K) :=
  l.map fun c => ((c.1 : Int), (c.2.1 : Int), X.fin c.2.2)

theorem directed_lift (P : Problem K) :
    directed P.conns (fun c => phaseSum (fun p => X.fin (P.phi c p)) P.nphase) = lift (directedK P) := by
  unfold directed directedK lift
  rw [List.map_flatten, List.map_map]
  congr 2
  funext e
  simp only [Function.comp]
  rw [phaseSum_fin]
  unfold orient orientK
  rw [X_zero, X_lt, X_lt]
  show _ = List.map _ (if 0 < P.net e.2 then _ else _)
  change (if decide (0 < P.net e.2) = true then _ else if decide (P.net e.2 < 0) = true then _ else _) = _
  by_cases h1 : 0 < P.net e.2
  · simp [h1]; rfl
  · by_cases h2 : P.net e.2 < 0
    · simp [h1, h2]; rfl
    · simp [h1, h2]

variable [IsStrictOrderedRing K]

theorem fluxOf_append (a b : List (Nat × Nat × K)) (u v : Nat) : fluxOf (a ++ b) u v = fluxOf a u v + fluxOf b u v := by
  unfold fluxOf; rw [List.filter_append, List.map_append, List.sum_append]

theorem fluxOf_orientK (e : Nat × Nat) (x : K) (u v : Nat) :
    fluxOf (orientK e x) u v = (if e = (u, v) then max x 0 else 0) + (if e = (v, u) then max (-x) 0 else 0) := by
  obtain ⟨a, b⟩ := e
  unfold orientK fluxOf
  by_cases h1 : 0 < x
  · rw [if_pos h1, max_eq_left h1.le, max_eq_right (by linarith : -x ≤ 0)]
    by_cases h : a = u ∧ b = v
    · obtain ⟨rfl, rfl⟩ := h; simp
    · have : ¬ ((a, b) = (u, v)) := by simpa using h
      simp only [this, if_false]
      simp [h]
  · rw [if_neg h1]
    by_cases h2 : x < 0
    · rw [if_pos h2, max_eq_right h2.le, max_eq_left (by linarith : (0 : K) ≤ -x)]
      by_cases h : b = u ∧ a = v
      · obtain ⟨rfl, rfl⟩ := h; simp
      · have : ¬ ((a, b) = (v, u)) := by simpa [and_comm] using h
        simp only [this, if_false]
        simp [h]
    · have h0 : x = 0 := le_antisymm (not_lt.mp h1) (not_lt.mp h2)
      subst h0
      simp

theorem fluxOf_directedK (P : Problem K) (u v : Nat) : fluxOf (directedK P) u v = P.flux u v := by
  have key : ∀ l : List ((Nat × Nat) × Nat), fluxOf ((l.map fun e => orientK e.1 (P.net e.2)).flatten) u v
      = (l.map fun e => fluxOf (orientK e.1 (P.net e.2)) u v).sum := by
    intro l
    induction l with
    | nil => simp [fluxOf]
    | cons e l ih => rw [List.map_cons, List.flatten_cons, fluxOf_append, ih, List.map_cons, List.sum_cons]
  unfold directedK Problem.flux
  rw [key]
  have h2 : P.conns.zipIdx.map (fun e => fluxOf (orientK e.1 (P.net e.2)) u v)
      = (List.range P.conns.length).map fun c => P.carried c u v := by
    apply List.ext_getElem
    · simp
    · intro i h1 h2
      simp only [List.length_map, List.length_zipIdx] at h1
      simp only [List.getElem_map, List.getElem_zipIdx, List.getElem_range, Nat.zero_add]
      rw [fluxOf_orientK]
      unfold Problem.carried
      rw [List.getElem?_eq_getElem h1]
      simp only [Option.some.injEq]
  rw [h2]
  rfl

theorem directedK_range {P : Problem K} (hr : ∀ e ∈ P.conns, e.1 < P.n ∧ e.2 < P.n) :
    ∀ c ∈ directedK P, c.1 < P.n ∧ c.2.1 < P.n ∧ 0 < c.2.2 := by
  intro c hc
  unfold directedK at hc
  obtain ⟨l, hl, hcl⟩ := List.mem_flatten.mp hc
  obtain ⟨⟨e, i⟩, he, rfl⟩ := List.mem_map.mp hl
  have he' : e ∈ P.conns := List.mem_of_getElem? (List.mem_zipIdx_iff_getElem?.mp he)
  have := hr e he'
  simp only at hcl
  unfold orientK at hcl
  split at hcl
  · rename_i hx
    rw [List.mem_singleton.mp hcl]; exact ⟨this.1, this.2, hx⟩
  · split at hcl
    · rename_i hx
      rw [List.mem_singleton.mp hcl]; exact ⟨this.2, this.1, by simpa using hx⟩
    · simp at hcl

/-- The graphs hold the fluxes of the problem. -/
theorem graphsOf_flow (P : Problem K) (hn : P.n ≤ INT_MAX) (hr : ∀ e ∈ P.conns, e.1 < P.n ∧ e.2 < P.n) :
    HasFlow (graphsOf P.n (lift (directedK P))).1 P.n P.flux ∧
    HasFlow (graphsOf P.n (lift (directedK P))).2 P.n (fun u v => P.flux v u) := by
  have hd := directedK_range hr
  have hd' : ∀ c ∈ (directedK P).map fun c => (c.2.1, c.1, c.2.2), c.1 < P.n ∧ c.2.1 < P.n ∧ 0 < c.2.2 := by
    intro c hc
    obtain ⟨c', h', rfl⟩ := List.mem_map.mp hc
    have := hd c' h'
    exact ⟨this.2.1, this.1, this.2.2⟩
  have hl : ∀ l : List (Nat × Nat × K), (∀ c ∈ l, c.1 < P.n ∧ c.2.1 < P.n ∧ 0 < c.2.2) →
      HasFlow ((freshWith (weighted (lift l))).compressStep P.n).1 P.n (fluxOf l) := by
    intro l hl
    obtain ⟨g, hg, hf⟩ := hasFlow_compress l hn hl
    obtain ⟨g', h1, h2, _⟩ := compressStep_ok (ws := lift l) hn (by
      intro c hc
      obtain ⟨c', h', rfl⟩ := List.mem_map.mp hc
      have := hl c' h'
      simp only; omega)
    have e : flowCalls l = weighted (lift l) := rfl
    rw [e] at hg
    rw [hg] at h2
    cases h2
    rw [h1]; exact hf
  unfold graphsOf
  refine ⟨?_, ?_⟩
  · have := hl _ hd
    have e : fluxOf (directedK P) = P.flux := by funext u v; exact fluxOf_directedK P u v
    rw [e] at this; exact this
  · have := hl _ hd'
    have e : fluxOf ((directedK P).map fun c => (c.2.1, c.1, c.2.2)) = fun u v => P.flux v u := by
      funext u v; rw [fluxOf_swap]; exact fluxOf_directedK P v u
    rw [e] at this
    have e2 : swapEnds (lift (directedK P)) = lift ((directedK P).map fun c => (c.2.1, c.1, c.2.2)) := by
      unfold swapEnds lift; rw [List.map_map, List.map_map]; rfl
    simp only [e2]
    exact this

theorem flux_nonneg (P : Problem K) (u v : Nat) : 0 ≤ P.flux u v := by
  unfold Problem.flux
  apply sum_nonneg
  intro c _
  unfold Problem.carried
  apply add_nonneg <;> split <;> simp

/-! ### The sources -/

/-- Positive contributions `f` of the cells `cs` of the wells, adding up to `src`. -/
structure Side (wells : List (WellFlux K)) (cs : WellFlux K → List Nat) (f : WellFlux K → Nat → K) (n : Nat)
    (src : Nat → K) : Prop where
  ids : wells.Pairwise fun a b => a.id < b.id
  sorted : ∀ w ∈ wells, (cs w).Pairwise (· < ·)
  range : ∀ w ∈ wells, ∀ v ∈ cs w, v < n
  pos : ∀ w ∈ wells, ∀ v ∈ cs w, 0 < f w v
  src : ∀ v, src v = (wells.map fun w => if v ∈ cs w then f w v else 0).sum

theorem sum_pos_iff {wells : List (WellFlux K)} {g : WellFlux K → K} (h : ∀ w ∈ wells, 0 ≤ g w) :
    0 ≤ (wells.map g).sum ∧ (0 < (wells.map g).sum ↔ ∃ w ∈ wells, 0 < g w) ∧ ∀ w ∈ wells, g w ≤ (wells.map g).sum := by
  induction wells with
  | nil => simp
  | cons a l ih =>
    obtain ⟨h1, h2, h3⟩ := ih fun w hw => h w (by simp [hw])
    have ha := h a (by simp)
    rw [List.map_cons, List.sum_cons]
    refine ⟨by linarith, ?_, ?_⟩
    · constructor
      · intro hp
        by_cases h0 : 0 < g a
        · exact ⟨a, by simp, h0⟩
        · obtain ⟨w, hw, hg⟩ := h2.mp (by linarith)
          exact ⟨w, by simp [hw], hg⟩
      · rintro ⟨w, hw, hg⟩
        rcases List.mem_cons.mp hw with rfl | hw
        · linarith
        · have := h2.mpr ⟨w, hw, hg⟩; linarith
    · intro w hw
      rcases List.mem_cons.mp hw with rfl | hw
      · linarith
      · have := h3 w hw; linarith

section side
variable {wells : List (WellFlux K)} {cs : WellFlux K → List Nat} {f : WellFlux K → Nat → K} {n : Nat} {src : Nat → K}

theorem Side.nonneg_if (h : Side wells cs f n src) (v : Nat) :
    ∀ w ∈ wells, 0 ≤ (if v ∈ cs w then f w v else 0) := by
  intro w hw
  split
  · exact (h.pos w hw v (by assumption)).le
  · exact le_refl _

theorem Side.src_nonneg (h : Side wells cs f n src) (v : Nat) : 0 ≤ src v := by
  rw [h.src]; exact (sum_pos_iff (h.nonneg_if v)).1

theorem Side.src_pos (h : Side wells cs f n src) (v : Nat) : 0 < src v ↔ ∃ w ∈ wells, v ∈ cs w := by
  rw [h.src, (sum_pos_iff (h.nonneg_if v)).2.1]
  constructor
  · rintro ⟨w, hw, hp⟩
    refine ⟨w, hw, ?_⟩
    by_contra hv
    rw [if_neg hv] at hp; exact lt_irrefl _ hp
  · rintro ⟨w, hw, hv⟩
    exact ⟨w, hw, by rw [if_pos hv]; exact h.pos w hw v hv⟩

theorem Side.le_src (h : Side wells cs f n src) {w : WellFlux K} (hw : w ∈ wells) {v : Nat} (hv : v ∈ cs w) :
    f w v ≤ src v := by
  have := (sum_pos_iff (h.nonneg_if v)).2.2 w hw
  rw [if_pos hv, ← h.src] at this
  exact this

/-- Cells with positive source. -/
def srcCells (n : Nat) (src : Nat → K) : List Nat := (List.range n).filter fun v => decide (0 < src v)

theorem Side.only_find (h : Side wells cs f n src) (c : Int) :
    OMap.find (gather (contributions wells cs f)).only c = 
      if 0 ≤ c ∧ 0 < src c.toNat then some (X.fin (src c.toNat)) else none := by
  rw [gather_only]
  by_cases hex : ∃ e ∈ contributions wells cs f, e.2.1 = c
  · rw [if_pos hex]
    obtain ⟨e, he, hc⟩ := hex
    obtain ⟨w, hw, v, hv, rfl⟩ := mem_contributions.mp he
    simp only at hc
    subst hc
    rw [if_pos ⟨by omega, by rw [Int.toNat_natCast]; exact (h.src_pos v).mpr ⟨w, hw, hv⟩⟩, contributions_only (fun w hw => (h.sorted w hw).imp fun h => ne_of_lt h), Int.toNat_natCast,
      h.src]
  · rw [if_neg hex, if_neg]
    rintro ⟨h0, hp⟩
    obtain ⟨v, rfl⟩ := Int.eq_ofNat_of_zero_le h0
    rw [Int.toNat_natCast] at hp
    obtain ⟨w, hw, hv⟩ := (h.src_pos v).mp hp
    exact hex ⟨_, mem_contributions.mpr ⟨w, hw, v, hv, rfl⟩, rfl⟩

omit [IsStrictOrderedRing K] in
theorem srcCells_sorted (n : Nat) (src : Nat → K) : (srcCells n src).Pairwise (· < ·) :=
  List.Pairwise.filter _ List.pairwise_lt_range

theorem Side.only_eq (h : Side wells cs f n src) :
    (gather (contributions wells cs f)).only = valuesOf (srcCells n src) src := by
  have hs : OMap.Sorted (valuesOf (srcCells n src) src) := by
    unfold OMap.Sorted valuesOf
    rw [List.pairwise_map]
    exact (srcCells_sorted n src).imp fun h => by simpa using h
  refine OMap.ext (gather_sorted _).1 hs fun c => ?_
  rw [h.only_find]
  split
  · rename_i hex
    obtain ⟨h0, hp⟩ := hex
    obtain ⟨v, rfl⟩ := Int.eq_ofNat_of_zero_le h0
    rw [Int.toNat_natCast] at hp
    obtain ⟨w, hw, hv⟩ := (h.src_pos v).mp hp
    rw [OMap.mem_find hs]
    refine List.mem_map.mpr ⟨v, List.mem_filter.mpr ⟨List.mem_range.mpr (h.range w hw v hv), by simpa using hp⟩, ?_⟩
    rw [Int.toNat_natCast]
  · rename_i hex
    symm
    rw [OMap.find_none_iff]
    intro e he hc
    obtain ⟨v, hv, rfl⟩ := List.mem_map.mp he
    simp only at hc
    subst hc
    exact hex ⟨by omega, by simpa using (List.mem_filter.mp hv).2⟩

theorem Side.byId (h : Side wells cs f n src) {w : WellFlux K} (hw : w ∈ wells) (hne : cs w ≠ []) :
    OMap.find (gather (contributions wells cs f)).byId w.id = some (valuesOf (cs w) (f w)) :=
  contributions_byId h.ids h.sorted f hw hne

/-- Well of an id. -/
theorem Side.of_find (_h : Side wells cs f n src) {i : CellSetID}
    (hi : OMap.find (gather (contributions wells cs f)).byId i ≠ none) :
    ∃ w ∈ wells, w.id = i ∧ cs w ≠ [] := by
  by_contra hn
  exact hi (contributions_byId_none hn)

variable [Archimedean K]

/-- A side of the problem with the flow in its direction: the solution. -/
theorem side_solution {F : Flow K} (hF : F.Valid) {g gr : AssembledConnections (X K)} (hg : HasFlow g F.n F.w)
    (hgr : HasFlow gr F.n fun u v => F.w v u) (h : Side wells cs f F.n F.src) (starts : List CellSet)
    (hst : ∀ s ∈ starts, ∃ w ∈ wells, w.id = s.id ∧ cs w ≠ []) :
    ∃ d st sol, SolverFor F d st ∧
      (∃ N, ∀ fuel, N ≤ fuel → computeSolution g gr (arr F.n F.pv) (gather (contributions wells cs f)).only
        (gather (contributions wells cs f)).byId noFailure fuel starts = .ok sol) ∧
      GlobalReturns d st (.ok sol.timeOfFlight) ∧
      (∀ w ∈ wells, (∃ s ∈ starts, s.id = w.id) → ∃ l, LocalReturns d st (valuesOf (cs w) (f w)) (.ok l) ∧
        sol.timeOfFlightOf w.id = l.tof ∧ sol.concentration w.id = l.concentration) ∧
      (∀ i, (¬ ∃ s ∈ starts, s.id = i) → sol.timeOfFlightOf i = [] ∧ sol.concentration i = []) ∧
      sol.startPoints.Pairwise (· < ·) ∧ ∀ i, i ∈ sol.startPoints ↔ ∃ s ∈ starts, s.id = i := by
  obtain ⟨d, st, hcr, hsol, hlen⟩ := create_exact hF hg hgr (ps := srcCells F.n F.src)
    (fun p hp => List.mem_range.mp (List.mem_filter.mp hp).1)
    (fun v hv hm => by
      refine le_antisymm (not_lt.mp fun hp => hm ?_) (h.src_nonneg v)
      exact List.mem_filter.mpr ⟨List.mem_range.mpr hv, by simpa using hp⟩)
  have hfor : SolverFor F d st := ⟨hF, g, gr, srcCells F.n F.src, hg, hgr,
    fun p hp => List.mem_range.mp (List.mem_filter.mp hp).1,
    (fun v hv hm => by
      refine le_antisymm (not_lt.mp fun hp => hm ?_) (h.src_nonneg v)
      exact List.mem_filter.mpr ⟨List.mem_range.mpr hv, by simpa using hp⟩), hcr⟩
  obtain ⟨tof, N0, hN0⟩ := (Props.C28_terminates hfor).1
  -- the local solutions
  have hloc : ∀ w, w ∈ wells → ∃ l, LocalReturns d st (valuesOf (cs w) (f w)) (.ok l) := fun w hw =>
    Props.C30_accepts_others hfor (h.range w hw) (h.pos w hw) fun p hp => (h.src_pos p).mpr ⟨w, hw, hp⟩
  have hid : ∀ i, ∃ l, (∃ s ∈ starts, s.id = i) → ∃ w ∈ wells, w.id = i ∧ cs w ≠ [] ∧
      LocalReturns d st (valuesOf (cs w) (f w)) (.ok l) := by
    intro i
    by_cases hi : ∃ s ∈ starts, s.id = i
    · obtain ⟨s, hs, rfl⟩ := hi
      obtain ⟨w, hw, e, hne⟩ := hst s hs
      obtain ⟨l, hl⟩ := hloc w hw
      exact ⟨l, fun _ => ⟨w, hw, e, hne, hl⟩⟩
    · exact ⟨⟨[], []⟩, fun h => absurd h hi⟩
  choose L hL using hid
  have hat : ∀ w ∈ wells, cs w ≠ [] →
      OMap.at_ (gather (contributions wells cs f)).byId w.id [] = valuesOf (cs w) (f w) := by
    intro w hw hne; unfold OMap.at_; rw [h.byId hw hne]; rfl
  -- enough steps for all of them
  have hN : ∃ N, ∀ fuel, N ≤ fuel → ∀ s ∈ starts,
      localOf d st Alloc.good fuel (gather (contributions wells cs f)).byId s.id = .ok (L s.id) := by
    have : ∀ ss : List CellSet, (∀ s ∈ ss, s ∈ starts) → ∃ N, ∀ fuel, N ≤ fuel → ∀ s ∈ ss,
        localOf d st Alloc.good fuel (gather (contributions wells cs f)).byId s.id = .ok (L s.id) := by
      intro ss
      induction ss with
      | nil => intro _; exact ⟨0, by simp⟩
      | cons s ss ih =>
        intro hss
        obtain ⟨N1, h1⟩ := ih fun s' hs' => hss s' (by simp [hs'])
        obtain ⟨w, hw, e, hne, N2, h2⟩ := hL s.id ⟨s, hss s (by simp), rfl⟩
        refine ⟨max N1 N2, fun fuel hf s' hs' => ?_⟩
        rcases List.mem_cons.mp hs' with rfl | hs'
        · unfold localOf
          rw [← e, hat w hw hne, e]
          exact h2 fuel (le_trans (le_max_right _ _) hf) st .new
        · exact h1 fuel (le_trans (le_max_left _ _) hf) s' hs'
    exact this starts fun s hs => hs
  obtain ⟨N1, hN1⟩ := hN
  obtain ⟨r1, r2, r3, r4, r5⟩ := recordAll_spec L (starts.map CellSet.id) ({ tof := tof } : Solution (X K))
  have hmem : ∀ i, i ∈ starts.map CellSet.id ↔ ∃ s ∈ starts, s.id = i := fun i => List.mem_map
  refine ⟨d, st, recordAll L (starts.map CellSet.id) { tof := tof }, hfor, ⟨max N0 N1, fun fuel hf => ?_⟩, ?_, ?_, ?_, ?_, ?_⟩
  · have h1 := hN1 fuel (le_trans (le_max_right _ _) hf)
    rw [h.only_eq]
    refine (computeSolution_ok_iff (a := Alloc.good)).mpr ⟨d, st, tof, hcr, hN0 fuel (le_trans (le_max_left _ _) hf) st .new,
      fun s hs => ⟨_, h1 s hs⟩, ?_⟩
    unfold recordAll
    apply List.foldl_ext
    intro sol i hi
    obtain ⟨s, hs, rfl⟩ := (hmem i).mp hi
    have : okOf d st Alloc.good fuel (gather (contributions wells cs f)).byId s.id = L s.id := by
      unfold okOf; rw [h1 s hs]
    rw [this]
  · unfold Solution.timeOfFlight; rw [r1]; exact ⟨N0, hN0⟩
  · intro w hw hs
    obtain ⟨w', hw', e, hne, hl⟩ := hL w.id hs
    have hww : w' = w := by
      by_contra hne'
      have := h.ids
      have htri : ∀ a ∈ wells, ∀ b ∈ wells, a ≠ b → a.id ≠ b.id := by
        intro a ha b hb hab
        obtain ⟨i, hi, rfl⟩ := List.mem_iff_getElem.mp ha
        obtain ⟨j, hj, rfl⟩ := List.mem_iff_getElem.mp hb
        have hp := List.pairwise_iff_getElem.mp this
        rcases Nat.lt_trichotomy i j with hij | hij | hij
        · exact ne_of_lt (hp i j hi hj hij)
        · subst hij; exact absurd rfl hab
        · exact (ne_of_lt (hp j i hj hi hij)).symm
      exact htri w' hw' w hw hne' e
    subst hww
    refine ⟨L w'.id, hl, ?_, ?_⟩
    · unfold Solution.timeOfFlightOf Solution.solutionValues
      rw [r3, if_pos ((hmem _).mpr hs)]
    · unfold Solution.concentration Solution.solutionValues
      rw [r2, if_pos ((hmem _).mpr hs)]
  · intro i hi
    unfold Solution.timeOfFlightOf Solution.concentration Solution.solutionValues
    rw [r2, r3, if_neg (fun hc => hi ((hmem i).mp hc)), if_neg (fun hc => hi ((hmem i).mp hc))]
    exact ⟨rfl, rfl⟩
  · exact OMap.keys_sorted (r4 OMap.sorted_nil)
  · intro i
    have := OMap.find_isSome_iff (m := (recordAll L (starts.map CellSet.id) ({ tof := tof } : Solution (X K))).tracer) (k := i)
    show i ∈ (recordAll L (starts.map CellSet.id) ({ tof := tof } : Solution (X K))).tracer.map Prod.fst ↔ _
    rw [← this, r2, ← hmem i]
    by_cases hi : i ∈ starts.map CellSet.id
    · simp only [hi, if_true, Option.isSome_some]
    · simp only [hi, if_false]; simp [OMap.find]

end side

/-! ### The problem -/

theorem pos_side {P : Problem K} (hP : P.Valid) : Side P.wells posCells (fun w => w.val) P.n P.source := by
  refine ⟨hP.wells_sorted, fun w hw => (hP.cells_sorted w hw).filter _, ?_, ?_, ?_⟩
  · intro w hw v hv; exact hP.cells_range w hw v (List.mem_filter.mp hv).1
  · intro w _ v hv; simpa using (List.mem_filter.mp hv).2
  · intro v
    unfold Problem.source
    congr 1
    apply List.map_congr_left
    intro w _
    unfold Problem.wellAt posCells
    simp only [List.mem_filter, decide_eq_true_eq]
    by_cases h1 : v ∈ w.cells
    · by_cases h2 : 0 < w.val v
      · simp [h1, h2, h2.le]
      · simp [h1, h2, not_lt.mp h2]
    · simp [h1]

theorem neg_side {P : Problem K} (hP : P.Valid) : Side P.wells negCells (fun w v => - w.val v) P.n P.sink := by
  refine ⟨hP.wells_sorted, fun w hw => (hP.cells_sorted w hw).filter _, ?_, ?_, ?_⟩
  · intro w hw v hv; exact hP.cells_range w hw v (List.mem_filter.mp hv).1
  · intro w _ v hv; simpa using (List.mem_filter.mp hv).2
  · intro v
    unfold Problem.sink
    congr 1
    apply List.map_congr_left
    intro w _
    unfold Problem.wellAt negCells
    simp only [List.mem_filter, decide_eq_true_eq]
    by_cases h1 : v ∈ w.cells
    · by_cases h2 : w.val v < 0
      · simp [h1, h2, h2.le]
      · simp [h1, h2, not_lt.mp h2]
    · simp [h1]

theorem forward_valid {P : Problem K} (hP : P.Valid) : P.forward.Valid :=
  ⟨fun u v _ _ => flux_nonneg P u v, hP.pv, fun v _ => (pos_side hP).src_nonneg v, hP.int⟩

theorem backward_valid {P : Problem K} (hP : P.Valid) : P.backward.Valid :=
  ⟨fun u v _ _ => flux_nonneg P v u, hP.pv, fun v _ => (neg_side hP).src_nonneg v, hP.int⟩

end Verif.Toolbox
