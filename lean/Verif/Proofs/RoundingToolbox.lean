/-
Bounds on the results of diagnostics, in floating-point arithmetic.
-/
import Verif.Proofs.RoundingSolver
import Verif.Proofs.ToolboxData

namespace Verif.Rounding
open Verif.Spec Verif.Solver Verif.Toolbox Verif.Tarjan

variable {R : Type} [Arith R]

/-! ### Sources -/

theorem insert_fold_mem (l : List (CellSetID × Int × R)) (m : OMap Int R) {e : Int × R}
    (h : e ∈ l.foldl (fun m e => OMap.insert m e.2.1 e.2.2) m) : e ∈ m ∨ ∃ x ∈ l, x.2 = e := by
  induction l generalizing m with
  | nil => exact Or.inl h
  | cons x l ih =>
    rcases ih _ h with h | ⟨y, hy, rfl⟩
    · simp only [OMap.insert_eq] at h
      split at h
      · exact Or.inl h
      · rcases OMap.mem_assign h with rfl | h
        · exact Or.inr ⟨x, by simp, rfl⟩
        · exact Or.inl h
    · exact Or.inr ⟨y, by simp [hy], rfl⟩

theorem byId_mem {l : List (CellSetID × Int × R)} {i : CellSetID} {e : Int × R}
    (h : e ∈ OMap.at_ (gather l).byId i []) : (i, e) ∈ l := by
  unfold OMap.at_ at h
  rw [gather_byId] at h
  split at h
  · rcases insert_fold_mem _ _ h with h | ⟨x, hx, rfl⟩
    · cases h
    · obtain ⟨h1, h2⟩ := List.mem_filter.mp hx
      obtain ⟨a, b⟩ := x
      simp only [decide_eq_true_eq] at h2
      subst h2
      exact h1
  · cases h

/-- `expandSparse` of a map: each entry is stored, the rest is zero. -/
theorem expandSparse_entries {n : Nat} (hI : n ≤ INT_MAX) {v : CellSetValues R} (hs : OMap.Sorted v)
    (h : ∀ e ∈ v, 0 ≤ e.1 ∧ e.1 < n) {l : List R} (hl : expandSparse n v = .ok l) :
    l.length = n ∧ (∀ e ∈ v, l[e.1.toNat]? = some e.2) ∧ (∀ x ∈ l, x = Arith.zero ∨ ∃ e ∈ v, e.2 = x) ∧
      ∀ u < n, (∀ e ∈ v, e.1 ≠ (u : Int)) → l[u]? = some Arith.zero := by
  unfold expandSparse at hl
  obtain ⟨l', e, h1, h2, h3, h4⟩ := forEach_inv (xs := v) (s := List.replicate n (Arith.zero : R))
    (f := fun r data => wr r (sizeOfInt data.1) data.2)
    (fun pre s => s.length = n ∧ (∀ e ∈ pre, s[e.1.toNat]? = some e.2) ∧ (∀ x ∈ s, x = Arith.zero ∨ ∃ e ∈ v, e.2 = x) ∧
      ∀ u < n, (∀ e ∈ v, e.1 ≠ (u : Int)) → s[u]? = some Arith.zero)
    ⟨by simp, by simp, fun x hx => Or.inl (List.eq_of_mem_replicate hx), fun u hu _ => by simp [hu]⟩ (by
      intro pre x post s e ⟨g1, g2, g3, g4⟩
      have hx := h x (by rw [e]; simp)
      have hsz : sizeOfInt x.1 = x.1.toNat := sizeOfInt_nonneg (by omega) (by omega)
      have hlt : x.1.toNat < s.length := by omega
      refine ⟨_, wr_ok (by omega), by simpa using g1, ?_, ?_, ?_⟩
      · intro y hy
        rw [hsz]
        rcases List.mem_append.mp hy with hy | hy
        · have hy1 := h y (by rw [e]; simp [hy])
          have : y.1 < x.1 := by
            have hs' := hs
            unfold OMap.Sorted at hs'
            rw [e, List.pairwise_append] at hs'
            exact hs'.2.2 y hy x (by simp)
          rw [List.getElem?_set_ne (by omega)]
          exact g2 y hy
        · rw [List.mem_singleton.mp hy, List.getElem?_set_self hlt]
      · intro y hy
        rcases List.mem_or_eq_of_mem_set hy with hy | rfl
        · exact g3 y hy
        · exact Or.inr ⟨x, by rw [e]; simp, rfl⟩
      · intro u hu hno
        have := hno x (by rw [e]; simp)
        rw [hsz, List.getElem?_set_ne (by omega)]
        exact g4 u hu hno)
  rw [e] at hl
  cases hl
  exact ⟨h1, h2, h3, h4⟩

variable {K : Type} [Field K] [LinearOrder K] [IsStrictOrderedRing K] (ρ : Rounded R K)
include ρ

theorem le_foldl {l : List R} (h : ∀ x ∈ l, NotNegative x) {a x : R} (hx : x ∈ l ∨ Arith.lt a x = false)
    (ha : NotNegative a) : Arith.lt (l.foldl Arith.add a) x = false := by
  induction l generalizing a with
  | nil => simpa using hx
  | cons y l ih =>
    have hy := h y List.mem_cons_self
    refine ih (fun z hz => h z (List.mem_cons_of_mem _ hz)) ?_ (add_notNegative ρ ha hy)
    rcases hx with hx | hx
    · rcases List.mem_cons.mp hx with rfl | hx
      · exact Or.inr (le_add' ρ (lt_irrefl ρ x) ha)
      · exact Or.inl hx
    · exact Or.inr (le_add ρ hx hy)

/-- The source of a cell is not below the contribution of an id. -/
theorem only_ge {l : List (CellSetID × Int × R)} (h : ∀ e ∈ l, NotNegative e.2.2) {c : Int} {s : R}
    (hs : (c, s) ∈ (gather l).only) :
    NotNegative s ∧ ∀ (i : CellSetID) (x : R), (c, x) ∈ OMap.at_ (gather l).byId i [] → Arith.lt s x = false := by
  have hf := OMap.mem_find (gather_sorted l).1 hs
  rw [gather_only] at hf
  split at hf
  · simp only [Option.some.injEq] at hf
    subst hf
    have hall : ∀ x ∈ (l.filter fun e => decide (e.2.1 = c)).map fun e => e.2.2, NotNegative x := by
      intro x hx
      obtain ⟨e, he, rfl⟩ := List.mem_map.mp hx
      exact h e (List.mem_filter.mp he).1
    refine ⟨foldl_notNegative ρ hall (zero_notNegative ρ), ?_⟩
    intro i x hx
    have := byId_mem hx
    refine le_foldl ρ hall (Or.inl ?_) (zero_notNegative ρ)
    exact List.mem_map.mpr ⟨_, List.mem_filter.mpr ⟨this, by simp⟩, rfl⟩
  · cases hf

omit [IsStrictOrderedRing K] in
theorem positives_notNegative {m : InflowFlux R} : ∀ e ∈ positives (entries m), NotNegative e.2.2 := by
  intro e he
  exact pos_notNegative ρ (List.mem_filter.mp he).2

theorem negatives_notNegative {m : InflowFlux R} : ∀ e ∈ negatives (entries m), NotNegative e.2.2 := by
  intro e he
  unfold negatives at he
  obtain ⟨x, hx, rfl⟩ := List.mem_map.mp he
  have := (List.mem_filter.mp hx).2
  simp only [Bool.and_eq_true, Bool.not_eq_true'] at this
  exact neg_notNegative ρ (by tauto)

theorem directed_notNegative {cs : List (Nat × Nat)} {x : Nat → R} : ∀ c ∈ directed cs x, NotNegative c.2.2 := by
  intro c hc
  unfold directed at hc
  obtain ⟨l, hl, hcl⟩ := List.mem_flatten.mp hc
  obtain ⟨⟨e, i⟩, he, rfl⟩ := List.mem_map.mp hl
  simp only at hcl
  unfold orient at hcl
  split at hcl
  · rename_i h
    rw [List.mem_singleton.mp hcl]; exact pos_notNegative ρ h
  · split at hcl
    · rename_i h
      rw [List.mem_singleton.mp hcl]; exact neg_notNegative ρ h
    · simp at hcl

theorem rowOfFlow_notNegative {n : Nat} {D : List (Int × Int × R)} (h : ∀ c ∈ D, NotNegative c.2.2) (u : Nat) :
    ∀ e ∈ rowOfFlow n D u, NotNegative e.2 := by
  intro e he
  unfold rowOfFlow at he
  obtain ⟨v, _, rfl⟩ := List.mem_map.mp he
  unfold flowOf weightsOf
  refine foldl_notNegative ρ ?_ (zero_notNegative ρ)
  intro x hx
  obtain ⟨c, hc, rfl⟩ := List.mem_map.mp hx
  exact h c (List.mem_filter.mp hc).1

theorem swapEnds_notNegative {D : List (Int × Int × R)} (h : ∀ c ∈ D, NotNegative c.2.2) :
    ∀ c ∈ swapEnds D, NotNegative c.2.2 := fun c hc => h (c.2.1, c.1, c.2.2) (mem_swapEnds hc)

theorem create_fits {n : Nat} (hI : n ≤ INT_MAX) {D : List (Int × Int × R)}
    (hD : ∀ c ∈ D, (0 ≤ c.1 ∧ c.1 < n) ∧ (0 ≤ c.2.1 ∧ c.2.1 < n)) (hDn : ∀ c ∈ D, NotNegative c.2.2)
    {pv : List R} (hpv : pv.length = n) (hpvn : ∀ x ∈ pv, NotNegative x) {l : List (CellSetID × Int × R)}
    (hl : ∀ e ∈ l, 0 ≤ e.2.1 ∧ e.2.1 < n) (hln : ∀ e ∈ l, NotNegative e.2.2) {d : SolverData R} {st : SolverState R}
    (h : Solver.create (graphsOf n D).1 (graphsOf n D).2 pv (gather l).only = .ok (d, st)) :
    Fits d n ∧ d.g = (graphsOf n D).1 ∧ (∀ e ∈ (gather l).only, d.sourceTerm[e.1.toNat]? = some e.2) ∧
      ∀ v < n, d.influx[v]? = some (((rowOfFlow n (swapEnds D) v).map fun e => e.2).foldl Arith.add Arith.zero) ∧
        d.sourceTerm[v]? =
          some (((l.filter fun e => decide (e.2.1 = (v : Int))).map fun e => e.2.2).foldl Arith.add Arith.zero) := by
  obtain ⟨hG, _⟩ := graphsOf_good hI hD
  obtain ⟨r1, r2⟩ := graphsOf_rows hI hD
  obtain ⟨io, h1, h2, h3⟩ := influx_eq hI hG r1
  unfold Solver.create at h
  simp only [Res.bind_eq, h1, Res.ok_bind, Res.pure_eq, Res.bind_ok_iff] at h
  obtain ⟨src, hsrc, e⟩ := h
  cases e
  rw [hpv] at hsrc
  obtain ⟨s1, s2, s3, s4⟩ := expandSparse_entries hI (gather_sorted l).1 (gather_range hl).1 hsrc
  refine ⟨⟨hI, hpv, s1, ?_, h2, ?_, hpvn⟩, rfl, s2, ?_⟩
  · intro v hv
    refine ⟨_, r2 v hv, ?_, rowOfFlow_notNegative ρ (swapEnds_notNegative ρ hDn) v, h3 v hv⟩
    intro e he
    unfold rowOfFlow at he
    obtain ⟨u, hu, rfl⟩ := List.mem_map.mp he
    have := List.mem_range.mp (List.mem_filter.mp hu).1
    simp only; omega
  · intro x hx
    rcases s3 x hx with rfl | ⟨e, he, rfl⟩
    · exact zero_notNegative ρ
    · exact (only_ge ρ hln (c := e.1) (s := e.2) he).1
  · intro v hv
    refine ⟨h3 v hv, ?_⟩
    have hf := gather_only l (v : Int)
    by_cases he : ∃ e ∈ l, e.2.1 = (v : Int)
    · rw [if_pos he] at hf
      have := s2 _ (OMap.find_some_mem hf)
      simpa using this
    · rw [if_neg he, OMap.find_none_iff] at hf
      have hnil : (l.filter fun e => decide (e.2.1 = (v : Int))) = [] := by
        rw [List.filter_eq_nil_iff]
        intro e hel
        simp only [decide_eq_true_eq]
        exact fun h => he ⟨e, hel, h⟩
      rw [hnil]
      exact s4 v hv hf

/-! ### The solves -/

theorem initial_bounded (n : Nat) : Bounded (List.replicate n (Arith.zero : R), List.replicate n (Arith.zero : R)) := by
  refine ⟨?_, ?_, ?_⟩
  · intro t ht; rw [List.eq_of_mem_replicate ht]; exact zero_notNegative ρ
  · intro t ht; rw [List.eq_of_mem_replicate ht]; exact zero_notNegative ρ
  · intro t ht
    rw [List.eq_of_mem_replicate ht, ρ.lt, val_one, val_zero']
    simp [X.lt]

omit [Arith R] [Field K] [LinearOrder K] [IsStrictOrderedRing K] ρ in
theorem cellsOf_range {n : Nat} {comps : List (List Nat)} (h : ∀ c ∈ comps, ∀ v ∈ c, v < n) :
    ∀ c ∈ cellsOf comps, 0 ≤ c ∧ c < (n : Int) := by
  intro c hc
  unfold cellsOf at hc
  obtain ⟨v, hv, rfl⟩ := List.mem_map.mp hc
  obtain ⟨l, hl, hvl⟩ := List.mem_flatten.mp hv
  have := h l hl v hvl
  omega

theorem global_bounds {d : SolverData R} {n : Nat} (hd : Fits d n) (hg : GoodGraph d.g n) {fuel : Nat}
    (hfuel : n + numEdges n d.g.startPointers ≤ fuel) {st : SolverState R} {tof : List R}
    (h : (solveGlobal d Alloc.good fuel st).2 = .ok tof) :
    ∀ t ∈ tof, NotNegative t ∧ Arith.lt (capIn R) t = false := by
  obtain ⟨comps, ht, horder⟩ := computeOrdering_spec (hg.isGraph hd.int) hg.size Alloc.good_good
  unfold solveGlobal prepareForSolve at h
  simp only [finish_snd, hd.pvSize, Res.bind_ok_iff] at h
  obtain ⟨b, _, o, ho, f, hf, e⟩ := h
  cases e
  rw [horder fuel hfuel] at ho
  cases ho
  have := solve_bounded ρ hd (isStart := b) (ls := d.sourceTerm) (by
    intro v l s hb hl hs
    rw [hl] at hs; cases hs
    exact ⟨hd.source l (List.mem_of_getElem? hl), lt_irrefl ρ l⟩) (cellsOf_range fun c hc v hv =>
      (ht.cover v).mp (List.mem_flatten.mpr ⟨c, hc, hv⟩)) (initial_bounded ρ n) hf
  intro t ht
  exact ⟨this.1.tof t ht, this.2 t ht⟩

omit [IsStrictOrderedRing K] ρ in
/-- Start cells hold a value of the start set. -/
theorem setupLocalSource_entries {ss : CellSetValues R} {ls ls' : List R} (h : setupLocalSource ls ss = (ls', .ok ()))
    {v : Nat} {x : R} (hx : ls'[v]? = some x) :
    (∃ e ∈ ss, sizeOfInt e.1 = v ∧ e.2 = x) ∨ (∀ e ∈ ss, sizeOfInt e.1 ≠ v) ∧ ls[v]? = some x := by
  induction ss generalizing ls with
  | nil =>
    simp only [setupLocalSource, Prod.mk.injEq, and_true] at h
    subst h
    exact Or.inr ⟨by simp, hx⟩
  | cons p ps ih =>
    unfold setupLocalSource at h
    split at h
    · simp at h
    · cases hw : wr ls (sizeOfInt p.1) p.2 with
      | ok l1 =>
        rw [hw] at h
        rcases ih h with ⟨e, he, h1, h2⟩ | ⟨h1, h2⟩
        · exact Or.inl ⟨e, by simp [he], h1, h2⟩
        · rw [wr_eq_ok_iff] at hw
          obtain ⟨hlt, rfl⟩ := hw
          by_cases hv : sizeOfInt p.1 = v
          · subst hv
            rw [List.getElem?_set_self hlt] at h2
            exact Or.inl ⟨p, by simp, rfl, by simpa using h2⟩
          · rw [List.getElem?_set_ne hv] at h2
            refine Or.inr ⟨?_, h2⟩
            intro e he
            rcases List.mem_cons.mp he with rfl | he
            · exact hv
            · exact h1 e he
      | throw e => rw [hw] at h; simp at h
      | ub e => rw [hw] at h; simp at h
      | diverge => rw [hw] at h; simp at h

omit [Arith R] [IsStrictOrderedRing K] ρ in
theorem setupStartArray_entries [Arith R] {ss : CellSetValues R} {n : Nat} {b : List Bool}
    (h : setupStartArray (List.replicate n false) ss = .ok b) {v : Nat} (hv : b[v]? = some true) :
    ∃ e ∈ ss, sizeOfInt e.1 = v := by
  unfold setupStartArray at h
  refine (forEach_ok (fun b : List Bool => b[v]? = some true → ∃ e ∈ ss, sizeOfInt e.1 = v) (by
    intro h
    rw [List.getElem?_replicate] at h
    split at h <;> simp at h) (by
    intro a b c hc ha hb hbv
    rw [wr_eq_ok_iff] at hb
    obtain ⟨hlt, rfl⟩ := hb
    by_cases e : sizeOfInt c.1 = v
    · exact ⟨c, hc, e⟩
    · rw [List.getElem?_set_ne e] at hbv
      exact ha hbv) h).1 hv

/-- The bounds on a local solution. -/
structure LocalBounds (l : LocalSolution R) : Prop where
  tof : ∀ e ∈ l.tof, NotNegative e.2 ∧ Arith.lt (capIn R) e.2 = false
  conc : ∀ e ∈ l.concentration, Arith.le e.2 (Arith.lit 0) = false ∧ Arith.lt (Arith.lit 1) e.2 = false

theorem local_bounds {d : SolverData R} {n : Nat} (hd : Fits d n) (hg : GoodGraph d.g n) {fuel : Nat}
    (hfuel : n + numEdges n d.g.startPointers ≤ fuel) {st : SolverState R} {ss : CellSetValues R}
    (hss : ∀ e ∈ ss, 0 ≤ e.1 ∧ e.1 < n)
    (hsrc : ∀ e ∈ ss, ∀ s, d.sourceTerm[e.1.toNat]? = some s → NotNegative e.2 ∧ Arith.lt s e.2 = false)
    {l : LocalSolution R} (h : (solveLocal d Alloc.good fuel ss st).2 = .ok l) : LocalBounds l := by
  have hI := hd.int
  have hcast : (ss.map fun p => p.1) = (ss.map fun p => p.1.toNat).map fun v : Nat => (v : Int) := by
    rw [List.map_map]
    apply List.map_congr_left
    intro e he
    have := hss e he
    simp only [Function.comp]; omega
  have hlt : ∀ p ∈ ss.map fun p => p.1.toNat, p < n := by
    intro p h
    obtain ⟨e, he, rfl⟩ := List.mem_map.mp h
    have := hss e he
    omega
  have hG := hg.isGraph hI
  obtain ⟨comps, ht, horder⟩ := computeLocalOrdering_spec hG hg.size Alloc.good_good _ hlt
  unfold solveLocal prepareForSolve at h
  simp only [finish_snd, hd.pvSize, Res.bind_ok_iff, hcast] at h
  obtain ⟨b, hb, o, ho, ⟨⟩, hls, f, hf, _, _, r, hr, e⟩ := h
  cases e
  rw [horder fuel hfuel] at ho
  cases ho
  have hc : ∀ c ∈ comps, ∀ v ∈ c, v < n := by
    intro c hc v hv
    obtain ⟨p, hpm, hr⟩ := (ht.cover v).mp (List.mem_flatten.mpr ⟨c, hc, hv⟩)
    exact reachable_lt hG (hlt p hpm) hr
  have hB := solve_bounded ρ hd (isStart := b) (by
    intro v x s hbv hx hs
    rcases setupLocalSource_entries (ls' := (setupLocalSource st.localSource ss).1) (by rw [← hls]) hx with
      ⟨e, he, e1, rfl⟩ | ⟨hno, _⟩
    · have := hss e he
      rw [sizeOfInt_nonneg (by omega) (by omega)] at e1
      subst e1
      exact hsrc e he s hs
    · obtain ⟨e, he, e1⟩ := setupStartArray_entries hb hbv
      exact absurd e1 (hno e he)) (cellsOf_range hc) (initial_bounded ρ n) hf
  unfold collect at hr
  simp only [Res.bind_eq, Res.bind_ok_iff] at hr
  obtain ⟨_, _, cells, _, hr⟩ := hr
  refine (forEach_ok (fun s : LocalSolution R => LocalBounds s) ⟨by simp, by simp⟩ ?_ hr).1
  intro a b' c _ ha hb'
  unfold collectCell at hb'
  simp only [Res.bind_eq, Res.bind_ok_iff] at hb'
  obtain ⟨t, h1, x, h2, h3⟩ := hb'
  rw [rd_iff] at h1 h2
  split at h3
  · cases h3
  · rename_i hle
    cases h3
    constructor
    · intro e he
      rcases OMap.mem_assign he with rfl | he
      · exact ⟨hB.1.tof t (List.mem_of_getElem? h1), hB.2 t (List.mem_of_getElem? h1)⟩
      · exact ha.tof e he
    · intro e he
      rcases OMap.mem_assign he with rfl | he
      · exact ⟨by simpa [Arith.zero] using hle, hB.1.le_one x (List.mem_of_getElem? h2)⟩
      · exact ha.conc e he

/-- The bounds on a solution. -/
structure SolutionBounds (sol : Solution R) : Prop where
  global : ∀ t ∈ sol.timeOfFlight, NotNegative t ∧ Arith.lt (capIn R) t = false
  tof : ∀ i, ∀ e ∈ sol.timeOfFlightOf i, NotNegative e.2 ∧ Arith.lt (capIn R) e.2 = false
  conc : ∀ i, ∀ e ∈ sol.concentration i, Arith.le e.2 (Arith.lit 0) = false ∧ Arith.lt (Arith.lit 1) e.2 = false

theorem computeSolution_bounds {n : Nat} (hI : n ≤ INT_MAX) {D : List (Int × Int × R)}
    (hD : ∀ c ∈ D, (0 ≤ c.1 ∧ c.1 < n) ∧ (0 ≤ c.2.1 ∧ c.2.1 < n)) (hDn : ∀ c ∈ D, NotNegative c.2.2)
    {pv : List R} (hpv : pv.length = n) (hpvn : ∀ x ∈ pv, NotNegative x) {l : List (CellSetID × Int × R)}
    (hl : ∀ e ∈ l, 0 ≤ e.2.1 ∧ e.2.1 < n) (hln : ∀ e ∈ l, NotNegative e.2.2) {starts : List CellSet} {sol : Solution R}
    {fuel : Nat} (hfuel : n + numEdges n (graphsOf n D).1.startPointers ≤ fuel)
    (h : computeSolution (graphsOf n D).1 (graphsOf n D).2 pv (gather l).only (gather l).byId noFailure fuel starts = .ok sol) :
    SolutionBounds sol := by
  obtain ⟨d, st, tof, h1, h2, h3, rfl⟩ := (computeSolution_ok_iff (a := Alloc.good)).mp h
  obtain ⟨hd, hg, hsrc, _⟩ := create_fits ρ hI hD hDn hpv hpvn hl hln h1
  have hG : GoodGraph d.g n := hg ▸ (graphsOf_good hI hD).1
  rw [← hg] at hfuel
  have hloc : ∀ i, (∃ s ∈ starts, s.id = i) → LocalBounds (okOf d st Alloc.good fuel (gather l).byId i) := by
    rintro i ⟨s, hs, rfl⟩
    obtain ⟨x, hx⟩ := h3 s hs
    unfold okOf
    rw [hx]
    refine local_bounds ρ hd hG hfuel ((gather_range hl).2 s.id) ?_ hx
    intro e he v hv
    refine ⟨hln _ (byId_mem he), ?_⟩
    have hsome := gather_ids_cells l s.id e he
    obtain ⟨w, hw⟩ := Option.isSome_iff_exists.mp hsome
    have hm := OMap.find_some_mem hw
    have := hsrc _ hm
    simp only at this
    rw [this] at hv; cases hv
    exact (only_ge ρ hln hm).2 s.id e.2 he
  obtain ⟨r1, r2, r3, _, _⟩ := recordAll_spec (okOf d st Alloc.good fuel (gather l).byId) (starts.map CellSet.id)
    ({ tof := tof } : Solution R)
  have hid : ∀ i, i ∈ starts.map CellSet.id ↔ ∃ s ∈ starts, s.id = i := by
    intro i; simp [List.mem_map]
  refine ⟨?_, ?_, ?_⟩
  · intro t ht
    unfold Solution.timeOfFlight at ht
    rw [r1] at ht
    exact global_bounds ρ hd hG hfuel h2 t ht
  · intro i e he
    unfold Solution.timeOfFlightOf Solution.solutionValues at he
    rw [r3] at he
    by_cases hi : i ∈ starts.map CellSet.id
    · rw [if_pos hi] at he
      exact (hloc i ((hid i).mp hi)).tof e he
    · rw [if_neg hi] at he
      simp [OMap.find_nil] at he
  · intro i e he
    unfold Solution.concentration Solution.solutionValues at he
    rw [r2] at he
    by_cases hi : i ∈ starts.map CellSet.id
    · rw [if_pos hi] at he
      exact (hloc i ((hid i).mp hi)).conc e he
    · rw [if_neg hi] at he
      simp [OMap.find_nil] at he

end Verif.Rounding
