/-
The computation of a solution returns, in arithmetic with rounding.
-/
import Verif.Proofs.ClimbSolve
import Verif.Proofs.ClimbPace
import Verif.Proofs.SweepCounter
import Verif.Proofs.SlackSolution
import Verif.Proofs.AccuracyReturns
import Verif.Spec.Tame

namespace Verif.Rounding
set_option linter.unusedSectionVars false
open Finset Verif.Spec Verif.Solver Verif.Toolbox Verif.Tarjan

variable {R : Type} [Arith R] {K : Type} [Field K] [LinearOrder K] [IsStrictOrderedRing K]

/-- The conditions on the numbers. -/
structure Margins (q : K) (M : Nat) (H φ μ : K) (L : Nat) : Prop where
  one_le : 1 ≤ H
  fill_nonneg : 0 ≤ φ
  mu_pos : 0 < μ
  mu_le : μ ≤ 1
  power : q ^ (4 * M + 6) ≤ 2
  count : (M : K) + 1 ≤ 2 ^ 100
  small : (q ^ (4 * M + 6) - 1) * H ≤ 1 / 8
  accurate : ((1 / 1000000000 * q + tiny K) * q + (q ^ (4 * M + 4) - 1 + 2 * slack K)) * H ≤ 1 / 2
  moderate : (4 * φ + 1) * H ≤ 2 ^ 130
  gap : 2 * H * (4 * ((4 * φ + 1) * H) * (q ^ (4 * M + 6) - 1) + 7 * climbSlack K) ≤ cap / 4000000000000
  floor : 1 ≤ 1 / (2 * H) * (μ / 4) ^ L * 2 ^ 500

/-- A solver and the flow that it stands for. -/
structure Stands (ρ : Rounded R K) (q : K) (d : SolverData R) (F : Flow K) (M : Nat) : Prop where
  precise : Precise ρ q
  odd : ∀ x : K, ρ.rnd (X.fin (-x)) = X.neg (ρ.rnd (X.fin x))
  values : {x : K | ∃ a, ρ.val a = X.fin x}.Finite
  approx : Approx ρ q d F M
  valid : F.Valid
  sized : ∀ v < F.n, Rounding.Sized F v
  ready : Solver.Ready d F.n
  fits : Fits d F.n
  flow : FiniteFlow ρ d F.n
  pair : GraphPair d F.n
  edge : ∀ u v, Verif.Spec.Edge d F.n u v ↔ F.Edge u v

theorem forEach_length {α β : Type} {g : List β → α → Res (List β)} (hg : ∀ b x b', g b x = .ok b' → b'.length = b.length) :
    ∀ {xs : List α} {b b' : List β}, forEach xs b g = .ok b' → b'.length = b.length := by
  intro xs
  induction xs with
  | nil => intro b b' h; cases h; rfl
  | cons x xs ih =>
    intro b b' h
    rw [forEach_cons] at h
    obtain ⟨c, h1, h2⟩ := Res.bind_ok_iff.mp h
    rw [ih h2, hg _ _ _ h1]

theorem wr_length {β : Type} {l l' : List β} {i : Nat} {a : β} (h : wr l i a = .ok l') : l'.length = l.length := by
  unfold wr at h
  split at h
  · cases h; simp
  · cases h

/-- A limit for the number of sweeps on a cycle. -/
def Limit (q : K) (M : Nat) (H φ : K) (lim : ℕ∞) : Prop := lim = ⊤ ∨ ∃ n : ℕ, Pace q M H φ n ∧ lim = ((n + 1 : ℕ) : ℕ∞)

/-! ### Solvers with a limit -/

section
variable {d : SolverData R}

theorem solveLocalWith_indep (al : Alloc) (fuel k : Nat) (startset : CellSetValues R) (s t : SolverState R)
    (hst : s.localSource.length = t.localSource.length) :
    (solveLocalWith (uncounted k) d al fuel startset s).2 = (solveLocalWith (uncounted k) d al fuel startset t).2 := by
  unfold solveLocalWith prepareForSolve uncounted
  refine finish_rel Res.Rel.rfl ?_
  rintro b _ ⟨hb, rfl⟩
  simp only at hb ⊢
  rw [computeLocalOrdering_indep d.g d.pv.length _ al fuel (s.sequence, s.componentStarts) (t.sequence, t.componentStarts)]
  refine finish_rel Res.Rel.rfl ?_
  rintro o _ ⟨_, rfl⟩
  obtain ⟨h1, h2⟩ := setupLocalSource_rel startset s.localSource t.localSource (fun _ => False) hst (by simp)
  rw [← h1]
  refine finish_rel Res.Rel.rfl ?_
  rintro _ _ ⟨hok, rfl⟩
  have hsame : SameStarts b (setupLocalSource s.localSource startset).1 (setupLocalSource t.localSource startset).1 := by
    intro i hi
    refine h2 hok i ?_
    rcases setupStartArray_true startset _ _ hb i hi with h3 | h3
    · simp [List.getElem?_replicate] at h3
    · exact Or.inr h3
  rw [solve_congr hsame]
  refine finish_rel Res.Rel.rfl ?_
  rintro f _ ⟨_, rfl⟩
  refine finish_rel (cleanupLocalSource_rel startset _ _ (by rw [setupLocalSource_length, setupLocalSource_length, hst])) ?_
  rintro _ _ _
  refine finish_rel Res.Rel.rfl ?_
  rintro _ _ ⟨_, rfl⟩
  rfl

theorem solveGlobalWith_state (slv : SolveFn R) (hd : d.sourceTerm.length = d.pv.length) (al : Alloc) (fuel : Nat) (s : SolverState R)
    (hs : s.localSource.length = d.pv.length) :
    (solveGlobalWith slv d al fuel s).1.localSource.length = d.pv.length := by
  unfold solveGlobalWith prepareForSolve
  refine finish_state (Q := fun s : SolverState R => s.localSource.length = d.pv.length) hs fun b _ => ?_
  refine finish_state (Q := fun s : SolverState R => s.localSource.length = d.pv.length) hd fun o _ => ?_
  refine finish_state (Q := fun s : SolverState R => s.localSource.length = d.pv.length) hd fun f _ => ?_
  simp [hd]

theorem solveLocalWith_state (slv : SolveFn R) (al : Alloc) (fuel : Nat) (startset : CellSetValues R) (s : SolverState R) {n : Nat}
    (hs : s.localSource.length = n) : (solveLocalWith slv d al fuel startset s).1.localSource.length = n := by
  unfold solveLocalWith prepareForSolve
  refine finish_state (Q := fun s : SolverState R => s.localSource.length = n) hs fun b _ => ?_
  refine finish_state (Q := fun s : SolverState R => s.localSource.length = n) hs fun o _ => ?_
  have h1 : (setupLocalSource s.localSource startset).1.length = n := by rw [setupLocalSource_length, hs]
  refine finish_state (Q := fun s : SolverState R => s.localSource.length = n) h1 fun _ _ => ?_
  refine finish_state (Q := fun s : SolverState R => s.localSource.length = n) h1 fun f _ => ?_
  refine finish_state (Q := fun s : SolverState R => s.localSource.length = n) h1 fun l hl => ?_
  have h2 : l.length = n := by rw [cleanupLocalSource_length hl]; exact h1
  exact finish_state (Q := fun s : SolverState R => s.localSource.length = n) h2 fun r _ => h2

/-- If each local solve has the same outcome, so have all together. -/
theorem solveSetsWith_same {slv slv' : SolveFn R} {al : Nat → Alloc} {fuel fuel' : Nat} {byId : InflowFlux R} {n : Nat}
    {starts : List CellSet} (h : ∀ x ∈ starts, ∀ j (s t : SolverState R), s.localSource.length = n → t.localSource.length = n →
      (solveLocalWith slv d (al j) fuel (byId.at_ x.id []) s).2 = (solveLocalWith slv' d (al j) fuel' (byId.at_ x.id []) t).2) :
    ∀ j (s t : SolverState R) sol, s.localSource.length = n → t.localSource.length = n →
      solveSetsWith slv d al fuel byId starts j s sol = solveSetsWith slv' d al fuel' byId starts j t sol := by
  induction starts with
  | nil => intro j s t sol _ _; rfl
  | cons x xs ih =>
    intro j s t sol hs ht
    unfold solveSetsWith
    simp only
    rw [h x List.mem_cons_self j s t hs ht]
    congr 1
    funext l
    exact ih (fun y hy => h y (List.mem_cons_of_mem _ hy)) _ _ _ _ (solveLocalWith_state _ _ _ _ _ hs)
      (solveLocalWith_state _ _ _ _ _ ht)

theorem computeSolution_with (g gr : AssembledConnections R) (pv : List R) (only : CellSetValues R) (byId : InflowFlux R)
    (al : Nat → Alloc) (fuel : Nat) (starts : List CellSet) :
    computeSolution g gr pv only byId al fuel starts = computeSolutionWith (uncounted fuel) g gr pv only byId al fuel starts := by
  unfold computeSolution computeSolutionWith
  simp only [Counter.solveSets_uncounted]
  rfl

end

section
variable {ρ : Rounded R K} {q : K} {d : SolverData R} {F : Flow K} {M : Nat} {H φ μ : K} {L : Nat} {lim : ℕ∞}

theorem Setting.ends {isStart : List Bool} {ls : List R} {S : Nat → Prop} {inj x h : Nat → K}
    (A : Setting ρ q d F M isStart ls S inj x h H φ) (hL : Limit q M H φ lim) (μ : K) :
    EndsWithin ρ q d F M isStart ls S inj x h H φ μ lim := by
  rcases hL with rfl | ⟨n, hn, rfl⟩
  · exact A.ends_top μ
  · intro C s hY
    obtain ⟨k, hk⟩ := A.cycle_within hY hn
    exact ⟨n + 1, k, le_rfl, hk⟩

/-- The setting of one solve. -/
theorem Stands.setting (A : Stands ρ q d F M) (N : Margins q M H φ μ L) {cells : List Nat} {inj : Nat → K}
    (T : F.Tame cells inj H φ μ L) (hc : ∀ p ∈ cells, p < F.n ∧ 0 < F.src p) (hi : ∀ v < F.n, 0 ≤ inj v ∧ inj v ≤ F.src v)
    (hoff : ∀ v < F.n, v ∉ cells → inj v = 0)
    {isStart : List Bool} {ls : List R} (hlen : isStart.length = F.n) (hls : ls.length = F.n) (hlf : LocalFits d isStart ls)
    (hln : ∀ (v : Nat) (l : R), isStart[v]? = some true → ls[v]? = some l → Num ρ l)
    (hst : ∀ v < F.n, ∃ b, isStart[v]? = some b ∧ (b = false → inj v = 0) ∧
      (b = true → 0 < F.src v ∧ ∃ a, ls[v]? = some a ∧ Near ρ q M a (inj v))) :
    ∃ x h, Setting ρ q d F M isStart ls (F.Downstream cells) inj x h H φ := by
  obtain ⟨x, h, hx, hh, hb⟩ := T.carried
  refine ⟨x, h, ?_⟩
  exact
    { precise := A.precise
      odd := A.odd
      values := A.values
      approx := A.approx
      valid := A.valid
      sized := A.sized
      power := N.power
      count := N.count
      ready := A.ready
      fits := A.fits
      flow := A.flow
      startLen := hlen
      lsLen := hls
      localFits := hlf
      localNum := hln
      start := hst
      injected := hi
      closed := fun u v he ⟨p, hp, hr⟩ => ⟨p, hp, hr.tail he⟩
      off := fun v hv hn => hoff v hv fun hm => hn ⟨v, hm, Relation.ReflTransGen.refl⟩
      fed := fun v _ ⟨p, hp, hr⟩ => ⟨p, (hc p hp).1, (hc p hp).2, hr⟩
      conc0 := hx.1
      conc := hx.2
      depth0 := hh.1
      depth := hh.2
      one_le := N.one_le
      bound := fun v _ hs => hb v hs
      fill_nonneg := N.fill_nonneg
      fill := fun v _ hs => T.fill v hs
      small := N.small
      accurate := N.accurate
      moderate := N.moderate
      gap := N.gap }

theorem Stands.course (A : Stands ρ q d F M) (N : Margins q M H φ μ L) {cells : List Nat} {inj : Nat → K}
    (T : F.Tame cells inj H φ μ L) {V : Nat → Prop} {comps : List (List Nat)}
    (ht : Topo F.n d.g.startPointers d.g.neighbourhood V comps) (hV : ∀ v, V v → v < F.n)
    (hw : ∀ v < F.n, F.Downstream cells v → V v) (ho : ∀ u v, F.Edge u v → V u → V v) :
    Course d F (F.Downstream cells) inj H μ V comps := by
  have hEdge : HasEdge F.n d.g.startPointers d.g.neighbourhood = F.Edge := by funext u v; exact propext (A.edge u v)
  have hReach : ∀ u v, Reachable F.n d.g.startPointers d.g.neighbourhood u v → F.Reach u v := by
    intro u v h
    have : Relation.ReflTransGen (HasEdge F.n d.g.startPointers d.g.neighbourhood) u v := h
    rw [hEdge] at this
    exact this
  have hsame : ∀ C ∈ comps, ∀ u ∈ C, ∀ v ∈ C, F.SameCycle u v := fun C hC u hu v hv =>
    ⟨hReach _ _ (ht.strong C hC u hu v hv), hReach _ _ (ht.strong C hC v hv u hu)⟩
  have hnd : ∀ C ∈ comps, C.Nodup := fun C hC => (List.nodup_flatten.mp ht.once).1 C hC
  refine
    { topo := ht
      edge := hEdge
      lt := hV
      within := hw
      onward := ho
      noLoop := T.noLoop
      mu_pos := N.mu_pos
      mu_le := N.mu_le
      weights := ?_
      floor := ?_ }
  · intro C hC hlen v hv hs
    refine T.share v hs ?_
    by_contra hn
    have hall : ∀ u ∈ C, u = v := by
      intro u hu
      by_contra hne
      exact hn ⟨u, hne, hsame C hC u hu v hv⟩
    have hndC := hnd C hC
    match C, hndC, hlen, hall with
    | a :: b :: _, hndC, _, hall =>
      have h1 := hall a (by simp)
      have h2 := hall b (by simp)
      rw [h1, h2] at hndC
      simp at hndC
  · intro C hC _
    have h1 := T.size C (hnd C hC) (hsame C hC)
    have hm := N.mu_pos
    have hm1 := N.mu_le
    have hH : 0 < H := zero_lt_one.trans_le N.one_le
    refine N.floor.trans (mul_le_mul_of_nonneg_right ?_ (two_pow_pos' 500).le)
    exact mul_le_mul_of_nonneg_left (pow_le_pow_of_le_one (by linarith) (by linarith) h1) (by positivity)

/-- `solveGlobal()` returns. -/
theorem Stands.global (A : Stands ρ q d F M) (N : Margins q M H φ μ L) (hL : Limit q M H φ lim)
    (T : F.Tame F.sources F.src H φ μ L) :
    ∃ n k : ℕ, (k : ℕ∞) ≤ lim ∧ ∃ tof, ∀ fuel, n ≤ fuel → ∀ sweeps, k ≤ sweeps → ∀ st : SolverState R,
      (solveGlobalWith (uncounted sweeps) d Alloc.good fuel st).2 = .ok tof := by
  have hq := A.precise.one_le
  have hsrcm : ∀ p, p ∈ F.sources ↔ p < F.n ∧ 0 < F.src p := by intro p; unfold Flow.sources; simp
  obtain ⟨comps, ht, horder⟩ := computeOrdering_spec A.pair.graph A.pair.size Alloc.good_good
  have hb : ∃ b, setupStartArrayFromSource d (List.replicate F.n false) = .ok b ∧ b.length = F.n := by
    unfold setupStartArrayFromSource
    rw [A.pair.pv]
    obtain ⟨b, hb, hl⟩ := forEach_range_inv (n := F.n) (s := List.replicate F.n false)
      (f := fun b cell => do
        let x ← rd d.sourceTerm cell
        if Arith.lt Arith.zero x then wr b cell true else pure b) (fun _ b => b.length = F.n) (by simp) (by
      intro k b hk hb
      simp only [Res.bind_eq, rd_ok (show k < d.sourceTerm.length by rw [A.ready.source]; exact hk), Res.ok_bind]
      split
      · exact ⟨_, wr_ok (by omega), by simpa using hb⟩
      · exact ⟨_, rfl, hb⟩)
    exact ⟨b, hb, hl⟩
  obtain ⟨b, hb, hbl⟩ := hb
  have hsp := sourceArray_spec A.pair.pv hb
  have hlf : LocalFits d b d.sourceTerm := by
    intro v l s hb hl hs
    rw [hl] at hs; cases hs
    exact ⟨A.fits.source l (List.mem_of_getElem? hl), lt_irrefl ρ l⟩
  have hln : ∀ (v : Nat) (l : R), b[v]? = some true → d.sourceTerm[v]? = some l → Num ρ l :=
    fun v l _ hlv => source_num ρ A.fits A.flow hlv
  have hbv : ∀ v < F.n, ∃ b', b[v]? = some b' ∧ (b' = false → F.src v = 0) ∧
      (b' = true → 0 < F.src v ∧ ∃ a, d.sourceTerm[v]? = some a ∧ Near ρ q M a (F.src v)) := by
    intro v hv
    obtain ⟨x, hx1, hx2⟩ := hsp v hv
    obtain ⟨a, ha, hna⟩ := A.approx.source v hv
    rw [ha] at hx1
    cases hx1
    obtain ⟨y, hy, hyc⟩ := hna
    have hs0 := A.valid.src_nonneg v hv
    have hpos := hyc.pos_iff hq hs0
    refine ⟨_, hx2, ?_, ?_⟩
    · intro hb
      rw [ρ.lt, hy, val_zero' ρ] at hb
      simp only [X.lt, decide_eq_false_iff_not] at hb
      exact le_antisymm (not_lt.mp fun h => hb (hpos.mpr h)) hs0
    · intro hb
      rw [ρ.lt, hy, val_zero' ρ] at hb
      simp only [X.lt, decide_eq_true_eq] at hb
      exact ⟨hpos.mp hb, _, ha, y, hy, hyc⟩
  obtain ⟨x, h, S⟩ := A.setting N T (fun p hp => (hsrcm p).mp hp)
    (fun v hv => ⟨A.valid.src_nonneg v hv, le_rfl⟩) (fun v hv hn => by
      by_contra hne
      exact hn ((hsrcm v).mpr ⟨hv, lt_of_le_of_ne (A.valid.src_nonneg v hv) (Ne.symm hne)⟩)) hbl A.ready.source hlf hln hbv
  have B := A.course N T ht (fun v hv => hv) (fun v hv _ => hv) (fun u v he _ => he.2.1)
  obtain ⟨n, hlim, s, _, hn⟩ := S.solve_ends B (S.ends hL μ)
  refine ⟨F.n + numEdges F.n d.g.startPointers, n, hlim, s.1.map fun t => Arith.min t maxTof, fun fuel hf sweeps hk st => ?_⟩
  have hs := hn sweeps hk
  unfold blank at hs
  unfold solveGlobalWith prepareForSolve uncounted
  simp only [A.pair.pv, finish_snd, hb, Res.ok_bind, horder fuel hf, hs]

/-- `solveLocal()` returns. -/
theorem Stands.local (A : Stands ρ q d F M) (N : Margins q M H φ μ L) (hL : Limit q M H φ lim) {cells : List Nat} {f : Nat → R} {g : Nat → K}
    (T : F.Tame cells (injected cells g) H φ μ L) (hc : ∀ p ∈ cells, p < F.n ∧ 0 < F.src p)
    (hfl : ∀ p ∈ cells, Near ρ q M (f p) (g p) ∧ 0 ≤ g p ∧ g p ≤ F.src p)
    (hle : ∀ p ∈ cells, ∀ s, d.sourceTerm[p]? = some s → NotNegative (f p) ∧ Arith.lt s (f p) = false) :
    ∃ n k : ℕ, (k : ℕ∞) ≤ lim ∧ ∃ r, Plain r ∧ ∀ fuel, n ≤ fuel → ∀ sweeps, k ≤ sweeps → ∀ st : SolverState R,
      st.localSource.length = F.n →
      (solveLocalWith (uncounted sweeps) d Alloc.good fuel (cells.map fun p : Nat => ((p : Int), f p)) st).2 = r := by
  classical
  have hq := A.precise.one_le
  have hI := A.approx.int
  have hs : ∀ p ∈ cells, p < F.n := fun p hp => (hc p hp).1
  have hk : ((cells.map fun p : Nat => ((p : Int), f p)).map fun e => e.1) = cells.map fun v : Nat => (v : Int) := by
    simp [List.map_map, Function.comp_def]
  have hnn : ∀ p ∈ cells, Arith.lt (f p) Arith.zero = false := by
    intro p hpm
    obtain ⟨⟨y, hy, hyc⟩, h0, _⟩ := hfl p hpm
    rw [ρ.lt, hy, val_zero' ρ]
    simpa [X.lt] using hyc.nonneg hq h0
  obtain ⟨comps, ht, horder⟩ := computeLocalOrdering_spec A.pair.graph A.pair.size Alloc.good_good cells hs
  have hEdge : HasEdge F.n d.g.startPointers d.g.neighbourhood = F.Edge := by funext u v; exact propext (A.edge u v)
  have hV : (fun v => ∃ p ∈ cells, Reachable F.n d.g.startPointers d.g.neighbourhood p v) = F.Downstream cells := by
    funext v
    apply propext
    show (∃ p ∈ cells, Relation.ReflTransGen (HasEdge F.n d.g.startPointers d.g.neighbourhood) p v) ↔ _
    rw [hEdge]
    rfl
  rw [hV] at ht
  have hVn : ∀ v, F.Downstream cells v → v < F.n := fun v ⟨p, hp, hr⟩ => reach_lt (hs p hp) hr
  have hB := A.course N T ht hVn (fun v _ hv => hv) (fun u v he ⟨p, hp, hr⟩ => ⟨p, hp, hr.tail he⟩)
  have hplain : Plain (setupStartArray (List.replicate F.n false) (cells.map fun p : Nat => ((p : Int), f p))) :=
    Plain.forEach (fun _ _ _ => .wr _ _ _) _
  have hIc : ∀ v ∈ comps.flatten, v ≤ INT_MAX := fun v hv => by
    have := hVn v ((ht.cover v).mp hv)
    omega
  rcases hplain with ⟨b, hb⟩ | ⟨u, hb⟩
  swap
  · refine ⟨0, 0, zero_le, .ub u, Or.inr ⟨u, rfl⟩, fun fuel _ sweeps _ st hst => ?_⟩
    rw [solveLocalWith_indep Alloc.good fuel sweeps _ st { localSource := List.replicate F.n Arith.zero } (by simp [hst])]
    unfold solveLocalWith prepareForSolve
    simp only [A.pair.pv, finish_snd, hb]
    rfl
  have hbs := startArray_spec hI hs hb
  have hbl : b.length = F.n := by
    unfold setupStartArray at hb
    have := forEach_length (fun _ _ _ h => wr_length h) hb
    simpa using this
  have hlsp := localSource_spec hI cells hs hnn (List.replicate F.n Arith.zero) (by simp)
  have hlen : (setupLocalSource (List.replicate F.n Arith.zero) (cells.map fun p : Nat => ((p : Int), f p))).1.length = F.n := by
    rw [setupLocalSource_length]; simp
  have hlp := setupLocalSource_plain (startset := cells.map fun p : Nat => ((p : Int), f p)) (by
    intro e he
    obtain ⟨p, hp, rfl⟩ := List.mem_map.mp he
    exact hnn p hp) (List.replicate F.n Arith.zero)
  generalize hsl : setupLocalSource (List.replicate F.n Arith.zero) (cells.map fun p : Nat => ((p : Int), f p)) = sl at *
  have hstart : ∀ v x, b[v]? = some true → sl.1[v]? = some x → v ∈ cells ∧ x = f v := by
    intro v x hbv hx
    have hvn : v < F.n := by
      have := (List.getElem?_eq_some_iff.mp hx).1
      rw [hlen] at this; exact this
    have h1 := hbs v hvn
    rw [hbv] at h1
    have hvs : v ∈ cells := by simpa using h1
    have h2 := hlsp v
    rw [if_pos hvs, hx] at h2
    exact ⟨hvs, by simpa using h2⟩
  obtain ⟨x, h, S⟩ := A.setting N T hc (fun v hv => by
      unfold injected
      split
      · exact (hfl v (by assumption)).2
      · exact ⟨le_rfl, A.valid.src_nonneg v hv⟩) (fun v _ hn => by unfold injected; rw [if_neg hn]) hbl hlen
    (by
      intro v l s hbv hlv hsv
      obtain ⟨hvs, rfl⟩ := hstart v l hbv hlv
      exact hle v hvs s hsv) (by
      intro v l hbv hlv
      obtain ⟨hvs, rfl⟩ := hstart v l hbv hlv
      obtain ⟨⟨y, hy, _⟩, _⟩ := hfl v hvs
      unfold Num; rw [hy]; simp) (by
      intro v hv
      refine ⟨_, hbs v hv, ?_, ?_⟩
      · intro hn
        unfold injected
        rw [if_neg (by simpa using hn)]
      · intro hy
        have hy : v ∈ cells := by simpa using hy
        refine ⟨(hc v hy).2, f v, by rw [hlsp v, if_pos hy], ?_⟩
        unfold injected; rw [if_pos hy]; exact (hfl v hy).1)
  obtain ⟨n, hlim, s, hbet, hn⟩ := S.solve_ends hB (S.ends hL μ)
  have same : ∀ fuel, F.n + numEdges F.n d.g.startPointers ≤ fuel → ∀ sweeps, n ≤ sweeps → ∀ st : SolverState R,
      st.localSource.length = F.n →
      (solveLocalWith (uncounted sweeps) d Alloc.good fuel (cells.map fun p : Nat => ((p : Int), f p)) st).2
        = sl.2.bind fun _ => (cleanupLocalSource sl.1 (cells.map fun p : Nat => ((p : Int), f p))).bind fun _ =>
          (collect (s.1.map fun t => Arith.min t maxTof) s.2 (cellsOf comps) (offsets comps)).bind fun r => .ok r := by
    intro fuel hf sweeps hsw st hst
    have hsol := hn sweeps hsw
    unfold blank at hsol
    rw [solveLocalWith_indep Alloc.good fuel sweeps _ st { localSource := List.replicate F.n Arith.zero } (by simp [hst])]
    unfold solveLocalWith prepareForSolve uncounted
    simp only [A.pair.pv, finish_snd, hb, Res.ok_bind, hk, horder fuel hf, hsl, hsol]
  refine ⟨_, n, hlim, _, ?_, same⟩
  refine hlp.bind fun _ => ?_
  refine Plain.bind (Plain.forEach (fun _ _ _ => .wr _ _ _) _) fun _ => Plain.bind ?_ fun _ => .ok _
  have hread : readCells (cellsOf comps) 0 comps.flatten.length = .ok (cellsOf comps) := by
    have hl : (cellsOf comps).length = comps.flatten.length := by unfold cellsOf; rw [List.length_map]
    unfold readCells
    rw [if_pos (by omega), List.drop_zero, ← hl, List.take_length]
  unfold collect
  simp only [Res.bind_eq, back_offsets, Res.ok_bind, hread]
  refine collect_plain hIc (fun v hv c hcv => ?_) _
  have hdv := (ht.cover v).mp hv
  have hvn := hVn v hdv
  obtain ⟨h1, _, h2⟩ := S.half hvn hdv (hbet.acc v hv hdv)
  have h3 := (Setting.num_entry hbet.ready hcv).1
  have h4 : 0 < cn ρ s v := by linarith
  rw [ρ.le, h3, val_zero' ρ]
  simp [X.le, X.lt, X.eq, h4.le, h4.ne']

end

variable {ρ : Rounded R K} {q : K}
variable {D : List (Int × Int × R)} {pv : List R} {l : List (CellSetID × Int × R)} {F : Flow K}
  {DK : List (Nat × Nat × K)} {wells : List (WellFlux K)} {cs : WellFlux K → List Nat} {f : WellFlux K → Nat → K} {M : Nat}

/-- The computation of a solution returns. -/
theorem computeSolution_within (hp : Precise ρ q) (hodd : ∀ x : K, ρ.rnd (X.fin (-x)) = X.neg (ρ.rnd (X.fin x)))
    (hval : {x : K | ∃ a, ρ.val a = X.fin x}.Finite) (hM : q ^ (2 * M + 2) * 200 < 201)
    (h : Inputs ρ D pv l F DK wells cs f M) (hm : ∀ v < F.n, Sized F v) {H φ μ : K} {L : Nat} (N : Margins q M H φ μ L)
    {lim : ℕ∞} (hL : Limit q M H φ lim)
    (hall : F.Tame F.sources F.src H φ μ L) {starts : List CellSet} (hst : ∀ s ∈ starts, ∃ w ∈ wells, s.id = w.id)
    (hone : ∀ w ∈ wells, (∃ s ∈ starts, s.id = w.id) → F.Tame (cs w) (injected (cs w) (f w)) H φ μ L) :
    ∃ n k : ℕ, (k : ℕ∞) ≤ lim ∧ ∃ sol, ∀ fuel, n ≤ fuel → ∀ sweeps, k ≤ sweeps →
      computeSolutionWith (uncounted sweeps) (graphsOf F.n D).1 (graphsOf F.n D).2 pv (gather l).only (gather l).byId noFailure fuel starts
        = .ok sol := by
  have hI := h.valid.int
  obtain ⟨hpl, hpn, hpg⟩ := h.nonneg_pv
  have hl : ∀ e ∈ l, 0 ≤ e.2.1 ∧ e.2.1 < F.n := fun e he => (h.nonneg_l e he).1
  have hln : ∀ e ∈ l, NotNegative e.2.2 := fun e he => (h.nonneg_l e he).2
  obtain ⟨hG0, hG1⟩ := graphsOf_good hI h.range_D
  obtain ⟨d, st, hcr, hready, hst'⟩ := create_ready hI hG0 hG1 hpl (gather_range hl).1
  obtain ⟨hfit, hg, hsrc, _⟩ := create_fits ρ hI h.range_D (fun c hc => (h.pos_D c hc).notNegative) hpl hpn hl hln hcr
  obtain ⟨hA, hG, hE, _, hls⟩ := h.solver hp hM hm hcr
  obtain ⟨hlen1, hlen2⟩ := create_lengths hcr
  have hgood : GoodGraph d.g F.n := hg ▸ hG0
  have hflow := finite_flow hp hM hA h.valid hm
  have A : Stands ρ q d F M := ⟨hp, hodd, hval, hA, h.valid, hm, hready, hfit, hflow, hG, hE⟩
  obtain ⟨n0, k0, hk0, tof, hN0⟩ := A.global N hL hall
  have hone' : ∀ s ∈ starts, ∃ n k : ℕ, (k : ℕ∞) ≤ lim ∧ ∃ x, ∀ fuel, n ≤ fuel → ∀ sweeps, k ≤ sweeps → ∀ st : SolverState R,
      st.localSource.length = F.n →
      (solveLocalWith (uncounted sweeps) d Alloc.good fuel ((gather l).byId.at_ s.id []) st).2 = .ok x := by
    intro s hss
    obtain ⟨w, hw, ew⟩ := hst s hss
    have T := hone w hw ⟨s, hss, ew⟩
    obtain ⟨fR, hfR, hv⟩ := stored_values h hw
    rw [← ew] at hfR
    obtain ⟨N1, hN1⟩ := solveLocal_safe hready ((gather_range hl).2 s.id)
    have hfits : ∀ p ∈ cs w, ∀ x, d.sourceTerm[p]? = some x → NotNegative (fR p) ∧ Arith.lt x (fR p) = false := by
      intro p hpm v hv
      have he : ((p : Int), fR p) ∈ OMap.at_ (gather l).byId s.id [] := by
        rw [hfR]; exact List.mem_map.mpr ⟨p, hpm, rfl⟩
      refine ⟨hln _ (byId_mem he), ?_⟩
      obtain ⟨y, hy⟩ := Option.isSome_iff_exists.mp (gather_ids_cells l s.id _ he)
      have hmm := OMap.find_some_mem hy
      have := hsrc _ hmm
      simp only [Int.toNat_natCast] at this
      rw [this] at hv; cases hv
      exact (only_ge ρ hln hmm).2 s.id _ he
    obtain ⟨N2, k2, hk2, r, hpr, hN2⟩ := A.local N hL (f := fR) T
      (fun p hpm => ⟨h.side.range w hw p hpm, (h.side.src_pos p).mpr ⟨w, hw, hpm⟩⟩)
      (fun p hpm => by
        have h0 := (h.side.pos w hw p hpm).le
        exact ⟨(near_exact (hv p hpm)).mono hp h0 (Nat.zero_le _), h0, h.side.le_src hw hpm⟩) hfits
    set fuel0 := max (max (max N1 N2) k2) (F.n + numEdges F.n d.g.startPointers) with hfu
    have hfu2 : F.n + numEdges F.n d.g.startPointers ≤ fuel0 := le_max_right _ _
    have hcalm := (local_calm ρ hfit hflow hgood hfu2 (st := st) ((gather_range hl).2 s.id) (by
      intro e he
      rw [hfR] at he
      obtain ⟨p, hpm, rfl⟩ := List.mem_map.mp he
      unfold Num; rw [hv p hpm]; simp) (by
      intro e he v hv
      rw [hfR] at he
      obtain ⟨p, hpm, rfl⟩ := List.mem_map.mp he
      exact hfits p hpm v (by simpa using hv))).1
    rw [← hfR] at hN2
    have e0 : (solveLocal d Alloc.good fuel0 ((gather l).byId.at_ s.id []) st).2 = r := hN2 fuel0 (by omega) fuel0 (by omega) st hls
    have hpl : Plain (solveLocal d Alloc.good fuel0 ((gather l).byId.at_ s.id []) st).2 := by rw [e0]; exact hpr
    obtain ⟨x, hx⟩ := hpl.ok_of (hN1 fuel0 (by omega) st hst') hcalm
    refine ⟨N2, k2, hk2, x, fun fuel hf sweeps hsw st hst => ?_⟩
    rw [hN2 fuel hf sweeps hsw st hst, ← e0]
    exact hx
  have hallN : ∃ n k : ℕ, (k : ℕ∞) ≤ lim ∧ ∀ s ∈ starts, ∃ x, ∀ fuel, n ≤ fuel → ∀ sweeps, k ≤ sweeps → ∀ st : SolverState R,
      st.localSource.length = F.n →
      (solveLocalWith (uncounted sweeps) d Alloc.good fuel ((gather l).byId.at_ s.id []) st).2 = .ok x := by
    clear hone hst
    induction starts with
    | nil => exact ⟨0, 0, zero_le, by simp⟩
    | cons s rest ih =>
      obtain ⟨n, k, hk, hN⟩ := ih fun s hs => hone' s (List.mem_cons_of_mem _ hs)
      obtain ⟨n', k', hk', x', hN'⟩ := hone' s List.mem_cons_self
      refine ⟨max n n', max k k', ?_, fun s' hs' => ?_⟩
      · rcases le_total k k' with h | h
        · rw [max_eq_right h]; exact hk'
        · rw [max_eq_left h]; exact hk
      · rcases List.mem_cons.mp hs' with rfl | hs'
        · exact ⟨x', fun fuel hf sweeps hsw => hN' fuel (by omega) sweeps (by omega)⟩
        · obtain ⟨x, hx⟩ := hN s' hs'
          exact ⟨x, fun fuel hf sweeps hsw => hx fuel (by omega) sweeps (by omega)⟩
  obtain ⟨n1, k1, hk1, hN1⟩ := hallN
  have same : ∀ fuel, max n0 n1 ≤ fuel → ∀ sweeps, max k0 k1 ≤ sweeps → ∀ fuel', max n0 n1 ≤ fuel' → ∀ sweeps', max k0 k1 ≤ sweeps' →
      computeSolutionWith (uncounted sweeps) (graphsOf F.n D).1 (graphsOf F.n D).2 pv (gather l).only (gather l).byId noFailure fuel starts
      = computeSolutionWith (uncounted sweeps') (graphsOf F.n D).1 (graphsOf F.n D).2 pv (gather l).only (gather l).byId noFailure fuel'
        starts := by
    intro fuel hf sweeps hsw fuel' hf' sweeps' hsw'
    unfold computeSolutionWith
    simp only [Res.bind_eq, hcr, Res.ok_bind]
    have e1 := hN0 fuel (by omega) sweeps (by omega) st
    have e2 := hN0 fuel' (by omega) sweeps' (by omega) st
    change (solveGlobalWith (uncounted sweeps) d (noFailure 0) fuel st).2 = _ at e1
    change (solveGlobalWith (uncounted sweeps') d (noFailure 0) fuel' st).2 = _ at e2
    rw [e1, e2]
    simp only [Res.ok_bind]
    have hpv : d.pv.length = F.n := hG.pv
    refine solveSetsWith_same (n := F.n) ?_ _ _ _ _ ?_ ?_
    · intro x hx j s t hs ht
      obtain ⟨y, hy⟩ := hN1 x hx
      change (solveLocalWith (uncounted sweeps) d Alloc.good fuel _ s).2 = (solveLocalWith (uncounted sweeps') d Alloc.good fuel' _ t).2
      rw [hy fuel (by omega) sweeps (by omega) s hs, hy fuel' (by omega) sweeps' (by omega) t ht]
    · rw [← hpv]; exact solveGlobalWith_state _ hlen1 _ _ _ hlen2
    · rw [← hpv]; exact solveGlobalWith_state _ hlen1 _ _ _ hlen2
  set big := max (max n0 n1) (max k0 k1) with hbig
  obtain ⟨sol, hsol⟩ : ∃ sol, computeSolution (graphsOf F.n D).1 (graphsOf F.n D).2 pv (gather l).only (gather l).byId noFailure big starts
      = .ok sol :=
    ⟨_, (computeSolution_ok_iff (a := Alloc.good)).mpr ⟨d, st, tof, hcr, hN0 big (by omega) big (by omega) st,
      fun s hs => by
        obtain ⟨x, hx⟩ := hN1 s hs
        exact ⟨x, hx big (by omega) big (by omega) st hls⟩, rfl⟩⟩
  rw [computeSolution_with] at hsol
  refine ⟨max n0 n1, max k0 k1, ?_, sol, fun fuel hf sweeps hsw => ?_⟩
  · rcases le_total k0 k1 with h | h
    · rw [max_eq_right h]; exact hk1
    · rw [max_eq_left h]; exact hk0
  · rw [same fuel hf sweeps hsw big (by omega) big (by omega)]
    exact hsol

theorem computeSolution_settles (hp : Precise ρ q) (hodd : ∀ x : K, ρ.rnd (X.fin (-x)) = X.neg (ρ.rnd (X.fin x)))
    (hval : {x : K | ∃ a, ρ.val a = X.fin x}.Finite) (hM : q ^ (2 * M + 2) * 200 < 201)
    (h : Inputs ρ D pv l F DK wells cs f M) (hm : ∀ v < F.n, Sized F v) {H φ μ : K} {L : Nat} (N : Margins q M H φ μ L)
    (hall : F.Tame F.sources F.src H φ μ L) {starts : List CellSet} (hst : ∀ s ∈ starts, ∃ w ∈ wells, s.id = w.id)
    (hone : ∀ w ∈ wells, (∃ s ∈ starts, s.id = w.id) → F.Tame (cs w) (injected (cs w) (f w)) H φ μ L) :
    ∃ n, ∀ fuel, n ≤ fuel → ∃ sol,
      computeSolution (graphsOf F.n D).1 (graphsOf F.n D).2 pv (gather l).only (gather l).byId noFailure fuel starts = .ok sol := by
  obtain ⟨n, k, _, sol, hs⟩ := computeSolution_within hp hodd hval hM h hm N (Or.inl rfl) hall hst hone
  refine ⟨max n k, fun fuel hf => ⟨sol, ?_⟩⟩
  rw [computeSolution_with]
  exact hs fuel (by omega) fuel (by omega)

end Verif.Rounding
