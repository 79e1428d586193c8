/-
What the results of the solver's calls satisfy, in terms of the flow problem only.
-/
import Verif.Proofs.SolverTop
import Verif.Spec.SolverCalls

namespace Verif.Solver
open Finset Verif.Spec

variable {K : Type} [Field K] [LinearOrder K]

/-- What `τ` (time-of-flight before capping) and `c` (tracer) satisfy. -/
structure Facts (F : Flow K) (V : Nat → Prop) (start : Nat → Prop) (inj : Nat → K) (τ c : Nat → K) : Prop where
  nonneg : ∀ v < F.n, 0 ≤ τ v ∧ 0 ≤ c v
  off : ∀ v, ¬ V v → c v = 0
  source : ∀ v < F.n, 0 < c v → ∃ p < F.n, start p ∧ 0 < inj p ∧ 0 < F.src p ∧ F.Reach p v
  dead : ∀ v, V v → start v → F.src v = 0 → c v = 0
  pos : ∀ v, V v → ¬ (start v ∧ F.src v = 0) → (0 < inj v ∨ ∃ u < F.n, 0 < c u ∧ 0 < F.w u v) → 0 < c v
  sub : ∀ v < F.n, F.total v * c v ≤ (∑ u ∈ range F.n, c u * F.w u v) + inj v
  res : ∀ v, V v → ¬ (start v ∧ F.src v = 0) → ¬ F.Loop v →
    (∑ u ∈ range F.n, c u * F.w u v) + inj v - F.total v * c v ≤ tolC * F.cycleInflow v
  exact : ∀ v, V v → ¬ (start v ∧ F.src v = 0) → ¬ Relation.TransGen F.Edge v v →
    F.total v * c v = (∑ u ∈ range F.n, c u * F.w u v) + inj v
  alone : ∀ v, V v → ¬ (start v ∧ F.src v = 0) → (∀ u, F.SameCycle u v → u = v) →
    F.total v * c v = (∑ u ∈ range F.n, c u * F.w u v) - c v * F.w v v + inj v
  capped : ∀ v, V v → F.total v < F.pv v / cap ∨ c v = 0 → τ v = cap
  tsub : ∀ v, V v → ¬ F.total v < F.pv v / cap → 0 < c v →
    F.total v * c v * τ v ≤ F.pv v * c v + ∑ u ∈ range F.n, τ u * c u * F.w u v
  tres : ∀ v, V v → ¬ F.total v < F.pv v / cap → 0 < c v → ¬ F.Loop v → ∀ a b : K, 0 ≤ a → 0 ≤ b →
    (∀ u, F.SameCycle u v → τ u ≤ a ∧ c u ≤ b) →
    F.pv v * c v + (∑ u ∈ range F.n, τ u * c u * F.w u v) - F.total v * c v * τ v
      ≤ (a * tolC + b * tolT) * F.cycleInflow v
  texact : ∀ v, V v → ¬ F.total v < F.pv v / cap → 0 < c v → ¬ Relation.TransGen F.Edge v v →
    F.total v * c v * τ v = F.pv v * c v + ∑ u ∈ range F.n, τ u * c u * F.w u v
  talone : ∀ v, V v → ¬ F.total v < F.pv v / cap → 0 < c v → (∀ u, F.SameCycle u v → u = v) →
    F.total v * c v * τ v = F.pv v * c v + (∑ u ∈ range F.n, τ u * c u * F.w u v) - τ v * c v * F.w v v
  tlow : ∀ v, V v → ¬ F.total v < F.pv v / cap → 0 < c v → F.pv v ≤ F.total v * τ v

variable [IsStrictOrderedRing K]

theorem reach_trans_of_ne {F : Flow K} {u v : Nat} (hne : u ≠ v) (h : F.Reach u v) : Relation.TransGen F.Edge u v := by
  rcases Relation.reflTransGen_iff_eq_or_transGen.mp h with e | e
  · exact absurd e.symm hne
  · exact e

theorem facts_of_inv {S : Sys K} (hS : S.Ok) (hM : S.M = cap) {V : Nat → Prop} {comps : List (List Nat)}
    (ht : FTopo S V comps) (hstart : ∀ v < S.n, S.start v = true → V v) {B : K} {s : St K}
    (hi : S.Inv B tolT tolC comps s) :
    Facts S.toFlow V (fun v => S.start v = true) S.inj s.1 s.2 := by
  have hcell : ∀ v, V v → v < S.n ∧ ∃ C ∈ comps, v ∈ C ∧ S.CellOK tolT tolC C s v := by
    intro v hv
    obtain ⟨C, hC, hvC⟩ := List.mem_flatten.mp ((ht.cover v).mpr hv)
    exact ⟨ht.lt v hv, C, hC, hvC, hi.cells C hC v hvC⟩
  have hslow : ∀ v, S.Slow v ↔ S.total v < S.pv v / cap := fun v => by unfold Sys.Slow; rw [hM]
  have hsame : ∀ C ∈ comps, ∀ u ∈ C, ∀ v ∈ C, S.SameCycle u v := fun C hC u hu v hv =>
    ⟨ht.reach C hC u hu v hv, ht.reach C hC v hv u hu⟩
  -- a cell not on a cycle forms a component of its own
  have hsingle : ∀ v, ¬ Relation.TransGen S.Edge v v → ∀ C ∈ comps, v ∈ C → C = [v] := by
    intro v hacy C hC hvC
    have hall : ∀ u ∈ C, u = v := by
      intro u hu
      by_contra hne
      have h1 := reach_trans_of_ne hne (hsame C hC u hu v hvC).1
      have h2 := reach_trans_of_ne (Ne.symm hne) (hsame C hC u hu v hvC).2
      exact hacy (h2.trans h1)
    have hnd : C.Nodup := (List.nodup_flatten.mp ht.once).1 C hC
    match C, hvC, hall, hnd with
    | [a], _, hall, _ => rw [hall a (by simp)]
    | a :: b :: l, _, hall, hnd =>
      have h1 := hall a (by simp)
      have h2 := hall b (by simp)
      exact absurd (by rw [h1, h2]; simp : a ∈ b :: l) (List.nodup_cons.mp hnd).1
  have hself : ∀ v < S.n, ¬ Relation.TransGen S.Edge v v → S.w v v = 0 := by
    intro v hv hacy
    refine le_antisymm (not_lt.mp fun hp => hacy (Relation.TransGen.single ⟨hv, hv, hp⟩)) (hS.w_nonneg v v hv hv)
  have hcyc0 : ∀ v < S.n, 0 ≤ S.cycleInflow v := by
    intro v hv
    unfold Flow.cycleInflow
    exact sum_nonneg fun u hu => by split; exacts [hS.w_nonneg u v (mem_range.mp hu) hv, le_refl _]
  have hlen : ∀ C ∈ comps, ∀ v ∈ C, C = [v] ∨ 2 ≤ C.length := by
    intro C hC v hv
    match C, hv with
    | [a], hv => left; simp at hv; rw [hv]
    | a :: b :: l, _ => right; simp
  have hloop : ∀ v, ¬ S.Loop v → [v] ∈ comps → S.w v v = 0 := by
    intro v hl hC
    by_contra hw
    refine hl ⟨hw, fun u hu => ?_⟩
    simpa using ht.maximal [v] hC v (by simp) u hu.2 hu.1
  have hal : ∀ v, (∀ u, S.SameCycle u v → u = v) → ∀ C ∈ comps, v ∈ C → C = [v] := by
    intro v hal C hC hvC
    have hnd : C.Nodup := (List.nodup_flatten.mp ht.once).1 C hC
    rcases hlen C hC v hvC with e | h2
    · exact e
    · match C, h2, hnd, hvC, hC with
      | a :: b :: l, _, hnd, hvC, hC =>
        have h1 := hal a (hsame _ hC a (by simp) v hvC)
        have h2 := hal b (hsame _ hC b (by simp) v hvC)
        exact absurd (by rw [h1, h2]; simp : a ∈ b :: l) (List.nodup_cons.mp hnd).1
  constructor
  · exact hi.nonneg
  · intro v hv
    exact (hi.fresh v fun h => hv ((ht.cover v).mp h)).2
  · intro v hv hp
    obtain ⟨p, h1, h2, h3, h4, h5⟩ := hi.reach v hv hp
    exact ⟨p, h1, h2, by unfold Sys.inj; rw [if_pos h2]; exact h3, h4, h5⟩
  · intro v hv hs h0
    obtain ⟨_, C, _, _, hok⟩ := hcell v hv
    exact hok.dead ⟨hs, h0⟩
  · intro v hv hnd hp
    obtain ⟨_, C, _, _, hok⟩ := hcell v hv
    exact hok.pos hnd hp
  · intro v hv
    by_cases hV : V v
    · obtain ⟨_, C, _, _, hok⟩ := hcell v hV
      exact hok.sub
    · rw [(hi.fresh v fun h => hV ((ht.cover v).mp h)).2, mul_zero]
      exact add_nonneg (hS.csum_nonneg hi.nonneg hv) (hS.inj_nonneg hv)
  · intro v hv hnd hw
    obtain ⟨hvn, C, hC, hvC, hok⟩ := hcell v hv
    have h0 := mul_nonneg (tolC_pos (K := K)).le (hcyc0 v hvn)
    rcases hlen C hC v hvC with e | h2
    · have := hok.exact e hnd
      rw [hloop v hw (e ▸ hC), mul_zero, sub_zero] at this
      show S.csum s.2 v + S.inj v - S.total v * s.2 v ≤ _
      rw [this, sub_self]; exact h0
    · refine le_trans (hok.res hnd h2) (mul_le_mul_of_nonneg_left ?_ (tolC_pos (K := K)).le)
      unfold Sys.within Flow.cycleInflow
      refine sum_le_sum fun u hu => ?_
      have hw0 := hS.w_nonneg u v (mem_range.mp hu) hvn
      by_cases huC : u ∈ C
      · rw [if_pos huC, if_pos (hsame C hC u huC v hvC)]
      · rw [if_neg huC]; split
        · exact hw0
        · exact le_refl _
  · intro v hv hnd hacy
    obtain ⟨hvn, C, hC, hvC, hok⟩ := hcell v hv
    have := hok.exact (hsingle v hacy C hC hvC) hnd
    rw [hself v hvn hacy, mul_zero, sub_zero] at this
    exact this
  · intro v hv hnd ha
    obtain ⟨hvn, C, hC, hvC, hok⟩ := hcell v hv
    exact hok.exact (hal v ha C hC hvC) hnd
  · intro v hv h
    obtain ⟨_, C, _, _, hok⟩ := hcell v hv
    rw [← hslow] at h
    rw [hok.cap h, hM]
  · intro v hv hs hp
    obtain ⟨_, C, _, _, hok⟩ := hcell v hv
    rw [← hslow] at hs
    exact hok.tsub hs hp
  · intro v hv hs hp hw a b ha hb hab
    obtain ⟨hvn, C, hC, hvC, hok⟩ := hcell v hv
    rw [← hslow] at hs
    have hcoef : 0 ≤ a * tolC + b * tolT :=
      add_nonneg (mul_nonneg ha tolC_pos.le) (mul_nonneg hb tolT_pos.le)
    have h0 := mul_nonneg hcoef (hcyc0 v hvn)
    rcases hlen C hC v hvC with e | h2
    · have := hok.texact e hs hp
      rw [hloop v hw (e ▸ hC), mul_zero, sub_zero] at this
      show S.pv v * s.2 v + S.ysum s v - S.total v * s.2 v * s.1 v ≤ _
      rw [this, sub_self]; exact h0
    · refine le_trans (hok.tres hs hp h2) ?_
      unfold Flow.cycleInflow
      rw [mul_sum]
      refine sum_le_sum fun u hu => ?_
      have hw0 := hS.w_nonneg u v (mem_range.mp hu) hvn
      by_cases huC : u ∈ C
      · have hsc := hsame C hC u huC v hvC
        obtain ⟨h1, h2⟩ := hab u hsc
        rw [if_pos huC, if_pos hsc]
        refine mul_le_mul_of_nonneg_right (add_le_add ?_ ?_) hw0
        · exact mul_le_mul_of_nonneg_right h1 tolC_pos.le
        · exact mul_le_mul_of_nonneg_right h2 tolT_pos.le
      · rw [if_neg huC]; split
        · exact mul_nonneg hcoef hw0
        · rw [mul_zero]
  · intro v hv hs hp hacy
    obtain ⟨hvn, C, hC, hvC, hok⟩ := hcell v hv
    rw [← hslow] at hs
    have := hok.texact (hsingle v hacy C hC hvC) hs hp
    rw [hself v hvn hacy, mul_zero, sub_zero] at this
    exact this
  · intro v hv hs hp ha
    obtain ⟨_, C, hC, hvC, hok⟩ := hcell v hv
    rw [← hslow] at hs
    exact hok.texact (hal v ha C hC hvC) hs hp
  · intro v hv hs hp
    obtain ⟨_, C, _, _, hok⟩ := hcell v hv
    rw [← hslow] at hs
    exact hok.tlow hs hp

/-! ### Objects and histories -/

theorem isSolver_of {F : Flow K} {d : SolverData (X K)} {st : SolverState (X K)} (h : SolverFor F d st) :
    IsSolver F d ∧ st.localSource.length = F.n := by
  obtain ⟨g, gr, ps, hg, hgr, hp, h0, e⟩ := h.made
  obtain ⟨d', st', e', h1, h2⟩ := create_exact h.valid hg hgr hp h0
  rw [e] at e'
  cases e'
  exact ⟨h1, h2⟩

theorem afterSolves_length {R : Type} [Arith R] {d : SolverData R} {st s : SolverState R}
    (hd : d.sourceTerm.length = d.pv.length) (hs : st.localSource.length = d.pv.length) (h : AfterSolves d st s) :
    s.localSource.length = d.pv.length := by
  induction h with
  | new => exact hs
  | global al fuel _ ih => exact solveGlobal_state hd al fuel _ ih
  | loc al fuel ss _ ih => exact solveLocal_state al fuel ss _ ih

theorem after_of {F : Flow K} {d : SolverData (X K)} {st s : SolverState (X K)} (h : SolverFor F d st)
    (ha : AfterSolves d st s) : s.localSource.length = F.n := by
  obtain ⟨hd, hl⟩ := isSolver_of h
  have hpv : d.pv.length = F.n := by rw [hd.pv, arr_length]
  have := afterSolves_length (by rw [hd.source, arr_length, hpv]) (by rw [hl, hpv]) ha
  rw [this, hpv]

theorem _root_.Verif.Spec.GlobalReturns.unique {R : Type} [Arith R] {d : SolverData R} {st : SolverState R} {r r' : Res (List R)}
    (h : GlobalReturns d st r) (h' : GlobalReturns d st r') : r = r' := by
  obtain ⟨N, h⟩ := h
  obtain ⟨N', h'⟩ := h'
  rw [← h (max N N') (le_max_left _ _) st .new, h' (max N N') (le_max_right _ _) st .new]

theorem _root_.Verif.Spec.LocalReturns.unique {R : Type} [Arith R] {d : SolverData R} {st : SolverState R} {ss : CellSetValues R}
    {r r' : Res (LocalSolution R)} (h : LocalReturns d st ss r) (h' : LocalReturns d st ss r') : r = r' := by
  obtain ⟨N, h⟩ := h
  obtain ⟨N', h'⟩ := h'
  rw [← h (max N N') (le_max_left _ _) st .new, h' (max N N') (le_max_right _ _) st .new]

/-- What `solveGlobal()` returns. -/
theorem global_facts [Archimedean K] {F : Flow K} {d : SolverData (X K)} {st : SolverState (X K)} (h : SolverFor F d st) :
    ∃ τ c, GlobalReturns d st (.ok (arr F.n fun v => min (τ v) cap)) ∧ (∀ v < F.n, c v ≤ 1) ∧
      Facts F (· < F.n) (fun v => 0 < F.src v) F.src τ c := by
  obtain ⟨hd, _⟩ := isSolver_of h
  obtain ⟨s, comps, N, ht, hi, hrun⟩ := global_run h.valid hd
  refine ⟨s.1, s.2, ⟨N, fun fuel hf st _ => hrun fuel hf st⟩, hi.le, ?_⟩
  have hf := facts_of_inv (globalSys_ok h.valid) rfl ht (fun v hv _ => hv) hi
  have e1 : (fun v => (globalSys F).start v = true) = fun v => 0 < F.src v := by funext v; simp [globalSys]
  rw [e1] at hf
  have e2 : ∀ v < F.n, (globalSys F).inj v = F.src v := by
    intro v hv
    unfold Sys.inj globalSys
    by_cases hs : 0 < F.src v
    · simp [hs]
    · have := le_antisymm (not_lt.mp hs) (h.valid.src_nonneg v hv)
      simp [this]
  obtain ⟨a1, a2, a3, a4, a5, a6, a7, a8, a8', a9, a10, a11, a12, a12', a13⟩ := hf
  refine ⟨a1, a2, ?_, a4, ?_, ?_, ?_, ?_, ?_, a9, a10, a11, a12, a12', a13⟩
  · intro v hv hp
    obtain ⟨p, h1, h2, h3, h4⟩ := a3 v hv hp
    exact ⟨p, h1, h2, by rw [← e2 p h1]; exact h3, h4⟩
  · intro v hv hn hp
    rw [← e2 v hv] at hp
    exact a5 v hv hn hp
  · intro v hv; rw [← e2 v hv]; exact a6 v hv
  · intro v hv hn hw
    have := a7 v hv hn hw
    rw [e2 v hv] at this; exact this
  · intro v hv hn hacy
    have := a8 v hv hn hacy
    rw [e2 v hv] at this; exact this
  · intro v hv hn hacy
    have := a8' v hv hn hacy
    rw [e2 v hv] at this; exact this

/-- What `solveLocal(start)` returns. -/
theorem local_facts [Archimedean K] {F : Flow K} {d : SolverData (X K)} {st : SolverState (X K)} (h : SolverFor F d st)
    {starts : List Nat} (hp : ∀ p ∈ starts, p < F.n) {ls : Nat → K} (hls : ∀ p ∈ starts, 0 ≤ ls p)
    {B : K} (h1 : 1 ≤ B) (hB : ∀ p ∈ starts, F.src p ≠ 0 → ls p ≤ B * F.src p) :
    ∃ τ c r, LocalReturns d st (valuesOf starts ls) r ∧ (∀ v < F.n, c v ≤ B) ∧
      Facts F (F.Downstream starts) (· ∈ starts) (injected starts ls) τ c ∧
      ((∀ v, F.Downstream starts v → 0 < c v) → ∃ cells : List Nat, cells.Pairwise (· < ·) ∧
        (∀ v, v ∈ cells ↔ F.Downstream starts v) ∧
        r = .ok ⟨valuesOf cells fun v => min (τ v) cap, valuesOf cells c⟩) ∧
      ((∃ v, F.Downstream starts v ∧ ¬ 0 < c v) → r = .throw .logicError) := by
  obtain ⟨hd, _⟩ := isSolver_of h
  have hbd : (localSys F starts ls).Bounded B :=
    ⟨h1, fun v _ hs hne => hB v (by simpa [localSys] using hs) hne⟩
  obtain ⟨s, comps, N, ht, hi, hrun⟩ := local_run h.valid hd hp hls hbd
  have hf := facts_of_inv (localSys_ok h.valid hls) rfl ht
    (fun v hv hs => ⟨v, by simpa [localSys] using hs, Relation.ReflTransGen.refl⟩) hi
  have e1 : (fun v => (localSys F starts ls).start v = true) = (· ∈ starts) := by funext v; simp [localSys]
  have e2 : (localSys F starts ls).inj = injected starts ls := by
    funext v; unfold Sys.inj localSys injected; simp
  rw [e1, e2] at hf
  have hcov : ∀ v, v ∈ comps.flatten ↔ F.Downstream starts v := ht.cover
  by_cases hpos : ∀ v ∈ comps.flatten, 0 < s.2 v
  · classical
    have hmem : ∀ v, v ∈ (List.range F.n).filter (fun v => decide (F.Downstream starts v)) ↔ F.Downstream starts v := by
      intro v
      rw [List.mem_filter]
      constructor
      · intro h; simpa using h.2
      · intro h; exact ⟨List.mem_range.mpr (ht.lt v h), by simpa using h⟩
    have hsrt : ((List.range F.n).filter (fun v => decide (F.Downstream starts v))).Pairwise (· < ·) :=
      List.Pairwise.filter _ List.pairwise_lt_range
    refine ⟨s.1, s.2, _, ⟨N, fun fuel hfu st' ha => (hrun fuel hfu st' (after_of h ha)).1 hpos _ hsrt
      fun v => (hmem v).trans (hcov v).symm⟩, hi.le, hf, ?_, ?_⟩
    · intro _; exact ⟨_, hsrt, hmem, rfl⟩
    · rintro ⟨v, hv, hn⟩
      exact absurd (hpos v ((hcov v).mpr hv)) hn
  · push Not at hpos
    obtain ⟨v, hv, hn⟩ := hpos
    refine ⟨s.1, s.2, _, ⟨N, fun fuel hfu st' ha => (hrun fuel hfu st' (after_of h ha)).2 ⟨v, hv, not_lt.mpr hn⟩⟩,
      hi.le, hf, ?_, ?_⟩
    · intro hall
      exact absurd (hall v ((hcov v).mp hv)) (not_lt.mpr hn)
    · intro _; rfl

/-- Without a bound on the start values. -/
theorem exists_ratio {F : Flow K} (hF : F.Valid) {starts : List Nat} (hp : ∀ p ∈ starts, p < F.n) (ls : Nat → K) :
    ∃ B : K, 1 ≤ B ∧ ∀ p ∈ starts, F.src p ≠ 0 → ls p ≤ B * F.src p := by
  obtain ⟨B, hB⟩ := exists_bounded hF starts ls
  exact ⟨B, hB.one, fun p hps hne => hB.ls p (hp p hps) (by simp [localSys, hps]) hne⟩

/-- What a successful `solveLocal(start)` returns. -/
theorem local_ok [Archimedean K] {F : Flow K} {d : SolverData (X K)} {st : SolverState (X K)} (h : SolverFor F d st)
    {starts : List Nat} (hp : ∀ p ∈ starts, p < F.n) {ls : Nat → K} (hls : ∀ p ∈ starts, 0 ≤ ls p)
    {sol : LocalSolution (X K)} (hr : LocalReturns d st (valuesOf starts ls) (.ok sol)) :
    ∃ τ c, Facts F (F.Downstream starts) (· ∈ starts) (injected starts ls) τ c ∧
      (∀ v, F.Downstream starts v → 0 < c v) ∧ ∃ cells : List Nat, cells.Pairwise (· < ·) ∧
        (∀ v, v ∈ cells ↔ F.Downstream starts v) ∧
        sol = ⟨valuesOf cells fun v => min (τ v) cap, valuesOf cells c⟩ := by
  obtain ⟨B, h1, hB⟩ := exists_ratio h.valid hp ls
  obtain ⟨τ, c, r, hr', _, hf, hok, hthrow⟩ := local_facts h hp hls h1 hB
  have e := LocalReturns.unique hr hr'
  by_cases hpos : ∀ v, F.Downstream starts v → 0 < c v
  · obtain ⟨cells, g1, g2, g3⟩ := hok hpos
    rw [g3] at e
    cases e
    exact ⟨τ, c, hf, hpos, cells, g1, g2, rfl⟩
  · push Not at hpos
    obtain ⟨v, hv, hn⟩ := hpos
    rw [hthrow ⟨v, hv, not_lt.mpr hn⟩] at e
    cases e

/-- With positive start values and sources every downstream cell is reached. -/
theorem facts_pos {F : Flow K} {starts : List Nat} (hp : ∀ p ∈ starts, p < F.n) {ls : Nat → K}
    (hls : ∀ p ∈ starts, 0 < ls p) (hsrc : ∀ p ∈ starts, 0 < F.src p) {τ c : Nat → K}
    (hf : Facts F (F.Downstream starts) (· ∈ starts) (injected starts ls) τ c) :
    ∀ v, F.Downstream starts v → 0 < c v := by
  rintro v ⟨p, hps, hr⟩
  have hlive : ∀ v, ¬ (v ∈ starts ∧ F.src v = 0) := fun v h => by
    have := hsrc v h.1; rw [h.2] at this; exact lt_irrefl _ this
  induction hr with
  | refl =>
    exact hf.pos p ⟨p, hps, Relation.ReflTransGen.refl⟩ (hlive p)
      (Or.inl (by unfold injected; rw [if_pos hps]; exact hls p hps))
  | tail hab hbc ih =>
    rename_i a b
    exact hf.pos b ⟨p, hps, hab.tail hbc⟩ (hlive b) (Or.inr ⟨a, hbc.1, ih, hbc.2.2⟩)

/-- A negative start value. -/
theorem setupLocalSource_neg {R : Type} [Arith R] : ∀ (ss : CellSetValues R) (ls : List R),
    (∀ e ∈ ss, sizeOfInt e.1 < ls.length) → (∃ e ∈ ss, Arith.lt e.2 Arith.zero = true) →
    (setupLocalSource ls ss).2 = .throw .logicError
  | [], _, _, h => by simp at h
  | p :: ss, ls, hr, h => by
    unfold setupLocalSource
    by_cases hn : Arith.lt p.2 Arith.zero = true
    · simp [hn]
    · simp only [hn, Bool.false_eq_true, if_false, wr_ok (hr p List.mem_cons_self)]
      refine setupLocalSource_neg ss _ (fun e he => ?_) ?_
      · rw [List.length_set]; exact hr e (List.mem_cons_of_mem _ he)
      · obtain ⟨e, he, h1⟩ := h
        rcases List.mem_cons.mp he with rfl | he
        · exact absurd h1 hn
        · exact ⟨e, he, h1⟩

theorem setupStartArray_ok {R : Type} : ∀ (ss : CellSetValues R) (b : List Bool),
    (∀ e ∈ ss, sizeOfInt e.1 < b.length) → ∃ b', setupStartArray b ss = .ok b'
  | [], b, _ => ⟨b, rfl⟩
  | p :: ss, b, hr => by
    unfold setupStartArray
    rw [forEach_cons, wr_ok (hr p List.mem_cons_self), Res.ok_bind]
    exact setupStartArray_ok ss _ fun e he => by
      rw [List.length_set]; exact hr e (List.mem_cons_of_mem _ he)

theorem local_neg {F : Flow K} {d : SolverData (X K)} {st : SolverState (X K)} (h : SolverFor F d st)
    {ss : CellSetValues (X K)} (hp : ∀ e ∈ ss, 0 ≤ e.1 ∧ e.1 < F.n) (hn : ∃ e ∈ ss, Arith.lt e.2 Arith.zero = true) :
    LocalReturns d st ss (.throw .logicError) := by
  obtain ⟨hd, _⟩ := isSolver_of h
  have hI := h.valid.int
  have hG := hd.graph.isGraph hI
  have hI' : INT_MAX = 2147483647 := rfl
  obtain ⟨comps, _, horder⟩ := computeLocalOrdering_spec hG hd.graph.adj.size Alloc.good_good
    (ss.map fun e => e.1.toNat) (by
      intro p hps
      obtain ⟨e, he, rfl⟩ := List.mem_map.mp hps
      have := hp e he
      omega)
  have hpv : d.pv.length = F.n := by rw [hd.pv, arr_length]
  refine ⟨F.n + numEdges F.n d.g.startPointers, fun fuel hf s ha => ?_⟩
  have hl := after_of h ha
  have hsz : ∀ e ∈ ss, sizeOfInt e.1 < F.n := by
    intro e he
    have := hp e he
    rw [sizeOfInt_nonneg this.1 (by omega)]; omega
  obtain ⟨b, eb⟩ := setupStartArray_ok ss (List.replicate F.n false) (by simpa using hsz)
  have hkeys : (ss.map fun e => e.1) = (ss.map fun e => e.1.toNat).map fun v : Nat => (v : Int) := by
    rw [List.map_map]
    apply List.map_congr_left
    intro e he
    have := hp e he
    simp only [Function.comp]; omega
  have e1 := setupLocalSource_neg ss s.localSource (by rw [hl]; exact hsz) hn
  unfold solveLocal prepareForSolve
  simp only [hpv, eb, finish, hkeys, horder fuel hf, e1]

end Verif.Solver
