/-
C70-C74: cases that meet the hypotheses, and the case in which more pore volume gives a smaller time.
-/
import Verif.Props.FlowChanges
import Verif.Props.FlowBound

namespace Verif.Props
open Verif.Spec Verif.Toolbox Verif.Solver Verif.Derived Finset

theorem exProblem_total {v : Nat} (hv : v < 4) : exProblem.forward.total v = 3 ∧ exProblem.backward.total v = 3 := by
  constructor
  · show (∑ u ∈ range 4, exProblem.flux u v) + exProblem.source v = 3
    simp only [exProblem_flux, sum_range_succ, sum_range_zero]
    interval_cases v <;> norm_num [Problem.source, exProblem, Problem.wellAt]
  · show (∑ u ∈ range 4, exProblem.flux v u) + exProblem.sink v = 3
    simp only [exProblem_flux, sum_range_succ, sum_range_zero]
    interval_cases v <;> norm_num [Problem.sink, exProblem, Problem.wellAt]

/-- The bound of C74 in the example. -/
theorem exProblem_fill (v : Nat) : exProblem.forward.upstreamFill v ≤ 4 / 3 ∧ exProblem.backward.upstreamFill v ≤ 4 / 3 := by
  classical
  have key : ∀ (F : Flow ℚ), F.n = 4 → (∀ u < 4, F.total u = 3) → (∀ u, F.pv u = 1) → F.upstreamFill v ≤ 4 / 3 := by
    intro F hn ht hp
    calc F.upstreamFill v ≤ ∑ u ∈ range 4, (1 / 3 : ℚ) := by
          unfold Flow.upstreamFill
          rw [hn]
          apply sum_le_sum
          intro u hu
          rw [hp, ht u (mem_range.mp hu)]
          split <;> norm_num
      _ = 4 / 3 := by norm_num
  exact ⟨key _ rfl (fun u hu => (exProblem_total hu).1) fun _ => rfl, key _ rfl (fun u hu => (exProblem_total hu).2) fun _ => rfl⟩

theorem exProblem_edge {v : Nat} (hv : v < 3) : exProblem.forward.Edge v (v + 1) := by
  refine ⟨Nat.lt_succ_of_lt hv, Nat.succ_lt_succ hv, ?_⟩
  show 0 < exProblem.flux v (v + 1)
  rw [exProblem_flux, if_pos ⟨rfl, hv⟩]; norm_num

/-- Every cell of the example is downstream of a source and upstream of a sink. -/
theorem exProblem_swept {v : Nat} (hv : v < 4) :
    (∃ p, p < exProblem.n ∧ 0 < exProblem.source p ∧ exProblem.forward.Reach p v) ∧
    ∃ p, p < exProblem.n ∧ 0 < exProblem.sink p ∧ exProblem.forward.Reach v p := by
  have e0 := Relation.ReflTransGen.single (exProblem_edge (v := 0) (by decide))
  have e1 := Relation.ReflTransGen.single (exProblem_edge (v := 1) (by decide))
  have e2 := Relation.ReflTransGen.single (exProblem_edge (v := 2) (by decide))
  refine ⟨⟨0, by decide, by norm_num [Problem.source, exProblem, Problem.wellAt], ?_⟩,
    ⟨3, by decide, by norm_num [Problem.sink, exProblem, Problem.wellAt], ?_⟩⟩
  · interval_cases v
    · exact .refl
    · exact e0
    · exact e0.trans e1
    · exact e0.trans (e1.trans e2)
  · interval_cases v
    · exact e0.trans (e1.trans e2)
    · exact e1.trans e2
    · exact e2
    · exact .refl

/-- **C70**, **C71** In the example every cell's inflow equals its outflow, all wells are asked for and no time is 200 years. -/
example : ∃ g, ∃ calls : List (Call (X ℚ)), ∃ S T, exProblem.Valid ∧ exProblem.GivenTo g calls ∧
    InjectionReturns g calls exInjectors (.ok S) ∧ ProductionReturns g calls exProducers (.ok T) ∧
    exProblem.forward.Acyclic ∧
    (∀ v < exProblem.n, (∑ u ∈ range exProblem.n, exProblem.flux u v) + exProblem.source v
      = (∑ u ∈ range exProblem.n, exProblem.flux v u) + exProblem.sink v) ∧
    (∀ u < exProblem.n, 0 < (∑ x ∈ range exProblem.n, exProblem.flux x u) + exProblem.source u) ∧
    (∀ w ∈ exProblem.wells, (∃ v ∈ w.cells, 0 < w.val v) → ∃ s ∈ exInjectors, s.id = w.id) ∧
    (∀ w ∈ exProblem.wells, (∃ v ∈ w.cells, w.val v < 0) → ∃ s ∈ exProducers, s.id = w.id) ∧
    (⟨[65]⟩ : CellSetID) ∈ S.startPoints ∧ (⟨[66]⟩ : CellSetID) ∈ S.startPoints ∧ (⟨[80]⟩ : CellSetID) ∈ T.startPoints ∧
    (∀ v < exProblem.n, fieldAt S.timeOfFlight v < 200 * 365 * 24 * 60 * 60 ∧
      fieldAt T.timeOfFlight v < 200 * 365 * 24 * 60 * 60 ∧
      ∀ i, valueAt (S.timeOfFlightOf i) v < 200 * 365 * 24 * 60 * 60 ∧
        valueAt (T.timeOfFlightOf i) v < 200 * 365 * 24 * 60 * 60) := by
  obtain ⟨g, calls, h, ⟨S, hS⟩, T, hT⟩ := exProblem_returns
  have DS := diag_injection exProblem_valid h hS
  have DT := diag_production exProblem_valid h hT
  refine ⟨g, calls, S, T, exProblem_valid, h, hS, hT, exProblem_acyclic, exProblem_incompressible, ?_, ?_, ?_, ?_, ?_, ?_, ?_⟩
  · intro u hu
    have := (exProblem_total hu).1
    have : (∑ x ∈ range exProblem.n, exProblem.flux x u) + exProblem.source u = 3 := this
    rw [this]; norm_num
  · intro w hw hp
    simp only [exProblem, List.mem_cons, List.not_mem_nil, or_false] at hw
    rcases hw with rfl | rfl | rfl
    · exact ⟨_, .tail _ (.head _), rfl⟩
    · exact ⟨_, .head _, rfl⟩
    · norm_num at hp
  · intro w hw hp
    simp only [exProblem, List.mem_cons, List.not_mem_nil, or_false] at hw
    rcases hw with rfl | rfl | rfl
    · norm_num at hp
    · norm_num at hp
    · exact ⟨_, .head _, rfl⟩
  · rw [DS.points]; exact ⟨_, .tail _ (.head _), rfl⟩
  · rw [DS.points]; exact ⟨_, .head _, rfl⟩
  · rw [DT.points]; exact ⟨_, .head _, rfl⟩
  · intro v hv
    obtain ⟨a, b⟩ := C74_injection exProblem_valid h exProblem_acyclic hS
    obtain ⟨a', b'⟩ := C74_production exProblem_valid h exProblem_acyclic hT
    have f := exProblem_fill v
    have hlt : (4 / 3 : ℚ) < 200 * 365 * 24 * 60 * 60 := by norm_num
    refine ⟨?_, ?_, fun i => ⟨?_, ?_⟩⟩
    · exact ((a v hv (exProblem_swept hv).1).trans f.1).trans_lt hlt
    · exact ((a' v hv (exProblem_swept hv).2).trans f.2).trans_lt hlt
    · exact ((b i v hv).trans f.1).trans_lt hlt
    · exact ((b' i v hv).trans f.2).trans_lt hlt

/-- **C72** The example, and the example with twice the pore volume; no cell takes more than 200 years to fill. -/
example : ∃ g g', ∃ calls calls' : List (Call (X ℚ)), ∃ S S', exProblem.GivenTo g calls ∧
    (exProblem.withPoreVolume fun _ => 2).GivenTo g' calls' ∧ InjectionReturns g calls exInjectors (.ok S) ∧
    InjectionReturns g' calls' exInjectors (.ok S') ∧ (∀ v < exProblem.n, exProblem.pv v ≤ 2) ∧
    ∀ u < exProblem.n, 2 ≤ ((∑ x ∈ range exProblem.n, exProblem.flux x u) + exProblem.source u) * (200 * 365 * 24 * 60 * 60) := by
  have hv : (exProblem.withPoreVolume fun _ => 2).Valid :=
    ⟨exProblem_valid.int, exProblem_valid.pos, exProblem_valid.some_connection, exProblem_valid.range,
      fun _ _ => by show (0 : ℚ) ≤ 2; norm_num, exProblem_valid.wells_sorted, exProblem_valid.cells_sorted,
      exProblem_valid.cells_range⟩
  obtain ⟨g, calls, h⟩ := exProblem_given
  obtain ⟨g', calls', h'⟩ := exists_given hv (by decide)
  obtain ⟨S, hS⟩ := (C40_valid_problem exProblem_valid h _).1 exInjectors_accepted
  obtain ⟨S', hS'⟩ := (C40_valid_problem hv h' _).1 exInjectors_accepted
  refine ⟨g, g', calls, calls', S, S', h, h', hS, hS', fun _ _ => by show (1 : ℚ) ≤ 2; norm_num, fun u hu => ?_⟩
  have : (∑ x ∈ range exProblem.n, exProblem.flux x u) + exProblem.source u = 3 := (exProblem_total hu).1
  rw [this]; norm_num

/-- **C73** The example, and the example with twice the fluxes and three times the pore volume. -/
example : ∃ g g', ∃ calls calls' : List (Call (X ℚ)), ∃ S S', exProblem.GivenTo g calls ∧
    (exProblem.scaled 2 3).GivenTo g' calls' ∧ InjectionReturns g calls exInjectors (.ok S) ∧
    InjectionReturns g' calls' exInjectors (.ok S') ∧
    ∀ u < exProblem.n, exProblem.pv u ≤ ((∑ x ∈ range exProblem.n, exProblem.flux x u) + exProblem.source u) * (200 * 365 * 24 * 60 * 60) ∧
      3 * exProblem.pv u
        ≤ 2 * ((∑ x ∈ range exProblem.n, exProblem.flux x u) + exProblem.source u) * (200 * 365 * 24 * 60 * 60) := by
  have hv : (exProblem.scaled 2 3).Valid := scaled_valid exProblem_valid (by norm_num)
  obtain ⟨g, calls, h⟩ := exProblem_given
  obtain ⟨g', calls', h'⟩ := exists_given hv (by decide)
  obtain ⟨S, hS⟩ := (C40_valid_problem exProblem_valid h _).1 exInjectors_accepted
  have hacc : InjectionAccepts (exProblem.scaled 2 3).inflowMap exInjectors := by
    have h1 : (Arith.lt Arith.zero (X.fin (2 * 1 : ℚ))) = true := by rw [X_zero, X_lt]; norm_num
    have h2 : (Arith.lt Arith.zero (X.fin (2 * 2 : ℚ))) = true := by rw [X_zero, X_lt]; norm_num
    intro s hs
    simp only [exInjectors, List.mem_cons, List.not_mem_nil, or_false] at hs
    rcases hs with rfl | rfl
    · refine ⟨⟨_, .tail _ (.head _), rfl, _, .head _, h2⟩, ?_⟩
      intro c hc
      have : c = 0 := by simpa [CellSet.ofCells, CellSet.cells, setInsert] using hc
      subst this
      exact ⟨_, .head _, _, .head _, rfl, h1⟩
    · refine ⟨⟨_, .head _, rfl, _, .head _, h1⟩, ?_⟩
      intro c hc
      simp [CellSet.ofCells, CellSet.cells] at hc
  obtain ⟨S', hS'⟩ := (C40_valid_problem hv h' _).1 hacc
  refine ⟨g, g', calls, calls', S, S', h, h', hS, hS', fun u hu => ?_⟩
  have : (∑ x ∈ range exProblem.n, exProblem.flux x u) + exProblem.source u = 3 := (exProblem_total hu).1
  rw [this]
  show (1 : ℚ) ≤ _ ∧ (3 * 1 : ℚ) ≤ _
  norm_num

/-! ### C72 fails when a cell takes more than 200 years to fill -/

/-- Three cells in a row; the flow through the first two is slow, and much fresh fluid enters the third.  `b` is the pore
    volume of the second cell. -/
def exSlow (b : ℚ) : Problem ℚ where
  n := 3
  conns := [(0, 1), (1, 2)]
  nphase := 1
  phi _ _ := 1
  pv v := if v = 0 then 200 * 365 * 24 * 60 * 60 else if v = 1 then b else 0
  wells := [⟨⟨[65]⟩, [0], fun _ => 1⟩, ⟨⟨[66]⟩, [2], fun _ => 9⟩]

theorem exSlow_valid {b : ℚ} (hb : 0 ≤ b) : (exSlow b).Valid where
  int := by show 3 ≤ INT_MAX; decide
  pos := by show 0 < 3; decide
  some_connection := by unfold exSlow; simp
  range := by unfold exSlow; simp
  pv v _ := by
    show (0 : ℚ) ≤ if v = 0 then _ else if v = 1 then b else 0
    split
    · norm_num
    · split
      · exact hb
      · exact le_rfl
  wells_sorted := by unfold exSlow; simp; decide
  cells_sorted := by unfold exSlow; simp
  cells_range := by unfold exSlow; simp

theorem exSlow_flux (b : ℚ) (u v : Nat) : (exSlow b).flux u v = if v = u + 1 ∧ u < 2 then 1 else 0 := by
  unfold Problem.flux
  show ∑ c ∈ range 2, (exSlow b).carried c u v = _
  have net : ∀ c, (exSlow b).net c = 1 := by
    intro c
    unfold Problem.net
    show ∑ p ∈ range 1, (1 : ℚ) = 1
    simp
  rw [sum_range_succ, sum_range_one]
  unfold Problem.carried
  rw [net, net]
  simp only [exSlow, List.getElem?_cons_zero, List.getElem?_cons_succ, Option.some.injEq, Prod.mk.injEq]
  norm_num
  rcases Nat.lt_or_ge u 2 with h | h
  · interval_cases u <;> simp <;> (try split) <;> simp_all <;> omega
  · have e0 : ¬ (0 = u ∧ 1 = v) := by omega
    have e1 : ¬ (1 = u ∧ 2 = v) := by omega
    have e2 : ¬ (v = u + 1 ∧ u < 2) := by omega
    rw [if_neg e0, if_neg e1, if_neg e2]; norm_num

theorem exSlow_acyclic (b : ℚ) : (exSlow b).forward.Acyclic := by
  have key : ∀ u v, Relation.TransGen (exSlow b).forward.Edge u v → u < v := by
    intro u v h
    have step : ∀ {a c}, (exSlow b).forward.Edge a c → a < c := by
      intro a c h
      have h3 : 0 < (exSlow b).flux a c := h.2.2
      rw [exSlow_flux] at h3
      split at h3
      · omega
      · exact absurd h3 (lt_irrefl _)
    induction h with
    | single h => exact step h
    | tail _ h ih => exact lt_trans ih (step h)
  intro v h
  exact lt_irrefl _ (key v v h)

/-- The time of the third cell. -/
theorem exSlow_time {b : ℚ} (hb : 0 ≤ b) {g : ConnectivityGraph} {calls : List (Call (X ℚ))} (h : (exSlow b).GivenTo g calls)
    {sol : Solution (X ℚ)} (hr : InjectionReturns g calls [] (.ok sol)) :
    fieldAt sol.timeOfFlight 2 = min ((if (1 : ℚ) < b / cap then cap else b + cap) / 10) cap := by
  obtain ⟨d, st, h1, h2, _⟩ := (diag_injection (exSlow_valid hb) h hr).solved
  obtain ⟨τ, c, hg⟩ := C27_tof_balance_global h1 (exSlow_acyclic b) h2
  have tot : ∀ v < 3, (exSlow b).forward.total v = if v = 2 then 10 else 1 := by
    intro v hv
    show (∑ u ∈ range 3, (exSlow b).flux u v) + (exSlow b).source v = _
    simp only [exSlow_flux, sum_range_succ, sum_range_zero]
    interval_cases v <;> norm_num [Problem.source, exSlow, Problem.wellAt]
  have hw : ∀ (q : Nat → ℚ) v, ∑ u ∈ range 3, q u * (exSlow b).forward.w u v
      = if v = 1 then q 0 else if v = 2 then q 1 else 0 := by
    intro q v
    show ∑ u ∈ range 3, q u * (exSlow b).flux u v = _
    simp only [exSlow_flux, sum_range_succ, sum_range_zero]
    rcases Nat.lt_or_ge v 3 with h | h
    · interval_cases v <;> norm_num
    · have e1 : ¬ v = 1 := by omega
      have e2 : ¬ v = 2 := by omega
      rw [if_neg e1, if_neg e2]
      have e3 : ¬ (v = 0 + 1 ∧ 0 < 2) := by omega
      have e4 : ¬ (v = 1 + 1 ∧ 1 < 2) := by omega
      have e5 : ¬ (v = 2 + 1 ∧ 2 < 2) := by omega
      rw [if_neg e3, if_neg e4, if_neg e5]; norm_num
  have src : ∀ v < 3, (exSlow b).forward.src v = if v = 0 then 1 else if v = 2 then 9 else 0 := by
    intro v hv
    show (exSlow b).source v = _
    interval_cases v <;> norm_num [Problem.source, exSlow, Problem.wellAt]
  have hcap : (0 : ℚ) < cap := cap_pos
  have hpv0 : (exSlow b).forward.pv 0 = cap := rfl
  have hpv1 : (exSlow b).forward.pv 1 = b := rfl
  have hpv2 : (exSlow b).forward.pv 2 = 0 := rfl
  obtain ⟨_, b0, _, d0⟩ := hg 0 (by show 0 < 3; decide)
  obtain ⟨_, b1, s1, d1⟩ := hg 1 (by show 1 < 3; decide)
  obtain ⟨e2, b2, _, d2⟩ := hg 2 (by show 2 < 3; decide)
  have hn : (exSlow b).forward.n = 3 := rfl
  rw [hn, hw, tot 0 (by decide), src 0 (by decide)] at b0
  rw [hn, hw, tot 1 (by decide), src 1 (by decide)] at b1
  rw [hn, hw, tot 2 (by decide), src 2 (by decide)] at b2
  unfold Flow.Slow at d0 s1 d1 d2
  rw [hn, hw, tot 0 (by decide), hpv0] at d0
  rw [hn, hw, tot 1 (by decide), hpv1] at d1
  rw [tot 1 (by decide), hpv1] at s1
  rw [hn, hw, tot 2 (by decide), hpv2] at d2
  norm_num at b0 b1 b2
  rw [b1, b0] at b2
  have c2 : c 2 = 1 := by linarith
  have hdiv : (cap : ℚ) / cap = 1 := div_self hcap.ne'
  norm_num [hdiv, b0] at d0
  norm_num [b1, b0] at d1
  norm_num [c2, b1, b0] at d2
  rw [e2]
  congr 1
  by_cases hs : (1 : ℚ) < b / cap
  · rw [if_pos hs]
    have := s1 (Or.inl (by norm_num; exact hs))
    linarith
  · rw [if_neg hs]
    have := d1 (not_lt.mp hs)
    linarith

/-- **C72** fails if a cell takes more than 200 years to fill: twice the pore volume in one cell halves the time of the cell
    downstream of it, because the time of the slow cell is replaced by 200 years, which is less than it was before. -/
theorem C72_fails_with_slow_cell : ∃ (P : Problem ℚ) (pv' : Nat → ℚ), P.Valid ∧ P.forward.Acyclic ∧
    (∀ v < P.n, P.pv v ≤ pv' v) ∧ (∃ g calls, P.GivenTo g calls) ∧ (∃ g calls, (P.withPoreVolume pv').GivenTo g calls) ∧
    ∀ g g' calls calls', P.GivenTo g calls → (P.withPoreVolume pv').GivenTo g' calls' →
      ∃ sol sol', InjectionReturns g calls [] (.ok sol) ∧ InjectionReturns g' calls' [] (.ok sol') ∧
        fieldAt sol'.timeOfFlight 2 = fieldAt sol.timeOfFlight 2 / 2 ∧ 0 < fieldAt sol.timeOfFlight 2 := by
  have hcap : (0 : ℚ) < cap := cap_pos
  have h1 : (0 : ℚ) ≤ cap := hcap.le
  have h2 : (0 : ℚ) ≤ 2 * cap := by linarith
  have e : (exSlow cap).withPoreVolume (exSlow (2 * cap)).pv = exSlow (2 * cap) := rfl
  refine ⟨exSlow cap, (exSlow (2 * cap)).pv, exSlow_valid h1, exSlow_acyclic _, ?_, exists_given (exSlow_valid h1) ?_, ?_, ?_⟩
  · intro v _
    show (if v = 0 then _ else if v = 1 then (cap : ℚ) else 0) ≤ if v = 0 then _ else if v = 1 then 2 * (cap : ℚ) else 0
    split
    · exact le_rfl
    · split
      · linarith
      · exact le_rfl
  · show 2 * 1 < SIZE_MOD; decide
  · rw [e]; exact exists_given (exSlow_valid h2) (by show 2 * 1 < SIZE_MOD; decide)
  · intro g g' calls calls' hg hg'
    rw [e] at hg'
    obtain ⟨sol, hr⟩ := (C40_valid_problem (exSlow_valid h1) hg []).1 (by intro s hs; simp at hs)
    obtain ⟨sol', hr'⟩ := (C40_valid_problem (exSlow_valid h2) hg' []).1 (by intro s hs; simp at hs)
    refine ⟨sol, sol', hr, hr', ?_⟩
    rw [exSlow_time h1 hg hr, exSlow_time h2 hg' hr', div_self hcap.ne', mul_div_cancel_right₀ _ hcap.ne',
      if_neg (lt_irrefl _), if_pos (by norm_num), min_eq_left (by linarith), min_eq_left (by linarith)]
    constructor <;> linarith

end Verif.Props
