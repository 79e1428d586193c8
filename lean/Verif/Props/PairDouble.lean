/-
C89, C90: fluxes and volumes of well pairs computed with `double`s, in flow with or without cycles.
-/
import Verif.Props.CyclicGlobal
import Verif.Props.PairAccuracy
import Verif.Proofs.PairRounding

namespace Verif.Props
open Verif.Spec Verif.Toolbox Verif.Solver Verif.Rounding Verif.Derived Finset

/-! ### Balance and what follows for pairs -/

/-- Two fields, one carried by the flow and one by the reversed flow, that nearly balance: what the one injects, weighted with
    the other, is nearly what the other injects, weighted with the one. -/
theorem pair_identity {n : Nat} {w : Nat → Nat → ℚ} {ti tb c d qi qp ρ σ : Nat → ℚ} {C : ℚ}
    (hc : ∀ v < n, 0 ≤ c v ∧ c v ≤ C) (hd : ∀ v < n, 0 ≤ d v ∧ d v ≤ 1)
    (h1 : ∀ v < n, |(∑ u ∈ range n, c u * w u v) + qi v - ti v * c v| ≤ ρ v)
    (h2 : ∀ v < n, |(∑ u ∈ range n, d u * w v u) + qp v - tb v * d v| ≤ σ v) :
    |(∑ v ∈ range n, qi v * d v) - ∑ v ∈ range n, qp v * c v|
      ≤ C * (∑ v ∈ range n, |ti v - tb v|) + (∑ v ∈ range n, ρ v) + C * ∑ v ∈ range n, σ v := by
  have e : (∑ v ∈ range n, qi v * d v) - ∑ v ∈ range n, qp v * c v
      = (∑ v ∈ range n, (ti v - tb v) * (c v * d v)) + (∑ v ∈ range n, d v * ((∑ u ∈ range n, c u * w u v) + qi v - ti v * c v))
        + ∑ v ∈ range n, -(c v * ((∑ u ∈ range n, d u * w v u) + qp v - tb v * d v)) := by
    have hx : ∑ v ∈ range n, d v * (∑ u ∈ range n, c u * w u v) = ∑ v ∈ range n, c v * ∑ u ∈ range n, d u * w v u := by
      simp only [mul_sum]
      rw [sum_comm]
      exact sum_congr rfl fun u _ => sum_congr rfl fun v _ => by ring
    have e1 : ∑ v ∈ range n, d v * ((∑ u ∈ range n, c u * w u v) + qi v - ti v * c v)
        = (∑ v ∈ range n, d v * (∑ u ∈ range n, c u * w u v)) + (∑ v ∈ range n, qi v * d v) - ∑ v ∈ range n, ti v * (c v * d v) := by
      rw [← sum_add_distrib, ← sum_sub_distrib]
      exact sum_congr rfl fun v _ => by ring
    have e2 : ∑ v ∈ range n, -(c v * ((∑ u ∈ range n, d u * w v u) + qp v - tb v * d v))
        = (∑ v ∈ range n, tb v * (c v * d v)) - (∑ v ∈ range n, c v * (∑ u ∈ range n, d u * w v u)) - ∑ v ∈ range n, qp v * c v := by
      rw [← sum_sub_distrib, ← sum_sub_distrib]
      exact sum_congr rfl fun v _ => by ring
    have e3 : ∑ v ∈ range n, (ti v - tb v) * (c v * d v)
        = (∑ v ∈ range n, ti v * (c v * d v)) - ∑ v ∈ range n, tb v * (c v * d v) := by
      rw [← sum_sub_distrib]
      exact sum_congr rfl fun v _ => by ring
    rw [e1, e2, e3, hx]
    ring
  rw [e]
  refine (abs_add_le _ _).trans (add_le_add ((abs_add_le _ _).trans (add_le_add ?_ ?_)) ?_)
  · rw [mul_sum]
    refine (abs_sum_le_sum_abs _ _).trans (sum_le_sum fun v hv => ?_)
    have hv := mem_range.mp hv
    rw [abs_mul, abs_of_nonneg (mul_nonneg (hc v hv).1 (hd v hv).1), mul_comm C]
    refine mul_le_mul_of_nonneg_left ?_ (abs_nonneg _)
    exact (mul_le_of_le_one_right (hc v hv).1 (hd v hv).2).trans (hc v hv).2
  · refine (abs_sum_le_sum_abs _ _).trans (sum_le_sum fun v hv => ?_)
    have hv := mem_range.mp hv
    rw [abs_mul, abs_of_nonneg (hd v hv).1]
    exact (mul_le_of_le_one_left (abs_nonneg _) (hd v hv).2).trans (h1 v hv)
  · rw [mul_sum]
    refine (abs_sum_le_sum_abs _ _).trans (sum_le_sum fun v hv => ?_)
    have hv := mem_range.mp hv
    rw [abs_neg, abs_mul, abs_of_nonneg (hc v hv).1]
    exact mul_le_mul (hc v hv).2 (h2 v hv) (abs_nonneg _) ((hc v hv).1.trans (hc v hv).2)

/-! ### Concentrations as the pair functions see them -/

/-- Concentrations on cells of the grid, in order. -/
structure Fractional (n : Nat) (T : CellSetValues Double) : Prop where
  sorted : T.Pairwise fun a b => a.1 < b.1
  range : ∀ e ∈ T, 0 ≤ e.1 ∧ e.1 < n
  number : ∀ e ∈ T, ∃ x : ℚ, e.2.val = X.fin x ∧ 0 ≤ x ∧ x ≤ 1

theorem Fractional.fractions {n : Nat} {T : CellSetValues Double} (h : Fractional n T) : Fractions T := fun c d hd =>
  h.number (c, d) (OMap.find_some_mem hd)

theorem Fractional.length {n : Nat} {T : CellSetValues Double} (h : Fractional n T) : T.length ≤ n := by
  have := length_below (n := n) (l := T.map fun e => e.1) (List.pairwise_map.mpr h.sorted) (fun c hc => by
    obtain ⟨e, he, rfl⟩ := List.mem_map.mp hc
    exact h.range e he)
  simpa using this

theorem Fractional.nonneg {n : Nat} {T : CellSetValues Double} (h : Fractional n T) (v : Nat) : 0 ≤ doubleAt T v := by
  cases e : T.find (v : Int) with
  | none => rw [doubleAt_none e]
  | some a =>
    obtain ⟨x, hx, h0, _⟩ := h.fractions _ _ e
    rw [doubleAt_some e hx]; exact h0

theorem Fractional.le_one {n : Nat} {T : CellSetValues Double} (h : Fractional n T) (v : Nat) : doubleAt T v ≤ 1 := by
  cases e : T.find (v : Int) with
  | none => rw [doubleAt_none e]; exact zero_le_one
  | some a =>
    obtain ⟨x, hx, _, h1⟩ := h.fractions _ _ e
    rw [doubleAt_some e hx]; exact h1

theorem nearE_zero (k : Nat) {a : Double} (h : a.val = X.fin 0) : NearE Double.rounded q52 k 0 a 0 :=
  ⟨0, h, le_rfl, by simp, by simp⟩

/-- Volume of a pair. -/
theorem pair_volume {n : Nat} (hn : n ≤ INT_MAX) {pv : List Double} {f : Nat → ℚ} (hpv : pv.map Double.val = arr n f)
    (hf : ∀ v < n, Ordinary (f v)) (hf0 : ∀ v < n, 0 ≤ f v) {S T : Solution Double} {i p : CellSetID}
    (hS : Fractional n (S.concentration i)) (hT : Fractional n (T.concentration p)) :
    ∃ V x, pairVolume S T pv i p = .ok V ∧ V.val = X.fin x ∧ 0 ≤ x ∧
      |x - ∑ v ∈ range n, f v * doubleAt (S.concentration i) v * doubleAt (T.concentration p) v|
        ≤ ((n + 2 : Nat) : ℚ) / 2 ^ 51 * (∑ v ∈ range n, f v * doubleAt (S.concentration i) v * doubleAt (T.concentration p) v)
          + 1 / 2 ^ 800 * ∑ v ∈ range n, f v := by
  have hI : INT_MAX = 2 ^ 31 - 1 := rfl
  have hl := hS.length
  obtain ⟨V, h1, h2⟩ := volume_slack hn hpv hf hf0 hT.fractions hS.range hS.number 2 Arith.zero 0 0 0 le_rfl (by omega)
    (nearE_zero 2 Double.val_lit_zero)
    le_rfl le_rfl (by simp) (by omega)
  rw [zero_add, zero_add] at h2
  have e1 : (List.map (fun e => f e.1.toNat * num e.2 * doubleAt (T.concentration p) e.1.toNat) (S.concentration i)).sum
      = ∑ v ∈ range n, f v * doubleAt (S.concentration i) v * doubleAt (T.concentration p) v := by
    have := sum_entries (fun v => f v * doubleAt (T.concentration p) v) hS.sorted hS.range
    rw [show (fun e : Int × Double => f e.1.toNat * num e.2 * doubleAt (T.concentration p) e.1.toNat)
      = fun e => f e.1.toNat * doubleAt (T.concentration p) e.1.toNat * num e.2 from funext fun e => by ring, this]
    exact sum_congr rfl fun v _ => by ring
  rw [e1] at h2
  have hpos : 0 ≤ ∑ v ∈ range n, f v := sum_nonneg fun v hv => hf0 v (mem_range.mp hv)
  have hy : 0 ≤ ∑ v ∈ range n, f v * doubleAt (S.concentration i) v * doubleAt (T.concentration p) v :=
    sum_nonneg fun v hv => mul_nonneg (mul_nonneg (hf0 v (mem_range.mp hv)) (hS.nonneg v)) (hT.nonneg v)
  have hsum : (List.map (fun e => f e.1.toNat) (S.concentration i)).sum ≤ ∑ v ∈ range n, f v := by
    have hnd : ((S.concentration i).map fun e => e.1.toNat).Nodup := by
      refine List.pairwise_map.mpr (hS.sorted.imp_of_mem fun {a b} ha hb h => ?_)
      have h3 := (hS.range a ha).1
      have h4 := (hS.range b hb).1
      omega
    have h5 := List.sum_toFinset f hnd
    rw [List.map_map] at h5
    rw [show (fun e : Int × Double => f e.1.toNat) = f ∘ fun e => e.1.toNat from rfl, ← h5]
    refine sum_le_sum_of_subset_of_nonneg ?_ fun v hv _ => hf0 v (mem_range.mp hv)
    intro v hv
    obtain ⟨e, he, rfl⟩ := List.mem_map.mp (List.mem_toFinset.mp hv)
    have := hS.range e he
    rw [mem_range]; omega
  have hu := under_nonneg
  have hle0 : 0 ≤ (List.map (fun e => f e.1.toNat) (S.concentration i)).sum := List.sum_nonneg fun y hy => by
    obtain ⟨c, hc, rfl⟩ := List.mem_map.mp hy
    have := hS.range c hc
    exact hf0 _ (by omega)
  obtain ⟨x, x1, x2, x3⟩ := nearE_abs (by omega) h2 hy (mul_nonneg (by linarith) hle0)
  refine ⟨V, x, h1, x1, x2, x3.trans (add_le_add ?_ ?_)⟩
  · refine mul_le_mul_of_nonneg_right ?_ hy
    refine div_le_div_of_nonneg_right ?_ (by positivity)
    exact_mod_cast by omega
  · have h6 := under_le
    have h7 : (4 : ℚ) * (1 / 2 ^ 900) ≤ 1 / 2 ^ 800 := by
      rw [show (2 : ℚ) ^ 900 = 2 ^ 100 * 2 ^ 800 by rw [← pow_add], one_div, mul_inv, one_div, ← mul_assoc]
      exact mul_le_of_le_one_left (by positivity) (by norm_num)
    calc 2 * (2 * under * (List.map (fun e => f e.1.toNat) (S.concentration i)).sum)
        = 4 * under * (List.map (fun e => f e.1.toNat) (S.concentration i)).sum := by ring
      _ ≤ 4 * under * ∑ v ∈ range n, f v := mul_le_mul_of_nonneg_left hsum (by linarith)
      _ ≤ 1 / 2 ^ 800 * ∑ v ∈ range n, f v := by
        refine mul_le_mul_of_nonneg_right ?_ hpos
        generalize (1 : ℚ) / 2 ^ 900 = A at *
        generalize (1 : ℚ) / 2 ^ 800 = B at *
        linarith

/-- What a well injects (or produces) in its cells. -/
theorem well_sum {P : Problem ℚ} (hP : P.Valid) {w : WellFlux ℚ} (hw : w ∈ P.wells) (pos : Bool) (q : Nat → ℚ) :
    (w.cells.map fun v => part pos (w.val v) * q v).sum = ∑ v ∈ range P.n, part pos (Problem.wellAt w v) * q v := by
  rw [sum_cells (hP.cells_sorted w hw) (hP.cells_range w hw)]
  refine sum_congr rfl fun v _ => ?_
  unfold Problem.wellAt
  by_cases h : v ∈ w.cells
  · rw [if_pos h, if_pos h]
  · rw [if_neg h, if_neg h]
    cases pos <;> simp [Rounding.part]

theorem part_nonneg (pos : Bool) (x : ℚ) : 0 ≤ part pos x := by
  cases pos <;> simp [Rounding.part]

/-- Flux of a pair on one side. -/
theorem pair_flux {P : Problem ℚ} (hP : P.Valid) {M : Nat} (hO : P.OfOrdinarySize M) {m : InflowFlux Double}
    (hm : m.map (fun set => (set.1, set.2.map fun e => (e.1, Double.val e.2))) = P.inflowMap) {w : WellFlux ℚ} (hw : w ∈ P.wells)
    (pos : Bool) {T : CellSetValues Double} (hT : Fractional P.n T) : ∃ a x, m.find w.id = some a ∧
      (turn pos (pairFlux T a pos)).val = X.fin x ∧ 0 ≤ x ∧
      |x - ∑ v ∈ range P.n, part pos (Problem.wellAt w v) * doubleAt T v|
        ≤ ((P.n + 1 : Nat) : ℚ) / 2 ^ 51 * (∑ v ∈ range P.n, part pos (Problem.wellAt w v) * doubleAt T v)
          + 1 / 2 ^ 800 * ∑ v ∈ range P.n, part pos (Problem.wellAt w v) := by
  have hI : INT_MAX = 2 ^ 31 - 1 := rfl
  have hn := hP.int
  obtain ⟨a, a1, _, a2, a3⟩ := stored_find hP hO hm hw
  have h := flux_fold pos hT.fractions a2 1 Arith.zero 0 0 0 le_rfl (by omega)
    (nearE_zero 1 (by
      cases pos
      · show Double.val (Arith.neg Arith.zero) = _
        rw [show Double.val (Arith.neg Arith.zero) = X.neg (Double.val Arith.zero) from Double.val_neg' _, Double.val_lit_zero]
        simp [X.neg]
      · exact Double.val_lit_zero)) le_rfl le_rfl (by simp) (by omega)
  rw [zero_add, zero_add, well_sum hP hw] at h
  have e : (w.cells.map fun v => part pos (w.val v)).sum = ∑ v ∈ range P.n, part pos (Problem.wellAt w v) := by
    have := well_sum hP hw pos fun _ => 1
    simpa using this
  rw [e] at h
  have hy : 0 ≤ ∑ v ∈ range P.n, part pos (Problem.wellAt w v) * doubleAt T v :=
    sum_nonneg fun v _ => mul_nonneg (part_nonneg _ _) (hT.nonneg v)
  have hr : 0 ≤ ∑ v ∈ range P.n, part pos (Problem.wellAt w v) := sum_nonneg fun v _ => part_nonneg _ _
  obtain ⟨x, x1, x2, x3⟩ := nearE_abs (by omega) h hy (mul_nonneg under_nonneg hr)
  refine ⟨a, x, a1, x1, x2, x3.trans (add_le_add ?_ ?_)⟩
  · refine mul_le_mul_of_nonneg_right ?_ hy
    refine div_le_div_of_nonneg_right ?_ (by positivity)
    exact_mod_cast by omega
  · have h6 := under_le
    have h7 : (2 : ℚ) * (1 / 2 ^ 900) ≤ 1 / 2 ^ 800 := by
      rw [show (2 : ℚ) ^ 900 = 2 ^ 100 * 2 ^ 800 by rw [← pow_add], one_div, mul_inv, one_div, ← mul_assoc]
      exact mul_le_of_le_one_left (by positivity) (by norm_num)
    rw [← mul_assoc]
    refine mul_le_mul_of_nonneg_right ?_ hr
    generalize (1 : ℚ) / 2 ^ 900 = A at *
    generalize (1 : ℚ) / 2 ^ 800 = B at *
    linarith

/-! ### Computed diagnostics -/

variable {P : Problem ℚ} {M : Nat} {g : ConnectivityGraph} {calls : List (Call Double)} {injectors producers : List CellSet}
  {S T : Solution Double}

theorem fractional_injection (hP : P.Valid) (hO : P.OfOrdinarySize M) (htotal : ∀ v < P.n, P.forward.total v ≤ 2 ^ 100)
    (hS : P.StoredIn g calls) (hr : InjectionReturns g calls injectors (.ok S)) {w : WellFlux ℚ} (hw : w ∈ P.wells)
    (hask : ∃ s ∈ injectors, s.id = w.id) : Fractional P.n (S.concentration w.id) := by
  have N := nearly_injection hP hO htotal hS hr
  have hg := stored_connectivity hP hS
  obtain ⟨np, phi, hf, _⟩ := hS.flux
  have hbelow := stored_below hP hS.inflow
  have F1 := C24_any_injection hg hf hbelow hr hask
  have r1 : ∀ e ∈ S.concentration w.id, 0 ≤ e.1 ∧ e.1 < P.n := by
    intro e he
    obtain ⟨v, hc, q, ⟨set, hset, _, e, he, eq, _⟩, hl⟩ := (F1.cells e.1).mp (List.mem_map.mpr ⟨e, he, rfl⟩)
    have := hbelow set hset e he
    have := (leads_below hg.range hl).1 (by omega)
    omega
  have sorted := List.pairwise_map.mp F1.order
  refine ⟨sorted, r1, fun e he => ?_⟩
  obtain ⟨h0, h1⟩ := r1 e he
  refine N.number w hw hask e.1.toNat (by have : P.forward.n = P.n := rfl; omega) e.2 ?_
  rw [Int.toNat_of_nonneg h0]
  exact OMap.mem_find sorted he

theorem fractional_production (hP : P.Valid) (hO : P.OfOrdinarySize M) (htotal : ∀ v < P.n, P.backward.total v ≤ 2 ^ 100)
    (hS : P.StoredIn g calls) (hr : ProductionReturns g calls producers (.ok T)) {w : WellFlux ℚ} (hw : w ∈ P.wells)
    (hask : ∃ s ∈ producers, s.id = w.id) : Fractional P.n (T.concentration w.id) := by
  have N := nearly_production hP hO htotal hS hr
  have hg := stored_connectivity hP hS
  obtain ⟨np, phi, hf, _⟩ := hS.flux
  have hbelow := stored_below hP hS.inflow
  have F1 := C24_any_production hg hf hbelow hr hask
  have r1 : ∀ e ∈ T.concentration w.id, 0 ≤ e.1 ∧ e.1 < P.n := by
    intro e he
    obtain ⟨v, hc, q, ⟨set, hset, _, e, he, eq, _⟩, hl⟩ := (F1.cells e.1).mp (List.mem_map.mpr ⟨e, he, rfl⟩)
    have := hbelow set hset e he
    have := (leads_below hg.range hl).2 (by omega)
    omega
  have sorted := List.pairwise_map.mp F1.order
  refine ⟨sorted, r1, fun e he => ?_⟩
  obtain ⟨h0, h1⟩ := r1 e he
  refine N.number w hw hask e.1.toNat (by have : P.backward.n = P.n := rfl; omega) e.2 ?_
  rw [Int.toNat_of_nonneg h0]
  exact OMap.mem_find sorted he

/-- **C89** (flows into and out of cells of ordinary size, with or without cycles) From results of both diagnostics computed with
    `double`s, the volume of a pair is returned and is a non-negative number: the sum over all cells of pore volume times both
    concentrations, up to rounding errors of that sum and a negligible part of the pore volume. -/
theorem C89_volume (hP : P.Valid) (hO : P.OfOrdinarySize M) (hin : ∀ v < P.n, P.forward.total v ≤ 2 ^ 100)
    (hout : ∀ v < P.n, P.backward.total v ≤ 2 ^ 100) (hS : P.StoredIn g calls) (hi : InjectionReturns g calls injectors (.ok S))
    (hp : ProductionReturns g calls producers (.ok T)) {w w' : WellFlux ℚ} (hw : w ∈ P.wells) (hw' : w' ∈ P.wells)
    (hask : ∃ s ∈ injectors, s.id = w.id) (hask' : ∃ s ∈ producers, s.id = w'.id) {pv : List Double}
    (hpv : pv.map Double.val = arr P.n P.pv) :
    ∃ V x, pairVolume S T pv w.id w'.id = .ok V ∧ V.val = X.fin x ∧ 0 ≤ x ∧
      |x - ∑ v ∈ range P.n, P.pv v * doubleAt (S.concentration w.id) v * doubleAt (T.concentration w'.id) v|
        ≤ ((P.n + 2 : Nat) : ℚ) / 2 ^ 51
            * (∑ v ∈ range P.n, P.pv v * doubleAt (S.concentration w.id) v * doubleAt (T.concentration w'.id) v)
          + 1 / 2 ^ 800 * ∑ v ∈ range P.n, P.pv v :=
  pair_volume hP.int hpv hO.pv hP.pv (fractional_injection hP hO hin hS hi hw hask) (fractional_production hP hO hout hS hp hw' hask')

/-- **C89** The fluxes of a pair likewise: a non-negative number, what the injector injects weighted with the producer's
    concentrations, and a non-positive one, what the producer produces weighted with the injector's. -/
theorem C89_fluxes (hP : P.Valid) (hO : P.OfOrdinarySize M) (hin : ∀ v < P.n, P.forward.total v ≤ 2 ^ 100)
    (hout : ∀ v < P.n, P.backward.total v ≤ 2 ^ 100) (hS : P.StoredIn g calls) (hi : InjectionReturns g calls injectors (.ok S))
    (hp : ProductionReturns g calls producers (.ok T)) {w w' : WellFlux ℚ} (hw : w ∈ P.wells) (hw' : w' ∈ P.wells)
    (hask : ∃ s ∈ injectors, s.id = w.id) (hask' : ∃ s ∈ producers, s.id = w'.id) {m : InflowFlux Double}
    (hm : m.map (fun set => (set.1, set.2.map fun e => (e.1, Double.val e.2))) = P.inflowMap) :
    ∃ d e x y, pairFluxes S T w.id w'.id m = .ok (d, e) ∧ d.val = X.fin x ∧ e.val = X.fin y ∧ 0 ≤ x ∧ y ≤ 0 ∧
      |x - ∑ v ∈ range P.n, max (Problem.wellAt w v) 0 * doubleAt (T.concentration w'.id) v|
        ≤ ((P.n + 1 : Nat) : ℚ) / 2 ^ 51 * (∑ v ∈ range P.n, max (Problem.wellAt w v) 0 * doubleAt (T.concentration w'.id) v)
          + 1 / 2 ^ 800 * (∑ v ∈ range P.n, max (Problem.wellAt w v) 0) ∧
      |y + ∑ v ∈ range P.n, max (-Problem.wellAt w' v) 0 * doubleAt (S.concentration w.id) v|
        ≤ ((P.n + 1 : Nat) : ℚ) / 2 ^ 51 * (∑ v ∈ range P.n, max (-Problem.wellAt w' v) 0 * doubleAt (S.concentration w.id) v)
          + 1 / 2 ^ 800 * ∑ v ∈ range P.n, max (-Problem.wellAt w' v) 0 := by
  obtain ⟨a, x, a1, a2, a3, a4⟩ := pair_flux hP hO hm hw true (fractional_production hP hO hout hS hp hw' hask')
  obtain ⟨b, y, b1, b2, b3, b4⟩ := pair_flux hP hO hm hw' false (fractional_injection hP hO hin hS hi hw hask)
  refine ⟨pairFlux (T.concentration w'.id) a true, pairFlux (S.concentration w.id) b false, x, -y, by unfold pairFluxes; rw [a1, b1], a2, val_turn b2, a3, by linarith, a4, ?_⟩
  rw [show -y + ∑ v ∈ range P.n, max (-Problem.wellAt w' v) 0 * doubleAt (S.concentration w.id) v
      = -(y - ∑ v ∈ range P.n, max (-Problem.wellAt w' v) 0 * doubleAt (S.concentration w.id) v) by ring, abs_neg]
  exact b4

/-- Sums with the two rounding bounds. -/
theorem pair_slack {n : Nat} {x y X' Y A B E : ℚ} (hX : 0 ≤ X') (hY : 0 ≤ Y) (hXA : X' ≤ A) (hYB : Y ≤ B)
    (h1 : |x - X'| ≤ ((n + 1 : Nat) : ℚ) / 2 ^ 51 * X' + 1 / 2 ^ 800 * A)
    (h2 : |y + Y| ≤ ((n + 1 : Nat) : ℚ) / 2 ^ 51 * Y + 1 / 2 ^ 800 * B) (h3 : |X' - Y| ≤ E) :
    |x + y| ≤ E + ((n + 2 : Nat) : ℚ) / 2 ^ 51 * (A + B) := by
  have h4 : (1 : ℚ) / 2 ^ 800 ≤ 1 / 2 ^ 51 := one_div_le_one_div_of_le (by positivity) (pow_le_pow_right₀ (by norm_num) (by norm_num))
  have h5 := mul_le_mul_of_nonneg_right h4 (hX.trans hXA)
  have h6 := mul_le_mul_of_nonneg_right h4 (hY.trans hYB)
  generalize (1 : ℚ) / 2 ^ 800 = t at *
  have h7 : ((n + 1 : Nat) : ℚ) / 2 ^ 51 * X' ≤ ((n + 1 : Nat) : ℚ) / 2 ^ 51 * A := mul_le_mul_of_nonneg_left hXA (by positivity)
  have h8 : ((n + 1 : Nat) : ℚ) / 2 ^ 51 * Y ≤ ((n + 1 : Nat) : ℚ) / 2 ^ 51 * B := mul_le_mul_of_nonneg_left hYB (by positivity)
  have e : ((n + 2 : Nat) : ℚ) / 2 ^ 51 * (A + B) = ((n + 1 : Nat) : ℚ) / 2 ^ 51 * A + 1 / 2 ^ 51 * A
      + (((n + 1 : Nat) : ℚ) / 2 ^ 51 * B + 1 / 2 ^ 51 * B) := by
    push_cast; ring
  rw [e]
  have h9 : |x + y| ≤ |x - X'| + |y + Y| + |X' - Y| := by
    refine le_trans (le_of_eq_of_le ?_ (abs_add_le _ _)) (add_le_add (abs_add_le _ _) le_rfl)
    congr 1; ring
  linarith

/-- **C89** (no cell has a self-connection as its only cycle) The two fluxes of a pair balance: they add up to no more than what
    the cells of the grid fail to balance, the tolerances on cycles and rounding errors leave. -/
theorem C89_balance (hP : P.Valid) (hO : P.OfOrdinarySize M) (hin : ∀ v < P.n, P.forward.total v ≤ 2 ^ 100)
    (hout : ∀ v < P.n, P.backward.total v ≤ 2 ^ 100) (hself : ∀ v < P.n, ¬ P.forward.Loop v)
    (hS : P.StoredIn g calls) (hi : InjectionReturns g calls injectors (.ok S))
    (hp : ProductionReturns g calls producers (.ok T)) {w w' : WellFlux ℚ} (hw : w ∈ P.wells) (hw' : w' ∈ P.wells)
    (hask : ∃ s ∈ injectors, s.id = w.id) (hask' : ∃ s ∈ producers, s.id = w'.id) {m : InflowFlux Double}
    (hm : m.map (fun set => (set.1, set.2.map fun e => (e.1, Double.val e.2))) = P.inflowMap) :
    ∃ d e x y, pairFluxes S T w.id w'.id m = .ok (d, e) ∧ d.val = X.fin x ∧ e.val = X.fin y ∧
      |x + y| ≤ (∑ v ∈ range P.n, |P.forward.total v - P.backward.total v|)
        + 1 / 1000000000 * (∑ v ∈ range P.n, (P.forward.cycleInflow v + P.backward.cycleInflow v))
        + ((4 * M + 6 : Nat) : ℚ) / 2 ^ 51 * (∑ v ∈ range P.n, (P.forward.total v + P.backward.total v))
        + ((P.n + 2 : Nat) : ℚ) / 2 ^ 51
            * ((∑ v ∈ range P.n, max (Problem.wellAt w v) 0) + ∑ v ∈ range P.n, max (-Problem.wellAt w' v) 0) := by
  obtain ⟨d, e, x, y, h1, h2, h3, h4, h5, h6, h7⟩ := C89_fluxes hP hO hin hout hS hi hp hw hw' hask hask' hm
  refine ⟨d, e, x, y, h1, h2, h3, ?_⟩
  have b1 := C80_injection_balance hP hO hin hS hi hw hask
  have b2 := C80_production_balance hP hO hout hS hp hw' hask'
  have key := pair_identity (n := P.n) (w := P.flux) (C := 1) (fun v hv => ⟨(b1 v hv).1, (b1 v hv).2.1⟩)
    (fun v hv => ⟨(b2 v hv).1, (b2 v hv).2.1⟩) (fun v hv => (b1 v hv).2.2 (hself v hv))
    (fun v hv => (b2 v hv).2.2 (backward_not_loop hself v hv))
  have nn : ∀ (q : Nat → ℚ) (c : Nat → ℚ), (∀ v < P.n, 0 ≤ c v ∧ c v ≤ 1) →
      0 ≤ ∑ v ∈ range P.n, max (q v) 0 * c v ∧ ∑ v ∈ range P.n, max (q v) 0 * c v ≤ ∑ v ∈ range P.n, max (q v) 0 := fun q c hc =>
    ⟨sum_nonneg fun v hv => mul_nonneg (le_max_right _ _) (hc v (mem_range.mp hv)).1,
      sum_le_sum fun v hv => mul_le_of_le_one_right (le_max_right _ _) (hc v (mem_range.mp hv)).2⟩
  obtain ⟨n1, n2⟩ := nn (fun v => Problem.wellAt w v) _ fun v hv => ⟨(b2 v hv).1, (b2 v hv).2.1⟩
  obtain ⟨n3, n4⟩ := nn (fun v => -Problem.wellAt w' v) _ fun v hv => ⟨(b1 v hv).1, (b1 v hv).2.1⟩
  refine (pair_slack n1 n3 n2 n4 h6 h7 key).trans (add_le_add ?_ le_rfl)
  simp only [sum_add_distrib, ← mul_sum]
  linarith

/-- A sum of weighted sums, up to errors. -/
theorem sum_weighted {n : Nat} {q : Nat → ℚ} {δ : ℚ} {c : WellFlux ℚ → Nat → ℚ} {x : WellFlux ℚ → ℚ} :
    ∀ {J : List (WellFlux ℚ)}, (∀ p ∈ J, |x p - ∑ v ∈ range n, q v * c p v| ≤ δ) →
      |(J.map x).sum - ∑ v ∈ range n, q v * (J.map fun p => c p v).sum| ≤ J.length * δ := by
  intro J
  induction J with
  | nil => intro _; simp
  | cons p J ih =>
    intro h
    have h1 := ih fun p hp => h p (List.mem_cons_of_mem _ hp)
    have h2 := h p List.mem_cons_self
    simp only [List.map_cons, List.sum_cons, List.length_cons, mul_add, sum_add_distrib]
    rw [show x p + (J.map x).sum - ((∑ v ∈ range n, q v * c p v) + ∑ v ∈ range n, q v * (J.map fun p => c p v).sum)
      = (x p - ∑ v ∈ range n, q v * c p v) + ((J.map x).sum - ∑ v ∈ range n, q v * (J.map fun p => c p v).sum) by ring]
    refine (abs_add_le _ _).trans ?_
    push_cast
    linarith

theorem weighted_one {n : Nat} {q : Nat → ℚ} (hq : ∀ v < n, 0 ≤ q v) {c e : Nat → ℚ} (h : ∀ v < n, 0 < q v → |c v - 1| ≤ e v) :
    |(∑ v ∈ range n, q v * c v) - ∑ v ∈ range n, q v| ≤ ∑ v ∈ range n, q v * e v := by
  rw [← sum_sub_distrib]
  refine (abs_sum_le_sum_abs _ _).trans (sum_le_sum fun v hv => ?_)
  have hv := mem_range.mp hv
  rw [show q v * c v - q v = q v * (c v - 1) by ring, abs_mul, abs_of_nonneg (hq v hv)]
  rcases (hq v hv).eq_or_lt with h0 | h0
  · rw [← h0, zero_mul, zero_mul]
  · exact mul_le_mul_of_nonneg_left (h v hv h0) h0.le

theorem flux_slack {n : Nat} {x X' A : ℚ} (hX : 0 ≤ X') (hXA : X' ≤ A)
    (h1 : |x - X'| ≤ ((n + 1 : Nat) : ℚ) / 2 ^ 51 * X' + 1 / 2 ^ 800 * A) : |x - X'| ≤ ((n + 2 : Nat) : ℚ) / 2 ^ 51 * A := by
  have h4 : (1 : ℚ) / 2 ^ 800 ≤ 1 / 2 ^ 51 := one_div_le_one_div_of_le (by positivity) (pow_le_pow_right₀ (by norm_num) (by norm_num))
  have h5 := mul_le_mul_of_nonneg_right h4 (hX.trans hXA)
  generalize (1 : ℚ) / 2 ^ 800 = t at *
  have h7 : ((n + 1 : Nat) : ℚ) / 2 ^ 51 * X' ≤ ((n + 1 : Nat) : ℚ) / 2 ^ 51 * A := mul_le_mul_of_nonneg_left hXA (by positivity)
  have e : ((n + 2 : Nat) : ℚ) / 2 ^ 51 * A = ((n + 1 : Nat) : ℚ) / 2 ^ 51 * A + 1 / 2 ^ 51 * A := by
    push_cast; ring
  rw [e]
  linarith

/-- **C89** If all producers were asked for, and whatever gets from the injector's cells gets to some producer, then the first
    fluxes of an injector's pairs add up to what it injects, up to the errors of C80 and rounding errors. -/
theorem C89_injected (hP : P.Valid) (hO : P.OfOrdinarySize M) (hin : ∀ v < P.n, P.forward.total v ≤ 2 ^ 100)
    (hout : ∀ v < P.n, P.backward.total v ≤ 2 ^ 100) (hself : ∀ v < P.n, ¬ P.forward.Loop v)
    (hS : P.StoredIn g calls) (hi : InjectionReturns g calls injectors (.ok S))
    (hp : ProductionReturns g calls producers (.ok T)) {w : WellFlux ℚ} (hw : w ∈ P.wells)
    (hask : ∃ s ∈ injectors, s.id = w.id) (hall : ∀ p ∈ P.producers, ∃ s ∈ producers, s.id = p.id)
    (hreach : ∀ v ∈ posCells w, ∀ u, P.forward.Reach v u → ∃ p < P.n, 0 < P.sink p ∧ P.forward.Reach u p) {f : InflowFlux Double}
    (hf : f.map (fun set => (set.1, set.2.map fun e => (e.1, Double.val e.2))) = P.inflowMap) :
    ∃ (m h : Nat → ℚ) (x : WellFlux ℚ → ℚ),
      P.backward.Carries ((List.range P.n).filter fun p => decide (0 < P.sink p)) P.backward.cycleInflow m ∧
      P.backward.Carries ((List.range P.n).filter fun p => decide (0 < P.sink p)) P.backward.total h ∧
      (∀ p ∈ P.producers, ∃ d e, pairFluxes S T w.id p.id f = .ok (d, e) ∧ d.val = X.fin (x p)) ∧
      |(P.producers.map x).sum - ∑ v ∈ range P.n, max (Problem.wellAt w v) 0|
        ≤ P.producers.length * ∑ v ∈ range P.n, max (Problem.wellAt w v) 0
          * (1 / 1000000000 * m v + ((4 * M + 6 : Nat) : ℚ) / 2 ^ 51 * h v + ((P.n + 2 : Nat) : ℚ) / 2 ^ 51) := by
  obtain ⟨m, h, hm, hh, hsum⟩ := C80_production_sum hP hO hout hself hS hp hall
  have key : ∀ p ∈ P.producers, ∃ d e x, pairFluxes S T w.id p.id f = .ok (d, e) ∧ d.val = X.fin x ∧
      |x - ∑ v ∈ range P.n, max (Problem.wellAt w v) 0 * doubleAt (T.concentration p.id) v|
        ≤ ((P.n + 2 : Nat) : ℚ) / 2 ^ 51 * ∑ v ∈ range P.n, max (Problem.wellAt w v) 0 := by
    intro p hpp
    have hpw := (List.mem_filter.mp hpp).1
    obtain ⟨d, e, x, y, h1, h2, h3, h4, h5, h6, h7⟩ := C89_fluxes hP hO hin hout hS hi hp hw hpw hask (hall p hpp) hf
    have b2 := C80_production_balance hP hO hout hS hp hpw (hall p hpp)
    refine ⟨d, e, x, h1, h2, flux_slack ?_ ?_ h6⟩
    · exact sum_nonneg fun v hv => mul_nonneg (le_max_right _ _) (b2 v (mem_range.mp hv)).1
    · exact sum_le_sum fun v hv => mul_le_of_le_one_right (le_max_right _ _) (b2 v (mem_range.mp hv)).2.1
  have : Nonempty Double := ⟨Arith.zero⟩
  choose! d e x h1 h2 h3 using key
  refine ⟨m, h, x, hm, hh, fun p hpp => ⟨d p, e p, h1 p hpp, h2 p hpp⟩, ?_⟩
  have a1 := sum_weighted (n := P.n) (q := fun v => max (Problem.wellAt w v) 0)
    (c := fun p v => doubleAt (T.concentration p.id) v) (x := x) (J := P.producers) h3
  have a2 := weighted_one (n := P.n) (q := fun v => max (Problem.wellAt w v) 0) (fun v _ => le_max_right _ _)
    (c := fun v => (P.producers.map fun p => doubleAt (T.concentration p.id) v).sum)
    (e := fun v => (P.producers.length : ℚ) * (1 / 1000000000 * m v + ((4 * M + 6 : Nat) : ℚ) / 2 ^ 51 * h v))
    (fun v hv h0 => hsum v hv (hreach v (by
      unfold Problem.wellAt at h0
      by_cases hc : v ∈ w.cells
      · rw [if_pos hc] at h0
        exact List.mem_filter.mpr ⟨hc, decide_eq_true (by by_contra hn; rw [max_eq_right (not_lt.mp hn)] at h0; exact lt_irrefl _ h0)⟩
      · rw [if_neg hc] at h0; simp at h0)))
  have a3 := abs_sub_le (P.producers.map x).sum
    (∑ v ∈ range P.n, max (Problem.wellAt w v) 0 * (P.producers.map fun p => doubleAt (T.concentration p.id) v).sum)
    (∑ v ∈ range P.n, max (Problem.wellAt w v) 0)
  refine a3.trans ((add_le_add a1 a2).trans (le_of_eq ?_))
  rw [mul_sum, mul_sum, mul_sum, ← sum_add_distrib]
  exact sum_congr rfl fun v _ => by ring

/-- **C89** Likewise, the second fluxes of a producer's pairs add up to what it produces, if all injectors were asked for and
    whatever gets to the producer's cells comes from some injector. -/
theorem C89_produced (hP : P.Valid) (hO : P.OfOrdinarySize M) (hin : ∀ v < P.n, P.forward.total v ≤ 2 ^ 100)
    (hout : ∀ v < P.n, P.backward.total v ≤ 2 ^ 100) (hself : ∀ v < P.n, ¬ P.forward.Loop v)
    (hS : P.StoredIn g calls) (hi : InjectionReturns g calls injectors (.ok S))
    (hp : ProductionReturns g calls producers (.ok T)) {w' : WellFlux ℚ} (hw' : w' ∈ P.wells)
    (hask' : ∃ s ∈ producers, s.id = w'.id) (hall : ∀ i ∈ P.injectors, ∃ s ∈ injectors, s.id = i.id)
    (hreach : ∀ v ∈ negCells w', ∀ u, P.forward.Reach u v → ∃ p < P.n, 0 < P.source p ∧ P.forward.Reach p u) {f : InflowFlux Double}
    (hf : f.map (fun set => (set.1, set.2.map fun e => (e.1, Double.val e.2))) = P.inflowMap) :
    ∃ (m h : Nat → ℚ) (y : WellFlux ℚ → ℚ),
      P.forward.Carries ((List.range P.n).filter fun p => decide (0 < P.source p)) P.forward.cycleInflow m ∧
      P.forward.Carries ((List.range P.n).filter fun p => decide (0 < P.source p)) P.forward.total h ∧
      (∀ i ∈ P.injectors, ∃ d e, pairFluxes S T i.id w'.id f = .ok (d, e) ∧ e.val = X.fin (-(y i))) ∧
      |(P.injectors.map y).sum - ∑ v ∈ range P.n, max (-Problem.wellAt w' v) 0|
        ≤ P.injectors.length * ∑ v ∈ range P.n, max (-Problem.wellAt w' v) 0
          * (1 / 1000000000 * m v + ((4 * M + 6 : Nat) : ℚ) / 2 ^ 51 * h v + ((P.n + 2 : Nat) : ℚ) / 2 ^ 51) := by
  obtain ⟨m, h, hm, hh, hsum⟩ := C80_injection_sum hP hO hin hself hS hi hall
  have key : ∀ i ∈ P.injectors, ∃ d e y, pairFluxes S T i.id w'.id f = .ok (d, e) ∧ e.val = X.fin (-y) ∧
      |y - ∑ v ∈ range P.n, max (-Problem.wellAt w' v) 0 * doubleAt (S.concentration i.id) v|
        ≤ ((P.n + 2 : Nat) : ℚ) / 2 ^ 51 * ∑ v ∈ range P.n, max (-Problem.wellAt w' v) 0 := by
    intro i hii
    have hiw := (List.mem_filter.mp hii).1
    obtain ⟨d, e, x, y, h1, h2, h3, h4, h5, h6, h7⟩ := C89_fluxes hP hO hin hout hS hi hp hiw hw' (hall i hii) hask' hf
    have b1 := C80_injection_balance hP hO hin hS hi hiw (hall i hii)
    refine ⟨d, e, -y, h1, by rw [neg_neg]; exact h3, flux_slack ?_ ?_ ?_⟩
    · exact sum_nonneg fun v hv => mul_nonneg (le_max_right _ _) (b1 v (mem_range.mp hv)).1
    · exact sum_le_sum fun v hv => mul_le_of_le_one_right (le_max_right _ _) (b1 v (mem_range.mp hv)).2.1
    · rw [show -y - ∑ v ∈ range P.n, max (-Problem.wellAt w' v) 0 * doubleAt (S.concentration i.id) v
        = -(y + ∑ v ∈ range P.n, max (-Problem.wellAt w' v) 0 * doubleAt (S.concentration i.id) v) by ring, abs_neg]
      exact h7
  have : Nonempty Double := ⟨Arith.zero⟩
  choose! d e y h1 h2 h3 using key
  refine ⟨m, h, y, hm, hh, fun i hii => ⟨d i, e i, h1 i hii, h2 i hii⟩, ?_⟩
  have a1 := sum_weighted (n := P.n) (q := fun v => max (-Problem.wellAt w' v) 0)
    (c := fun p v => doubleAt (S.concentration p.id) v) (x := y) (J := P.injectors) h3
  have a2 := weighted_one (n := P.n) (q := fun v => max (-Problem.wellAt w' v) 0) (fun v _ => le_max_right _ _)
    (c := fun v => (P.injectors.map fun p => doubleAt (S.concentration p.id) v).sum)
    (e := fun v => (P.injectors.length : ℚ) * (1 / 1000000000 * m v + ((4 * M + 6 : Nat) : ℚ) / 2 ^ 51 * h v))
    (fun v hv h0 => hsum v hv (hreach v (by
      unfold Problem.wellAt at h0
      by_cases hc : v ∈ w'.cells
      · rw [if_pos hc] at h0
        exact List.mem_filter.mpr ⟨hc, decide_eq_true (by
          by_contra hn; rw [max_eq_right (by linarith [not_lt.mp hn])] at h0; exact lt_irrefl _ h0)⟩
      · rw [if_neg hc] at h0; simp at h0)))
  have a3 := abs_sub_le (P.injectors.map y).sum
    (∑ v ∈ range P.n, max (-Problem.wellAt w' v) 0 * (P.injectors.map fun p => doubleAt (S.concentration p.id) v).sum)
    (∑ v ∈ range P.n, max (-Problem.wellAt w' v) 0)
  refine a3.trans ((add_le_add a1 a2).trans (le_of_eq ?_))
  rw [mul_sum, mul_sum, mul_sum, ← sum_add_distrib]
  exact sum_congr rfl fun v _ => by ring

/-- **C89** If all injectors and producers were asked for, and everything comes from an injector and gets to a producer, then
    the volumes of all pairs add up to the pore volume, up to the errors of C80 and rounding errors. -/
theorem C89_volumes (hP : P.Valid) (hO : P.OfOrdinarySize M) (hin : ∀ v < P.n, P.forward.total v ≤ 2 ^ 100)
    (hout : ∀ v < P.n, P.backward.total v ≤ 2 ^ 100) (hself : ∀ v < P.n, ¬ P.forward.Loop v)
    (hS : P.StoredIn g calls) (hi : InjectionReturns g calls injectors (.ok S))
    (hp : ProductionReturns g calls producers (.ok T))
    (halli : ∀ i ∈ P.injectors, ∃ s ∈ injectors, s.id = i.id) (hallp : ∀ p ∈ P.producers, ∃ s ∈ producers, s.id = p.id)
    (hup : ∀ u < P.n, ∃ p < P.n, 0 < P.source p ∧ P.forward.Reach p u) (hdown : ∀ u < P.n, ∃ p < P.n, 0 < P.sink p ∧ P.forward.Reach u p)
    {pv : List Double} (hpv : pv.map Double.val = arr P.n P.pv) :
    ∃ (m h m' h' : Nat → ℚ) (x : WellFlux ℚ → WellFlux ℚ → ℚ),
      P.forward.Carries ((List.range P.n).filter fun p => decide (0 < P.source p)) P.forward.cycleInflow m ∧
      P.forward.Carries ((List.range P.n).filter fun p => decide (0 < P.source p)) P.forward.total h ∧
      P.backward.Carries ((List.range P.n).filter fun p => decide (0 < P.sink p)) P.backward.cycleInflow m' ∧
      P.backward.Carries ((List.range P.n).filter fun p => decide (0 < P.sink p)) P.backward.total h' ∧
      (∀ i ∈ P.injectors, ∀ p ∈ P.producers, ∃ V, pairVolume S T pv i.id p.id = .ok V ∧ V.val = X.fin (x i p)) ∧
      ∀ a b : Nat → ℚ,
        (∀ v, a v = P.injectors.length * (1 / 1000000000 * m v + ((4 * M + 6 : Nat) : ℚ) / 2 ^ 51 * h v)) →
        (∀ v, b v = P.producers.length * (1 / 1000000000 * m' v + ((4 * M + 6 : Nat) : ℚ) / 2 ^ 51 * h' v)) →
        |(P.injectors.map fun i => (P.producers.map fun p => x i p).sum).sum - ∑ v ∈ range P.n, P.pv v|
          ≤ (∑ v ∈ range P.n, P.pv v * (a v + b v + a v * b v))
            + P.injectors.length * (P.producers.length * (((P.n + 3 : Nat) : ℚ) / 2 ^ 51 * ∑ v ∈ range P.n, P.pv v)) := by
  obtain ⟨m, h, hm, hh, hsum⟩ := C80_injection_sum hP hO hin hself hS hi halli
  obtain ⟨m', h', hm', hh', hsum'⟩ := C80_production_sum hP hO hout hself hS hp hallp
  have hlt : ∀ u v, P.forward.Reach u v → v < P.n → u < P.n := fun u v hr hv => by
    rcases Relation.ReflTransGen.cases_head hr with e | ⟨x, e, _⟩
    · rw [e]; exact hv
    · exact e.1
  have key : ∀ i ∈ P.injectors, ∀ p ∈ P.producers, ∃ V x, pairVolume S T pv i.id p.id = .ok V ∧ V.val = X.fin x ∧
      |x - ∑ v ∈ range P.n, P.pv v * doubleAt (S.concentration i.id) v * doubleAt (T.concentration p.id) v|
        ≤ ((P.n + 3 : Nat) : ℚ) / 2 ^ 51 * ∑ v ∈ range P.n, P.pv v := by
    intro i hii p hpp
    have hiw := (List.mem_filter.mp hii).1
    have hpw := (List.mem_filter.mp hpp).1
    obtain ⟨V, x, h1, h2, h3, h4⟩ := C89_volume hP hO hin hout hS hi hp hiw hpw (halli i hii) (hallp p hpp) hpv
    have b1 := C80_injection_balance hP hO hin hS hi hiw (halli i hii)
    have b2 := C80_production_balance hP hO hout hS hp hpw (hallp p hpp)
    refine ⟨V, x, h1, h2, flux_slack (n := P.n + 1) ?_ ?_ h4⟩
    · exact sum_nonneg fun v hv => mul_nonneg (mul_nonneg (hP.pv v (mem_range.mp hv)) (b1 v (mem_range.mp hv)).1) (b2 v (mem_range.mp hv)).1
    · refine sum_le_sum fun v hv => ?_
      have hv := mem_range.mp hv
      refine (mul_le_of_le_one_right (mul_nonneg (hP.pv v hv) (b1 v hv).1) (b2 v hv).2.1).trans ?_
      exact mul_le_of_le_one_right (hP.pv v hv) (b1 v hv).2.1
  have : Nonempty Double := ⟨Arith.zero⟩
  choose! V x h1 h2 h3 using key
  refine ⟨m, h, m', h', x, hm, hh, hm', hh', fun i hii p hpp => ⟨V i p, h1 i hii p hpp, h2 i hii p hpp⟩, fun a b ha hb => ?_⟩
  have a1 : ∀ i ∈ P.injectors, |(P.producers.map fun p => x i p).sum
      - ∑ v ∈ range P.n, (P.pv v * (P.producers.map fun p => doubleAt (T.concentration p.id) v).sum) * doubleAt (S.concentration i.id) v|
        ≤ P.producers.length * (((P.n + 3 : Nat) : ℚ) / 2 ^ 51 * ∑ v ∈ range P.n, P.pv v) := by
    intro i hii
    have := sum_weighted (n := P.n) (q := fun v => P.pv v * doubleAt (S.concentration i.id) v)
      (c := fun p v => doubleAt (T.concentration p.id) v) (x := fun p => x i p) (J := P.producers) (h3 i hii)
    rw [show ∑ v ∈ range P.n, (P.pv v * (P.producers.map fun p => doubleAt (T.concentration p.id) v).sum) * doubleAt (S.concentration i.id) v
      = ∑ v ∈ range P.n, P.pv v * doubleAt (S.concentration i.id) v * (P.producers.map fun p => doubleAt (T.concentration p.id) v).sum from
        sum_congr rfl fun v _ => by ring]
    exact this
  have a2 := sum_weighted (n := P.n) (q := fun v => P.pv v * (P.producers.map fun p => doubleAt (T.concentration p.id) v).sum)
    (c := fun i v => doubleAt (S.concentration i.id) v) (x := fun i => (P.producers.map fun p => x i p).sum) (J := P.injectors) a1
  have a3 := weighted_one (n := P.n) (q := P.pv) hP.pv
    (c := fun v => (P.producers.map fun p => doubleAt (T.concentration p.id) v).sum * (P.injectors.map fun i => doubleAt (S.concentration i.id) v).sum)
    (e := fun v => a v + b v + a v * b v)
    (fun v hv _ => by
      have e1 := hsum v hv fun u hr => hup u (hlt u v hr hv)
      have e2 := hsum' v hv fun u hr => hdown u (reach_lt hv hr)
      rw [← ha v] at e1
      rw [← hb v] at e2
      generalize (P.producers.map fun p => doubleAt (T.concentration p.id) v).sum = D at *
      generalize (P.injectors.map fun i => doubleAt (S.concentration i.id) v).sum = C at *
      rw [show D * C - 1 = (C - 1) + (D - 1) + (C - 1) * (D - 1) by ring]
      refine (abs_add_le _ _).trans (add_le_add ((abs_add_le _ _).trans (add_le_add e1 e2)) ?_)
      rw [abs_mul]
      exact mul_le_mul e1 e2 (abs_nonneg _) ((abs_nonneg _).trans e1))
  refine (abs_sub_le _ _ _).trans ((add_le_add a2 ?_).trans_eq (add_comm _ _))
  refine le_of_eq_of_le ?_ a3
  congr 2
  exact sum_congr rfl fun v _ => by ring

/-- The field that the times carry: time of flight times concentration. -/
theorem time_field (hP : P.Valid) (hO : P.OfOrdinarySize M) (hin : ∀ v < P.n, P.forward.total v ≤ 2 ^ 100)
    (hself : ∀ v < P.n, ¬ P.forward.Loop v) (hS : P.StoredIn g calls) (hi : InjectionReturns g calls injectors (.ok S))
    {w : WellFlux ℚ} (hw : w ∈ P.wells) (hask : ∃ s ∈ injectors, s.id = w.id) {a : ℚ} (ha : a < 200 * 365 * 24 * 60 * 60)
    (hta : ∀ v, P.forward.Downstream (posCells w) v → doubleAt (S.timeOfFlightOf w.id) v ≤ a)
    (htiny : ∀ v, P.forward.Downstream (posCells w) v → 1 / 2 ^ 300 ≤ doubleAt (S.concentration w.id) v) (ha0 : 0 ≤ a) :
    ∀ v < P.n, (0 ≤ doubleAt (S.timeOfFlightOf w.id) v * doubleAt (S.concentration w.id) v ∧
      doubleAt (S.timeOfFlightOf w.id) v * doubleAt (S.concentration w.id) v ≤ a) ∧
      |(∑ u ∈ range P.n, doubleAt (S.timeOfFlightOf w.id) u * doubleAt (S.concentration w.id) u * P.flux u v)
          + P.pv v * doubleAt (S.concentration w.id) v
          - P.forward.total v * (doubleAt (S.timeOfFlightOf w.id) v * doubleAt (S.concentration w.id) v)|
        ≤ (a / 1000000000 + 200 * 365 * 24 * 60 * 60 / 1000000000000) * P.forward.cycleInflow v
          + (a + 1) * (((4 * M + 8 : Nat) : ℚ) / 2 ^ 51) * P.forward.total v := by
  have N := nearly_injection hP hO hin hS hi
  have b := C81_injection_balance hP hO hin hS hi hw hask ha hta htiny
  intro v hv
  obtain ⟨c0, c1⟩ := N.unit w hw hask v hv
  by_cases hd : P.forward.Downstream (posCells w) v
  · obtain ⟨h1, h2⟩ := b v hd
    refine ⟨⟨mul_nonneg h1 c0, (mul_le_of_le_one_right h1 c1).trans (hta v hd)⟩, ?_⟩
    rw [add_comm (∑ u ∈ range P.n, _)]
    exact h2 (hself v hv)
  · have hz := N.zero hw hask hd
    have hs : ∑ u ∈ range P.n, doubleAt (S.timeOfFlightOf w.id) u * doubleAt (S.concentration w.id) u * P.flux u v = 0 := by
      refine sum_eq_zero fun u hu => ?_
      have hu := mem_range.mp hu
      by_cases hdu : P.forward.Downstream (posCells w) u
      · have hf0 := N.valid.w_nonneg u v hu hv
        rcases hf0.eq_or_lt with h | h
        · rw [show P.flux u v = 0 from h.symm, mul_zero]
        · obtain ⟨p, p1, p2⟩ := hdu
          exact absurd ⟨p, p1, p2.tail ⟨hu, hv, h⟩⟩ hd
      · rw [N.zero hw hask hdu, mul_zero, zero_mul]
    rw [hs, hz, mul_zero]
    obtain ⟨c2, c3⟩ := cycleInflow_bounds N.valid hv
    refine ⟨⟨le_rfl, ha0⟩, ?_⟩
    simp only [mul_zero, add_zero, sub_zero, abs_zero]
    exact add_nonneg (mul_nonneg (by positivity) c2) (mul_nonneg (by positivity) (c2.trans c3))

/-- The same for a producer. -/
theorem time_field_back (hP : P.Valid) (hO : P.OfOrdinarySize M) (hout : ∀ v < P.n, P.backward.total v ≤ 2 ^ 100)
    (hself : ∀ v < P.n, ¬ P.forward.Loop v) (hS : P.StoredIn g calls) (hi : ProductionReturns g calls producers (.ok T))
    {w : WellFlux ℚ} (hw : w ∈ P.wells) (hask : ∃ s ∈ producers, s.id = w.id) {a : ℚ} (ha : a < 200 * 365 * 24 * 60 * 60)
    (hta : ∀ v, P.backward.Downstream (negCells w) v → doubleAt (T.timeOfFlightOf w.id) v ≤ a)
    (htiny : ∀ v, P.backward.Downstream (negCells w) v → 1 / 2 ^ 300 ≤ doubleAt (T.concentration w.id) v) (ha0 : 0 ≤ a) :
    ∀ v < P.n, (0 ≤ doubleAt (T.timeOfFlightOf w.id) v * doubleAt (T.concentration w.id) v ∧
      doubleAt (T.timeOfFlightOf w.id) v * doubleAt (T.concentration w.id) v ≤ a) ∧
      |(∑ u ∈ range P.n, doubleAt (T.timeOfFlightOf w.id) u * doubleAt (T.concentration w.id) u * P.flux v u)
          + P.pv v * doubleAt (T.concentration w.id) v
          - P.backward.total v * (doubleAt (T.timeOfFlightOf w.id) v * doubleAt (T.concentration w.id) v)|
        ≤ (a / 1000000000 + 200 * 365 * 24 * 60 * 60 / 1000000000000) * P.backward.cycleInflow v
          + (a + 1) * (((4 * M + 8 : Nat) : ℚ) / 2 ^ 51) * P.backward.total v := by
  have N := nearly_production hP hO hout hS hi
  have b := C81_production_balance hP hO hout hS hi hw hask ha hta htiny
  intro v hv
  obtain ⟨c0, c1⟩ := N.unit w hw hask v hv
  by_cases hd : P.backward.Downstream (negCells w) v
  · obtain ⟨h1, h2⟩ := b v hd
    refine ⟨⟨mul_nonneg h1 c0, (mul_le_of_le_one_right h1 c1).trans (hta v hd)⟩, ?_⟩
    rw [add_comm (∑ u ∈ range P.n, _)]
    exact h2 (backward_not_loop hself v hv)
  · have hz := N.zero hw hask hd
    have hs : ∑ u ∈ range P.n, doubleAt (T.timeOfFlightOf w.id) u * doubleAt (T.concentration w.id) u * P.flux v u = 0 := by
      refine sum_eq_zero fun u hu => ?_
      have hu := mem_range.mp hu
      by_cases hdu : P.backward.Downstream (negCells w) u
      · have hf0 := N.valid.w_nonneg u v hu hv
        rcases hf0.eq_or_lt with h | h
        · rw [show P.flux v u = 0 from h.symm, mul_zero]
        · obtain ⟨p, p1, p2⟩ := hdu
          exact absurd ⟨p, p1, p2.tail ⟨hu, hv, h⟩⟩ hd
      · rw [N.zero hw hask hdu, mul_zero, zero_mul]
    rw [hs, hz, mul_zero]
    obtain ⟨c2, c3⟩ := cycleInflow_bounds N.valid hv
    refine ⟨⟨le_rfl, ha0⟩, ?_⟩
    simp only [mul_zero, add_zero, sub_zero, abs_zero]
    exact add_nonneg (mul_nonneg (by positivity) c2) (mul_nonneg (by positivity) (c2.trans c3))

theorem volume_slack_le {n : Nat} {x X' A E Y : ℚ} (hX : 0 ≤ X') (hXA : X' ≤ A)
    (h1 : |x - X'| ≤ ((n + 2 : Nat) : ℚ) / 2 ^ 51 * X' + 1 / 2 ^ 800 * A) (h2 : |X' - Y| ≤ E) :
    |x - Y| ≤ E + ((n + 3 : Nat) : ℚ) / 2 ^ 51 * A := by
  have h4 : (1 : ℚ) / 2 ^ 800 ≤ 1 / 2 ^ 51 := one_div_le_one_div_of_le (by positivity) (pow_le_pow_right₀ (by norm_num) (by norm_num))
  have h5 := mul_le_mul_of_nonneg_right h4 (hX.trans hXA)
  generalize (1 : ℚ) / 2 ^ 800 = t at *
  have h7 : ((n + 2 : Nat) : ℚ) / 2 ^ 51 * X' ≤ ((n + 2 : Nat) : ℚ) / 2 ^ 51 * A := mul_le_mul_of_nonneg_left hXA (by positivity)
  have e : ((n + 3 : Nat) : ℚ) / 2 ^ 51 * A = ((n + 2 : Nat) : ℚ) / 2 ^ 51 * A + 1 / 2 ^ 51 * A := by
    push_cast; ring
  rw [e]
  have h9 : |x - Y| ≤ |x - X'| + |X' - Y| := by
    refine le_of_eq_of_le ?_ (abs_add_le _ _)
    congr 1; ring
  linarith

/-- Bounds of the two balances, added up. -/
theorem volume_total {n : Nat} {a k l : ℚ} (ha : 0 ≤ a) (hkl : l ≤ k) (hl : 0 ≤ l) {D cf cb tf tb : Nat → ℚ}
    (hc : ∀ v < n, 0 ≤ cb v) (ht : ∀ v < n, 0 ≤ tb v) :
    a * (∑ v ∈ range n, D v) + (∑ v ∈ range n, ((a / 1000000000 + 200 * 365 * 24 * 60 * 60 / 1000000000000) * cf v + (a + 1) * k * tf v))
        + a * (∑ v ∈ range n, (1 / 1000000000 * cb v + l * tb v))
      ≤ a * (∑ v ∈ range n, D v)
        + (a / 1000000000 + 200 * 365 * 24 * 60 * 60 / 1000000000000) * (∑ v ∈ range n, (cf v + cb v))
        + (a + 1) * k * ∑ v ∈ range n, (tf v + tb v) := by
  simp only [sum_add_distrib, ← mul_sum]
  have h1 : 0 ≤ ∑ v ∈ range n, cb v := sum_nonneg fun v hv => hc v (mem_range.mp hv)
  have h2 : 0 ≤ ∑ v ∈ range n, tb v := sum_nonneg fun v hv => ht v (mem_range.mp hv)
  generalize ∑ v ∈ range n, cb v = C at *
  generalize ∑ v ∈ range n, tb v = B at *
  have h3 : a * (1 / 1000000000 * C) ≤ (a / 1000000000 + 200 * 365 * 24 * 60 * 60 / 1000000000000) * C := by
    rw [show a * (1 / 1000000000 * C) = (a / 1000000000) * C by ring]
    exact mul_le_mul_of_nonneg_right (by linarith) h1
  have h4 : a * (l * B) ≤ (a + 1) * k * B := by
    rw [← mul_assoc]
    exact mul_le_mul_of_nonneg_right (mul_le_mul (by linarith) hkl hl (by linarith)) h2
  nlinarith

/-- **C90** (none of the times above `a` < 200 years, no concentration below 2^-300, no cell with a self-connection as its only
    cycle) The volume of a pair computed with `double`s is what the producer produces of the injector's water, times the time
    at which that water arrives.  This holds up to `a` times what the cells of the grid fail to balance, the tolerances on
    cycles and rounding errors. -/
theorem C90_producer (hP : P.Valid) (hO : P.OfOrdinarySize M) (hin : ∀ v < P.n, P.forward.total v ≤ 2 ^ 100)
    (hout : ∀ v < P.n, P.backward.total v ≤ 2 ^ 100) (hself : ∀ v < P.n, ¬ P.forward.Loop v)
    (hS : P.StoredIn g calls) (hi : InjectionReturns g calls injectors (.ok S))
    (hp : ProductionReturns g calls producers (.ok T)) {w w' : WellFlux ℚ} (hw : w ∈ P.wells) (hw' : w' ∈ P.wells)
    (hask : ∃ s ∈ injectors, s.id = w.id) (hask' : ∃ s ∈ producers, s.id = w'.id) {pv : List Double}
    (hpv : pv.map Double.val = arr P.n P.pv) {a : ℚ} (ha0 : 0 ≤ a) (ha : a < 200 * 365 * 24 * 60 * 60)
    (hta : ∀ v, P.forward.Downstream (posCells w) v → doubleAt (S.timeOfFlightOf w.id) v ≤ a)
    (htiny : ∀ v, P.forward.Downstream (posCells w) v → 1 / 2 ^ 300 ≤ doubleAt (S.concentration w.id) v) :
    ∃ V x, pairVolume S T pv w.id w'.id = .ok V ∧ V.val = X.fin x ∧
      |x - ∑ v ∈ range P.n, max (-Problem.wellAt w' v) 0
            * (doubleAt (S.timeOfFlightOf w.id) v * doubleAt (S.concentration w.id) v)|
        ≤ a * (∑ v ∈ range P.n, |P.forward.total v - P.backward.total v|)
          + (a / 1000000000 + 200 * 365 * 24 * 60 * 60 / 1000000000000)
              * (∑ v ∈ range P.n, (P.forward.cycleInflow v + P.backward.cycleInflow v))
          + (a + 1) * (((4 * M + 8 : Nat) : ℚ) / 2 ^ 51) * (∑ v ∈ range P.n, (P.forward.total v + P.backward.total v))
          + ((P.n + 3 : Nat) : ℚ) / 2 ^ 51 * ∑ v ∈ range P.n, P.pv v := by
  obtain ⟨V, x, h1, h2, h3, h4⟩ := C89_volume hP hO hin hout hS hi hp hw hw' hask hask' hpv
  refine ⟨V, x, h1, h2, ?_⟩
  have b1 := C80_injection_balance hP hO hin hS hi hw hask
  have b2 := C80_production_balance hP hO hout hS hp hw' hask'
  have tf := time_field hP hO hin hself hS hi hw hask ha hta htiny ha0
  have N := nearly_production hP hO hout hS hp
  have key := pair_identity (n := P.n) (w := P.flux) (C := a) (fun v hv => (tf v hv).1)
    (fun v hv => ⟨(b2 v hv).1, (b2 v hv).2.1⟩) (fun v hv => (tf v hv).2)
    (fun v hv => (b2 v hv).2.2 (backward_not_loop hself v hv))
  have hX : 0 ≤ ∑ v ∈ range P.n, P.pv v * doubleAt (S.concentration w.id) v * doubleAt (T.concentration w'.id) v :=
    sum_nonneg fun v hv => mul_nonneg (mul_nonneg (hP.pv v (mem_range.mp hv)) (b1 v (mem_range.mp hv)).1) (b2 v (mem_range.mp hv)).1
  have hXA : ∑ v ∈ range P.n, P.pv v * doubleAt (S.concentration w.id) v * doubleAt (T.concentration w'.id) v ≤ ∑ v ∈ range P.n, P.pv v :=
    sum_le_sum fun v hv => by
      have hv := mem_range.mp hv
      refine (mul_le_of_le_one_right (mul_nonneg (hP.pv v hv) (b1 v hv).1) (b2 v hv).2.1).trans ?_
      exact mul_le_of_le_one_right (hP.pv v hv) (b1 v hv).2.1
  refine (volume_slack_le hX hXA h4 key).trans (add_le_add ?_ le_rfl)
  have hle : ((4 * M + 6 : Nat) : ℚ) / 2 ^ 51 ≤ ((4 * M + 8 : Nat) : ℚ) / 2 ^ 51 :=
    div_le_div_of_nonneg_right (by exact_mod_cast by omega) (by positivity)
  exact volume_total ha0 hle (by positivity) (fun v hv => (cycleInflow_bounds N.valid hv).1)
    (fun v hv => (cycleInflow_bounds N.valid hv).1.trans (cycleInflow_bounds N.valid hv).2)

/-- **C90** From the other side: the volume of a pair is what the injector injects of the water that the producer will produce,
    times the time that this water needs to get there. -/
theorem C90_injector (hP : P.Valid) (hO : P.OfOrdinarySize M) (hin : ∀ v < P.n, P.forward.total v ≤ 2 ^ 100)
    (hout : ∀ v < P.n, P.backward.total v ≤ 2 ^ 100) (hself : ∀ v < P.n, ¬ P.forward.Loop v)
    (hS : P.StoredIn g calls) (hi : InjectionReturns g calls injectors (.ok S))
    (hp : ProductionReturns g calls producers (.ok T)) {w w' : WellFlux ℚ} (hw : w ∈ P.wells) (hw' : w' ∈ P.wells)
    (hask : ∃ s ∈ injectors, s.id = w.id) (hask' : ∃ s ∈ producers, s.id = w'.id) {pv : List Double}
    (hpv : pv.map Double.val = arr P.n P.pv) {a : ℚ} (ha0 : 0 ≤ a) (ha : a < 200 * 365 * 24 * 60 * 60)
    (hta : ∀ v, P.backward.Downstream (negCells w') v → doubleAt (T.timeOfFlightOf w'.id) v ≤ a)
    (htiny : ∀ v, P.backward.Downstream (negCells w') v → 1 / 2 ^ 300 ≤ doubleAt (T.concentration w'.id) v) :
    ∃ V x, pairVolume S T pv w.id w'.id = .ok V ∧ V.val = X.fin x ∧
      |x - ∑ v ∈ range P.n, max (Problem.wellAt w v) 0
            * (doubleAt (T.timeOfFlightOf w'.id) v * doubleAt (T.concentration w'.id) v)|
        ≤ a * (∑ v ∈ range P.n, |P.forward.total v - P.backward.total v|)
          + (a / 1000000000 + 200 * 365 * 24 * 60 * 60 / 1000000000000)
              * (∑ v ∈ range P.n, (P.forward.cycleInflow v + P.backward.cycleInflow v))
          + (a + 1) * (((4 * M + 8 : Nat) : ℚ) / 2 ^ 51) * (∑ v ∈ range P.n, (P.forward.total v + P.backward.total v))
          + ((P.n + 3 : Nat) : ℚ) / 2 ^ 51 * ∑ v ∈ range P.n, P.pv v := by
  obtain ⟨V, x, h1, h2, h3, h4⟩ := C89_volume hP hO hin hout hS hi hp hw hw' hask hask' hpv
  refine ⟨V, x, h1, h2, ?_⟩
  have b1 := C80_injection_balance hP hO hin hS hi hw hask
  have b2 := C80_production_balance hP hO hout hS hp hw' hask'
  have tf := time_field_back hP hO hout hself hS hp hw' hask' ha hta htiny ha0
  have N := nearly_injection hP hO hin hS hi
  have key := pair_identity (n := P.n) (w := fun u v => P.flux v u) (C := a) (fun v hv => (tf v hv).1)
    (fun v hv => ⟨(b1 v hv).1, (b1 v hv).2.1⟩) (fun v hv => (tf v hv).2)
    (fun v hv => (b1 v hv).2.2 (hself v hv))
  rw [show ∑ v ∈ range P.n, P.pv v * doubleAt (T.concentration w'.id) v * doubleAt (S.concentration w.id) v
    = ∑ v ∈ range P.n, P.pv v * doubleAt (S.concentration w.id) v * doubleAt (T.concentration w'.id) v from
      sum_congr rfl fun v _ => by ring] at key
  have hX : 0 ≤ ∑ v ∈ range P.n, P.pv v * doubleAt (S.concentration w.id) v * doubleAt (T.concentration w'.id) v :=
    sum_nonneg fun v hv => mul_nonneg (mul_nonneg (hP.pv v (mem_range.mp hv)) (b1 v (mem_range.mp hv)).1) (b2 v (mem_range.mp hv)).1
  have hXA : ∑ v ∈ range P.n, P.pv v * doubleAt (S.concentration w.id) v * doubleAt (T.concentration w'.id) v ≤ ∑ v ∈ range P.n, P.pv v :=
    sum_le_sum fun v hv => by
      have hv := mem_range.mp hv
      refine (mul_le_of_le_one_right (mul_nonneg (hP.pv v hv) (b1 v hv).1) (b2 v hv).2.1).trans ?_
      exact mul_le_of_le_one_right (hP.pv v hv) (b1 v hv).2.1
  refine (volume_slack_le hX hXA h4 key).trans (add_le_add ?_ le_rfl)
  have hle : ((4 * M + 6 : Nat) : ℚ) / 2 ^ 51 ≤ ((4 * M + 8 : Nat) : ℚ) / 2 ^ 51 :=
    div_le_div_of_nonneg_right (by exact_mod_cast by omega) (by positivity)
  have fin := volume_total (D := fun v => |P.forward.total v - P.backward.total v|) (cf := P.backward.cycleInflow)
    (tf := P.backward.total) ha0 hle (by positivity) (fun v hv => (cycleInflow_bounds N.valid hv).1)
    (fun v hv => (cycleInflow_bounds N.valid hv).1.trans (cycleInflow_bounds N.valid hv).2)
  simp only [add_comm (P.backward.cycleInflow _), add_comm (P.backward.total _)] at fin
  simp only [abs_sub_comm (P.backward.total _)]
  exact fin

/-- Everything that a flow carries leaves it: what the cells add up is what leaves, weighted with the field carried. -/
theorem carried_out {F : Flow ℚ} {sink x q : Nat → ℚ} (hx : ∀ v < F.n, F.total v * x v = (∑ u ∈ range F.n, x u * F.w u v) + q v)
    (hbal : ∀ v < F.n, F.total v = (∑ u ∈ range F.n, F.w v u) + sink v) : ∑ v ∈ range F.n, q v = ∑ v ∈ range F.n, sink v * x v := by
  have h1 : ∑ v ∈ range F.n, q v = (∑ v ∈ range F.n, F.total v * x v) - ∑ v ∈ range F.n, ∑ u ∈ range F.n, x u * F.w u v := by
    rw [← sum_sub_distrib]
    refine sum_congr rfl fun v hv => ?_
    rw [hx v (mem_range.mp hv)]; ring
  rw [h1, sum_comm, ← sum_sub_distrib]
  refine sum_congr rfl fun v hv => ?_
  rw [hbal v (mem_range.mp hv), ← mul_sum]; ring

theorem near_sum {n : Nat} {s t q b : Nat → ℚ} {V : ℚ} (hs : ∀ v < n, 0 ≤ s v) (hV : V = ∑ v ∈ range n, s v * q v)
    (h : ∀ v < n, |t v - q v| ≤ b v) : |V - ∑ v ∈ range n, s v * t v| ≤ ∑ v ∈ range n, s v * b v := by
  rw [hV, ← sum_sub_distrib]
  refine (abs_sum_le_sum_abs _ _).trans (sum_le_sum fun v hv => ?_)
  have hv := mem_range.mp hv
  rw [← mul_sub, abs_mul, abs_of_nonneg (hs v hv), abs_sub_comm]
  exact mul_le_mul_of_nonneg_left (h v hv) (hs v hv)

/-- **C90** (every cell balanced, reached from an injector, with a global time of at most `a` < 200 years and errors of the
    concentrations of at most a half) The pore volume is the sum over all cells of what is produced there times the global time
    at which water arrives, with the errors of C82. -/
theorem C90_total_injection (hP : P.Valid) (hO : P.OfOrdinarySize M) (hin : ∀ v < P.n, P.forward.total v ≤ 2 ^ 100)
    (hself : ∀ v < P.n, ¬ P.forward.Loop v) (hbal : ∀ v < P.n, P.forward.total v = P.backward.total v)
    (hS : P.StoredIn g calls) (hi : InjectionReturns g calls injectors (.ok S)) :
    ∃ m h p k, P.forward.Carries ((List.range P.n).filter fun p => decide (0 < P.source p)) P.forward.cycleInflow m ∧
      P.forward.Carries ((List.range P.n).filter fun p => decide (0 < P.source p)) P.forward.total h ∧
      P.forward.Carries ((List.range P.n).filter fun p => decide (0 < P.source p)) (fun v => P.pv v * m v) p ∧
      P.forward.Carries ((List.range P.n).filter fun p => decide (0 < P.source p)) (fun v => P.pv v * h v) k ∧
      ∀ a < 200 * 365 * 24 * 60 * 60,
        (∀ u < P.n, (∃ p < P.n, 0 < P.source p ∧ P.forward.Reach p u) ∧ doubleIn S.tof u ≤ a ∧
          1 / 1000000000 * m u + ((4 * M + 6 : Nat) : ℚ) / 2 ^ 51 * h u ≤ 1 / 2) →
        |(∑ v ∈ range P.n, P.pv v) - ∑ v ∈ range P.n, P.sink v * doubleIn S.tof v|
          ≤ ∑ v ∈ range P.n, P.sink v * (1 / 1000000000 * p v
            + (2 * a / 1000000000 + 200 * 365 * 24 * 60 * 60 / 1000000000000) * m v
            + ((4 * M + 8 : Nat) : ℚ) / 2 ^ 51 * (k v + (2 * a + 1) * h v)) := by
  obtain ⟨m, h, q, p, k, hm, hh, hq, hp, hk, key⟩ := C82_injection hP hO hin hself hS hi
  refine ⟨m, h, p, k, hm, hh, hp, hk, fun a ha hall => ?_⟩
  have hF := forward_valid hP
  have hd : ∀ v < P.n, P.forward.Downstream ((List.range P.n).filter fun p => decide (0 < P.source p)) v := fun v hv => by
    obtain ⟨p, h1, h2, h3⟩ := (hall v hv).1
    exact ⟨p, List.mem_filter.mpr ⟨List.mem_range.mpr h1, decide_eq_true h2⟩, h3⟩
  refine near_sum (fun v hv => (backward_valid hP).src_nonneg v hv)
    (carried_out (F := P.forward) (sink := P.sink) (fun v hv => hq.2 v hv (hd v hv)) hbal) fun v hv => key a ha v hv fun u hr => ?_
  refine hall u ?_
  rcases Relation.ReflTransGen.cases_head hr with e | ⟨x, e, _⟩
  · rw [e]; exact hv
  · exact e.1

/-- **C90** Likewise with what is injected and the time to the producers. -/
theorem C90_total_production (hP : P.Valid) (hO : P.OfOrdinarySize M) (hout : ∀ v < P.n, P.backward.total v ≤ 2 ^ 100)
    (hself : ∀ v < P.n, ¬ P.forward.Loop v) (hbal : ∀ v < P.n, P.forward.total v = P.backward.total v)
    (hS : P.StoredIn g calls) (hp : ProductionReturns g calls producers (.ok T)) :
    ∃ m h p k, P.backward.Carries ((List.range P.n).filter fun p => decide (0 < P.sink p)) P.backward.cycleInflow m ∧
      P.backward.Carries ((List.range P.n).filter fun p => decide (0 < P.sink p)) P.backward.total h ∧
      P.backward.Carries ((List.range P.n).filter fun p => decide (0 < P.sink p)) (fun v => P.pv v * m v) p ∧
      P.backward.Carries ((List.range P.n).filter fun p => decide (0 < P.sink p)) (fun v => P.pv v * h v) k ∧
      ∀ a < 200 * 365 * 24 * 60 * 60,
        (∀ u < P.n, (∃ p < P.n, 0 < P.sink p ∧ P.forward.Reach u p) ∧ doubleIn T.tof u ≤ a ∧
          1 / 1000000000 * m u + ((4 * M + 6 : Nat) : ℚ) / 2 ^ 51 * h u ≤ 1 / 2) →
        |(∑ v ∈ range P.n, P.pv v) - ∑ v ∈ range P.n, P.source v * doubleIn T.tof v|
          ≤ ∑ v ∈ range P.n, P.source v * (1 / 1000000000 * p v
            + (2 * a / 1000000000 + 200 * 365 * 24 * 60 * 60 / 1000000000000) * m v
            + ((4 * M + 8 : Nat) : ℚ) / 2 ^ 51 * (k v + (2 * a + 1) * h v)) := by
  obtain ⟨m, h, q, p, k, hm, hh, hq, hp, hk, key⟩ := C82_production hP hO hout hself hS hp
  refine ⟨m, h, p, k, hm, hh, hp, hk, fun a ha hall => ?_⟩
  have hd : ∀ v < P.n, P.backward.Downstream ((List.range P.n).filter fun p => decide (0 < P.sink p)) v := fun v hv => by
    obtain ⟨p, h1, h2, h3⟩ := (hall v hv).1
    exact ⟨p, List.mem_filter.mpr ⟨List.mem_range.mpr h1, decide_eq_true h2⟩, backward_reach.mpr h3⟩
  refine near_sum (fun v hv => (forward_valid hP).src_nonneg v hv)
    (carried_out (F := P.backward) (sink := P.source) (fun v hv => hq.2 v hv (hd v hv)) fun v hv => (hbal v hv).symm)
    fun v hv => key a ha v hv fun u hr => hall u (reach_lt hv hr)

/-! ### A case -/

def whirlInflow : InflowFlux Double := [(⟨[65]⟩, [(0, Arith.lit 2)]), (⟨[80]⟩, [(3, Arith.lit (-2))])]

theorem whirl_not_loop : ∀ v < exWhirl.n, ¬ exWhirl.forward.Loop v := by
  intro v hv hl
  refine hl.1 ?_
  change v < 4 at hv
  interval_cases v <;> simp [Problem.forward, Problem.flux, Problem.carried, exWhirl, sum_range_succ]

theorem whirl_totals : ∀ v < 4, exWhirl.forward.total v = (if v = 0 then 2 else 3) ∧ exWhirl.backward.total v = if v = 0 then 2 else 3 := by
  intro v hv
  unfold Flow.total Flow.inflow
  simp only [Problem.forward, Problem.backward]
  interval_cases v <;>
    simp [exWhirl, Finset.sum_range_succ, Problem.source, Problem.sink, Problem.wellAt, Problem.flux, Problem.carried, Problem.net] <;> norm_num

/-- The sums in the bounds. -/
theorem whirl_sums : (∑ v ∈ range 4, |exWhirl.forward.total v - exWhirl.backward.total v|) = 0 ∧
    (∑ v ∈ range 4, (exWhirl.forward.cycleInflow v + exWhirl.backward.cycleInflow v)) ≤ 22 ∧
    (∑ v ∈ range 4, (exWhirl.forward.total v + exWhirl.backward.total v)) = 22 := by
  have e : (∑ v ∈ range 4, (exWhirl.forward.total v + exWhirl.backward.total v)) = 22 := by
    rw [sum_congr rfl fun v hv => by rw [(whirl_totals v (mem_range.mp hv)).1, (whirl_totals v (mem_range.mp hv)).2]]
    simp [sum_range_succ]; norm_num
  refine ⟨sum_eq_zero fun v hv => ?_, ?_, e⟩
  · rw [(whirl_totals v (mem_range.mp hv)).1, (whirl_totals v (mem_range.mp hv)).2, sub_self, abs_zero]
  · rw [← e]
    exact sum_le_sum fun v hv => add_le_add
      (cycleInflow_bounds (forward_valid exWhirl_valid) (v := v) (mem_range.mp hv)).2
      (cycleInflow_bounds (backward_valid exWhirl_valid) (v := v) (mem_range.mp hv)).2

set_option maxRecDepth 100000 in
/-- C89, C90: the flow with the cycle 1 → 2 → 3 → 1, with `a` ten seconds. -/
example : ∃ S T, InjectionReturns whirlGraph whirlCalls [CellSet.ofCells ⟨[65]⟩ [0]] (.ok S) ∧
    ProductionReturns whirlGraph whirlCalls [CellSet.ofCells ⟨[80]⟩ [3]] (.ok T) ∧
    (∃ d e x y, pairFluxes S T ⟨[65]⟩ ⟨[80]⟩ whirlInflow = .ok (d, e) ∧ d.val = X.fin x ∧ e.val = X.fin y ∧ |x + y| ≤ 1 / 10000000) ∧
    (∃ V x, pairVolume S T [Arith.lit 1, Arith.lit 1, Arith.lit 1, Arith.lit 1] ⟨[65]⟩ ⟨[80]⟩ = .ok V ∧ V.val = X.fin x ∧
      |x - 2 * (doubleAt (S.timeOfFlightOf ⟨[65]⟩) 3 * doubleAt (S.concentration ⟨[65]⟩) 3)| ≤ 1 / 5) := by
  obtain ⟨S, h1, h3⟩ := quick_spec (i := ⟨[65]⟩)
    (r := injectionOutcome whirlGraph whirlCalls noFailure 100 [CellSet.ofCells ⟨[65]⟩ [0]]) (by decide +kernel)
  obtain ⟨T, h2, h4⟩ := quick_spec (i := ⟨[80]⟩)
    (r := productionOutcome whirlGraph whirlCalls noFailure 100 [CellSet.ofCells ⟨[80]⟩ [3]]) (by decide +kernel)
  have r1 := (Fuel.injection_returns.mpr ⟨100, h1, by simp⟩).1
  have r2 := (Fuel.production_returns.mpr ⟨100, h2, by simp⟩).1
  refine ⟨S, T, r1, r2, ?_, ?_⟩
  · obtain ⟨d, e, x, y, a1, a2, a3, a4⟩ := C89_balance exWhirl_valid whirl_ordinary whirl_total.1 whirl_total.2 whirl_not_loop whirl_stored
      r1 r2 (w := ⟨⟨[65]⟩, [0], fun _ => 2⟩) (w' := ⟨⟨[80]⟩, [3], fun _ => -2⟩) (by simp [exWhirl]) (by simp [exWhirl])
      ⟨_, List.mem_singleton.mpr rfl, rfl⟩ ⟨_, List.mem_singleton.mpr rfl, rfl⟩ (m := whirlInflow) (by decide +kernel)
    refine ⟨d, e, x, y, a1, a2, a3, a4.trans ?_⟩
    obtain ⟨s1, s2, s3⟩ := whirl_sums
    change (∑ v ∈ range 4, |exWhirl.forward.total v - exWhirl.backward.total v|)
      + 1 / 1000000000 * (∑ v ∈ range 4, (exWhirl.forward.cycleInflow v + exWhirl.backward.cycleInflow v))
      + _ / _ * (∑ v ∈ range 4, (exWhirl.forward.total v + exWhirl.backward.total v))
      + _ / _ * ((∑ v ∈ range 4, _) + ∑ v ∈ range 4, _) ≤ _
    rw [s1, s3]
    generalize (∑ v ∈ range 4, (exWhirl.forward.cycleInflow v + exWhirl.backward.cycleInflow v)) = c at *
    simp only [Problem.wellAt, sum_range_succ, range_zero, sum_empty, show exWhirl.n = 4 from rfl]
    norm_num
    linarith
  · obtain ⟨V, x, a1, a2, a3⟩ := C90_producer exWhirl_valid whirl_ordinary whirl_total.1 whirl_total.2 whirl_not_loop whirl_stored
      r1 r2 (w := ⟨⟨[65]⟩, [0], fun _ => 2⟩) (w' := ⟨⟨[80]⟩, [3], fun _ => -2⟩) (by simp [exWhirl]) (by simp [exWhirl])
      ⟨_, List.mem_singleton.mpr rfl, rfl⟩ ⟨_, List.mem_singleton.mpr rfl, rfl⟩
      (pv := [Arith.lit 1, Arith.lit 1, Arith.lit 1, Arith.lit 1]) (by decide +kernel) (a := 10) (by norm_num) (by norm_num)
      (fun v ⟨p, h5, h6⟩ => (h3 v (reach_lt (by
        have : p = 0 := by simpa [posCells] using h5
        subst this; decide) h6)).1)
      (fun v ⟨p, h5, h6⟩ => le_trans (by
        exact one_div_le_one_div_of_le (by norm_num) (by
          calc (2 : ℚ) = 2 ^ 1 := by norm_num
            _ ≤ 2 ^ 300 := pow_le_pow_right₀ (by norm_num) (by norm_num))) (h3 v (reach_lt (by
        have : p = 0 := by simpa [posCells] using h5
        subst this; decide) h6)).2)
    refine ⟨V, x, a1, a2, ?_⟩
    obtain ⟨s1, s2, s3⟩ := whirl_sums
    have e : ∑ v ∈ range exWhirl.n, max (-Problem.wellAt (⟨⟨[80]⟩, [3], fun _ => -2⟩ : WellFlux ℚ) v) 0
        * (doubleAt (S.timeOfFlightOf ⟨[65]⟩) v * doubleAt (S.concentration ⟨[65]⟩) v)
        = 2 * (doubleAt (S.timeOfFlightOf ⟨[65]⟩) 3 * doubleAt (S.concentration ⟨[65]⟩) 3) := by
      simp [Problem.wellAt, sum_range_succ, show exWhirl.n = 4 from rfl]
    rw [e] at a3
    refine a3.trans ?_
    change 10 * (∑ v ∈ range 4, |exWhirl.forward.total v - exWhirl.backward.total v|)
      + _ * (∑ v ∈ range 4, (exWhirl.forward.cycleInflow v + exWhirl.backward.cycleInflow v))
      + _ * (_ / _) * (∑ v ∈ range 4, (exWhirl.forward.total v + exWhirl.backward.total v))
      + _ / _ * (∑ v ∈ range 4, (1 : ℚ)) ≤ _
    rw [s1, s3]
    generalize (∑ v ∈ range 4, (exWhirl.forward.cycleInflow v + exWhirl.backward.cycleInflow v)) = c at *
    simp only [sum_const, card_range, show exWhirl.n = 4 from rfl]
    norm_num
    linarith

theorem whirl_sink : 0 < exWhirl.sink 3 := by
  simp [exWhirl, Problem.sink, Problem.wellAt]

theorem whirl_leaves : ∀ v < 4, exWhirl.forward.Reach v 3 := by
  obtain ⟨h1, h2, h3, _⟩ := whirl_flux
  have e01 : exWhirl.forward.Edge 0 1 := ⟨by decide, by decide, by show 0 < exWhirl.flux 0 1; rw [h1]; norm_num⟩
  have e12 : exWhirl.forward.Edge 1 2 := ⟨by decide, by decide, by show 0 < exWhirl.flux 1 2; rw [h2]; norm_num⟩
  have e23 : exWhirl.forward.Edge 2 3 := ⟨by decide, by decide, by show 0 < exWhirl.flux 2 3; rw [h3]; norm_num⟩
  intro v hv
  interval_cases v
  · exact ((Relation.ReflTransGen.single e01).tail e12).tail e23
  · exact (Relation.ReflTransGen.single e12).tail e23
  · exact Relation.ReflTransGen.single e23
  · exact Relation.ReflTransGen.refl

/-- C89, C90: what the theorems on sums assume holds for this flow too; it is balanced, all of it comes from the injector and gets
    to the producer.  Times and errors are as in the example for C82. -/
example : (∀ v < exWhirl.n, exWhirl.forward.total v = exWhirl.backward.total v) ∧
    (∀ u < exWhirl.n, ∃ p < exWhirl.n, 0 < exWhirl.source p ∧ exWhirl.forward.Reach p u) ∧
    (∀ u < exWhirl.n, ∃ p < exWhirl.n, 0 < exWhirl.sink p ∧ exWhirl.forward.Reach u p) ∧
    (∀ i ∈ exWhirl.injectors, ∃ s ∈ [CellSet.ofCells ⟨[65]⟩ [0]], s.id = i.id) ∧
    (∀ p ∈ exWhirl.producers, ∃ s ∈ [CellSet.ofCells ⟨[80]⟩ [3]], s.id = p.id) := by
  refine ⟨fun v hv => (whirl_totals v hv).1.trans (whirl_totals v hv).2.symm,
    fun u hu => ⟨0, by decide, whirl_source, whirl_reached u hu⟩, fun u hu => ⟨3, by decide, whirl_sink, whirl_leaves u hu⟩, ?_, ?_⟩
  · intro w hw
    obtain ⟨h1, h2⟩ := List.mem_filter.mp hw
    simp only [exWhirl, List.mem_cons, List.not_mem_nil, or_false] at h1
    rcases h1 with rfl | rfl
    · exact ⟨_, List.mem_singleton.mpr rfl, rfl⟩
    · norm_num at h2
  · intro w hw
    obtain ⟨h1, h2⟩ := List.mem_filter.mp hw
    simp only [exWhirl, List.mem_cons, List.not_mem_nil, or_false] at h1
    rcases h1 with rfl | rfl
    · norm_num at h2
    · exact ⟨_, List.mem_singleton.mpr rfl, rfl⟩

end Verif.Props
