/-
C85: sweep efficiency in `double`s.
-/
import Verif.Proofs.SweepDouble
import Verif.Props.Lorenz
import Verif.Proofs.DoubleInt
import Mathlib.Data.List.Permutation

namespace Verif.Props
open Verif.Spec Verif.Derived Verif.Rounding Finset

variable {I : CurveInput ℚ} {inj prod pv : List Double} {frac : Double} {sort : List (Double × Double) → List (Double × Double)}

/-- **C85** With `double`s of ordinary magnitude, when each cell with pore volume has at least a fraction `μ` of the pore volume
    and of the sum of pore volumes by travel times, and `μ` is at least `16 (2 n + 5) / 2^51`: for a cutoff within `(n + 1) / 2^51` of
    the one asked for, sweep efficiency has a point for each cell with pore volume that is not ignored.  Its time differs from the travel
    time by the mean travel time by at most a fraction `6 (2 n + 5) / (2^51 μ)`.  Its efficiency differs from the fraction of the volume
    filled at that time by at most `12 (2 n + 5) / (2^51 μ)`. -/
theorem C85_points (h : I.OfOrdinarySize) (hd : I.StoredAs inj prod pv frac) (hs : SortsPairs sort) (hn : I.n < INT_MAX) {μ : ℚ}
    (hμ : 16 * (2 * I.n + 5) / 2 ^ 51 ≤ μ)
    (hpart : ∀ v < I.n, I.pv v = 0 ∨ μ * (∑ u ∈ range I.n, I.pv u) ≤ I.pv v ∧
      μ * (∑ u ∈ range I.n, I.pv u / I.time u) ≤ I.pv v / I.time v) :
    ∃ θ, |θ - I.frac| ≤ (I.n + 1) / 2 ^ 51 * I.frac ∧ ∃ g tD Ev, ∃ cells : List Nat, Derived.curve sort inj prod pv frac = .ok g ∧
      sweepEfficiency g = .ok (Arith.lit 0 :: tD, Arith.lit 0 :: Ev) ∧
      cells.Nodup ∧ (∀ v, v ∈ cells ↔ (I.withFraction θ).Kept v ∧ 0 < I.pv v) ∧
      List.Forall₂ (fun (d : Double) v => ∃ x, d.val = X.fin x ∧
        |x - I.time v * (I.withFraction θ).rate / (I.withFraction θ).volume|
          ≤ 6 * ((2 * I.n + 5) / 2 ^ 51 / μ) * (I.time v * (I.withFraction θ).rate / (I.withFraction θ).volume)) tD cells ∧
      List.Forall₂ (fun (d : Double) v => ∃ x, d.val = X.fin x ∧
        |x - (I.withFraction θ).swept (I.time v) / (I.withFraction θ).volume| ≤ 12 * ((2 * I.n + 5) / 2 ^ 51 / μ)) Ev cells :=
  sweep_double h hd hs hn hμ hpart

/-- The hypotheses hold for the three cells of the earlier examples. -/
example : exCurve.OfOrdinarySize ∧ exCurve.StoredAs [Arith.lit 1, Arith.lit 2, Arith.lit 1] [Arith.lit 1, Arith.lit 1, Arith.lit 5]
    [Arith.lit 2, Arith.lit 1, Arith.lit 100] (Arith.lit (1 / 2)) ∧ SortsPairs (sortBy Double.rounded) ∧ exCurve.n < INT_MAX ∧
    16 * (2 * exCurve.n + 5) / 2 ^ 51 ≤ (1 / 103 : ℚ) ∧
    ∀ v < exCurve.n, exCurve.pv v = 0 ∨ (1 / 103 : ℚ) * (∑ u ∈ range exCurve.n, exCurve.pv u) ≤ exCurve.pv v ∧
      (1 / 103 : ℚ) * (∑ u ∈ range exCurve.n, exCurve.pv u / exCurve.time u) ≤ exCurve.pv v / exCurve.time v := by
  refine ⟨exCurve_ordinary, exCurve_stored, sortsPairs_sortBy _, by decide, by norm_num [exCurve], ?_⟩
  intro v hv
  right
  have h1 : ∑ u ∈ range exCurve.n, exCurve.pv u = 103 := by
    show ∑ u ∈ range 3, _ = _
    rw [sum_range_succ, sum_range_succ, sum_range_one]; norm_num [exCurve]
  have h2 : ∑ u ∈ range exCurve.n, exCurve.pv u / exCurve.time u = 18 := by
    show ∑ u ∈ range 3, _ = _
    rw [sum_range_succ, sum_range_succ, sum_range_one]; norm_num [exCurve, CurveInput.time]
  rw [h1, h2]
  change v < 3 at hv
  interval_cases v <;> norm_num [exCurve, CurveInput.time]

/-! ### Cells with a small part of the flow -/

/-- Times of flight from the injectors and to the producers. -/
def slowTimes : List Double := [Arith.lit (1 / 2), Arith.lit (2 ^ 52), Arith.lit (2 ^ 52)]
/-- Pore volumes. -/
def slowVolumes : List Double := [Arith.lit (1 - 1 / 2 ^ 51), Arith.lit (7 / 5), Arith.lit (13 / 5)]
/-- Two of three cells have travel times `2^53` times that of the first. -/
def slowCurve : CurveInput ℚ :=
  { n := 3, inj := doubleIn slowTimes, prod := doubleIn slowTimes, pv := doubleIn slowVolumes, frac := 1 }

/-- Travel times and pore volumes of the cells. -/
def slowEntries : List (Double × Double) :=
  [(Arith.lit 1, Arith.lit (1 - 1 / 2 ^ 51)), (Arith.lit (2 ^ 53), Arith.lit (7 / 5)), (Arith.lit (2 ^ 53), Arith.lit (13 / 5))]

/-- What is false of the sweep efficiency of sorted entries. -/
def notSweep (l : List (Double × Double)) : Bool :=
  match sweepEfficiency (cumulativeNormalized l (fun i => i.2), cumulativeNormalized l fun i => Arith.div i.2 i.1) with
  | .ok (tD, Ev) => decide (5 / 4 < doubleIn Ev 2 ∧ doubleIn Ev 3 < doubleIn Ev 2 ∧ doubleIn tD 3 < doubleIn tD 2)
  | _ => false

theorem slow_sorted : ∀ l ∈ slowEntries.permutations', (l.Pairwise fun a b =>
    Arith.lt b.1 a.1 = false ∧ (Arith.lt a.1 b.1 = true ∨ Arith.lt b.2 a.2 = false)) → notSweep l = true := by
  decide +kernel

/-- **C85** Sweep efficiency computed with `double`s of ordinary magnitude may exceed 1 by more than a quarter, and decrease, and so may its
    time: C47 does not hold for them without the hypothesis on the cells' parts. -/
theorem C85_not_monotone : slowCurve.OfOrdinarySize ∧ slowCurve.StoredAs slowTimes slowTimes slowVolumes (Arith.lit 1) ∧
    ∀ sort, SortsPairs sort → ∃ g tD Ev, Derived.curve sort slowTimes slowTimes slowVolumes (Arith.lit 1) = .ok g ∧
      sweepEfficiency g = .ok (tD, Ev) ∧
      5 / 4 < doubleIn Ev 2 ∧ doubleIn Ev 3 < doubleIn Ev 2 ∧ doubleIn tD 3 < doubleIn tD 2 := by
  refine ⟨?_, ?_, ?_⟩
  · have ord : ∀ x : ℚ, 1 / 2 ≤ x → x ≤ 2 ^ 53 → 0 ≤ x ∧ Ordinary x := by
      intro x h1 h2
      refine ⟨by linarith, Or.inr ?_⟩
      rw [abs_of_nonneg (by linarith)]
      norm_num at h2 ⊢
      constructor <;> linarith
    have hti : ∀ v < 3, 1 / 2 ≤ doubleIn slowTimes v ∧ doubleIn slowTimes v ≤ 2 ^ 53 := by decide +kernel
    have hpv : ∀ v < 3, 1 / 2 ≤ doubleIn slowVolumes v ∧ doubleIn slowVolumes v ≤ 2 ^ 53 := by decide +kernel
    have hsm : 2 * doubleIn slowVolumes 0 ≤ doubleIn slowVolumes 0 + doubleIn slowVolumes 1 + doubleIn slowVolumes 2 := by decide +kernel
    refine ⟨by decide, fun v hv => ord _ (hti v hv).1 (hti v hv).2, fun v hv => ord _ (hti v hv).1 (hti v hv).2,
      fun v hv => ord _ (hpv v hv).1 (hpv v hv).2, fun v hv => ?_, ⟨by norm_num [slowCurve], (ord 1 (by norm_num) (by norm_num)).2⟩, 0, by decide, ?_, ?_⟩
    · have := (hti v hv).1
      show 0 < doubleIn slowTimes v + doubleIn slowTimes v
      linarith
    · have := (hpv 0 (by decide)).1
      show 0 < doubleIn slowVolumes 0
      linarith
    · show 2 * doubleIn slowVolumes 0 ≤ 1 * ∑ u ∈ range 3, doubleIn slowVolumes u
      rw [sum_range_succ, sum_range_succ, sum_range_one, one_mul]
      exact hsm
  · have e : ∀ f : Nat → ℚ, arr slowCurve.n f = [X.fin (f 0), X.fin (f 1), X.fin (f 2)] := fun f => rfl
    constructor
    · rw [e]; decide +kernel
    · rw [e]; decide +kernel
    · rw [e]; decide +kernel
    · decide +kernel
  · intro sort hs
    have hent : timesAndPvs slowTimes slowTimes slowVolumes (Arith.mul (Arith.lit 1) (slowVolumes.foldl Arith.add Arith.zero)) (List.range 3)
        = .ok slowEntries := by
      have e : ∀ r : Res (List (Double × Double)), (match r with | .ok l => decide (l = slowEntries) | _ => false) = true → r = .ok slowEntries := by
        intro r h
        cases r with
        | ok l => exact congrArg Res.ok (of_decide_eq_true h)
        | _ => exact absurd h (by simp)
      exact e _ (by decide +kernel)
    have hall : ∀ p ∈ slowEntries, Arith.eq p.1 p.1 = true ∧ Arith.eq p.2 p.2 = true := by decide +kernel
    obtain ⟨h1, h2⟩ := hs slowEntries hall
    have h3 := slow_sorted (sort slowEntries) (List.mem_permutations'.mpr h1) h2
    have hc : Derived.curve sort slowTimes slowTimes slowVolumes (Arith.lit 1) = .ok (cumulativeNormalized (sort slowEntries) (fun i => i.2),
        cumulativeNormalized (sort slowEntries) fun i => Arith.div i.2 i.1) := by
      have hsort : sortPairs sort slowEntries = .ok (sort slowEntries) := by
        unfold sortPairs
        rw [if_pos]
        decide +kernel
      unfold Derived.curve
      have hl : slowTimes.length = 3 ∧ slowVolumes.length = 3 := ⟨rfl, rfl⟩
      rw [hl.1, hl.2]
      have hn : narrowInt 3 = 3 := by decide
      simp only [ne_eq, not_true_eq_false, or_self, if_false, hn]
      rw [if_neg (by decide), show Int.toNat 3 = 3 from rfl, hent]
      simp only [Res.bind_eq, Res.ok_bind, Res.pure_eq]
      rw [hsort]
      rfl
    rw [hc]
    unfold notSweep at h3
    split at h3
    · next tD Ev e => exact ⟨_, tD, Ev, rfl, e, of_decide_eq_true h3⟩
    · exact absurd h3 (by decide)

end Verif.Props
