/-
Properties C37 and C39 with IEEE doubles.
-/
import Verif.Props.Toolbox
import Verif.Proofs.DoubleSign

namespace Verif.Props
open Verif.Spec Verif.Toolbox Verif.Solver

/-- **C37** with doubles: production diagnostics are, bit by bit, injection diagnostics of the
    reversed flow. -/
theorem C37_doubles {g : ConnectivityGraph} {n : Nat} {cs : List (Nat × Nat)}
    (hg : ValidConnectivity g n cs) {calls calls' : List (Call Double)}
    (hpv : lastPoreVolume g calls' = lastPoreVolume g calls) {np : Nat} {phi : Nat → Nat → Double}
    (hf : FluxGiven g calls np phi) (hf' : FluxGiven g calls' np fun c p => Double.neg (phi c p))
    (hm : lastInflow calls' = (lastInflow calls).map negated) (al : Nat → Alloc) (fuel : Nat)
    (starts : List CellSet) :
    productionOutcome g calls al fuel starts = injectionOutcome g calls' al fuel starts ∧
    injectionOutcome g calls al fuel starts = productionOutcome g calls' al fuel starts :=
  C37_reversed Double.signLaws hg hpv hf hf' hm al fuel starts

/-- **C39** with doubles: exchanging the two cells of connections while negating their fluxes changes
    nothing, bit by bit. -/
theorem C39_exchanged_doubles {g g' : ConnectivityGraph} {n : Nat} {cs cs' : List (Nat × Nat)}
    (hg : ValidConnectivity g n cs) (hg' : ValidConnectivity g' n cs')
    {calls calls' : List (Call Double)}
    (hpv : lastPoreVolume g' calls' = lastPoreVolume g calls) (hm : lastInflow calls' = lastInflow calls)
    {np : Nat} {phi phi' : Nat → Nat → Double} (hf : FluxGiven g calls np phi)
    (hf' : FluxGiven g' calls' np phi') (hl : cs'.length = cs.length)
    (h : ∀ c (hc : c < cs.length), (cs'[c] = cs[c] ∧ ∀ p < np, phi' c p = phi c p) ∨
      (cs'[c] = (cs[c].2, cs[c].1) ∧ ∀ p < np, phi' c p = Double.neg (phi c p)))
    (al : Nat → Alloc) (fuel : Nat) (starts : List CellSet) :
    injectionOutcome g' calls' al fuel starts = injectionOutcome g calls al fuel starts ∧
    productionOutcome g' calls' al fuel starts = productionOutcome g calls al fuel starts :=
  C39_exchanged_cells Double.signLaws hg hg' hpv hm hf hf' hl h al fuel starts

/-! ### Examples -/

/-- One tenth, rounded, as pore volumes and fluxes. -/
def exTenth : Double := Double.ofRat false (1 / 10)

/-- Two cells and one connection; one phase carries `x`. -/
def exTenthCalls (x : Double) (m : InflowFlux Double) : List (Call Double) :=
  [.assignPoreVolume [exTenth, exTenth], .assignConnectionFlux ⟨1, 1, [x]⟩, .assignInflowFlux m]

def exTenthWells : InflowFlux Double :=
  [(⟨[65]⟩, [(0, exTenth)]), (⟨[80]⟩, [(1, Double.neg exTenth)])]

/-- The connection goes from cell 0 to cell 1, respectively the other way. -/
def exThere : ConnectivityGraph := ⟨2, [0, 1]⟩
def exBack : ConnectivityGraph := ⟨2, [1, 0]⟩

theorem exTenth_flux (g : ConnectivityGraph) (hg : g.numConnections = 1) (x : Double)
    (m : InflowFlux Double) : FluxGiven g (exTenthCalls x m) 1 fun _ _ => x := by
  refine ⟨⟨1, 1, [x]⟩, ?_, hg.symm, rfl, ?_⟩
  · simp only [lastFlux, exTenthCalls, lastSome, hg]
    rfl
  intro c hc p hp
  rw [hg] at hc
  obtain rfl : c = 0 := by omega
  obtain rfl : p = 0 := by omega
  rfl

theorem exThere_valid : ValidConnectivity exThere 2 [(0, 1)] where
  cells := rfl
  count := rfl
  connection := by
    intro i h
    obtain rfl : i = 0 := by simp at h; exact h
    rfl
  int := by decide
  range := by simp

theorem exBack_valid : ValidConnectivity exBack 2 [(1, 0)] where
  cells := rfl
  count := rfl
  connection := by
    intro i h
    obtain rfl : i = 0 := by simp at h; exact h
    rfl
  int := by decide
  range := by simp

/-- Reversed. -/
example (al : Nat → Alloc) (fuel : Nat) (starts : List CellSet) :
    productionOutcome exThere (exTenthCalls exTenth exTenthWells) al fuel starts =
      injectionOutcome exThere (exTenthCalls (Double.neg exTenth) (negated exTenthWells)) al fuel
        starts :=
  (C37_doubles (calls := exTenthCalls exTenth exTenthWells)
    (calls' := exTenthCalls (Double.neg exTenth) (negated exTenthWells)) exThere_valid rfl
    (exTenth_flux _ rfl _ _) (exTenth_flux _ rfl _ _) rfl al fuel starts).1

/-- The cells exchanged. -/
example (al : Nat → Alloc) (fuel : Nat) (starts : List CellSet) :
    injectionOutcome exBack (exTenthCalls (Double.neg exTenth) exTenthWells) al fuel starts =
      injectionOutcome exThere (exTenthCalls exTenth exTenthWells) al fuel starts :=
  (C39_exchanged_doubles (calls := exTenthCalls exTenth exTenthWells)
    (calls' := exTenthCalls (Double.neg exTenth) exTenthWells) exThere_valid exBack_valid rfl rfl
    (exTenth_flux _ rfl _ _) (exTenth_flux _ rfl _ _) rfl
    (by
      intro c hc
      obtain rfl : c = 0 := by simp at hc; exact hc
      exact .inr ⟨rfl, fun _ _ => rfl⟩) al fuel starts).1

/-- These calls return solutions. -/
example : ∃ sol, injectionOutcome exThere (exTenthCalls exTenth exTenthWells) noFailure 50
    [CellSet.ofCells ⟨[65]⟩ [0]] = .ok sol := by
  have h : (match injectionOutcome exThere (exTenthCalls exTenth exTenthWells) noFailure 50
      [CellSet.ofCells ⟨[65]⟩ [0]] with
      | .ok _ => true
      | _ => false) = true := by decide +kernel
  split at h
  · exact ⟨_, by assumption⟩
  · cases h

end Verif.Props
