/-
C103: the names of the wells do not matter.
-/
import Verif.Proofs.Rename
import Verif.Proofs.Text
import Verif.Proofs.DoubleSign
import Verif.Props.Double

namespace Verif.Props
open Verif.Spec Verif.Toolbox Verif.Solver Verif.Derived

section
variable {R : Type} [Arith R]

/-- C103: for any arithmetic.  The inflows of each cell, added up in the order of the new names, must give what they gave in
    the order of the old names. -/
theorem C103_injection_sums {ρ : CellSetID → CellSetID} (hρ : Function.Injective ρ) {g : ConnectivityGraph}
    {calls calls' : List (Call R)} (h : SameButNames ρ g calls calls')
    (hs : ∀ c, addedUp (inflowsAt ((lastInflow calls).getD []) c) = addedUp (inflowsAt ((lastInflow calls').getD []) c))
    (al : Nat → Alloc) (fuel : Nat) (starts : List CellSet) :
    SameUpTo ρ (injectionOutcome g calls al fuel starts) (injectionOutcome g calls' al fuel (starts.map (renamedStart ρ))) := by
  rw [injectionOutcome_eq, injectionOutcome_eq, h.pv, h.flux, splitInflow_eq, splitInflow_eq]
  have hr := positives_ren hρ h.wells
  exact outcome_renamed hρ ⟨hr.only fun c => by rw [inflowsAt_eq, inflowsAt_eq]; exact hs c, hr.byId hρ⟩ _ _ _ _ _ _ _

/-- C103: production. -/
theorem C103_production_sums {ρ : CellSetID → CellSetID} (hρ : Function.Injective ρ) {g : ConnectivityGraph}
    {calls calls' : List (Call R)} (h : SameButNames ρ g calls calls')
    (hs : ∀ c, addedUp ((outflowsAt ((lastInflow calls).getD []) c).map Arith.neg) =
      addedUp ((outflowsAt ((lastInflow calls').getD []) c).map Arith.neg))
    (al : Nat → Alloc) (fuel : Nat) (starts : List CellSet) :
    SameUpTo ρ (productionOutcome g calls al fuel starts) (productionOutcome g calls' al fuel (starts.map (renamedStart ρ))) := by
  rw [productionOutcome_eq, productionOutcome_eq, h.pv, h.flux, splitInflow_eq, splitInflow_eq]
  have hr := negatives_ren hρ h.wells
  exact outcome_renamed hρ ⟨hr.only fun c => by rw [outflowsAt_eq, outflowsAt_eq]; exact hs c, hr.byId hρ⟩ _ _ _ _ _ _ _

omit [Arith R] in
theorem Renamed.find {ρ : CellSetID → CellSetID} (hρ : Function.Injective ρ) {m m' : InflowFlux R} (h : Renamed ρ m m')
    (i : CellSetID) : OMap.find m' (ρ i) = OMap.find m i := by
  have hn : (m.map fun set => set.1).Nodup := by
    have := (h.sets.map fun set => set.1).nodup_iff.mpr h.names
    rw [List.map_map] at this
    have e : ((fun set : CellSetID × CellSetValues R => set.1) ∘ fun set : CellSetID × CellSetValues R => (ρ set.1, set.2)) = ρ ∘ fun set : CellSetID × CellSetValues R => set.1 := rfl
    rw [e, ← List.map_map] at this
    exact List.Nodup.of_map _ this
  cases h1 : OMap.find m i with
  | none =>
    rw [OMap.find_none_iff] at h1 ⊢
    intro e he hc
    obtain ⟨x, hx, rfl⟩ := List.mem_map.mp (h.sets.mem_iff.mpr he)
    exact h1 x hx (hρ hc)
  | some v =>
    have hm := h.sets.mem_iff.mp (List.mem_map_of_mem (f := fun set => (ρ set.1, set.2)) (OMap.find_some_mem h1))
    cases h2 : OMap.find m' (ρ i) with
    | none => exact absurd rfl (OMap.find_none_iff.mp h2 _ hm)
    | some w =>
      have := List.inj_on_of_nodup_map h.names (OMap.find_some_mem h2) hm rfl
      rw [Prod.mk.injEq] at this
      rw [this.2]

/-- C103: the pore volume and the fluxes of a pair of wells. -/
theorem C103_pairs {ρ : CellSetID → CellSetID} (hρ : Function.Injective ρ) {m m' : InflowFlux R} (h : Renamed ρ m m')
    {S S' T T' : Solution R} (hS : RenamedSolution ρ S S') (hT : RenamedSolution ρ T T') (pv : List R) (i p : CellSetID) :
    pairVolume S' T' pv (ρ i) (ρ p) = pairVolume S T pv i p ∧
    pairFluxes S' T' (ρ i) (ρ p) m' = pairFluxes S T i p m := by
  constructor
  · unfold pairVolume
    rw [hS.concentration, hT.concentration]
  · unfold pairFluxes
    rw [hS.concentration, hT.concentration, Renamed.find hρ h, Renamed.find hρ h]

end

/-! ### Exact arithmetic -/

section
variable {K : Type} [Field K] [LinearOrder K]

omit [LinearOrder K] in
theorem exact_add_right_comm (a b c : X K) : X.add (X.add a b) c = X.add (X.add a c) b := by
  cases a <;> cases b <;> cases c <;> simp [X.add, add_right_comm]

theorem exact_addedUp {l l' : List (X K)} (h : l.Perm l') : addedUp l = addedUp l' :=
  h.foldl_eq' (fun a _ b _ z => exact_add_right_comm z a b) _

/-- C103: exact arithmetic. -/
theorem C103_injection {ρ : CellSetID → CellSetID} (hρ : Function.Injective ρ) {g : ConnectivityGraph}
    {calls calls' : List (Call (X K))} (h : SameButNames ρ g calls calls')
    (al : Nat → Alloc) (fuel : Nat) (starts : List CellSet) :
    SameUpTo ρ (injectionOutcome g calls al fuel starts) (injectionOutcome g calls' al fuel (starts.map (renamedStart ρ))) :=
  C103_injection_sums hρ h
    (fun c => by rw [← inflowsAt_eq, ← inflowsAt_eq]; exact exact_addedUp ((positives_ren hρ h.wells).values c)) al fuel starts

/-- C103: exact arithmetic, production. -/
theorem C103_production {ρ : CellSetID → CellSetID} (hρ : Function.Injective ρ) {g : ConnectivityGraph}
    {calls calls' : List (Call (X K))} (h : SameButNames ρ g calls calls')
    (al : Nat → Alloc) (fuel : Nat) (starts : List CellSet) :
    SameUpTo ρ (productionOutcome g calls al fuel starts) (productionOutcome g calls' al fuel (starts.map (renamedStart ρ))) :=
  C103_production_sums hρ h
    (fun c => by rw [← outflowsAt_eq, ← outflowsAt_eq]; exact exact_addedUp ((negatives_ren hρ h.wells).values c)) al fuel starts

end

/-! ### Doubles -/

theorem double_add_comm (a b : Double) : Double.add a b = Double.add b a := by
  cases a with
  | nan => cases b <;> rfl
  | infinite s =>
    cases b with
    | nan => rfl
    | finite t k f _ => rfl
    | infinite t =>
      show (if s = t then _ else _) = if t = s then _ else _
      by_cases h : s = t
      · rw [h]
      · rw [if_neg h, if_neg (Ne.symm h)]
  | finite s m e _ =>
    cases b with
    | nan => rfl
    | infinite t => rfl
    | finite t k f _ =>
      show Double.ofRat (s && t) (_ + _) = Double.ofRat (t && s) (_ + _)
      rw [add_comm, Bool.and_comm]

theorem two_addedUp {R : Type} [Arith R] (hcomm : ∀ a b : R, Arith.add a b = Arith.add b a) {l l' : List R}
    (h : l.Perm l') (h2 : l.length ≤ 2) (hz : ∀ x ∈ l, Arith.add Arith.zero x = x) : addedUp l = addedUp l' := by
  match l, h2 with
  | [], _ => rw [h.symm.eq_nil]
  | [a], _ => rw [List.perm_singleton.mp h.symm]
  | [a, b], _ =>
    have ha := hz a (by simp)
    have hb := hz b (by simp)
    have hl := h.length_eq
    match l', hl with
    | [c, d], _ =>
      have hc : (c = a ∧ d = b) ∨ (c = b ∧ d = a) := by
        have hc : c ∈ [a, b] := h.mem_iff.mpr (by simp)
        rcases List.mem_cons.mp hc with rfl | hc
        · exact .inl ⟨rfl, (List.singleton_perm_singleton.mp (List.perm_cons c |>.mp h)).symm⟩
        · cases List.mem_singleton.mp hc
          exact .inr ⟨rfl, (List.singleton_perm_singleton.mp (List.perm_cons _ |>.mp ((List.Perm.swap _ _ _).trans h))).symm⟩
      rcases hc with ⟨rfl, rfl⟩ | ⟨rfl, rfl⟩
      · rfl
      · show Arith.add (Arith.add Arith.zero d) c = Arith.add (Arith.add Arith.zero c) d
        rw [ha, hb]
        exact hcomm _ _

theorem double_addedUp {l l' : List Double} (h : l.Perm l') (h2 : l.length ≤ 2) (hz : ∀ x ∈ l, x ≠ Double.zero true) :
    addedUp l = addedUp l' :=
  two_addedUp double_add_comm h h2 fun x hx => Text.add_zero_left (hz x hx)

theorem val_minus_zero : Double.val (Double.zero true) = X.fin 0 := by
  simp [Double.zero, Double.val, Double.signed]

theorem positive_not_zero {x : Double} (h : Arith.lt Arith.zero x = true) : x ≠ Double.zero true := by
  rintro rfl
  have h' : X.lt (Double.val Arith.zero) (Double.val (Double.zero true)) = true := h
  rw [Double.val_lit_zero, val_minus_zero] at h'
  simp [X.lt] at h'

theorem negative_not_zero {x : Double} (h : Arith.lt x Arith.zero = true) : Arith.neg x ≠ Double.zero true :=
  positive_not_zero (by rw [Double.signLaws.neg_pos]; exact h)

/-- C103: doubles, every cell being open to at most two injecting wells. -/
theorem C103_injection_double {ρ : CellSetID → CellSetID} (hρ : Function.Injective ρ) {g : ConnectivityGraph}
    {calls calls' : List (Call Double)} (h : SameButNames ρ g calls calls')
    (h2 : ∀ c, (inflowsAt ((lastInflow calls).getD []) c).length ≤ 2)
    (al : Nat → Alloc) (fuel : Nat) (starts : List CellSet) :
    SameUpTo ρ (injectionOutcome g calls al fuel starts) (injectionOutcome g calls' al fuel (starts.map (renamedStart ρ))) := by
  refine C103_injection_sums hρ h (fun c => ?_) al fuel starts
  have hp := (positives_ren hρ h.wells).values c
  rw [inflowsAt_eq, inflowsAt_eq] at hp
  refine double_addedUp hp (h2 c) fun x hx => ?_
  unfold inflowsAt at hx
  obtain ⟨set, _, hx⟩ := List.mem_flatMap.mp hx
  obtain ⟨e, he, rfl⟩ := List.mem_map.mp hx
  have := (List.mem_filter.mp he).2
  rw [Bool.and_eq_true] at this
  exact positive_not_zero this.2

/-- C103: doubles, every cell being open to at most two producing wells. -/
theorem C103_production_double {ρ : CellSetID → CellSetID} (hρ : Function.Injective ρ) {g : ConnectivityGraph}
    {calls calls' : List (Call Double)} (h : SameButNames ρ g calls calls')
    (h2 : ∀ c, (outflowsAt ((lastInflow calls).getD []) c).length ≤ 2)
    (al : Nat → Alloc) (fuel : Nat) (starts : List CellSet) :
    SameUpTo ρ (productionOutcome g calls al fuel starts) (productionOutcome g calls' al fuel (starts.map (renamedStart ρ))) := by
  refine C103_production_sums hρ h (fun c => ?_) al fuel starts
  have hp := (negatives_ren hρ h.wells).values c
  rw [outflowsAt_eq, outflowsAt_eq] at hp
  refine double_addedUp hp (by rw [List.length_map]; exact h2 c) fun x hx => ?_
  obtain ⟨y, hy, rfl⟩ := List.mem_map.mp hx
  unfold outflowsAt at hy
  obtain ⟨set, _, hy⟩ := List.mem_flatMap.mp hy
  obtain ⟨e, he, rfl⟩ := List.mem_map.mp hy
  have := (List.mem_filter.mp he).2
  rw [Bool.and_eq_true, Bool.and_eq_true] at this
  exact negative_not_zero this.2.1

/-! ### Cases -/

/-- Two names change places. -/
def exchange (a b i : CellSetID) : CellSetID := if i = a then b else if i = b then a else i

theorem exchange_injective (a b : CellSetID) : Function.Injective (exchange a b) := by
  intro i j h
  unfold exchange at h
  split at h <;> split at h <;> (try split at h) <;> (try split at h) <;> simp_all

/-- The circulating flow of `dblCalls`, the injector `I` being called `Z`: it is now listed after the producer `P`. -/
def dblRenamed : List (Call Double) :=
  [.assignPoreVolume dblPv, .assignConnectionFlux dblFlux,
   .assignInflowFlux [(⟨[80]⟩, [(3, Arith.lit (-1/3))]), (⟨[90]⟩, [(0, Arith.lit (1/3))])]]

theorem dbl_renamed : SameButNames (exchange ⟨[73]⟩ ⟨[90]⟩) dblGraph dblCalls dblRenamed where
  pv := rfl
  flux := rfl
  wells := ⟨List.Perm.swap _ _ _, by show List.Nodup [(⟨[80]⟩ : CellSetID), ⟨[90]⟩]; decide⟩

theorem single_at (p : Int × Double → Bool) (c : Int) (x y : Double) :
    ([((⟨[73]⟩ : CellSetID), [((0 : Int), x)]), (⟨[80]⟩, [(3, y)])].flatMap fun set =>
      (set.2.filter fun e => decide (e.1 = c) && p e).map fun e => e.2).length ≤ 2 := by
  simp only [List.flatMap_cons, List.flatMap_nil, List.append_nil, List.length_append, List.length_map]
  exact Nat.add_le_add (List.length_filter_le _ [((0 : Int), x)]) (List.length_filter_le _ [((3 : Int), y)])

example (al : Nat → Alloc) (fuel : Nat) :
    SameUpTo (exchange ⟨[73]⟩ ⟨[90]⟩) (injectionOutcome dblGraph dblCalls al fuel dblInjectors)
      (injectionOutcome dblGraph dblRenamed al fuel [CellSet.ofCells ⟨[90]⟩ [0]]) ∧
    SameUpTo (exchange ⟨[73]⟩ ⟨[90]⟩) (productionOutcome dblGraph dblCalls al fuel dblProducers)
      (productionOutcome dblGraph dblRenamed al fuel [CellSet.ofCells ⟨[80]⟩ [3]]) :=
  ⟨C103_injection_double (exchange_injective _ _) dbl_renamed (fun c => single_at _ c _ _) al fuel dblInjectors,
   C103_production_double (exchange_injective _ _) dbl_renamed (fun c => single_at _ c _ _) al fuel dblProducers⟩

/-- With exact numbers, for any rates. -/
def exactNamed (q : ℚ) (m : InflowFlux (X ℚ)) : List (Call (X ℚ)) :=
  [.assignPoreVolume [.fin 1, .fin 1, .fin 2, .fin 1],
   .assignConnectionFlux ⟨4, 1, [.fin q, .fin (2 * q), .fin q, .fin q]⟩, .assignInflowFlux m]

example (q : ℚ) (al : Nat → Alloc) (fuel : Nat) :
    SameUpTo (exchange ⟨[73]⟩ ⟨[90]⟩)
      (injectionOutcome dblGraph (exactNamed q [(⟨[73]⟩, [(0, .fin q)]), (⟨[80]⟩, [(3, .fin (-q))])]) al fuel
        [CellSet.ofCells ⟨[73]⟩ [0]])
      (injectionOutcome dblGraph (exactNamed q [(⟨[80]⟩, [(3, .fin (-q))]), (⟨[90]⟩, [(0, .fin q)])]) al fuel
        [CellSet.ofCells ⟨[90]⟩ [0]]) ∧
    SameUpTo (exchange ⟨[73]⟩ ⟨[90]⟩)
      (productionOutcome dblGraph (exactNamed q [(⟨[73]⟩, [(0, .fin q)]), (⟨[80]⟩, [(3, .fin (-q))])]) al fuel
        [CellSet.ofCells ⟨[80]⟩ [3]])
      (productionOutcome dblGraph (exactNamed q [(⟨[80]⟩, [(3, .fin (-q))]), (⟨[90]⟩, [(0, .fin q)])]) al fuel
        [CellSet.ofCells ⟨[80]⟩ [3]]) := by
  have h : SameButNames (exchange ⟨[73]⟩ ⟨[90]⟩) dblGraph
      (exactNamed q [(⟨[73]⟩, [(0, .fin q)]), (⟨[80]⟩, [(3, .fin (-q))])])
      (exactNamed q [(⟨[80]⟩, [(3, .fin (-q))]), (⟨[90]⟩, [(0, .fin q)])]) :=
    ⟨rfl, rfl, List.Perm.swap _ _ _, by show List.Nodup [(⟨[80]⟩ : CellSetID), ⟨[90]⟩]; decide⟩
  exact ⟨C103_injection (exchange_injective _ _) h al fuel [CellSet.ofCells ⟨[73]⟩ [0]],
    C103_production (exchange_injective _ _) h al fuel [CellSet.ofCells ⟨[80]⟩ [3]]⟩

/-! ### Three wells in one cell

Doubles are added up in the order of the names, and each sum is rounded: the total inflow of a cell that is open to three wells
may depend on their names. -/

/-- Three wells `A`, `B` and `C` inject into cell 0, from where the water flows to cell 1. -/
def trioCalls (a b c : Double) : List (Call Double) :=
  [.assignPoreVolume [Arith.lit 1, Arith.lit 1], .assignConnectionFlux ⟨1, 1, [Arith.lit 1]⟩,
   .assignInflowFlux [(⟨[65]⟩, [(0, a)]), (⟨[66]⟩, [(0, b)]), (⟨[67]⟩, [(0, c)])]]

/-- The time of flight of cell 0. -/
def trioTime (r : Res (Solution Double)) : Option ℚ :=
  match r with
  | .ok s => match s.timeOfFlight with
    | t :: _ => match t.val with
      | .fin x => some x
      | _ => none
    | [] => none
  | _ => none

set_option maxRecDepth 100000 in
theorem trio_differ :
    trioTime (injectionOutcome ⟨2, [0, 1]⟩ (trioCalls (Arith.lit 1) (Arith.lit (1 / 2 ^ 53)) (Arith.lit (1 / 2 ^ 53)))
        noFailure 100 []) = some 1 ∧
    trioTime (injectionOutcome ⟨2, [0, 1]⟩ (trioCalls (Arith.lit (1 / 2 ^ 53)) (Arith.lit (1 / 2 ^ 53)) (Arith.lit 1))
        noFailure 100 []) = some (1 - 1 / 2 ^ 52) := by
  decide +kernel

/-- C103: the bound on the number of wells in a cell cannot be dropped for doubles. -/
theorem C103_three_wells : ∃ (ρ : CellSetID → CellSetID) (g : ConnectivityGraph) (calls calls' : List (Call Double)),
    Function.Injective ρ ∧ SameButNames ρ g calls calls' ∧
    (∀ c, (inflowsAt ((lastInflow calls).getD []) c).length ≤ 3) ∧
    ¬ SameUpTo ρ (injectionOutcome g calls noFailure 100 []) (injectionOutcome g calls' noFailure 100 []) := by
  refine ⟨exchange ⟨[65]⟩ ⟨[67]⟩, ⟨2, [0, 1]⟩, trioCalls (Arith.lit 1) (Arith.lit (1 / 2 ^ 53)) (Arith.lit (1 / 2 ^ 53)),
    trioCalls (Arith.lit (1 / 2 ^ 53)) (Arith.lit (1 / 2 ^ 53)) (Arith.lit 1), exchange_injective _ _,
    ⟨rfl, rfl, ?_, by show List.Nodup [(⟨[65]⟩ : CellSetID), ⟨[66]⟩, ⟨[67]⟩]; decide⟩, fun c => ?_, fun h => ?_⟩
  · show List.Perm [(⟨[67]⟩, [(0, Arith.lit 1)]), (⟨[66]⟩, [(0, Arith.lit (1 / 2 ^ 53))]), (⟨[65]⟩, [(0, Arith.lit (1 / 2 ^ 53))])]
      [((⟨[65]⟩ : CellSetID), [((0 : Int), (Arith.lit (1 / 2 ^ 53) : Double))]), (⟨[66]⟩, [(0, Arith.lit (1 / 2 ^ 53))]),
        (⟨[67]⟩, [(0, Arith.lit 1)])]
    exact (List.reverse_perm _).symm.trans (List.Perm.of_eq rfl)
  · show (List.flatMap _ [((⟨[65]⟩ : CellSetID), [((0 : Int), (Arith.lit 1 : Double))]), (⟨[66]⟩, [(0, Arith.lit (1 / 2 ^ 53))]),
      (⟨[67]⟩, [(0, Arith.lit (1 / 2 ^ 53))])]).length ≤ 3
    simp only [List.flatMap_cons, List.flatMap_nil, List.append_nil, List.length_append, List.length_map]
    exact Nat.add_le_add (List.length_filter_le _ [((0 : Int), (_ : Double))])
      (Nat.add_le_add (List.length_filter_le _ [((0 : Int), (_ : Double))]) (List.length_filter_le _ [((0 : Int), (_ : Double))]))
  · obtain ⟨h1, h2⟩ := trio_differ
    generalize injectionOutcome ⟨2, [0, 1]⟩ (trioCalls (Arith.lit 1) (Arith.lit (1 / 2 ^ 53)) (Arith.lit (1 / 2 ^ 53)))
        noFailure 100 [] = r at h h1
    generalize injectionOutcome ⟨2, [0, 1]⟩ (trioCalls (Arith.lit (1 / 2 ^ 53)) (Arith.lit (1 / 2 ^ 53)) (Arith.lit 1))
        noFailure 100 [] = r' at h h2
    cases r <;> cases r' <;> first | exact h | (simp [trioTime] at h1; done) | skip
    rename_i s s'
    have h' : RenamedSolution _ s s' := h
    unfold trioTime at h1 h2
    simp only [h'.tof] at h2
    have h3 := h2.symm.trans h1
    norm_num at h3

end Verif.Props
