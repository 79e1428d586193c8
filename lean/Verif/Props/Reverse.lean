/-
C105: reversing the flow exchanges the wells of a pair.
-/
import Verif.Spec.Reverse
import Verif.Props.DoubleSymmetry
import Verif.Props.SupportAny
import Verif.Props.Pairs
import Verif.Props.PairAccuracy
import Verif.Props.Communication
import Verif.Spec.CyclicDouble
import Verif.Proofs.DoubleSign

namespace Verif.Props
open Verif.Spec Verif.Toolbox Verif.Solver Verif.Derived

/-! ### The laws -/

theorem productLaws_exact (K : Type) [Field K] [LinearOrder K] [IsStrictOrderedRing K] : ProductLaws (X K) where
  neg_mul x y := by
    show X.mul (X.neg x) y = X.neg (X.mul x y)
    cases x <;> cases y <;> simp [X.neg, X.mul]
    all_goals
      simp only [X.infSign]
      try simp only [Left.neg_pos_iff, Left.neg_neg_iff]
      rename_i a
      rcases lt_trichotomy a 0 with h | h | h
      · simp [h, h.not_gt]
      · simp [h]
      · simp [h, h.not_gt]
  zero_mul x y hx hy := by
    rw [X_zero] at *
    obtain ⟨h1, h2⟩ := hy
    rw [X_zero] at h1
    cases x <;> simp [Arith.eq, X.eq] at hx
    cases y <;> simp [Arith.le, X.lt, X.le, X.eq, Arith.lit] at h1 h2
    subst hx
    simp [Arith.mul, X.mul, Arith.eq, X.eq]
  neg_zero x := by
    rw [X_zero]
    cases x <;> simp [Arith.neg, X.neg, Arith.eq, X.eq]
  add_zero x y hy := by
    rw [X_zero] at hy
    left
    cases y <;> simp [Arith.eq, X.eq] at hy
    subst hy
    cases x <;> simp [Arith.add, X.add]

theorem exponent_le {m k : Nat} {e f : Int} (hm : IsDouble m e) (hk : IsDouble k f) (h : (m : ℚ) * 2 ^ e = k * 2 ^ f) : e ≤ f := by
  by_contra hlt
  obtain ⟨d, hd⟩ : ∃ d : Nat, e = f + 1 + d := ⟨(e - f - 1).toNat, by omega⟩
  have hm2 : 2 ^ 52 ≤ m := by
    rcases hm.2.2.2 with h | h
    · exact h
    · have := hk.2.1; omega
  have h2 : ((2 : ℚ) ^ f) ≠ 0 := zpow_ne_zero _ two_ne_zero
  have hmk : (m : ℚ) * (2 * 2 ^ d) = k := by
    rw [hd, zpow_add₀ two_ne_zero, zpow_add₀ two_ne_zero, zpow_one, zpow_natCast] at h
    exact mul_right_cancel₀ h2 (by rw [← h]; ring)
  have hn : m * (2 * 2 ^ d) = k := by exact_mod_cast hmk
  have h1 : 1 ≤ 2 ^ d := Nat.one_le_two_pow
  have := hk.1
  nlinarith

/-- Two `double`s of the same value are the same, unless they are zeros. -/
theorem _root_.Verif.Double.eq_of_val {x y : Double} (h0 : Double.val x ≠ X.fin 0) (h : Double.val x = Double.val y) : x = y := by
  cases x with
  | nan =>
    cases y with
    | nan => rfl
    | infinite t => cases t <;> simp [Double.val] at h
    | finite => simp [Double.val] at h
  | infinite s =>
    cases y with
    | nan => cases s <;> simp [Double.val] at h
    | infinite t => cases s <;> cases t <;> simp [Double.val] at h ⊢
    | finite => cases s <;> simp [Double.val] at h
  | finite s m e hm =>
    cases y with
    | nan => simp [Double.val] at h
    | infinite t => cases t <;> simp [Double.val] at h
    | finite t k f hk =>
      simp only [Double.val, X.fin.injEq] at h
      simp only [Double.val, ne_eq, X.fin.injEq] at h0
      have pm : (0 : ℚ) ≤ m * 2 ^ e := mul_nonneg (Nat.cast_nonneg _) (zpow_nonneg zero_le_two _)
      have pk : (0 : ℚ) ≤ k * 2 ^ f := mul_nonneg (Nat.cast_nonneg _) (zpow_nonneg zero_le_two _)
      have hst : s = t ∧ (m : ℚ) * 2 ^ e = k * 2 ^ f := by
        cases s <;> cases t <;> simp only [Double.signed, if_true, Bool.false_eq_true, if_false] at h h0
        · exact ⟨rfl, h⟩
        · exact absurd (by linarith) h0
        · exact absurd (by linarith) h0
        · exact ⟨rfl, by linarith⟩
      obtain ⟨rfl, hv⟩ := hst
      obtain rfl : e = f := le_antisymm (exponent_le hm hk hv) (exponent_le hk hm hv.symm)
      have h2 : ((2 : ℚ) ^ e) ≠ 0 := zpow_ne_zero _ two_ne_zero
      have : (m : ℚ) = k := mul_right_cancel₀ h2 hv
      obtain rfl : m = k := by exact_mod_cast this
      rfl

theorem _root_.Verif.Double.productLaws : ProductLaws Double where
  neg_mul x y := by
    show Double.mul (Double.neg x) y = Double.neg (Double.mul x y)
    cases x with
    | nan => cases y <;> rfl
    | infinite s =>
      cases y with
      | nan => rfl
      | infinite t => cases s <;> cases t <;> rfl
      | finite t k f h =>
        simp only [Double.neg, Double.mul]
        split
        · rfl
        · cases s <;> cases t <;> rfl
    | finite s m e h =>
      cases y with
      | nan => rfl
      | infinite t =>
        simp only [Double.neg, Double.mul]
        split
        · rfl
        · cases s <;> cases t <;> rfl
      | finite t k f h' =>
        simp only [Double.neg, Double.mul, Double.signed_not]
        rw [_root_.neg_mul]
        by_cases hz : Double.signed s ((m : ℚ) * 2 ^ e) * Double.signed t ((k : ℚ) * 2 ^ f) = 0
        · rw [hz, _root_.neg_zero]
          simp only [Double.ofRat, if_true]
          cases s <;> cases t <;> rfl
        · exact Double.neg_ofRat _ _ hz
  zero_mul x y hx hy := by
    rw [Double.eq_zero] at *
    obtain ⟨h1, h2⟩ := hy
    change X.le (Double.val Arith.zero) (Double.val y) = true at h1
    change X.le (Double.val y) (Double.val (Arith.lit 1)) = true at h2
    rw [show Double.val (Arith.lit 1) = X.fin 1 from Verif.Rounding.val_one Double.rounded] at h2
    rw [Double.val_lit_zero] at h1
    show Double.val (Double.mul x y) = _
    rw [Double.val_mul, hx]
    cases e : Double.val y <;> rw [e] at h1 h2 <;> simp [X.lt, X.le, X.eq] at h1 h2
    simp only [X.mul, zero_mul]
    exact Double.val_lit_zero ▸ Double.rnd_val Arith.zero
  neg_zero x := by
    rw [Bool.eq_iff_iff, Double.eq_zero, Double.eq_zero]
    show Double.val (Double.neg x) = _ ↔ _
    rw [Double.val_neg']
    cases Double.val x <;> simp [X.neg]
  add_zero x y hy := by
    rw [Double.eq_zero] at *
    rw [Double.eq_zero]
    have hv : Double.val (Double.add x y) = Double.val x := by
      rw [Double.val_add, hy]
      have : X.add (Double.val x) (X.fin 0) = Double.val x := by cases Double.val x <;> simp [X.add]
      rw [this, Double.rnd_val]
    by_cases h0 : Double.val x = X.fin 0
    · exact .inr ⟨h0, hv.trans h0⟩
    · exact .inl (Double.eq_of_val (hv ▸ h0) hv)

/-! ### Fluxes -/

section
variable {R : Type} [Arith R]

theorem opposite_symm (hs : SignLaws R) {x y : R} (h : Opposite x y) : Opposite y x := by
  rcases h with rfl | ⟨h1, h2⟩
  · exact .inl (hs.neg_neg y).symm
  · exact .inr ⟨h2, h1⟩

theorem opposite_add (hs : SignLaws R) {x y : R} (h : Opposite x y) (z : R) : Opposite (Arith.add x (Arith.neg z)) (Arith.add y z) := by
  rcases h with rfl | ⟨h1, h2⟩
  · rcases hs.neg_add y z with e | ⟨e1, e2⟩
    · exact .inl e
    · exact .inr ⟨e2, e1⟩
  · rcases hs.zero_add y x z h2 h1 with e | ⟨e1, e2⟩
    · exact .inl e
    · exact .inr ⟨e2, e1⟩

theorem opposite_zero (hl : ProductLaws R) {x y : R} (h : Opposite x y) {z : R} (hz : Arith.eq z Arith.zero = true) :
    Opposite (Arith.add x z) y := by
  rcases hl.add_zero x z hz with e | ⟨e1, e2⟩
  · rwa [e]
  · rcases h with rfl | ⟨_, h2⟩
    · exact .inr ⟨e2, by rwa [hl.neg_zero] at e1⟩
    · exact .inr ⟨e2, h2⟩

/-- What a well takes in when the flow is reversed is what it put out. -/
theorem pairFlux_negated (hs : SignLaws R) (hl : ProductLaws R) {tracer : CellSetValues R}
    (ht : ∀ e ∈ tracer, IsFraction e.2) : ∀ (set : CellSetValues R) (a b : R), (∀ e ∈ set, IsRate e.2) → Opposite a b →
    Opposite ((set.map fun e => (e.1, Arith.neg e.2)).foldl (addPairFlux tracer false) a) (set.foldl (addPairFlux tracer true) b)
  | [], a, b, _, h => h
  | e :: set, a, b, hr, h => by
    rw [List.map_cons, List.foldl_cons, List.foldl_cons]
    refine pairFlux_negated hs hl ht set _ _ (fun e he => hr e (.tail _ he)) ?_
    unfold addPairFlux
    dsimp only
    cases hf : tracer.find e.1 with
    | none => exact h
    | some c =>
      dsimp only
      rw [hs.neg_pos, hl.neg_mul]
      cases hp : Arith.lt Arith.zero e.2 with
      | true =>
        rw [hs.one_sign _ hp]
        exact opposite_add hs h _
      | false =>
        cases hn : Arith.lt e.2 Arith.zero with
        | true => exact h
        | false =>
          have hz := hl.zero_mul _ _ (hr e (.head _) ⟨hp, hn⟩) (ht _ (OMap.find_some_mem hf))
          exact opposite_zero hl h (by rwa [hl.neg_zero])

theorem find_negated (m : InflowFlux R) (i : CellSetID) :
    OMap.find (negated m) i = (OMap.find m i).map fun set => set.map fun e => (e.1, Arith.neg e.2) := by
  induction m with
  | nil => rfl
  | cons e m ih =>
    show OMap.find ((e.1, _) :: negated m) i = _
    rw [OMap.find_cons, OMap.find_cons]
    dsimp only
    split
    · rfl
    · exact ih

/-- **C105** (any arithmetic with these laws, such as doubles) For concentrations that are numbers between 0 and 1, and rates
    that are numbers: exchanging the two wells of a pair and their solutions and negating the inflow exchanges the two fluxes of
    the pair and changes their signs. -/
theorem C105_fluxes (hs : SignLaws R) (hl : ProductLaws R) {S T : Solution R} {i p : CellSetID}
    (hS : ∀ e ∈ S.concentration i, IsFraction e.2) (hT : ∀ e ∈ T.concentration p, IsFraction e.2) {m : InflowFlux R}
    (hm : ∀ set ∈ m, ∀ e ∈ set.2, IsRate e.2) {x y : R} (h : pairFluxes S T i p m = .ok (x, y)) :
    ∃ x' y', pairFluxes T S p i (negated m) = .ok (x', y') ∧ Opposite x' y ∧ Opposite y' x := by
  unfold pairFluxes at h ⊢
  rw [find_negated, find_negated]
  dsimp only at h ⊢
  cases e1 : OMap.find m i with
  | none => rw [e1] at h; cases h
  | some a =>
    rw [e1] at h
    cases e2 : OMap.find m p with
    | none => rw [e2] at h; cases h
    | some b =>
      rw [e2] at h
      cases h
      refine ⟨_, _, rfl, ?_, ?_⟩
      · have hz : Opposite (Arith.zero : R) Arith.zero := .inr ⟨hs.zero_eq, hs.zero_eq⟩
        have hr : ∀ e ∈ b.map fun e => (e.1, Arith.neg e.2), IsRate e.2 := by
          intro e he
          obtain ⟨e', he', rfl⟩ := List.mem_map.mp he
          intro hno
          rw [hl.neg_zero]
          refine hm _ (OMap.find_some_mem e2) e' he' ⟨?_, ?_⟩
          · rw [← hs.neg_lt]; exact hno.2
          · rw [← hs.neg_pos]; exact hno.1
        have := pairFlux_negated hs hl hS (b.map fun e => (e.1, Arith.neg e.2)) _ _ hr hz
        rw [List.map_map] at this
        have hid : (b.map ((fun e : Int × R => (e.1, Arith.neg e.2)) ∘ fun e => (e.1, Arith.neg e.2))) = b := by
          rw [show ((fun e : Int × R => (e.1, Arith.neg e.2)) ∘ fun e => (e.1, Arith.neg e.2)) = id from
            funext fun e => by simp [hs.neg_neg]]
          exact List.map_id b
        rw [hid] at this
        exact opposite_symm hs this
      · exact pairFlux_negated hs hl hT a _ _ (fun e he => hm _ (OMap.find_some_mem e1) e he) (.inr ⟨hs.zero_eq, hs.zero_eq⟩)

/-- **C105** (any arithmetic with these laws) With negated connection fluxes and negated inflow, injection diagnostics return what
    production diagnostics returned, and the other way round.  So for each pair of wells, the first being the injector before and
    the producer after, the two fluxes are exchanged and change their signs, if the rates are numbers and the concentrations
    numbers between 0 and 1. -/
theorem C105_reversed (hs : SignLaws R) (hl : ProductLaws R) {g : ConnectivityGraph} {n : Nat} {cs : List (Nat × Nat)}
    (hg : ValidConnectivity g n cs) {calls calls' : List (Call R)}
    (hpv : lastPoreVolume g calls' = lastPoreVolume g calls) {np : Nat} {phi : Nat → Nat → R}
    (hf : FluxGiven g calls np phi) (hf' : FluxGiven g calls' np fun c p => Arith.neg (phi c p)) {m : InflowFlux R}
    (hm : lastInflow calls = some m) (hm' : lastInflow calls' = some (negated m)) {istarts pstarts : List CellSet}
    {S T S' T' : Solution R} (hS : InjectionReturns g calls istarts (.ok S)) (hT : ProductionReturns g calls pstarts (.ok T))
    (hS' : InjectionReturns g calls' pstarts (.ok S')) (hT' : ProductionReturns g calls' istarts (.ok T')) :
    S' = T ∧ T' = S ∧
    ∀ i p, (∀ e ∈ S.concentration i, IsFraction e.2) → (∀ e ∈ T.concentration p, IsFraction e.2) →
      (∀ set ∈ m, ∀ e ∈ set.2, IsRate e.2) → ∀ x y, pairFluxes S T i p m = .ok (x, y) →
      ∃ x' y', pairFluxes S' T' p i (negated m) = .ok (x', y') ∧ Opposite x' y ∧ Opposite y' x := by
  have hn : lastInflow calls' = (lastInflow calls).map negated := by rw [hm, hm']; rfl
  have e1 : S' = T := by
    obtain ⟨N, hN⟩ := hS'
    obtain ⟨M, hM⟩ := hT
    have := (C37_reversed hs hg hpv hf hf' hn noFailure (max N M) pstarts).1
    rw [hN _ (le_max_left ..), hM _ (le_max_right ..)] at this
    cases this; rfl
  have e2 : T' = S := by
    obtain ⟨N, hN⟩ := hT'
    obtain ⟨M, hM⟩ := hS
    have := (C37_reversed hs hg hpv hf hf' hn noFailure (max N M) istarts).2
    rw [hN _ (le_max_left ..), hM _ (le_max_right ..)] at this
    cases this; rfl
  subst e1 e2
  exact ⟨rfl, rfl, fun i p h1 h2 h3 x y h => C105_fluxes hs hl h1 h2 h3 h⟩

end

/-! ### Exact arithmetic -/

section exact
variable {K : Type} [Field K] [LinearOrder K] [IsStrictOrderedRing K]

omit [IsStrictOrderedRing K] in
/-- **C105** (exact arithmetic) The volume of a pair does not change when the two wells and their solutions are exchanged. -/
theorem C105_volume {S T : Solution (X K)} {i p : CellSetID} {n : Nat} (hS : IsTracer n (S.concentration i))
    (hT : IsTracer n (T.concentration p)) (f : Nat → K) : pairVolume T S (arr n f) p i = pairVolume S T (arr n f) i p := by
  rw [C49_value hS hT, C49_value hT hS]
  refine congrArg (fun x => Res.ok (X.fin x)) (Finset.sum_congr rfl fun v _ => ?_)
  ring

omit [IsStrictOrderedRing K] in
theorem opposite_fin {x : X K} {y : K} (h : Opposite x (X.fin y)) : x = X.fin (-y) := by
  rcases h with h | ⟨h1, h2⟩
  · exact h
  · rw [X_zero] at h1 h2
    cases x <;> simp [Arith.eq, X.eq] at h1 h2
    rw [h1, h2, neg_zero]

variable [Archimedean K]

/-- **C105** (exact arithmetic, with or without cycles) On a toolbox with the data of a problem and one with all fluxes and rates
    negated: the pair of an injector and a producer has the same volume as the pair of the two after they have
    exchanged their parts, and its two fluxes are exchanged and change their signs. -/
theorem C105_pairs {P : Problem K} (hP : P.Valid) {g : ConnectivityGraph} {calls calls' : List (Call (X K))} (h : P.GivenTo g calls)
    (hpv : lastPoreVolume g calls' = lastPoreVolume g calls)
    (hf' : FluxGiven g calls' P.nphase fun c p => Arith.neg (X.fin (P.phi c p)))
    (hm' : lastInflow calls' = some (negated P.inflowMap)) {istarts pstarts : List CellSet} {S T S' T' : Solution (X K)}
    (hS : InjectionReturns g calls istarts (.ok S)) (hT : ProductionReturns g calls pstarts (.ok T))
    (hS' : InjectionReturns g calls' pstarts (.ok S')) (hT' : ProductionReturns g calls' istarts (.ok T'))
    {w w' : WellFlux K} (hw : w ∈ P.wells) (hw' : w' ∈ P.wells) :
    pairVolume S' T' (arr P.n P.pv) w'.id w.id = pairVolume S T (arr P.n P.pv) w.id w'.id ∧
    ∃ x y, pairFluxes S T w.id w'.id P.inflowMap = .ok (X.fin x, X.fin y) ∧
      pairFluxes S' T' w'.id w.id (negated P.inflowMap) = .ok (X.fin (-y), X.fin (-x)) := by
  have D := diag_injection hP h hS
  have E := diag_production hP h hT
  have hm : lastInflow calls = some P.inflowMap := by
    rcases h.inflow with e | ⟨_, e⟩
    · exact e
    · rw [e] at hw; cases hw
  obtain ⟨e1, e2, hfl⟩ := C105_reversed (signLaws_exact K) (productLaws_exact K) (GivenTo.connectivity hP h) hpv h.flux hf' hm hm' hS hT hS' hT'
  refine ⟨?_, ?_⟩
  · rw [e1, e2]
    exact C105_volume (D.tracer _) (E.tracer _) _
  · have hxy := C50_value hP hw hw' (D.tracer w.id) (E.tracer w'.id)
    have fr : ∀ {x : K}, 0 < x → x ≤ 1 → IsFraction (X.fin x) := by
      intro x h0 h1
      refine ⟨?_, ?_⟩
      · rw [X_zero]
        simp only [Arith.le, X.le, X.lt, X.eq, Bool.or_eq_true, decide_eq_true_eq]
        exact .inl h0
      · simp only [Arith.le, X.le, X.lt, X.eq, Arith.lit, Bool.or_eq_true, decide_eq_true_eq, Rat.cast_one]
        exact lt_or_eq_of_le h1
    have f1 : ∀ e ∈ S.concentration w.id, IsFraction e.2 := by
      intro e he
      obtain ⟨x, hx, h0, h1⟩ := D.conc _ _ he
      rw [hx]; exact fr h0 h1
    have f2 : ∀ e ∈ T.concentration w'.id, IsFraction e.2 := by
      intro e he
      obtain ⟨x, hx, h0, h1⟩ := E.conc _ _ he
      rw [hx]; exact fr h0 h1
    have f3 : ∀ set ∈ P.inflowMap, ∀ e ∈ set.2, IsRate e.2 := by
      intro set hset e he hno
      unfold Problem.inflowMap at hset
      obtain ⟨v, _, rfl⟩ := List.mem_map.mp hset
      obtain ⟨c, _, rfl⟩ := List.mem_map.mp he
      obtain ⟨h1, h2⟩ := hno
      rw [X_zero, X_lt] at h1 h2
      rw [X_zero, X_eq]
      simp at h1 h2 ⊢
      exact le_antisymm h1 h2
    obtain ⟨x', y', hxy', ho, ho'⟩ := hfl w.id w'.id f1 f2 f3 _ _ hxy
    rw [opposite_fin ho, opposite_fin ho'] at hxy'
    exact ⟨_, _, hxy, hxy'⟩

end exact

/-! ### Doubles -/

/-- The numbers stored. -/
def valuesIn (a : CellSetValues Double) : CellSetValues (X ℚ) := a.map fun e => (e.1, e.2.val)

theorem fractionsWithin_values {n : Nat} {a : CellSetValues Double} (h : AreConcentrations n a) : FractionsWithin n 0 a (valuesIn a) := by
  unfold FractionsWithin valuesIn
  rw [List.forall₂_map_right_iff, List.forall₂_same]
  intro e he
  obtain ⟨h0, h1, y, hy, h2, h3⟩ := h.2 e he
  refine ⟨rfl, h0, h1, .inr ⟨_, y, y, rfl, hy, by rw [hy], by simp⟩, y, hy, .inr h2, h3⟩

theorem doubleAt_find {a : CellSetValues Double} {v : Nat} {d : Double} (h : OMap.find a (v : Int) = some d) {y : ℚ}
    (hy : d.val = X.fin y) : doubleAt a v = y := by
  unfold doubleAt
  rw [h, Option.map_some, hy]

theorem tracer_values {n : Nat} (hn : n ≤ INT_MAX) {a : CellSetValues Double} (h : AreConcentrations n a) :
    IsTracer n (valuesIn a) ∧ ∀ v, valueAt (valuesIn a) v = doubleAt a v := by
  have hval : ∀ e ∈ a, e.1 = ((e.1.toNat : Nat) : Int) ∧ e.2.val = X.fin (doubleAt a e.1.toNat) ∧ 0 ≤ doubleAt a e.1.toNat := by
    intro e he
    obtain ⟨h0, h1, y, hy, h2, h3⟩ := h.2 e he
    have hc : e.1 = ((e.1.toNat : Nat) : Int) := by omega
    have hf : OMap.find a ((e.1.toNat : Nat) : Int) = some e.2 := by
      rw [← hc]; exact OMap.mem_find h.1 he
    rw [doubleAt_find hf hy]
    exact ⟨hc, hy, le_trans (by positivity) h2⟩
  have heq : valuesIn a = valuesOf (a.map fun e => e.1.toNat) (doubleAt a) := by
    unfold valuesIn valuesOf
    rw [List.map_map]
    refine List.map_congr_left fun e he => ?_
    obtain ⟨h1, h2, _⟩ := hval e he
    exact Prod.ext h1 h2
  have hsort : (a.map fun e => e.1.toNat).Pairwise (· < ·) := by
    rw [List.pairwise_map]
    refine h.1.imp_of_mem fun {s t} hs ht hst => ?_
    have := (h.2 s hs).1
    omega
  refine ⟨⟨_, _, heq, hsort, fun v hv => ?_⟩, fun v => ?_⟩
  · obtain ⟨e, he, rfl⟩ := List.mem_map.mp hv
    have := h.2 e he
    exact ⟨by omega, by omega, (hval e he).2.2⟩
  · rw [heq, valueAt_valuesOf hsort]
    split
    · rfl
    · rename_i hv
      unfold doubleAt
      cases hf : OMap.find a (v : Int) with
      | none => rfl
      | some d =>
        exact absurd (List.mem_map.mpr ⟨_, OMap.find_some_mem hf, by simp⟩) hv

/-- **C105** (doubles) The volumes of a pair before and after the exchange differ at most by rounding errors: by at most
    `(4 + a + b) / 2^51` of what exact arithmetic gives for these concentrations, `a` and `b` being the numbers of cells of the
    two wells. -/
theorem C105_volume_double {S T : Solution Double} {i p : CellSetID} {n : Nat} (hn : n ≤ INT_MAX) {pv : List Double} {f : Nat → ℚ}
    (hpv : pv.map Double.val = arr n f) (hf : ∀ v < n, Ordinary (f v) ∧ 0 ≤ f v) (hS : AreConcentrations n (S.concentration i))
    (hT : AreConcentrations n (T.concentration p)) :
    ∃ V W, ∃ x y : ℚ, pairVolume S T pv i p = .ok V ∧ pairVolume T S pv p i = .ok W ∧ V.val = X.fin x ∧ W.val = X.fin y ∧
      |x - y| ≤ ((4 + (S.concentration i).length + (T.concentration p).length : Nat) : ℚ) / 2 ^ 51 *
        ∑ v ∈ Finset.range n, f v * doubleAt (S.concentration i) v * doubleAt (T.concentration p) v := by
  set S' : Solution (X ℚ) := { tracer := [(i, valuesIn (S.concentration i))] }
  set T' : Solution (X ℚ) := { tracer := [(p, valuesIn (T.concentration p))] }
  have hc : ∀ (k : CellSetID) (a : CellSetValues (X ℚ)), ({ tracer := [(k, a)] } : Solution (X ℚ)).concentration k = a := by
    intro k a
    unfold Solution.concentration Solution.solutionValues
    rw [OMap.find_cons]; simp
  have eS : S'.concentration i = valuesIn (S.concentration i) := hc _ _
  have eT : T'.concentration p = valuesIn (T.concentration p) := hc _ _
  have fS : FractionsWithin n 0 (S.concentration i) (S'.concentration i) := by rw [eS]; exact fractionsWithin_values hS
  have fT : FractionsWithin n 0 (T.concentration p) (T'.concentration p) := by rw [eT]; exact fractionsWithin_values hT
  obtain ⟨tS, vS⟩ := tracer_values hn hS
  obtain ⟨tT, vT⟩ := tracer_values hn hT
  rw [← eS] at tS vS
  rw [← eT] at tT vT
  have hlen : ∀ {a : CellSetValues Double}, AreConcentrations n a → a.length ≤ INT_MAX := by
    intro a ha
    have := length_below (n := n) (l := a.map fun e => e.1) (by rw [List.pairwise_map]; exact ha.1) fun c hc => by
      obtain ⟨e, he, rfl⟩ := List.mem_map.mp hc
      exact ⟨(ha.2 e he).1, (ha.2 e he).2.1⟩
    rw [List.length_map] at this
    exact this.trans hn
  have lS := hlen hS
  have lT := hlen hT
  obtain ⟨V, V', h1, h2, x, z, hx, hz, hxz⟩ := C79_volume (k := 0) (l := 0) (by norm_num) (by norm_num) hn hpv hf fS fT lS
  obtain ⟨W, W', g1, g2, y, z', hy, hz', hyz⟩ := C79_volume (k := 0) (l := 0) (by norm_num) (by norm_num) hn hpv hf fT fS lT
  have e1 : z = ∑ v ∈ Finset.range n, f v * doubleAt (S.concentration i) v * doubleAt (T.concentration p) v := by
    rw [C49_value tS tT, hz] at h2
    cases h2
    exact Finset.sum_congr rfl fun v _ => by rw [vS, vT]
  have e2 : z' = z := by
    rw [C105_volume tS tT, h2, hz, hz'] at g2
    cases g2; rfl
  have hpos : ∀ {a : CellSetValues (X ℚ)}, IsTracer n a → ∀ v, 0 ≤ valueAt a v := by
    rintro a ⟨cells, q, rfl, hs, hq⟩ v
    rw [valueAt_valuesOf hs]
    split
    · rename_i hv; exact (hq v hv).2.2
    · exact le_rfl
  have hz0 : 0 ≤ z := by
    rw [e1]
    refine Finset.sum_nonneg fun v hv => mul_nonneg (mul_nonneg (hf v (Finset.mem_range.mp hv)).2 ?_) ?_
    · rw [← vS]; exact hpos tS v
    · rw [← vT]; exact hpos tT v
  refine ⟨V, W, x, y, h1, g1, hx, hy, ?_⟩
  rw [← e1]
  rw [e2, abs_of_nonneg hz0] at hyz
  rw [abs_of_nonneg hz0] at hxz
  have := abs_sub_le x z y
  rw [abs_sub_comm z y] at this
  push_cast at hxz hyz ⊢
  refine this.trans ((add_le_add hxz hyz).trans (le_of_eq ?_))
  ring

/-! ### Cases -/

/-- The example problem and its reverse: both toolboxes return solutions, for an injector and a producer. -/
example : ∃ g, ∃ calls calls' : List (Call (X ℚ)), ∃ S T S' T', exProblem.GivenTo g calls ∧
    lastPoreVolume g calls' = lastPoreVolume g calls ∧
    FluxGiven g calls' exProblem.nphase (fun c p => Arith.neg (X.fin (exProblem.phi c p))) ∧
    lastInflow calls' = some (negated exProblem.inflowMap) ∧
    InjectionReturns g calls exInjectors (.ok S) ∧ ProductionReturns g calls exProducers (.ok T) ∧
    InjectionReturns g calls' exProducers (.ok S') ∧ ProductionReturns g calls' exInjectors (.ok T') := by
  obtain ⟨g, calls, h⟩ := exProblem_given
  have hg := GivenTo.connectivity exProblem_valid h
  obtain ⟨calls', h1, h2, h3⟩ := exists_calls (R := X ℚ) hg.toHasConnections (pv := arr 4 exProblem.pv) (by simp [arr, exProblem])
    (np := 2) (by rw [show exProblem.conns.length = 3 from rfl]; decide) (fun c p => Arith.neg (X.fin (exProblem.phi c p))) (negated exProblem.inflowMap)
  have hpv := h1.trans h.pv.symm
  have hi : lastInflow calls = some exProblem.inflowMap := by
    rcases h.inflow with e | ⟨_, e⟩
    · exact e
    · simp [exProblem] at e
  have hn : lastInflow calls' = (lastInflow calls).map negated := by rw [h3, hi]; rfl
  obtain ⟨S, hS⟩ := (C40_valid_problem exProblem_valid h exInjectors).1 exInjectors_accepted
  obtain ⟨T, hT⟩ := (C40_valid_problem exProblem_valid h exProducers).2.2.1 exProducers_accepted
  refine ⟨g, calls, calls', S, T, T, S, h, hpv, h2, h3, hS, hT, ?_, ?_⟩
  · obtain ⟨N, hN⟩ := hT
    exact ⟨N, fun fuel hf => (C37_reversed (signLaws_exact ℚ) hg hpv h.flux h2 hn noFailure fuel exProducers).1 ▸ hN fuel hf⟩
  · obtain ⟨N, hN⟩ := hS
    exact ⟨N, fun fuel hf => (C37_reversed (signLaws_exact ℚ) hg hpv h.flux h2 hn noFailure fuel exInjectors).2 ▸ hN fuel hf⟩

/-- With doubles: one tenth flows from cell 0 to cell 1, or back. -/
example : ∃ S T S' T',
    InjectionReturns exThere (exTenthCalls exTenth exTenthWells) [CellSet.ofCells ⟨[65]⟩ [0]] (.ok S) ∧
    ProductionReturns exThere (exTenthCalls exTenth exTenthWells) [CellSet.ofCells ⟨[80]⟩ [1]] (.ok T) ∧
    InjectionReturns exThere (exTenthCalls (Double.neg exTenth) (negated exTenthWells)) [CellSet.ofCells ⟨[80]⟩ [1]] (.ok S') ∧
    ProductionReturns exThere (exTenthCalls (Double.neg exTenth) (negated exTenthWells)) [CellSet.ofCells ⟨[65]⟩ [0]] (.ok T') := by
  have ok : ∀ {r : Res (Solution Double)}, (match r with
      | .ok _ => true
      | _ => false) = true → ∃ S, r = .ok S := by
    intro r h
    cases r <;> simp at h ⊢
  obtain ⟨S, hS⟩ := ok (r := injectionOutcome exThere (exTenthCalls exTenth exTenthWells) noFailure 50
    [CellSet.ofCells ⟨[65]⟩ [0]]) (by decide +kernel)
  obtain ⟨T, hT⟩ := ok (r := productionOutcome exThere (exTenthCalls exTenth exTenthWells) noFailure 50
    [CellSet.ofCells ⟨[80]⟩ [1]]) (by decide +kernel)
  have hS1 := (Fuel.injection_returns.mpr ⟨50, hS, by simp⟩).1
  have hT1 := (Fuel.production_returns.mpr ⟨50, hT, by simp⟩).1
  have key := C37_doubles (calls := exTenthCalls exTenth exTenthWells)
    (calls' := exTenthCalls (Double.neg exTenth) (negated exTenthWells)) exThere_valid rfl
    (exTenth_flux _ rfl _ _) (exTenth_flux _ rfl _ _) rfl noFailure
  refine ⟨S, T, T, S, hS1, hT1, ?_, ?_⟩
  · obtain ⟨N, hN⟩ := hT1
    exact ⟨N, fun fuel hf => (key fuel _).1 ▸ hN fuel hf⟩
  · obtain ⟨N, hN⟩ := hS1
    exact ⟨N, fun fuel hf => (key fuel _).2 ▸ hN fuel hf⟩

/-- There, rates and concentrations are as required. -/
example : (∀ set ∈ exTenthWells, ∀ e ∈ set.2, IsRate e.2) ∧
    ∀ S, injectionOutcome exThere (exTenthCalls exTenth exTenthWells) noFailure 50 [CellSet.ofCells ⟨[65]⟩ [0]] = .ok S →
      S.concentration ⟨[65]⟩ ≠ [] ∧ ∀ e ∈ S.concentration ⟨[65]⟩, IsFraction e.2 := by
  constructor
  · have h : ∀ set ∈ exTenthWells, ∀ e ∈ set.2, Arith.lt Arith.zero e.2 = true ∨ Arith.lt e.2 Arith.zero = true := by
      decide +kernel
    intro set hs e he hno
    rcases h set hs e he with h | h
    · rw [hno.1] at h; cases h
    · rw [hno.2] at h; cases h
  · intro S hS
    have h : (match injectionOutcome exThere (exTenthCalls exTenth exTenthWells) noFailure 50 [CellSet.ofCells ⟨[65]⟩ [0]] with
        | .ok S => !(S.concentration ⟨[65]⟩).isEmpty &&
          (S.concentration ⟨[65]⟩).all fun e => Arith.le Arith.zero e.2 && Arith.le e.2 (Arith.lit 1)
        | _ => false) = true := by decide +kernel
    rw [hS] at h
    simp only [Bool.and_eq_true, List.all_eq_true, Bool.not_eq_true', List.isEmpty_eq_false_iff] at h
    exact h

/-- Concentrations as in C105_volume_double. -/
example : AreConcentrations 2 [(0, Arith.lit 1), (1, Arith.lit 1)] := by
  have h1 : Double.val (Arith.lit 1) = X.fin 1 := Verif.Rounding.val_one Double.rounded
  refine ⟨by simp, fun e he => ?_⟩
  simp only [List.mem_cons, List.not_mem_nil, or_false] at he
  rcases he with rfl | rfl
  · exact ⟨by decide, by decide, 1, h1, by rw [one_div]; exact inv_le_one_of_one_le₀ (one_le_pow₀ one_le_two), le_rfl⟩
  · exact ⟨by decide, by decide, 1, h1, by rw [one_div]; exact inv_le_one_of_one_le₀ (one_le_pow₀ one_le_two), le_rfl⟩

end Verif.Props
