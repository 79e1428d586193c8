/-
C106: the measures of heterogeneity depend neither on the direction of the flow nor on the unit of time.
-/
import Verif.Props.Reverse
import Verif.Props.Rename
import Verif.Props.Units
import Verif.Props.FlowChanges
import Verif.Props.DerivedDiagnostics
import Verif.Props.Lorenz
import Verif.Proofs.DerivedSweep
import Verif.Spec.Measures

namespace Verif.Props
open Verif.Spec Verif.Toolbox Verif.Solver Verif.Derived Finset

/-! ### Direction -/

section direction
variable {R : Type} [Arith R]

theorem timesAndPvs_comm (hadd : ∀ x y : R, Arith.add x y = Arith.add y x) (a b pv : List R) (m : R) (hab : a.length = b.length)
    (l : List Nat) : timesAndPvs a b pv m l = timesAndPvs b a pv m l := by
  induction l with
  | nil => rfl
  | cons i l ih =>
    unfold timesAndPvs
    rw [ih]
    simp only [Res.bind_eq, Res.pure_eq]
    congr 1
    funext v
    by_cases h : i < a.length
    · have hb : i < b.length := by omega
      rw [show rd a i = .ok a[i] from rd_of_getElem? (List.getElem?_eq_getElem h),
        show rd b i = .ok b[i] from rd_of_getElem? (List.getElem?_eq_getElem hb)]
      simp only [Res.ok_bind]
      congr 1
      funext t
      unfold timeAndPv
      rw [hadd]
    · have e : ∀ c : List R, c.length = a.length → rd c i = .ub .outOfBounds := by
        intro c hc
        unfold rd
        rw [List.getElem?_eq_none (by omega)]
      rw [e a rfl, e b hab.symm]

/-- **C106** (any arithmetic with commutative addition) The F-Phi curve, and with it the Lorenz coefficient and the sweep efficiency,
    stay the same if the times from the injectors and the times to the producers are exchanged: whatever the input, and however
    the call ends. -/
theorem C106_direction (hadd : ∀ x y : R, Arith.add x y = Arith.add y x) (sort : List (R × R) → List (R × R))
    (injector_tof producer_tof pv : List R) (fraction : R) :
    curve sort producer_tof injector_tof pv fraction = curve sort injector_tof producer_tof pv fraction := by
  unfold curve
  by_cases h : pv.length ≠ injector_tof.length ∨ pv.length ≠ producer_tof.length
  · rw [if_pos h, if_pos h.symm]
  · rw [if_neg h, if_neg fun c => h c.symm]
    have hl : producer_tof.length = injector_tof.length := by
      rw [not_or, not_not, not_not] at h; omega
    simp only [timesAndPvs_comm hadd producer_tof injector_tof pv _ hl]

theorem exact_add_comm {K : Type} [Field K] [LinearOrder K] (x y : X K) : Arith.add x y = Arith.add y x := by
  show X.add x y = X.add y x
  cases x <;> cases y <;> simp [X.add, add_comm]

/-- **C106** (doubles) The same bit by bit. -/
theorem C106_direction_double (sort : List (Double × Double) → List (Double × Double)) (injector_tof producer_tof pv : List Double)
    (fraction : Double) :
    curve sort producer_tof injector_tof pv fraction = curve sort injector_tof producer_tof pv fraction :=
  C106_direction double_add_comm sort injector_tof producer_tof pv fraction

/-- **C106** (any arithmetic with these laws, such as doubles) With negated connection fluxes and negated inflow, so that injectors
    become producers, `flowCapacityStorageCapacityCurve()` of the diagnostics stays the same. -/
theorem C106_reversed (hs : SignLaws R) (hl : ProductLaws R) (hadd : ∀ x y : R, Arith.add x y = Arith.add y x)
    {g : ConnectivityGraph} {n : Nat} {cs : List (Nat × Nat)}
    (hg : ValidConnectivity g n cs) {calls calls' : List (Call R)}
    (hpv : lastPoreVolume g calls' = lastPoreVolume g calls) {np : Nat} {phi : Nat → Nat → R}
    (hf : FluxGiven g calls np phi) (hf' : FluxGiven g calls' np fun c p => Arith.neg (phi c p)) {m : InflowFlux R}
    (hm : lastInflow calls = some m) (hm' : lastInflow calls' = some (negated m)) {istarts pstarts : List CellSet}
    {S T S' T' : Solution R} (hS : InjectionReturns g calls istarts (.ok S)) (hT : ProductionReturns g calls pstarts (.ok T))
    (hS' : InjectionReturns g calls' pstarts (.ok S')) (hT' : ProductionReturns g calls' istarts (.ok T'))
    (sort : List (R × R) → List (R × R)) (pv : List R) (fraction : R) :
    curveOf sort S' T' pv fraction = curveOf sort S T pv fraction := by
  obtain ⟨rfl, rfl, _⟩ := C105_reversed hs hl hg hpv hf hf' hm hm' hS hT hS' hT'
  exact C106_direction hadd sort _ _ pv fraction

end direction

/-! ### Unit of time -/

section unit
variable {K : Type} [Field K] [LinearOrder K] [IsStrictOrderedRing K] {c : K} {I J : CurveInput K}

omit [IsStrictOrderedRing K] in
theorem _root_.Verif.Spec.CurveInput.TimesBy.kept (h : CurveInput.TimesBy c I J) (v : Nat) : J.Kept v ↔ I.Kept v := by
  unfold CurveInput.Kept
  rw [h.size, h.frac, sum_congr rfl fun u hu => h.pv u (mem_range.mp hu)]
  exact and_congr_right fun hv => by rw [h.pv v hv]

/-- **C106** (exact arithmetic) The F-Phi curve, and with it the Lorenz coefficient and the sweep efficiency, stay the same if all
    travel times are multiplied by a positive number (and are below 1e100 before and after). -/
theorem C106_timeUnit (hc : 0 < c) (hI : I.Valid) (h : CurveInput.TimesBy c I J) (ht : ∀ v, I.Kept v → I.time v < 10 ^ 100)
    (ht' : ∀ v, I.Kept v → c * I.time v < 10 ^ 100) {sort sort' : List (X K × X K) → List (X K × X K)} (hs : StdSort sort)
    (hs' : StdSort sort') : J.curve sort' = I.curve sort := by
  obtain ⟨L, a1, a2, a3⟩ := curve_sorted I hI.int hs
  obtain ⟨M, b1, b2, b3⟩ := curve_sorted J (by rw [h.size]; exact hI.int) hs'
  let φ : K × K → K × K := fun a => (if a.1 < 10 ^ 100 then c * a.1 else a.1, a.2)
  have hentry : ∀ v < I.n, entry J v = φ (entry I v) := by
    intro v hv
    unfold entry CurveInput.rank CurveInput.keptPv
    by_cases hk : I.Kept v
    · rw [if_pos ((h.kept v).mpr hk), if_pos ((h.kept v).mpr hk), if_pos hk, if_pos hk]
      simp only [φ]
      rw [if_pos (ht v hk), h.time v hv, h.pv v hv]
    · rw [if_neg (fun x => hk ((h.kept v).mp x)), if_neg (fun x => hk ((h.kept v).mp x)), if_neg hk, if_neg hk]
      simp only [φ]
      rw [if_neg (lt_irrefl _)]
  have hmem : ∀ a ∈ L, 0 < a.1 ∧ 0 ≤ a.2 ∧ ((a.1 < 10 ^ 100 ∧ c * a.1 < 10 ^ 100) ∨ (a.1 = 10 ^ 100 ∧ a.2 = 0)) := by
    intro a ha
    obtain ⟨v, hv, rfl⟩ := List.mem_map.mp (a1.mem_iff.mp ha)
    refine ⟨rank_pos hI v, keptPv_nonneg hI (List.mem_range.mp hv), ?_⟩
    unfold entry CurveInput.rank CurveInput.keptPv
    by_cases hk : I.Kept v
    · rw [if_pos hk, if_pos hk]; exact .inl ⟨ht v hk, ht' v hk⟩
    · rw [if_neg hk, if_neg hk]; exact .inr ⟨rfl, rfl⟩
  have hML : M = L.map φ := by
    refine sorted_unique ?_ b2 ?_
    · refine b1.trans ?_
      rw [h.size, List.map_congr_left fun v hv => hentry v (List.mem_range.mp hv)]
      have := (a1.map φ).symm
      rwa [List.map_map] at this
    · rw [List.pairwise_map]
      refine a2.imp_of_mem fun {a b} ha hb hab => ?_
      obtain ⟨_, _, ka⟩ := hmem a ha
      obtain ⟨_, _, kb⟩ := hmem b hb
      simp only [φ, LexLe]
      rcases ka with ⟨ka, ka'⟩ | ⟨ka, ka'⟩ <;> rcases kb with ⟨kb, kb'⟩ | ⟨kb, kb'⟩
      · rw [if_pos ka, if_pos kb]
        rcases hab with hab | ⟨e, hab⟩
        · exact .inl (mul_lt_mul_of_pos_left hab hc)
        · exact .inr ⟨by rw [e], hab⟩
      · rw [if_pos ka, if_neg (by rw [kb]; exact lt_irrefl _), kb]
        exact .inl ka'
      · exfalso
        rcases hab with hab | ⟨e, _⟩ <;> linarith
      · rw [if_neg (by rw [ka]; exact lt_irrefl _), if_neg (by rw [kb]; exact lt_irrefl _), ka, kb, ka', kb']
        exact .inr ⟨rfl, le_rfl⟩
  have hpos : ∃ a ∈ L, 0 < a.2 := by
    obtain ⟨v, hkv, hp⟩ := hI.some_pv
    exact ⟨entry I v, a1.mem_iff.mpr (List.mem_map.mpr ⟨v, List.mem_range.mpr hkv.1, rfl⟩), keptPv_pos.mpr ⟨hkv, hp⟩⟩
  have hsum : ∀ q : K × K → K, (∀ a ∈ L, 0 ≤ q a) → (∃ a ∈ L, 0 < q a) → (L.map q).sum ≠ 0 := by
    intro q h0 ⟨a, ha, hq⟩
    have := List.single_le_sum (l := L.map q) (by
      intro x hx
      obtain ⟨b, hb, rfl⟩ := List.mem_map.mp hx
      exact h0 b hb) (q a) (List.mem_map.mpr ⟨a, ha, rfl⟩)
    exact (lt_of_lt_of_le hq this).ne'
  have hsv := hsum (fun a => a.2) (fun a ha => (hmem a ha).2.1) hpos
  have hsr := hsum (fun a => a.2 / a.1) (fun a ha => div_nonneg (hmem a ha).2.1 (hmem a ha).1.le) (by
    obtain ⟨a, ha, h0⟩ := hpos
    exact ⟨a, ha, div_pos h0 (hmem a ha).1⟩)
  have hφ1 : ∀ a ∈ L, 0 < (φ a).1 := by
    intro a ha
    simp only [φ]
    split
    · exact mul_pos hc (hmem a ha).1
    · exact (hmem a ha).1
  have hrate : ∀ a ∈ L, (φ a).2 / (φ a).1 = c⁻¹ * (a.2 / a.1) := by
    intro a ha
    obtain ⟨k0, _, k | ⟨k, k'⟩⟩ := hmem a ha
    · simp only [φ]
      rw [if_pos k.1]
      field_simp
    · simp only [φ]
      rw [k']; simp
  have e1 : cumulativeNormalized ((L.map φ).map pr) (fun i : X K × X K => i.2) = cumulativeNormalized (L.map pr) fun i => i.2 := by
    unfold cumulativeNormalized
    simp only [List.map_map]
    rfl
  have e2 : cumulativeNormalized (L.map pr) (fun i : X K × X K => Arith.div i.2 i.1)
      = arr (L.length + 1) fun i => ((L.map fun a => a.2 / a.1).take i).sum / (L.map fun a => a.2 / a.1).sum := by
    have e := cumulative_fin L (fun a => Arith.div (pr a).2 (pr a).1) (fun a => a.2 / a.1)
      (fun a ha => X_div (hmem a ha).1.ne') hsr
    rw [← e]
    unfold cumulativeNormalized
    simp only [List.map_map]
    rfl
  have e3 : cumulativeNormalized ((L.map φ).map pr) (fun i : X K × X K => Arith.div i.2 i.1)
      = arr (L.length + 1) fun i => ((L.map fun a => c⁻¹ * (a.2 / a.1)).take i).sum / (L.map fun a => c⁻¹ * (a.2 / a.1)).sum := by
    have e := cumulative_fin L (fun a => Arith.div (pr (φ a)).2 (pr (φ a)).1) (fun a => c⁻¹ * (a.2 / a.1))
      (fun a ha => by rw [← hrate a ha]; exact X_div (hφ1 a ha).ne')
      (by rw [List.sum_map_mul_left]; exact mul_ne_zero (inv_ne_zero hc.ne') hsr)
    rw [← e]
    unfold cumulativeNormalized
    simp only [List.map_map]
    rfl
  rw [a3, b3, hML, e1, e2, e3]
  congr 2
  refine Derived.arr_congr fun i _ => ?_
  rw [← List.map_take, ← List.map_take, List.sum_map_mul_left, List.sum_map_mul_left, mul_div_mul_left _ _ (inv_ne_zero hc.ne')]

end unit

section rates
variable {K : Type} [Field K] [LinearOrder K] [IsStrictOrderedRing K] [Archimedean K]

/-- **C106** (exact arithmetic, cycle-free flow, positive pore volumes) If all fluxes and rates are multiplied by `k` and all pore
    volumes by `m`, and all times of flight are below 200 years before and after, then `flowCapacityStorageCapacityCurve()` of the
    diagnostics stays the same, and with it the Lorenz coefficient and the sweep efficiency. -/
theorem C106_rates {P : Problem K} (hP : P.Valid) {g g' : ConnectivityGraph} {calls calls' : List (Call (X K))} (h : P.GivenTo g calls)
    {k m : K} (hk : 0 < k) (hm : 0 < m) (h' : (P.scaled k m).GivenTo g' calls') (hacy : P.forward.Acyclic)
    {istarts pstarts : List CellSet} {S T S' T' : Solution (X K)} (hS : InjectionReturns g calls istarts (.ok S))
    (hT : ProductionReturns g calls pstarts (.ok T)) (hS' : InjectionReturns g' calls' istarts (.ok S'))
    (hT' : ProductionReturns g' calls' pstarts (.ok T')) (hpv : ∀ v < P.n, 0 < P.pv v) {frac : K}
    (hf : ∃ v < P.n, P.pv v ≤ frac * ∑ u ∈ range P.n, P.pv u)
    (hfast : ∀ v < P.n, fieldAt S.timeOfFlight v < 200 * 365 * 24 * 60 * 60 ∧ fieldAt T.timeOfFlight v < 200 * 365 * 24 * 60 * 60 ∧
      fieldAt S'.timeOfFlight v < 200 * 365 * 24 * 60 * 60 ∧ fieldAt T'.timeOfFlight v < 200 * 365 * 24 * 60 * 60)
    {sort : List (X K × X K) → List (X K × X K)} (hs : StdSort sort) :
    curveOf sort S' T' (arr P.n (P.scaled k m).pv) (X.fin frac) = curveOf sort S T (arr P.n P.pv) (X.fin frac) := by
  have hP' : (P.scaled k m).Valid := scaled_valid hP hm.le
  obtain ⟨c1, _, c3⟩ := C63_curve hP h hS hT sort frac
  obtain ⟨c1', _, _⟩ := C63_curve hP' h' hS' hT' sort frac
  have fill : ∀ {l : List (X K)} {v : Nat} {p q : K}, 0 ≤ q →
      (∃ t : K, l[v]? = some (X.fin t) ∧ (t = 200 * 365 * 24 * 60 * 60 ∨ p ≤ q * t)) → fieldAt l v < 200 * 365 * 24 * 60 * 60 →
      p ≤ q * (200 * 365 * 24 * 60 * 60) := by
    rintro l v p q hq ⟨t, e, ht⟩ hlt
    have e' : fieldAt l v = t := by unfold fieldAt; rw [e]
    rw [e'] at hlt
    rcases ht with rfl | ht
    · exact absurd hlt (lt_irrefl _)
    · exact ht.trans (mul_le_mul_of_nonneg_left hlt.le hq)
  have hin : ∀ v < P.n, 0 ≤ (∑ u ∈ range P.n, P.flux u v) + P.source v := fun v hv =>
    add_nonneg (sum_nonneg fun u hu => (forward_valid hP).w_nonneg u v (mem_range.mp hu) hv) ((forward_valid hP).src_nonneg v hv)
  have hout : ∀ v < P.n, 0 ≤ (∑ u ∈ range P.n, P.flux v u) + P.sink v := fun v hv =>
    add_nonneg (sum_nonneg fun u hu => (backward_valid hP).w_nonneg u v (mem_range.mp hu) hv) ((backward_valid hP).src_nonneg v hv)
  have e1 : ∀ v, (∑ u ∈ range (P.scaled k m).n, (P.scaled k m).flux u v) + (P.scaled k m).source v
      = k * ((∑ u ∈ range P.n, P.flux u v) + P.source v) := by
    intro v
    rw [(scaled_source hk v).1, mul_add, mul_sum]
    exact congrArg (· + _) (sum_congr rfl fun u _ => scaled_flux hk u v)
  have e2 : ∀ v, (∑ u ∈ range (P.scaled k m).n, (P.scaled k m).flux v u) + (P.scaled k m).sink v
      = k * ((∑ u ∈ range P.n, P.flux v u) + P.sink v) := by
    intro v
    rw [(scaled_source hk v).2, mul_add, mul_sum]
    exact congrArg (· + _) (sum_congr rfl fun u _ => scaled_flux hk v u)
  have s1 : ∀ v < P.n, fieldAt S'.timeOfFlight v = m / k * fieldAt S.timeOfFlight v := by
    intro v hv
    refine ((C73_injection hP h hk hm h' hacy hS hS').2 v hv fun u hu => ?_).1 (hfast v hv).1 (hfast v hv).2.2.1
    have hun : u < P.n := by
      rcases Relation.ReflTransGen.cases_head hu with e | ⟨x, e, _⟩
      · rw [e]; exact hv
      · exact e.1
    refine ⟨fill (hin u hun) ((C62_injection hP h hS).1 u hun) (hfast u hun).1, ?_⟩
    have := (C62_injection hP' h' hS').1 u hun
    rw [e1] at this
    exact fill (mul_nonneg hk.le (hin u hun)) this (hfast u hun).2.2.1
  have s2 : ∀ v < P.n, fieldAt T'.timeOfFlight v = m / k * fieldAt T.timeOfFlight v := by
    intro v hv
    refine ((C73_production hP h hk hm h' hacy hT hT').2 v hv fun u hu => ?_).1 (hfast v hv).2.1 (hfast v hv).2.2.2
    have hun : u < P.n := reach_lt (F := P.forward) hv hu
    refine ⟨fill (hout u hun) ((C62_production hP h hT).1 u hun) (hfast u hun).2.1, ?_⟩
    have := (C62_production hP' h' hT').1 u hun
    rw [e2] at this
    exact fill (mul_nonneg hk.le (hout u hun)) this (hfast u hun).2.2.2
  have c4 : curveOf sort S' T' (arr P.n (P.scaled k m).pv) (X.fin frac) = curveOf sort S' T' (arr P.n P.pv) (X.fin frac) := by
    unfold curveOf
    rw [← C75_curve hm hs S'.timeOfFlight T'.timeOfFlight (arr P.n P.pv) (X.fin frac)]
    congr 1
    unfold arr
    rw [List.map_map]
    rfl
  have t1 : arr P.n (fieldAt S'.timeOfFlight) = S'.timeOfFlight := (diag_injection hP' h' hS').times.1.symm
  have t2 : arr P.n (fieldAt T'.timeOfFlight) = T'.timeOfFlight := (diag_production hP' h' hT').times.1.symm
  have c5 : curveOf sort S' T' (arr P.n P.pv) (X.fin frac) = (curveInput P S' T' frac).curve sort := by
    unfold curveOf CurveInput.curve curveInput
    simp only [t1, t2]
  have hb : ∀ v < P.n, (curveInput P S' T' frac).time v = m / k * (curveInput P S T frac).time v := by
    intro v hv
    show fieldAt S'.timeOfFlight v + fieldAt T'.timeOfFlight v = m / k * (fieldAt S.timeOfFlight v + fieldAt T.timeOfFlight v)
    rw [s1 v hv, s2 v hv]; ring
  rw [c4, c5, c1]
  refine C106_timeUnit (J := curveInput P S' T' frac) (div_pos hm hk) (c3 hpv hf) ⟨rfl, rfl, fun _ _ => rfl, hb⟩
    (fun v hv => curveInput_time hP h hS hT frac v hv.1) (fun v hv => ?_) hs hs
  rw [← hb v hv.1]
  have : (curveInput P S' T' frac).time v < 200 * 365 * 24 * 60 * 60 + 200 * 365 * 24 * 60 * 60 :=
    add_lt_add (hfast v hv.1).2.2.1 (hfast v hv.1).2.2.2
  exact this.trans_le (by norm_num)

end rates

/-! ### Concrete cases -/

/-- Three cells in a row.  An injector in the first cell and a producer in cell `l`; the cells behind it have no flow. -/
def exLine (k m : ℚ) (l : Nat) : Problem ℚ where
  n := 3
  conns := [(0, 1), (1, 2)]
  nphase := 1
  phi c _ := if c < l then k else 0
  pv _ := m
  wells := [⟨⟨[65]⟩, [0], fun _ => k⟩, ⟨⟨[80]⟩, [l], fun _ => -k⟩]

def lineGraph : ConnectivityGraph := ⟨3, [0, 1, 1, 2]⟩

def lineCalls (k m : ℚ) (l : Nat) : List (Call (X ℚ)) :=
  [.assignPoreVolume [X.fin m, X.fin m, X.fin m],
   .assignConnectionFlux ⟨2, 1, [X.fin (if 0 < l then k else 0), X.fin (if 1 < l then k else 0)]⟩,
   .assignInflowFlux [(⟨[65]⟩, [(0, X.fin k)]), (⟨[80]⟩, [((l : Int), X.fin (-k))])]]

theorem exLine_scaled (k m : ℚ) (l : Nat) : (exLine 1 1 l).scaled k m = exLine k m l := by
  unfold Problem.scaled exLine
  simp

theorem exLine_valid {k m : ℚ} (hm : 0 ≤ m) {l : Nat} (hl : l < 3) : (exLine k m l).Valid where
  int := by show 3 ≤ INT_MAX; decide
  pos := by show 0 < 3; decide
  some_connection := by unfold exLine; simp
  range := by unfold exLine; simp
  pv v _ := hm
  wells_sorted := by unfold exLine; simp; decide
  cells_sorted := by unfold exLine; simp
  cells_range := by unfold exLine; simp [hl]

theorem exLine_given (k m : ℚ) (l : Nat) : (exLine k m l).GivenTo lineGraph (lineCalls k m l) where
  graph := {
    cells := rfl
    count := rfl
    connection := by
      intro i hi
      have hi : i < 2 := hi
      interval_cases i <;> rfl }
  pv := rfl
  flux := by
    refine ⟨_, rfl, rfl, rfl, ?_⟩
    intro c hc p hp
    have hp : p = 0 := by have : p < 1 := hp; omega
    subst hp
    have hc : c < 2 := hc
    interval_cases c <;> rfl
  inflow := Or.inl rfl

theorem exLine_acyclic {k m : ℚ} (hk : 0 < k) (l : Nat) : (exLine k m l).forward.Acyclic := by
  have step : ∀ {a b}, (exLine k m l).forward.Edge a b → a < b := by
    intro a b h
    have h1 : a < 3 := h.1
    have h2 : b < 3 := h.2.1
    have h3 : 0 < (exLine k m l).flux a b := h.2.2
    by_contra hc
    refine absurd h3 (not_lt.mpr ?_)
    interval_cases a <;> interval_cases b <;> first
      | omega
      | (simp [Problem.flux, Problem.carried, Problem.net, exLine, sum_range_succ]; try split) <;> (try simp) <;> (try linarith)
  intro v h
  have key : ∀ u v, Relation.TransGen (exLine k m l).forward.Edge u v → u < v := by
    intro u v h
    induction h with
    | single h => exact step h
    | tail _ h ih => exact lt_trans ih (step h)
  exact lt_irrefl _ (key v v h)

def lineInjection (k m : ℚ) (l : Nat) : Res (Solution (X ℚ)) :=
  injectionOutcome lineGraph (lineCalls k m l) noFailure 100 [CellSet.ofCells ⟨[65]⟩ [0]]

def lineProduction (k m : ℚ) (l : Nat) : Res (Solution (X ℚ)) :=
  productionOutcome lineGraph (lineCalls k m l) noFailure 100 [CellSet.ofCells ⟨[80]⟩ [l]]

/-- Both return, with times that are below 200 years. -/
def lineFast (k m : ℚ) (l : Nat) : Bool :=
  match lineInjection k m l, lineProduction k m l with
  | .ok S, .ok T => (List.range 3).all fun v => decide (fieldAt S.timeOfFlight v < 200 * 365 * 24 * 60 * 60) &&
      decide (fieldAt T.timeOfFlight v < 200 * 365 * 24 * 60 * 60)
  | _, _ => false

theorem lineFast_spec {k m : ℚ} {l : Nat} (h : lineFast k m l = true) :
    ∃ S T, InjectionReturns lineGraph (lineCalls k m l) [CellSet.ofCells ⟨[65]⟩ [0]] (.ok S) ∧
      ProductionReturns lineGraph (lineCalls k m l) [CellSet.ofCells ⟨[80]⟩ [l]] (.ok T) ∧
      ∀ v < 3, fieldAt S.timeOfFlight v < 200 * 365 * 24 * 60 * 60 ∧ fieldAt T.timeOfFlight v < 200 * 365 * 24 * 60 * 60 := by
  unfold lineFast at h
  split at h
  · rename_i S T h1 h2
    refine ⟨S, T, (Fuel.injection_returns.mpr ⟨100, h1, by simp⟩).1, (Fuel.production_returns.mpr ⟨100, h2, by simp⟩).1, fun v hv => ?_⟩
    have := List.all_eq_true.mp h v (List.mem_range.mpr hv)
    rwa [Bool.and_eq_true, decide_eq_true_eq, decide_eq_true_eq] at this
  · cases h

set_option maxRecDepth 100000 in
/-- C106: twice the rates and three times the pore volume, with flow through all cells. -/
example : ∃ S T S' T', InjectionReturns lineGraph (lineCalls 1 1 2) [CellSet.ofCells ⟨[65]⟩ [0]] (.ok S) ∧
    ProductionReturns lineGraph (lineCalls 1 1 2) [CellSet.ofCells ⟨[80]⟩ [2]] (.ok T) ∧
    InjectionReturns lineGraph (lineCalls 2 3 2) [CellSet.ofCells ⟨[65]⟩ [0]] (.ok S') ∧
    ProductionReturns lineGraph (lineCalls 2 3 2) [CellSet.ofCells ⟨[80]⟩ [2]] (.ok T') ∧
    ∀ sort, StdSort sort → curveOf sort S' T' (arr 3 fun _ => 3) (X.fin (1 / 2)) = curveOf sort S T (arr 3 fun _ => 1) (X.fin (1 / 2)) := by
  obtain ⟨S, T, hS, hT, h1⟩ := lineFast_spec (k := 1) (m := 1) (l := 2) (by decide +kernel)
  obtain ⟨S', T', hS', hT', h2⟩ := lineFast_spec (k := 2) (m := 3) (l := 2) (by decide +kernel)
  refine ⟨S, T, S', T', hS, hT, hS', hT', fun sort hs => ?_⟩
  have e := exLine_scaled 2 3 2
  have := C106_rates (exLine_valid zero_le_one (by decide)) (exLine_given 1 1 2) (k := 2) (m := 3) (by norm_num) (by norm_num)
    (by rw [e]; exact exLine_given 2 3 2) (exLine_acyclic one_pos 2) hS hT hS' hT' (fun _ _ => one_pos) (frac := 1 / 2)
    ⟨0, by decide, by show (1 : ℚ) ≤ 1 / 2 * ∑ u ∈ range 3, 1; norm_num⟩ (fun v hv => ⟨(h1 v hv).1, (h1 v hv).2, h2 v hv⟩) hs
  rwa [e] at this

/-- The travel times in a row of three cells are `a`, `a` and 400 years, if the calls return. -/
def lineTimes (k : ℚ) (a : ℚ) : Bool :=
  match lineInjection k 1 1, lineProduction k 1 1 with
  | .ok S, .ok T => (List.range 3).all fun v => decide (fieldAt S.timeOfFlight v + fieldAt T.timeOfFlight v
      = if v = 2 then 400 * 365 * 24 * 60 * 60 else a)
  | _, _ => false

theorem lineTimes_spec {k a : ℚ} (h : lineTimes k a = true) :
    ∃ S T, InjectionReturns lineGraph (lineCalls k 1 1) [CellSet.ofCells ⟨[65]⟩ [0]] (.ok S) ∧
      ProductionReturns lineGraph (lineCalls k 1 1) [CellSet.ofCells ⟨[80]⟩ [1]] (.ok T) ∧
      ∀ v < 3, (curveInput (exLine k 1 1) S T 1).time v = if v = 2 then 400 * 365 * 24 * 60 * 60 else a := by
  unfold lineTimes at h
  split at h
  · rename_i S T h1 h2
    refine ⟨S, T, (Fuel.injection_returns.mpr ⟨100, h1, by simp⟩).1, (Fuel.production_returns.mpr ⟨100, h2, by simp⟩).1, fun v hv => ?_⟩
    exact of_decide_eq_true (List.all_eq_true.mp h v (List.mem_range.mpr hv))
  · cases h

theorem lineLorenz {k a : ℚ} (ha : 0 < a) (ha' : a < 400 * 365 * 24 * 60 * 60) {S T : Solution (X ℚ)}
    (hS : InjectionReturns lineGraph (lineCalls k 1 1) [CellSet.ofCells ⟨[65]⟩ [0]] (.ok S))
    (hT : ProductionReturns lineGraph (lineCalls k 1 1) [CellSet.ofCells ⟨[80]⟩ [1]] (.ok T))
    (ht : ∀ v < 3, (curveInput (exLine k 1 1) S T 1).time v = if v = 2 then 400 * 365 * 24 * 60 * 60 else a)
    {sort : List (X ℚ × X ℚ) → List (X ℚ × X ℚ)} (hs : StdSort sort) :
    ∃ F, curveOf sort S T (arr 3 fun _ => 1) (X.fin 1) = .ok F ∧ lorenzCoefficient F = .ok (X.fin
      (4 * (1 / a - 1 / (400 * 365 * 24 * 60 * 60)) / (2 * 3 * (2 / a + 1 / (400 * 365 * 24 * 60 * 60))))) := by
  obtain ⟨c1, _, c3⟩ := C63_curve (exLine_valid zero_le_one (by decide)) (exLine_given k 1 1) hS hT sort 1
  have hv := c3 (fun _ _ => one_pos) ⟨0, (by decide : 0 < 3), by show (1 : ℚ) ≤ 1 * ∑ u ∈ range 3, 1; norm_num⟩
  obtain ⟨F, hF, hx⟩ := C83_meanDifference hv hs
  refine ⟨F, c1.trans hF, ?_⟩
  have hkept : ∀ v ∈ range 3, (curveInput (exLine k 1 1) S T 1).Kept v := fun v hv =>
    ⟨mem_range.mp hv, by show (1 : ℚ) ≤ 1 * ∑ u ∈ range 3, 1; norm_num⟩
  have hfil : (range (curveInput (exLine k 1 1) S T 1).n).filter (fun v => (curveInput (exLine k 1 1) S T 1).Kept v) = range 3 :=
    filter_true_of_mem hkept
  have hpv : ∀ v, (curveInput (exLine k 1 1) S T 1).pv v = 1 := fun _ => rfl
  rw [hx]
  congr 2
  unfold CurveInput.volume CurveInput.rate
  rw [hfil]
  have hd : 1 / (400 * 365 * 24 * 60 * 60) < 1 / a := one_div_lt_one_div_of_lt ha ha'
  have t0 : (curveInput (exLine k 1 1) S T 1).time 0 = a := ht 0 (by decide)
  have t1 : (curveInput (exLine k 1 1) S T 1).time 1 = a := ht 1 (by decide)
  have t2 : (curveInput (exLine k 1 1) S T 1).time 2 = 400 * 365 * 24 * 60 * 60 := ht 2 (by decide)
  simp only [sum_range_succ, sum_range_zero, hpv, t0, t1, t2]
  rw [abs_of_nonneg (a := 1 / a - 1 / (400 * 365 * 24 * 60 * 60)) (by linarith),
    abs_of_nonpos (a := 1 / (400 * 365 * 24 * 60 * 60) - 1 / a) (by linarith)]
  simp only [sub_self, abs_zero]
  ring

set_option maxRecDepth 100000 in
/-- **C106** Times below 200 years are needed: with a cell that the flow does not reach, doubling all fluxes and rates raises the Lorenz
    coefficient, since that cell counts with 400 years before and after. -/
theorem C106_unswept : ∃ (P : Problem ℚ) (g g' : ConnectivityGraph) (calls calls' : List (Call (X ℚ))) (istarts pstarts : List CellSet)
    (S T S' T' : Solution (X ℚ)) (x x' : ℚ), P.Valid ∧ P.forward.Acyclic ∧ (∀ v < P.n, 0 < P.pv v) ∧ P.GivenTo g calls ∧
    (P.scaled 2 1).GivenTo g' calls' ∧ InjectionReturns g calls istarts (.ok S) ∧ ProductionReturns g calls pstarts (.ok T) ∧
    InjectionReturns g' calls' istarts (.ok S') ∧ ProductionReturns g' calls' pstarts (.ok T') ∧ x < x' ∧
    ∀ sort, StdSort sort →
      (∃ F, curveOf sort S T (arr P.n P.pv) (X.fin 1) = .ok F ∧ lorenzCoefficient F = .ok (X.fin x)) ∧
      ∃ F, curveOf sort S' T' (arr P.n P.pv) (X.fin 1) = .ok F ∧ lorenzCoefficient F = .ok (X.fin x') := by
  obtain ⟨S, T, hS, hT, ht⟩ := lineTimes_spec (k := 1) (a := 3) (by decide +kernel)
  obtain ⟨S', T', hS', hT', ht'⟩ := lineTimes_spec (k := 2) (a := 3 / 2) (by decide +kernel)
  refine ⟨exLine 1 1 1, lineGraph, lineGraph, _, lineCalls 2 1 1, _, _, S, T, S', T', _, _, exLine_valid zero_le_one (by decide),
    exLine_acyclic one_pos 1, fun _ _ => one_pos, exLine_given 1 1 1, by rw [exLine_scaled]; exact exLine_given 2 1 1, hS, hT, hS', hT', ?_,
    fun sort hs => ⟨lineLorenz (by norm_num) (by norm_num) hS hT ht hs, lineLorenz (by norm_num) (by norm_num) hS' hT' ht' hs⟩⟩
  norm_num

set_option maxRecDepth 100000 in
/-- C106, unit of time, with an ignored cell: minutes instead of hours. -/
example : ∃ I J : CurveInput ℚ, I.Valid ∧ CurveInput.TimesBy 60 I J ∧ (∀ v, I.Kept v → I.time v < 10 ^ 100) ∧
    (∀ v, I.Kept v → 60 * I.time v < 10 ^ 100) ∧ ¬ I.Kept 2 := by
  refine ⟨⟨3, fun v => v + 1, fun _ => 1, fun v => if v = 2 then 10 else 1, 1 / 2⟩,
    ⟨3, fun v => 60 * (v + 1), fun _ => 60, fun v => if v = 2 then 10 else 1, 1 / 2⟩, ?_, ?_, ?_, ?_, ?_⟩
  · refine ⟨by decide, fun v _ => ?_, fun v _ => ?_, 0, ⟨by decide, ?_⟩, ?_⟩
    · show (0 : ℚ) ≤ if v = 2 then 10 else 1
      split <;> norm_num
    · show (0 : ℚ) < (v + 1) + 1
      positivity
    · norm_num [sum_range_succ]
    · norm_num
  · exact ⟨rfl, rfl, fun _ _ => rfl, fun v _ => by simp only [CurveInput.time]; ring⟩
  · rintro v ⟨hv, _⟩
    have hv : v < 3 := hv
    interval_cases v <;> norm_num [CurveInput.time]
  · rintro v ⟨hv, _⟩
    have hv : v < 3 := hv
    interval_cases v <;> norm_num [CurveInput.time]
  · rintro ⟨_, h⟩
    norm_num [sum_range_succ] at h

/-- C106, reversed flow: both arithmetics have the laws, and reversed data exist (C105). -/
example : (SignLaws Double ∧ ProductLaws Double ∧ ∀ x y : Double, Arith.add x y = Arith.add y x) ∧
    SignLaws (X ℚ) ∧ ProductLaws (X ℚ) ∧ ∀ x y : X ℚ, Arith.add x y = Arith.add y x :=
  ⟨⟨Double.signLaws, Double.productLaws, double_add_comm⟩, signLaws_exact ℚ, productLaws_exact ℚ, exact_add_comm⟩

end Verif.Props
