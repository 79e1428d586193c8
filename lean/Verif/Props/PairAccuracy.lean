/-
C79: for flow without cycles, volumes and fluxes of well pairs computed with `double`s are accurate.
-/
import Verif.Props.SupportAny
import Verif.Props.Pairs
import Verif.Proofs.PairAccuracy

namespace Verif.Props
open Verif.Spec Verif.Toolbox Verif.Solver Verif.Rounding Verif.Derived

/-- **C79** The volume of a pair computed from concentrations that are accurate up to `k / 2^51` and `l / 2^51`: there is no
    undefined behaviour, and the error is at most `3 (k + l) + 2` plus the number of cells of the injector, times `2^-51`. -/
theorem C79_volume {n k l : Nat} (hk : k ≤ 2 ^ 48) (hl : l ≤ 2 ^ 48) (hn : n ≤ INT_MAX) {pv : List Double} {f : Nat → ℚ}
    (hpv : pv.map Double.val = arr n f) (hf : ∀ v < n, Ordinary (f v) ∧ 0 ≤ f v) {S T : Solution Double} {S' T' : Solution (X ℚ)}
    {i p : CellSetID} (hS : FractionsWithin n k (S.concentration i) (S'.concentration i))
    (hT : FractionsWithin n l (T.concentration p) (T'.concentration p)) (hlen : (S.concentration i).length ≤ INT_MAX) :
    ∃ V V', pairVolume S T pv i p = .ok V ∧ pairVolume S' T' (arr n f) i p = .ok V' ∧
      CloseTo (3 * (k + l) + 2 + (S.concentration i).length) V V' := by
  have hI : INT_MAX = 2 ^ 31 - 1 := rfl
  have h0 : Near Double.rounded q52 (3 * (k + l) + 2) (Arith.zero : Double) 0 :=
    (near_exact (ρ := Double.rounded) (y := 0) (a := Arith.zero) Double.val_lit_zero).mono Double.precise le_rfl (Nat.zero_le _)
  obtain ⟨d, s, h1, h2, h3, h4⟩ := volume_fold (by omega) (by omega) hn hpv (fun v hv => (hf v hv).1) (fun v hv => (hf v hv).2) hT hS
    (3 * (k + l) + 2) Arith.zero 0 0 le_rfl (by omega) h0 (Or.inl rfl) (by norm_num) (by omega)
  exact ⟨d, X.fin s, h1, h2, closeTo_of_near (by omega) h4 h3⟩

/-- **C79** The fluxes of a pair likewise. -/
theorem C79_fluxes {n k l : Nat} (hk : k ≤ 2 ^ 48) (hl : l ≤ 2 ^ 48) {S T : Solution Double} {S' T' : Solution (X ℚ)}
    {i p : CellSetID} (hS : FractionsWithin n k (S.concentration i) (S'.concentration i))
    (hT : FractionsWithin n l (T.concentration p) (T'.concentration p))
    {m : InflowFlux Double} {m' : InflowFlux (X ℚ)} {a b : CellSetValues Double} {a' b' : CellSetValues (X ℚ)}
    (hi : m.find i = some a ∧ m'.find i = some a') (hp : m.find p = some b ∧ m'.find p = some b')
    (ha : FluxesStored a a') (hb : FluxesStored b b') (hla : a.length ≤ INT_MAX) (hlb : b.length ≤ INT_MAX) :
    ∃ x y x' y', pairFluxes S T i p m = .ok (x, y) ∧ pairFluxes S' T' i p m' = .ok (x', y') ∧
      CloseTo (3 * l + 1 + a.length) x x' ∧ CloseTo (3 * k + 1 + b.length) y y' := by
  have hI : INT_MAX = 2 ^ 31 - 1 := rfl
  have h0 : ∀ j, Near Double.rounded q52 j (Arith.zero : Double) 0 := fun j =>
    (near_exact (ρ := Double.rounded) (y := 0) (a := Arith.zero) Double.val_lit_zero).mono Double.precise le_rfl (Nat.zero_le _)
  have h0' : ∀ j, Near Double.rounded q52 j (Arith.neg (Arith.zero : Double)) 0 := fun j =>
    (near_exact (ρ := Double.rounded)
      (by rw [Double.rounded.neg, show Double.rounded.val Arith.zero = X.fin 0 from Double.val_lit_zero]; simp [X.neg])).mono
      Double.precise le_rfl (Nat.zero_le _)
  obtain ⟨s, e1, e2, e3⟩ := inflow_fold (by omega) hT ha (3 * l + 1) Arith.zero 0 0 le_rfl (by omega) (h0 _) (Or.inl rfl)
    (by norm_num) (by omega)
  obtain ⟨t, f1, f2, f3⟩ := outflow_fold (by omega) hS hb (3 * k + 1) Arith.zero 0 0 le_rfl (by omega) (h0' _) (Or.inl rfl)
    (by norm_num) (by omega)
  refine ⟨pairFlux (T.concentration p) a true, pairFlux (S.concentration i) b false,
    pairFlux (T'.concentration p) a' true, pairFlux (S'.concentration i) b' false, ?_, ?_, ?_, ?_⟩
  · unfold pairFluxes; rw [hi.1, hp.1]
  · unfold pairFluxes; rw [hi.2, hp.2]
  · have : pairFlux (T'.concentration p) a' true = X.fin s := e1
    rw [this]
    exact closeTo_of_near (by omega) e2 e3
  · have : pairFlux (S'.concentration i) b' false = X.fin (-t) := by
      rw [← f1, neg_zero]; rfl
    rw [this]
    obtain ⟨x, y, g1, g2, g3⟩ := closeTo_of_near (by omega) f2 f3
    have hv : Double.val (Arith.neg (pairFlux (S.concentration i) b false)) = X.neg (Double.val (pairFlux (S.concentration i) b false)) :=
      Double.val_neg' _
    change Double.val (Arith.neg (pairFlux (S.concentration i) b false)) = _ at g1
    rw [hv] at g1
    cases g2
    cases hd : Double.val (pairFlux (S.concentration i) b false) with
    | fin z =>
      rw [hd] at g1
      simp only [X.neg, X.fin.injEq] at g1
      refine ⟨z, -t, hd, rfl, ?_⟩
      rw [abs_neg, show z - -t = -(x - t) by rw [← g1]; ring, abs_neg]
      exact g3
    | pinf => rw [hd] at g1; cases g1
    | ninf => rw [hd] at g1; cases g1
    | nan => rw [hd] at g1; cases g1

/-- Accurate values on the same cells. -/
theorem fractions_of {n k : Nat} {T : CellSetValues Double} {T' : CellSetValues (X ℚ)}
    (hs : (T.map fun e => e.1).Pairwise (· < ·)) (hs' : (T'.map fun e => e.1).Pairwise (· < ·))
    (hr : ∀ c : Int, c ∈ (T.map fun e => e.1) → 0 ≤ c ∧ c < n) (hr' : ∀ c : Int, c ∈ (T'.map fun e => e.1) → 0 ≤ c ∧ c < n)
    (hw : ∀ v < n, Within k (T.find (v : Int)) (T'.find (v : Int)))
    (hx : ∀ e ∈ T', ∃ y : ℚ, e.2 = X.fin y ∧ 1 / 2 ^ 300 ≤ y ∧ y ≤ 1) : FractionsWithin n k T T' := by
  have hkeys : (T.map fun e => e.1) = T'.map fun e => e.1 := by
    refine List.Perm.eq_of_pairwise (le := (· < ·)) (fun a b _ _ h1 h2 => absurd h1 (not_lt.mpr h2.le)) hs hs' ?_
    refine (List.perm_ext_iff_of_nodup (hs.imp ne_of_lt) (hs'.imp ne_of_lt)).mpr fun c => ?_
    have hc : 0 ≤ c → c < n → (c ∈ (T.map fun e => e.1) ↔ c ∈ T'.map fun e => e.1) := by
      intro h0 h1
      have e : ((c.toNat : Nat) : Int) = c := Int.toNat_of_nonneg h0
      have := hw c.toNat (by omega)
      rw [e] at this
      have k1 : c ∈ (T.map fun e => e.1) ↔ (OMap.find T c).isSome := OMap.find_isSome_iff.symm
      have k2 : c ∈ (T'.map fun e => e.1) ↔ (OMap.find T' c).isSome := OMap.find_isSome_iff.symm
      rw [k1, k2]
      rcases this with ⟨a, b⟩ | ⟨d, x, y, a, _, b, _⟩
      · rw [a, b]; simp
      · rw [a, b]; simp
    constructor
    · intro h
      obtain ⟨h0, h1⟩ := hr c h
      exact (hc h0 h1).mp h
    · intro h
      obtain ⟨h0, h1⟩ := hr' c h
      exact (hc h0 h1).mpr h
  unfold FractionsWithin
  have hpair : List.Forall₂ (fun (d : Int × Double) (e : Int × X ℚ) => d.1 = e.1) T T' := by
    have := List.forall₂_eq_eq_eq (α := Int) ▸ hkeys
    rw [List.forall₂_map_left_iff, List.forall₂_map_right_iff] at this
    exact this
  rw [List.forall₂_iff_zip] at hpair ⊢
  refine ⟨hpair.1, fun {a b} hab => ?_⟩
  have e := hpair.2 hab
  obtain ⟨ha, hb⟩ := List.of_mem_zip hab
  obtain ⟨h0, h1⟩ := hr' b.1 (List.mem_map.mpr ⟨b, hb, rfl⟩)
  obtain ⟨y, h2, h3, h4⟩ := hx b hb
  refine ⟨e, h0, h1, ?_, y, h2, Or.inr h3, h4⟩
  have hc : ((b.1.toNat : Nat) : Int) = b.1 := Int.toNat_of_nonneg h0
  have := hw b.1.toNat (by omega)
  rw [hc, OMap.mem_find (List.pairwise_map.mp hs) (k := b.1) (v := a.2) (by rw [← e]; exact ha),
    OMap.mem_find (List.pairwise_map.mp hs') hb] at this
  exact this

/-- Cells to which fluid gets are cells. -/
theorem leads_below {n : Nat} {cs : List (Nat × Nat)} {R : Type} [Arith R] {x : Nat → R} (hr : ∀ e ∈ cs, e.1 < n ∧ e.2 < n)
    {u v : Nat} (h : Leads cs x u v) : (u < n → v < n) ∧ (v < n → u < n) := by
  have step : ∀ u v, Sends cs x u v → u < n ∧ v < n := by
    rintro u v ⟨c, ⟨h, _⟩ | ⟨h, _⟩⟩
    · exact hr _ (List.mem_of_getElem? h)
    · exact (hr _ (List.mem_of_getElem? h)).symm
  unfold Leads at h
  constructor
  · intro hu
    rcases Relation.ReflTransGen.cases_tail h with e | ⟨w, _, h⟩
    · rw [e]; exact hu
    · exact (step _ _ h).2
  · intro hv
    rcases Relation.ReflTransGen.cases_head h with e | ⟨w, h, _⟩
    · rw [← e] at hv; exact hv
    · exact (step _ _ h).1

theorem stored_below {P : Problem ℚ} (hP : P.Valid) {m : InflowFlux Double}
    (h : m.map (fun set => (set.1, set.2.map fun e => (e.1, Double.val e.2))) = P.inflowMap) : CellsBelow m P.n := by
  intro set hset e he
  have h1 : (set.1, set.2.map fun e => (e.1, Double.val e.2)) ∈ P.inflowMap := h ▸ List.mem_map.mpr ⟨set, hset, rfl⟩
  obtain ⟨w, hw, e1⟩ := List.mem_map.mp h1
  have e2 : valuesOf w.cells w.val = set.2.map fun e => (e.1, Double.val e.2) := (Prod.mk.inj e1).2
  have h2 : (e.1, Double.val e.2) ∈ valuesOf w.cells w.val := e2 ▸ List.mem_map.mpr ⟨e, he, rfl⟩
  obtain ⟨v, hv, e3⟩ := List.mem_map.mp h2
  have e4 : (v : Int) = e.1 := (Prod.mk.inj e3).1
  have := hP.cells_range w hw v hv
  omega

theorem length_below {n : Nat} {l : List Int} (hs : l.Pairwise (· < ·)) (hr : ∀ c ∈ l, 0 ≤ c ∧ c < n) : l.length ≤ n := by
  have hnd : (l.map Int.toNat).Nodup := by
    refine List.Nodup.map_on ?_ (hs.imp ne_of_lt)
    intro a ha b hb e
    have := (hr a ha).1
    have := (hr b hb).1
    omega
  have := (List.subperm_of_subset hnd (l₂ := List.range n) (fun x hx => by
    obtain ⟨c, hc, rfl⟩ := List.mem_map.mp hx
    have := hr c hc
    rw [List.mem_range]; omega)).length_le
  simpa using this

/-- The well's values, as stored. -/
theorem stored_find {P : Problem ℚ} (hP : P.Valid) {M : Nat} (hO : P.OfOrdinarySize M) {m : InflowFlux Double}
    (h : m.map (fun set => (set.1, set.2.map fun e => (e.1, Double.val e.2))) = P.inflowMap) {w : WellFlux ℚ} (hw : w ∈ P.wells) :
    ∃ a, m.find w.id = some a ∧ P.inflowMap.find w.id = some (valuesOf w.cells w.val) ∧ FluxesStored a (valuesOf w.cells w.val) ∧
      a.length ≤ P.n := by
  have h1 := inflowMap_find hP.wells_sorted hw
  have h2 : (OMap.find m w.id).map (fun s => s.map fun e => (e.1, Double.val e.2)) = P.inflowMap.find w.id := by
    rw [← h]
    clear h h1
    induction m with
    | nil => rfl
    | cons x m ih =>
      rw [List.map_cons, OMap.find_cons, OMap.find_cons]
      by_cases hx : x.1 = w.id
      · rw [if_pos hx, if_pos hx]; rfl
      · rw [if_neg hx, if_neg hx]; exact ih
  rw [h1] at h2
  obtain ⟨a, ha, ea⟩ := Option.map_eq_some_iff.mp h2
  refine ⟨a, ha, h1, ?_, ?_⟩
  · unfold FluxesStored
    rw [← ea, List.forall₂_map_right_iff, List.forall₂_same]
    intro e he
    have h3 : (e.1, Double.val e.2) ∈ valuesOf w.cells w.val := ea ▸ List.mem_map.mpr ⟨e, he, rfl⟩
    obtain ⟨v, hv, e3⟩ := List.mem_map.mp h3
    have e4 : X.fin (w.val v) = Double.val e.2 := (Prod.mk.inj e3).2
    exact ⟨rfl, w.val v, e4.symm, e4.symm, hO.well w hw v hv⟩
  · have hl : a.length = w.cells.length := by
      have := congrArg List.length ea
      simpa [valuesOf] using this
    rw [hl]
    have := length_below (n := P.n) (l := w.cells.map fun v : Nat => (v : Int))
      (List.pairwise_map.mpr ((hP.cells_sorted w hw).imp fun h => by omega))
      (fun c hc => by
        obtain ⟨v, hv, rfl⟩ := List.mem_map.mp hc
        have := hP.cells_range w hw v hv
        omega)
    simpa using this

/-- **C79** Flow without cycles with at most `L + 1` layers: where the exact computations return results that are not tiny, the
    computations with `double`s return, and the volume and the two fluxes of every pair of an injector and a producer computed
    from them are those computed from the exact solutions up to the stated relative errors. -/
theorem C79_pairs {P : Problem ℚ} (hP : P.Valid) {M L : Nat} (hO : P.OfOrdinarySize M) {layer layer' : Nat → Nat}
    (hF : P.forward.Layered layer) (hB : P.backward.Layered layer') (hL : ∀ v < P.n, layer v ≤ L ∧ layer' v ≤ L)
    (hsmall : (L + 2) ^ 2 * (4 * M + 6) ≤ 2 ^ 48)
    {g : ConnectivityGraph} {calls : List (Call Double)} (hS : P.StoredIn g calls)
    {g' : ConnectivityGraph} {calls' : List (Call (X ℚ))} (hG : P.GivenTo g' calls') {injectors producers : List CellSet}
    {S' T' : Solution (X ℚ)} (hS' : InjectionReturns g' calls' injectors (.ok S')) (hT' : ProductionReturns g' calls' producers (.ok T'))
    (ht : NotTiny S') (ht' : NotTiny T')
    {pv : List Double} (hpv : pv.map Double.val = arr P.n P.pv) {m : InflowFlux Double}
    (hm : m.map (fun set => (set.1, set.2.map fun e => (e.1, Double.val e.2))) = P.inflowMap) :
    ∃ S T, InjectionReturns g calls injectors (.ok S) ∧ ProductionReturns g calls producers (.ok T) ∧
      ∀ i p, (∃ s ∈ injectors, s.id = i) → (∃ s ∈ producers, s.id = p) →
        (∃ V V', pairVolume S T pv i p = .ok V ∧ pairVolume S' T' (arr P.n P.pv) i p = .ok V' ∧
          CloseTo (6 * ((L + 1) * (4 * M + 6)) + 2 + P.n) V V') ∧
        (∃ x y x' y', pairFluxes S T i p m = .ok (x, y) ∧ pairFluxes S' T' i p P.inflowMap = .ok (x', y') ∧
          CloseTo (3 * ((L + 1) * (4 * M + 6)) + 1 + P.n) x x' ∧ CloseTo (3 * ((L + 1) * (4 * M + 6)) + 1 + P.n) y y') := by
  have hsm : ∀ j ≤ L, (j + 2) ^ 2 * (4 * M + 6) ≤ 2 ^ 51 := fun j hj =>
    (Nat.mul_le_mul_right _ (Nat.pow_le_pow_left (by omega) 2)).trans (hsmall.trans (by norm_num))
  obtain ⟨S, h1, a1⟩ := C64_injection hP hO hF (fun v hv => hsm _ (hL v hv).1) hS hG hS' ht
  obtain ⟨T, h2, a2⟩ := C64_production hP hO hB (fun v hv => hsm _ (hL v hv).2) hS hG hT' ht'
  refine ⟨S, T, h1, h2, fun i p hi hp => ?_⟩
  have hg := stored_connectivity hP hS
  obtain ⟨np, phi, hf, hphi⟩ := hS.flux
  have hbelow := stored_below hP hS.inflow
  have F1 := C24_any_injection hg hf hbelow h1 hi
  have F2 := C24_any_production hg hf hbelow h2 hp
  have r1 : ∀ c : Int, c ∈ ((S.concentration i).map fun e => e.1) → 0 ≤ c ∧ c < P.n := by
    intro c hc
    obtain ⟨v, rfl, q, ⟨set, hset, _, e, he, eq, _⟩, hl⟩ := (F1.cells c).mp hc
    have := hbelow set hset e he
    have := (leads_below hg.range hl).1 (by omega)
    omega
  have r2 : ∀ c : Int, c ∈ ((T.concentration p).map fun e => e.1) → 0 ≤ c ∧ c < P.n := by
    intro c hc
    obtain ⟨v, rfl, q, ⟨set, hset, _, e, he, eq, _⟩, hl⟩ := (F2.cells c).mp hc
    have := hbelow set hset e he
    have := (leads_below hg.range hl).2 (by omega)
    omega
  have tracer : ∀ (m : CellSetValues (X ℚ)), IsTracer P.n m → (m.map fun e => e.1).Pairwise (· < ·) ∧
      ∀ c : Int, c ∈ (m.map fun e => e.1) → 0 ≤ c ∧ c < P.n := by
    rintro m ⟨cells, f, rfl, hs, hr⟩
    have e : ((valuesOf cells f).map fun e => e.1) = cells.map fun v : Nat => (v : Int) := by
      unfold valuesOf; rw [List.map_map]; rfl
    rw [e]
    refine ⟨List.pairwise_map.mpr (hs.imp fun h => by omega), fun c hc => ?_⟩
    obtain ⟨v, hv, rfl⟩ := List.mem_map.mp hc
    have := (hr v hv).1
    omega
  obtain ⟨s1, t1⟩ := tracer _ ((diag_injection hP hG hS').tracer i)
  obtain ⟨s2, t2⟩ := tracer _ ((diag_production hP hG hT').tracer p)
  set C := (L + 1) * (4 * M + 6) with hC
  have hC48 : C ≤ 2 ^ 48 := by
    refine le_trans ?_ hsmall
    exact Nat.mul_le_mul_right _ (by nlinarith)
  have wmono : ∀ {k : Nat} {a : Option Double} {b : Option (X ℚ)}, k ≤ C → (∀ y : ℚ, b = some (X.fin y) → 0 ≤ y) →
      Within k a b → Within C a b := by
    intro k a b hk hb h
    rcases h with h | ⟨d, x, y, e1, e2, e3, e4⟩
    · exact Or.inl h
    · refine Or.inr ⟨d, x, y, e1, e2, e3, e4.trans (mul_le_mul_of_nonneg_right ?_ (hb y e3))⟩
      have : (k : ℚ) ≤ C := by exact_mod_cast hk
      gcongr
  have conc := C25_toolbox hP hG (Or.inl hS')
  have conc' := C25_toolbox hP hG (Or.inr hT')
  have FS : FractionsWithin P.n C (S.concentration i) (S'.concentration i) := by
    refine fractions_of F1.order s1 r1 t1 (fun v hv => ?_) ?_
    · refine wmono (Nat.mul_le_mul_right _ (by have := (hL v hv).1; omega)) ?_ (a1.concentration i v hv)
      intro y hy
      obtain ⟨x, e, hx, _⟩ := conc i _ (OMap.find_some_mem hy)
      cases e; exact hx.le
    · intro e he
      obtain ⟨x, ex, hx, hx1⟩ := conc i e he
      exact ⟨x, ex, ht.concentration i e he x ex hx, hx1⟩
  have FT : FractionsWithin P.n C (T.concentration p) (T'.concentration p) := by
    refine fractions_of F2.order s2 r2 t2 (fun v hv => ?_) ?_
    · refine wmono (Nat.mul_le_mul_right _ (by have := (hL v hv).2; omega)) ?_ (a2.concentration p v hv)
      intro y hy
      obtain ⟨x, e, hx, _⟩ := conc' p _ (OMap.find_some_mem hy)
      cases e; exact hx.le
    · intro e he
      obtain ⟨x, ex, hx, hx1⟩ := conc' p e he
      exact ⟨x, ex, ht'.concentration p e he x ex hx, hx1⟩
  have cmono : ∀ {k l : Nat} {d : Double} {e : X ℚ}, k ≤ l → CloseTo k d e → CloseTo l d e := by
    rintro k l d e hkl ⟨x, y, e1, e2, e3⟩
    refine ⟨x, y, e1, e2, e3.trans (mul_le_mul_of_nonneg_right ?_ (abs_nonneg y))⟩
    have : (k : ℚ) ≤ l := by exact_mod_cast hkl
    gcongr
  have lS : (S.concentration i).length ≤ P.n := by
    have := length_below F1.order r1
    simpa using this
  constructor
  · obtain ⟨V, V', e1, e2, e3⟩ := C79_volume hC48 hC48 hP.int hpv (fun v hv => ⟨hO.pv v hv, hP.pv v hv⟩) FS FT (lS.trans hP.int)
    exact ⟨V, V', e1, e2, cmono (by omega) e3⟩
  · obtain ⟨s, hs, es⟩ := hi
    obtain ⟨s', hs', es'⟩ := hp
    obtain ⟨w, hw, ew, _⟩ := (diag_injection hP hG hS').known s hs
    obtain ⟨w', hw', ew', _⟩ := (diag_production hP hG hT').known s' hs'
    obtain ⟨a, b1, b2, b3, b4⟩ := stored_find hP hO hm hw
    obtain ⟨b, c1, c2, c3, c4⟩ := stored_find hP hO hm hw'
    rw [ew, es] at b1 b2
    rw [ew', es'] at c1 c2
    obtain ⟨x, y, x', y', e1, e2, e3, e4⟩ := C79_fluxes hC48 hC48 FS FT ⟨b1, b2⟩ ⟨c1, c2⟩ b3 c3 (b4.trans hP.int) (c4.trans hP.int)
    exact ⟨x, y, x', y', e1, e2, cmono (by omega) e3, cmono (by omega) e4⟩

def accInflow : InflowFlux Double := [(⟨[73]⟩, [(0, Arith.lit 10)]), (⟨[80]⟩, [(2, Arith.lit (-10))])]

set_option maxRecDepth 100000 in
/-- C79: the hypotheses hold for the problem in which cell 0 sends 3/10 of its water by cell 1; volume and fluxes are right to
    `1 / 2^42`. -/
example : ∃ S T S' T', InjectionReturns accGraph accCalls accInjectors (.ok S) ∧
    ProductionReturns accGraph accCalls accProducers (.ok T) ∧
    InjectionReturns accGraph accExact accInjectors (.ok S') ∧ ProductionReturns accGraph accExact accProducers (.ok T') ∧
    (∃ V V', pairVolume S T [Arith.lit 1, Arith.lit 2, Arith.lit 2] ⟨[73]⟩ ⟨[80]⟩ = .ok V ∧
      pairVolume S' T' (arr 3 accProblem.pv) ⟨[73]⟩ ⟨[80]⟩ = .ok V' ∧ CloseTo 329 V V') ∧
    (∃ x y x' y', pairFluxes S T ⟨[73]⟩ ⟨[80]⟩ accInflow = .ok (x, y) ∧
      pairFluxes S' T' ⟨[73]⟩ ⟨[80]⟩ accProblem.inflowMap = .ok (x', y') ∧ CloseTo 166 x x' ∧ CloseTo 166 y y') := by
  obtain ⟨S', h3, t3⟩ := okNotTiny_spec
    (show okNotTiny (injectionOutcome accGraph accExact noFailure 100 accInjectors) = true by decide +kernel)
  obtain ⟨T', h4, t4⟩ := okNotTiny_spec
    (show okNotTiny (productionOutcome accGraph accExact noFailure 100 accProducers) = true by decide +kernel)
  have h3 := (Fuel.injection_returns.mpr ⟨100, h3, by simp⟩).1
  have h4 := (Fuel.production_returns.mpr ⟨100, h4, by simp⟩).1
  obtain ⟨S, T, h1, h2, h5⟩ := C79_pairs (L := 2) accProblem_valid acc_ordinary acc_forward acc_backward
    (fun v hv => ⟨by have : v < 3 := hv; simp only [id]; omega, by omega⟩) (by norm_num) acc_stored acc_given h3 h4 t3 t4
    (pv := [Arith.lit 1, Arith.lit 2, Arith.lit 2]) (by decide +kernel) (m := accInflow) (by decide +kernel)
  obtain ⟨h6, h7⟩ := h5 ⟨[73]⟩ ⟨[80]⟩ ⟨_, List.mem_singleton.mpr rfl, rfl⟩ ⟨_, List.mem_singleton.mpr rfl, rfl⟩
  exact ⟨S, T, S', T', h1, h2, h3, h4, h6, h7⟩

end Verif.Props
