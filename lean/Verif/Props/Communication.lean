/-
C98: volume and fluxes of a pair of wells are zero exactly if no fluid gets from the one to the other.
-/
import Verif.Spec.Communication
import Verif.Props.Pairs
import Verif.Props.UpstreamCyclic
import Verif.Props.Grouping
import Verif.Props.SupportAny

namespace Verif.Props
open Verif.Spec Verif.Toolbox Verif.Solver Verif.Derived Finset

/-! ### Any arithmetic -/

section any
variable {R : Type} [Arith R]

theorem found_cell {V : Nat → Prop} {sol : Solution R} {i : CellSetID} (h : FieldsOn V sol i) {cell : Int} {c : R}
    (e : (sol.concentration i).find cell = some c) : ∃ v : Nat, cell = v ∧ V v :=
  (h.cells cell).mp (List.mem_map.mpr ⟨_, OMap.find_some_mem e, rfl⟩)

theorem pairFlux_nothing {T : CellSetValues R} {m : CellSetValues R} {b : Bool}
    (h : ∀ e ∈ m, ∀ c, T.find e.1 = some c → Arith.lt Arith.zero e.2 ≠ b) : pairFlux T m b = Arith.zero := by
  unfold pairFlux
  have key : ∀ (l : CellSetValues R) (a : R), (∀ e ∈ l, ∀ c, T.find e.1 = some c → Arith.lt Arith.zero e.2 ≠ b) →
      l.foldl (addPairFlux T b) a = a := by
    intro l
    induction l with
    | nil => intro a _; rfl
    | cons e l ih =>
      intro a hl
      have h1 : addPairFlux T b a e = a := by
        unfold addPairFlux
        cases hc : T.find e.1 with
        | none => rfl
        | some c =>
          have := hl e (by simp) c hc
          simp [this]
      rw [List.foldl_cons, h1]
      exact ih a fun e he => hl e (List.mem_cons_of_mem _ he)
  exact key m _ h

/-- **C98** (any arithmetic, in particular doubles; flow with or without cycles) If no fluid gets from where `i` injects to
    where `j` produces, then the volume of the pair and the flux from `i` to `j` are zero, not merely small.  So is the flux
    with which `j` produces from `i`, if `j` has no value that is neither positive nor negative. -/
theorem C98_nothing {g : ConnectivityGraph} {n : Nat} {cs : List (Nat × Nat)} (hg : ValidConnectivity g n cs)
    {calls : List (Call R)} {np : Nat} {phi : Nat → Nat → R} (hf : FluxGiven g calls np phi)
    {m : InflowFlux R} (hlast : lastInflow calls = some m) (hm : CellsBelow m n) {istarts pstarts : List CellSet} {S T : Solution R}
    (hS : InjectionReturns g calls istarts (.ok S)) (hT : ProductionReturns g calls pstarts (.ok T)) {i j : CellSetID}
    (hi : ∃ s ∈ istarts, s.id = i) (hj : ∃ s ∈ pstarts, s.id = j)
    (hno : ¬ Supplies cs (fun c => phaseSum (phi c) np) m i j) :
    (∀ pv, pairVolume S T pv i j = .ok Arith.zero) ∧
    ∀ x y, pairFluxes S T i j m = .ok (x, y) → x = Arith.zero ∧
      ((∀ set ∈ m, set.1 = j → ∀ e ∈ set.2, ¬ NoSign e.2) → y = Arith.zero) := by
  have hget : (lastInflow calls).getD [] = m := by rw [hlast]; rfl
  have FS := C24_any_injection hg hf (by rw [hget]; exact hm) hS hi
  have FT := C24_any_production hg hf (by rw [hget]; exact hm) hT hj
  rw [hget] at FS FT
  constructor
  · intro pv
    unfold pairVolume
    have key : ∀ l : CellSetValues R, (∀ e ∈ l, e ∈ S.concentration i) →
        forEach l Arith.zero (addPairVolume (T.concentration j) pv) = .ok Arith.zero := by
      intro l
      induction l with
      | nil => intro _; rfl
      | cons e l ih =>
        intro hl
        have h1 : addPairVolume (T.concentration j) pv Arith.zero e = .ok Arith.zero := by
          unfold addPairVolume
          cases hc : (T.concentration j).find e.1 with
          | none => rfl
          | some c =>
            exfalso
            obtain ⟨v, ev, a, ha, hav⟩ := (FS.cells e.1).mp (List.mem_map.mpr ⟨e, hl e (by simp), rfl⟩)
            obtain ⟨v', ev', b, hb, hvb⟩ := found_cell FT hc
            obtain rfl : v = v' := by exact_mod_cast ev.symm.trans ev'
            exact hno ⟨a, b, ha, hb, hav.trans hvb⟩
        rw [forEach_cons, h1]
        exact ih fun e he => hl e (List.mem_cons_of_mem _ he)
    exact key _ fun e he => he
  · intro x y hxy
    unfold pairFluxes at hxy
    cases h1 : m.find i with
    | none => simp [h1] at hxy
    | some inj =>
      cases h2 : m.find j with
      | none => simp [h1, h2] at hxy
      | some prod =>
        simp only [h1, h2, Res.ok.injEq, Prod.mk.injEq] at hxy
        obtain ⟨rfl, rfl⟩ := hxy
        have hi' := OMap.find_some_mem h1
        have hj' := OMap.find_some_mem h2
        constructor
        · refine pairFlux_nothing fun e he c hc hpos => ?_
          obtain ⟨v, ev, b, hb, hvb⟩ := found_cell FT hc
          exact hno ⟨v, b, ⟨_, hi', rfl, e, he, ev, hpos⟩, hb, hvb⟩
        · intro hsign
          refine pairFlux_nothing fun e he c hc hpos => ?_
          obtain ⟨v, ev, a, ha, hav⟩ := found_cell FS hc
          refine hno ⟨a, v, ha, ⟨_, hj', rfl, e, he, ev, ?_, hpos⟩, hav⟩
          by_contra hneg
          exact hsign _ hj' rfl e he ⟨hpos, by simpa using hneg⟩

end any

/-! ### Exact arithmetic -/

section exact
variable {K : Type} [Field K] [LinearOrder K] [IsStrictOrderedRing K] [Archimedean K]

section diag
variable {F : Flow K} {wells : List (WellFlux K)} {cs : WellFlux K → List Nat} {f : WellFlux K → Nat → K}
  {starts : List CellSet} {sol : Solution (X K)}

theorem Diag.conc_pos (D : Diag F wells cs f starts sol) {w : WellFlux K} (hw : w ∈ wells) (hs : ∃ s ∈ starts, s.id = w.id) (v : Nat) :
    0 < valueAt (sol.concentration w.id) v ↔ ∃ p ∈ cs w, F.Reach p v := by
  have hsup := (D.support hw hs).2 (v : Int)
  rcases find_values (D.tracer w.id) v with ⟨h1, h2⟩ | h
  · rw [h2]
    refine iff_of_false (lt_irrefl _) fun hex => ?_
    obtain ⟨e, he, hev⟩ := List.mem_map.mp (hsup.mpr ⟨v, rfl, hex⟩)
    exact OMap.find_none_iff.mp h1 e he hev
  · have hmem := OMap.find_some_mem h
    obtain ⟨x, hx, hpos, _⟩ := D.conc w.id _ hmem
    have hx : valueAt (sol.concentration w.id) v = x := X.fin.inj hx
    refine iff_of_true (by rw [hx]; exact hpos) ?_
    obtain ⟨u, hu, hex⟩ := hsup.mp (List.mem_map.mpr ⟨_, hmem, rfl⟩)
    obtain rfl : v = u := by exact_mod_cast hu
    exact hex

theorem Diag.conc_le_one (D : Diag F wells cs f starts sol) (i : CellSetID) (v : Nat) : valueAt (sol.concentration i) v ≤ 1 := by
  rcases find_values (D.tracer i) v with ⟨_, h⟩ | h
  · rw [h]; exact zero_le_one
  · obtain ⟨x, hx, _, h1⟩ := D.conc i _ (OMap.find_some_mem h)
    rw [X.fin.inj hx]; exact h1

omit [Archimedean K] in
/-- What the wells but one give to a cell. -/
theorem side_others (S : Side wells cs f F.n F.src) {w : WellFlux K} (hw : w ∈ wells) (v : Nat) :
    injected (cs w) (f w) v ≤ F.src v ∧
    (F.src v = injected (cs w) (f w) v ↔ ∀ w' ∈ wells, w'.id ≠ w.id → v ∉ cs w') := by
  classical
  set q : WellFlux K → K := fun w => if v ∈ cs w then f w v else 0 with hq
  have hq0 : ∀ w ∈ wells, 0 ≤ q w ∧ (0 < q w ↔ v ∈ cs w) := by
    intro w hw
    by_cases h : v ∈ cs w
    · have := S.pos w hw v h
      simp only [hq, h, if_true, iff_true]; exact ⟨this.le, this⟩
    · simp [hq, h]
  have hid : ∀ w' ∈ wells, (w' ≠ w ↔ w'.id ≠ w.id) := fun w' hw' =>
    ⟨fun hne e => hne (wells_id S.ids hw' hw e), fun hne e => hne (by rw [e])⟩
  have hnd : wells.Nodup := S.ids.imp fun h e => by rw [e] at h; exact lt_irrefl _ h
  have esum : F.src v = q w + ((wells.erase w).map q).sum := by
    rw [S.src v, List.sum_map_erase _ hw]
  have einj : injected (cs w) (f w) v = q w := rfl
  obtain ⟨s1, s2, _⟩ := sum_pos_iff (wells := wells.erase w) (g := q) fun w' hw' => (hq0 w' (List.mem_of_mem_erase hw')).1
  rw [esum, einj]
  refine ⟨le_add_of_nonneg_right s1, ?_⟩
  constructor
  · intro h w' hw' hne hv
    have h0 : ((wells.erase w).map q).sum = 0 := by linarith
    have : 0 < ((wells.erase w).map q).sum :=
      s2.mpr ⟨w', (hnd.mem_erase_iff).mpr ⟨(hid w' hw').mpr hne, hw'⟩, (hq0 w' hw').2.mpr hv⟩
    linarith
  · intro h
    rcases s1.eq_or_lt with h0 | h0
    · rw [← h0, add_zero]
    · obtain ⟨w', hw', hpos⟩ := s2.mp h0
      obtain ⟨hne, hw'⟩ := hnd.mem_erase_iff.mp hw'
      exact absurd ((hq0 w' hw').2.mp hpos) (h w' hw' ((hid w' hw').mp hne))

omit [Archimedean K] in
theorem Diag.others (D : Diag F wells cs f starts sol) {w : WellFlux K} (hw : w ∈ wells) (v : Nat) :
    injected (cs w) (f w) v ≤ F.src v ∧
    (F.src v = injected (cs w) (f w) v ↔ ∀ w' ∈ wells, w'.id ≠ w.id → v ∉ cs w') := side_others D.side hw v

/-- Concentration 1: no other well's fluid arrives. -/
theorem Diag.alone (D : Diag F wells cs f starts sol) (hacy : F.Acyclic) {w : WellFlux K} (hw : w ∈ wells)
    (hs : ∃ s ∈ starts, s.id = w.id) {v : Nat} (hv : v < F.n) (hfed : ∀ u, F.Reach u v → 0 < F.total u) :
    valueAt (sol.concentration w.id) v = 1 ↔ ∀ w' ∈ wells, w'.id ≠ w.id → ¬ ∃ p ∈ cs w', F.Reach p v := by
  obtain ⟨d, st, h1, _, _⟩ := D.solved
  set c := valueAt (sol.concentration w.id) with hc
  have hle : ∀ u, c u ≤ 1 := D.conc_le_one w.id
  have hbal := D.balance hacy hw hs
  have key : ∀ u < F.n, F.total u * (1 - c u) = (∑ x ∈ Finset.range F.n, (1 - c x) * F.w x u) + (F.src u - injected (cs w) (f w) u) := by
    intro u hu
    have := hbal u hu
    have e : ∑ x ∈ Finset.range F.n, (1 - c x) * F.w x u = (∑ x ∈ Finset.range F.n, F.w x u) - ∑ x ∈ Finset.range F.n, c x * F.w x u := by
      rw [← sum_sub_distrib]; exact sum_congr rfl fun x _ => by ring
    have ht : F.total u = (∑ x ∈ Finset.range F.n, F.w x u) + F.src u := rfl
    rw [e, mul_sub, mul_one, this]
    rw [ht]; ring
  have hterm : ∀ u < F.n, ∀ x ∈ Finset.range F.n, 0 ≤ (1 - c x) * F.w x u := fun u hu x hx =>
    mul_nonneg (sub_nonneg.mpr (hle x)) (h1.valid.w_nonneg x u (mem_range.mp hx) hu)
  constructor
  · intro hone
    have back : ∀ u, F.Reach u v → u < F.n ∧ c u = 1 := by
      intro u hu
      induction hu using Relation.ReflTransGen.head_induction_on with
      | refl => exact ⟨hv, hone⟩
      | @head a b hab _ ih =>
        have k := key b ih.1
        rw [ih.2, sub_self, mul_zero] at k
        have hs0 := sum_nonneg (hterm b ih.1)
        have ho := (D.others hw b).1
        have hz : ∑ x ∈ Finset.range F.n, (1 - c x) * F.w x b = 0 := by linarith
        have := (sum_eq_zero_iff_of_nonneg (hterm b ih.1)).mp hz a (mem_range.mpr hab.1)
        rcases mul_eq_zero.mp this with h | h
        · exact ⟨hab.1, by linarith⟩
        · exact absurd hab.2.2 (by rw [h]; exact lt_irrefl _)
    rintro w' hw' hne ⟨p, hp, hreach⟩
    obtain ⟨hpn, hpc⟩ := back p hreach
    have k := key p hpn
    rw [hpc, sub_self, mul_zero] at k
    have hs0 := sum_nonneg (hterm p hpn)
    obtain ⟨ho, hoi⟩ := D.others hw p
    exact hoi.mp (by linarith) w' hw' hne hp
  · intro hno
    have fwd : ∀ u < F.n, F.Reach u v → c u = 1 := by
      refine acyclic_induction hacy (P := fun u => F.Reach u v → c u = 1) ?_
      intro u hu ih hreach
      have k := key u hu
      have hz : ∑ x ∈ Finset.range F.n, (1 - c x) * F.w x u = 0 := by
        refine sum_eq_zero fun x hx => ?_
        rcases (h1.valid.w_nonneg x u (mem_range.mp hx) hu).eq_or_lt with h0 | h0
        · rw [← h0, mul_zero]
        · have he : F.Edge x u := ⟨mem_range.mp hx, hu, h0⟩
          rw [ih x he (Relation.ReflTransGen.head he hreach), sub_self, zero_mul]
      have hsrc := (D.others hw u).2.mpr fun w' hw' hne hmem => hno w' hw' hne ⟨u, hmem, hreach⟩
      rw [hz, hsrc, sub_self, add_zero] at k
      rcases mul_eq_zero.mp k with h | h
      · exact absurd (hfed u hreach) (by rw [h]; exact lt_irrefl _)
      · linarith
    exact fwd v hv Relation.ReflTransGen.refl

end diag

variable {P : Problem K} {g : ConnectivityGraph} {calls : List (Call (X K))}

/-- **C98** (exact arithmetic, flow with or without cycles) The volume of a pair is positive if and only if there is a cell
    with positive pore volume into which fluid from the injector gets and from which fluid gets to the producer.  The
    fluxes of the pair are not zero if and only if fluid from the injector gets to the producer. -/
theorem C98_pairs (hP : P.Valid) (h : P.GivenTo g calls) {istarts pstarts : List CellSet} {S T : Solution (X K)}
    (hS : InjectionReturns g calls istarts (.ok S)) (hT : ProductionReturns g calls pstarts (.ok T))
    {w w' : WellFlux K} (hw : w ∈ P.wells) (hw' : w' ∈ P.wells) (hi : ∃ s ∈ istarts, s.id = w.id) (hj : ∃ s ∈ pstarts, s.id = w'.id) :
    ∃ V x y, pairVolume S T (arr P.n P.pv) w.id w'.id = .ok (X.fin V) ∧
      pairFluxes S T w.id w'.id P.inflowMap = .ok (X.fin x, X.fin y) ∧ 0 ≤ V ∧ 0 ≤ x ∧ y ≤ 0 ∧
      (V ≠ 0 ↔ ∃ v < P.n, 0 < P.pv v ∧ P.Between w w' v) ∧
      (x ≠ 0 ↔ P.Communicate w w') ∧ (y ≠ 0 ↔ P.Communicate w w') := by
  have DS := diag_injection hP h hS
  have DT := diag_production hP h hT
  obtain ⟨V, hV, hV0⟩ := (C49_nonneg_symmetric (DS.tracer w.id) (DT.tracer w'.id) hP.pv).1
  obtain ⟨x, y, hxy, hx0, hy0⟩ := C50_signs hP hw hw' (DS.tracer w.id) (DT.tracer w'.id)
  refine ⟨V, x, y, hV, hxy, hV0, hx0, hy0, ?_⟩
  have hcS := DS.conc_pos hw hi
  have hcT := DT.conc_pos hw' hj
  have nS := tracer_nonneg (DS.tracer w.id)
  have nT := tracer_nonneg (DT.tracer w'.id)
  have eV := (C49_value (DS.tracer w.id) (DT.tracer w'.id) P.pv).symm.trans hV
  have exy := (C50_value hP hw hw' (DS.tracer w.id) (DT.tracer w'.id)).symm.trans hxy
  obtain ⟨ex, ey⟩ := Prod.mk.inj (Res.ok.inj exy)
  have eV := X.fin.inj (Res.ok.inj eV)
  change ∑ v ∈ range P.n, P.pv v * valueAt (S.concentration w.id) v * valueAt (T.concentration w'.id) v = V at eV
  have ex := X.fin.inj ex
  have ey := X.fin.inj ey
  subst eV ex ey
  have ne_iff : ∀ {q : Nat → K}, (∀ v ∈ range P.n, 0 ≤ q v) → ((∑ v ∈ range P.n, q v) ≠ 0 ↔ ∃ v < P.n, 0 < q v) := by
    intro q hq
    rw [ne_eq, sum_eq_zero_iff_of_nonneg hq]
    push Not
    constructor
    · rintro ⟨v, hv, hne⟩; exact ⟨v, mem_range.mp hv, lt_of_le_of_ne (hq v hv) hne.symm⟩
    · rintro ⟨v, hv, hp⟩; exact ⟨v, mem_range.mpr hv, hp.ne'⟩
  have pos_iff : ∀ {a b : K}, 0 ≤ a → 0 ≤ b → (0 < a * b ↔ 0 < a ∧ 0 < b) := by
    intro a b ha hb
    constructor
    · intro hp
      refine ⟨lt_of_le_of_ne ha ?_, lt_of_le_of_ne hb ?_⟩
      · rintro rfl; simp at hp
      · rintro rfl; simp at hp
    · rintro ⟨h1, h2⟩; exact mul_pos h1 h2
  have inj_iff : ∀ v, 0 < max (Problem.wellAt w v) 0 ↔ v ∈ posCells w := by
    exact fun v => mem_pos.symm
  have out_iff : ∀ v, 0 < max (-Problem.wellAt w' v) 0 ↔ v ∈ negCells w' := by
    exact fun v => mem_neg.symm
  refine ⟨?_, ?_, ?_⟩
  · rw [ne_iff fun v hv => mul_nonneg (mul_nonneg (hP.pv v (mem_range.mp hv)) (nS v)) (nT v)]
    refine exists_congr fun v => and_congr_right fun hv => ?_
    rw [pos_iff (mul_nonneg (hP.pv v hv) (nS v)) (nT v), pos_iff (hP.pv v hv) (nS v), hcS, hcT, and_assoc]
    refine and_congr_right fun _ => and_congr_right fun _ => exists_congr fun b => and_congr_right fun _ => backward_reach
  · rw [ne_iff fun v _ => mul_nonneg (le_max_right _ _) (nT v)]
    constructor
    · rintro ⟨v, hv, hp⟩
      obtain ⟨h1, h2⟩ := (pos_iff (le_max_right _ _) (nT v)).mp hp
      obtain ⟨b, hb, hr⟩ := (hcT v).mp h2
      exact ⟨v, (inj_iff v).mp h1, b, hb, backward_reach.mp hr⟩
    · rintro ⟨a, ha, b, hb, hr⟩
      exact ⟨a, DS.side.range w hw a ha, mul_pos ((inj_iff a).mpr ha) ((hcT a).mpr ⟨b, hb, backward_reach.mpr hr⟩)⟩
  · rw [neg_ne_zero, ne_iff fun v _ => mul_nonneg (le_max_right _ _) (nS v)]
    constructor
    · rintro ⟨v, hv, hp⟩
      obtain ⟨h1, h2⟩ := (pos_iff (le_max_right _ _) (nS v)).mp hp
      obtain ⟨a, ha, hr⟩ := (hcS v).mp h2
      exact ⟨a, ha, v, (out_iff v).mp h1, hr⟩
    · rintro ⟨a, ha, b, hb, hr⟩
      exact ⟨b, DT.side.range w' hw' b hb, mul_pos ((out_iff b).mpr hb) ((hcS b).mpr ⟨a, ha, hr⟩)⟩

/-- **C98** (exact arithmetic, cycle-free flow) The concentration of an injector in a cell is 1 if and only if no other
    injector's fluid gets there, provided that something flows into each cell upstream. -/
theorem C98_alone_injection (hP : P.Valid) (h : P.GivenTo g calls) (hacy : P.forward.Acyclic) {starts : List CellSet} {S : Solution (X K)}
    (hS : InjectionReturns g calls starts (.ok S)) {w : WellFlux K} (hw : w ∈ P.wells) (hi : ∃ s ∈ starts, s.id = w.id)
    {v : Nat} (hv : v < P.n) (hfed : ∀ u, P.forward.Reach u v → 0 < P.forward.total u) :
    valueAt (S.concentration w.id) v = 1 ↔ ∀ w' ∈ P.wells, w'.id ≠ w.id → ¬ P.forward.Downstream (posCells w') v :=
  (diag_injection hP h hS).alone hacy hw hi hv hfed

/-- **C98** (exact arithmetic, cycle-free flow) The concentration of a producer in a cell is 1 if and only if no fluid gets
    from there to another producer, provided that something flows out of each cell downstream. -/
theorem C98_alone_production (hP : P.Valid) (h : P.GivenTo g calls) (hacy : P.forward.Acyclic) {starts : List CellSet} {T : Solution (X K)}
    (hT : ProductionReturns g calls starts (.ok T)) {w : WellFlux K} (hw : w ∈ P.wells) (hi : ∃ s ∈ starts, s.id = w.id)
    {v : Nat} (hv : v < P.n) (hfed : ∀ u, P.forward.Reach v u → 0 < P.backward.total u) :
    valueAt (T.concentration w.id) v = 1 ↔ ∀ w' ∈ P.wells, w'.id ≠ w.id → ¬ ∃ b ∈ negCells w', P.forward.Reach v b := by
  rw [(diag_production hP h hT).alone (backward_acyclic hacy) hw hi hv fun u hu => hfed u (backward_reach.mp hu)]
  simp only [backward_reach]

end exact

/-! ### Two injectors and two producers, one pair of which does not communicate -/

/-- Injector 65 in cell 0 feeds producer 80 in cell 1 and producer 81 in cell 3; injector 66 in cell 2 feeds producer 81 only. -/
def exFork : Problem ℚ where
  n := 4
  conns := [(0, 1), (3, 0), (2, 3)]
  nphase := 1
  phi c _ := if c = 0 then 1 else if c = 1 then -2 else 2
  pv _ := 1
  wells := [⟨⟨[65]⟩, [0], fun _ => 3⟩, ⟨⟨[66]⟩, [2], fun _ => 2⟩, ⟨⟨[80]⟩, [1], fun _ => -1⟩, ⟨⟨[81]⟩, [3], fun _ => -4⟩]

theorem exFork_valid : exFork.Valid where
  int := by decide
  pos := by decide
  some_connection := by decide
  range := by decide
  pv v _ := by show (0 : ℚ) ≤ 1; norm_num
  wells_sorted := by unfold exFork; simp; decide
  cells_sorted := by unfold exFork; simp
  cells_range := by unfold exFork; simp

theorem exFork_edge {u v : Nat} (h : exFork.forward.Edge u v) : (u = 0 ∧ v = 1) ∨ (u = 0 ∧ v = 3) ∨ (u = 2 ∧ v = 3) := by
  obtain ⟨hu, hv, hp⟩ := h
  have hu : u < 4 := hu
  have hv : v < 4 := hv
  have key : 0 < exFork.flux u v → (u = 0 ∧ v = 1) ∨ (u = 0 ∧ v = 3) ∨ (u = 2 ∧ v = 3) := by
    clear hp
    interval_cases u <;> interval_cases v <;>
      simp [exFork, Problem.flux, Problem.carried, Problem.net, sum_range_succ]
  exact key hp

theorem exFork_edges : exFork.forward.Edge 0 1 ∧ exFork.forward.Edge 0 3 ∧ exFork.forward.Edge 2 3 := by
  refine ⟨⟨by decide, by decide, ?_⟩, ⟨by decide, by decide, ?_⟩, ⟨by decide, by decide, ?_⟩⟩ <;>
  · simp [Problem.forward, exFork, Problem.flux, Problem.carried, Problem.net, sum_range_succ]

theorem exFork_acyclic : exFork.forward.Acyclic := by
  intro v hv
  have h2 : ∀ u, Relation.TransGen exFork.forward.Edge v u → (v = 0 ∨ v = 2) ∧ (u = 1 ∨ u = 3) := by
    intro u h
    induction h with
    | single e => rcases exFork_edge e with ⟨rfl, rfl⟩ | ⟨rfl, rfl⟩ | ⟨rfl, rfl⟩ <;> simp
    | tail _ e ih => rcases exFork_edge e with ⟨rfl, rfl⟩ | ⟨rfl, rfl⟩ | ⟨rfl, rfl⟩ <;> simp at ih
  rcases h2 v hv with ⟨rfl | rfl, h | h⟩ <;> simp at h

theorem exFork_reach {u v : Nat} (h : exFork.forward.Reach u v) : u = v ∨ (u = 0 ∧ v = 1) ∨ (u = 0 ∧ v = 3) ∨ (u = 2 ∧ v = 3) := by
  induction h with
  | refl => exact Or.inl rfl
  | tail _ e ih =>
    rcases ih with rfl | ⟨rfl, rfl⟩ | ⟨rfl, rfl⟩ | ⟨rfl, rfl⟩
    · exact Or.inr (exFork_edge e)
    all_goals rcases exFork_edge e with ⟨h, _⟩ | ⟨h, _⟩ | ⟨h, _⟩ <;> simp at h

/-- The hypotheses of `C98_pairs`, `C98_alone_injection` and `C98_alone_production` hold, and both cases occur: injector 66
    and producer 80 do not communicate, the other pairs do; the concentration of injector 65 is 1 in cell 1, and less in
    cell 3. -/
example : ∃ g calls istarts pstarts S T, exFork.GivenTo g calls ∧ exFork.forward.Acyclic ∧
    InjectionReturns g calls istarts (.ok S) ∧ ProductionReturns g calls pstarts (.ok T) ∧
    (∀ v < 4, 0 < exFork.forward.total v ∧ 0 < exFork.backward.total v) ∧
    (∃ x y : ℚ, pairFluxes S T ⟨[65]⟩ ⟨[80]⟩ exFork.inflowMap = .ok (X.fin x, X.fin y) ∧ 0 < x ∧ y < 0) ∧
    pairFluxes S T ⟨[66]⟩ ⟨[80]⟩ exFork.inflowMap = .ok (X.fin 0, X.fin 0) ∧
    pairVolume S T (arr 4 exFork.pv) ⟨[66]⟩ ⟨[80]⟩ = .ok (X.fin 0) ∧
    valueAt (S.concentration ⟨[65]⟩) 1 = 1 ∧ valueAt (S.concentration ⟨[65]⟩) 3 < 1 ∧
    valueAt (T.concentration ⟨[81]⟩) 2 = 1 ∧ valueAt (T.concentration ⟨[81]⟩) 0 < 1 := by
  obtain ⟨g, calls, h⟩ := exists_given exFork_valid (by decide)
  have hw : ∀ w, w ∈ exFork.wells ↔ w = ⟨⟨[65]⟩, [0], fun _ => 3⟩ ∨ w = ⟨⟨[66]⟩, [2], fun _ => 2⟩ ∨ w = ⟨⟨[80]⟩, [1], fun _ => -1⟩ ∨
      w = ⟨⟨[81]⟩, [3], fun _ => -4⟩ := by
    intro w; simp [exFork]
  have ip : ∀ x : ℚ, 0 < x → Arith.lt Arith.zero (X.fin x) = true := by
    intro x hx; rw [X_zero, X_lt]; simpa using hx
  have ineg : ∀ x : ℚ, x < 0 → IsNegative (X.fin x) := by
    intro x hx; unfold IsNegative; rw [X_zero, X_lt, X_lt]; simp; exact ⟨hx, hx.le⟩
  have hi : InjectionAccepts exFork.inflowMap [⟨⟨[65]⟩, []⟩, ⟨⟨[66]⟩, []⟩] := by
    intro s hs
    simp only [List.mem_cons, List.not_mem_nil, or_false] at hs
    rcases hs with rfl | rfl
    · exact ⟨⟨_, .head _, rfl, _, .head _, ip 3 (by norm_num)⟩, by intro c hc; simp [CellSet.cells] at hc⟩
    · exact ⟨⟨_, .tail _ (.head _), rfl, _, .head _, ip 2 (by norm_num)⟩, by intro c hc; simp [CellSet.cells] at hc⟩
  have hp : ProductionAccepts exFork.inflowMap [⟨⟨[80]⟩, []⟩, ⟨⟨[81]⟩, []⟩] := by
    intro s hs
    simp only [List.mem_cons, List.not_mem_nil, or_false] at hs
    rcases hs with rfl | rfl
    · exact ⟨⟨_, .tail _ (.tail _ (.head _)), rfl, _, .head _, ineg (-1) (by norm_num)⟩, by intro c hc; simp [CellSet.cells] at hc⟩
    · exact ⟨⟨_, .tail _ (.tail _ (.tail _ (.head _))), rfl, _, .head _, ineg (-4) (by norm_num)⟩, by intro c hc; simp [CellSet.cells] at hc⟩
  obtain ⟨S, hS⟩ := (C40_valid_problem exFork_valid h _).1 hi
  obtain ⟨T, hT⟩ := (C40_valid_problem exFork_valid h _).2.2.1 hp
  have ht : ∀ v < 4, 0 < exFork.forward.total v ∧ 0 < exFork.backward.total v := by
    intro v hv
    interval_cases v <;> constructor <;>
      simp [Flow.total, Flow.inflow, Problem.forward, Problem.backward, exFork, sum_range_succ, Problem.source, Problem.sink,
        Problem.wellAt, Problem.flux, Problem.carried, Problem.net]
    all_goals norm_num
  have hlt : ∀ {u v}, exFork.forward.Reach u v → (u < 4 ↔ v < 4) := by
    intro u v hr
    rcases exFork_reach hr with rfl | ⟨rfl, rfl⟩ | ⟨rfl, rfl⟩ | ⟨rfl, rfl⟩ <;> simp
  have w65 := (hw _).mpr (.inl rfl)
  have w66 := (hw _).mpr (.inr (.inl rfl))
  have w80 := (hw _).mpr (.inr (.inr (.inl rfl)))
  have w81 := (hw _).mpr (.inr (.inr (.inr rfl)))
  have p65 : posCells (⟨⟨[65]⟩, [0], fun _ => 3⟩ : WellFlux ℚ) = [0] := by simp [posCells]
  have p66 : posCells (⟨⟨[66]⟩, [2], fun _ => 2⟩ : WellFlux ℚ) = [2] := by simp [posCells]
  have p80 : posCells (⟨⟨[80]⟩, [1], fun _ => -1⟩ : WellFlux ℚ) = [] := by simp [posCells]
  have p81 : posCells (⟨⟨[81]⟩, [3], fun _ => -4⟩ : WellFlux ℚ) = [] := by simp [posCells]
  have n65 : negCells (⟨⟨[65]⟩, [0], fun _ => 3⟩ : WellFlux ℚ) = [] := by simp [negCells]
  have n66 : negCells (⟨⟨[66]⟩, [2], fun _ => 2⟩ : WellFlux ℚ) = [] := by simp [negCells]
  have n80 : negCells (⟨⟨[80]⟩, [1], fun _ => -1⟩ : WellFlux ℚ) = [1] := by simp [negCells]
  have n81 : negCells (⟨⟨[81]⟩, [3], fun _ => -4⟩ : WellFlux ℚ) = [3] := by simp [negCells]
  have s65 : ∃ s ∈ ([⟨⟨[65]⟩, []⟩, ⟨⟨[66]⟩, []⟩] : List CellSet), s.id = ⟨[65]⟩ := ⟨_, .head _, rfl⟩
  have s66 : ∃ s ∈ ([⟨⟨[65]⟩, []⟩, ⟨⟨[66]⟩, []⟩] : List CellSet), s.id = ⟨[66]⟩ := ⟨_, .tail _ (.head _), rfl⟩
  have s80 : ∃ s ∈ ([⟨⟨[80]⟩, []⟩, ⟨⟨[81]⟩, []⟩] : List CellSet), s.id = ⟨[80]⟩ := ⟨_, .head _, rfl⟩
  have s81 : ∃ s ∈ ([⟨⟨[80]⟩, []⟩, ⟨⟨[81]⟩, []⟩] : List CellSet), s.id = ⟨[81]⟩ := ⟨_, .tail _ (.head _), rfl⟩
  obtain ⟨e01, e03, e23⟩ := exFork_edges
  refine ⟨g, calls, _, _, S, T, h, exFork_acyclic, hS, hT, ht, ?_, ?_, ?_, ?_, ?_, ?_, ?_⟩
  · obtain ⟨_, x, y, _, hxy, _, hx0, hy0, _, hx, hy⟩ := C98_pairs exFork_valid h hS hT w65 w80 s65 s80
    have hc : exFork.Communicate ⟨⟨[65]⟩, [0], fun _ => 3⟩ ⟨⟨[80]⟩, [1], fun _ => -1⟩ :=
      ⟨0, by rw [p65]; simp, 1, by rw [n80]; simp, .single e01⟩
    exact ⟨x, y, hxy, lt_of_le_of_ne hx0 (hx.mpr hc).symm, lt_of_le_of_ne hy0 (hy.mpr hc)⟩
  · obtain ⟨_, x, y, _, hxy, _, _, _, _, hx, hy⟩ := C98_pairs exFork_valid h hS hT w66 w80 s66 s80
    have hc : ¬ exFork.Communicate ⟨⟨[66]⟩, [2], fun _ => 2⟩ ⟨⟨[80]⟩, [1], fun _ => -1⟩ := by
      rintro ⟨a, ha, b, hb, hr⟩
      rw [p66, List.mem_singleton] at ha
      rw [n80, List.mem_singleton] at hb
      subst ha hb
      have := exFork_reach hr
      simp at this
    rw [← hx, not_not] at hc
    have hc' := hc
    rw [hc] at hx
    obtain rfl : y = 0 := by
      by_contra hne
      exact (hx.mpr (hy.mp hne)) rfl
    rw [hxy, hc]
  · obtain ⟨V, _, _, hV, _, _, _, _, hc, _⟩ := C98_pairs exFork_valid h hS hT w66 w80 s66 s80
    obtain rfl : V = 0 := by
      by_contra hne
      obtain ⟨v, _, _, ⟨a, ha, hr⟩, b, hb, hr'⟩ := hc.mp hne
      rw [p66, List.mem_singleton] at ha
      rw [n80, List.mem_singleton] at hb
      subst ha hb
      have := exFork_reach (hr.trans hr')
      simp at this
    exact hV
  · refine (C98_alone_injection exFork_valid h exFork_acyclic hS w65 s65 (by decide) fun u hu => (ht u ((hlt hu).mpr (by decide))).1).mpr ?_
    rintro w' hw' hne ⟨p, hp, hr⟩
    rcases (hw w').mp hw' with rfl | rfl | rfl | rfl
    · exact hne rfl
    · rw [p66, List.mem_singleton] at hp; subst hp
      have := exFork_reach hr
      simp at this
    · rw [p80] at hp; simp at hp
    · rw [p81] at hp; simp at hp
  · refine lt_of_le_of_ne ((diag_injection exFork_valid h hS).conc_le_one _ _) fun h1 => ?_
    exact (C98_alone_injection exFork_valid h exFork_acyclic hS w65 s65 (by decide) fun u hu => (ht u ((hlt hu).mpr (by decide))).1).mp h1
      _ w66 (by decide) ⟨2, by rw [p66]; simp, .single e23⟩
  · refine (C98_alone_production exFork_valid h exFork_acyclic hT w81 s81 (by decide) fun u hu => (ht u ((hlt hu).mp (by decide))).2).mpr ?_
    rintro w' hw' hne ⟨p, hp, hr⟩
    rcases (hw w').mp hw' with rfl | rfl | rfl | rfl
    · rw [n65] at hp; simp at hp
    · rw [n66] at hp; simp at hp
    · rw [n80, List.mem_singleton] at hp; subst hp
      have := exFork_reach hr
      simp at this
    · exact hne rfl
  · refine lt_of_le_of_ne ((diag_production exFork_valid h hT).conc_le_one _ _) fun h1 => ?_
    exact (C98_alone_production exFork_valid h exFork_acyclic hT w81 s81 (by decide) fun u hu => (ht u ((hlt hu).mp (by decide))).2).mp h1
      _ w80 (by decide) ⟨1, by rw [n80]; simp, .single e01⟩

/-! ### The same with `double`s -/

def forkGraph : ConnectivityGraph := ⟨4, [0, 1, 3, 0, 2, 3]⟩

def forkInflow : InflowFlux Double :=
  [(⟨[65]⟩, [(0, Arith.lit 3)]), (⟨[66]⟩, [(2, Arith.lit 2)]), (⟨[80]⟩, [(1, Arith.lit (-1))]), (⟨[81]⟩, [(3, Arith.lit (-4))])]

def forkCalls : List (Call Double) :=
  [.assignPoreVolume [Arith.lit 1, Arith.lit 1, Arith.lit 1, Arith.lit 1],
   .assignConnectionFlux ⟨3, 1, [Arith.lit 1, Arith.lit (-2), Arith.lit 2]⟩,
   .assignInflowFlux forkInflow]

def forkPhi (c : Nat) (_ : Nat) : Double := [Arith.lit 1, Arith.lit (-2), Arith.lit 2].getD c Arith.zero

theorem fork_connectivity : ValidConnectivity forkGraph 4 [(0, 1), (3, 0), (2, 3)] where
  cells := rfl
  count := rfl
  connection := by
    intro i hi
    have hi : i < 3 := hi
    interval_cases i <;> rfl
  range := by decide
  int := by decide

theorem fork_flux : FluxGiven forkGraph forkCalls 1 forkPhi := by
  refine ⟨_, rfl, rfl, rfl, ?_⟩
  intro c hc p hp
  have hp : p = 0 := by omega
  subst hp
  have hc : c < 3 := hc
  interval_cases c <;> rfl

theorem fork_cells : CellsBelow forkInflow 4 := by
  intro set hset e he
  simp only [forkInflow, List.mem_cons, List.not_mem_nil, or_false] at hset
  rcases hset with rfl | rfl | rfl | rfl <;> simp only [List.mem_singleton] at he <;> subst he <;> decide

set_option maxRecDepth 100000 in
theorem fork_signs : (Arith.lt Arith.zero (phaseSum (forkPhi 0) 1) = true ∧ Arith.lt Arith.zero (phaseSum (forkPhi 1) 1) = false ∧
    Arith.lt (phaseSum (forkPhi 1) 1) Arith.zero = true ∧ Arith.lt Arith.zero (phaseSum (forkPhi 2) 1) = true) ∧
    (Arith.lt (phaseSum (forkPhi 0) 1) Arith.zero = false ∧ Arith.lt (phaseSum (forkPhi 2) 1) Arith.zero = false) := by
  decide +kernel

/-- No fluid gets from injector 66 to producer 80. -/
theorem fork_apart : ¬ Supplies [(0, 1), (3, 0), (2, 3)] (fun c => phaseSum (forkPhi c) 1) forkInflow ⟨[66]⟩ ⟨[80]⟩ := by
  rintro ⟨a, b, ⟨set, hset, hid, e, he, hea, _⟩, ⟨set', hset', hid', e', he', heb, _⟩, hl⟩
  have ha : a = 2 := by
    simp only [forkInflow, List.mem_cons, List.not_mem_nil, or_false] at hset
    rcases hset with rfl | rfl | rfl | rfl
    · exact absurd hid (by decide)
    · simp only [List.mem_singleton] at he; subst he; exact (Int.ofNat_inj.mp hea).symm
    · exact absurd hid (by decide)
    · exact absurd hid (by decide)
  have hb : b = 1 := by
    simp only [forkInflow, List.mem_cons, List.not_mem_nil, or_false] at hset'
    rcases hset' with rfl | rfl | rfl | rfl
    · exact absurd hid' (by decide)
    · exact absurd hid' (by decide)
    · simp only [List.mem_singleton] at he'; subst he'; exact (Int.ofNat_inj.mp heb).symm
    · exact absurd hid' (by decide)
  subst ha hb
  have key : ∀ v, Leads [(0, 1), (3, 0), (2, 3)] (fun c => phaseSum (forkPhi c) 1) 2 v → v = 2 ∨ v = 3 := by
    intro v h
    obtain ⟨⟨q0, q1, q1', q2⟩, r0, r2⟩ := fork_signs
    induction h with
    | refl => exact Or.inl rfl
    | tail _ e ih =>
      obtain ⟨c, ⟨hc, hs⟩ | ⟨hc, hs, _⟩⟩ := e
      · rcases c with _ | _ | _ | c
        · simp at hc; omega
        · rw [q1] at hs; cases hs
        · simp at hc; omega
        · simp at hc
      · rcases c with _ | _ | _ | c
        · rw [r0] at hs; cases hs
        · simp at hc; omega
        · rw [r2] at hs; cases hs
        · simp at hc
  rcases key 1 hl with h | h <;> cases h

set_option maxRecDepth 100000 in
theorem fork_values : Arith.lt (Arith.lit (-1) : Double) Arith.zero = true := by decide +kernel

set_option maxRecDepth 100000 in
theorem fork_injection : isOk (injectionOutcome forkGraph forkCalls noFailure 100 [⟨⟨[65]⟩, []⟩, ⟨⟨[66]⟩, []⟩]) = true := by decide +kernel

set_option maxRecDepth 100000 in
theorem fork_production : isOk (productionOutcome forkGraph forkCalls noFailure 100 [⟨⟨[80]⟩, []⟩, ⟨⟨[81]⟩, []⟩]) = true := by decide +kernel

/-- The hypotheses of `C98_nothing` hold for a computation with `double`s. -/
example : ∃ S T, InjectionReturns forkGraph forkCalls [⟨⟨[65]⟩, []⟩, ⟨⟨[66]⟩, []⟩] (.ok S) ∧
    ProductionReturns forkGraph forkCalls [⟨⟨[80]⟩, []⟩, ⟨⟨[81]⟩, []⟩] (.ok T) ∧
    pairFluxes S T ⟨[66]⟩ ⟨[80]⟩ forkInflow = .ok (Arith.zero, Arith.zero) := by
  obtain ⟨S, h1⟩ := isOk_spec fork_injection
  obtain ⟨T, h2⟩ := isOk_spec fork_production
  have h1 := (Fuel.injection_returns.mpr ⟨100, h1, by simp⟩).1
  have h2 := (Fuel.production_returns.mpr ⟨100, h2, by simp⟩).1
  obtain ⟨x, y, hxy⟩ := (C50_errors S T ⟨[66]⟩ ⟨[80]⟩ forkInflow).2 (by simp only [forkInflow, OMap.find]; decide)
    (by simp only [forkInflow, OMap.find]; decide)
  obtain ⟨rfl, hy⟩ := (C98_nothing fork_connectivity fork_flux (m := forkInflow) rfl fork_cells h1 h2 ⟨_, .tail _ (.head _), rfl⟩
    ⟨_, .head _, rfl⟩ fork_apart).2 x y hxy
  refine ⟨S, T, h1, h2, ?_⟩
  rw [hxy, hy]
  intro set hset hid e he hno
  simp only [forkInflow, List.mem_cons, List.not_mem_nil, or_false] at hset
  rcases hset with rfl | rfl | rfl | rfl
  · exact absurd hid (by decide)
  · exact absurd hid (by decide)
  · simp only [List.mem_singleton] at he; subst he
    have := hno.2
    rw [fork_values] at this
    cases this
  · exact absurd hid (by decide)

end Verif.Props
