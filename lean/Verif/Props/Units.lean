/-
C75: the unit of volume does not matter.
-/
import Verif.Proofs.Units
import Verif.Proofs.DerivedSort
import Verif.Spec.Derived
import Verif.Props.ToolboxProblem

namespace Verif.Props
open Verif.Spec Verif.Toolbox Verif.Solver Verif.Derived Verif.Units

variable {K : Type} [Field K] [LinearOrder K] [IsStrictOrderedRing K] {k : K}

/-- Multiplication by a positive number, case by case. -/
def scaled (k : K) : X K → X K
  | .fin a => .fin (k * a)
  | .pinf => .pinf
  | .ninf => .ninf
  | .nan => .nan

omit [IsStrictOrderedRing K] in
theorem scaled_infSign (a : K) : scaled k (X.infSign a) = X.infSign a := by
  unfold X.infSign
  split
  · rfl
  · split <;> rfl

theorem infSign_scaled (hk : 0 < k) (a : K) : X.infSign (k * a) = X.infSign a := by
  have h1 : 0 < k * a ↔ 0 < a := mul_pos_iff_of_pos_left hk
  have h2 : k * a < 0 ↔ a < 0 := by rw [← neg_pos, ← mul_neg, mul_pos_iff_of_pos_left hk, neg_pos]
  unfold X.infSign
  simp only [h1, h2]

theorem factor_scaled (hk : 0 < k) : Factor (scaled k : X K → X K) := by
  have s := infSign_scaled hk
  have h0 : ∀ a : K, 0 ≤ k * a ↔ 0 ≤ a := fun a => mul_nonneg_iff_of_pos_left hk
  have hl : ∀ a b : K, k * a < k * b ↔ a < b := fun a b => mul_lt_mul_iff_right₀ hk
  have hlt : ∀ a b : X K, X.lt (scaled k a) (scaled k b) = X.lt a b := by
    intro a b
    cases a <;> cases b <;> simp [scaled, X.lt, hl]
  have heq : ∀ a b : X K, X.eq (scaled k a) (scaled k b) = X.eq a b := by
    intro a b
    cases a <;> cases b <;> simp [scaled, X.eq, hk.ne']
  constructor
  · simp [Arith.zero, Arith.lit, scaled]
  · rfl
  · intro a; cases a <;> simp [Arith.neg, X.neg, scaled]
  · intro a b; cases a <;> cases b <;> simp [Arith.add, X.add, mul_add, scaled]
  · intro a b
    show X.mul a (scaled k b) = scaled k (X.mul a b)
    cases a <;> cases b <;> first
      | exact congrArg X.fin (by ring)
      | rfl
      | exact (scaled_infSign _).symm
      | exact (s _).trans (scaled_infSign _).symm
      | exact ((congrArg _ (mul_neg _ _).symm).trans (s _)).trans (scaled_infSign _).symm
  · intro a b
    show X.mul (scaled k a) b = scaled k (X.mul a b)
    cases a <;> cases b <;> first
      | exact congrArg X.fin (by ring)
      | rfl
      | exact (scaled_infSign _).symm
      | exact (s _).trans (scaled_infSign _).symm
      | exact ((congrArg _ (mul_neg _ _).symm).trans (s _)).trans (scaled_infSign _).symm
  · intro a b
    show X.div (scaled k a) (scaled k b) = X.div a b
    cases a <;> cases b <;> simp [X.div, scaled, s, h0, hk.ne']
    rename_i x y
    split
    · rfl
    · rw [mul_div_mul_left _ _ hk.ne']
  · intro a b
    show X.div (scaled k a) b = scaled k (X.div a b)
    cases a <;> cases b <;> simp [X.div, scaled, s]
    · split
      · exact (scaled_infSign _).symm
      · simp [mul_div_assoc]
    · split <;> rfl
    · split <;> rfl
  · exact hlt
  · intro a b
    show (X.lt _ _ || X.eq _ _) = (X.lt _ _ || X.eq _ _)
    rw [hlt, heq]
  · exact heq

theorem factor_mul (hk : 0 < k) : Factor (Arith.mul (X.fin k) : X K → X K) := by
  have e : (Arith.mul (X.fin k) : X K → X K) = scaled k := by
    funext x
    cases x with
    | fin a => rfl
    | pinf => exact if_pos hk
    | ninf =>
      show X.infSign (-k) = X.ninf
      unfold X.infSign
      rw [if_neg (by simpa using hk.le), if_pos (by simpa using hk)]
    | nan => rfl
  rw [e]
  exact factor_scaled hk

/-- **C75** If all pore volumes, fluxes and inflow values of a history are multiplied by the same positive number, injection
    diagnostics end in the same way, with the same times of flight and concentrations: for every history, also with invalid
    data, for every flow, also with cycles, and whatever allocations fail. -/
theorem C75_injection (hk : 0 < k) (g : ConnectivityGraph) (calls : List (Call (X K))) (al : Nat → Alloc) (fuel : Nat)
    (starts : List CellSet) :
    injectionOutcome g (calls.map (mapNumbers (Arith.mul (X.fin k)))) al fuel starts = injectionOutcome g calls al fuel starts := by
  unfold injectionOutcome
  rw [toolboxAfter_map (factor_mul hk), injDiag_map (factor_mul hk)]
  rfl

/-- **C75** The same for production diagnostics. -/
theorem C75_production (hk : 0 < k) (g : ConnectivityGraph) (calls : List (Call (X K))) (al : Nat → Alloc) (fuel : Nat)
    (starts : List CellSet) :
    productionOutcome g (calls.map (mapNumbers (Arith.mul (X.fin k)))) al fuel starts
      = productionOutcome g calls al fuel starts := by
  unfold productionOutcome
  rw [toolboxAfter_map (factor_mul hk), prodDiag_map (factor_mul hk)]
  rfl

/-- **C75** The volume of a pair is multiplied by the number. -/
theorem C75_volume (hk : 0 < k) (S T : Solution (X K)) (pv : List (X K)) (i p : CellSetID) :
    pairVolume S T (pv.map (Arith.mul (X.fin k))) i p = mapResult (Arith.mul (X.fin k)) (pairVolume S T pv i p) := by
  have hf := factor_mul hk
  unfold pairVolume
  have h := forEach_state (f := Arith.mul (X.fin k)) (g := addPairVolume (T.concentration p) pv)
    (g' := addPairVolume (T.concentration p) (pv.map (Arith.mul (X.fin k)))) (fun s x => by
      unfold addPairVolume
      cases (T.concentration p).find x.1 with
      | none => rfl
      | some c =>
        simp only [Res.bind_eq, rd_map, bind_map, map_bind, hf.mul']
        congr 1; funext v
        show Res.ok _ = Res.ok _
        rw [hf.add]) (S.concentration i) Arith.zero
  rwa [hf.zero] at h

/-- **C75** The fluxes of a pair are multiplied by the number. -/
theorem C75_fluxes (hk : 0 < k) (S T : Solution (X K)) (i p : CellSetID) (inflow : OMap CellSetID (CellSetValues (X K))) :
    pairFluxes S T i p (inflow.map fun set => (set.1, set.2.map fun e => (e.1, Arith.mul (X.fin k) e.2)))
      = mapResult (fun q => (Arith.mul (X.fin k) q.1, Arith.mul (X.fin k) q.2)) (pairFluxes S T i p inflow) := by
  have hf := factor_mul hk
  have hp : ∀ (tr v : CellSetValues (X K)) b,
      pairFlux tr (mapValues (Arith.mul (X.fin k)) v) b = Arith.mul (X.fin k) (pairFlux tr v b) := by
    intro tr v b
    have h : ∀ (v : CellSetValues (X K)) x, (mapValues (Arith.mul (X.fin k)) v).foldl (addPairFlux tr b) (Arith.mul (X.fin k) x)
        = Arith.mul (X.fin k) (v.foldl (addPairFlux tr b) x) := by
      intro v
      induction v with
      | nil => intro x; rfl
      | cons e v ih =>
        intro x
        show (mapValues (Arith.mul (X.fin k)) v).foldl (addPairFlux tr b)
          (addPairFlux tr b (Arith.mul (X.fin k) x) (e.1, Arith.mul (X.fin k) e.2)) = _
        rw [List.foldl_cons, ← ih]
        congr 1
        unfold addPairFlux
        cases tr.find e.1 with
        | none => rfl
        | some c =>
          simp only [hf.pos, hf.mul', hf.add]
          split <;> rfl
    have := h v Arith.zero
    rwa [hf.zero] at this
  unfold pairFluxes
  have e : ∀ id, OMap.find (inflow.map fun set => (set.1, set.2.map fun e => (e.1, Arith.mul (X.fin k) e.2))) id
      = (OMap.find inflow id).map (mapValues (Arith.mul (X.fin k))) := fun id => find_map (mapValues (Arith.mul (X.fin k))) inflow id
  simp only [e]
  cases OMap.find inflow i with
  | none => rfl
  | some a =>
    cases OMap.find inflow p with
    | none => rfl
    | some b => simp only [Option.map_some, hp]; rfl

omit [IsStrictOrderedRing K] in
/-- Sorting is determined by its contract. -/
theorem sort_unique {l l' : List (X K × X K)} (hp : l.Perm l') (hn : ∀ p ∈ l', p.1 ≠ X.nan ∧ p.2 ≠ X.nan)
    (h : l.Pairwise fun a b => pairLt b a = false) (h' : l'.Pairwise fun a b => pairLt b a = false) : l = l' := by
  refine hp.eq_of_pairwise (fun a b ha hb h1 h2 => ?_) h h'
  have na := hn a (hp.mem_iff.mp ha)
  have nb := hn b hb
  have key : ∀ x y : X K, x ≠ .nan → y ≠ .nan → Arith.lt x y = false → Arith.lt y x = false → x = y := by
    intro x y hx hy h1 h2
    cases x <;> cases y <;> simp_all [Arith.lt, X.lt]
    exact le_antisymm h2 h1
  unfold pairLt at h1 h2
  simp only [Bool.or_eq_false_iff, Bool.and_eq_false_iff, Bool.not_eq_false'] at h1 h2
  have e1 := key a.1 b.1 na.1 nb.1 h2.1 h1.1
  have e2 : a.2 = b.2 := by
    apply key a.2 b.2 na.2 nb.2
    · rcases h2.2 with h | h
      · rw [h1.1] at h; cases h
      · exact h
    · rcases h1.2 with h | h
      · rw [h2.1] at h; cases h
      · exact h
  exact Prod.ext e1 e2

/-- **C75** The F-Phi curve, and with it the Lorenz coefficient and the sweep efficiency, are the same if all pore volumes are
    multiplied by a positive number; for all inputs and whichever sorting algorithm is used. -/
theorem C75_curve (hk : 0 < k) {sort : List (X K × X K) → List (X K × X K)} (hs : StdSort sort) (injector producer pv : List (X K))
    (fraction : X K) :
    curve sort injector producer (pv.map (Arith.mul (X.fin k))) fraction = curve sort injector producer pv fraction := by
  have hf := factor_mul hk
  generalize hF : (Arith.mul (X.fin k) : X K → X K) = f at hf ⊢
  have hsum : ∀ (l : List (X K)) x, (l.map f).foldl Arith.add (f x) = f (l.foldl Arith.add x) := by
    intro l
    induction l with
    | nil => intro x; rfl
    | cons a l ih => intro x; rw [List.map_cons, List.foldl_cons, hf.add, ih]; rfl
  have hsum0 := hsum pv Arith.zero
  rw [hf.zero] at hsum0
  have htimes : ∀ (m : X K) (l : List Nat), timesAndPvs injector producer (pv.map f) (f m) l
      = mapResult (List.map fun p => (p.1, f p.2)) (timesAndPvs injector producer pv m l) := by
    intro m l
    induction l with
    | nil => rfl
    | cons a l ih =>
      unfold timesAndPvs
      simp only [Res.bind_eq, rd_map, bind_map, map_bind, ih]
      congr 1; funext v; congr 1; funext x; congr 1; funext y; congr 1; funext tail
      show Res.ok _ = Res.ok _
      congr 1
      unfold timeAndPv
      rw [hf.lt]
      split
      · simp [hf.zero]
      · simp
  have hcum : ∀ {α β : Type} (l : List α) (h : β → α) (l' : List β) (q : α → X K) (q' : β → X K), l = l'.map h →
      (∀ x, q (h x) = f (q' x)) → cumulativeNormalized l q = cumulativeNormalized l' q' := by
    intro α β l h l' q q' e hq
    subst e
    unfold cumulativeNormalized
    have hps : ∀ (l : List (X K)) a, partialSums (f a) (l.map f) = (partialSums a l).map f := by
      intro l
      induction l with
      | nil => intro a; rfl
      | cons x l ih => intro a; simp [partialSums, hf.add, ih]
    have hp : partialSum (Arith.zero :: (l'.map h).map q) = (partialSum (Arith.zero :: l'.map q')).map f := by
      have e : (l'.map h).map q = (l'.map q').map f := by
        rw [List.map_map, List.map_map]; exact List.map_congr_left fun x _ => hq x
      have h0 := hps (l'.map q') Arith.zero
      rw [hf.zero] at h0
      rw [e]
      show Arith.zero :: partialSums Arith.zero ((l'.map q').map f)
        = f Arith.zero :: (partialSums Arith.zero (l'.map q')).map f
      rw [h0, hf.zero]
    simp only [hp]
    have hl : ((partialSum (Arith.zero :: l'.map q')).map f).getLastD Arith.zero
        = f ((partialSum (Arith.zero :: l'.map q')).getLastD Arith.zero) := by
      generalize partialSum (Arith.zero :: l'.map q') = l
      rcases List.eq_nil_or_concat l with rfl | ⟨l, a, rfl⟩
      · exact hf.zero.symm
      · simp
    rw [hl, List.map_map]
    exact List.map_congr_left fun x _ => hf.div _ _
  unfold curve
  simp only [List.length_map, hsum0, hf.mul, htimes, Res.bind_eq, bind_map]
  congr 1
  split
  · rfl
  · congr 1; funext l
    unfold sortPairs
    have hall : ((l.map fun p => (p.1, f p.2)).all fun p => Arith.eq p.1 p.1 && Arith.eq p.2 p.2)
        = l.all fun p => Arith.eq p.1 p.1 && Arith.eq p.2 p.2 := by
      rw [List.all_map]; congr 1; funext p; simp [hf.eq]
    rw [hall]
    split
    · rename_i hok
      have hnan : ∀ x : X K, Arith.eq x x = true → x ≠ .nan := by rintro x h rfl; cases h
      have hn : ∀ p ∈ l, p.1 ≠ X.nan ∧ p.2 ≠ X.nan := by
        intro p hp
        have := List.all_eq_true.mp hok p hp
        simp only [Bool.and_eq_true] at this
        exact ⟨hnan _ this.1, hnan _ this.2⟩
      have hn' : ∀ p ∈ l.map fun p => (p.1, f p.2), p.1 ≠ X.nan ∧ p.2 ≠ X.nan := by
        intro p hp
        have := List.all_eq_true.mp (hall.trans hok) p hp
        simp only [Bool.and_eq_true] at this
        exact ⟨hnan _ this.1, hnan _ this.2⟩
      obtain ⟨p1, s1⟩ := hs l hn
      obtain ⟨p2, s2⟩ := hs _ hn'
      have e : sort (l.map fun p => (p.1, f p.2)) = (sort l).map fun p => (p.1, f p.2) := by
        have hpp : (sort (l.map fun p => (p.1, f p.2))).Perm ((sort l).map fun p => (p.1, f p.2)) := p2.trans (p1.map _).symm
        refine sort_unique hpp (fun p hp => hn' p ((p1.map _).mem_iff.mp hp)) s2 ?_
        rw [List.pairwise_map]
        refine s1.imp fun {a b} h => ?_
        unfold pairLt at h ⊢
        rwa [hf.lt]
      simp only [Res.ok_bind]
      show Res.ok _ = Res.ok _
      rw [hcum _ (fun p => (p.1, f p.2)) (sort l) (fun i => i.2) (fun i => i.2) e fun _ => rfl,
        hcum _ (fun p => (p.1, f p.2)) (sort l) (fun i => Arith.div i.2 i.1) (fun i => Arith.div i.2 i.1) e fun _ => hf.div' _ _]
    · rfl

/-! ### Examples -/

/-- C75: barrels instead of cubic metres, on a history that is complete. -/
example : ∃ g calls, exProblem.GivenTo g calls ∧
    ∀ al fuel starts, injectionOutcome g (calls.map (mapNumbers (Arith.mul (X.fin (629 / 100))))) al fuel starts
      = injectionOutcome g calls al fuel starts := by
  obtain ⟨g, calls, h⟩ := exists_given exProblem_valid (by decide)
  exact ⟨g, calls, h, C75_injection (by norm_num) g calls⟩

/-- C75: the curve of three cells, one of them above the cutoff. -/
example : curve mergeSort [X.fin 1, X.fin 2, X.fin 3] [X.fin 3, X.fin 1, X.fin 1]
      ([X.fin 1, X.fin 2, X.fin 30].map (Arith.mul (X.fin 1000))) (X.fin (1 / 2))
    = curve mergeSort [X.fin 1, X.fin 2, X.fin 3] [X.fin 3, X.fin 1, X.fin 1] [X.fin (1 : ℚ), X.fin 2, X.fin 30] (X.fin (1 / 2)) :=
  C75_curve (by norm_num) stdSort_mergeSort _ _ _ _

end Verif.Props
