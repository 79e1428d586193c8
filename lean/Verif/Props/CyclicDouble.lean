/-
C80: how far concentrations computed with `double`s are from the exact ones in flow with cycles.
-/
import Verif.Props.Accuracy
import Verif.Props.CyclicAccuracy
import Verif.Proofs.SlackSolution
import Verif.Spec.CyclicDouble
import Mathlib.Tactic.LinearCombination

namespace Verif.Props
open Verif.Spec Verif.Toolbox Verif.Solver Verif.Rounding Finset

/-- A field that is nearly balanced is close to the balanced one. -/
theorem field_error {K : Type} [Field K] [LinearOrder K] [IsStrictOrderedRing K] {F : Flow K} (hF : F.Valid) {S : Nat → Prop}
    {c x q r b : Nat → K}
    (hc : ∀ v < F.n, S v → |(∑ u ∈ range F.n, c u * F.w u v) + q v - F.total v * c v| ≤ r v)
    (hx : ∀ v < F.n, S v → F.total v * x v = (∑ u ∈ range F.n, x u * F.w u v) + q v)
    (hb : ∀ v < F.n, S v → F.total v * b v = (∑ u ∈ range F.n, b u * F.w u v) + r v)
    (hup : ∀ v, S v → ∀ u, F.Edge u v → S u ∨ |c u - x u| ≤ b u)
    (hsrc : ∀ v < F.n, S v → ∃ p, p < F.n ∧ 0 < F.src p ∧ F.Reach p v) : ∀ v < F.n, S v → |c v - x v| ≤ b v := by
  classical
  have key : ∀ σ : K, σ = 1 ∨ σ = -1 → ∀ v < F.n, S v → σ * (c v - x v) - b v ≤ 0 := by
    intro σ hσ
    set e : Nat → K := fun v => σ * (c v - x v) - b v with he
    have hσle : ∀ a t : K, |a| ≤ t → σ * a ≤ t := by
      intro a t h
      rw [abs_le] at h
      rcases hσ with rfl | rfl <;> linarith [h.1, h.2]
    have := max_principle hF (S := S) (e := fun v => if S v then e v else 0) (fun v _ hn => by simp [hn])
      (fun v hv hs => by
        simp only [if_pos hs]
        have h1 : ∑ u ∈ range F.n, e u * F.w u v ≤ ∑ u ∈ range F.n, (if S u then e u else 0) * F.w u v := by
          refine sum_le_sum fun u hu => ?_
          have hu := mem_range.mp hu
          rcases (hF.w_nonneg u v hu hv).eq_or_lt with hz | hz
          · rw [← hz, mul_zero, mul_zero]
          · refine mul_le_mul_of_nonneg_right ?_ hz.le
            by_cases hSu : S u
            · rw [if_pos hSu]
            · rw [if_neg hSu]
              rcases hup v hs u ⟨hu, hv, hz⟩ with h | h
              · exact absurd h hSu
              · have := hσle _ _ h
                rw [he]; simp only; linarith
        refine le_trans ?_ h1
        have h2 := hσle _ _ ((abs_sub_comm _ _).le.trans (hc v hv hs))
        have h3 : ∑ u ∈ range F.n, e u * F.w u v = σ * ((∑ u ∈ range F.n, c u * F.w u v) - ∑ u ∈ range F.n, x u * F.w u v)
            - ∑ u ∈ range F.n, b u * F.w u v := by
          rw [← sum_sub_distrib, mul_sum, ← sum_sub_distrib]
          exact sum_congr rfl fun u _ => by rw [he]; ring
        have h4 : F.total v * e v = σ * (F.total v * c v - F.total v * x v) - F.total v * b v := by rw [he]; ring
        rw [h3, h4, hx v hv hs, hb v hv hs]
        have h5 : σ * (F.total v * c v - ((∑ u ∈ range F.n, c u * F.w u v) + q v)) =
          σ * (F.total v * c v - ((∑ u ∈ range F.n, x u * F.w u v) + q v))
            - σ * ((∑ u ∈ range F.n, c u * F.w u v) - ∑ u ∈ range F.n, x u * F.w u v) := by ring
        linarith)
      hsrc
    intro v hv hs
    have := this v hv
    simpa only [if_pos hs] using this
  intro v hv hs
  rw [abs_le]
  have h1 := key 1 (Or.inl rfl) v hv hs
  have h2 := key (-1) (Or.inr rfl) v hv hs
  constructor <;> linarith

/-! ### Numbers -/

theorem double_odd (x : ℚ) : Double.rounded.rnd (X.fin (-x)) = X.neg (Double.rounded.rnd (X.fin x)) := by
  show Double.rnd (X.fin (-x)) = X.neg (Double.rnd (X.fin x))
  simp only [Double.rnd]
  rcases lt_trichotomy x 0 with h | h | h
  · rw [Double.val_neg _ h, Double.val_pos _ (by linarith : 0 < -x)]
    cases Double.cut (Double.near (-x)) <;> simp [X.neg]
  · subst h
    rw [neg_zero, Double.val_ofRat_zero]
    simp [X.neg]
  · rw [Double.val_pos _ h, Double.val_neg _ (by linarith : -x < 0), neg_neg]

theorem residual_le {M : Nat} (hM : M ≤ 2 ^ 40) {a b : ℚ} (ha : 0 ≤ a) (hab : a ≤ b) :
    (1 / 1000000000 * (1 + 1 / 2 ^ 52) + tiny ℚ) * (1 + 1 / 2 ^ 52) * a + ((1 + 1 / 2 ^ 52) ^ (4 * M + 4) - 1 + 2 * slack ℚ) * b
      ≤ 1 / 1000000000 * a + ((4 * M + 6 : Nat) : ℚ) / 2 ^ 51 * b := by
  have h1 := Double.pow_le (4 * M + 4) (by omega)
  have ht : tiny ℚ ≤ 1 / 2 ^ 60 := by
    unfold tiny
    exact one_div_le_one_div_of_le (by positivity) (pow_le_pow_right₀ one_le_two (by norm_num))
  have hs : slack ℚ ≤ 1 / 2 ^ 60 := by
    unfold slack
    exact one_div_le_one_div_of_le (by positivity) (pow_le_pow_right₀ one_le_two (by norm_num))
  generalize tiny ℚ = t at *
  generalize slack ℚ = s at *
  generalize ((1 : ℚ) + 1 / 2 ^ 52) ^ (4 * M + 4) = p at *
  have h2 : (1 / 1000000000 * (1 + 1 / 2 ^ 52) + t) * (1 + 1 / 2 ^ 52) * a ≤ (1 / 1000000000 + 1 / 2 ^ 52) * a := by
    refine mul_le_mul_of_nonneg_right ?_ ha
    have : (1 / 1000000000 * (1 + 1 / 2 ^ 52) + t) * (1 + 1 / 2 ^ 52)
        ≤ (1 / 1000000000 * (1 + 1 / 2 ^ 52) + 1 / 2 ^ 60) * (1 + 1 / 2 ^ 52 : ℚ) :=
      mul_le_mul_of_nonneg_right (by linarith) (by norm_num)
    refine this.trans ?_
    norm_num
  have h3 : (p - 1 + 2 * s) * b ≤ ((4 * M + 4 : Nat) / 2 ^ 51 + 1 / 2 ^ 52) * b := by
    refine mul_le_mul_of_nonneg_right ?_ (ha.trans hab)
    have : 2 * s ≤ 1 / 2 ^ 52 := by
      have : (2 : ℚ) * (1 / 2 ^ 60) ≤ 1 / 2 ^ 52 := by norm_num
      linarith
    linarith
  have h4 : (1 / 2 ^ 52 : ℚ) * a ≤ 1 / 2 ^ 52 * b := mul_le_mul_of_nonneg_left hab (by norm_num)
  have e1 : ((4 * M + 6 : Nat) : ℚ) / 2 ^ 51 * b = ((4 * M + 4 : Nat) / 2 ^ 51 + 1 / 2 ^ 52) * b + 1 / 2 ^ 52 * b + 1 / 2 ^ 51 * b := by
    push_cast; ring
  have h5 : 0 ≤ (1 / 2 ^ 51 : ℚ) * b := mul_nonneg (by norm_num) (ha.trans hab)
  rw [e1]
  linarith

theorem numOf_double (m : CellSetValues Double) (v : Nat) : numOf Double.rounded (m.find (v : Int)) = doubleAt m v := by
  unfold doubleAt numOf
  cases m.find (v : Int) with
  | none => rfl
  | some a =>
    simp only [Option.map_some]
    have : Double.rounded.val a = Double.val a := rfl
    rw [this]
    cases Double.val a <;> rfl

/-! ### One side of the problem -/

/-- A result whose concentrations nearly balance. -/
structure Nearly (F : Flow ℚ) (wells : List (WellFlux ℚ)) (cs : WellFlux ℚ → List Nat) (f : WellFlux ℚ → Nat → ℚ)
    (starts : List CellSet) (sol : Solution Double) (M : Nat) : Prop where
  valid : F.Valid
  side : Side wells cs f F.n F.src
  reached : ∀ w ∈ wells, (∃ s ∈ starts, s.id = w.id) → ∀ v : Nat, F.Downstream (cs w) v ↔ ((sol.concentration w.id).find (v : Int)).isSome
  number : ∀ w ∈ wells, (∃ s ∈ starts, s.id = w.id) → ∀ v < F.n, ∀ a, (sol.concentration w.id).find (v : Int) = some a →
    ∃ x : ℚ, a.val = X.fin x ∧ 0 ≤ x ∧ x ≤ 1
  unit : ∀ w ∈ wells, (∃ s ∈ starts, s.id = w.id) → ∀ v < F.n, 0 ≤ doubleAt (sol.concentration w.id) v ∧ doubleAt (sol.concentration w.id) v ≤ 1
  balance : ∀ w ∈ wells, (∃ s ∈ starts, s.id = w.id) → ∀ v < F.n, ¬ F.Loop v →
    |(∑ u ∈ range F.n, doubleAt (sol.concentration w.id) u * F.w u v) + injected (cs w) (f w) v
        - F.total v * doubleAt (sol.concentration w.id) v|
      ≤ 1 / 1000000000 * F.cycleInflow v + ((4 * M + 6 : Nat) : ℚ) / 2 ^ 51 * F.total v

theorem cycleInflow_bounds {F : Flow ℚ} (hF : F.Valid) {v : Nat} (hv : v < F.n) : 0 ≤ F.cycleInflow v ∧ F.cycleInflow v ≤ F.total v := by
  unfold Flow.cycleInflow Flow.total Flow.inflow
  constructor
  · refine sum_nonneg fun u hu => ?_
    split
    · exact hF.w_nonneg u v (mem_range.mp hu) hv
    · exact le_rfl
  · refine le_trans (sum_le_sum fun u hu => ?_) (le_add_of_nonneg_right (hF.src_nonneg v hv))
    split
    · exact le_rfl
    · exact hF.w_nonneg u v (mem_range.mp hu) hv

theorem nearly_of {D : List (Int × Int × Double)} {pv : List Double} {l : List (CellSetID × Int × Double)} {F : Flow ℚ}
    {DK : List (Nat × Nat × ℚ)} {wells : List (WellFlux ℚ)} {cs : WellFlux ℚ → List Nat} {f : WellFlux ℚ → Nat → ℚ} {M : Nat}
    (h : Inputs Double.rounded D pv l F DK wells cs f M) (hM : M ≤ 2 ^ 40) (hm : ∀ v < F.n, Sized F v) {fuel : Nat}
    (hfuel : F.n + numEdges F.n (graphsOf F.n D).1.startPointers ≤ fuel) {starts : List CellSet} {sol : Solution Double}
    (hs : computeSolution (graphsOf F.n D).1 (graphsOf F.n D).2 pv (gather l).only (gather l).byId noFailure fuel starts = .ok sol) :
    Nearly F wells cs f starts sol M := by
  have key := fun (w : WellFlux ℚ) hw hask => computeSolution_balance (w := w) Double.precise double_odd (Double.pow_clear hM)
    (Double.pow_le_two (by omega)) (by
      have : (M : ℚ) ≤ 2 ^ 40 := by exact_mod_cast hM
      refine le_trans (add_le_add_left this 1) ?_
      norm_num) h hm hfuel hs hw hask
  refine ⟨h.valid, h.side, fun w hw hask => (key w hw hask).1, fun w hw hask => (key w hw hask).2.1, ?_, ?_⟩
  · intro w hw hask v hv
    rw [← numOf_double]
    cases e : (sol.concentration w.id).find (v : Int) with
    | none => exact ⟨le_rfl, zero_le_one⟩
    | some a =>
      obtain ⟨x, hx, h0, h1⟩ := (key w hw hask).2.1 v hv a e
      rw [numOf_some hx]
      exact ⟨h0, h1⟩
  · intro w hw hask v hv hl
    have := (key w hw hask).2.2 v hv hl
    simp only [numOf_double] at this
    obtain ⟨c0, c1⟩ := cycleInflow_bounds h.valid hv
    exact this.trans (residual_le hM c0 c1)

section nearly
variable {F : Flow ℚ} {wells : List (WellFlux ℚ)} {cs : WellFlux ℚ → List Nat} {f : WellFlux ℚ → Nat → ℚ}
  {starts : List CellSet} {sol : Solution Double} {M : Nat}

theorem Nearly.sources (N : Nearly F wells cs f starts sol M) {w : WellFlux ℚ} (hw : w ∈ wells) :
    ∀ p ∈ cs w, p < F.n ∧ 0 < F.src p := by
  intro p hp
  refine ⟨N.side.range w hw p hp, ?_⟩
  have h0 : ∀ w ∈ wells, 0 ≤ (if p ∈ cs w then f w p else 0) := by
    intro w hw
    split
    · rename_i h; exact (N.side.pos w hw p h).le
    · exact le_rfl
  rw [N.side.src]
  exact (sum_pos_iff h0).2.1.mpr ⟨w, hw, by rw [if_pos hp]; exact N.side.pos w hw p hp⟩

theorem Nearly.zero (N : Nearly F wells cs f starts sol M) {w : WellFlux ℚ} (hw : w ∈ wells)
    (hask : ∃ s ∈ starts, s.id = w.id) {v : Nat} (hd : ¬ F.Downstream (cs w) v) : doubleAt (sol.concentration w.id) v = 0 := by
  rw [N.reached w hw hask v] at hd
  unfold doubleAt
  cases e : (sol.concentration w.id).find (v : Int) with
  | none => rfl
  | some a => rw [e] at hd; exact absurd rfl hd

theorem Nearly.error (N : Nearly F wells cs f starts sol M) (hself : ∀ v < F.n, ¬ F.Loop v) {w : WellFlux ℚ} (hw : w ∈ wells)
    (hask : ∃ s ∈ starts, s.id = w.id) {x m h : Nat → ℚ} (hx : F.Carries (cs w) (injected (cs w) (f w)) x)
    (hm : F.Carries (cs w) F.cycleInflow m) (hh : F.Carries (cs w) F.total h) :
    ∀ v < F.n, |doubleAt (sol.concentration w.id) v - x v| ≤ 1 / 1000000000 * m v + ((4 * M + 6 : Nat) : ℚ) / 2 ^ 51 * h v := by
  have key := field_error N.valid (S := F.Downstream (cs w)) (c := doubleAt (sol.concentration w.id)) (x := x)
    (q := injected (cs w) (f w)) (r := fun v => 1 / 1000000000 * F.cycleInflow v + ((4 * M + 6 : Nat) : ℚ) / 2 ^ 51 * F.total v)
    (b := fun v => 1 / 1000000000 * m v + ((4 * M + 6 : Nat) : ℚ) / 2 ^ 51 * h v)
    (fun v hv _ => N.balance w hw hask v hv (hself v hv)) hx.2
    (fun v hv hd => by
      have e : ∑ u ∈ range F.n, (1 / 1000000000 * m u + ((4 * M + 6 : Nat) : ℚ) / 2 ^ 51 * h u) * F.w u v =
          1 / 1000000000 * (∑ u ∈ range F.n, m u * F.w u v) + ((4 * M + 6 : Nat) : ℚ) / 2 ^ 51 * ∑ u ∈ range F.n, h u * F.w u v := by
        rw [mul_sum, mul_sum, ← sum_add_distrib]
        exact sum_congr rfl fun u _ => by ring
      rw [e]
      have h1 := hm.2 v hv hd
      have h2 := hh.2 v hv hd
      linear_combination 1 / 1000000000 * h1 + ((4 * M + 6 : Nat) : ℚ) / 2 ^ 51 * h2)
    (fun v _ u he => by
      by_cases hu : F.Downstream (cs w) u
      · exact Or.inl hu
      · refine Or.inr ?_
        rw [N.zero hw hask hu, hx.1 u he.1 hu, hm.1 u he.1 hu, hh.1 u he.1 hu]
        simp)
    (fun v _ ⟨p, h1, h2⟩ => ⟨p, (N.sources hw p h1).1, (N.sources hw p h1).2, h2⟩)
  intro v hv
  by_cases hd : F.Downstream (cs w) v
  · exact key v hv hd
  · rw [N.zero hw hask hd, hx.1 v hv hd, hm.1 v hv hd, hh.1 v hv hd]
    simp

/-- The concentrations of a list of wells, added up. -/
theorem Nearly.balance_sum (N : Nearly F wells cs f starts sol M) {v : Nat} (hv : v < F.n) (hl : ¬ F.Loop v) (ws : List (WellFlux ℚ))
    (hws : ∀ w ∈ ws, w ∈ wells ∧ ∃ s ∈ starts, s.id = w.id) :
    |(∑ u ∈ range F.n, (ws.map fun w => doubleAt (sol.concentration w.id) u).sum * F.w u v) + (ws.map fun w => injected (cs w) (f w) v).sum
        - F.total v * (ws.map fun w => doubleAt (sol.concentration w.id) v).sum|
      ≤ (ws.length : ℚ) * (1 / 1000000000 * F.cycleInflow v + ((4 * M + 6 : Nat) : ℚ) / 2 ^ 51 * F.total v) := by
  induction ws with
  | nil => simp
  | cons w ws ih =>
    have h1 := ih fun w hw => hws w (List.mem_cons_of_mem _ hw)
    obtain ⟨hw, hask⟩ := hws w (List.mem_cons_self ..)
    have h2 := N.balance w hw hask v hv hl
    generalize 1 / 1000000000 * F.cycleInflow v + ((4 * M + 6 : Nat) : ℚ) / 2 ^ 51 * F.total v = r at *
    simp only [List.map_cons, List.sum_cons, List.length_cons, add_mul, sum_add_distrib, Nat.cast_add, Nat.cast_one, one_mul]
    refine le_trans (le_of_eq_of_le ?_ (abs_add_le _ _)) ((add_le_add h1 h2).trans_eq (by ring))
    congr 1
    ring

theorem Nearly.sum_error (N : Nearly F wells cs f starts sol M) (hself : ∀ v < F.n, ¬ F.Loop v) {ws : List (WellFlux ℚ)}
    (hws : ∀ w ∈ ws, w ∈ wells ∧ ∃ s ∈ starts, s.id = w.id)
    (hsrc : ∀ v < F.n, (ws.map fun w => injected (cs w) (f w) v).sum = F.src v) {all : List Nat}
    (hall : ∀ p, p ∈ all ↔ p < F.n ∧ 0 < F.src p) {m h : Nat → ℚ} (hm : F.Carries all F.cycleInflow m)
    (hh : F.Carries all F.total h) :
    ∀ v < F.n, (∀ u, F.Reach u v → F.Downstream all u) →
      |(ws.map fun w => doubleAt (sol.concentration w.id) v).sum - 1|
        ≤ (ws.length : ℚ) * (1 / 1000000000 * m v + ((4 * M + 6 : Nat) : ℚ) / 2 ^ 51 * h v) := by
  refine field_error N.valid (S := fun v => ∀ u, F.Reach u v → F.Downstream all u)
    (c := fun v => (ws.map fun w => doubleAt (sol.concentration w.id) v).sum) (x := fun _ => 1) (q := F.src)
    (r := fun v => (ws.length : ℚ) * (1 / 1000000000 * F.cycleInflow v + ((4 * M + 6 : Nat) : ℚ) / 2 ^ 51 * F.total v))
    ?_ ?_ ?_ ?_ ?_
  · intro v hv _
    have := N.balance_sum hv (hself v hv) ws hws
    rw [hsrc v hv] at this
    exact this
  · intro v hv _
    unfold Flow.total Flow.inflow
    simp
  · intro v hv hs
    have hd := hs v Relation.ReflTransGen.refl
    have e : ∑ u ∈ range F.n, (ws.length : ℚ) * (1 / 1000000000 * m u + ((4 * M + 6 : Nat) : ℚ) / 2 ^ 51 * h u) * F.w u v =
        (ws.length : ℚ) * (1 / 1000000000 * (∑ u ∈ range F.n, m u * F.w u v)
          + ((4 * M + 6 : Nat) : ℚ) / 2 ^ 51 * ∑ u ∈ range F.n, h u * F.w u v) := by
      rw [mul_sum, mul_sum, ← sum_add_distrib, mul_sum]
      exact sum_congr rfl fun u _ => by ring
    rw [e]
    have h1 := hm.2 v hv hd
    have h2 := hh.2 v hv hd
    linear_combination (ws.length : ℚ) * (1 / 1000000000 * h1 + ((4 * M + 6 : Nat) : ℚ) / 2 ^ 51 * h2)
  · intro v hs u he
    exact Or.inl fun y hy => hs y (hy.tail he)
  · intro v _ hs
    obtain ⟨p, a, b⟩ := hs v Relation.ReflTransGen.refl
    exact ⟨p, ((hall p).mp a).1, ((hall p).mp a).2, b⟩

end nearly

/-! ### Both sides -/

theorem outcomes_ok {R : Type} [Arith R] {g : ConnectivityGraph} {n : Nat} {cs : List (Nat × Nat)} (hg : ValidConnectivity g n cs)
    {calls : List (Call R)} (hc : Complete g calls) {np : Nat} {phi : Nat → Nat → R} {pv : List R}
    (hpv : lastPoreVolume g calls = some pv) (hf : FluxGiven g calls np phi) {fuel : Nat} {starts : List CellSet} {sol : Solution R} :
    (injectionOutcome g calls noFailure fuel starts = .ok sol →
      computeSolution (graphsOf n (directed cs fun c => phaseSum (phi c) np)).1
        (graphsOf n (directed cs fun c => phaseSum (phi c) np)).2 pv
        (gather (positives (entries ((lastInflow calls).getD [])))).only
        (gather (positives (entries ((lastInflow calls).getD [])))).byId noFailure fuel starts = .ok sol) ∧
    (productionOutcome g calls noFailure fuel starts = .ok sol →
      computeSolution (graphsOf n (swapEnds (directed cs fun c => phaseSum (phi c) np))).1
        (graphsOf n (swapEnds (directed cs fun c => phaseSum (phi c) np))).2 pv
        (gather (negatives (entries ((lastInflow calls).getD [])))).only
        (gather (negatives (entries ((lastInflow calls).getD [])))).byId noFailure fuel starts = .ok sol) := by
  obtain ⟨k1, k2⟩ := outcomes_accepted hg hc hpv hf fuel starts
  obtain ⟨pv', f, h1, h2, h3, h4⟩ := complete_outcome hc
  rw [hpv] at h1; cases h1
  constructor
  · intro h
    by_cases ha : InjectionAccepts ((lastInflow calls).getD []) starts
    · rw [← k1 ha, h]
    · exfalso
      rw [injectionOutcome_eq, hpv, h2] at h
      simp only [Option.getD_some] at h
      rw [outcome_complete h3 h4, check_injection, if_neg ha] at h
      cases h
  · intro h
    by_cases ha : ProductionAccepts ((lastInflow calls).getD []) starts
    · rw [← k2 ha, h]
    · exfalso
      rw [productionOutcome_eq, hpv, h2] at h
      simp only [Option.getD_some] at h
      rw [outcome_complete h3 h4, check_production, if_neg ha] at h
      cases h

variable {P : Problem ℚ} {M : Nat} {g : ConnectivityGraph} {calls : List (Call Double)} {starts : List CellSet} {sol : Solution Double}

theorem nearly_injection (hP : P.Valid) (hO : P.OfOrdinarySize M) (htotal : ∀ v < P.n, P.forward.total v ≤ 2 ^ 100)
    (hS : P.StoredIn g calls) (hr : InjectionReturns g calls starts (.ok sol)) :
    Nearly P.forward P.wells posCells (fun w => w.val) starts sol M := by
  have hg := stored_connectivity hP hS
  obtain ⟨pv, hpv, hpvv⟩ := hS.pv
  obtain ⟨np, phi, hf, hphi⟩ := hS.flux
  have hI := inputs_forward hP hO hphi hpvv hS.inflow
  obtain ⟨N, hN⟩ := hr
  exact nearly_of hI hO.bound (sized_of hI htotal hO.pv) (le_max_right N _)
    ((outcomes_ok hg (stored_complete hP hS) hpv hf).1 (hN _ (le_max_left N _)))

theorem nearly_production (hP : P.Valid) (hO : P.OfOrdinarySize M) (htotal : ∀ v < P.n, P.backward.total v ≤ 2 ^ 100)
    (hS : P.StoredIn g calls) (hr : ProductionReturns g calls starts (.ok sol)) :
    Nearly P.backward P.wells negCells (fun w v => - w.val v) starts sol M := by
  have hg := stored_connectivity hP hS
  obtain ⟨pv, hpv, hpvv⟩ := hS.pv
  obtain ⟨np, phi, hf, hphi⟩ := hS.flux
  have hI := inputs_backward hP hO hphi hpvv hS.inflow
  obtain ⟨N, hN⟩ := hr
  exact nearly_of hI hO.bound (sized_of hI htotal hO.pv) (le_max_right N _)
    ((outcomes_ok hg (stored_complete hP hS) hpv hf).2 (hN _ (le_max_left N _)))

/-- Wells without any value of one sign do not count. -/
theorem sum_filter {wells : List (WellFlux ℚ)} {p : WellFlux ℚ → Bool} {t : WellFlux ℚ → ℚ} (h : ∀ w ∈ wells, p w = false → t w = 0) :
    ((wells.filter p).map t).sum = (wells.map t).sum := by
  induction wells with
  | nil => rfl
  | cons w ws ih =>
    have ih := ih fun w hw => h w (List.mem_cons_of_mem _ hw)
    rw [List.filter_cons]
    by_cases hp : p w = true
    · rw [if_pos hp, List.map_cons, List.map_cons, List.sum_cons, List.sum_cons, ih]
    · rw [if_neg hp, List.map_cons, List.sum_cons, h w (List.mem_cons_self ..) (by simpa using hp), zero_add, ih]

/-- **C80** (flows into cells of ordinary size) Concentrations of an injector computed with `double`s lie between 0 and
    1.  In every cell, except those with a self-connection as their only cycle, they balance up to `1e-9` of the flux
    that the cell receives from its own cycle and a few rounding errors of the total flux. -/
theorem C80_injection_balance (hP : P.Valid) (hO : P.OfOrdinarySize M) (htotal : ∀ v < P.n, P.forward.total v ≤ 2 ^ 100)
    (hS : P.StoredIn g calls) (hr : InjectionReturns g calls starts (.ok sol)) {w : WellFlux ℚ} (hw : w ∈ P.wells)
    (hask : ∃ s ∈ starts, s.id = w.id) :
    ∀ v < P.n, 0 ≤ doubleAt (sol.concentration w.id) v ∧ doubleAt (sol.concentration w.id) v ≤ 1 ∧ (¬ P.forward.Loop v →
      |(∑ u ∈ range P.n, doubleAt (sol.concentration w.id) u * P.flux u v) + max (Problem.wellAt w v) 0
          - P.forward.total v * doubleAt (sol.concentration w.id) v|
        ≤ 1 / 1000000000 * P.forward.cycleInflow v + ((4 * M + 6 : Nat) : ℚ) / 2 ^ 51 * P.forward.total v) := by
  have N := nearly_injection hP hO htotal hS hr
  intro v hv
  refine ⟨(N.unit w hw hask v hv).1, (N.unit w hw hask v hv).2, fun hl => ?_⟩
  have := N.balance w hw hask v hv hl
  rwa [injected_pos] at this

/-- **C80** The same for a producer, in the reversed flow. -/
theorem C80_production_balance (hP : P.Valid) (hO : P.OfOrdinarySize M) (htotal : ∀ v < P.n, P.backward.total v ≤ 2 ^ 100)
    (hS : P.StoredIn g calls) (hr : ProductionReturns g calls starts (.ok sol)) {w : WellFlux ℚ} (hw : w ∈ P.wells)
    (hask : ∃ s ∈ starts, s.id = w.id) :
    ∀ v < P.n, 0 ≤ doubleAt (sol.concentration w.id) v ∧ doubleAt (sol.concentration w.id) v ≤ 1 ∧ (¬ P.backward.Loop v →
      |(∑ u ∈ range P.n, doubleAt (sol.concentration w.id) u * P.flux v u) + max (-Problem.wellAt w v) 0
          - P.backward.total v * doubleAt (sol.concentration w.id) v|
        ≤ 1 / 1000000000 * P.backward.cycleInflow v + ((4 * M + 6 : Nat) : ℚ) / 2 ^ 51 * P.backward.total v) := by
  have N := nearly_production hP hO htotal hS hr
  intro v hv
  refine ⟨(N.unit w hw hask v hv).1, (N.unit w hw hask v hv).2, fun hl => ?_⟩
  have := N.balance w hw hask v hv hl
  rwa [injected_neg] at this

/-- **C80** (no cell has a self-connection as its only cycle) Concentrations of an injector computed with `double`s,
    against the exact ones `x`: the error is at most `1e-9 * m + (4 M + 6) / 2^51 * h`, where `m` and `h` are the
    fields that the flow carries from the injector's cells when each cell adds the flux that it receives from its own
    cycle, respectively from anywhere. -/
theorem C80_injection (hP : P.Valid) (hO : P.OfOrdinarySize M) (htotal : ∀ v < P.n, P.forward.total v ≤ 2 ^ 100)
    (hself : ∀ v < P.n, ¬ P.forward.Loop v) (hS : P.StoredIn g calls) (hr : InjectionReturns g calls starts (.ok sol))
    {w : WellFlux ℚ} (hw : w ∈ P.wells) (hask : ∃ s ∈ starts, s.id = w.id) :
    ∃ x m h, P.forward.Carries (posCells w) (fun v => max (Problem.wellAt w v) 0) x ∧
      P.forward.Carries (posCells w) P.forward.cycleInflow m ∧
      P.forward.Carries (posCells w) P.forward.total h ∧
      ∀ v < P.n, |doubleAt (sol.concentration w.id) v - x v| ≤ 1 / 1000000000 * m v + ((4 * M + 6 : Nat) : ℚ) / 2 ^ 51 * h v := by
  have N := nearly_injection hP hO htotal hS hr
  have hp := N.sources hw
  obtain ⟨x, hx⟩ := (C76_exact N.valid hp (injected (posCells w) w.val)).1
  obtain ⟨m, hm⟩ := (C76_exact N.valid hp P.forward.cycleInflow).1
  obtain ⟨h, hh⟩ := (C76_exact N.valid hp P.forward.total).1
  have e : injected (posCells w) w.val = fun v => max (Problem.wellAt w v) 0 := funext fun v => injected_pos v
  exact ⟨x, m, h, e ▸ hx, hm, hh, N.error hself hw hask hx hm hh⟩

/-- **C80** The same for a producer, in the reversed flow. -/
theorem C80_production (hP : P.Valid) (hO : P.OfOrdinarySize M) (htotal : ∀ v < P.n, P.backward.total v ≤ 2 ^ 100)
    (hself : ∀ v < P.n, ¬ P.forward.Loop v) (hS : P.StoredIn g calls) (hr : ProductionReturns g calls starts (.ok sol))
    {w : WellFlux ℚ} (hw : w ∈ P.wells) (hask : ∃ s ∈ starts, s.id = w.id) :
    ∃ x m h, P.backward.Carries (negCells w) (fun v => max (-Problem.wellAt w v) 0) x ∧
      P.backward.Carries (negCells w) P.backward.cycleInflow m ∧
      P.backward.Carries (negCells w) P.backward.total h ∧
      ∀ v < P.n, |doubleAt (sol.concentration w.id) v - x v| ≤ 1 / 1000000000 * m v + ((4 * M + 6 : Nat) : ℚ) / 2 ^ 51 * h v := by
  have N := nearly_production hP hO htotal hS hr
  have hp := N.sources hw
  obtain ⟨x, hx⟩ := (C76_exact N.valid hp (injected (negCells w) fun v => - w.val v)).1
  obtain ⟨m, hm⟩ := (C76_exact N.valid hp P.backward.cycleInflow).1
  obtain ⟨h, hh⟩ := (C76_exact N.valid hp P.backward.total).1
  have e : injected (negCells w) (fun v => - w.val v) = fun v => max (-Problem.wellAt w v) 0 :=
    funext fun v => injected_neg v
  exact ⟨x, m, h, e ▸ hx, hm, hh, N.error (backward_not_loop hself) hw hask hx hm hh⟩

/-- **C80** (no cell has a self-connection as its only cycle) If all injectors are asked for, their concentrations add up
    to 1, with an error of at most the number of injectors times `1e-9 * m + (4 M + 6) / 2^51 * h`, in every cell such
    that a source reaches each cell upstream of it. -/
theorem C80_injection_sum (hP : P.Valid) (hO : P.OfOrdinarySize M) (htotal : ∀ v < P.n, P.forward.total v ≤ 2 ^ 100)
    (hself : ∀ v < P.n, ¬ P.forward.Loop v) (hS : P.StoredIn g calls) (hr : InjectionReturns g calls starts (.ok sol))
    (hall : ∀ w ∈ P.injectors, ∃ s ∈ starts, s.id = w.id) :
    ∃ m h, P.forward.Carries ((List.range P.n).filter fun p => decide (0 < P.source p)) P.forward.cycleInflow m ∧
      P.forward.Carries ((List.range P.n).filter fun p => decide (0 < P.source p)) P.forward.total h ∧
      ∀ v < P.n, (∀ u, P.forward.Reach u v → ∃ p < P.n, 0 < P.source p ∧ P.forward.Reach p u) →
        |(P.injectors.map fun w => doubleAt (sol.concentration w.id) v).sum - 1|
          ≤ (P.injectors.length : ℚ) * (1 / 1000000000 * m v + ((4 * M + 6 : Nat) : ℚ) / 2 ^ 51 * h v) := by
  have N := nearly_injection hP hO htotal hS hr
  have hs : ∀ p, p ∈ (List.range P.n).filter (fun p => decide (0 < P.source p)) ↔ p < P.forward.n ∧ 0 < P.forward.src p := by
    intro p; rw [List.mem_filter, List.mem_range, decide_eq_true_eq]; exact Iff.rfl
  obtain ⟨m, hm⟩ := (C76_exact N.valid (fun p => (hs p).mp) P.forward.cycleInflow).1
  obtain ⟨h, hh⟩ := (C76_exact N.valid (fun p => (hs p).mp) P.forward.total).1
  refine ⟨m, h, hm, hh, fun v hv hu => N.sum_error hself (fun w hw => ⟨(List.mem_filter.mp hw).1, hall w hw⟩) ?_ hs hm hh v hv
    fun u hr => ?_⟩
  · intro v _
    rw [N.side.src]
    refine sum_filter fun w _ hn => ?_
    unfold injected
    rw [if_neg]
    intro hc
    obtain ⟨h1, h2⟩ := List.mem_filter.mp hc
    rw [List.any_eq_false] at hn
    exact hn v h1 h2
  · obtain ⟨p, h1, h2, h3⟩ := hu u hr
    exact ⟨p, (hs p).mpr ⟨h1, h2⟩, h3⟩

/-- **C80** The same for producers. -/
theorem C80_production_sum (hP : P.Valid) (hO : P.OfOrdinarySize M) (htotal : ∀ v < P.n, P.backward.total v ≤ 2 ^ 100)
    (hself : ∀ v < P.n, ¬ P.forward.Loop v) (hS : P.StoredIn g calls) (hr : ProductionReturns g calls starts (.ok sol))
    (hall : ∀ w ∈ P.producers, ∃ s ∈ starts, s.id = w.id) :
    ∃ m h, P.backward.Carries ((List.range P.n).filter fun p => decide (0 < P.sink p)) P.backward.cycleInflow m ∧
      P.backward.Carries ((List.range P.n).filter fun p => decide (0 < P.sink p)) P.backward.total h ∧
      ∀ v < P.n, (∀ u, P.forward.Reach v u → ∃ p < P.n, 0 < P.sink p ∧ P.forward.Reach u p) →
        |(P.producers.map fun w => doubleAt (sol.concentration w.id) v).sum - 1|
          ≤ (P.producers.length : ℚ) * (1 / 1000000000 * m v + ((4 * M + 6 : Nat) : ℚ) / 2 ^ 51 * h v) := by
  have N := nearly_production hP hO htotal hS hr
  have hs : ∀ p, p ∈ (List.range P.n).filter (fun p => decide (0 < P.sink p)) ↔ p < P.backward.n ∧ 0 < P.backward.src p := by
    intro p; rw [List.mem_filter, List.mem_range, decide_eq_true_eq]; exact Iff.rfl
  obtain ⟨m, hm⟩ := (C76_exact N.valid (fun p => (hs p).mp) P.backward.cycleInflow).1
  obtain ⟨h, hh⟩ := (C76_exact N.valid (fun p => (hs p).mp) P.backward.total).1
  refine ⟨m, h, hm, hh, fun v hv hu => N.sum_error (backward_not_loop hself)
    (fun w hw => ⟨(List.mem_filter.mp hw).1, hall w hw⟩) ?_ hs hm hh v hv fun u hr => ?_⟩
  · intro v _
    rw [N.side.src]
    refine sum_filter fun w _ hn => ?_
    unfold injected
    rw [if_neg]
    intro hc
    obtain ⟨h1, h2⟩ := List.mem_filter.mp hc
    rw [List.any_eq_false] at hn
    exact hn v h1 h2
  · obtain ⟨p, h1, h2, h3⟩ := hu u (backward_reach.mp hr)
    exact ⟨p, (hs p).mpr ⟨h1, h2⟩, backward_reach.mpr h3⟩

/-! ### A case

The problem `exWhirl` with its cycle 1 → 2 → 3 → 1, given in `double`s: requests for its injector and for its producer
return. -/

def whirlGraph : ConnectivityGraph := ⟨4, [0, 1, 1, 2, 2, 3, 3, 1]⟩

def whirlCalls : List (Call Double) :=
  [.assignPoreVolume [Arith.lit 1, Arith.lit 1, Arith.lit 1, Arith.lit 1],
   .assignConnectionFlux ⟨4, 1, [Arith.lit 2, Arith.lit 3, Arith.lit 3, Arith.lit 1]⟩,
   .assignInflowFlux [(⟨[65]⟩, [(0, Arith.lit 2)]), (⟨[80]⟩, [(3, Arith.lit (-2))])]]

theorem whirl_net (c : Nat) : exWhirl.net c = if c = 0 then 2 else if c = 3 then 1 else 3 := by
  unfold Problem.net exWhirl; simp

theorem whirl_stored : exWhirl.StoredIn whirlGraph whirlCalls where
  graph := {
    cells := rfl
    count := rfl
    connection := by
      intro i hi
      have hi : i < 4 := hi
      interval_cases i <;> rfl }
  pv := ⟨_, rfl, by decide +kernel⟩
  flux := by
    refine ⟨1, fun c _ => if c = 0 then Arith.lit 2 else if c = 3 then Arith.lit 1 else Arith.lit 3, ⟨_, rfl, rfl, rfl, ?_⟩, ?_⟩
    · intro c hc p hp
      have hp : p = 0 := by omega
      subst hp
      have hc : c < 4 := hc
      interval_cases c <;> rfl
    · intro c hc
      have hc : c < 4 := hc
      rw [whirl_net]
      interval_cases c <;> decide +kernel
  inflow := by decide +kernel

theorem whirl_ordinary : exWhirl.OfOrdinarySize 4 where
  flux c _ := by
    rw [whirl_net]
    right
    split <;> [norm_num; split <;> norm_num]
  well w hw v hv := by
    simp only [exWhirl, List.mem_cons, List.not_mem_nil, or_false] at hw
    right
    rcases hw with rfl | rfl <;> norm_num
  pv v _ := by
    right
    unfold exWhirl
    norm_num
  degree v := (List.length_filter_le _ _).trans (by decide)
  wells v := (List.length_filter_le _ _).trans (by decide)
  bound := by norm_num

theorem whirl_total : (∀ v < exWhirl.n, exWhirl.forward.total v ≤ 2 ^ 100) ∧ ∀ v < exWhirl.n, exWhirl.backward.total v ≤ 2 ^ 100 := by
  constructor
  · intro v hv
    have hv : v < 4 := hv
    unfold Flow.total Flow.inflow
    simp only [Problem.forward]
    interval_cases v <;>
      simp [exWhirl, Finset.sum_range_succ, Problem.source, Problem.wellAt, Problem.flux, Problem.carried, Problem.net] <;> norm_num
  · intro v hv
    have hv : v < 4 := hv
    unfold Flow.total Flow.inflow
    simp only [Problem.backward]
    interval_cases v <;>
      simp [exWhirl, Finset.sum_range_succ, Problem.sink, Problem.wellAt, Problem.flux, Problem.carried, Problem.net] <;> norm_num

def isOk {α : Type} (r : Res α) : Bool := match r with
  | .ok _ => true
  | _ => false

theorem isOk_spec {α : Type} {r : Res α} (h : isOk r = true) : ∃ s, r = .ok s := by
  unfold isOk at h
  split at h
  · exact ⟨_, rfl⟩
  · cases h

set_option maxRecDepth 100000 in
/-- C80: the hypotheses hold, in both directions, and the flow has a cycle. -/
example : ∃ S T, InjectionReturns whirlGraph whirlCalls [CellSet.ofCells ⟨[65]⟩ [0]] (.ok S) ∧
    ProductionReturns whirlGraph whirlCalls [CellSet.ofCells ⟨[80]⟩ [3]] (.ok T) ∧
    (∀ v < exWhirl.n, ¬ exWhirl.forward.Loop v) ∧
    (∀ w ∈ exWhirl.injectors, ∃ s ∈ [CellSet.ofCells ⟨[65]⟩ [0]], s.id = w.id) ∧
    (∀ w ∈ exWhirl.producers, ∃ s ∈ [CellSet.ofCells ⟨[80]⟩ [3]], s.id = w.id) := by
  obtain ⟨S, h1⟩ := isOk_spec
    (show isOk (injectionOutcome whirlGraph whirlCalls noFailure 100 [CellSet.ofCells ⟨[65]⟩ [0]]) = true by decide +kernel)
  obtain ⟨T, h2⟩ := isOk_spec
    (show isOk (productionOutcome whirlGraph whirlCalls noFailure 100 [CellSet.ofCells ⟨[80]⟩ [3]]) = true by decide +kernel)
  refine ⟨S, T, (Fuel.injection_returns.mpr ⟨100, h1, by simp⟩).1, (Fuel.production_returns.mpr ⟨100, h2, by simp⟩).1, ?_, ?_, ?_⟩
  · intro v hv hl
    refine hl.1 ?_
    change v < 4 at hv
    interval_cases v <;> simp [Problem.forward, Problem.flux, Problem.carried, exWhirl, sum_range_succ]
  · intro w hw
    obtain ⟨h1, h2⟩ := List.mem_filter.mp hw
    simp only [exWhirl, List.mem_cons, List.not_mem_nil, or_false] at h1
    rcases h1 with rfl | rfl
    · exact ⟨_, List.mem_singleton.mpr rfl, rfl⟩
    · norm_num at h2
  · intro w hw
    obtain ⟨h1, h2⟩ := List.mem_filter.mp hw
    simp only [exWhirl, List.mem_cons, List.not_mem_nil, or_false] at h1
    rcases h1 with rfl | rfl
    · norm_num at h2
    · exact ⟨_, List.mem_singleton.mpr rfl, rfl⟩

end Verif.Props
