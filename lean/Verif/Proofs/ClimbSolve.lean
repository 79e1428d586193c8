/-
All components: the solver returns.
-/
import Verif.Proofs.ClimbComponent
import Verif.Proofs.Fuel
import Mathlib.Data.ENat.Basic

namespace Verif.Rounding
set_option linter.unusedSectionVars false
open Finset Verif.Spec Verif.Solver Verif.Toolbox Verif.Tarjan

variable {R : Type} [Arith R] {K : Type} [Field K] [LinearOrder K] [IsStrictOrderedRing K]

theorem cycleInflow_le {F : Flow K} (hF : F.Valid) {v : Nat} (hv : v < F.n) : F.cycleInflow v ≤ F.total v := by
  unfold Flow.cycleInflow Flow.total Flow.inflow
  refine le_trans (sum_le_sum fun u hu => ?_) (le_add_of_nonneg_right (hF.src_nonneg v hv))
  split
  · exact le_rfl
  · exact hF.w_nonneg u v (mem_range.mp hu) hv

/-- The fields before the first visit. -/
def blank (R : Type) [Arith R] (n : Nat) : List R × List R := (List.replicate n Arith.zero, List.replicate n Arith.zero)

theorem blank_zero (ρ : Rounded R K) {n : Nat} {s : List R × List R} {v : Nat} (h : cellAt s v = cellAt (blank R n) v) :
    cn ρ s v = 0 ∧ tn ρ s v = 0 := by
  unfold cellAt blank at h
  obtain ⟨h1, h2⟩ := Prod.mk.inj h
  unfold cn tn
  rw [h1, h2]
  simp only [List.getElem?_replicate]
  split
  · rw [numOf_some (val_zero' ρ)]; exact ⟨rfl, rfl⟩
  · exact ⟨rfl, rfl⟩

/-- The components of the cells `V`, and what is asked of those that are cycles. -/
structure Course (d : SolverData R) (F : Flow K) (S : Nat → Prop) (inj : Nat → K) (H μ : K) (V : Nat → Prop)
    (comps : List (List Nat)) : Prop where
  topo : Topo F.n d.g.startPointers d.g.neighbourhood V comps
  edge : HasEdge F.n d.g.startPointers d.g.neighbourhood = F.Edge
  lt : ∀ v, V v → v < F.n
  within : ∀ v < F.n, S v → V v
  onward : ∀ u v, F.Edge u v → V u → V v
  noLoop : ∀ v, S v → ¬ F.Loop v
  mu_pos : 0 < μ
  mu_le : μ ≤ 1
  weights : ∀ C ∈ comps, 1 < C.length → ∀ v ∈ C, S v →
    (∀ u, F.Edge u v → μ * F.total v ≤ F.w u v) ∧ (0 < inj v → μ * F.total v ≤ inj v)
  floor : ∀ C ∈ comps, 1 < C.length → 1 ≤ 1 / (2 * H) * (μ / 4) ^ C.length * 2 ^ 500

/-- What holds between components, after those with cells `P`. -/
structure Between (ρ : Rounded R K) (q : K) (F : Flow K) (M : Nat) (S : Nat → Prop) (x h : Nat → K) (φ : K) (P : List Nat)
    (s : List R × List R) : Prop where
  ready : Ready ρ F.n s
  timely : Timely ρ F.n (fun u => (4 * φ + 1) * h u) s
  off : ∀ u < F.n, ¬ S u → cn ρ s u = 0
  acc : ∀ u ∈ P, S u → |cn ρ s u - x u| ≤ kappa q M * h u
  frame : ∀ u, u ∉ P → cellAt s u = cellAt (blank R F.n) u

/-- The iterations on each cycle end within `lim` sweeps. -/
def EndsWithin (ρ : Rounded R K) (q : K) (d : SolverData R) (F : Flow K) (M : Nat) (isStart : List Bool) (ls : List R)
    (S : Nat → Prop) (inj x h : Nat → K) (H φ μ : K) (lim : ℕ∞) : Prop :=
  ∀ C s, Cycle ρ q F M S inj x h H φ μ C s → ∃ fuel k : ℕ, (fuel : ℕ∞) ≤ lim ∧
    gaussSeidel d isStart ls (C.map fun v : Nat => (v : Int)) fuel (s, (huge, huge)) = .ok ((Climb.sweep (after d isStart ls) C)^[k] s)

namespace Setting
variable {ρ : Rounded R K} {q : K} {d : SolverData R} {F : Flow K} {M : Nat} {isStart : List Bool} {ls : List R}
  {S : Nat → Prop} {inj x h : Nat → K} {H φ : K} (A : Setting ρ q d F M isStart ls S inj x h H φ)
include A

theorem ends_top (μ : K) : EndsWithin ρ q d F M isStart ls S inj x h H φ μ ⊤ := by
  intro C s hY
  obtain ⟨fuel, k, hk⟩ := A.cycle_ends hY
  exact ⟨fuel, k, le_top, hk⟩

theorem between_start : Between ρ q F M S x h φ [] (blank R F.n) where
  ready := ⟨initial_proper ρ F.n, by simp [blank], by simp [blank]⟩
  timely := fun u hu => by
    obtain ⟨h1, h2⟩ := blank_zero ρ (n := F.n) (s := blank R F.n) (v := u) rfl
    refine ⟨Arith.zero, by simp [blank, hu], ?_, h2.ge, ?_⟩
    · rw [h2]; exact val_zero' ρ
    · rw [h1, h2, zero_mul]
      have := A.fill_nonneg
      exact mul_nonneg (by linarith) (A.h_nonneg u hu)
  off := fun u _ _ => (blank_zero ρ (n := F.n) (s := blank R F.n) (v := u) rfl).1
  acc := fun u hu => by simp at hu
  frame := fun _ _ => rfl

variable {μ : K} {V : Nat → Prop} {comps : List (List Nat)} (B : Course d F S inj H μ V comps)
include B

theorem reach_iff (u v : Nat) : Reachable F.n d.g.startPointers d.g.neighbourhood u v ↔ F.Reach u v := by
  show Relation.ReflTransGen (HasEdge F.n d.g.startPointers d.g.neighbourhood) u v ↔ _
  rw [B.edge]
  rfl

theorem cell_V {C : List Nat} (hC : C ∈ comps) {v : Nat} (hv : v ∈ C) : V v :=
  (B.topo.cover v).mp (List.mem_flatten.mpr ⟨C, hC, hv⟩)

theorem onward_reach {u v : Nat} (h : F.Reach u v) (hu : V u) : V v := by
  induction h with
  | refl => exact hu
  | tail _ e ih => exact B.onward _ _ e ih

/-- A component has the accuracy of the components before. -/
theorem comp_acc {C : List Nat} (hC : C ∈ comps) {fuel : Nat} {s s' : List R × List R} (hs : Ready ρ F.n s)
    (hz : ∀ v ∈ C, cellAt s v = cellAt (blank R F.n) v)
    (hacc : ∀ v ∈ C, ∀ u, F.Edge u v → u ∉ C → S u → |cn ρ s u - x u| ≤ kappa q M * h u)
    (hoff : ∀ u < F.n, ¬ S u → cn ρ s' u = 0)
    (hrun : (match C.map (fun v : Nat => (v : Int)) with
      | [cell] => solveSingleCell d isStart ls s cell
      | cells => solveMultiCell d isStart ls fuel s cells) = .ok s') :
    ∀ v ∈ C, S v → |cn ρ s' v - x v| ≤ kappa q M * h v := by
  have hq := A.precise.one_le
  have hlt : ∀ v ∈ C, v < F.n := fun v hv => B.lt v (A.cell_V B hC hv)
  obtain ⟨j1, j2, j3⟩ := component_settled ρ (E := F.Edge) (z := blank R F.n) (Q := Ready ρ F.n) (huge_tol A.precise A.q_le)
    (B.topo.nonempty C hC) ((List.nodup_flatten.mp B.topo.once).1 C hC)
    (fun v hv => by have := hlt v hv; have := A.approx.int; omega)
    (fun t t' v hv ht hstep => by
      obtain ⟨p, _, h2, _, h3, _⟩ := A.after_eq ht (hlt v hv)
      rw [h2] at hstep
      cases hstep
      exact h3) hs hz hrun
  have hsl : 0 < slack K := by unfold slack; positivity
  have := Props.field_error A.valid (S := fun v => v ∈ C ∧ S v) (c := cn ρ s') (x := x) (q := inj) (r := fun v => kappa q M * F.total v)
    (b := fun v => kappa q M * h v) (by
      intro v hv ⟨hvC, hSv⟩
      obtain ⟨b, hb, hb0, hb1⟩ := A.start v hv
      have key := settled_balance A.precise A.odd A.approx A.valid A.q4 A.count hv (A.sized v hv) (A.injected v hv).1 (A.injected v hv).2
        hb hb0 hb1 (fun u hu => hu) j1 (j3 v hvC)
        (fun u hu => ⟨(A.reach_iff B u v).mp (B.topo.strong C hC u hu v hvC), (A.reach_iff B v u).mp (B.topo.strong C hC v hvC u hu)⟩)
        (by
          intro hC1 he
          refine B.noLoop v hSv ⟨he.2.2.ne', ?_⟩
          intro u hu
          have hVu := A.onward_reach B hu.2 (A.cell_V B hC hvC)
          have := B.topo.weak C hC v hvC u hVu ((A.reach_iff B v u).mpr hu.2) ((A.reach_iff B u v).mpr hu.1)
          rw [hC1] at this
          simpa using this)
      refine key.trans ?_
      have h1 := cycleInflow_le A.valid hv
      have h2 : 0 ≤ (1 / 1000000000 * q + tiny K) * q := by
        have := tiny_pos (K := K)
        exact mul_nonneg (by linarith) (by linarith)
      have h3 := mul_le_mul_of_nonneg_left h1 h2
      unfold kappa
      rw [add_mul]
      linarith) (fun v hv ⟨_, hSv⟩ => A.conc v hv hSv) (by
      intro v hv ⟨_, hSv⟩
      have h1 := A.depth v hv hSv
      have e : ∑ u ∈ range F.n, kappa q M * h u * F.w u v = kappa q M * ∑ u ∈ range F.n, h u * F.w u v := by
        rw [mul_sum]; exact sum_congr rfl fun _ _ => by ring
      rw [e]
      linear_combination (kappa q M) * h1) (by
      intro v ⟨hvC, _⟩ u hu
      by_cases hSu : S u
      · by_cases huC : u ∈ C
        · exact Or.inl ⟨huC, hSu⟩
        · right
          have e : cn ρ s' u = cn ρ s u := by
            have := j2 u huC
            unfold cellAt at this
            unfold cn
            rw [(Prod.mk.inj this).2]
          rw [e]
          exact hacc v hvC u hu huC hSu
      · right
        rw [hoff u hu.1 hSu, A.conc0 u hu.1 hSu, A.depth0 u hu.1 hSu]
        simp) (fun v hv ⟨_, hSv⟩ => A.fed v hv hSv)
  exact fun v hv hSv => this v (hlt v hv) ⟨hv, hSv⟩

variable {lim : ℕ∞} (E : EndsWithin ρ q d F M isStart ls S inj x h H φ μ lim)
include E

/-- One component. -/
theorem comp_ends {pre post : List (List Nat)} {C : List Nat} (hsplit : comps = pre ++ C :: post) {s : List R × List R}
    (hs : Between ρ q F M S x h φ pre.flatten s) :
    ∃ (fuel : ℕ) (s' : List R × List R), (fuel : ℕ∞) ≤ lim ∧ (match C.map (fun v : Nat => (v : Int)) with
      | [cell] => solveSingleCell d isStart ls s cell
      | cells => solveMultiCell d isStart ls fuel s cells) = .ok s' ∧ Between ρ q F M S x h φ (pre.flatten ++ C) s' := by
  have hC : C ∈ comps := by rw [hsplit]; simp
  have hlt : ∀ v ∈ C, v < F.n := fun v hv => B.lt v (A.cell_V B hC hv)
  have hnd := B.topo.once
  have hndC := (List.nodup_flatten.mp B.topo.once).1 C hC
  have hdis : ∀ v ∈ C, v ∉ pre.flatten := by
    rw [hsplit, List.flatten_append, List.flatten_cons] at hnd
    intro v hv hm
    exact (List.nodup_append.mp hnd).2.2 v hm v (List.mem_append_left _ hv) rfl
  have hz : ∀ v ∈ C, cellAt s v = cellAt (blank R F.n) v := fun v hv => hs.frame v (hdis v hv)
  have hacc : ∀ v ∈ C, ∀ u, F.Edge u v → u ∉ C → S u → |cn ρ s u - x u| ≤ kappa q M * h u := by
    intro v hv u hu huC hSu
    refine hs.acc u ?_ hSu
    have hm := (B.topo.cover u).mpr (B.within u hu.1 hSu)
    rw [hsplit, List.flatten_append, List.flatten_cons, List.mem_append, List.mem_append] at hm
    rcases hm with hm | hm | hm
    · exact hm
    · exact absurd hm huC
    · exfalso
      obtain ⟨D, hD, huD⟩ := List.mem_flatten.mp hm
      obtain ⟨p1, p2, e⟩ := List.append_of_mem hD
      refine B.topo.order (pre ++ C :: p1) D p2 (by rw [hsplit, e]; simp) u huD v ?_ (by rw [B.edge]; exact hu)
      rw [List.flatten_append, List.flatten_cons]
      exact List.mem_append_right _ (List.mem_append_left _ hv)
  have finish : ∀ fuel s', (match C.map (fun v : Nat => (v : Int)) with
      | [cell] => solveSingleCell d isStart ls s cell
      | cells => solveMultiCell d isStart ls fuel s cells) = .ok s' → Ready ρ F.n s' →
      ((∀ v ∈ C, S v → |cn ρ s' v - x v| ≤ kappa q M * h v) → Timely ρ F.n (fun u => (4 * φ + 1) * h u) s') →
      (∀ u < F.n, ¬ S u → cn ρ s' u = 0) → (∀ u, u ∉ C → cellAt s' u = cellAt s u) →
      Between ρ q F M S x h φ (pre.flatten ++ C) s' := by
    intro fuel s' hrun h1 h2 h3 h4
    have hca := A.comp_acc B hC hs.ready hz hacc h3 hrun
    refine ⟨h1, h2 hca, h3, ?_, ?_⟩
    · intro u hu hSu
      by_cases huC : u ∈ C
      · exact hca u huC hSu
      · have e : cn ρ s' u = cn ρ s u := by
          have := h4 u huC
          unfold cellAt at this
          unfold cn
          rw [(Prod.mk.inj this).2]
        rw [e]
        exact hs.acc u ((List.mem_append.mp hu).resolve_right huC) hSu
    · intro u hu
      rw [List.mem_append, not_or] at hu
      rw [h4 u hu.2]
      exact hs.frame u hu.1
  by_cases h1 : ∃ v, C = [v]
  · obtain ⟨v, rfl⟩ := h1
    have hvn := hlt v (by simp)
    obtain ⟨p, hp, hrun, _, g1, g2, g3, g4⟩ := A.after_eq hs.ready hvn
    refine ⟨0, after d isStart ls v s, zero_le, hrun, ?_⟩
    have hy := (num_entry g1 g3).1
    have hy1 : cn ρ (after d isStart ls v s) v ≤ 1 := by
      obtain ⟨_, _, _, _, _, _, h⟩ := g1.at hvn; exact h
    have hout : ∀ u, u ∉ [v] → cellAt (after d isStart ls v s) u = cellAt s u := by
      intro u hu
      obtain ⟨e1, e2⟩ := g4 u (by simpa using hu)
      unfold cellAt
      rw [e1, e2]
    have hzero : ¬ S v → cn ρ (after d isStart ls v s) v = 0 := by
      intro hSv
      have := A.visit_zero hs.ready hvn (fun u hu => hs.off u hu.1 fun hc => hSv (A.closed u v hu hc)) (A.off v hvn hSv) hp
      rw [hy] at this
      exact X.fin.inj this
    refine finish 0 _ hrun g1 ?_ ?_ hout
    · intro hca u hu
      by_cases e : u = v
      · subst e
        obtain ⟨t, t1, t2, t3⟩ := A.visit_bound hs.ready hs.timely hvn hp hy hy1 (by
          by_cases hSv : S u
          · right
            refine ⟨?_, hSv⟩
            obtain ⟨_, h2, _⟩ := A.half hvn hSv (hca u (by simp) hSv)
            have hH := A.one_le
            have hH2 : H ≤ 2 ^ 130 := by
              refine le_trans ?_ A.moderate
              have := mul_nonneg A.fill_nonneg (zero_le_one.trans hH)
              rw [add_mul, one_mul, mul_assoc]
              linarith
            have hp : (0 : K) < 2 ^ 500 := two_pow_pos' 500
            refine le_trans ?_ (mul_le_mul_of_nonneg_right h2 hp.le)
            rw [one_div_mul_eq_div, le_div_iff₀ (by linarith), one_mul]
            calc 2 * H ≤ 2 * 2 ^ 130 := by linarith
              _ = 2 ^ 131 := by rw [← pow_succ']
              _ ≤ 2 ^ 500 := pow_le_pow_right₀ one_le_two (by norm_num)
          · left; exact hzero hSv)
        have et : tn ρ (after d isStart ls u s) u = t := by unfold tn; rw [g2, numOf_some t1]
        refine ⟨p.1, g2, by rw [et]; exact t1, by rw [et]; exact t2, by rw [et]; exact t3⟩
      · obtain ⟨e1, e2⟩ := g4 u e
        have := hs.timely u hu
        unfold tn cn at this ⊢
        rw [e1, e2]
        exact this
    · intro u hu hSu
      by_cases e : u = v
      · subst e; exact hzero hSu
      · have := hs.off u hu hSu
        unfold cn at this ⊢
        rw [(g4 u e).2]
        exact this
  · have hlen : 1 < C.length := by
      match C, B.topo.nonempty C hC, h1 with
      | [], h, _ => exact absurd rfl h
      | [v], _, h => exact absurd ⟨v, rfl⟩ h
      | _ :: _ :: _, _, _ => simp
    have hY : Cycle ρ q F M S inj x h H φ μ C s :=
      { cells := hlt
        nodup := hndC
        mu_pos := B.mu_pos
        mu_le := B.mu_le
        weights := B.weights C hC hlen
        floor := B.floor C hC hlen
        ready := hs.ready
        timely := hs.timely
        off := hs.off
        zero := fun v hv => blank_zero ρ (hz v hv)
        acc := hacc }
    obtain ⟨fuel, k, hlim, hk⟩ := E C s hY
    have hm := A.moment_iter hY k
    have hrun : (match C.map (fun v : Nat => (v : Int)) with
      | [cell] => solveSingleCell d isStart ls s cell
      | cells => solveMultiCell d isStart ls fuel s cells) = .ok ((Climb.sweep (after d isStart ls) C)^[k] s) := by
      generalize (Climb.sweep (after d isStart ls) C)^[k] s = out at hk
      match C, hlen, hk with
      | [], h, _ => simp at h
      | [v], h, _ => simp at h
      | _ :: _ :: _, _, hk => exact hk
    exact ⟨fuel, _, hlim, hrun, finish fuel _ hrun hm.ready (fun _ => hm.timely) hm.off hm.frame⟩

omit E in
/-- More steps do not matter. -/
theorem multi_sub {fuel k : Nat} {s s' : List R × List R} {cells : List Int}
    (h : (match cells with
      | [cell] => solveSingleCell d isStart ls s cell
      | cells => solveMultiCell d isStart ls fuel s cells) = .ok s') :
    (match cells with
      | [cell] => solveSingleCell d isStart ls s cell
      | cells => solveMultiCell d isStart ls (fuel + k) s cells) = .ok s' := by
  split
  · exact h
  · rename_i hne
    have h' : solveMultiCell d isStart ls fuel s cells = .ok s' := by
      split at h
      · exact absurd rfl (hne _)
      · exact h
    unfold solveMultiCell at h' ⊢
    rcases Fuel.gaussSeidel_sub d isStart ls cells k fuel (s, (huge, huge)) with e | e
    · rw [h'] at e; cases e
    · rw [e, h']

/-- The first components. -/
theorem loop_ends (k : ℕ) : k ≤ comps.length → ∃ N : ℕ, (N : ℕ∞) ≤ lim ∧ ∃ s, Between ρ q F M S x h φ (comps.take k).flatten s ∧
      ∀ fuel, N ≤ fuel →
      forEach (List.range k) (blank R F.n) (solveComponent d isStart ls (cellsOf comps) (offsets comps) fuel) = .ok s := by
  induction k with
  | zero =>
    intro _
    exact ⟨0, zero_le, blank R F.n, A.between_start, fun _ _ => rfl⟩
  | succ k ih =>
    intro hk
    have hkl : k < comps.length := by omega
    obtain ⟨N, hN, s, h1, h2⟩ := ih (by omega)
    have hck : comps[k]? = some comps[k] := List.getElem?_eq_getElem hkl
    set C := comps[k] with hCdef
    have hsplit : comps = comps.take k ++ C :: comps.drop (k + 1) := by
      rw [hCdef, ← List.drop_eq_getElem_cons hkl, List.take_append_drop]
    obtain ⟨fuel0, s', hf0, h3, h4⟩ := A.comp_ends B E hsplit h1
    refine ⟨max N fuel0, ?_, s', ?_, ?_⟩
    · rcases le_total N fuel0 with h | h
      · rw [max_eq_right h]; exact hf0
      · rw [max_eq_left h]; exact hN
    · rw [List.take_succ_eq_append_getElem hkl, ← hCdef, List.flatten_append]
      simpa using h4
    · intro fuel hf
      rw [List.range_succ, forEach_append, h2 fuel (le_trans (le_max_left _ _) hf), Res.ok_bind, forEach_cons]
      have hc : solveComponent d isStart ls (cellsOf comps) (offsets comps) fuel s k = .ok s' := by
        unfold solveComponent
        simp only [Res.bind_eq, rd_of_getElem? (offsets_getElem? comps (k := k + 1) (by omega)),
          rd_of_getElem? (offsets_getElem? comps (k := k) (by omega)), Res.ok_bind, off_succ hck,
          Nat.add_sub_cancel_left, readCells_comp hck]
        obtain ⟨j, rfl⟩ := Nat.exists_eq_add_of_le (le_trans (le_max_right N fuel0) hf)
        exact A.multi_sub B h3
      rw [hc]
      rfl

/-- `solve()` returns. -/
theorem solve_ends : ∃ N : ℕ, (N : ℕ∞) ≤ lim ∧ ∃ s, Between ρ q F M S x h φ comps.flatten s ∧ ∀ fuel, N ≤ fuel →
      solve d isStart ls (cellsOf comps) (offsets comps) fuel (blank R F.n) = .ok (s.1.map fun t => Arith.min t maxTof, s.2) := by
  obtain ⟨N, hl, s, h1, hN⟩ := A.loop_ends B E comps.length le_rfl
  rw [List.take_length] at h1
  refine ⟨N, hl, s, h1, fun fuel hf => ?_⟩
  unfold solve
  simp only [Res.bind_eq, Res.pure_eq, offsets_length, Nat.add_sub_cancel, hN fuel hf, Res.ok_bind]

end Setting
end Verif.Rounding
