/-
Bounds on what the solver computes, in floating-point arithmetic.
-/
import Verif.Proofs.Rounding
import Verif.Proofs.FluxRows
import Verif.Proofs.SolverVisit

namespace Verif.Rounding
open Verif.Spec Verif.Solver Verif.Toolbox

variable {R : Type} [Arith R]

/-- The data of a solver fit together: inflows are the sums of the upwind fluxes, and nothing is negative. -/
structure Fits (d : SolverData R) (n : Nat) : Prop where
  int : n ≤ INT_MAX
  pvSize : d.pv.length = n
  sourceSize : d.sourceTerm.length = n
  row : ∀ v < n, ∃ nb, d.gReverse.cellNeighbourhood (v : Int) = .ok nb ∧ (∀ e ∈ nb, 0 ≤ e.1 ∧ e.1 < n) ∧
    (∀ e ∈ nb, NotNegative e.2) ∧ d.influx[v]? = some ((nb.map fun e => e.2).foldl Arith.add Arith.zero)
  influxSize : d.influx.length = n
  source : ∀ x ∈ d.sourceTerm, NotNegative x
  pv : ∀ x ∈ d.pv, NotNegative x

/-- In start cells the local source is part of the source. -/
def LocalFits (d : SolverData R) (isStart : List Bool) (ls : List R) : Prop :=
  ∀ (v : Nat) (l s : R), isStart[v]? = some true → ls[v]? = some l → d.sourceTerm[v]? = some s →
    NotNegative l ∧ Arith.lt s l = false

/-- Times of flight are not negative, tracer values are not negative and not above one. -/
structure Bounded (s : List R × List R) : Prop where
  tof : ∀ t ∈ s.1, NotNegative t
  nonneg : ∀ c ∈ s.2, NotNegative c
  le_one : ∀ c ∈ s.2, Arith.lt (Arith.lit 1) c = false

variable {K : Type} [Field K] [LinearOrder K] [IsStrictOrderedRing K] (ρ : Rounded R K)
include ρ

omit [IsStrictOrderedRing K] in
theorem add_comm' (a b : R) : ρ.val (Arith.add a b) = ρ.val (Arith.add b a) := by
  rw [ρ.add, ρ.add]
  congr 1
  cases ρ.val a <;> cases ρ.val b <;> simp [X.add, add_comm]

theorem le_add' {a b c : R} (h1 : Arith.lt a b = false) (h2 : NotNegative c) : Arith.lt (Arith.add c a) b = false := by
  rw [ρ.lt, add_comm' ρ, ← ρ.lt]; exact le_add ρ h1 h2

/-- The accumulation over the upwind connections. -/
theorem upwind_bounds {tof tracer : List R} (hb : Bounded (tof, tracer)) {nb : List (Int × R)}
    (hw : ∀ e ∈ nb, NotNegative e.2) {a : R × R} {w : R} (ha : NotNegative a.1) (ha2 : NotNegative a.2)
    (haw : Arith.lt w a.2 = false) {up : R × R} (h : forEach nb a (addUpwind tof tracer) = .ok up) :
    NotNegative up.1 ∧ NotNegative up.2 ∧ Arith.lt ((nb.map fun e => e.2).foldl Arith.add w) up.2 = false := by
  induction nb generalizing a w with
  | nil => cases h; exact ⟨ha, ha2, haw⟩
  | cons e nb ih =>
    rw [forEach_cons] at h
    obtain ⟨b, hb1, h⟩ := Res.bind_ok_iff.mp h
    unfold addUpwind at hb1
    simp only [Res.bind_eq, Res.pure_eq, Res.bind_ok_iff] at hb1
    obtain ⟨t, ht, c, hc, e2⟩ := hb1
    cases e2
    have ht : t ∈ tof := by
      unfold rd at ht
      split at ht
      · cases ht; exact List.mem_of_getElem? (by assumption)
      · cases ht
    have hc : c ∈ tracer := by
      unfold rd at hc
      split at hc
      · cases hc; exact List.mem_of_getElem? (by assumption)
      · cases hc
    have hwe := hw e List.mem_cons_self
    have hcn := hb.nonneg c hc
    exact ih (fun x hx => hw x (List.mem_cons_of_mem _ hx))
      (add_notNegative ρ ha (mul_notNegative ρ (mul_notNegative ρ (hb.tof t ht) hcn) hwe))
      (add_notNegative ρ ha2 (mul_notNegative ρ hcn hwe))
      (add_mono ρ haw (mul_le ρ (hb.le_one c hc) hwe)) h

theorem foldl_notNegative {l : List R} (h : ∀ x ∈ l, NotNegative x) {a : R} (ha : NotNegative a) :
    NotNegative (l.foldl Arith.add a) := by
  induction l generalizing a with
  | nil => exact ha
  | cons x l ih =>
    exact ih (fun y hy => h y (List.mem_cons_of_mem _ hy)) (add_notNegative ρ ha (h x List.mem_cons_self))

omit [IsStrictOrderedRing K] ρ in
theorem rd_iff {α : Type} {l : List α} {i : Nat} {x : α} : rd l i = .ok x ↔ l[i]? = some x := by
  unfold rd
  cases l[i]? <;> simp

omit [IsStrictOrderedRing K] ρ in
theorem maxTof_eq_capIn : (maxTof : R) = capIn R := rfl

/-- What a visit stores is within the bounds. -/
theorem cellVals_bounds {d : SolverData R} {n : Nat} (hd : Fits d n) {isStart : List Bool} {ls : List R}
    (hl : LocalFits d isStart ls) {s : List R × List R} (hs : Bounded s) {cell : Int} (hc : 0 ≤ cell ∧ cell < n)
    {p : R × R} (h : cellVals d isStart ls s cell = .ok p) :
    NotNegative p.1 ∧ NotNegative p.2 ∧ Arith.lt (Arith.lit 1) p.2 = false := by
  obtain ⟨v, rfl⟩ := Int.eq_ofNat_of_zero_le hc.1
  have hI := hd.int
  have hv : v < n := by omega
  have hsz : sizeOfInt (v : Int) = v := by rw [sizeOfInt_nonneg (by omega) (by omega)]; simp
  obtain ⟨nb, hnb, _, hw, hin⟩ := hd.row v hv
  unfold cellVals at h
  simp only [hsz, Res.bind_eq, Res.pure_eq, hnb, Res.ok_bind, rd_of_getElem? hin, Res.bind_ok_iff] at h
  obtain ⟨src, h1, start, h2, up, h3, contrib, h4, _, _, _, _, c, h5, pv, h6, e⟩ := h
  cases e
  rw [rd_iff] at h1 h2 h6
  have hsrc := hd.source src (List.mem_of_getElem? h1)
  have hpv := hd.pv pv (List.mem_of_getElem? h6)
  obtain ⟨u1, u2, u3⟩ := upwind_bounds ρ hs hw (zero_notNegative ρ) (zero_notNegative ρ) (lt_irrefl ρ Arith.zero) h3
  set influx := (nb.map fun e => e.2).foldl Arith.add Arith.zero
  have hinf : NotNegative influx := foldl_notNegative ρ (by
    intro x hx
    obtain ⟨e, he, rfl⟩ := List.mem_map.mp hx
    exact hw e he) (zero_notNegative ρ)
  have hcs : NotNegative (cellSource src start) := by
    unfold cellSource
    split
    · exact inf_lt ρ _
    · exact hsrc
  set total := Arith.add influx (cellSource src start)
  have ht : NotNegative total := add_notNegative ρ hinf hcs
  have hcon : NotNegative contrib ∧ Arith.lt total contrib = false := by
    unfold withLocalSource at h4
    cases start with
    | false =>
      simp only [Bool.false_eq_true, if_false, Res.ok.injEq] at h4
      subst h4
      exact ⟨u2, le_add ρ u3 hcs⟩
    | true =>
      simp only [if_true, Res.bind_eq, Res.pure_eq, Res.bind_ok_iff] at h4
      obtain ⟨l, h7, e⟩ := h4
      cases e
      rw [rd_iff] at h7
      obtain ⟨k1, k2⟩ := hl v l src h2 h7 h1
      refine ⟨add_notNegative ρ u2 k1, add_mono ρ u3 ?_⟩
      unfold cellSource
      split
      · exact inf_lt ρ _
      · exact k2
  have hcb : NotNegative c ∧ Arith.lt (Arith.lit 1) c = false ∧ (Arith.eq total Arith.zero = true → c = Arith.zero) := by
    unfold cellTracer at h5
    split at h5
    · simp only [Res.bind_eq, Res.pure_eq, Res.bind_ok_iff] at h5
      obtain ⟨_, _, e⟩ := h5
      cases e
      refine ⟨zero_notNegative ρ, ?_, fun _ => rfl⟩
      rw [ρ.lt, val_one, val_zero']
      simp [X.lt]
    · rename_i hne
      cases h5
      exact ⟨div_notNegative ρ hcon.1 ht (by simpa using hne), div_le_one ρ hcon.2 ht (by simpa using hne),
        fun h => absurd h hne⟩
  refine ⟨?_, hcb.1, hcb.2.1⟩
  have hmax : NotNegative (maxTof : R) := capIn_notNegative ρ
  unfold cellTof
  simp only
  split
  · exact hmax
  · split
    · rename_i hpos
      have hne : Arith.eq total Arith.zero = false := by
        by_contra hh
        rw [Bool.not_eq_false] at hh
        rw [hcb.2.2 hh, lt_irrefl ρ] at hpos
        cases hpos
      exact div_mul_notNegative ρ (add_notNegative ρ (mul_notNegative ρ hpv hcb.1) u1) ht hne hpos
    · exact hmax

theorem single_bounded {d : SolverData R} {n : Nat} (hd : Fits d n) {isStart : List Bool} {ls : List R}
    (hl : LocalFits d isStart ls) {s t : List R × List R} (hs : Bounded s) {cell : Int} (hc : 0 ≤ cell ∧ cell < n)
    (h : solveSingleCell d isStart ls s cell = .ok t) : Bounded t := by
  obtain ⟨p, hp, _, _, rfl⟩ := single_ok_iff.mp h
  obtain ⟨h1, h2, h3⟩ := cellVals_bounds ρ hd hl hs hc hp
  refine ⟨?_, ?_, ?_⟩
  · intro t ht
    rcases List.mem_or_eq_of_mem_set ht with h | rfl
    · exact hs.tof t h
    · exact h1
  · intro t ht
    rcases List.mem_or_eq_of_mem_set ht with h | rfl
    · exact hs.nonneg t h
    · exact h2
  · intro t ht
    rcases List.mem_or_eq_of_mem_set ht with h | rfl
    · exact hs.le_one t h
    · exact h3

theorem gaussSeidel_bounded {d : SolverData R} {n : Nat} (hd : Fits d n) {isStart : List Bool} {ls : List R}
    (hl : LocalFits d isStart ls) {cells : List Int} (hcs : ∀ c ∈ cells, 0 ≤ c ∧ c < n) (fuel : Nat)
    {s : (List R × List R) × (R × R)} {t : List R × List R} (hs : Bounded s.1)
    (h : gaussSeidel d isStart ls cells fuel s = .ok t) : Bounded t := by
  induction fuel generalizing s with
  | zero =>
    unfold gaussSeidel at h
    split at h
    · cases h
    · cases h; exact hs
  | succ k ih =>
    unfold gaussSeidel at h
    split at h
    · simp only [Res.bind_eq, Res.bind_ok_iff] at h
      obtain ⟨s', h1, h2⟩ := h
      refine ih ?_ h2
      refine (forEach_ok (s := (s.1, Arith.zero, Arith.zero)) (fun s' : (List R × List R) × (R × R) => Bounded s'.1) hs ?_ h1).1
      intro a b c hcm ha hb
      unfold sweepCell at hb
      simp only [Res.bind_eq, Res.pure_eq, Res.bind_ok_iff] at hb
      obtain ⟨_, _, _, _, f, hf, _, _, _, _, e⟩ := hb
      cases e
      exact single_bounded ρ hd hl ha (hcs c hcm) hf
    · cases h; exact hs

theorem min_bounds {t : R} (h : NotNegative t) :
    NotNegative (Arith.min t maxTof) ∧ Arith.lt (capIn R) (Arith.min t maxTof) = false := by
  unfold Arith.min
  rw [maxTof_eq_capIn]
  split
  · exact ⟨capIn_notNegative ρ, lt_irrefl ρ _⟩
  · rename_i h'
    exact ⟨h, by simpa using h'⟩

theorem solve_bounded {d : SolverData R} {n : Nat} (hd : Fits d n) {isStart : List Bool} {ls : List R}
    (hl : LocalFits d isStart ls) {sq : List Int} (hsq : ∀ c ∈ sq, 0 ≤ c ∧ c < n) {cst : List Nat} {fuel : Nat}
    {s t : List R × List R} (hs : Bounded s) (h : solve d isStart ls sq cst fuel s = .ok t) :
    Bounded t ∧ ∀ x ∈ t.1, Arith.lt (capIn R) x = false := by
  unfold solve at h
  simp only [Res.bind_eq, Res.pure_eq, Res.bind_ok_iff] at h
  obtain ⟨s', h1, h2⟩ := h
  cases h2
  obtain ⟨this, _⟩ := forEach_ok (fun s' : List R × List R => Bounded s') hs (by
    intro a b c _ ha hb
    unfold solveComponent at hb
    simp only [Res.bind_eq, Res.bind_ok_iff] at hb
    obtain ⟨e, _, b', _, cells, hcells, hb⟩ := hb
    have hsub : ∀ c ∈ cells, 0 ≤ c ∧ c < (n : Int) := by
      unfold readCells at hcells
      split at hcells
      · cases hcells
        intro c hc
        exact hsq c (List.mem_of_mem_drop (List.mem_of_mem_take hc))
      · cases hcells
    split at hb
    · exact single_bounded ρ hd hl ha (hsub _ (by simp)) hb
    · exact gaussSeidel_bounded ρ hd hl hsub fuel ha hb) h1
  refine ⟨⟨?_, this.nonneg, this.le_one⟩, ?_⟩
  · intro t ht
    obtain ⟨x, hx, rfl⟩ := List.mem_map.mp ht
    exact (min_bounds ρ (this.tof x hx)).1
  · intro t ht
    obtain ⟨x, hx, rfl⟩ := List.mem_map.mp ht
    exact (min_bounds ρ (this.tof x hx)).2

end Verif.Rounding
