/-
Without overflow, the solver's assertions hold in floating-point arithmetic.
-/
import Verif.Proofs.RoundingToolbox

namespace Verif.Rounding
open Verif.Spec Verif.Solver Verif.Toolbox Verif.Tarjan

/-- No assertion fails. -/
def Calm {α : Type} (r : Res α) : Prop := r ≠ .ub .assertFail

namespace Calm
variable {α β : Type}

theorem ok (a : α) : Calm (.ok a) := by unfold Calm; simp

theorem bind {r : Res α} {k : α → Res β} (h : Calm r) (hk : ∀ a, r = .ok a → Calm (k a)) : Calm (r.bind k) := by
  cases r with
  | ok a => exact hk a rfl
  | throw e => unfold Calm; simp [Res.bind]
  | ub u =>
    unfold Calm at *
    simpa [Res.bind] using h
  | diverge => unfold Calm; simp [Res.bind]

theorem rd (l : List α) (i : Nat) : Calm (Verif.rd l i) := by
  unfold Verif.rd; split <;> unfold Calm <;> simp

theorem wr (l : List α) (i : Nat) (a : α) : Calm (Verif.wr l i a) := by
  unfold Verif.wr; split <;> unfold Calm <;> simp

theorem assert {b : Bool} (h : b = true) : Calm (assertThat b) := by subst h; exact ok _

theorem diverge : Calm (.diverge : Res α) := by unfold Calm; simp

theorem throw (e : Exc) : Calm (.throw e : Res α) := by unfold Calm; simp

theorem forEach {σ : Type} {xs : List α} {f : σ → α → Res σ} (P : σ → Prop) {s : σ} (hs : P s)
    (h : ∀ s, ∀ x ∈ xs, P s → Calm (f s x) ∧ ∀ s', f s x = .ok s' → P s') :
    Calm (Verif.forEach xs s f) ∧ ∀ s', Verif.forEach xs s f = .ok s' → P s' := by
  induction xs generalizing s with
  | nil => exact ⟨ok _, fun s' e => by cases e; exact hs⟩
  | cons x xs ih =>
    rw [forEach_cons]
    obtain ⟨h1, h2⟩ := h s x List.mem_cons_self hs
    refine ⟨h1.bind fun a ha => (ih (h2 a ha) fun s y hy => h s y (List.mem_cons_of_mem _ hy)).1, ?_⟩
    intro s' e
    obtain ⟨a, ha, e⟩ := Res.bind_ok_iff.mp e
    exact (ih (h2 a ha) fun s y hy => h s y (List.mem_cons_of_mem _ hy)).2 s' e

end Calm

variable {R : Type} [Arith R] {K : Type} [Field K] [LinearOrder K] [IsStrictOrderedRing K] (ρ : Rounded R K)

/-- The value is a number other than infinity. -/
def Fin (x : R) : Prop := ∃ k, ρ.val x = X.fin k

theorem isFinite_iff {x : R} : IsFinite x ↔ Fin ρ x := by
  unfold IsFinite Fin
  rw [ρ.lt, ρ.fabs, ρ.inf]
  cases ρ.val x <;> simp [X.fabs, X.lt]

theorem rnd_pinf : ρ.rnd X.pinf = X.pinf := by rw [← ρ.inf]; exact ρ.rnd_val _

/-- Not NaN. -/
def Num (x : R) : Prop := ρ.val x ≠ X.nan

theorem Fin.num {x : R} (h : Fin ρ x) : Num ρ x := by
  obtain ⟨k, hk⟩ := h; unfold Num; rw [hk]; simp

/-- A number between zero and a finite number. -/
theorem fin_of_le {a b : R} (h1 : NotNegative a) (h2 : Arith.lt b a = false) (hb : Fin ρ b) (ha : Num ρ a) : Fin ρ a := by
  obtain ⟨k, hk⟩ := hb
  rw [notNegative_iff ρ] at h1
  rw [ρ.lt, hk] at h2
  unfold Fin Num at *
  cases h : ρ.val a <;> simp_all [X.lt]

theorem add_num {a b : R} (ha : Fin ρ a) (hb : Fin ρ b) : Num ρ (Arith.add a b) := by
  obtain ⟨k, hk⟩ := ha
  obtain ⟨l, hl⟩ := hb
  unfold Num
  rw [ρ.add, hk, hl]
  exact rnd_ne_nan ρ (by simp [X.add])

theorem mul_num {a b : R} (ha : Fin ρ a) (hb : Fin ρ b) : Num ρ (Arith.mul a b) := by
  obtain ⟨k, hk⟩ := ha
  obtain ⟨l, hl⟩ := hb
  unfold Num
  rw [ρ.mul, hk, hl]
  exact rnd_ne_nan ρ (by simp [X.mul])

/-- A finite sum of terms that are not negative has finite terms. -/
theorem fin_of_add {a b : R} (ha : NotNegative a) (hb : NotNegative b) (h : Fin ρ (Arith.add a b)) : Fin ρ a ∧ Fin ρ b := by
  obtain ⟨k, hk⟩ := h
  rw [notNegative_iff ρ] at ha hb
  rw [ρ.add] at hk
  have hp := rnd_pinf ρ
  have hn := ρ.rnd_nan
  unfold Fin
  cases ea : ρ.val a <;> cases eb : ρ.val b <;> simp_all [X.lt, X.add]

theorem fin_of_foldl {l : List R} (hl : ∀ x ∈ l, NotNegative x) {a : R} (ha : NotNegative a)
    (h : Fin ρ (l.foldl Arith.add a)) : Fin ρ a ∧ ∀ x ∈ l, Fin ρ x := by
  induction l generalizing a with
  | nil => exact ⟨h, by simp⟩
  | cons x l ih =>
    have hx := hl x List.mem_cons_self
    obtain ⟨h1, h2⟩ := ih (fun y hy => hl y (List.mem_cons_of_mem _ hy)) (add_notNegative ρ ha hx) h
    obtain ⟨h3, h4⟩ := fin_of_add ρ ha hx h1
    refine ⟨h3, ?_⟩
    intro y hy
    rcases List.mem_cons.mp hy with rfl | hy
    · exact h4
    · exact h2 y hy

/-- Zero is between zero and zero. -/
theorem eq_zero_of {a b : R} (h1 : NotNegative a) (h2 : Arith.lt b a = false) (hb : Arith.eq b Arith.zero = true)
    (ha : Num ρ a) : ρ.val a = X.fin 0 := by
  rw [notNegative_iff ρ] at h1
  rw [ρ.eq, val_zero'] at hb
  rw [ρ.lt] at h2
  unfold Num at ha
  cases eb : ρ.val b <;> rw [eb] at hb h2 <;> simp [X.eq] at hb
  subst hb
  cases ea : ρ.val a <;> rw [ea] at h1 h2 ha <;> simp_all [X.lt]
  exact le_antisymm h2 h1

theorem le_of_num {a : R} (h : NotNegative a) (ha : Num ρ a) : Arith.le Arith.zero a = true := by
  rw [notNegative_iff ρ] at h
  rw [ρ.le, val_zero', X.le_iff]
  exact ⟨h, by simp, ha⟩

/-- Inflow and source of each cell have a finite sum. -/
def FiniteFlow (d : SolverData R) (n : Nat) : Prop :=
  ∀ v < n, ∀ a s, d.influx[v]? = some a → d.sourceTerm[v]? = some s → Fin ρ (Arith.add a s)

/-- Bounds, with tracer values that are numbers. -/
structure Proper (s : List R × List R) : Prop where
  bounded : Bounded s
  fin : ∀ c ∈ s.2, Fin ρ c

theorem upwind_fin {tof tracer : List R} (hb : Proper ρ (tof, tracer)) {nb : List (Int × R)}
    (hw : ∀ e ∈ nb, NotNegative e.2) {a : R × R} {w : R} (ha2 : NotNegative a.2) (haf : Fin ρ a.2)
    (hwn : NotNegative w) (haw : Arith.lt w a.2 = false) {up : R × R} (h : forEach nb a (addUpwind tof tracer) = .ok up)
    (hfin : Fin ρ ((nb.map fun e => e.2).foldl Arith.add w)) : Fin ρ up.2 := by
  induction nb generalizing a w with
  | nil => cases h; exact haf
  | cons e nb ih =>
    rw [forEach_cons] at h
    obtain ⟨b, hb1, h⟩ := Res.bind_ok_iff.mp h
    unfold addUpwind at hb1
    simp only [Res.bind_eq, Res.pure_eq, Res.bind_ok_iff] at hb1
    obtain ⟨t, ht, c, hc, e2⟩ := hb1
    cases e2
    rw [rd_iff] at ht hc
    have hc := List.mem_of_getElem? hc
    have hwe := hw e List.mem_cons_self
    have hcn := hb.bounded.nonneg c hc
    rw [List.map_cons, List.foldl_cons] at hfin
    have hwe' := add_notNegative ρ hwn hwe
    have hsum := (fin_of_foldl ρ (by
      intro x hx
      obtain ⟨y, hy, rfl⟩ := List.mem_map.mp hx
      exact hw y (List.mem_cons_of_mem _ hy)) hwe' hfin).1
    obtain ⟨f1, f2⟩ := fin_of_add ρ hwn hwe hsum
    have hle := mul_le ρ (hb.bounded.le_one c hc) hwe
    have hmn := mul_notNegative ρ hcn hwe
    have hmf := fin_of_le ρ hmn hle f2 (mul_num ρ (hb.fin c hc) f2)
    have hadd := add_mono ρ haw hle
    have han := add_notNegative ρ ha2 hmn
    exact ih (fun x hx => hw x (List.mem_cons_of_mem _ hx)) han
      (fin_of_le ρ han hadd hsum (add_num ρ haf hmf)) hwe' hadd h hfin

theorem calm_upwind (tof tracer : List R) (nb : List (Int × R)) (a : R × R) :
    Calm (forEach nb a (addUpwind tof tracer)) := by
  refine (Calm.forEach (fun _ => True) trivial ?_).1
  intro s x _ _
  refine ⟨?_, fun _ _ => trivial⟩
  unfold addUpwind
  simp only [Res.bind_eq, Res.pure_eq]
  exact (Calm.rd _ _).bind fun _ _ => (Calm.rd _ _).bind fun _ _ => Calm.ok _

/-- The total inflow of a cell and the tracer that flows in. -/
theorem visit_flow {d : SolverData R} {n : Nat} (hd : Fits d n) (hfin : FiniteFlow ρ d n) {isStart : List Bool}
    {ls : List R} (hl : LocalFits d isStart ls)
    (hln : ∀ (v : Nat) (l : R), isStart[v]? = some true → ls[v]? = some l → Num ρ l) {s : List R × List R} (hs : Proper ρ s)
    {v : Nat} (hv : v < n) {nb : List (Int × R)} (hw : ∀ e ∈ nb, NotNegative e.2)
    (hin : d.influx[v]? = some ((nb.map fun e => e.2).foldl Arith.add Arith.zero)) :
    ∀ src start up contrib, d.sourceTerm[v]? = some src → isStart[v]? = some start →
      forEach nb (Arith.zero, Arith.zero) (addUpwind s.1 s.2) = .ok up → withLocalSource start ls v up.2 = .ok contrib →
      NotNegative (Arith.add ((nb.map fun e => e.2).foldl Arith.add Arith.zero) (cellSource src start)) ∧
      Num ρ (Arith.add ((nb.map fun e => e.2).foldl Arith.add Arith.zero) (cellSource src start)) ∧
      NotNegative contrib ∧ Fin ρ contrib ∧
      Arith.lt (Arith.add ((nb.map fun e => e.2).foldl Arith.add Arith.zero) (cellSource src start)) contrib = false := by
  set influx := (nb.map fun e => e.2).foldl Arith.add Arith.zero with hinflux
  have hall : ∀ x ∈ nb.map fun e => e.2, NotNegative x := by
    intro x hx
    obtain ⟨e, he, rfl⟩ := List.mem_map.mp hx
    exact hw e he
  have hinf : NotNegative influx := foldl_notNegative ρ hall (zero_notNegative ρ)
  have hzero : Fin ρ (Arith.zero : R) := ⟨0, val_zero' ρ⟩
  intro src start up contrib h1 h2 h3 h4
  have hsrc := hd.source src (List.mem_of_getElem? h1)
  have hf := hfin v hv _ _ hin h1
  obtain ⟨f1, f2⟩ := fin_of_add ρ hinf hsrc hf
  obtain ⟨_, u2, u3⟩ := upwind_bounds ρ hs.bounded hw (zero_notNegative ρ) (zero_notNegative ρ) (lt_irrefl ρ Arith.zero) h3
  have uf := upwind_fin ρ hs hw (zero_notNegative ρ) hzero (zero_notNegative ρ) (lt_irrefl ρ Arith.zero) h3 f1
  have hcs : NotNegative (cellSource src start) := by
    unfold cellSource
    split
    · exact inf_lt ρ _
    · exact hsrc
  have hnum : Num ρ (Arith.add influx (cellSource src start)) := by
    unfold cellSource
    split
    · obtain ⟨k, hk⟩ := f1
      unfold Num
      rw [ρ.add, hk, ρ.inf]
      exact rnd_ne_nan ρ (by simp [X.add])
    · exact hf.num
  refine ⟨add_notNegative ρ hinf hcs, hnum, ?_⟩
  unfold withLocalSource at h4
  cases start with
  | false =>
    simp only [Bool.false_eq_true, if_false, Res.ok.injEq] at h4
    subst h4
    exact ⟨u2, uf, le_add ρ u3 hcs⟩
  | true =>
    simp only [if_true, Res.bind_eq, Res.pure_eq, Res.bind_ok_iff] at h4
    obtain ⟨l, h7, e⟩ := h4
    cases e
    rw [rd_iff] at h7
    obtain ⟨k1, k2⟩ := hl v l src h2 h7 h1
    have hlnum := hln v l h2 h7
    have hadd := add_notNegative ρ u2 k1
    have lf := fin_of_le ρ k1 k2 f2 hlnum
    refine ⟨hadd, ?_, ?_⟩
    · exact fin_of_le ρ hadd (add_mono ρ u3 k2) hf (add_num ρ uf lf)
    · refine add_mono ρ u3 ?_
      unfold cellSource
      split
      · exact inf_lt ρ _
      · exact k2

theorem cellTracer_fin {total contrib : R} (h1 : NotNegative total) (h2 : Num ρ total) (h3 : NotNegative contrib)
    (h4 : Fin ρ contrib) (h5 : Arith.lt total contrib = false) :
    Calm (cellTracer total contrib) ∧ ∀ c, cellTracer total contrib = .ok c → Fin ρ c := by
  have hzero : Fin ρ (Arith.zero : R) := ⟨0, val_zero' ρ⟩
  unfold cellTracer
  split
  · rename_i h0
    have hz := eq_zero_of ρ h3 h5 h0 h4.num
    have : Arith.eq contrib Arith.zero = true := by
      rw [ρ.eq, hz, val_zero']; simp [X.eq]
    simp only [Res.bind_eq, Res.pure_eq, this]
    refine ⟨Calm.ok _, ?_⟩
    intro c hc
    cases hc
    exact hzero
  · rename_i h0
    refine ⟨Calm.ok _, ?_⟩
    intro c hc
    cases hc
    have h0' : Arith.eq total Arith.zero = false := by simpa using h0
    have hn := div_notNegative ρ h3 h1 h0'
    have hle := div_le_one ρ h5 h1 h0'
    refine fin_of_le ρ hn hle ⟨1, val_one ρ⟩ ?_
    unfold Num
    rw [ρ.div _ _ (ne_zero ρ h0')]
    apply rnd_ne_nan
    have hne := ne_zero ρ h0'
    rw [notNegative_iff ρ] at h1
    obtain ⟨k, hk⟩ := h4
    unfold Num at h2
    rw [hk]
    cases et : ρ.val total <;> simp_all [X.div, X.lt]

/-- A visit: no assertion fails, and the values stored are proper. -/
theorem single_calm {d : SolverData R} {n : Nat} (hd : Fits d n) (hfin : FiniteFlow ρ d n) {isStart : List Bool}
    {ls : List R} (hl : LocalFits d isStart ls)
    (hln : ∀ (v : Nat) (l : R), isStart[v]? = some true → ls[v]? = some l → Num ρ l) {s : List R × List R} (hs : Proper ρ s) {cell : Int}
    (hc : 0 ≤ cell ∧ cell < n) :
    Calm (solveSingleCell d isStart ls s cell) ∧ ∀ t, solveSingleCell d isStart ls s cell = .ok t → Proper ρ t := by
  obtain ⟨v, rfl⟩ := Int.eq_ofNat_of_zero_le hc.1
  have hI := hd.int
  have hv : v < n := by omega
  have hsz : sizeOfInt (v : Int) = v := by rw [sizeOfInt_nonneg (by omega) (by omega)]; simp
  obtain ⟨nb, hnb, _, hw, hin⟩ := hd.row v hv
  have key := visit_flow ρ hd hfin hl hln hs hv hw hin
  constructor
  · unfold solveSingleCell
    simp only [hsz, Res.bind_eq, Res.pure_eq, hnb, Res.ok_bind, rd_of_getElem? hin]
    refine (Calm.rd _ _).bind fun src h1 => (Calm.rd _ _).bind fun start h2 => (calm_upwind _ _ _ _).bind fun up h3 => ?_
    rw [rd_iff] at h1 h2
    refine Calm.bind ?_ fun contrib h4 => ?_
    · unfold withLocalSource
      split
      · simp only [Res.bind_eq, Res.pure_eq]
        exact (Calm.rd _ _).bind fun _ _ => Calm.ok _
      · exact Calm.ok _
    obtain ⟨k1, k2, k3, k4, k5⟩ := key src start up contrib h1 h2 h3 h4
    refine (Calm.assert (le_of_num ρ k1 k2)).bind fun _ _ => (Calm.assert (le_of_num ρ k3 k4.num)).bind fun _ _ => ?_
    refine (cellTracer_fin ρ k1 k2 k3 k4 k5).1.bind fun c _ => ?_
    exact (Calm.wr _ _ _).bind fun _ _ => (Calm.rd _ _).bind fun _ _ => (Calm.wr _ _ _).bind fun _ _ => Calm.ok _
  · intro t ht
    refine ⟨single_bounded ρ hd hl hs.bounded hc ht, ?_⟩
    obtain ⟨p, hp, _, _, rfl⟩ := single_ok_iff.mp ht
    intro c hcm
    rcases List.mem_or_eq_of_mem_set hcm with h | rfl
    · exact hs.fin c h
    unfold cellVals at hp
    simp only [hsz, Res.bind_eq, Res.pure_eq, hnb, Res.ok_bind, rd_of_getElem? hin, Res.bind_ok_iff] at hp
    obtain ⟨src, h1, start, h2, up, h3, contrib, h4, _, _, _, _, c, h5, pv, h6, e⟩ := hp
    cases e
    rw [rd_iff] at h1 h2
    obtain ⟨k1, k2, k3, k4, k5⟩ := key src start up contrib h1 h2 h3 h4
    exact (cellTracer_fin ρ k1 k2 k3 k4 k5).2 c h5

theorem gaussSeidel_calm {d : SolverData R} {n : Nat} (hd : Fits d n) (hfin : FiniteFlow ρ d n) {isStart : List Bool}
    {ls : List R} (hl : LocalFits d isStart ls)
    (hln : ∀ (v : Nat) (l : R), isStart[v]? = some true → ls[v]? = some l → Num ρ l)
    {cells : List Int} (hcs : ∀ c ∈ cells, 0 ≤ c ∧ c < n) (fuel : Nat)
    {s : (List R × List R) × (R × R)} (hs : Proper ρ s.1) :
    Calm (gaussSeidel d isStart ls cells fuel s) ∧ ∀ t, gaussSeidel d isStart ls cells fuel s = .ok t → Proper ρ t := by
  induction fuel generalizing s with
  | zero =>
    unfold gaussSeidel
    split
    · exact ⟨Calm.diverge, fun t h => by cases h⟩
    · exact ⟨Calm.ok _, fun t h => by cases h; exact hs⟩
  | succ k ih =>
    unfold gaussSeidel
    split
    · simp only [Res.bind_eq]
      have hloop := Calm.forEach (xs := cells) (s := (s.1, (Arith.zero, Arith.zero))) (f := sweepCell d isStart ls)
        (fun s' : (List R × List R) × (R × R) => Proper ρ s'.1) hs (by
        intro a c hcm ha
        obtain ⟨h1, h2⟩ := single_calm ρ hd hfin hl hln ha (hcs c hcm)
        constructor
        · unfold sweepCell
          simp only [Res.bind_eq, Res.pure_eq]
          exact (Calm.rd _ _).bind fun _ _ => (Calm.rd _ _).bind fun _ _ => h1.bind fun _ _ => (Calm.rd _ _).bind fun _ _ =>
            (Calm.rd _ _).bind fun _ _ => Calm.ok _
        · intro b hb
          unfold sweepCell at hb
          simp only [Res.bind_eq, Res.pure_eq, Res.bind_ok_iff] at hb
          obtain ⟨_, _, _, _, f, hf, _, _, _, _, e⟩ := hb
          cases e
          exact h2 f hf)
      refine ⟨hloop.1.bind fun a ha => (ih (hloop.2 a ha)).1, ?_⟩
      intro t ht
      obtain ⟨a, ha, ht⟩ := Res.bind_ok_iff.mp ht
      exact (ih (hloop.2 a ha)).2 t ht
    · exact ⟨Calm.ok _, fun t h => by cases h; exact hs⟩

theorem solve_calm {d : SolverData R} {n : Nat} (hd : Fits d n) (hfin : FiniteFlow ρ d n) {isStart : List Bool}
    {ls : List R} (hl : LocalFits d isStart ls)
    (hln : ∀ (v : Nat) (l : R), isStart[v]? = some true → ls[v]? = some l → Num ρ l)
    {sq : List Int} (hsq : ∀ c ∈ sq, 0 ≤ c ∧ c < n) {cst : List Nat} {fuel : Nat}
    {s : List R × List R} (hs : Proper ρ s) :
    Calm (solve d isStart ls sq cst fuel s) ∧ ∀ t, solve d isStart ls sq cst fuel s = .ok t → ∀ c ∈ t.2, Fin ρ c := by
  unfold solve
  simp only [Res.bind_eq, Res.pure_eq]
  have hloop := Calm.forEach (xs := List.range (cst.length - 1)) (s := s) (f := solveComponent d isStart ls sq cst fuel)
    (fun s' : List R × List R => Proper ρ s') hs (by
    intro a c hcm ha
    have hsub : ∀ b' e' cells, readCells sq b' e' = .ok cells → ∀ c ∈ cells, 0 ≤ c ∧ c < (n : Int) := by
      intro b' e' cells hcells
      unfold readCells at hcells
      split at hcells
      · cases hcells
        intro c hc
        exact hsq c (List.mem_of_mem_drop (List.mem_of_mem_take hc))
      · cases hcells
    have hbody : ∀ cells : List Int, (∀ c ∈ cells, 0 ≤ c ∧ c < (n : Int)) →
        Calm (match cells with
          | [cell] => solveSingleCell d isStart ls a cell
          | cells => solveMultiCell d isStart ls fuel a cells) ∧
        ∀ t, (match cells with
          | [cell] => solveSingleCell d isStart ls a cell
          | cells => solveMultiCell d isStart ls fuel a cells) = .ok t → Proper ρ t := by
      intro cells hcells
      split
      · exact single_calm ρ hd hfin hl hln ha (hcells _ (by simp))
      · exact gaussSeidel_calm ρ hd hfin hl hln hcells fuel ha
    constructor
    · unfold solveComponent
      simp only [Res.bind_eq]
      refine (Calm.rd _ _).bind fun e _ => (Calm.rd _ _).bind fun b _ => Calm.bind ?_ fun cells hcells =>
        (hbody cells (hsub _ _ _ hcells)).1
      unfold readCells
      split <;> unfold Calm <;> simp
    · intro t ht
      unfold solveComponent at ht
      simp only [Res.bind_eq, Res.bind_ok_iff] at ht
      obtain ⟨_, _, _, _, cells, hcells, ht⟩ := ht
      exact (hbody cells (hsub _ _ _ hcells)).2 t ht)
  refine ⟨hloop.1.bind fun _ _ => Calm.ok _, ?_⟩
  intro t ht
  obtain ⟨a, ha, e⟩ := Res.bind_ok_iff.mp ht
  cases e
  exact (hloop.2 a ha).fin

/-! ### Whole calls -/

theorem initial_proper (n : Nat) : Proper ρ (List.replicate n (Arith.zero : R), List.replicate n (Arith.zero : R)) := by
  refine ⟨initial_bounded ρ n, ?_⟩
  intro t ht; rw [List.eq_of_mem_replicate ht]; exact ⟨0, val_zero' ρ⟩

theorem global_calm {d : SolverData R} {n : Nat} (hd : Fits d n) (hfin : FiniteFlow ρ d n) (hg : GoodGraph d.g n)
    {fuel : Nat} (hfuel : n + numEdges n d.g.startPointers ≤ fuel) (st : SolverState R) :
    Calm (solveGlobal d Alloc.good fuel st).2 := by
  obtain ⟨comps, ht, horder⟩ := computeOrdering_spec (hg.isGraph hd.int) hg.size Alloc.good_good
  unfold solveGlobal prepareForSolve
  simp only [finish_snd, hd.pvSize, horder fuel hfuel, Res.ok_bind]
  refine Calm.bind ?_ fun b hb => Calm.bind ?_ fun _ _ => Calm.ok _
  · unfold setupStartArrayFromSource
    refine (Calm.forEach (fun _ => True) trivial ?_).1
    intro s x _ _
    refine ⟨?_, fun _ _ => trivial⟩
    simp only [Res.bind_eq, Res.pure_eq]
    refine (Calm.rd _ _).bind fun _ _ => ?_
    split
    · exact Calm.wr _ _ _
    · exact Calm.ok _
  · refine (solve_calm ρ hd hfin (isStart := b) (ls := d.sourceTerm) ?_ ?_ (cellsOf_range fun c hc v hv =>
      (ht.cover v).mp (List.mem_flatten.mpr ⟨c, hc, hv⟩)) (initial_proper ρ n)).1
    · intro v l s hb hl hs
      rw [hl] at hs; cases hs
      exact ⟨hd.source l (List.mem_of_getElem? hl), lt_irrefl ρ l⟩
    · intro v l _ hlv
      have hv : v < n := by
        have := (List.getElem?_eq_some_iff.mp hlv).1
        rw [hd.sourceSize] at this; exact this
      obtain ⟨nb, _, _, hw, hin⟩ := hd.row v hv
      have hin0 : NotNegative ((nb.map fun e => e.2).foldl Arith.add (Arith.zero : R)) := foldl_notNegative ρ (by
        intro x hx
        obtain ⟨e, he, rfl⟩ := List.mem_map.mp hx
        exact hw e he) (zero_notNegative ρ)
      exact (fin_of_add ρ hin0 (hd.source l (List.mem_of_getElem? hlv)) (hfin v hv _ _ hin hlv)).2.num

theorem local_calm {d : SolverData R} {n : Nat} (hd : Fits d n) (hfin : FiniteFlow ρ d n) (hg : GoodGraph d.g n)
    {fuel : Nat} (hfuel : n + numEdges n d.g.startPointers ≤ fuel) {st : SolverState R} {ss : CellSetValues R}
    (hss : ∀ e ∈ ss, 0 ≤ e.1 ∧ e.1 < n) (hnum : ∀ e ∈ ss, Num ρ e.2)
    (hsrc : ∀ e ∈ ss, ∀ s, d.sourceTerm[e.1.toNat]? = some s → NotNegative e.2 ∧ Arith.lt s e.2 = false) :
    Calm (solveLocal d Alloc.good fuel ss st).2 ∧
      ∀ l, (solveLocal d Alloc.good fuel ss st).2 = .ok l → ∀ e ∈ l.concentration, Fin ρ e.2 := by
  have hI := hd.int
  have hcast : (ss.map fun p => p.1) = (ss.map fun p => p.1.toNat).map fun v : Nat => (v : Int) := by
    rw [List.map_map]
    apply List.map_congr_left
    intro e he
    have := hss e he
    simp only [Function.comp]; omega
  have hlt : ∀ p ∈ ss.map fun p => p.1.toNat, p < n := by
    intro p h
    obtain ⟨e, he, rfl⟩ := List.mem_map.mp h
    have := hss e he
    omega
  have hG := hg.isGraph hI
  obtain ⟨comps, ht, horder⟩ := computeLocalOrdering_spec hG hg.size Alloc.good_good _ hlt
  have hc : ∀ c ∈ comps, ∀ v ∈ c, v < n := by
    intro c hc v hv
    obtain ⟨p, hpm, hr⟩ := (ht.cover v).mp (List.mem_flatten.mpr ⟨c, hc, hv⟩)
    exact reachable_lt hG (hlt p hpm) hr
  have hsolve : ∀ b, setupStartArray (List.replicate n false) ss = .ok b →
      (setupLocalSource st.localSource ss).2 = .ok () →
      Calm (solve d b (setupLocalSource st.localSource ss).1 (cellsOf comps) (offsets comps) fuel
        (List.replicate n Arith.zero, List.replicate n Arith.zero)) ∧
      ∀ t, solve d b (setupLocalSource st.localSource ss).1 (cellsOf comps) (offsets comps) fuel
        (List.replicate n Arith.zero, List.replicate n Arith.zero) = .ok t → ∀ c ∈ t.2, Fin ρ c := by
    intro b hb hls
    have hentry : ∀ v x, b[v]? = some true → (setupLocalSource st.localSource ss).1[v]? = some x →
        ∃ e ∈ ss, e.1.toNat = v ∧ e.2 = x := by
      intro v x hbv hx
      rcases setupLocalSource_entries (ls' := (setupLocalSource st.localSource ss).1) (by rw [← hls]) hx with
        ⟨e, he, e1, rfl⟩ | ⟨hno, _⟩
      · have := hss e he
        rw [sizeOfInt_nonneg (by omega) (by omega)] at e1
        exact ⟨e, he, e1, rfl⟩
      · obtain ⟨e, he, e1⟩ := setupStartArray_entries hb hbv
        exact absurd e1 (hno e he)
    refine solve_calm ρ hd hfin ?_ ?_ (cellsOf_range hc) (initial_proper ρ n)
    · intro v x s hbv hx hs
      obtain ⟨e, he, rfl, rfl⟩ := hentry v x hbv hx
      exact hsrc e he s hs
    · intro v x hbv hx
      obtain ⟨e, he, rfl, rfl⟩ := hentry v x hbv hx
      exact hnum e he
  unfold solveLocal prepareForSolve
  simp only [finish_snd, hd.pvSize, hcast, horder fuel hfuel, Res.ok_bind]
  constructor
  · refine Calm.bind ?_ fun b hb => Calm.bind ?_ fun u hls => ?_
    · unfold setupStartArray
      refine (Calm.forEach (fun _ => True) trivial ?_).1
      intro s x _ _
      exact ⟨Calm.wr _ _ _, fun _ _ => trivial⟩
    · generalize st.localSource = ls0
      clear hb hsolve horder hsrc hnum hlt hcast hss ht
      induction ss generalizing ls0 with
      | nil => exact Calm.ok _
      | cons p ps ih =>
        unfold setupLocalSource
        split
        · exact Calm.throw _
        · have := Calm.wr ls0 (sizeOfInt p.1) p.2
          cases hw : wr ls0 (sizeOfInt p.1) p.2 with
          | ok l1 => exact ih l1
          | throw e => exact Calm.throw _
          | ub e =>
            rw [hw] at this
            unfold Calm at *
            simpa using this
          | diverge => exact Calm.diverge
    · refine Calm.bind (hsolve b hb hls).1 fun f hf => Calm.bind ?_ fun _ _ => Calm.bind ?_ fun _ _ => Calm.ok _
      · unfold cleanupLocalSource
        refine (Calm.forEach (fun _ => True) trivial ?_).1
        intro s x _ _
        exact ⟨Calm.wr _ _ _, fun _ _ => trivial⟩
      · unfold collect back
        simp only [Res.bind_eq]
        refine (Calm.rd _ _).bind fun _ _ => Calm.bind ?_ fun _ _ => ?_
        · unfold readCells
          split <;> unfold Calm <;> simp
        · refine (Calm.forEach (fun _ => True) trivial ?_).1
          intro s x _ _
          refine ⟨?_, fun _ _ => trivial⟩
          unfold collectCell
          simp only [Res.bind_eq, Res.pure_eq]
          refine (Calm.rd _ _).bind fun _ _ => (Calm.rd _ _).bind fun _ _ => ?_
          split
          · exact Calm.throw _
          · exact Calm.ok _
  · intro l h
    simp only [Res.bind_ok_iff] at h
    obtain ⟨b, hb, ⟨⟩, hls, f, hf, _, _, r, hr, e⟩ := h
    cases e
    have hB := (hsolve b hb hls).2 f hf
    unfold collect at hr
    simp only [Res.bind_eq, Res.bind_ok_iff] at hr
    obtain ⟨_, _, cells, _, hr⟩ := hr
    refine (forEach_ok (fun s : LocalSolution R => ∀ e ∈ s.concentration, Fin ρ e.2) (by simp) ?_ hr).1
    intro a b' c _ ha hb'
    unfold collectCell at hb'
    simp only [Res.bind_eq, Res.bind_ok_iff] at hb'
    obtain ⟨t, h1, x, h2, h3⟩ := hb'
    rw [rd_iff] at h1 h2
    split at h3
    · cases h3
    · cases h3
      intro e he
      rcases OMap.mem_assign he with rfl | he
      · exact hB x (List.mem_of_getElem? h2)
      · exact ha e he

theorem computeSolution_calm {n : Nat} (hI : n ≤ INT_MAX) {D : List (Int × Int × R)}
    (hD : ∀ c ∈ D, (0 ≤ c.1 ∧ c.1 < n) ∧ (0 ≤ c.2.1 ∧ c.2.1 < n)) (hDn : ∀ c ∈ D, NotNegative c.2.2)
    {pv : List R} (hpv : pv.length = n) (hpvn : ∀ x ∈ pv, NotNegative x) {l : List (CellSetID × Int × R)}
    (hl : ∀ e ∈ l, 0 ≤ e.2.1 ∧ e.2.1 < n) (hln : ∀ e ∈ l, NotNegative e.2.2 ∧ Num ρ e.2.2) {starts : List CellSet}
    (hfin : ∀ v < n, Fin ρ (Arith.add (((rowOfFlow n (swapEnds D) v).map fun e => e.2).foldl Arith.add Arith.zero)
      (((l.filter fun e => decide (e.2.1 = (v : Int))).map fun e => e.2.2).foldl Arith.add Arith.zero)))
    {fuel : Nat} (hfuel : n + numEdges n (graphsOf n D).1.startPointers ≤ fuel) :
    Calm (computeSolution (graphsOf n D).1 (graphsOf n D).2 pv (gather l).only (gather l).byId noFailure fuel starts) ∧
    ∀ sol, computeSolution (graphsOf n D).1 (graphsOf n D).2 pv (gather l).only (gather l).byId noFailure fuel starts = .ok sol →
      ∀ i, ∀ e ∈ sol.concentration i, Fin ρ e.2 := by
  have hG0 := (graphsOf_good hI hD).1
  obtain ⟨d, st, hcr, _, hst⟩ := create_ready hI hG0 (graphsOf_good hI hD).2 hpv (gather_range hl).1
  obtain ⟨hd, hg, hsrc, hval⟩ := create_fits ρ hI hD hDn hpv hpvn hl (fun e he => (hln e he).1) hcr
  have hG : GoodGraph d.g n := hg ▸ hG0
  rw [← hg] at hfuel
  have hflow : FiniteFlow ρ d n := by
    intro v hv a s ha hs
    obtain ⟨e1, e2⟩ := hval v hv
    rw [e1] at ha; rw [e2] at hs
    cases ha; cases hs
    exact hfin v hv
  have hloc : ∀ i (st : SolverState R), Calm (solveLocal d Alloc.good fuel (OMap.at_ (gather l).byId i []) st).2 ∧
      ∀ x, (solveLocal d Alloc.good fuel (OMap.at_ (gather l).byId i []) st).2 = .ok x → ∀ e ∈ x.concentration, Fin ρ e.2 := by
    intro i st
    refine local_calm ρ hd hflow hG hfuel ((gather_range hl).2 i) ?_ ?_
    · intro e he
      exact (hln _ (byId_mem he)).2
    · intro e he v hv
      refine ⟨(hln _ (byId_mem he)).1, ?_⟩
      have hsome := gather_ids_cells l i e he
      obtain ⟨w, hw⟩ := Option.isSome_iff_exists.mp hsome
      have hm := OMap.find_some_mem hw
      have := hsrc _ hm
      simp only at this
      rw [this] at hv; cases hv
      exact (only_ge ρ (fun e he => (hln e he).1) hm).2 i e.2 he
  constructor
  · unfold computeSolution
    simp only [Res.bind_eq, hcr, Res.ok_bind]
    refine Calm.bind (global_calm ρ hd hflow hG hfuel st) fun tof _ => ?_
    generalize ({} : Solution R).assignToF tof = sol
    generalize (solveGlobal d (noFailure 0) fuel st).1 = st'
    generalize 1 = k
    induction starts generalizing k st' sol with
    | nil => exact Calm.ok _
    | cons x xs ih =>
      unfold solveSets
      exact (hloc x.id st').1.bind fun _ _ => ih _ _ _
  · intro sol h i e he
    obtain ⟨d', st', tof, h1, h2, h3, rfl⟩ := (computeSolution_ok_iff (a := Alloc.good)).mp h
    rw [hcr] at h1; cases h1
    obtain ⟨_, r2, _, _, _⟩ := recordAll_spec (okOf d st Alloc.good fuel (gather l).byId) (starts.map CellSet.id)
      ({ tof := tof } : Solution R)
    unfold Solution.concentration Solution.solutionValues at he
    rw [r2] at he
    by_cases hi : i ∈ starts.map CellSet.id
    · rw [if_pos hi] at he
      obtain ⟨s, hs, rfl⟩ := List.mem_map.mp hi
      obtain ⟨x, hx⟩ := h3 s hs
      unfold okOf at he
      rw [hx] at he
      exact (hloc s.id st).2 x hx e he
    · rw [if_neg hi] at he
      simp [OMap.find_nil] at he

end Verif.Rounding
