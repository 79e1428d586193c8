/-
Without overflow, times of flight are numbers, in floating-point arithmetic with gradual underflow.
-/
import Verif.Proofs.RoundingFinite

namespace Verif.Rounding
open Verif.Spec Verif.Solver Verif.Toolbox Verif.Tarjan

variable {R : Type} [Arith R] {K : Type} [Field K] [LinearOrder K] [IsStrictOrderedRing K] (ρ : Rounded R K)

/-- Above zero. -/
def Pos (x : R) : Prop := X.lt (X.fin 0) (ρ.val x) = true

/-- What is needed beyond the order: 200 years are a finite number, and a quotient that is not zero does not vanish when
    multiplied with its divisor. -/
structure Gradual : Prop where
  cap : Fin ρ (capIn R)
  back : ∀ c t : R, Fin ρ c → Pos ρ c → Fin ρ t → Pos ρ t → Pos ρ (Arith.div c t) → Pos ρ (Arith.mul t (Arith.div c t))

theorem Pos.notNegative {x : R} (h : Pos ρ x) : NotNegative x := by
  refine pos_notNegative ρ ?_
  rw [ρ.lt, val_zero']; exact h

/-- A number not below a number above zero. -/
theorem pos_of_ge {x y : R} (hx : Pos ρ x) (hy : Num ρ y) (h : Arith.lt y x = false) : Pos ρ y := by
  unfold Pos Num at *
  rw [ρ.lt] at h
  cases ex : ρ.val x <;> cases ey : ρ.val y <;> rw [ex] at hx h <;> rw [ey] at hy h <;> simp_all [X.lt]
  exact lt_of_lt_of_le hx h

theorem mul_num_of {a b : R} (ha : Num ρ a) (han : NotNegative a) (hb : Num ρ b) (hbn : NotNegative b)
    (h1 : ρ.val a = X.pinf → Pos ρ b) (h2 : ρ.val b = X.pinf → Pos ρ a) : Num ρ (Arith.mul a b) := by
  unfold Num Pos at *
  rw [notNegative_iff ρ] at han hbn
  rw [ρ.mul]
  apply rnd_ne_nan
  cases ea : ρ.val a <;> cases eb : ρ.val b <;> simp_all [X.lt, X.mul, X.infSign]

theorem add_num_of {a b : R} (ha : Num ρ a) (han : NotNegative a) (hb : Num ρ b) (hbn : NotNegative b) :
    Num ρ (Arith.add a b) := by
  unfold Num at *
  rw [notNegative_iff ρ] at han hbn
  rw [ρ.add]
  apply rnd_ne_nan
  cases ea : ρ.val a <;> cases eb : ρ.val b <;> simp_all [X.lt, X.add]

theorem div_num_of {a b : R} (ha : Num ρ a) (hb : Fin ρ b) (hbp : Pos ρ b) : Num ρ (Arith.div a b) := by
  obtain ⟨k, hk⟩ := hb
  unfold Num Pos at *
  rw [hk] at hbp
  simp only [X.lt, decide_eq_true_eq] at hbp
  rw [ρ.div _ _ (by rw [hk]; simpa using hbp.ne'), hk]
  apply rnd_ne_nan
  cases ea : ρ.val a <;> simp_all [X.div, hbp.ne', not_lt.mpr hbp.le]
  · split <;> simp
  · split <;> simp

/-- Times of flight are numbers, and infinite only where there is tracer. -/
def Timed (s : List R × List R) : Prop :=
  ∀ (v : Nat) (t c : R), s.1[v]? = some t → s.2[v]? = some c → Num ρ t ∧ (ρ.val t = X.pinf → Pos ρ c)

theorem upwind_num {tof tracer : List R} (hb : Proper ρ (tof, tracer)) (ht : Timed ρ (tof, tracer)) {nb : List (Int × R)}
    (hw : ∀ e ∈ nb, Fin ρ e.2 ∧ Pos ρ e.2) {a : R × R} (ha : Num ρ a.1) (han : NotNegative a.1) {up : R × R}
    (h : forEach nb a (addUpwind tof tracer) = .ok up) : Num ρ up.1 := by
  refine (forEach_ok (fun s : R × R => Num ρ s.1 ∧ NotNegative s.1) ⟨ha, han⟩ ?_ h).1.1
  intro s s' e he ⟨hs1, hs2⟩ hs'
  unfold addUpwind at hs'
  simp only [Res.bind_eq, Res.pure_eq, Res.bind_ok_iff] at hs'
  obtain ⟨t, h1, c, h2, e2⟩ := hs'
  cases e2
  rw [rd_iff] at h1 h2
  obtain ⟨w1, w2⟩ := hw e he
  obtain ⟨t1, t2⟩ := ht _ t c h1 h2
  have tn := hb.bounded.tof t (List.mem_of_getElem? h1)
  have cm := List.mem_of_getElem? h2
  have cn := hb.bounded.nonneg c cm
  have hcf := hb.fin c cm
  have hp : Num ρ (Arith.mul t c) := mul_num_of ρ t1 tn hcf.num cn t2 (by
    intro hc; obtain ⟨k, hk⟩ := hcf; rw [hk] at hc; cases hc)
  have hpn := mul_notNegative ρ tn cn
  have hm : Num ρ (Arith.mul (Arith.mul t c) e.2) := mul_num_of ρ hp hpn w1.num w2.notNegative (fun _ => w2) (by
    intro hc; obtain ⟨k, hk⟩ := w1; rw [hk] at hc; cases hc)
  have hmn := mul_notNegative ρ hpn w2.notNegative
  exact ⟨add_num_of ρ hs1 hs2 hm hmn, add_notNegative ρ hs2 hmn⟩

/-- The time of flight a visit stores. -/
theorem cellTof_num (hG : Gradual ρ) {pv total contrib c upTof : R} (hpv : Num ρ pv) (hpvn : NotNegative pv)
    (h1 : NotNegative total) (h2 : Num ρ total) (h3 : NotNegative contrib) (h4 : Fin ρ contrib)
    (h5 : Arith.lt total contrib = false) (hc : cellTracer total contrib = .ok c) (hu : Num ρ upTof) (hun : NotNegative upTof) :
    Num ρ (cellTof pv total c upTof) ∧ (ρ.val (cellTof pv total c upTof) = X.pinf → Pos ρ c) := by
  have hcap : Num ρ (maxTof : R) ∧ (ρ.val (maxTof : R) = X.pinf → Pos ρ c) := by
    refine ⟨hG.cap.num, fun h => ?_⟩
    obtain ⟨k, hk⟩ := hG.cap
    rw [maxTof_eq_capIn, hk] at h; cases h
  have hcf := (cellTracer_fin ρ h1 h2 h3 h4 h5).2 c hc
  unfold cellTof
  simp only
  split
  · exact hcap
  split
  swap
  · exact hcap
  rename_i hpos
  have hcp : Pos ρ c := by rw [ρ.lt, val_zero'] at hpos; exact hpos
  have hcn := hcp.notNegative
  -- the tracer value is a quotient
  unfold cellTracer at hc
  split at hc
  · simp only [Res.bind_eq, Res.pure_eq, Res.bind_ok_iff] at hc
    obtain ⟨_, _, e⟩ := hc
    cases e
    rw [lt_irrefl ρ] at hpos; cases hpos
  rename_i hne
  have hne : Arith.eq total Arith.zero = false := by simpa using hne
  simp only [Res.ok.injEq] at hc
  have hne' := ne_zero ρ hne
  -- the total is finite
  have htf : Fin ρ total := by
    obtain ⟨k, hk⟩ := h4
    rw [notNegative_iff ρ] at h1
    unfold Num at h2
    cases et : ρ.val total with
    | fin x => exact ⟨x, et⟩
    | pinf =>
      exfalso
      unfold Pos at hcp
      rw [← hc, ρ.div _ _ hne', hk, et] at hcp
      simp only [X.div] at hcp
      rw [ρ.rnd_zero] at hcp
      simp [X.lt] at hcp
    | ninf => rw [et] at h1; simp [X.lt] at h1
    | nan => exact absurd et h2
  have htp : Pos ρ total := by
    obtain ⟨k, hk⟩ := htf
    rw [notNegative_iff ρ] at h1
    unfold Pos
    rw [hk] at h1 hne' ⊢
    simp only [X.lt, decide_eq_false_iff_not, not_lt, ne_eq, X.fin.injEq, decide_eq_true_eq] at *
    exact lt_of_le_of_ne h1 (Ne.symm hne')
  have hconp : Pos ρ contrib := by
    obtain ⟨k, hk⟩ := h4
    rw [notNegative_iff ρ] at h3
    unfold Pos at *
    by_contra hno
    rw [hk] at h3 hno
    simp only [X.lt, decide_eq_false_iff_not, not_lt, decide_eq_true_eq] at h3 hno
    have : k = 0 := le_antisymm hno h3
    obtain ⟨x, hx⟩ := htf
    rw [← hc, ρ.div _ _ hne', hk, this, hx] at hcp
    have hx0 : x ≠ 0 := by rw [hx] at hne'; simpa using hne'
    simp only [X.div, hx0, if_false, zero_div] at hcp
    rw [ρ.rnd_zero] at hcp
    simp [X.lt] at hcp
  have hden : Pos ρ (Arith.mul total c) := by
    rw [← hc] at hcp ⊢
    exact hG.back contrib total h4 hconp htf htp hcp
  have hle : Arith.lt (Arith.lit 1) c = false := by rw [← hc]; exact div_le_one ρ h5 h1 hne
  have hdenf : Fin ρ (Arith.mul total c) := by
    have hm := mul_le ρ hle h1
    refine fin_of_le ρ (mul_notNegative ρ h1 hcn) ?_ htf (mul_num ρ htf hcf)
    rw [ρ.lt, ρ.mul] at hm ⊢
    have hcomm : X.mul (ρ.val total) (ρ.val c) = X.mul (ρ.val c) (ρ.val total) := by
      obtain ⟨k, hk⟩ := htf
      obtain ⟨l, hl⟩ := hcf
      rw [hk, hl]; simp [X.mul, mul_comm]
    rw [hcomm]; exact hm
  have hnum : Num ρ (Arith.mul pv c) := mul_num_of ρ hpv hpvn hcf.num hcn (fun _ => hcp) (by
    intro h; obtain ⟨k, hk⟩ := hcf; rw [hk] at h; cases h)
  exact ⟨div_num_of ρ (add_num_of ρ hnum (mul_notNegative ρ hpvn hcn) hu hun) hdenf hden, fun _ => hcp⟩

/-- Proper values, with times of flight that are numbers. -/
def Sound (s : List R × List R) : Prop := Proper ρ s ∧ Timed ρ s ∧ s.1.length = s.2.length

/-- Fluxes are sums with a term above zero. -/
def PositiveRows (d : SolverData R) (n : Nat) : Prop :=
  ∀ v < n, ∀ nb, d.gReverse.cellNeighbourhood (v : Int) = .ok nb → ∀ e ∈ nb, ∃ x, Pos ρ x ∧ Arith.lt e.2 x = false

theorem single_sound (hG : Gradual ρ) {d : SolverData R} {n : Nat} (hd : Fits d n) (hfin : FiniteFlow ρ d n)
    (hrows : PositiveRows ρ d n) (hpv : ∀ x ∈ d.pv, Num ρ x) {isStart : List Bool}
    {ls : List R} (hl : LocalFits d isStart ls)
    (hln : ∀ (v : Nat) (l : R), isStart[v]? = some true → ls[v]? = some l → Num ρ l) {s t : List R × List R} (hs : Sound ρ s)
    {cell : Int} (hc : 0 ≤ cell ∧ cell < n) (ht : solveSingleCell d isStart ls s cell = .ok t) : Sound ρ t := by
  refine ⟨(single_calm ρ hd hfin hl hln hs.1 hc).2 t ht, ?_⟩
  obtain ⟨v, rfl⟩ := Int.eq_ofNat_of_zero_le hc.1
  have hI := hd.int
  have hv : v < n := by omega
  have hsz : sizeOfInt (v : Int) = v := by rw [sizeOfInt_nonneg (by omega) (by omega)]; simp
  obtain ⟨nb, hnb, _, hw, hin⟩ := hd.row v hv
  have key := visit_flow ρ hd hfin hl hln hs.1 hv hw hin
  obtain ⟨p, hp, _, _, rfl⟩ := single_ok_iff.mp ht
  rw [hsz]
  refine ⟨?_, by simpa using hs.2.2⟩
  have hpt : Num ρ p.1 ∧ (ρ.val p.1 = X.pinf → Pos ρ p.2) := by
    unfold cellVals at hp
    simp only [hsz, Res.bind_eq, Res.pure_eq, hnb, Res.ok_bind, rd_of_getElem? hin, Res.bind_ok_iff] at hp
    obtain ⟨src, h1, start, h2, up, h3, contrib, h4, _, _, _, _, c, h5, pv, h6, e⟩ := hp
    cases e
    rw [rd_iff] at h1 h2 h6
    obtain ⟨k1, k2, k3, k4, k5⟩ := key src start up contrib h1 h2 h3 h4
    have hall : ∀ x ∈ nb.map fun e => e.2, NotNegative x := by
      intro x hx
      obtain ⟨e, he, rfl⟩ := List.mem_map.mp hx
      exact hw e he
    have hinf : NotNegative ((nb.map fun e => e.2).foldl Arith.add (Arith.zero : R)) :=
      foldl_notNegative ρ hall (zero_notNegative ρ)
    have hsrc := hd.source src (List.mem_of_getElem? h1)
    have f1 := (fin_of_add ρ hinf hsrc (hfin v hv _ _ hin h1)).1
    have f2 := (fin_of_foldl ρ hall (zero_notNegative ρ) f1).2
    have hwp : ∀ e ∈ nb, Fin ρ e.2 ∧ Pos ρ e.2 := by
      intro e he
      have hf := f2 e.2 (List.mem_map.mpr ⟨e, he, rfl⟩)
      obtain ⟨x, hx, hle⟩ := hrows v hv nb hnb e he
      exact ⟨hf, pos_of_ge ρ hx hf.num hle⟩
    have hzero : Fin ρ (Arith.zero : R) := ⟨0, val_zero' ρ⟩
    have hu := upwind_num ρ hs.1 hs.2.1 hwp hzero.num (zero_notNegative ρ) h3
    have hun := (upwind_bounds ρ hs.1.bounded hw (zero_notNegative ρ) (zero_notNegative ρ) (lt_irrefl ρ Arith.zero) h3).1
    exact cellTof_num ρ hG (hpv pv (List.mem_of_getElem? h6)) (hd.pv pv (List.mem_of_getElem? h6)) k1 k2 k3 k4 k5 h5 hu hun
  intro u t c ht hc
  simp only at ht hc
  by_cases e : v = u
  · subst e
    rw [List.getElem?_set] at ht hc
    simp only [if_true] at ht hc
    split at ht
    · split at hc
      · cases ht; cases hc; exact hpt
      · cases hc
    · cases ht
  · rw [List.getElem?_set_ne e] at ht hc
    exact hs.2.1 u t c ht hc

theorem gaussSeidel_sound (hG : Gradual ρ) {d : SolverData R} {n : Nat} (hd : Fits d n) (hfin : FiniteFlow ρ d n)
    (hrows : PositiveRows ρ d n) (hpv : ∀ x ∈ d.pv, Num ρ x) {isStart : List Bool}
    {ls : List R} (hl : LocalFits d isStart ls)
    (hln : ∀ (v : Nat) (l : R), isStart[v]? = some true → ls[v]? = some l → Num ρ l)
    {cells : List Int} (hcs : ∀ c ∈ cells, 0 ≤ c ∧ c < n) (fuel : Nat)
    {s : (List R × List R) × (R × R)} {t : List R × List R} (hs : Sound ρ s.1)
    (h : gaussSeidel d isStart ls cells fuel s = .ok t) : Sound ρ t := by
  induction fuel generalizing s with
  | zero =>
    unfold gaussSeidel at h
    split at h
    · cases h
    · cases h; exact hs
  | succ k ih =>
    unfold gaussSeidel at h
    split at h
    · simp only [Res.bind_eq, Res.bind_ok_iff] at h
      obtain ⟨s', h1, h2⟩ := h
      refine ih ?_ h2
      refine (forEach_ok (s := (s.1, Arith.zero, Arith.zero)) (fun s' : (List R × List R) × (R × R) => Sound ρ s'.1) hs ?_ h1).1
      intro a b c hcm ha hb
      unfold sweepCell at hb
      simp only [Res.bind_eq, Res.pure_eq, Res.bind_ok_iff] at hb
      obtain ⟨_, _, _, _, f, hf, _, _, _, _, e⟩ := hb
      cases e
      exact single_sound ρ hG hd hfin hrows hpv hl hln ha (hcs c hcm) hf
    · cases h; exact hs

theorem solve_num (hG : Gradual ρ) {d : SolverData R} {n : Nat} (hd : Fits d n) (hfin : FiniteFlow ρ d n)
    (hrows : PositiveRows ρ d n) (hpv : ∀ x ∈ d.pv, Num ρ x) {isStart : List Bool}
    {ls : List R} (hl : LocalFits d isStart ls)
    (hln : ∀ (v : Nat) (l : R), isStart[v]? = some true → ls[v]? = some l → Num ρ l)
    {sq : List Int} (hsq : ∀ c ∈ sq, 0 ≤ c ∧ c < n) {cst : List Nat} {fuel : Nat}
    {s t : List R × List R} (hs : Sound ρ s)
    (h : solve d isStart ls sq cst fuel s = .ok t) : ∀ x ∈ t.1, Num ρ x := by
  unfold solve at h
  simp only [Res.bind_eq, Res.pure_eq, Res.bind_ok_iff] at h
  obtain ⟨s', h1, h2⟩ := h
  cases h2
  obtain ⟨this, _⟩ := forEach_ok (fun s' : List R × List R => Sound ρ s') hs (by
    intro a b c _ ha hb
    unfold solveComponent at hb
    simp only [Res.bind_eq, Res.bind_ok_iff] at hb
    obtain ⟨e, _, b', _, cells, hcells, hb⟩ := hb
    have hsub : ∀ c ∈ cells, 0 ≤ c ∧ c < (n : Int) := by
      unfold readCells at hcells
      split at hcells
      · cases hcells
        intro c hc
        exact hsq c (List.mem_of_mem_drop (List.mem_of_mem_take hc))
      · cases hcells
    split at hb
    · exact single_sound ρ hG hd hfin hrows hpv hl hln ha (hsub _ (by simp)) hb
    · exact gaussSeidel_sound ρ hG hd hfin hrows hpv hl hln hsub fuel ha hb) h1
  intro x hx
  obtain ⟨y, hy, rfl⟩ := List.mem_map.mp hx
  obtain ⟨v, hv⟩ := List.getElem?_of_mem hy
  have hlt := (List.getElem?_eq_some_iff.mp hv).1
  have hlen := this.2.2
  have := (this.2.1 v y (s'.2[v]'(by omega)) hv (by simp)).1
  unfold Arith.min
  split
  · exact hG.cap.num
  · exact this

/-! ### Whole calls -/

theorem initial_sound (n : Nat) : Sound ρ (List.replicate n (Arith.zero : R), List.replicate n (Arith.zero : R)) := by
  refine ⟨initial_proper ρ n, ?_, by simp⟩
  intro v t c ht _
  rw [List.eq_of_mem_replicate (List.mem_of_getElem? ht)]
  unfold Num
  rw [val_zero' ρ]
  simp

theorem source_num {d : SolverData R} {n : Nat} (hd : Fits d n) (hfin : FiniteFlow ρ d n) {v : Nat} {l : R}
    (hlv : d.sourceTerm[v]? = some l) : Num ρ l := by
  have hv : v < n := by
    have := (List.getElem?_eq_some_iff.mp hlv).1
    rw [hd.sourceSize] at this; exact this
  obtain ⟨nb, _, _, hw, hin⟩ := hd.row v hv
  have hin0 : NotNegative ((nb.map fun e => e.2).foldl Arith.add (Arith.zero : R)) := foldl_notNegative ρ (by
    intro x hx
    obtain ⟨e, he, rfl⟩ := List.mem_map.mp hx
    exact hw e he) (zero_notNegative ρ)
  exact (fin_of_add ρ hin0 (hd.source l (List.mem_of_getElem? hlv)) (hfin v hv _ _ hin hlv)).2.num

theorem global_num (hG : Gradual ρ) {d : SolverData R} {n : Nat} (hd : Fits d n) (hfin : FiniteFlow ρ d n)
    (hrows : PositiveRows ρ d n) (hpv : ∀ x ∈ d.pv, Num ρ x) (hg : GoodGraph d.g n) {fuel : Nat}
    (hfuel : n + numEdges n d.g.startPointers ≤ fuel) {st : SolverState R} {tof : List R}
    (h : (solveGlobal d Alloc.good fuel st).2 = .ok tof) : ∀ t ∈ tof, Num ρ t := by
  obtain ⟨comps, ht, horder⟩ := computeOrdering_spec (hg.isGraph hd.int) hg.size Alloc.good_good
  unfold solveGlobal prepareForSolve at h
  simp only [finish_snd, hd.pvSize, Res.bind_ok_iff] at h
  obtain ⟨b, _, o, ho, f, hf, e⟩ := h
  cases e
  rw [horder fuel hfuel] at ho
  cases ho
  exact solve_num ρ hG hd hfin hrows hpv (isStart := b) (ls := d.sourceTerm) (by
    intro v l s hb hl hs
    rw [hl] at hs; cases hs
    exact ⟨hd.source l (List.mem_of_getElem? hl), lt_irrefl ρ l⟩) (fun v l _ hlv => source_num ρ hd hfin hlv)
    (cellsOf_range fun c hc v hv => (ht.cover v).mp (List.mem_flatten.mpr ⟨c, hc, hv⟩)) (initial_sound ρ n) hf

theorem local_num (hG : Gradual ρ) {d : SolverData R} {n : Nat} (hd : Fits d n) (hfin : FiniteFlow ρ d n)
    (hrows : PositiveRows ρ d n) (hpv : ∀ x ∈ d.pv, Num ρ x) (hg : GoodGraph d.g n) {fuel : Nat}
    (hfuel : n + numEdges n d.g.startPointers ≤ fuel) {st : SolverState R} {ss : CellSetValues R}
    (hss : ∀ e ∈ ss, 0 ≤ e.1 ∧ e.1 < n) (hnum : ∀ e ∈ ss, Num ρ e.2)
    (hsrc : ∀ e ∈ ss, ∀ s, d.sourceTerm[e.1.toNat]? = some s → NotNegative e.2 ∧ Arith.lt s e.2 = false)
    {l : LocalSolution R} (h : (solveLocal d Alloc.good fuel ss st).2 = .ok l) : ∀ e ∈ l.tof, Num ρ e.2 := by
  have hI := hd.int
  have hcast : (ss.map fun p => p.1) = (ss.map fun p => p.1.toNat).map fun v : Nat => (v : Int) := by
    rw [List.map_map]
    apply List.map_congr_left
    intro e he
    have := hss e he
    simp only [Function.comp]; omega
  have hlt : ∀ p ∈ ss.map fun p => p.1.toNat, p < n := by
    intro p h
    obtain ⟨e, he, rfl⟩ := List.mem_map.mp h
    have := hss e he
    omega
  have hGr := hg.isGraph hI
  obtain ⟨comps, ht, horder⟩ := computeLocalOrdering_spec hGr hg.size Alloc.good_good _ hlt
  unfold solveLocal prepareForSolve at h
  simp only [finish_snd, hd.pvSize, Res.bind_ok_iff, hcast] at h
  obtain ⟨b, hb, o, ho, ⟨⟩, hls, f, hf, _, _, r, hr, e⟩ := h
  cases e
  rw [horder fuel hfuel] at ho
  cases ho
  have hc : ∀ c ∈ comps, ∀ v ∈ c, v < n := by
    intro c hc v hv
    obtain ⟨p, hpm, hr⟩ := (ht.cover v).mp (List.mem_flatten.mpr ⟨c, hc, hv⟩)
    exact reachable_lt hGr (hlt p hpm) hr
  have hentry : ∀ v x, b[v]? = some true → (setupLocalSource st.localSource ss).1[v]? = some x →
      ∃ e ∈ ss, e.1.toNat = v ∧ e.2 = x := by
    intro v x hbv hx
    rcases setupLocalSource_entries (ls' := (setupLocalSource st.localSource ss).1) (by rw [← hls]) hx with
      ⟨e, he, e1, rfl⟩ | ⟨hno, _⟩
    · have := hss e he
      rw [sizeOfInt_nonneg (by omega) (by omega)] at e1
      exact ⟨e, he, e1, rfl⟩
    · obtain ⟨e, he, e1⟩ := setupStartArray_entries hb hbv
      exact absurd e1 (hno e he)
  have hB := solve_num ρ hG hd hfin hrows hpv (isStart := b) (by
    intro v x s hbv hx hs
    obtain ⟨e, he, rfl, rfl⟩ := hentry v x hbv hx
    exact hsrc e he s hs) (by
    intro v x hbv hx
    obtain ⟨e, he, rfl, rfl⟩ := hentry v x hbv hx
    exact hnum e he) (cellsOf_range hc) (initial_sound ρ n) hf
  unfold collect at hr
  simp only [Res.bind_eq, Res.bind_ok_iff] at hr
  obtain ⟨_, _, cells, _, hr⟩ := hr
  refine (forEach_ok (fun s : LocalSolution R => ∀ e ∈ s.tof, Num ρ e.2) (by simp) ?_ hr).1
  intro a b' c _ ha hb'
  unfold collectCell at hb'
  simp only [Res.bind_eq, Res.bind_ok_iff] at hb'
  obtain ⟨t, h1, x, h2, h3⟩ := hb'
  rw [rd_iff] at h1 h2
  split at h3
  · cases h3
  · cases h3
    intro e he
    rcases OMap.mem_assign he with rfl | he
    · exact hB t (List.mem_of_getElem? h1)
    · exact ha e he

theorem rowOfFlow_pos {n : Nat} {D : List (Int × Int × R)} (h : ∀ c ∈ D, Pos ρ c.2.2) (u : Nat) :
    ∀ e ∈ rowOfFlow n D u, ∃ x, Pos ρ x ∧ Arith.lt e.2 x = false := by
  intro e he
  unfold rowOfFlow at he
  obtain ⟨v, hv, rfl⟩ := List.mem_map.mp he
  obtain ⟨w, hw⟩ := joins_iff.mp (List.mem_filter.mp hv).2
  refine ⟨w, h _ hw, ?_⟩
  unfold flowOf weightsOf
  refine le_foldl ρ ?_ (Or.inl (List.mem_map.mpr ⟨_, List.mem_filter.mpr ⟨hw, by simp⟩, rfl⟩)) (zero_notNegative ρ)
  intro x hx
  obtain ⟨c, hc, rfl⟩ := List.mem_map.mp hx
  exact (h c (List.mem_filter.mp hc).1).notNegative

theorem swapEnds_pos {D : List (Int × Int × R)} (h : ∀ c ∈ D, Pos ρ c.2.2) :
    ∀ c ∈ swapEnds D, Pos ρ c.2.2 := fun c hc => h (c.2.1, c.1, c.2.2) (mem_swapEnds hc)

theorem directed_pos {cs : List (Nat × Nat)} {x : Nat → R} : ∀ c ∈ directed cs x, Pos ρ c.2.2 := by
  intro c hc
  unfold directed at hc
  obtain ⟨l, hl, hcl⟩ := List.mem_flatten.mp hc
  obtain ⟨⟨e, i⟩, he, rfl⟩ := List.mem_map.mp hl
  simp only at hcl
  unfold orient at hcl
  split at hcl
  · rename_i h
    rw [List.mem_singleton.mp hcl]
    rw [ρ.lt, val_zero'] at h; exact h
  · split at hcl
    · rename_i h
      rw [List.mem_singleton.mp hcl]
      rw [ρ.lt, val_zero'] at h
      unfold Pos
      simp only
      rw [ρ.neg]
      cases hx : ρ.val (x i) <;> rw [hx] at h <;> simp_all [X.lt, X.neg]
    · simp at hcl

/-- Times of flight of a solution are numbers. -/
theorem computeSolution_num (hGr : Gradual ρ) {n : Nat} (hI : n ≤ INT_MAX) {D : List (Int × Int × R)}
    (hD : ∀ c ∈ D, (0 ≤ c.1 ∧ c.1 < n) ∧ (0 ≤ c.2.1 ∧ c.2.1 < n)) (hDp : ∀ c ∈ D, Pos ρ c.2.2)
    {pv : List R} (hpv : pv.length = n) (hpvn : ∀ x ∈ pv, NotNegative x) (hpvnum : ∀ x ∈ pv, Num ρ x)
    {l : List (CellSetID × Int × R)}
    (hl : ∀ e ∈ l, 0 ≤ e.2.1 ∧ e.2.1 < n) (hln : ∀ e ∈ l, NotNegative e.2.2 ∧ Num ρ e.2.2) {starts : List CellSet}
    (hfin : ∀ v < n, Fin ρ (Arith.add (((rowOfFlow n (swapEnds D) v).map fun e => e.2).foldl Arith.add Arith.zero)
      (((l.filter fun e => decide (e.2.1 = (v : Int))).map fun e => e.2.2).foldl Arith.add Arith.zero)))
    {fuel : Nat} (hfuel : n + numEdges n (graphsOf n D).1.startPointers ≤ fuel) {sol : Solution R}
    (h : computeSolution (graphsOf n D).1 (graphsOf n D).2 pv (gather l).only (gather l).byId noFailure fuel starts = .ok sol) :
    (∀ t ∈ sol.timeOfFlight, Num ρ t) ∧ ∀ i, ∀ e ∈ sol.timeOfFlightOf i, Num ρ e.2 := by
  have hDn : ∀ c ∈ D, NotNegative c.2.2 := fun c hc => (hDp c hc).notNegative
  obtain ⟨d, st, tof, h1, h2, h3, rfl⟩ := (computeSolution_ok_iff (a := Alloc.good)).mp h
  obtain ⟨hd, hg, hsrc, hval⟩ := create_fits ρ hI hD hDn hpv hpvn hl (fun e he => (hln e he).1) h1
  have hG : GoodGraph d.g n := hg ▸ (graphsOf_good hI hD).1
  rw [← hg] at hfuel
  have hdpv : d.pv = pv ∧ d.gReverse = (graphsOf n D).2 := by
    unfold Solver.create at h1
    simp only [Res.bind_eq, Res.pure_eq, Res.bind_ok_iff] at h1
    obtain ⟨_, _, _, _, e⟩ := h1
    cases e
    exact ⟨rfl, rfl⟩
  have hflow : FiniteFlow ρ d n := by
    intro v hv a s ha hs
    obtain ⟨e1, e2⟩ := hval v hv
    rw [e1] at ha; rw [e2] at hs
    cases ha; cases hs
    exact hfin v hv
  have hrows : PositiveRows ρ d n := by
    intro v hv nb hnb
    rw [hdpv.2, (graphsOf_rows hI hD).2 v hv] at hnb
    cases hnb
    exact rowOfFlow_pos ρ (swapEnds_pos ρ hDp) v
  have hnum : ∀ x ∈ d.pv, Num ρ x := by rw [hdpv.1]; exact hpvnum
  have hloc : ∀ i, (∃ s ∈ starts, s.id = i) → ∀ e ∈ (okOf d st Alloc.good fuel (gather l).byId i).tof, Num ρ e.2 := by
    rintro i ⟨s, hs, rfl⟩
    obtain ⟨x, hx⟩ := h3 s hs
    unfold okOf
    rw [hx]
    refine local_num ρ hGr hd hflow hrows hnum hG hfuel ((gather_range hl).2 s.id) ?_ ?_ hx
    · intro e he
      exact (hln _ (byId_mem he)).2
    · intro e he v hv
      refine ⟨(hln _ (byId_mem he)).1, ?_⟩
      have hsome := gather_ids_cells l s.id e he
      obtain ⟨w, hw⟩ := Option.isSome_iff_exists.mp hsome
      have hm := OMap.find_some_mem hw
      have := hsrc _ hm
      simp only at this
      rw [this] at hv; cases hv
      exact (only_ge ρ (fun e he => (hln e he).1) hm).2 s.id e.2 he
  obtain ⟨r1, _, r3, _, _⟩ := recordAll_spec (okOf d st Alloc.good fuel (gather l).byId) (starts.map CellSet.id)
    ({ tof := tof } : Solution R)
  constructor
  · intro t ht
    unfold Solution.timeOfFlight at ht
    rw [r1] at ht
    exact global_num ρ hGr hd hflow hrows hnum hG hfuel h2 t ht
  · intro i e he
    unfold Solution.timeOfFlightOf Solution.solutionValues at he
    rw [r3] at he
    by_cases hi : i ∈ starts.map CellSet.id
    · rw [if_pos hi] at he
      exact hloc i (by simpa [List.mem_map] using hi) e he
    · rw [if_neg hi] at he
      simp [OMap.find_nil] at he

end Verif.Rounding
