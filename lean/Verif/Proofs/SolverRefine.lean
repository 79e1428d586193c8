/-
The solver on finite values computes what `SolverK` describes.
-/
import Verif.Model.TracerTofSolver
import Verif.Spec.FlowData
import Verif.Proofs.SolverK
import Verif.Proofs.Res
import Mathlib.Data.Rat.Cast.Order
import Mathlib.Tactic.NormNum

namespace Verif.Solver
open Finset Verif.Spec

variable {K : Type} [Field K] [LinearOrder K]

theorem arr_length (n : Nat) (f : Nat → K) : (arr n f).length = n := by simp [arr]

theorem arr_getElem? {n i : Nat} (f : Nat → K) (h : i < n) : (arr n f)[i]? = some (X.fin (f i)) := by
  simp [arr, h]

theorem rd_arr {n i : Nat} (f : Nat → K) (h : i < n) : rd (arr n f) i = .ok (X.fin (f i)) :=
  rd_of_getElem? (arr_getElem? f h)

theorem arr_set {n i : Nat} (f : Nat → K) (x : K) : (arr n f).set i (X.fin x) = arr n (Function.update f i x) := by
  apply List.ext_getElem?
  intro j
  by_cases hj : j < n
  · rw [arr_getElem? _ hj]
    by_cases e : i = j
    · subst e; rw [List.getElem?_set_self (by rw [arr_length]; exact hj)]; simp
    · rw [List.getElem?_set_ne e, arr_getElem? _ hj]; simp [Function.update, Ne.symm e]
  · rw [List.getElem?_eq_none (by simp [arr]; omega), List.getElem?_eq_none (by simp [arr]; omega)]

theorem wr_arr {n i : Nat} (f : Nat → K) (x : K) (h : i < n) :
    wr (arr n f) i (X.fin x) = .ok (arr n (Function.update f i x)) := by
  rw [wr_ok (by rw [arr_length]; exact h), arr_set]

theorem arr_congr {n : Nat} {f g : Nat → K} (h : ∀ i < n, f i = g i) : arr n f = arr n g := by
  unfold arr
  apply List.map_congr_left
  intro i hi
  rw [h i (List.mem_range.mp hi)]

theorem arr_inj {n : Nat} {f g : Nat → K} (h : arr n f = arr n g) : ∀ i < n, f i = g i := by
  intro i hi
  have := congrArg (fun l => l[i]?) h
  simp only [arr_getElem? _ hi, Option.some.injEq, X.fin.injEq] at this
  exact this

section arith
theorem X_add (a b : K) : Arith.add (X.fin a) (X.fin b) = X.fin (a + b) := rfl
theorem X_sub (a b : K) : Arith.sub (X.fin a) (X.fin b) = X.fin (a - b) := by
  show X.add (X.fin a) (X.fin (-b)) = _; simp [X.add, sub_eq_add_neg]
theorem X_mul (a b : K) : Arith.mul (X.fin a) (X.fin b) = X.fin (a * b) := rfl
theorem X_div {a b : K} (h : b ≠ 0) : Arith.div (X.fin a) (X.fin b) = X.fin (a / b) := by
  show X.div _ _ = _; simp [X.div, h]
theorem X_lt (a b : K) : Arith.lt (X.fin a) (X.fin b) = decide (a < b) := rfl
theorem X_eq (a b : K) : Arith.eq (X.fin a) (X.fin b) = decide (a = b) := rfl
theorem X_zero : (Arith.zero : X K) = X.fin 0 := by
  show X.fin ((0 : ℚ) : K) = _; rw [Rat.cast_zero]
theorem X_one : (Arith.lit 1 : X K) = X.fin 1 := by
  show X.fin ((1 : ℚ) : K) = _; rw [Rat.cast_one]
theorem X_add_inf (a : K) : Arith.add (X.fin a) (Arith.inf) = (X.pinf : X K) := rfl
theorem X_le (a b : K) : Arith.le (X.fin a) (X.fin b) = decide (a ≤ b) := by
  show (X.lt _ _ || X.eq _ _) = _
  simp only [X.lt, X.eq]
  rw [← Bool.decide_or]
  simp [le_iff_lt_or_eq]
theorem X_max (a b : K) : Arith.max (X.fin a) (X.fin b) = X.fin (max a b) := by
  unfold Arith.max; rw [X_lt]
  by_cases h : a < b
  · simp [h, max_eq_right h.le]
  · simp [h, max_eq_left (not_lt.mp h)]
theorem X_min (a b : K) : Arith.min (X.fin a) (X.fin b) = X.fin (min a b) := by
  unfold Arith.min; rw [X_lt]
  by_cases h : b < a
  · simp [h, min_eq_right h.le]
  · simp [h, min_eq_left (not_lt.mp h)]
end arith

variable [IsStrictOrderedRing K]

theorem X_abs (a : K) : Arith.fabs (X.fin a) = X.fin |a| := by
  show X.fabs _ = _
  unfold X.fabs
  by_cases h : a < 0
  · simp [h, abs_of_neg h]
  · simp [h, abs_of_nonneg (not_lt.mp h)]

theorem cap_eq : (cap : K) = 6307200000 := by unfold cap; norm_num

theorem cap_pos : (0 : K) < cap := by rw [cap_eq]; norm_num

theorem maxTof_eq : (maxTof : X K) = X.fin cap := by
  unfold maxTof cap
  show X.fin ((200 : ℚ) * (365 : ℚ) * (24 : ℚ) * (60 : ℚ) * (60 : ℚ) : K) = _
  norm_num

/-- tolerance of the iteration for tof -/
def tolT : K := cap / 1000000000000

/-- tolerance of the iteration for the tracer -/
def tolC : K := 1 / 1000000000

theorem tolT_pos : (0 : K) < tolT := by unfold tolT; exact div_pos cap_pos (by norm_num)
theorem tolC_pos : (0 : K) < tolC := by unfold tolC; norm_num

theorem tofTol_eq : (tofTol : X K) = X.fin tolT := by
  unfold tofTol
  rw [maxTof_eq]
  show Arith.div (X.fin cap) (X.fin ((1000000000000 : ℚ) : K)) = _
  have h : ((1000000000000 : ℚ) : K) = 1000000000000 := by norm_num
  rw [h, X_div (by norm_num)]; rfl

theorem tracerTol_eq : (tracerTol : X K) = X.fin tolC := by
  unfold tracerTol
  show X.fin ((1 / 1000000000 : ℚ) : K) = _
  unfold tolC; norm_num

theorem sizeOfInt_nat {v n : Nat} (hv : v < n) (hI : n ≤ INT_MAX) : sizeOfInt (v : Int) = v := by
  rw [sizeOfInt_nonneg (by omega) (by omega)]; simp

theorem sum_range_list (n : Nat) (f : Nat → K) : ((List.range n).map f).sum = ∑ i ∈ range n, f i := by
  induction n with
  | zero => simp
  | succ n ih => rw [List.range_succ, List.map_append, List.sum_append, ih, sum_range_succ]; simp

theorem sum_filter_list (n : Nat) (p : Nat → Bool) (f : Nat → K) (h : ∀ i < n, p i = false → f i = 0) :
    (((List.range n).filter p).map f).sum = ∑ i ∈ range n, f i := by
  rw [← sum_range_list]
  have : ∀ l : List Nat, (∀ i ∈ l, i < n) → ((l.filter p).map f).sum = (l.map f).sum := by
    intro l
    induction l with
    | nil => intro _; rfl
    | cons a l ih =>
      intro hl
      have ih := ih fun i hi => hl i (List.mem_cons_of_mem _ hi)
      by_cases hp : p a
      · rw [List.filter_cons_of_pos hp]; simp [ih]
      · rw [List.filter_cons_of_neg hp]; simp only [List.map_cons, List.sum_cons]
        rw [h a (hl a List.mem_cons_self) (by simpa using hp), zero_add, ih]
  exact this _ fun i hi => List.mem_range.mp hi

/-! ### One cell -/

/-- The immutable data of a solver for the flow problem `F`. -/
structure IsSolver (F : Flow K) (d : SolverData (X K)) : Prop where
  graph : HasFlow d.g F.n F.w
  reverse : HasFlow d.gReverse F.n fun u v => F.w v u
  pv : d.pv = arr F.n F.pv
  influx : d.influx = arr F.n F.inflow
  source : d.sourceTerm = arr F.n F.src

theorem upwind_loop {n : Nat} (hI : n ≤ INT_MAX) (τ c : Nat → K) (w : Nat → K) : ∀ (l : List Nat), (∀ u ∈ l, u < n) →
    ∀ a b : K, forEach (l.map fun u : Nat => ((u : Int), X.fin (w u))) (X.fin a, X.fin b)
        (addUpwind (arr n τ) (arr n c))
      = .ok (X.fin (a + (l.map fun u => τ u * c u * w u).sum), X.fin (b + (l.map fun u => c u * w u).sum))
  | [], _, a, b => by simp
  | u :: l, hl, a, b => by
    have hu := hl u List.mem_cons_self
    have hstep : addUpwind (arr n τ) (arr n c) (X.fin a, X.fin b) ((u : Int), X.fin (w u))
        = .ok (X.fin (a + τ u * c u * w u), X.fin (b + c u * w u)) := by
      unfold addUpwind
      simp only [Res.bind_eq, Res.pure_eq, sizeOfInt_nat hu hI, rd_arr _ hu, Res.ok_bind, X_mul, X_add]
    rw [List.map_cons, forEach_cons, hstep, Res.ok_bind,
      upwind_loop hI τ c w l (fun x hx => hl x (List.mem_cons_of_mem _ hx))]
    simp only [List.map_cons, List.sum_cons, add_assoc]

variable {S : Sys K} {d : SolverData (X K)} {isStart : List Bool} {localSource : List (X K)} {s : St K} {v : Nat}

/-- The start array and local source term hold what the system describes. -/
structure HasStarts (S : Sys K) (isStart : List Bool) (localSource : List (X K)) : Prop where
  start : ∀ v < S.n, isStart[v]? = some (S.start v)
  ls : ∀ v < S.n, S.start v = true → localSource[v]? = some (X.fin (S.ls v))
  cap : S.M = cap
  int : S.n ≤ INT_MAX

theorem upwind_sums (hS : S.Ok) (hI : S.n ≤ INT_MAX) (hv : v < S.n) :
    forEach (flowRow S.n (fun u v => S.w v u) v) (Arith.zero, Arith.zero) (addUpwind (arr S.n s.1) (arr S.n s.2))
      = .ok (X.fin (S.ysum s v), X.fin (S.csum s.2 v)) := by
  have hz : ∀ i < S.n, decide (0 < S.w i v) = false → S.w i v = 0 := by
    intro i hi h0
    exact le_antisymm (not_lt.mp (by simpa using h0)) (hS.w_nonneg i v hi hv)
  unfold flowRow
  rw [X_zero, upwind_loop hI s.1 s.2 (fun u => S.w u v) _ (fun u hu => List.mem_range.mp (List.mem_filter.mp hu).1)]
  rw [sum_filter_list _ _ _ (fun i hi h0 => by rw [hz i hi h0, mul_zero]),
    sum_filter_list _ _ _ (fun i hi h0 => by rw [hz i hi h0, mul_zero])]
  simp only [zero_add]
  rfl

theorem single_exact (hd : IsSolver S.toFlow d) (hS : S.Ok) (hst : HasStarts S isStart localSource)
    (hn : S.NonNeg s) (hv : v < S.n) :
    solveSingleCell d isStart localSource (arr S.n s.1, arr S.n s.2) (v : Int)
      = .ok (arr S.n (S.upd s v).1, arr S.n (S.upd s v).2) := by
  have hI := hst.int
  have hcn := hS.csum_nonneg hn hv
  have hin := hS.inj_nonneg hv
  have hls : withLocalSource (S.start v) localSource v (X.fin (S.csum s.2 v))
      = .ok (X.fin (S.csum s.2 v + S.inj v)) := by
    unfold withLocalSource Sys.inj
    by_cases h0 : S.start v = true
    · simp only [h0, if_true, Res.bind_eq, Res.pure_eq, rd_of_getElem? (hst.ls v hv h0), Res.ok_bind, X_add]
    · simp only [Bool.not_eq_true] at h0
      simp [h0]
  unfold solveSingleCell
  simp only [Res.bind_eq, Res.pure_eq, sizeOfInt_nat hv hI, hd.source, rd_arr _ hv, Res.ok_bind,
    rd_of_getElem? (hst.start v hv), hd.influx, hd.reverse.rows v hv, upwind_sums hS hI hv, hls]
  by_cases hdead : S.Dead v
  · obtain ⟨hs, h0⟩ := hdead
    have h1 : cellSource (X.fin (S.src v)) (S.start v) = (X.pinf : X K) := by
      unfold cellSource; rw [X_zero, X_eq, h0, hs]; simp only [decide_true, Bool.and_self, if_true]; rfl
    rw [h1]
    have h2 : Arith.add (X.fin (S.inflow v)) (X.pinf : X K) = X.pinf := rfl
    rw [h2]
    have h3 : Arith.le Arith.zero (X.pinf : X K) = true := by rw [X_zero]; rfl
    have h4 : Arith.le Arith.zero (X.fin (S.csum s.2 v + S.inj v)) = true := by
      rw [X_zero, X_le, decide_eq_true]; linarith
    have h5 : cellTracer (X.pinf : X K) (X.fin (S.csum s.2 v + S.inj v)) = .ok (X.fin 0) := by
      unfold cellTracer; rw [X_zero]; rfl
    have h6 : cellTof (X.fin (S.pv v)) X.pinf (X.fin 0) (X.fin (S.ysum s v)) = X.fin (cap : K) := by
      unfold cellTof
      rw [X_zero, X_lt, maxTof_eq, X_div cap_pos.ne']
      simp only [lt_self_iff_false, decide_false, Bool.false_eq_true, if_false]; rfl
    simp only [assertThat_ok h3, assertThat_ok h4, Res.ok_bind, h5, hd.pv, rd_arr _ hv, wr_arr _ _ hv, h6]
    have hD : S.Dead v := ⟨hs, h0⟩
    unfold Sys.upd Sys.tNew Sys.cNew
    rw [if_pos hD, if_pos hD, hst.cap]
  · have h1 : cellSource (X.fin (S.src v)) (S.start v) = X.fin (S.src v) := by
      unfold cellSource; rw [X_zero, X_eq]
      by_cases hs : S.start v = true
      · have : S.src v ≠ 0 := fun h0 => hdead ⟨hs, h0⟩
        simp [this]
      · simp [hs]
    rw [h1, X_add]
    have htot : S.inflow v + S.src v = S.total v := rfl
    rw [htot]
    have ht0 := hS.total_nonneg hv
    have h3 : Arith.le Arith.zero (X.fin (S.total v)) = true := by
      rw [X_zero, X_le]; simpa using ht0
    have h4 : Arith.le Arith.zero (X.fin (S.csum s.2 v + S.inj v)) = true := by
      rw [X_zero, X_le, decide_eq_true]; linarith
    have h5 : cellTracer (X.fin (S.total v)) (X.fin (S.csum s.2 v + S.inj v)) = .ok (X.fin (S.cNew s.2 v)) := by
      unfold cellTracer; rw [X_zero, X_eq]
      by_cases h0 : S.total v = 0
      · obtain ⟨a, b⟩ := hS.zero_of_total hv h0 hdead s.2
        simp only [h0, decide_true, if_true, Res.bind_eq, Res.pure_eq, X_eq, a, b, add_zero, assertThat_true,
          Res.ok_bind]
        unfold Sys.cNew; rw [if_neg hdead, h0, div_zero]
      · simp only [h0, decide_false, Bool.false_eq_true, if_false]
        rw [X_div h0]; unfold Sys.cNew; rw [if_neg hdead]
    have h6 : cellTof (X.fin (S.pv v)) (X.fin (S.total v)) (X.fin (S.cNew s.2 v)) (X.fin (S.ysum s v))
        = X.fin (S.tNew s v) := by
      unfold cellTof
      rw [X_zero, X_lt, maxTof_eq, X_div cap_pos.ne', X_lt]
      unfold Sys.tNew
      rw [if_neg hdead]
      by_cases hsl : S.total v < S.pv v / cap
      · have hsl' : S.Slow v := by unfold Sys.Slow; rw [hst.cap]; exact hsl
        simp [hsl, hsl', hst.cap]
      · have hsl' : ¬ S.Slow v := by unfold Sys.Slow; rw [hst.cap]; exact hsl
        simp only [hsl, hsl', hst.cap, decide_false, Bool.false_eq_true, if_false]
        by_cases hc : 0 < S.cNew s.2 v
        · have ht := hS.total_ne hv hc
          simp only [hc, decide_true, if_true, X_mul, X_add]
          rw [X_div (mul_pos ht hc).ne']
        · simp only [hc, decide_false, Bool.false_eq_true, if_false]
    simp only [assertThat_ok h3, assertThat_ok h4, Res.ok_bind, h5, hd.pv, rd_arr _ hv, wr_arr _ _ hv, h6]
    rfl

/-! ### Sweeps -/

/-- Change of the tracer, as the stopping criterion sees it. -/
def chg (a b : K) : K := if (a = 0 ↔ b = 0) then |b - a| else 1

theorem tracerChange_eq (a b : K) : tracerChange (X.fin a) (X.fin b) = X.fin (chg a b) := by
  unfold tracerChange chg
  rw [X_zero, X_eq, X_eq, X_one, X_sub, X_abs]
  by_cases ha : a = 0 <;> by_cases hb : b = 0 <;> simp [ha, hb]

theorem sweep_exact (hd : IsSolver S.toFlow d) (hS : S.Ok) (hst : HasStarts S isStart localSource) :
    ∀ (l : List Nat) (_ : ∀ v ∈ l, v < S.n) (_ : l.Nodup) (s : St K) (_ : S.NonNeg s) (a b : K),
    ∃ a' b', forEach (l.map fun v : Nat => (v : Int)) ((arr S.n s.1, arr S.n s.2), (X.fin a, X.fin b))
          (sweepCell d isStart localSource)
        = .ok ((arr S.n (S.sweep l s).1, arr S.n (S.sweep l s).2), (X.fin a', X.fin b')) ∧
      (∀ t, a' ≤ t ↔ a ≤ t ∧ ∀ v ∈ l, |(S.sweep l s).1 v - s.1 v| ≤ t) ∧
      (∀ t, b' ≤ t ↔ b ≤ t ∧ ∀ v ∈ l, chg (s.2 v) ((S.sweep l s).2 v) ≤ t)
  | [], _, _, s, _, a, b => ⟨a, b, rfl, by simp, by simp⟩
  | v :: l, hl, hnd, s, hn, a, b => by
    have hv := hl v List.mem_cons_self
    obtain ⟨hvl, hnd'⟩ := List.nodup_cons.mp hnd
    obtain ⟨a', b', e, h1, h2⟩ := sweep_exact hd hS hst l (fun x hx => hl x (List.mem_cons_of_mem _ hx)) hnd'
      (S.upd s v) (hS.upd_nonneg hn hv) (max a |S.tNew s v - s.1 v|) (max b (chg (s.2 v) (S.cNew s.2 v)))
    have hsw : S.sweep (v :: l) s = S.sweep l (S.upd s v) := rfl
    have hvv := Sys.sweep_other (S := S) (s := S.upd s v) hvl
    refine ⟨a', b', ?_, ?_, ?_⟩
    · have hstep : sweepCell d isStart localSource ((arr S.n s.1, arr S.n s.2), (X.fin a, X.fin b)) (v : Int)
          = .ok ((arr S.n (S.upd s v).1, arr S.n (S.upd s v).2),
            (X.fin (max a |S.tNew s v - s.1 v|), X.fin (max b (chg (s.2 v) (S.cNew s.2 v))))) := by
        unfold sweepCell
        simp only [Res.bind_eq, Res.pure_eq, sizeOfInt_nat hv hst.int, rd_arr _ hv, Res.ok_bind,
          single_exact hd hS hst hn hv, X_sub, X_abs, tracerChange_eq, X_max, Sys.upd_self.1, Sys.upd_self.2]
      rw [List.map_cons, forEach_cons, hstep, Res.ok_bind, e, hsw]
    · intro t
      rw [h1 t, hsw]
      simp only [List.mem_cons, forall_eq_or_imp, max_le_iff, hvv.1, Sys.upd_self.1, and_assoc]
      have : (∀ u ∈ l, |(S.sweep l (S.upd s v)).1 u - (S.upd s v).1 u| ≤ t)
          ↔ ∀ u ∈ l, |(S.sweep l (S.upd s v)).1 u - s.1 u| ≤ t := by
        refine forall_congr' fun u => forall_congr' fun hu => ?_
        have hne : u ≠ v := fun e => hvl (e ▸ hu)
        rw [(Sys.upd_other hne).1]
      rw [this]
    · intro t
      rw [h2 t, hsw]
      simp only [List.mem_cons, forall_eq_or_imp, max_le_iff, hvv.2, Sys.upd_self.2, and_assoc]
      have : (∀ u ∈ l, chg ((S.upd s v).2 u) ((S.sweep l (S.upd s v)).2 u) ≤ t)
          ↔ ∀ u ∈ l, chg (s.2 u) ((S.sweep l (S.upd s v)).2 u) ≤ t := by
        refine forall_congr' fun u => forall_congr' fun hu => ?_
        have hne : u ≠ v := fun e => hvl (e ▸ hu)
        rw [(Sys.upd_other hne).2]
      rw [this]

theorem chg_le_iff {a b : K} : chg a b ≤ tolC ↔ |b - a| ≤ tolC ∧ (a = 0 ↔ b = 0) := by
  unfold chg
  by_cases h : (a = 0 ↔ b = 0)
  · simp [h]
  · simp only [h, if_false, and_false, iff_false, not_le]
    unfold tolC; norm_num

/-- The loop stops exactly at the criterion. -/
theorem gaussSeidel_stop {C : List Nat} {s t : St K} {a b : K} (h1 : ∀ x, a ≤ x ↔ (0 : K) ≤ x ∧ ∀ v ∈ C, |t.1 v - s.1 v| ≤ x)
    (h2 : ∀ x, b ≤ x ↔ (0 : K) ≤ x ∧ ∀ v ∈ C, chg (s.2 v) (t.2 v) ≤ x) :
    (Arith.lt tofTol (X.fin a) || Arith.lt tracerTol (X.fin b)) = false ↔ Sys.Conv C tolT tolC s t := by
  rw [tofTol_eq, tracerTol_eq, X_lt, X_lt]
  simp only [Bool.or_eq_false_iff, decide_eq_false_iff_not, not_lt]
  rw [h1, h2]
  constructor
  · rintro ⟨⟨_, h3⟩, _, h4⟩
    exact ⟨h3, fun v hv => (chg_le_iff.mp (h4 v hv)).1, fun v hv => (chg_le_iff.mp (h4 v hv)).2⟩
  · intro h
    exact ⟨⟨tolT_pos.le, h.tof⟩, tolC_pos.le, fun v hv => chg_le_iff.mpr ⟨h.tracer v hv, h.zero v hv⟩⟩

/-- If the iteration meets the criterion at some sweep, the loop returns the state after a
    sweep that meets it. -/
theorem gaussSeidel_exact (hd : IsSolver S.toFlow d) (hS : S.Ok) (hst : HasStarts S isStart localSource)
    {C : List Nat} (hC : ∀ v ∈ C, v < S.n) (hnd : C.Nodup) :
    ∀ (k : Nat) (s : St K) (a b : K), S.NonNeg s →
      (Arith.lt tofTol (X.fin a) || Arith.lt tracerTol (X.fin b)) = true →
      Sys.Conv C tolT tolC ((S.sweep C)^[k] s) ((S.sweep C)^[k + 1] s) →
      ∃ j, Sys.Conv C tolT tolC ((S.sweep C)^[j] s) ((S.sweep C)^[j + 1] s) ∧ ∀ fuel, k + 1 ≤ fuel →
        gaussSeidel d isStart localSource (C.map fun v : Nat => (v : Int)) fuel
          ((arr S.n s.1, arr S.n s.2), (X.fin a, X.fin b))
        = .ok (arr S.n ((S.sweep C)^[j + 1] s).1, arr S.n ((S.sweep C)^[j + 1] s).2) := by
  intro k
  induction k with
  | zero =>
    intro s a b hn hab hcv
    refine ⟨0, hcv, ?_⟩
    intro fuel hf
    obtain ⟨fuel, rfl⟩ : ∃ f, fuel = f + 1 := ⟨fuel - 1, by omega⟩
    obtain ⟨a', b', e, h1, h2⟩ := sweep_exact hd hS hst C hC hnd s hn 0 0
    unfold gaussSeidel
    rw [if_pos hab]
    simp only [Res.bind_eq]
    rw [X_zero, e, Res.ok_bind]
    unfold gaussSeidel
    have := (gaussSeidel_stop h1 h2).mpr hcv
    rw [if_neg (by rw [this]; simp)]
    rfl
  | succ k ih =>
    intro s a b hn hab hcv
    obtain ⟨a', b', e, h1, h2⟩ := sweep_exact hd hS hst C hC hnd s hn 0 0
    by_cases hstop : (Arith.lt tofTol (X.fin a') || Arith.lt tracerTol (X.fin b')) = true
    · have hn' : S.NonNeg (S.sweep C s) :=
        Sys.iter_inv (S := S) (C := C) S.NonNeg (fun t ht v hv => hS.upd_nonneg ht (hC v hv)) hn 1
      obtain ⟨j, hj, hr⟩ := ih (S.sweep C s) a' b' hn' hstop hcv
      refine ⟨j + 1, hj, ?_⟩
      intro fuel hf
      obtain ⟨fuel, rfl⟩ : ∃ f, fuel = f + 1 := ⟨fuel - 1, by omega⟩
      unfold gaussSeidel
      rw [if_pos hab]
      simp only [Res.bind_eq]
      rw [X_zero, e, Res.ok_bind]
      exact hr fuel (by omega)
    · simp only [Bool.not_eq_true] at hstop
      refine ⟨0, (gaussSeidel_stop h1 h2).mp hstop, ?_⟩
      intro fuel hf
      obtain ⟨fuel, rfl⟩ : ∃ f, fuel = f + 1 := ⟨fuel - 1, by omega⟩
      unfold gaussSeidel
      rw [if_pos hab]
      simp only [Res.bind_eq]
      rw [X_zero, e, Res.ok_bind]
      unfold gaussSeidel
      rw [if_neg (by rw [hstop]; simp)]
      rfl

theorem huge_continues : ∃ a : K, (huge : X K) = X.fin a ∧
    (Arith.lt tofTol (X.fin a) || Arith.lt tracerTol (X.fin a)) = true := by
  refine ⟨((10 ^ 100 : ℚ) : K), rfl, ?_⟩
  rw [tofTol_eq, tracerTol_eq, X_lt, X_lt]
  have : (tolT : K) < ((10 ^ 100 : ℚ) : K) := by
    unfold tolT; rw [cap_eq]; push_cast; norm_num
  rw [Bool.or_eq_true]
  exact Or.inl (decide_eq_true this)

end Verif.Solver
