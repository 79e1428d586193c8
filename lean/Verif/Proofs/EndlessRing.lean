/-
A Gauss-Seidel iteration with `double`s that never stops.

Cells 0, ..., N-1 form a chain, through which 19 units flow into the ring N → N+1 → N+2 → N.  In the ring 1 unit goes round;
18 units enter at N+1, and 37 leave at N+2.
-/
import Verif.Proofs.DoubleInt
import Verif.Proofs.SolverVisit

namespace Verif.Endless
open Verif.Solver Verif.Spec Verif.Tarjan Double

section
variable {R : Type} [Arith R]

/-- What `solveSingleCell` computes from the inflow of a cell, its source, its pore volume and the time-of-flight, tracer
    and flux of its upwind neighbours. -/
def cellFrom (inflx src : R) (start : Bool) (pv : R) (up : List ((R × R) × R)) : Res (R × R) :=
  let total := Arith.add inflx (cellSource src start)
  let s := up.foldl (fun s e => (Arith.add s.1 (Arith.mul (Arith.mul e.1.1 e.1.2) e.2),
    Arith.add s.2 (Arith.mul e.1.2 e.2))) (Arith.zero, Arith.zero)
  let contrib := if start then Arith.add s.2 src else s.2
  (assertThat (Arith.le Arith.zero total)).bind fun _ => (assertThat (Arith.le Arith.zero contrib)).bind fun _ =>
  (cellTracer total contrib).bind fun c => .ok (cellTof pv total c s.1, c)

theorem single_from {d : SolverData R} {isStart : List Bool} {ls : List R} {s : List R × List R} {v : Nat}
    (hv : v ≤ INT_MAX) (h1 : v < s.1.length) (h2 : v < s.2.length) {inflx src pv : R} {start : Bool}
    (hsrc : d.sourceTerm[v]? = some src) (hst : isStart[v]? = some start) (hls : ls[v]? = some src)
    (hin : d.influx[v]? = some inflx) (hpv : d.pv[v]? = some pv) (us : List (Nat × (R × R) × R))
    (hrow : d.gReverse.cellNeighbourhood (v : Int) = .ok (us.map fun u => ((u.1 : Int), u.2.2)))
    (hus : ∀ u ∈ us, u.1 ≤ INT_MAX ∧ s.1[u.1]? = some u.2.1.1 ∧ s.2[u.1]? = some u.2.1.2) :
    solveSingleCell d isStart ls s (v : Int)
      = (cellFrom inflx src start pv (us.map fun u => u.2)).bind fun p => .ok (s.1.set v p.1, s.2.set v p.2) := by
  have hsz : ∀ u : Nat, u ≤ INT_MAX → sizeOfInt (u : Int) = u := by
    intro u hu
    rw [sizeOfInt_nonneg (by omega) (by exact_mod_cast hu)]; simp
  have hup : ∀ (us : List (Nat × (R × R) × R)) (x : R × R),
      (∀ u ∈ us, u.1 ≤ INT_MAX ∧ s.1[u.1]? = some u.2.1.1 ∧ s.2[u.1]? = some u.2.1.2) →
      forEach (us.map fun u => ((u.1 : Int), u.2.2)) x (addUpwind s.1 s.2)
        = .ok ((us.map fun u => u.2).foldl (fun s e => (Arith.add s.1 (Arith.mul (Arith.mul e.1.1 e.1.2) e.2),
            Arith.add s.2 (Arith.mul e.1.2 e.2))) x) := by
    intro us
    induction us with
    | nil => intro x _; rfl
    | cons u us ih =>
      intro x hu
      obtain ⟨k1, k2, k3⟩ := hu u List.mem_cons_self
      rw [List.map_cons, forEach_cons]
      unfold addUpwind
      simp only [Res.bind_eq, Res.pure_eq, hsz _ k1, rd_of_getElem? k2, rd_of_getElem? k3, Res.ok_bind]
      have := ih (Arith.add x.1 (Arith.mul (Arith.mul u.2.1.1 u.2.1.2) u.2.2), Arith.add x.2 (Arith.mul u.2.1.2 u.2.2))
        fun w hw => hu w (List.mem_cons_of_mem _ hw)
      unfold addUpwind at this
      simp only [Res.bind_eq, Res.pure_eq] at this
      rw [this]; rfl
  unfold solveSingleCell cellFrom
  simp only [Res.bind_eq, Res.pure_eq, hsz _ hv, rd_of_getElem? hsrc, rd_of_getElem? hst, rd_of_getElem? hin,
    rd_of_getElem? hpv, Res.ok_bind, hrow, hup us _ hus]
  unfold withLocalSource
  cases start with
  | true =>
    simp only [if_true, Res.bind_eq, Res.pure_eq, rd_of_getElem? hls, Res.ok_bind]
    rw [Res.bind_assoc]
    congr 1; funext _
    rw [Res.bind_assoc]
    congr 1; funext _
    rw [Res.bind_assoc]
    congr 1; funext c
    rw [wr_ok h2, wr_ok h1]; rfl
  | false =>
    simp only [Bool.false_eq_true, if_false, Res.ok_bind]
    rw [Res.bind_assoc]
    congr 1; funext _
    rw [Res.bind_assoc]
    congr 1; funext _
    rw [Res.bind_assoc]
    congr 1; funext c
    rw [wr_ok h2, wr_ok h1]; rfl

end

/-! ### The ring by itself -/

/-- Time-of-flight and tracer of the three cells of the ring. -/
abbrev Ring := (Double × Double) × (Double × Double) × (Double × Double)

/-- A cell's new values and the largest changes so far. -/
def ringCell (old δ : Double × Double) (r : Res (Double × Double)) : Res ((Double × Double) × (Double × Double)) :=
  r.bind fun p => .ok (p, (Arith.max δ.1 (Arith.fabs (Arith.sub p.1 old.1)), Arith.max δ.2 (tracerChange old.2 p.2)))

/-- One sweep against the flow, if the cell upstream of the ring has time-of-flight `T`. -/
def ringSweep (T : Double) (s : Ring) : Res (Ring × (Double × Double)) :=
  (ringCell s.2.2 (Arith.zero, Arith.zero)
    (cellFrom (ofNat 38) (ofNat 0) false (ofNat 1) [(s.2.1, ofNat 38)])).bind fun a =>
  (ringCell s.2.1 a.2 (cellFrom (ofNat 20) (ofNat 18) true (ofNat 1) [(s.1, ofNat 20)])).bind fun b =>
  (ringCell s.1 b.2 (cellFrom (ofNat 20) (ofNat 0) false (ofNat 1) [((T, ofNat 1), ofNat 19), (a.1, ofNat 1)])).bind fun c =>
  .ok ((c.1, b.1, a.1), c.2)

/-- The changes are above the tolerances. -/
def going (δ : Double × Double) : Bool := Arith.lt tofTol δ.1 || Arith.lt tracerTol δ.2

/-- The state after a sweep, if the iteration goes on. -/
def next (T : Double) (s : Ring) : Option Ring :=
  match ringSweep T s with
  | .ok r => if going r.2 then some r.1 else none
  | _ => none

/-- The state after `k` sweeps, if the iteration goes on. -/
def after (T : Double) : Nat → Ring → Option Ring
  | 0, s => some s
  | k + 1, s => (next T s).bind (after T k)

theorem after_add (T : Double) (j k : Nat) (s : Ring) : after T (j + k) s = (after T j s).bind (after T k) := by
  induction j generalizing s with
  | zero => simp [after]
  | succ j ih =>
    rw [Nat.succ_add]
    show (next T s).bind (after T (j + k)) = ((next T s).bind (after T j)).bind (after T k)
    cases next T s with
    | none => rfl
    | some t => exact ih t

/-- An iteration that comes back to a state goes on for ever. -/
theorem after_ne_none {T : Double} {s t : Ring} {j k : Nat} (hj : after T j s = some t) (hk : after T (k + 1) t = some t) :
    ∀ i, after T i s ≠ none := by
  have hp : ∀ m, after T (m * (k + 1)) t = some t := by
    intro m
    induction m with
    | zero => simp [after]
    | succ m ih => rw [Nat.succ_mul, after_add, ih]; exact hk
  intro i hi
  have h1 : after T (j + i * (k + 1)) s = some t := by rw [after_add, hj]; exact hp i
  rw [show j + i * (k + 1) = i + (j + i * k) by rw [Nat.mul_succ]; omega, after_add, hi] at h1
  cases h1

/-- Nothing computed yet. -/
def blank : Ring := ((Arith.zero, Arith.zero), (Arith.zero, Arith.zero), (Arith.zero, Arith.zero))

/-- A state the iteration comes back to after two sweeps. -/
def recurrent : Ring :=
  ((finite false 5619891891891898 (-7) (by decide), finite false 4503599627370496 (-52) (by decide)),
   (finite false 5915675675675690 (-8) (by decide), finite false 4503599627370496 (-52) (by decide)),
   (finite false 5915675675675695 (-8) (by decide), finite false 4503599627370496 (-52) (by decide)))

theorem recurrent_reached : after (ofNat 45000000000000) 22 blank = some recurrent := by decide +kernel

theorem recurrent_again : after (ofNat 45000000000000) 2 recurrent = some recurrent := by decide +kernel

theorem never_ends : ∀ k, after (ofNat 45000000000000) k blank ≠ none :=
  after_ne_none recurrent_reached recurrent_again

/-! ### The solver -/

/-- The sources. -/
def srcAt (N v : Nat) : Double := if v = 0 then ofNat 19 else if v = N + 1 then ofNat 18 else ofNat 0

/-- The inflow from other cells. -/
def influxAt (N v : Nat) : Double :=
  if v = 0 then ofNat 0 else if v < N then ofNat 19 else if v = N + 2 then ofNat 38 else ofNat 20

/-- The pore volumes: it takes `4500000000` to fill a cell of the chain. -/
def pvAt (N v : Nat) : Double := if v < N then ofNat 85500000000 else ofNat 1

/-- The upwind neighbours. -/
def rowAt (N v : Nat) : List (Int × Double) :=
  if v = 0 then [] else if v < N then [(((v - 1 : Nat) : Int), ofNat 19)]
  else if v = N then [(((N - 1 : Nat) : Int), ofNat 19), (((N + 2 : Nat) : Int), ofNat 1)]
  else if v = N + 1 then [((N : Int), ofNat 20)] else [(((N + 1 : Nat) : Int), ofNat 38)]

/-- The data of the solver. -/
structure IsChainRing (N : Nat) (d : SolverData Double) (isStart : List Bool) (ls : List Double) : Prop where
  pos : 1 ≤ N
  int : N + 3 ≤ INT_MAX
  source : ∀ v < N + 3, d.sourceTerm[v]? = some (srcAt N v)
  start : ∀ v < N + 3, isStart[v]? = some (decide (v = 0 ∨ v = N + 1))
  localSource : ls = d.sourceTerm
  influx : ∀ v < N + 3, d.influx[v]? = some (influxAt N v)
  pv : ∀ v < N + 3, d.pv[v]? = some (pvAt N v)
  row : ∀ v < N + 3, d.gReverse.cellNeighbourhood (v : Int) = .ok (rowAt N v)

/-- The chain is done, and the ring has the values `r`. -/
structure Holds (N : Nat) (T : Double) (s : List Double × List Double) (r : Ring) : Prop where
  len1 : s.1.length = N + 3
  len2 : s.2.length = N + 3
  up : s.1[N - 1]? = some T ∧ s.2[N - 1]? = some (ofNat 1)
  r1 : s.1[N]? = some r.1.1 ∧ s.2[N]? = some r.1.2
  r2 : s.1[N + 1]? = some r.2.1.1 ∧ s.2[N + 1]? = some r.2.1.2
  r3 : s.1[N + 2]? = some r.2.2.1 ∧ s.2[N + 2]? = some r.2.2.2

section
variable {N : Nat} {d : SolverData Double} {isStart : List Bool} {ls : List Double}

theorem sweepCell_from {s : List Double × List Double} {v : Nat} (hv : v ≤ INT_MAX) (h1 : v < s.1.length) (h2 : v < s.2.length)
    {r : Res (Double × Double)} (hr : solveSingleCell d isStart ls s (v : Int)
      = r.bind fun p => .ok (s.1.set v p.1, s.2.set v p.2))
    {old : Double × Double} (ho1 : s.1[v]? = some old.1) (ho2 : s.2[v]? = some old.2) (δ : Double × Double) :
    sweepCell d isStart ls (s, δ) (v : Int) = (ringCell old δ r).bind fun p => .ok ((s.1.set v p.1.1, s.2.set v p.1.2), p.2) := by
  have hsz : sizeOfInt (v : Int) = v := by
    rw [sizeOfInt_nonneg (by omega) (by exact_mod_cast hv)]; simp
  unfold sweepCell ringCell
  simp only [Res.bind_eq, Res.pure_eq, hsz, rd_of_getElem? ho1, rd_of_getElem? ho2, Res.ok_bind, hr, Res.bind_assoc]
  congr 1; funext p
  rw [rd_of_getElem? (List.getElem?_set_self h1), rd_of_getElem? (List.getElem?_set_self h2)]
  rfl

/-- One sweep of the ring, against the flow. -/
theorem sweep_ring (hd : IsChainRing N d isStart ls) {T : Double} {s : List Double × List Double} {r : Ring}
    (h : Holds N T s r) {r' : Ring} {δ : Double × Double} (hr : ringSweep T r = .ok (r', δ)) :
    ∃ s', forEach [((N + 2 : Nat) : Int), ((N + 1 : Nat) : Int), (N : Int)] (s, (Arith.zero, Arith.zero)) (sweepCell d isStart ls)
      = .ok (s', δ) ∧ Holds N T s' r' := by
  have hI := hd.int
  have hN := hd.pos
  obtain ⟨l1, l2, ⟨u1, u2⟩, ⟨a1, a2⟩, ⟨b1, b2⟩, ⟨c1, c2⟩⟩ := h
  unfold ringSweep at hr
  obtain ⟨a, ha, hr⟩ := Res.bind_ok_iff.mp hr
  obtain ⟨b, hb, hr⟩ := Res.bind_ok_iff.mp hr
  obtain ⟨c, hc, hr⟩ := Res.bind_ok_iff.mp hr
  cases hr
  -- the third cell
  have e3 : sweepCell d isStart ls (s, (Arith.zero, Arith.zero)) ((N + 2 : Nat) : Int)
      = .ok ((s.1.set (N + 2) a.1.1, s.2.set (N + 2) a.1.2), a.2) := by
    rw [sweepCell_from (by omega) (by omega) (by omega)
      (single_from (by omega) (by omega) (by omega) (hd.source (N + 2) (by omega)) (hd.start (N + 2) (by omega))
        (by rw [hd.localSource]; exact hd.source (N + 2) (by omega)) (hd.influx (N + 2) (by omega)) (hd.pv (N + 2) (by omega))
        [(N + 1, r.2.1, ofNat 38)] (by rw [hd.row (N + 2) (by omega)]; simp [rowAt])
        (by simp only [List.mem_singleton]; rintro u rfl; exact ⟨by simp only; omega, b1, b2⟩)) c1 c2]
    have : srcAt N (N + 2) = ofNat 0 := by simp [srcAt]
    rw [this]
    have : influxAt N (N + 2) = ofNat 38 := by simp [influxAt]
    rw [this]
    have : pvAt N (N + 2) = ofNat 1 := by simp [pvAt]
    rw [this]
    have : decide (N + 2 = 0 ∨ N + 2 = N + 1) = false := by simp
    rw [this]
    simp only [List.map_cons, List.map_nil]
    rw [ha]; rfl
  have e2 : sweepCell d isStart ls ((s.1.set (N + 2) a.1.1, s.2.set (N + 2) a.1.2), a.2) ((N + 1 : Nat) : Int)
      = .ok (((s.1.set (N + 2) a.1.1).set (N + 1) b.1.1, (s.2.set (N + 2) a.1.2).set (N + 1) b.1.2), b.2) := by
    rw [sweepCell_from (by omega) (by simp; omega) (by simp; omega)
      (single_from (by omega) (by simp; omega) (by simp; omega) (hd.source (N + 1) (by omega)) (hd.start (N + 1) (by omega))
        (by rw [hd.localSource]; exact hd.source (N + 1) (by omega)) (hd.influx (N + 1) (by omega)) (hd.pv (N + 1) (by omega))
        [(N, r.1, ofNat 20)] (by rw [hd.row (N + 1) (by omega)]; simp [rowAt])
        (by
          simp only [List.mem_singleton]; rintro u rfl
          refine ⟨by simp only; omega, ?_, ?_⟩
          · simp only; rw [List.getElem?_set_ne (by omega)]; exact a1
          · simp only; rw [List.getElem?_set_ne (by omega)]; exact a2))
      (old := r.2.1) (by rw [List.getElem?_set_ne (by omega)]; exact b1) (by rw [List.getElem?_set_ne (by omega)]; exact b2)]
    have : srcAt N (N + 1) = ofNat 18 := by simp [srcAt]
    rw [this]
    have : influxAt N (N + 1) = ofNat 20 := by simp [influxAt]
    rw [this]
    have : pvAt N (N + 1) = ofNat 1 := by simp [pvAt]
    rw [this]
    have : decide (N + 1 = 0 ∨ N + 1 = N + 1) = true := by simp
    rw [this]
    simp only [List.map_cons, List.map_nil]
    rw [hb]; rfl
  have e1 : sweepCell d isStart ls (((s.1.set (N + 2) a.1.1).set (N + 1) b.1.1, (s.2.set (N + 2) a.1.2).set (N + 1) b.1.2), b.2)
      (N : Int) = .ok ((((s.1.set (N + 2) a.1.1).set (N + 1) b.1.1).set N c.1.1,
        ((s.2.set (N + 2) a.1.2).set (N + 1) b.1.2).set N c.1.2), c.2) := by
    rw [sweepCell_from (by omega) (by simp; omega) (by simp; omega)
      (single_from (by omega) (by simp; omega) (by simp; omega) (hd.source N (by omega)) (hd.start N (by omega))
        (by rw [hd.localSource]; exact hd.source N (by omega)) (hd.influx N (by omega)) (hd.pv N (by omega))
        [(N - 1, (T, ofNat 1), ofNat 19), (N + 2, a.1, ofNat 1)]
        (by rw [hd.row N (by omega)]; have : N ≠ 0 := by omega
            simp [rowAt, this])
        (by
          simp only [List.mem_cons, List.not_mem_nil, or_false]; rintro u (rfl | rfl)
          · refine ⟨by simp only; omega, ?_, ?_⟩
            · simp only; rw [List.getElem?_set_ne (by omega), List.getElem?_set_ne (by omega)]; exact u1
            · simp only; rw [List.getElem?_set_ne (by omega), List.getElem?_set_ne (by omega)]; exact u2
          · refine ⟨by simp only; omega, ?_, ?_⟩
            · simp only; rw [List.getElem?_set_ne (by omega), List.getElem?_set_self (by omega)]
            · simp only; rw [List.getElem?_set_ne (by omega), List.getElem?_set_self (by omega)]))
      (old := r.1) (by rw [List.getElem?_set_ne (by omega), List.getElem?_set_ne (by omega)]; exact a1)
        (by rw [List.getElem?_set_ne (by omega), List.getElem?_set_ne (by omega)]; exact a2)]
    have hN0 : N ≠ 0 := by omega
    have : srcAt N N = ofNat 0 := by simp [srcAt, hN0]
    rw [this]
    have : influxAt N N = ofNat 20 := by simp [influxAt, hN0]
    rw [this]
    have : pvAt N N = ofNat 1 := by simp [pvAt]
    rw [this]
    have : decide (N = 0 ∨ N = N + 1) = false := by simp [hN0]
    rw [this]
    simp only [List.map_cons, List.map_nil]
    rw [hc]; rfl
  refine ⟨(((s.1.set (N + 2) a.1.1).set (N + 1) b.1.1).set N c.1.1, ((s.2.set (N + 2) a.1.2).set (N + 1) b.1.2).set N c.1.2),
    ?_, ?_⟩
  · rw [forEach_cons, e3, Res.ok_bind, forEach_cons, e2, Res.ok_bind, forEach_cons, e1]; rfl
  · constructor
    · simp [l1]
    · simp [l2]
    · constructor
      · simp only; rw [List.getElem?_set_ne (by omega), List.getElem?_set_ne (by omega), List.getElem?_set_ne (by omega)]; exact u1
      · simp only; rw [List.getElem?_set_ne (by omega), List.getElem?_set_ne (by omega), List.getElem?_set_ne (by omega)]; exact u2
    · exact ⟨List.getElem?_set_self (by simp; omega), List.getElem?_set_self (by simp; omega)⟩
    · constructor
      · simp only; rw [List.getElem?_set_ne (by omega), List.getElem?_set_self (by simp; omega)]
      · simp only; rw [List.getElem?_set_ne (by omega), List.getElem?_set_self (by simp; omega)]
    · constructor
      · simp only; rw [List.getElem?_set_ne (by omega), List.getElem?_set_ne (by omega), List.getElem?_set_self (by omega)]
      · simp only; rw [List.getElem?_set_ne (by omega), List.getElem?_set_ne (by omega), List.getElem?_set_self (by omega)]

theorem gaussSeidel_endless (hd : IsChainRing N d isStart ls) {T : Double} : ∀ (fuel : Nat) {s : List Double × List Double}
    {r : Ring}, Holds N T s r → (∀ k, after T k r ≠ none) → ∀ δ, going δ = true →
    gaussSeidel d isStart ls [((N + 2 : Nat) : Int), ((N + 1 : Nat) : Int), (N : Int)] fuel (s, δ) = .diverge := by
  intro fuel
  induction fuel with
  | zero =>
    intro s r _ _ δ hδ
    unfold gaussSeidel
    unfold going at hδ
    rw [if_pos hδ]
  | succ fuel ih =>
    intro s r h hk δ hδ
    unfold gaussSeidel
    unfold going at hδ
    rw [if_pos hδ]
    obtain ⟨r', hn⟩ : ∃ r', next T r = some r' := by
      cases e : next T r with
      | none => exact absurd (show (next T r).bind (after T 0) = none by rw [e]; rfl) (hk 1)
      | some r' => exact ⟨r', rfl⟩
    have hk' : ∀ k, after T k r' ≠ none := by
      intro k
      have := hk (k + 1)
      rwa [show after T (k + 1) r = (next T r).bind (after T k) from rfl, hn] at this
    unfold next at hn
    cases e : ringSweep T r with
    | ok p =>
      obtain ⟨q, δ'⟩ := p
      rw [e] at hn
      simp only at hn
      by_cases hg : going δ' = true
      · rw [if_pos hg] at hn
        cases hn
        obtain ⟨s', e', h'⟩ := sweep_ring hd h e
        simp only [Res.bind_eq, e', Res.ok_bind]
        exact ih h' hk' δ' hg
      · rw [if_neg hg] at hn; cases hn
    | throw _ => rw [e] at hn; cases hn
    | ub _ => rw [e] at hn; cases hn
    | diverge => rw [e] at hn; cases hn

end

end Verif.Endless
