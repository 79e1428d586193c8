/-
Rounding errors of one visit to a cell, and of cycle-free solves.
-/
import Verif.Proofs.Near
import Verif.Proofs.SolverFacts

namespace Verif.Rounding
open Finset Verif.Spec Verif.Solver Verif.Toolbox

variable {R : Type} [Arith R] {K : Type} [Field K] [LinearOrder K] [IsStrictOrderedRing K] (ρ : Rounded R K) (q : K)

/-- The data of the solver are those of `F`, up to rounding; no cell has more than `M` neighbours upstream. -/
structure Approx (d : SolverData R) (F : Flow K) (M : Nat) : Prop where
  int : F.n ≤ INT_MAX
  row : ∀ v < F.n, ∃ l : List (Nat × R), d.gReverse.cellNeighbourhood (v : Int) = .ok (l.map fun p => ((p.1 : Int), p.2)) ∧
    l.length ≤ M ∧ (∀ p ∈ l, F.Edge p.1 v ∧ Near ρ q M p.2 (F.w p.1 v) ∧ Range 100 (F.w p.1 v)) ∧
    ∀ g : Nat → K, (l.map fun p => g p.1 * F.w p.1 v).sum = ∑ u ∈ range F.n, g u * F.w u v
  influx : ∀ v < F.n, ∃ a, d.influx[v]? = some a ∧ Near ρ q (2 * M) a (F.inflow v)
  source : ∀ v < F.n, ∃ a, d.sourceTerm[v]? = some a ∧ Near ρ q M a (F.src v)
  pv : ∀ v < F.n, ∃ a, d.pv[v]? = some a ∧ Near ρ q 0 a (F.pv v)

omit ρ q [IsStrictOrderedRing K] [Field K] [LinearOrder K] in
theorem upwind_foldl {tof tracer : List R} {T C : Nat → R} : ∀ {l : List (Nat × R)}, (∀ p ∈ l, p.1 ≤ INT_MAX) →
    (∀ p ∈ l, tof[p.1]? = some (T p.1) ∧ tracer[p.1]? = some (C p.1)) → ∀ {a up : R × R},
    forEach (l.map fun p => ((p.1 : Int), p.2)) a (addUpwind tof tracer) = .ok up →
    up = ((l.map fun p => Arith.mul (Arith.mul (T p.1) (C p.1)) p.2).foldl Arith.add a.1,
      (l.map fun p => Arith.mul (C p.1) p.2).foldl Arith.add a.2) := by
  intro l
  induction l with
  | nil => intro _ _ a up h; cases h; rfl
  | cons p l ih =>
    intro hI hl a up h
    rw [List.map_cons, forEach_cons] at h
    obtain ⟨b, hb, h⟩ := Res.bind_ok_iff.mp h
    obtain ⟨h1, h2⟩ := hl p List.mem_cons_self
    have hsz : sizeOfInt (p.1 : Int) = p.1 := by
      rw [sizeOfInt_nonneg (by omega) (by exact_mod_cast hI p List.mem_cons_self)]; simp
    unfold addUpwind at hb
    simp only [Res.bind_eq, Res.pure_eq, hsz, rd_of_getElem? h1, rd_of_getElem? h2, Res.ok_bind, Res.ok.injEq] at hb
    subst hb
    exact ih (fun x hx => hI x (List.mem_cons_of_mem _ hx)) (fun x hx => hl x (List.mem_cons_of_mem _ hx)) h

variable {ρ q} (hp : Precise ρ q)
include hp

/-- The test for cells that take too long to fill has the exact outcome, if the fill time is not close to 200 years. -/
theorem slow_iff {M : Nat} (hM : q ^ (2 * M + 2) * 200 < 201) {a b : R} {total pv : K} (ha : Near ρ q (2 * M + 1) a total)
    (hb : Near ρ q 1 b (pv / cap)) (ht : 0 ≤ total) (hpv : 0 ≤ pv)
    (hclear : pv ≤ 199 * 365 * 24 * 60 * 60 * total ∨ 201 * 365 * 24 * 60 * 60 * total ≤ pv) :
    Arith.lt a b = true ↔ total < pv / cap := by
  have hq := hp.one_le
  obtain ⟨x, hx, hxc⟩ := ha
  obtain ⟨y, hy, hyc⟩ := hb
  have hcap : (0 : K) < cap := by unfold cap; positivity
  rw [ρ.lt, hx, hy]
  simp only [X.lt, decide_eq_true_eq]
  have hz0 : 0 ≤ pv / cap := div_nonneg hpv hcap.le
  have hx0 := hxc.nonneg hq ht
  have hy0 := hyc.nonneg hq hz0
  have hP := pow_pos' hq (2 * M + 1)
  have hPle := one_le_pow' hq (2 * M + 2)
  have hqp : q ^ (2 * M + 2) = q ^ (2 * M + 1) * q := pow_succ _ _
  have hq0 : 0 < q := by linarith
  set z := pv / cap with hz
  have hpvz : pv = z * (200 * 365 * 24 * 60 * 60) := by
    rw [hz, show (200 * 365 * 24 * 60 * 60 : K) = cap from rfl]; field_simp
  have hclear' : z * 200 ≤ 199 * total ∨ 201 * total ≤ z * 200 := by
    rw [hpvz] at hclear
    rcases hclear with h | h
    · left; linarith
    · right; linarith
  obtain ⟨x1, x2⟩ := hxc
  obtain ⟨y1, y2⟩ := hyc
  rw [pow_one] at y1 y2
  have hxq : total * q ≤ x * q ^ (2 * M + 2) := by
    rw [hqp, ← mul_assoc]; exact mul_le_mul_of_nonneg_right x1 hq0.le
  have hxq' : x * q ≤ total * q ^ (2 * M + 2) := by
    rw [hqp, ← mul_assoc]; exact mul_le_mul_of_nonneg_right x2 hq0.le
  have hxQ : x * (q ^ (2 * M + 2) * 200) ≤ x * 201 := mul_le_mul_of_nonneg_left hM.le hx0
  have htQ : total * (q ^ (2 * M + 2) * 200) ≤ total * 201 := mul_le_mul_of_nonneg_left hM.le ht
  constructor
  · intro hlt
    by_contra hn
    rw [not_lt] at hn
    rcases hclear' with h | h
    · have h1 : z * 200 * q ≤ 199 * total * q := mul_le_mul_of_nonneg_right h hq0.le
      nlinarith
    · have : total = 0 := by linarith
      have : z = 0 := by linarith
      rw [this, zero_mul] at y2
      linarith
  · intro hlt
    rcases hclear' with h | h
    · linarith
    · have hzp : 0 < z := lt_of_le_of_lt ht hlt
      have hyp : 0 < y := by
        by_contra hn
        have : y = 0 := by linarith
        rw [this, zero_mul] at y1; linarith
      rcases lt_or_eq_of_le ht with h0 | h0
      · have h1 : total * (q ^ (2 * M + 2) * 200) < total * 201 := mul_lt_mul_of_pos_left hM h0
        have h2 : x * q < y * q := by nlinarith
        exact lt_of_mul_lt_mul_right h2 hq0.le
      · rw [← h0, zero_mul] at x2
        linarith

/-- What is known about the cells upstream of `v`. -/
structure Upstream (F : Flow K) (c τ : Nat → K) (T C : Nat → R) (k j v : Nat) : Prop where
  tracer : ∀ u, F.Edge u v → Near ρ q k (C u) (c u)
  tof : ∀ u, F.Edge u v → (Near ρ q j (T u) (τ u) ∧ Range 300 (τ u)) ∨ (c u = 0 ∧ ∃ z, ρ.val (T u) = X.fin z)
  crange : ∀ u, F.Edge u v → Range 300 (c u)

omit hp in
theorem Upstream.range {F : Flow K} {c τ : Nat → K} {T C : Nat → R} {k j v : Nat}
    (h : Upstream (ρ := ρ) (q := q) F c τ T C k j v) {u : Nat} (hu : F.Edge u v) : Range 600 (τ u * c u) := by
  rcases h.tof u hu with ⟨_, h1⟩ | ⟨h1, _⟩
  · exact h1.mul (h.crange u hu)
  · left; rw [h1, mul_zero]

/-- The sums over the cells upstream. -/
theorem upwind_near {F : Flow K} {M : Nat} {v : Nat} {l : List (Nat × R)} (hlen : l.length ≤ M)
    (hl : ∀ p ∈ l, F.Edge p.1 v ∧ Near ρ q M p.2 (F.w p.1 v) ∧ Range 100 (F.w p.1 v))
    {c τ : Nat → K} {T C : Nat → R} {k j : Nat} (hup : Upstream (ρ := ρ) (q := q) F c τ T C k j v) :
    (q ^ (k + 2 * M + 1) ≤ 2 → (l.map fun p => c p.1 * F.w p.1 v).sum ≤ 2 ^ 100 →
      Near ρ q (k + 2 * M + 1) ((l.map fun p => Arith.mul (C p.1) p.2).foldl Arith.add Arith.zero)
        (l.map fun p => c p.1 * F.w p.1 v).sum) ∧
    (q ^ (j + k + 2 * M + 2) ≤ 2 → (l.map fun p => τ p.1 * c p.1 * F.w p.1 v).sum ≤ 2 ^ 400 →
      Near ρ q (j + k + 2 * M + 2) ((l.map fun p => Arith.mul (Arith.mul (T p.1) (C p.1)) p.2).foldl Arith.add Arith.zero)
        (l.map fun p => τ p.1 * c p.1 * F.w p.1 v).sum) := by
  have hq := hp.one_le
  constructor
  · intro hk hs
    have hr : ∀ x ∈ l.map (fun p => c p.1 * F.w p.1 v), Range 400 x := by
      intro x hx
      obtain ⟨p, hpl, rfl⟩ := List.mem_map.mp hx
      exact (hup.crange _ (hl p hpl).1).mul (hl p hpl).2.2
    have := near_foldl hp (k := k + M + 1) (m := k + M + 1)
      (l := l.map fun p => (Arith.mul (C p.1) p.2, c p.1 * F.w p.1 v)) (a := Arith.zero) (s := 0) le_rfl
      ((pow_le_pow_right₀ hq (by simp; omega)).trans hk) (near_zero hp _) (by
        intro x hx
        obtain ⟨p, hpl, rfl⟩ := List.mem_map.mp hx
        obtain ⟨h1, h2, h3⟩ := hl p hpl
        have hc := hup.crange _ h1
        refine ⟨near_mul hp ((pow_le_pow_right₀ hq (by omega)).trans hk) (hup.tracer _ h1) h2 hc.nonneg h3.nonneg
          ((hc.mul h3).mono (by omega)), mul_nonneg hc.nonneg h3.nonneg⟩) le_rfl (by
        intro i _
        have := range_partial hr hs (k := 1000) (by omega) (by omega) i
        rw [zero_add, ← List.map_take, List.map_map]
        rw [← List.map_take] at this
        exact this)
    rw [zero_add, List.map_map, List.map_map, List.length_map] at this
    refine this.mono hp ?_ (by omega)
    exact List.sum_nonneg fun x hx => (hr x hx).nonneg
  · intro hk hs
    have hr : ∀ x ∈ l.map (fun p => τ p.1 * c p.1 * F.w p.1 v), Range 700 x := by
      intro x hx
      obtain ⟨p, hpl, rfl⟩ := List.mem_map.mp hx
      exact (hup.range (hl p hpl).1).mul (hl p hpl).2.2
    have := near_foldl hp (k := j + k + M + 2) (m := j + k + M + 2)
      (l := l.map fun p => (Arith.mul (Arith.mul (T p.1) (C p.1)) p.2, τ p.1 * c p.1 * F.w p.1 v)) (a := Arith.zero) (s := 0) le_rfl
      ((pow_le_pow_right₀ hq (by simp; omega)).trans hk) (near_zero hp _) (by
        intro x hx
        obtain ⟨p, hpl, rfl⟩ := List.mem_map.mp hx
        obtain ⟨h1, h2, h3⟩ := hl p hpl
        have hc := hup.crange _ h1
        have htr := hup.range h1
        have htc : Near ρ q (j + k + 1) (Arith.mul (T p.1) (C p.1)) (τ p.1 * c p.1) := by
          rcases hup.tof _ h1 with ⟨h, ht⟩ | ⟨h, z, hz⟩
          · exact near_mul hp ((pow_le_pow_right₀ hq (by omega)).trans hk) h (hup.tracer _ h1) ht.nonneg hc.nonneg
              ((ht.mul hc).mono (by omega))
          · obtain ⟨x, hx, hxc⟩ := hup.tracer _ h1
            rw [h] at hxc ⊢
            have : x = 0 := (hxc.zero_iff hq le_rfl).mpr rfl
            rw [mul_zero]
            refine (near_exact ?_).mono hp le_rfl (Nat.zero_le _)
            rw [ρ.mul, hz, hx, this]
            simp [X.mul, ρ.rnd_zero]
        have := near_mul hp ((pow_le_pow_right₀ hq (by omega)).trans hk) htc h2 htr.nonneg h3.nonneg
          ((htr.mul h3).mono (by omega))
        refine ⟨?_, mul_nonneg htr.nonneg h3.nonneg⟩
        rw [show j + k + M + 2 = j + k + 1 + M + 1 by omega]
        exact this) le_rfl (by
        intro i _
        have := range_partial hr hs (k := 1000) (by omega) (by omega) i
        rw [zero_add, ← List.map_take, List.map_map]
        rw [← List.map_take] at this
        exact this)
    rw [zero_add, List.map_map, List.map_map, List.length_map] at this
    refine this.mono hp ?_ (by omega)
    exact List.sum_nonneg fun x hx => (hr x hx).nonneg

omit ρ q hp [Arith R] in
/-- The data of a cell are of moderate size. -/
structure Sized (F : Flow K) (v : Nat) : Prop where
  total : Range 100 (F.total v)
  src : Range 100 (F.src v)
  pv : Range 100 (F.pv v)

omit ρ q hp [Arith R] in
/-- The data of a cell are of moderate size, and its fill time is not close to 200 years. -/
structure Moderate (F : Flow K) (v : Nat) : Prop extends Sized F v where
  clear : F.pv v ≤ 199 * 365 * 24 * 60 * 60 * F.total v ∨ 201 * 365 * 24 * 60 * 60 * F.total v ≤ F.pv v

omit ρ q hp [Arith R] in
/-- The equations for the exact results in a cell. -/
structure CellEqs (F : Flow K) (inj c τ : Nat → K) (v : Nat) : Prop where
  flow : F.total v * c v = (∑ u ∈ range F.n, c u * F.w u v) + inj v
  live : 0 < c v → 0 < F.total v
  slow : F.total v < F.pv v / cap ∨ c v = 0 → τ v = cap
  fast : ¬ F.total v < F.pv v / cap → 0 < c v →
    F.total v * c v * τ v = F.pv v * c v + ∑ u ∈ range F.n, τ u * c u * F.w u v
  inj : 0 ≤ inj v
  cle : c v ≤ 1
  crange : Range 300 (c v)
  trange : Range 300 (τ v)

/-- One visit to a cell. -/
theorem cell_step {d : SolverData R} {F : Flow K} {M : Nat} (hA : Approx ρ q d F M) (hM : q ^ (2 * M + 2) * 200 < 201)
    {v : Nat} (hv : v < F.n) (hm : Moderate F v) {inj c τ : Nat → K} (he : CellEqs F inj c τ v)
    {isStart : List Bool} {ls : List R} {b : Bool} (hb : isStart[v]? = some b) (hb0 : b = false → inj v = 0)
    (hb1 : b = true → 0 < F.src v ∧ ∃ a, ls[v]? = some a ∧ Near ρ q M a (inj v))
    {s : List R × List R} {T C : Nat → R} (hTC : ∀ u, F.Edge u v → s.1[u]? = some (T u) ∧ s.2[u]? = some (C u))
    {k j : Nat} (hup : Upstream (ρ := ρ) (q := q) F c τ T C k j v)
    (hk : q ^ (j + 2 * (k + 4 * M + 4) + 4 * M + 6) ≤ 2) {p : R × R} (h : cellVals d isStart ls s v = .ok p) :
    Near ρ q (k + 4 * M + 4) p.2 (c v) ∧ Near ρ q (j + 2 * (k + 4 * M + 4) + 4 * M + 6) p.1 (τ v) := by
  have hq := hp.one_le
  have hle : ∀ {i : Nat}, i ≤ j + 2 * (k + 4 * M + 4) + 4 * M + 6 → q ^ i ≤ 2 := fun hi => (pow_le_pow_right₀ hq hi).trans hk
  have hsz : sizeOfInt (v : Int) = v := by
    have := hA.int
    rw [sizeOfInt_nonneg (by omega) (by omega)]; simp
  obtain ⟨l, hrow, hlen, hl, hsum⟩ := hA.row v hv
  obtain ⟨ai, hai, hni⟩ := hA.influx v hv
  obtain ⟨as, has, hns⟩ := hA.source v hv
  obtain ⟨ap, hap, hnp⟩ := hA.pv v hv
  unfold cellVals at h
  simp only [Res.bind_eq, Res.pure_eq, hsz, rd_of_getElem? hai, rd_of_getElem? has, rd_of_getElem? hap, rd_of_getElem? hb,
    hrow, Res.ok_bind] at h
  obtain ⟨up, hup', h⟩ := Res.bind_ok_iff.mp h
  obtain ⟨contrib, hcon, h⟩ := Res.bind_ok_iff.mp h
  obtain ⟨_, _, h⟩ := Res.bind_ok_iff.mp h
  obtain ⟨_, _, h⟩ := Res.bind_ok_iff.mp h
  obtain ⟨c', hc', h⟩ := Res.bind_ok_iff.mp h
  cases h
  have hupv := upwind_foldl (T := T) (C := C) (fun x hx => by have := (hl x hx).1.1; have := hA.int; omega)
    (fun x hx => hTC _ (hl x hx).1) hup'
  obtain ⟨hu2, hu1⟩ := upwind_near hp hlen hl hup
  rw [hsum c] at hu2
  have hsumt := hsum fun u => τ u * c u
  rw [hsumt] at hu1
  have ht0 := hm.total.nonneg
  have hc0 := he.crange.nonneg
  -- the total
  have hcs : cellSource as b = as := by
    unfold cellSource
    cases b with
    | false => simp
    | true =>
      obtain ⟨x, hx, hxc⟩ := hns
      have hne : x ≠ 0 := ((hxc.pos_iff hq (hb1 rfl).1.le).mpr (hb1 rfl).1).ne'
      rw [ρ.eq, hx, val_zero' ρ]
      simp [X.eq, hne]
  rw [hcs] at hc' ⊢
  have htot : Near ρ q (2 * M + 1) (Arith.add ai as) (F.total v) :=
    near_add hp (hle (by omega)) hni (hns.mono hp hm.src.nonneg (by omega)) (hm.total.mono (by omega))
  -- the contributions
  have hsle : (∑ u ∈ range F.n, c u * F.w u v) ≤ 2 ^ 100 := by
    have h1 : F.total v * c v ≤ F.total v * 1 := mul_le_mul_of_nonneg_left he.cle ht0
    have := he.flow
    have := he.inj
    have := hm.total.le
    linarith
  have hu2 := hu2 (hle (by omega)) hsle
  have hs0 : 0 ≤ ∑ u ∈ range F.n, c u * F.w u v := by
    rw [← hsum c]
    apply List.sum_nonneg
    intro x hx
    obtain ⟨y, hy, rfl⟩ := List.mem_map.mp hx
    exact mul_nonneg (hup.crange _ (hl y hy).1).nonneg (hl y hy).2.2.nonneg
  have hcr : Range 400 (F.total v * c v) := by
    have := hm.total.mul he.crange
    exact this
  have hcn : Near ρ q (k + 2 * M + 2) contrib (F.total v * c v) := by
    unfold withLocalSource at hcon
    rw [hupv] at hcon
    cases b with
    | false =>
      simp only [Bool.false_eq_true, if_false, Res.ok.injEq] at hcon
      subst hcon
      rw [he.flow, hb0 rfl, add_zero]
      exact hu2.mono hp hs0 (by omega)
    | true =>
      obtain ⟨_, a, ha, hna⟩ := hb1 rfl
      simp only [if_true, Res.bind_eq, Res.pure_eq, rd_of_getElem? ha, Res.ok_bind, Res.ok.injEq] at hcon
      subst hcon
      rw [he.flow] at hcr ⊢
      exact near_add hp (hle (by omega)) hu2 (hna.mono hp he.inj (by omega)) (hcr.mono (by omega))
  -- the tracer
  have hcv : Near ρ q (k + 4 * M + 4) c' (c v) := by
    unfold cellTracer at hc'
    obtain ⟨x, hx, hxc⟩ := htot
    have hz := hxc.zero_iff hq ht0
    split at hc'
    · rename_i h0
      rw [ρ.eq, hx, val_zero' ρ] at h0
      simp only [X.eq, decide_eq_true_eq] at h0
      obtain ⟨_, _, hc'⟩ := Res.bind_ok_iff.mp hc'
      cases hc'
      have : c v = 0 := by
        by_contra hne
        have := he.live (lt_of_le_of_ne hc0 (Ne.symm hne))
        rw [hz.mp h0] at this
        exact _root_.lt_irrefl _ this
      rw [this]
      exact near_zero hp _
    · rename_i h0
      rw [ρ.eq, hx, val_zero' ρ] at h0
      simp only [X.eq, decide_eq_true_eq] at h0
      cases hc'
      have htp : 0 < F.total v := lt_of_le_of_ne ht0 (fun e => h0 (hz.mpr e.symm))
      have := near_div hp (hle (by omega)) hcn ⟨x, hx, hxc⟩ (mul_nonneg ht0 hc0) htp
        (by rw [mul_div_cancel_left₀ _ htp.ne']; exact he.crange.mono (by omega))
      rw [mul_div_cancel_left₀ _ htp.ne'] at this
      exact this.mono hp hc0 (by omega)
  refine ⟨hcv, ?_⟩
  -- the time of flight
  have hcap : Near ρ q 0 (maxTof : R) cap := near_exact hp.cap
  have hcap0 : (0 : K) < cap := by unfold cap; positivity
  have hcapr : Range 40 (cap : K) := by right; unfold cap; constructor <;> norm_num
  have hpvc : Near ρ q 1 (Arith.div ap maxTof) (F.pv v / cap) := by
    have := near_div hp (hle (by omega)) hnp hcap hm.pv.nonneg hcap0 ((hm.pv.div hcapr).mono (by omega))
    exact this
  have hslow := slow_iff hp hM htot hpvc ht0 hm.pv.nonneg hm.clear
  have hcapn : Near ρ q (j + 2 * (k + 4 * M + 4) + 4 * M + 6) (maxTof : R) cap := hcap.mono hp hcap0.le (by omega)
  unfold cellTof
  by_cases hsl : F.total v < F.pv v / cap
  · rw [if_pos (hslow.mpr hsl), he.slow (.inl hsl)]
    exact hcapn
  · rw [if_neg (fun e => hsl (hslow.mp e))]
    obtain ⟨x, hx, hxc⟩ := hcv
    have hpos := hxc.pos_iff hq hc0
    have hlt0 : Arith.lt Arith.zero c' = true ↔ 0 < c v := by
      rw [ρ.lt, hx, val_zero' ρ]
      simp only [X.lt, decide_eq_true_eq]
      exact hpos
    by_cases hcp : 0 < c v
    · simp only [if_pos (hlt0.mpr hcp)]
      have htp := he.live hcp
      have hcv : Near ρ q (k + 4 * M + 4) c' (c v) := ⟨x, hx, hxc⟩
      have hfast := he.fast hsl hcp
      have hden0 : 0 < F.total v * c v := mul_pos htp hcp
      have hnum : Range 701 (F.pv v * c v + ∑ u ∈ range F.n, τ u * c u * F.w u v) := by
        rw [← hfast]
        exact (hcr.mul he.trange).mono (by omega)
      have hst0 : 0 ≤ ∑ u ∈ range F.n, τ u * c u * F.w u v := by
        rw [← hsumt]
        apply List.sum_nonneg
        intro x hx
        obtain ⟨y, hy, rfl⟩ := List.mem_map.mp hx
        exact mul_nonneg (hup.range (hl y hy).1).nonneg (hl y hy).2.2.nonneg
      have hpc := mul_nonneg hm.pv.nonneg hc0
      have hstle : (∑ u ∈ range F.n, τ u * c u * F.w u v) ≤ 2 ^ 400 := by
        have h1 : F.total v * c v * τ v ≤ 2 ^ 100 * 2 ^ 300 := by
          apply mul_le_mul _ he.trange.le he.trange.nonneg (by positivity)
          have h1 : F.total v * c v ≤ F.total v * 1 := mul_le_mul_of_nonneg_left he.cle ht0
          have := hm.total.le
          linarith
        rw [← pow_add, hfast] at h1
        exact (le_add_of_nonneg_left hpc).trans h1
      have hu1 := hu1 (hle (by omega)) hstle
      have hn1 : Near ρ q (k + 4 * M + 4 + 1) (Arith.mul ap c') (F.pv v * c v) := by
        have := near_mul hp (hle (by omega)) hnp hcv hm.pv.nonneg hc0 ((hm.pv.mul he.crange).mono (by omega))
        exact this.mono hp hpc (by omega)
      have hn2 : Near ρ q (j + (k + 4 * M + 4) + 2 * M + 2 + 1) (Arith.add (Arith.mul ap c') up.1)
          (F.pv v * c v + ∑ u ∈ range F.n, τ u * c u * F.w u v) := by
        rw [hupv]
        exact near_add hp (hle (by omega)) (hn1.mono hp hpc (by omega)) (hu1.mono hp hst0 (by omega)) (hnum.mono (by omega))
      have hd1 : Near ρ q (2 * M + 1 + (k + 4 * M + 4) + 1) (Arith.mul (Arith.add ai as) c') (F.total v * c v) :=
        near_mul hp (hle (by omega)) htot hcv ht0 hc0 (hcr.mono (by omega))
      have heq : (F.pv v * c v + ∑ u ∈ range F.n, τ u * c u * F.w u v) / (F.total v * c v) = τ v := by
        rw [← hfast, mul_div_cancel_left₀ _ hden0.ne']
      have := near_div hp (hle (by omega)) hn2 hd1 (add_nonneg hpc hst0) hden0
        (by rw [heq]; exact he.trange.mono (by omega))
      rw [heq] at this
      exact this.mono hp he.trange.nonneg (by omega)
    · have : c v = 0 := le_antisymm (not_lt.mp hcp) hc0
      simp only [if_neg (fun e => hcp (hlt0.mp e)), he.slow (.inr this)]
      exact hcapn

end Verif.Rounding
