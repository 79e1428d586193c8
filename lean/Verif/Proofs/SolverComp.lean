/-
Exact numbers: what holds cell by cell after each component has been solved.
-/
import Verif.Proofs.SolverK

namespace Verif.Solver
open Finset Verif.Spec

namespace Sys
variable {K : Type} [Field K] [LinearOrder K]

/-- What holds in a cell `v` of component `C` once `C` has been solved. -/
structure CellOK (S : Sys K) (tolT tolC : K) (C : List Nat) (s : St K) (v : Nat) : Prop where
  dead : S.Dead v → s.2 v = 0
  sub : S.total v * s.2 v ≤ S.csum s.2 v + S.inj v
  res : ¬ S.Dead v → 2 ≤ C.length →
    S.csum s.2 v + S.inj v - S.total v * s.2 v ≤ tolC * S.within C v
  exact : C = [v] → ¬ S.Dead v → S.total v * s.2 v = S.csum s.2 v - s.2 v * S.w v v + S.inj v
  pos : ¬ S.Dead v → (0 < S.inj v ∨ ∃ u < S.n, 0 < s.2 u ∧ 0 < S.w u v) → 0 < s.2 v
  cap : S.Slow v ∨ s.2 v = 0 → s.1 v = S.M
  tsub : ¬ S.Slow v → 0 < s.2 v → S.total v * s.2 v * s.1 v ≤ S.pv v * s.2 v + S.ysum s v
  tres : ¬ S.Slow v → 0 < s.2 v → 2 ≤ C.length →
    S.pv v * s.2 v + S.ysum s v - S.total v * s.2 v * s.1 v ≤
      ∑ u ∈ range S.n, if u ∈ C then (s.1 u * tolC + s.2 u * tolT) * S.w u v else 0
  texact : C = [v] → ¬ S.Slow v → 0 < s.2 v →
    S.total v * s.2 v * s.1 v = S.pv v * s.2 v + S.ysum s v - s.1 v * s.2 v * S.w v v
  tlow : ¬ S.Slow v → 0 < s.2 v → S.pv v ≤ S.total v * s.1 v

variable [IsStrictOrderedRing K] {S : Sys K} {s : St K} {v : Nat} {B : K} {tolT tolC : K} {C : List Nat}

/-- `CellOK` depends on the cell and its upwind neighbours only. -/
theorem CellOK.congr (h : S.Ok) (hc : S.CellOK tolT tolC C s v) (hvn : v < S.n) {s' : St K}
    (hv : s'.1 v = s.1 v ∧ s'.2 v = s.2 v)
    (hu : ∀ u < S.n, 0 < S.w u v → s'.1 u = s.1 u ∧ s'.2 u = s.2 u) : S.CellOK tolT tolC C s' v := by
  have hz : ∀ u ∈ range S.n, S.w u v = 0 ∨ (s'.1 u = s.1 u ∧ s'.2 u = s.2 u) := by
    intro u hur
    have hur := mem_range.mp hur
    by_cases hw : 0 < S.w u v
    · exact Or.inr (hu u hur hw)
    · exact Or.inl (le_antisymm (not_lt.mp hw) (h.w_nonneg u v hur hvn))
  have h1 : S.csum s'.2 v = S.csum s.2 v := by
    apply sum_congr rfl
    intro u hur
    rcases hz u hur with e | e
    · rw [e, mul_zero, mul_zero]
    · rw [e.2]
  have h2 : S.ysum s' v = S.ysum s v := by
    apply sum_congr rfl
    intro u hur
    rcases hz u hur with e | e
    · rw [e, mul_zero, mul_zero]
    · rw [e.1, e.2]
  have h3 : (∑ u ∈ range S.n, if u ∈ C then (s'.1 u * tolC + s'.2 u * tolT) * S.w u v else 0)
      = ∑ u ∈ range S.n, if u ∈ C then (s.1 u * tolC + s.2 u * tolT) * S.w u v else 0 := by
    apply sum_congr rfl
    intro u hur
    rcases hz u hur with e | e
    · rw [e, mul_zero, mul_zero]
    · rw [e.1, e.2]
  constructor
  · rw [hv.2]; exact hc.dead
  · rw [hv.2, h1]; exact hc.sub
  · rw [hv.2, h1]; exact hc.res
  · rw [hv.2, h1]; exact hc.exact
  · intro hd hp
    rw [hv.2]
    refine hc.pos hd (hp.imp id ?_)
    rintro ⟨u, hun, hcu, hw⟩
    exact ⟨u, hun, by rw [← (hu u hun hw).2]; exact hcu, hw⟩
  · rw [hv.1, hv.2]; exact hc.cap
  · rw [hv.1, hv.2, h2]; exact hc.tsub
  · rw [hv.1, hv.2, h2, h3]; exact hc.tres
  · rw [hv.1, hv.2, h2]; exact hc.texact
  · rw [hv.1, hv.2]; exact hc.tlow

/-- From the state `t` between two sweeps to the facts about the cell. -/
theorem Ok.tNew_cap (h : S.Ok) (hn : S.NonNeg s) (hv : v < S.n) (hc : S.Slow v ∨ S.cNew s.2 v = 0) :
    S.tNew s v = S.M := by
  unfold tNew
  split
  · rfl
  split
  · rfl
  · rename_i hsl
    rcases hc with hc | hc
    · exact absurd hc hsl
    · rw [hc, if_neg (lt_irrefl _)]

theorem not_dead_of_pos (hp : 0 < S.cNew s.2 v) : ¬ S.Dead v := by
  intro hd; unfold cNew at hp; rw [if_pos hd] at hp; exact lt_irrefl _ hp

theorem Ok.tNew_eq (h : S.Ok) (hv : v < S.n) (hsl : ¬ S.Slow v) (hp : 0 < S.cNew s.2 v) :
    S.total v * S.cNew s.2 v * S.tNew s v = S.pv v * S.cNew s.2 v + S.ysum s v := by
  have hd := not_dead_of_pos hp
  have ht := h.total_ne hv hp
  unfold tNew; rw [if_neg hd, if_neg hsl, if_pos hp]
  field_simp

/-- A visit takes at least the time to fill the cell. -/
theorem Ok.tNew_low (h : S.Ok) (hn : S.NonNeg s) (hv : v < S.n) (hsl : ¬ S.Slow v) (hp : 0 < S.cNew s.2 v) :
    S.pv v ≤ S.total v * S.tNew s v := by
  have h1 := h.tNew_eq hv hsl hp
  have h2 := h.ysum_nonneg hn hv
  refine le_of_mul_le_mul_right ?_ hp
  linarith [mul_right_comm (S.total v) (S.cNew s.2 v) (S.tNew s v)]

/-- A single cell, updated once from zero. -/
theorem Ok.single_cellOK (h : S.Ok) (hn : S.NonNeg s) (hv : v < S.n) (h0 : s.1 v = 0 ∧ s.2 v = 0) :
    S.CellOK tolT tolC [v] (S.upd s v) v := by
  have hc0 := h.cNew_nonneg hn hv
  have hm := mem_range.mpr hv
  have hcs : S.csum (S.upd s v).2 v = S.csum s.2 v + S.cNew s.2 v * S.w v v := by
    unfold csum
    rw [← add_sum_erase _ _ hm, ← add_sum_erase (range S.n) (fun u => s.2 u * S.w u v) hm, upd_self.2, h0.2]
    have : ∑ u ∈ (range S.n).erase v, (S.upd s v).2 u * S.w u v = ∑ u ∈ (range S.n).erase v, s.2 u * S.w u v :=
      sum_congr rfl fun u hu => by rw [(upd_other (ne_of_mem_erase hu)).2]
    rw [this]; ring
  have hys : S.ysum (S.upd s v) v = S.ysum s v + S.tNew s v * S.cNew s.2 v * S.w v v := by
    unfold ysum
    rw [← add_sum_erase _ _ hm, ← add_sum_erase (range S.n) (fun u => s.1 u * s.2 u * S.w u v) hm,
      upd_self.2, upd_self.1, h0.2]
    have : ∑ u ∈ (range S.n).erase v, (S.upd s v).1 u * (S.upd s v).2 u * S.w u v
        = ∑ u ∈ (range S.n).erase v, s.1 u * s.2 u * S.w u v :=
      sum_congr rfl fun u hu => by
        rw [(upd_other (ne_of_mem_erase hu)).2, (upd_other (ne_of_mem_erase hu)).1]
    rw [this]; ring
  have hww := h.w_nonneg v v hv hv
  have hcw : 0 ≤ S.cNew s.2 v * S.w v v := mul_nonneg hc0 hww
  constructor
  · intro hd; rw [upd_self.2]; unfold cNew; rw [if_pos hd]
  · rw [upd_self.2, hcs]
    by_cases hd : S.Dead v
    · have h1 := h.csum_nonneg hn hv
      have h2 := h.inj_nonneg hv
      have h3 : S.cNew s.2 v = 0 := by unfold cNew; rw [if_pos hd]
      rw [h3] at hcw ⊢; linarith
    · have := h.cNew_eq hv hd s.2
      linarith
  · intro _ hl; simp at hl
  · intro _ hd; rw [upd_self.2, hcs]; have := h.cNew_eq hv hd s.2; linarith
  · intro hd hp
    rw [upd_self.2]
    rcases hp with hp | ⟨u, hu, hcu, hw⟩
    · exact h.cNew_pos hn hv hd (Or.inl hp)
    · by_cases e : u = v
      · subst e; rw [upd_self.2] at hcu; exact hcu
      · rw [(upd_other e).2] at hcu
        exact h.cNew_pos hn hv hd (Or.inr ⟨u, hu, hcu, hw⟩)
  · intro hc; rw [upd_self.2] at hc; rw [upd_self.1]; exact h.tNew_cap hn hv hc
  · intro hsl hp
    rw [upd_self.2] at hp ⊢; rw [upd_self.1, hys]
    have h1 := h.tNew_eq hv hsl hp
    have h2 : 0 ≤ S.tNew s v * S.cNew s.2 v * S.w v v := mul_nonneg (mul_nonneg (h.tNew_nonneg hn hv) hc0) hww
    linarith
  · intro _ _ hl; simp at hl
  · intro _ hsl hp
    rw [upd_self.2] at hp ⊢; rw [upd_self.1, hys]
    have h1 := h.tNew_eq hv hsl hp
    linarith
  · intro hsl hp
    rw [upd_self.2] at hp; rw [upd_self.1]
    exact h.tNew_low hn hv hsl hp

/-- A cell of a component whose iteration met the stopping criterion. -/
theorem Ok.multi_cellOK (h : S.Ok) (hC : ∀ v ∈ C, v < S.n) (hnd : C.Nodup) (hl : 2 ≤ C.length)
    (hn : S.NonNeg s) (hs : S.Sub C s) (hcv : Conv C tolT tolC s (S.sweep C s)) (hv : v ∈ C) :
    S.CellOK tolT tolC C (S.sweep C s) v := by
  have hvn := hC v hv
  obtain ⟨t, htn, hst, hts, hto, e1, e2⟩ := h.sweep_between hC hnd hn hs hv
  have hn' := (h.foldl_sub hC C s hn hs fun v hv => hv).1
  set s' := S.sweep C s with hs'
  have hn' : S.NonNeg s' := hn'
  have hout : ∀ u, u ∉ C → s'.1 u = t.1 u ∧ s'.2 u = t.2 u := by
    intro u hu
    have h1 := sweep_other (S := S) (s := s) hu
    have h2 := hto u hu
    exact ⟨h1.1.trans h2.1.symm, h1.2.trans h2.2.symm⟩
  have hnotone : C ≠ [v] := by intro e; rw [e] at hl; simp at hl
  -- tracer: difference of the sums
  have hc_le : S.csum t.2 v ≤ S.csum s'.2 v :=
    sum_le_sum fun u hu => mul_le_mul_of_nonneg_right (hts u (mem_range.mp hu)).1
      (h.w_nonneg u v (mem_range.mp hu) hvn)
  have hc_ge : S.csum s'.2 v ≤ S.csum t.2 v + tolC * S.within C v := by
    unfold csum within
    rw [mul_sum, ← sum_add_distrib]
    apply sum_le_sum
    intro u hu
    have hu := mem_range.mp hu
    have hw := h.w_nonneg u v hu hvn
    by_cases huC : u ∈ C
    · rw [if_pos huC]
      have h1 := le_trans (le_abs_self _) (hcv.tracer u huC)
      have h2 := (hst u hu).1
      nlinarith
    · rw [if_neg huC, (hout u huC).2, mul_zero, add_zero]
  have hy_le : S.ysum t v ≤ S.ysum s' v :=
    sum_le_sum fun u hu => mul_le_mul_of_nonneg_right (hts u (mem_range.mp hu)).2
      (h.w_nonneg u v (mem_range.mp hu) hvn)
  have hy_ge : S.ysum s' v ≤ S.ysum t v
      + ∑ u ∈ range S.n, if u ∈ C then (s'.1 u * tolC + s'.2 u * tolT) * S.w u v else 0 := by
    unfold ysum
    rw [← sum_add_distrib]
    apply sum_le_sum
    intro u hu
    have hu := mem_range.mp hu
    have hw := h.w_nonneg u v hu hvn
    by_cases huC : u ∈ C
    · rw [if_pos huC, ← add_mul]
      apply mul_le_mul_of_nonneg_right _ hw
      have h1 := le_trans (le_abs_self _) (hcv.tracer u huC)
      have h2 := le_trans (le_abs_self _) (hcv.tof u huC)
      have h3 : y s u ≤ y t u := (hst u hu).2
      have h3' : s.1 u * s.2 u ≤ t.1 u * t.2 u := h3
      have h4 : s.2 u ≤ s'.2 u := le_trans (hst u hu).1 (hts u hu).1
      have h5 := (hn u hu).2
      have h6 := (hn' u hu).1
      have hT : 0 ≤ tolT := le_trans (abs_nonneg _) (hcv.tof u huC)
      -- y' - y = τ' (c' - c) + (τ' - τ) c
      have h7 : s'.1 u * (s'.2 u - s.2 u) ≤ s'.1 u * tolC := mul_le_mul_of_nonneg_left h1 h6
      have h8 : (s'.1 u - s.1 u) * s.2 u ≤ tolT * s.2 u := mul_le_mul_of_nonneg_right h2 h5
      have h9 : tolT * s.2 u ≤ tolT * s'.2 u := mul_le_mul_of_nonneg_left h4 hT
      nlinarith
    · rw [if_neg huC, (hout u huC).1, (hout u huC).2, add_zero]
  constructor
  · intro hd; rw [e2]; unfold cNew; rw [if_pos hd]
  · rw [e2]
    by_cases hd : S.Dead v
    · have h3 : S.cNew t.2 v = 0 := by unfold cNew; rw [if_pos hd]
      rw [h3, mul_zero]
      exact add_nonneg (h.csum_nonneg hn' hvn) (h.inj_nonneg hvn)
    · have := h.cNew_eq hvn hd t.2
      linarith
  · intro hd _
    rw [e2]; have := h.cNew_eq hvn hd t.2; linarith
  · intro e; exact absurd e hnotone
  · intro hd hp
    rw [e2]
    refine h.cNew_pos htn hvn hd (hp.imp id ?_)
    rintro ⟨u, hu, hcu, hw⟩
    refine ⟨u, hu, ?_, hw⟩
    by_cases huC : u ∈ C
    · have h1 : s.2 u ≠ 0 := fun h0 => (ne_of_gt hcu) ((hcv.zero u huC).mp h0)
      have h2 : 0 < s.2 u := lt_of_le_of_ne (hn u hu).2 (Ne.symm h1)
      exact lt_of_lt_of_le h2 (hst u hu).1
    · rw [← (hout u huC).2]; exact hcu
  · intro hc; rw [e2] at hc; rw [e1]; exact h.tNew_cap htn hvn hc
  · intro hsl hp
    rw [e2] at hp ⊢; rw [e1]
    have := h.tNew_eq hvn hsl hp
    linarith
  · intro hsl hp _
    rw [e2] at hp ⊢; rw [e1]
    have := h.tNew_eq hvn hsl hp
    linarith
  · intro e; exact absurd e hnotone
  · intro hsl hp
    rw [e2] at hp; rw [e1]
    exact h.tNew_low htn hvn hsl hp

/-- State of the solver after the components in `done`. -/
structure Inv (S : Sys K) (B tolT tolC : K) (done : List (List Nat)) (s : St K) : Prop where
  nonneg : S.NonNeg s
  le : ∀ v < S.n, s.2 v ≤ B
  fresh : ∀ v, v ∉ done.flatten → s.1 v = 0 ∧ s.2 v = 0
  cells : ∀ D ∈ done, ∀ v ∈ D, S.CellOK tolT tolC D s v
  reach : ∀ v < S.n, 0 < s.2 v → ∃ p, p < S.n ∧ S.start p = true ∧ 0 < S.ls p ∧ 0 < S.src p ∧ S.Reach p v

theorem Inv.init (hB : S.Bounded B) : S.Inv B tolT tolC [] (fun _ => 0, fun _ => 0) := by
  constructor
  · intro v _; exact ⟨le_refl _, le_refl _⟩
  · intro v _; exact le_trans zero_le_one hB.one
  · intro v _; exact ⟨rfl, rfl⟩
  · intro D hD; simp at hD
  · intro v _ hp; exact absurd hp (lt_irrefl _)

/-- The reach property is kept by every update. -/
theorem Ok.upd_reach (h : S.Ok) (hn : S.NonNeg s) (hv : v < S.n)
    (hr : ∀ v < S.n, 0 < s.2 v → ∃ p, p < S.n ∧ S.start p = true ∧ 0 < S.ls p ∧ 0 < S.src p ∧ S.Reach p v) :
    ∀ u < S.n, 0 < (S.upd s v).2 u → ∃ p, p < S.n ∧ S.start p = true ∧ 0 < S.ls p ∧ 0 < S.src p ∧ S.Reach p u := by
  intro u hu hp
  by_cases e : u = v
  · subst e
    rw [upd_self.2] at hp
    rcases h.cNew_pos_imp hn hu hp with ⟨h1, h2, h3⟩ | ⟨x, hx, h1, h2⟩
    · exact ⟨u, hu, h1, h2, h3, .refl⟩
    · obtain ⟨p, hp1, hp2, hp3, hp4, hp5⟩ := hr x hx h1
      exact ⟨p, hp1, hp2, hp3, hp4, hp5.tail ⟨hx, hu, h2⟩⟩
  · rw [(upd_other e).2] at hp; exact hr u hu hp

/-- The cells already done are not affected by changes to cells not upwind of them. -/
theorem Inv.cells_congr (h : S.Ok) {done : List (List Nat)} (hi : S.Inv B tolT tolC done s)
    (hd : ∀ v ∈ done.flatten, v < S.n)
    (hup : ∀ x ∈ C, ∀ v ∈ done.flatten, ¬ 0 < S.w x v) (hnew : ∀ x ∈ C, x ∉ done.flatten)
    {s' : St K} (hs : ∀ u, u ∉ C → s'.1 u = s.1 u ∧ s'.2 u = s.2 u) :
    ∀ D ∈ done, ∀ v ∈ D, S.CellOK tolT tolC D s' v := by
  intro D hD v hv
  have hvf : v ∈ done.flatten := List.mem_flatten.mpr ⟨D, hD, hv⟩
  refine (hi.cells D hD v hv).congr h (hd v hvf) (hs v fun hx => hnew v hx hvf) ?_
  intro u _ hw
  exact hs u fun hx => hup u hx v hvf hw

theorem Inv.single (h : S.Ok) (hB : S.Bounded B) {done : List (List Nat)} (hi : S.Inv B tolT tolC done s)
    (hd : ∀ v ∈ done.flatten, v < S.n) (hv : v < S.n) (hnew : v ∉ done.flatten)
    (hup : ∀ u ∈ done.flatten, ¬ 0 < S.w v u) : S.Inv B tolT tolC (done ++ [[v]]) (S.upd s v) := by
  constructor
  · exact h.upd_nonneg hi.nonneg hv
  · intro u hu
    by_cases e : u = v
    · subst e; rw [upd_self.2]; exact h.cNew_le hB hi.nonneg hi.le hu
    · rw [(upd_other e).2]; exact hi.le u hu
  · intro u hu
    simp only [List.flatten_append, List.flatten_cons, List.flatten_nil, List.append_nil, List.mem_append,
      List.mem_singleton, not_or] at hu
    rw [(upd_other hu.2).1, (upd_other hu.2).2]; exact hi.fresh u hu.1
  · intro D hD u hu
    rcases List.mem_append.mp hD with hD | hD
    · refine hi.cells_congr (C := [v]) h hd ?_ ?_ ?_ D hD u hu
      · intro x hx; rw [List.mem_singleton] at hx; rw [hx]; exact hup
      · intro x hx; rw [List.mem_singleton] at hx; rw [hx]; exact hnew
      · intro x hx; rw [List.mem_singleton] at hx; exact upd_other hx
    · rw [List.mem_singleton] at hD; subst hD
      rw [List.mem_singleton] at hu; subst hu
      exact h.single_cellOK hi.nonneg hv (hi.fresh u hnew)
  · exact h.upd_reach hi.nonneg hv hi.reach

theorem Inv.begin {done : List (List Nat)} (hi : S.Inv B tolT tolC done s) (hC : ∀ v ∈ C, v < S.n)
    (hnd : C.Nodup) (hnew : ∀ x ∈ C, x ∉ done.flatten) (hcon : S.Connected C)
    (ht : ∀ v ∈ C, 0 < S.total v) : S.Begin B C s :=
  ⟨hC, hnd, hi.nonneg, hi.le, fun v hv => hi.fresh v (hnew v hv), hcon, ht⟩

theorem Inv.multi (h : S.Ok) (hB : S.Bounded B) {done : List (List Nat)} (hi : S.Inv B tolT tolC done s)
    (hd : ∀ v ∈ done.flatten, v < S.n) (hb : S.Begin B C s) (hl : 2 ≤ C.length)
    (hnew : ∀ x ∈ C, x ∉ done.flatten) (hup : ∀ x ∈ C, ∀ u ∈ done.flatten, ¬ 0 < S.w x u) {k : Nat}
    (hcv : Conv C tolT tolC ((S.sweep C)^[k] s) ((S.sweep C)^[k + 1] s)) :
    S.Inv B tolT tolC (done ++ [C]) ((S.sweep C)^[k + 1] s) := by
  obtain ⟨h1, h2⟩ := hb.iter_le h hB (k + 1)
  have hot : ∀ u, u ∉ C → ((S.sweep C)^[k + 1] s).1 u = s.1 u ∧ ((S.sweep C)^[k + 1] s).2 u = s.2 u :=
    fun u hu => iter_other hu (k + 1)
  constructor
  · exact h1
  · exact h2
  · intro u hu
    simp only [List.flatten_append, List.flatten_cons, List.flatten_nil, List.append_nil, List.mem_append,
      not_or] at hu
    rw [(hot u hu.2).1, (hot u hu.2).2]; exact hi.fresh u hu.1
  · intro D hD u hu
    rcases List.mem_append.mp hD with hD | hD
    · exact hi.cells_congr h hd hup hnew hot D hD u hu
    · rw [List.mem_singleton] at hD; subst hD
      obtain ⟨g1, g2⟩ := h.iter_sub hb.lt hb.nonneg (hb.sub h) k
      rw [Function.iterate_succ_apply'] at hcv ⊢
      exact h.multi_cellOK hb.lt hb.nodup hl g1 g2 hcv hu
  · have := iter_inv (S := S) (C := C) (fun s => S.NonNeg s ∧ ∀ v < S.n, 0 < s.2 v →
      ∃ p, p < S.n ∧ S.start p = true ∧ 0 < S.ls p ∧ 0 < S.src p ∧ S.Reach p v) ?_ ⟨hi.nonneg, hi.reach⟩ (k + 1)
    · exact this.2
    · rintro t ⟨t1, t2⟩ v hv
      exact ⟨h.upd_nonneg t1 (hb.lt v hv), h.upd_reach t1 (hb.lt v hv) t2⟩

end Sys
end Verif.Solver
