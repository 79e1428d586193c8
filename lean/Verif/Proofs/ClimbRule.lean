/-
Visits as monotone updates.
-/
import Verif.Proofs.ClimbVisit
import Verif.Proofs.Climb

namespace Verif.Rounding
set_option linter.unusedSectionVars false
open Finset Verif.Spec Verif.Solver Verif.Toolbox Verif.Tarjan

variable {R : Type} [Arith R] {K : Type} [Field K] [LinearOrder K] [IsStrictOrderedRing K]

/-- The fields after a visit. -/
def after (d : SolverData R) (isStart : List Bool) (ls : List R) (v : Nat) (s : List R × List R) : List R × List R :=
  match solveSingleCell d isStart ls s (v : Int) with
  | .ok t => t
  | _ => s

namespace Setting
variable {ρ : Rounded R K} {q : K} {d : SolverData R} {F : Flow K} {M : Nat} {isStart : List Bool} {ls : List R}
  {S : Nat → Prop} {inj x h : Nat → K} {H φ : K} (A : Setting ρ q d F M isStart ls S inj x h H φ)
include A

theorem after_eq {s : List R × List R} (hs : Ready ρ F.n s) {v : Nat} (hv : v < F.n) :
    ∃ p, cellVals d isStart ls s (v : Int) = .ok p ∧ solveSingleCell d isStart ls s (v : Int) = .ok (after d isStart ls v s) ∧
      after d isStart ls v s = (s.1.set v p.1, s.2.set v p.2) ∧ Ready ρ F.n (after d isStart ls v s) ∧
      (after d isStart ls v s).1[v]? = some p.1 ∧ (after d isStart ls v s).2[v]? = some p.2 ∧
      ∀ u, u ≠ v → (after d isStart ls v s).1[u]? = s.1[u]? ∧ (after d isStart ls v s).2[u]? = s.2[u]? := by
  obtain ⟨p, h1, h2, h3⟩ := A.visit hs hv
  have e : after d isStart ls v s = (s.1.set v p.1, s.2.set v p.2) := by unfold after; rw [h2]
  rw [e]
  refine ⟨p, h1, h2, rfl, h3, ?_, ?_, ?_⟩
  · simp only; rw [List.getElem?_set_self (by rw [hs.tofLen]; exact hv)]
  · simp only; rw [List.getElem?_set_self (by rw [hs.tracerLen]; exact hv)]
  · intro u hu
    simp only
    rw [List.getElem?_set_ne (Ne.symm hu), List.getElem?_set_ne (Ne.symm hu)]
    exact ⟨rfl, rfl⟩

theorem row_fin {v : Nat} (hv : v < F.n) {nb : List (Int × R)} (h : d.gReverse.cellNeighbourhood (v : Int) = .ok nb) :
    ∀ e ∈ nb, Fin ρ e.2 ∧ Pos ρ e.2 := by
  obtain ⟨l, h1, _, h3, _⟩ := A.approx.row v hv
  rw [h1] at h
  cases h
  intro e he
  obtain ⟨p, hp, rfl⟩ := List.mem_map.mp he
  obtain ⟨⟨_, _, hw⟩, ⟨y, hy, hc⟩, _⟩ := h3 p hp
  refine ⟨⟨y, hy⟩, ?_⟩
  unfold Pos
  simp only
  rw [hy]
  simpa [X.lt] using (hc.pos_iff A.precise.one_le hw.le).mpr hw

omit A in
theorem num_entry {n : Nat} {s : List R × List R} (hs : Ready ρ n s) {i : Nat} {a : R} (ha : s.2[i]? = some a) :
    ρ.val a = X.fin (cn ρ s i) ∧ 0 ≤ cn ρ s i ∧ NotNegative a := by
  have hi : i < n := by
    have := (List.getElem?_eq_some_iff.mp ha).1
    rw [hs.tracerLen] at this; exact this
  obtain ⟨_, c, _, h2, h3, h4, _⟩ := hs.at hi
  rw [ha] at h2; cases h2
  refine ⟨h3, h4, ?_⟩
  rw [notNegative_iff ρ, h3]
  simp only [X.lt, decide_eq_false_iff_not, not_lt]
  exact h4

/-- Concentrations grow with those upstream. -/
theorem conc_rule {C : List Nat} (hC : ∀ v ∈ C, v < F.n) : Climb.Rule (after d isStart ls) (cn ρ) C (Ready ρ F.n) where
  keep := fun s v hv hs => by
    obtain ⟨p, _, _, _, h, _⟩ := A.after_eq hs (hC v hv); exact h
  frame := fun s v hv hs u hu => by
    obtain ⟨p, _, _, _, _, _, _, h⟩ := A.after_eq hs (hC v hv)
    unfold cn; rw [(h u hu).2]
  mono := fun s s' v hv hs hs' hle => by
    have hvn := hC v hv
    obtain ⟨p, h1, _, _, h2, _, h3, _⟩ := A.after_eq hs hvn
    obtain ⟨p', h1', _, _, h2', _, h3', _⟩ := A.after_eq hs' hvn
    have key := cell_mono_tracer ρ (fun nb hnb e he => ⟨(A.row_fin hvn hnb e he).2.notNegative, (A.row_fin hvn hnb e he).1.num⟩) (by
      intro i a a' ha ha'
      obtain ⟨e1, _, e3⟩ := num_entry hs ha
      obtain ⟨e1', _, _⟩ := num_entry hs' ha'
      refine ⟨e3, Fin.num ρ ⟨_, e1⟩, Fin.num ρ ⟨_, e1'⟩, ?_⟩
      rw [ρ.lt, e1, e1']
      simp only [X.lt, decide_eq_false_iff_not, not_lt]
      exact hle i) h1 h1'
    have e1 := (num_entry h2 h3).1
    have e1' := (num_entry h2' h3').1
    rw [ρ.lt, e1, e1'] at key
    simpa only [X.lt, decide_eq_false_iff_not, not_lt] using key

theorem conc_congr {s s' : List R × List R} (hs : Ready ρ F.n s) (hs' : Ready ρ F.n s') (he : ∀ u, cn ρ s u = cn ρ s' u) {v : Nat}
    (hv : v < F.n) : cn ρ (after d isStart ls v s) v = cn ρ (after d isStart ls v s') v := by
  have hr := A.conc_rule (C := [v]) (by simpa using hv)
  exact le_antisymm (hr.mono s s' v (by simp) hs hs' fun u => (he u).le) (hr.mono s' s v (by simp) hs' hs fun u => (he u).ge)

/-- Times of flight grow with those upstream. -/
theorem time_mono {B : Nat → K} {s s' : List R × List R} (hs : Ready ρ F.n s) (hs' : Ready ρ F.n s') (ht : Timely ρ F.n B s)
    (ht' : Timely ρ F.n B s') (hc : ∀ u, cn ρ s u = cn ρ s' u) (hle : ∀ u, tn ρ s u ≤ tn ρ s' u) {v : Nat} (hv : v < F.n)
    {p p' : R × R} (h : cellVals d isStart ls s (v : Int) = .ok p) (h' : cellVals d isStart ls s' (v : Int) = .ok p') :
    Arith.lt p'.1 p.1 = false := by
  have entry : ∀ {s : List R × List R}, Ready ρ F.n s → Timely ρ F.n B s → ∀ {i : Nat} {a : R}, s.1[i]? = some a →
      ρ.val a = X.fin (tn ρ s i) ∧ 0 ≤ tn ρ s i ∧ NotNegative a := by
    intro s hs ht i a ha
    have hi : i < F.n := by
      have := (List.getElem?_eq_some_iff.mp ha).1
      rw [hs.tofLen] at this; exact this
    obtain ⟨b, h1, h2, h3, _⟩ := ht i hi
    rw [ha] at h1; cases h1
    refine ⟨h2, h3, ?_⟩
    rw [notNegative_iff ρ, h2]
    simp only [X.lt, decide_eq_false_iff_not, not_lt]
    exact h3
  have timed : ∀ {s : List R × List R}, Ready ρ F.n s → Timely ρ F.n B s → Timed ρ s := by
    intro s hs ht i t c h1 h2
    obtain ⟨e1, _, _⟩ := entry hs ht h1
    exact ⟨Fin.num ρ ⟨_, e1⟩, fun e => by rw [e1] at e; cases e⟩
  have up : ∀ {s : List R × List R}, Ready ρ F.n s → Timely ρ F.n B s → ∀ nb up, d.gReverse.cellNeighbourhood (v : Int) = .ok nb →
      forEach nb (Arith.zero, Arith.zero) (addUpwind s.1 s.2) = .ok up → NotNegative up.1 ∧ Num ρ up.1 := by
    intro s hs ht nb up hnb hup
    refine ⟨?_, upwind_num ρ hs.proper (timed hs ht) (A.row_fin hv hnb) (Fin.num ρ ⟨0, val_zero' ρ⟩) (zero_notNegative ρ) hup⟩
    exact (upwind_bounds ρ hs.proper.bounded (fun e he => (A.row_fin hv hnb e he).2.notNegative) (zero_notNegative ρ) (zero_notNegative ρ)
      (lt_irrefl ρ _) hup).1
  obtain ⟨p1, g1, _, _, g2, _, g3, _⟩ := A.after_eq hs hv
  rw [h] at g1; cases g1
  obtain ⟨p1', g1', _, _, g2', _, g3', _⟩ := A.after_eq hs' hv
  rw [h'] at g1'; cases g1'
  have e1 := (num_entry g2 g3).1
  have e1' := (num_entry g2' g3').1
  refine cell_mono_time ρ (fun nb hnb e he => ⟨(A.row_fin hv hnb e he).2.notNegative, (A.row_fin hv hnb e he).1.num⟩) ?_ ?_ ?_
    (up hs ht) (fun nb u hnb hu => (up hs' ht' nb u hnb hu).2) h h' (by rw [e1, e1', A.conc_congr hs hs' hc hv]) ⟨_, e1⟩
  · intro a ha
    refine ⟨A.fits.pv a ha, ?_⟩
    obtain ⟨i, hi⟩ := List.mem_iff_getElem?.mp ha
    have hin : i < F.n := by
      have := (List.getElem?_eq_some_iff.mp hi).1
      rw [A.fits.pvSize] at this; exact this
    obtain ⟨b, hb, y, hy, _⟩ := A.approx.pv i hin
    rw [hi] at hb; cases hb
    exact ⟨y, hy⟩
  · intro i a a' ha ha'
    obtain ⟨f1, _, f3⟩ := num_entry hs ha
    obtain ⟨f1', _, _⟩ := num_entry hs' ha'
    exact ⟨f3, ⟨_, f1⟩, by rw [f1, f1', hc i]⟩
  · intro i a a' ha ha'
    obtain ⟨f1, _, f3⟩ := entry hs ht ha
    obtain ⟨f1', _, _⟩ := entry hs' ht' ha'
    refine ⟨f3, ⟨_, f1⟩, ⟨_, f1'⟩, ?_⟩
    rw [ρ.lt, f1, f1']
    simp only [X.lt, decide_eq_false_iff_not, not_lt]
    exact hle i

/-- Nothing flows in, and nothing is stored. -/
theorem visit_zero {s : List R × List R} (hs : Ready ρ F.n s) {v : Nat} (hv : v < F.n) (hc : ∀ u, F.Edge u v → cn ρ s u = 0)
    (hi : inj v = 0) {p : R × R} (hp : cellVals d isStart ls s (v : Int) = .ok p) : ρ.val p.2 = X.fin 0 := by
  have hq := A.precise.one_le
  obtain ⟨b, hb, hb0, hb1⟩ := A.start v hv
  obtain ⟨u1, u2⟩ := A.upstream hs (v := v)
  obtain ⟨l, hrow, hlen, hl, hsum⟩ := A.approx.row v hv
  obtain ⟨ai, hai, hni⟩ := A.approx.influx v hv
  obtain ⟨as, has, hns⟩ := A.approx.source v hv
  obtain ⟨ap, hap, hnp⟩ := A.approx.pv v hv
  unfold cellVals at hp
  simp only [Res.bind_eq, Res.pure_eq, A.sizeInt hv, rd_of_getElem? hai, rd_of_getElem? has, rd_of_getElem? hap, rd_of_getElem? hb,
    hrow, Res.ok_bind] at hp
  obtain ⟨up, hup', hp⟩ := Res.bind_ok_iff.mp hp
  obtain ⟨contrib, hcon, hp⟩ := Res.bind_ok_iff.mp hp
  obtain ⟨_, _, hp⟩ := Res.bind_ok_iff.mp hp
  obtain ⟨_, _, hp⟩ := Res.bind_ok_iff.mp hp
  obtain ⟨c', hc', hp⟩ := Res.bind_ok_iff.mp hp
  cases hp
  have hupv := upwind_foldl (T := fun u => (s.1[u]?).getD Arith.zero) (C := fun u => (s.2[u]?).getD Arith.zero)
    (fun x hx => by have := (hl x hx).1.1; have := A.approx.int; omega) (fun x hx => u1 _ (hl x hx).1) hup'
  have hz : ∀ (l' : List (Nat × R)), (∀ p ∈ l', p ∈ l) → ∀ a : R, ρ.val a = X.fin 0 →
      ρ.val ((l'.map fun p => Arith.mul ((s.2[p.1]?).getD Arith.zero) p.2).foldl Arith.add a) = X.fin 0 := by
    intro l'
    induction l' with
    | nil => intro _ a ha; exact ha
    | cons p l' ih =>
      intro hl' a ha
      rw [List.map_cons, List.foldl_cons]
      refine ih (fun x hx => hl' x (List.mem_cons_of_mem _ hx)) _ ?_
      obtain ⟨he, ⟨w, hw, _⟩, _⟩ := hl p (hl' p List.mem_cons_self)
      have e1 := (u2 _ he).1
      rw [hc _ he] at e1
      rw [ρ.add, ρ.mul, e1, hw, ha]
      simp [X.mul, X.add, ρ.rnd_zero]
  have hup2 : ρ.val up.2 = X.fin 0 := by
    rw [hupv]; exact hz l (fun _ h => h) _ (val_zero' ρ)
  have hcon0 : ρ.val contrib = X.fin 0 := by
    unfold withLocalSource at hcon
    cases b with
    | false => simp only [Bool.false_eq_true, if_false] at hcon; cases hcon; exact hup2
    | true =>
      obtain ⟨_, a, ha, y, hy, hcl⟩ := hb1 rfl
      rw [hi] at hcl
      have hy0 : y = 0 := (hcl.zero_iff hq le_rfl).mpr rfl
      simp only [if_true, Res.bind_eq, Res.pure_eq, rd_of_getElem? ha, Res.ok_bind] at hcon
      cases hcon
      rw [ρ.add, hup2, hy, hy0]
      simp [X.add, ρ.rnd_zero]
  have hcs : cellSource as b = as := by
    unfold cellSource
    cases b with
    | false => simp
    | true =>
      obtain ⟨x, hx, hxc⟩ := hns
      have hne : x ≠ 0 := ((hxc.pos_iff hq (hb1 rfl).1.le).mpr (hb1 rfl).1).ne'
      rw [ρ.eq, hx, val_zero' ρ]
      simp [X.eq, hne]
  rw [hcs] at hc'
  obtain ⟨t, ht⟩ := A.flow v hv ai as hai has
  unfold cellTracer at hc'
  split at hc'
  · simp only [Res.bind_eq, Res.pure_eq] at hc'
    obtain ⟨_, _, hc'⟩ := Res.bind_ok_iff.mp hc'
    cases hc'
    exact val_zero' ρ
  · rename_i hne
    cases hc'
    have ht0 : t ≠ 0 := by
      intro e
      apply hne
      rw [ρ.eq, ht, e, val_zero' ρ]
      simp [X.eq]
    simp only
    rw [ρ.div _ _ (by rw [ht]; simpa using ht0), hcon0, ht]
    simp [X.div, ht0, ρ.rnd_zero]

omit [IsStrictOrderedRing K] in
/-- A cell without tracer has the largest time of flight. -/
theorem visit_cap {s : List R × List R} {v : Nat} {p : R × R} (hp : cellVals d isStart ls s (v : Int) = .ok p)
    (hy : ρ.val p.2 = X.fin 0) : ρ.val p.1 = X.fin cap := by
  have e : p.1 = maxTof := by
    unfold cellVals at hp
    simp only [Res.bind_eq, Res.pure_eq, Res.bind_ok_iff] at hp
    obtain ⟨src, _, start, _, infl, _, nb, _, up, _, con, _, _, _, _, _, c, _, pv, _, e⟩ := hp
    cases e
    unfold cellTof
    simp only
    split
    · rfl
    · rw [if_neg]
      rw [ρ.lt, val_zero' ρ, hy]
      simp [X.lt]
  rw [e]; exact A.precise.cap

end Setting
end Verif.Rounding
