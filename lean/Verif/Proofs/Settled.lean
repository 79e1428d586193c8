/-
What is left of the iterations when the solver returns, in arithmetic with rounding.
-/
import Verif.Proofs.RoundingFinite

namespace Verif.Rounding
open Verif.Spec Verif.Solver Verif.Toolbox Verif.Tarjan

variable {R : Type}

/-- The time of flight and the tracer value of a cell. -/
def cellAt (s : List R × List R) (u : Nat) : Option R × Option R := (s.1[u]?, s.2[u]?)

theorem cellAt_set_ne {s : List R × List R} {v u : Nat} (h : u ≠ v) (p : R × R) :
    cellAt (s.1.set v p.1, s.2.set v p.2) u = cellAt s u := by
  unfold cellAt
  simp only [List.getElem?_set_ne (Ne.symm h)]

theorem cellAt_set_self {s : List R × List R} {v : Nat} (h1 : v < s.1.length) (h2 : v < s.2.length) (p : R × R) :
    cellAt (s.1.set v p.1, s.2.set v p.2) v = (some p.1, some p.2) := by
  unfold cellAt
  simp only [List.getElem?_set_self h1, List.getElem?_set_self h2]

variable [Arith R]

/-- Between `s` and `t` the values of a cell change by no more than the tolerances. -/
def Slight (s t : List R × List R) (u : Nat) : Prop :=
  ∃ a b a' b', cellAt s u = (some a, some b) ∧ cellAt t u = (some a', some b') ∧
    Arith.lt tofTol (Arith.fabs (Arith.sub a' a)) = false ∧ Arith.lt tracerTol (tracerChange b b') = false

theorem Slight.congr {s s' t t' : List R × List R} {u : Nat} (h : Slight s t u) (h1 : cellAt s' u = cellAt s u)
    (h2 : cellAt t' u = cellAt t u) : Slight s' t' u := by
  unfold Slight; rw [h1, h2]; exact h

variable {K : Type} [Field K] [LinearOrder K] [IsStrictOrderedRing K] (ρ : Rounded R K)

omit [IsStrictOrderedRing K] in
theorem max_false {m x tol : R} (hm : Num ρ m) (h : Arith.lt tol (Arith.max m x) = false) :
    Arith.lt tol m = false ∧ Arith.lt tol x = false := by
  unfold Arith.max at h
  unfold Num at hm
  split at h
  · rename_i hlt
    refine ⟨?_, h⟩
    rw [ρ.lt] at hlt h ⊢
    generalize ρ.val m = m at *
    generalize ρ.val x = x at *
    generalize ρ.val tol = t at *
    cases m <;> cases x <;> cases t <;> simp_all [X.lt]
    exact hlt.le.trans h
  · rename_i hlt
    refine ⟨h, ?_⟩
    rw [ρ.lt] at hlt h ⊢
    generalize ρ.val m = m at *
    generalize ρ.val x = x at *
    generalize ρ.val tol = t at *
    cases m <;> cases x <;> cases t <;> simp_all [X.lt]
    exact hlt.trans h

omit [IsStrictOrderedRing K] in
theorem max_num {m x : R} (hm : Num ρ m) : Num ρ (Arith.max m x) := by
  unfold Arith.max
  split
  · rename_i hlt
    unfold Num
    rw [ρ.lt] at hlt
    intro e
    rw [e] at hlt
    cases h : ρ.val m <;> rw [h] at hlt <;> simp [X.lt] at hlt
  · exact hm

section
variable {d : SolverData R} {b : List Bool} {ls : List R} {Q : List R × List R → Prop}

theorem sweepCell_ok {v : Nat} (hv : v ≤ INT_MAX) {s : List R × List R} {m : R × R} {r : (List R × List R) × (R × R)}
    (h : sweepCell d b ls (s, m) (v : Int) = .ok r) :
    ∃ p x c, solveSingleCell d b ls s (v : Int) = .ok r.1 ∧ cellVals d b ls s (v : Int) = .ok p ∧
      cellAt s v = (some x, some c) ∧ r.1 = (s.1.set v p.1, s.2.set v p.2) ∧ cellAt r.1 v = (some p.1, some p.2) ∧
      r.2 = (Arith.max m.1 (Arith.fabs (Arith.sub p.1 x)), Arith.max m.2 (tracerChange c p.2)) := by
  have hsz : sizeOfInt (v : Int) = v := by
    rw [sizeOfInt_nonneg (by omega) (by exact_mod_cast hv)]; simp
  unfold sweepCell at h
  simp only [Res.bind_eq, Res.pure_eq, Res.bind_ok_iff, hsz, rd_iff] at h
  obtain ⟨x, h1, c, h2, f, h3, x', h4, c', h5, e⟩ := h
  cases e
  obtain ⟨p, hp, hl1, hl2, rfl⟩ := single_ok_iff.mp h3
  rw [hsz] at hl1 hl2 h4 h5 h3
  have h6 := cellAt_set_self (s := s) hl1 hl2 p
  unfold cellAt at h6
  simp only [Prod.mk.injEq] at h6
  rw [h6.1] at h4
  rw [h6.2] at h5
  cases h4
  cases h5
  rw [hsz]
  refine ⟨p, x, c, h3, hp, ?_, rfl, cellAt_set_self hl1 hl2 p, rfl⟩
  unfold cellAt
  rw [h1, h2]

include ρ in
omit [IsStrictOrderedRing K] in
/-- One sweep. -/
theorem sweep_frame : ∀ (l : List Nat), (∀ v ∈ l, v ≤ INT_MAX) →
    (∀ s s' : List R × List R, ∀ v ∈ l, Q s → solveSingleCell d b ls s (v : Int) = .ok s' → Q s') →
    ∀ (s : List R × List R) (m : R × R) (r : (List R × List R) × (R × R)), Q s → Num ρ m.1 → Num ρ m.2 →
    forEach (l.map fun v : Nat => (v : Int)) (s, m) (sweepCell d b ls) = .ok r →
    Q r.1 ∧ Num ρ r.2.1 ∧ Num ρ r.2.2 ∧ ∀ u, u ∉ l → cellAt r.1 u = cellAt s u := by
  intro l
  induction l with
  | nil =>
    intro _ _ s m r hs h1 h2 h
    cases h
    exact ⟨hs, h1, h2, fun _ _ => rfl⟩
  | cons v l ih =>
    intro hI hQ s m r hs h1 h2 h
    rw [List.map_cons, forEach_cons] at h
    obtain ⟨r1, hr1, h⟩ := Res.bind_ok_iff.mp h
    obtain ⟨p, x, c, g1, g2, g3, g4, g5, g6⟩ := sweepCell_ok (hI v List.mem_cons_self) hr1
    obtain ⟨k1, k2, k3, k4⟩ := ih (fun w hw => hI w (List.mem_cons_of_mem _ hw))
      (fun s s' w hw => hQ s s' w (List.mem_cons_of_mem _ hw)) r1.1 r1.2 r (hQ s r1.1 v List.mem_cons_self hs g1)
      (by rw [g6]; exact max_num ρ h1) (by rw [g6]; exact max_num ρ h2) h
    refine ⟨k1, k2, k3, ?_⟩
    intro u hu
    rw [List.mem_cons, not_or] at hu
    rw [k4 u hu.2, g4]
    exact cellAt_set_ne hu.1 p

include ρ in
omit [IsStrictOrderedRing K] in
/-- One sweep that changes nothing by more than the tolerances. -/
theorem sweep_last : ∀ (l : List Nat), (∀ v ∈ l, v ≤ INT_MAX) → l.Nodup →
    (∀ s s' : List R × List R, ∀ v ∈ l, Q s → solveSingleCell d b ls s (v : Int) = .ok s' → Q s') →
    ∀ (s : List R × List R) (m : R × R) (r : (List R × List R) × (R × R)), Q s → Num ρ m.1 → Num ρ m.2 →
    forEach (l.map fun v : Nat => (v : Int)) (s, m) (sweepCell d b ls) = .ok r →
    Arith.lt tofTol r.2.1 = false → Arith.lt tracerTol r.2.2 = false →
    Arith.lt tofTol m.1 = false ∧ Arith.lt tracerTol m.2 = false ∧ (∀ v ∈ l, Slight s r.1 v) ∧
    ∀ v ∈ l, ∃ t p, Q t ∧ cellVals d b ls t (v : Int) = .ok p ∧ cellAt r.1 v = (some p.1, some p.2) ∧
      (∀ u, u ∉ l → cellAt t u = cellAt s u) ∧ ∀ u ∈ l, cellAt t u = cellAt s u ∨ cellAt t u = cellAt r.1 u := by
  intro l
  induction l with
  | nil =>
    intro _ _ _ s m r hs h1 h2 h ht hc
    cases h
    exact ⟨ht, hc, by simp, by simp⟩
  | cons v l ih =>
    intro hI hnd hQ s m r hs h1 h2 h ht hc
    obtain ⟨hv, hnd'⟩ := List.nodup_cons.mp hnd
    rw [List.map_cons, forEach_cons] at h
    obtain ⟨r1, hr1, h⟩ := Res.bind_ok_iff.mp h
    obtain ⟨p, x, c, g1, g2, g3, g4, g5, g6⟩ := sweepCell_ok (hI v List.mem_cons_self) hr1
    have hI' : ∀ w ∈ l, w ≤ INT_MAX := fun w hw => hI w (List.mem_cons_of_mem _ hw)
    have hQ' := fun s s' w hw => hQ s s' w (List.mem_cons_of_mem _ hw)
    have hq1 := hQ s r1.1 v List.mem_cons_self hs g1
    have n1 : Num ρ r1.2.1 := by rw [g6]; exact max_num ρ h1
    have n2 : Num ρ r1.2.2 := by rw [g6]; exact max_num ρ h2
    obtain ⟨_, _, _, k4⟩ := sweep_frame ρ l hI' hQ' r1.1 r1.2 r hq1 n1 n2 h
    obtain ⟨i1, i2, i3, i4⟩ := ih hI' hnd' hQ' r1.1 r1.2 r hq1 n1 n2 h ht hc
    rw [g6] at i1 i2
    obtain ⟨j1, j2⟩ := max_false ρ h1 i1
    obtain ⟨j3, j4⟩ := max_false ρ h2 i2
    have hne : ∀ w, w ≠ v → cellAt r1.1 w = cellAt s w := by
      intro w hw; rw [g4]; exact cellAt_set_ne hw p
    refine ⟨j1, j3, ?_, ?_⟩
    · intro w hw
      rcases List.mem_cons.mp hw with rfl | hw
      · exact ⟨x, c, p.1, p.2, g3, by rw [k4 w hv]; exact g5, j2, j4⟩
      · exact (i3 w hw).congr (hne w fun e => hv (e ▸ hw)).symm rfl
    · intro w hw
      rcases List.mem_cons.mp hw with rfl | hw
      · exact ⟨s, p, hs, g2, by rw [k4 w hv]; exact g5, fun _ _ => rfl, fun _ _ => .inl rfl⟩
      · obtain ⟨t, p', q1, q2, q3, q4, q5⟩ := i4 w hw
        refine ⟨t, p', q1, q2, q3, ?_, ?_⟩
        · intro u hu
          rw [List.mem_cons, not_or] at hu
          rw [q4 u hu.2, hne u hu.1]
        · intro u hu
          by_cases e : u = v
          · subst e
            right; rw [q4 u hv, k4 u hv]
          · have hul : u ∈ l := (List.mem_cons.mp hu).resolve_left e
            rcases q5 u hul with q | q
            · left; rw [q, hne u e]
            · right; exact q

include ρ in
theorem gaussSeidel_last {l : List Nat} (hI : ∀ v ∈ l, v ≤ INT_MAX)
    (hQ : ∀ s s' : List R × List R, ∀ v ∈ l, Q s → solveSingleCell d b ls s (v : Int) = .ok s' → Q s') :
    ∀ (fuel : Nat) (s : List R × List R) (m : R × R) (s' : List R × List R), Q s →
    (Arith.lt tofTol m.1 || Arith.lt tracerTol m.2) = true →
    gaussSeidel d b ls (l.map fun v : Nat => (v : Int)) fuel (s, m) = .ok s' →
    ∃ s0 m', Q s0 ∧ (∀ u, u ∉ l → cellAt s0 u = cellAt s u) ∧
      forEach (l.map fun v : Nat => (v : Int)) (s0, (Arith.zero, Arith.zero)) (sweepCell d b ls) = .ok (s', m') ∧
      Arith.lt tofTol m'.1 = false ∧ Arith.lt tracerTol m'.2 = false := by
  have hz : Num ρ (Arith.zero : R) := Fin.num ρ ⟨0, val_zero' ρ⟩
  intro fuel
  induction fuel with
  | zero =>
    intro s m s' _ hm h
    unfold gaussSeidel at h
    simp only [hm, if_true] at h
    cases h
  | succ k ih =>
    intro s m s' hs hm h
    unfold gaussSeidel at h
    simp only [hm, if_true, Res.bind_eq] at h
    obtain ⟨r, hr, h⟩ := Res.bind_ok_iff.mp h
    obtain ⟨k1, _, _, k4⟩ := sweep_frame ρ l hI hQ s (Arith.zero, Arith.zero) r hs hz hz hr
    by_cases hm' : (Arith.lt tofTol r.2.1 || Arith.lt tracerTol r.2.2) = true
    · obtain ⟨s0, m', a1, a2, a3⟩ := ih r.1 r.2 s' k1 hm' h
      exact ⟨s0, m', a1, fun u hu => by rw [a2 u hu, k4 u hu], a3⟩
    · have : s' = r.1 := by
        unfold gaussSeidel at h
        rw [if_neg hm'] at h
        exact (Res.ok.inj h).symm
      subst this
      simp only [Bool.or_eq_true, not_or, Bool.not_eq_true] at hm'
      exact ⟨s, r.2, hs, fun _ _ => rfl, hr, hm'.1, hm'.2⟩

/-- The values of cell `v`, of component `C`, in the final state `s`: they are computed from a state `t` that agrees with `s` in
    the other components upstream, and in `C` up to the tolerances; a component of one cell is visited once, and before that the
    cell has its initial values, those of `z`. -/
def Settled (d : SolverData R) (b : List Bool) (ls : List R) (Q : List R × List R → Prop) (E : Nat → Nat → Prop)
    (z : List R × List R) (C : List Nat) (s : List R × List R) (v : Nat) : Prop :=
  ∃ t p, Q t ∧ cellVals d b ls t (v : Int) = .ok p ∧ cellAt s v = (some p.1, some p.2) ∧
    (∀ u, E u v → u ∉ C → cellAt t u = cellAt s u) ∧
    ((C = [v] ∧ cellAt t v = cellAt z v) ∨ (C ≠ [v] ∧ ∀ u ∈ C, cellAt t u = cellAt s u ∨ Slight t s u))

include ρ in
/-- One component. -/
theorem component_settled {E : Nat → Nat → Prop} {z : List R × List R} (hhuge : Arith.lt (tracerTol : R) huge = true)
    {C : List Nat} (hne : C ≠ []) (hnd : C.Nodup) (hI : ∀ v ∈ C, v ≤ INT_MAX)
    (hQ : ∀ s s' : List R × List R, ∀ v ∈ C, Q s → solveSingleCell d b ls s (v : Int) = .ok s' → Q s') {fuel : Nat}
    {s s' : List R × List R} (hs : Q s) (hz : ∀ v ∈ C, cellAt s v = cellAt z v)
    (h : (match C.map (fun v : Nat => (v : Int)) with
      | [cell] => solveSingleCell d b ls s cell
      | cells => solveMultiCell d b ls fuel s cells) = .ok s') :
    Q s' ∧ (∀ u, u ∉ C → cellAt s' u = cellAt s u) ∧ ∀ v ∈ C, Settled d b ls Q E z C s' v := by
  have hz0 : Num ρ (Arith.zero : R) := Fin.num ρ ⟨0, val_zero' ρ⟩
  by_cases h1 : ∃ v, C = [v]
  · obtain ⟨v, rfl⟩ := h1
    have hv := hI v (by simp)
    have hsz : sizeOfInt (v : Int) = v := by
      rw [sizeOfInt_nonneg (by omega) (by exact_mod_cast hv)]; simp
    simp only [List.map_cons, List.map_nil] at h
    have hq := hQ s s' v (by simp) hs h
    obtain ⟨p, hp, hl1, hl2, rfl⟩ := single_ok_iff.mp h
    rw [hsz] at hl1 hl2 hq ⊢
    have hout : ∀ u, u ∉ [v] → cellAt (s.1.set v p.1, s.2.set v p.2) u = cellAt s u :=
      fun u hu => cellAt_set_ne (by simpa using hu) p
    refine ⟨hq, hout, ?_⟩
    intro w hw
    cases List.mem_singleton.mp hw
    exact ⟨s, p, hs, hp, cellAt_set_self hl1 hl2 p, fun u _ hu => (hout u hu).symm, .inl ⟨rfl, hz _ (by simp)⟩⟩
  · have hmulti : solveMultiCell d b ls fuel s (C.map fun v : Nat => (v : Int)) = .ok s' := by
      match C, hne, h1, h with
      | [], hne, _, _ => exact absurd rfl hne
      | [v], _, h1, _ => exact absurd ⟨v, rfl⟩ h1
      | _ :: _ :: _, _, _, h => exact h
    unfold solveMultiCell at hmulti
    obtain ⟨s0, m', a1, a2, a3, a4, a5⟩ := gaussSeidel_last ρ hI hQ fuel s (huge, huge) s' hs (by rw [hhuge, Bool.or_true]) hmulti
    obtain ⟨k1, _, _, k4⟩ := sweep_frame ρ C hI hQ s0 (Arith.zero, Arith.zero) (s', m') a1 hz0 hz0 a3
    obtain ⟨_, _, i3, i4⟩ := sweep_last ρ C hI hnd hQ s0 (Arith.zero, Arith.zero) (s', m') a1 hz0 hz0 a3 a4 a5
    refine ⟨k1, fun u hu => (k4 u hu).trans (a2 u hu), ?_⟩
    intro v hv
    obtain ⟨t, p, q1, q2, q3, q4, q5⟩ := i4 v hv
    refine ⟨t, p, q1, q2, q3, fun u _ hu => (q4 u hu).trans (k4 u hu).symm, .inr ⟨fun e => h1 ⟨v, e⟩, ?_⟩⟩
    intro u hu
    rcases q5 u hu with q | q
    · right; exact (i3 u hu).congr q rfl
    · left; exact q

omit [Arith R] in
theorem Settled.frame {R : Type} [Arith R] {d : SolverData R} {b : List Bool} {ls : List R} {Q : List R × List R → Prop}
    {E : Nat → Nat → Prop} {z s s' : List R × List R} {C : List Nat} {v : Nat} (h : Settled d b ls Q E z C s v)
    (hv : v ∈ C) (h1 : ∀ u ∈ C, cellAt s' u = cellAt s u) (h2 : ∀ u, E u v → cellAt s' u = cellAt s u) :
    Settled d b ls Q E z C s' v := by
  obtain ⟨t, p, a1, a2, a3, a4, a5⟩ := h
  refine ⟨t, p, a1, a2, by rw [h1 v hv]; exact a3, fun u hu hn => (a4 u hu hn).trans (h2 u hu).symm, ?_⟩
  rcases a5 with a5 | ⟨a5, a6⟩
  · exact .inl a5
  · refine .inr ⟨a5, fun u hu => ?_⟩
    rcases a6 u hu with q | q
    · left; rw [q, h1 u hu]
    · right; exact q.congr rfl (h1 u hu)

include ρ in
/-- The first components. -/
theorem loop_settled {n : Nat} {ia : List Nat} {ja : List Int} {V : Nat → Prop} {comps : List (List Nat)}
    (ht : Topo n ia ja V comps) (hV : ∀ v, V v → v ≤ INT_MAX) (hhuge : Arith.lt (tracerTol : R) huge = true)
    (hQ : ∀ s s' : List R × List R, ∀ v, V v → Q s → solveSingleCell d b ls s (v : Int) = .ok s' → Q s') {fuel : Nat}
    {z : List R × List R} (hz : Q z) : ∀ k ≤ comps.length, ∀ s, forEach (List.range k) z
      (solveComponent d b ls (cellsOf comps) (offsets comps) fuel) = .ok s →
      Q s ∧ (∀ u, u ∉ (comps.take k).flatten → cellAt s u = cellAt z u) ∧
        ∀ C ∈ comps.take k, ∀ v ∈ C, Settled d b ls Q (HasEdge n ia ja) z C s v := by
  have hVc : ∀ C ∈ comps, ∀ v ∈ C, V v := fun C hC v hv => (ht.cover v).mp (List.mem_flatten.mpr ⟨C, hC, hv⟩)
  intro k
  induction k with
  | zero =>
    intro _ s h
    cases h
    exact ⟨hz, fun _ _ => rfl, by simp⟩
  | succ k ih =>
    intro hk s' h
    have hkl : k < comps.length := by omega
    rw [List.range_succ, forEach_append] at h
    obtain ⟨s, h1, h2⟩ := Res.bind_ok_iff.mp h
    obtain ⟨i1, i2, i3⟩ := ih (by omega) s h1
    rw [forEach_cons] at h2
    obtain ⟨s2, h2, h3⟩ := Res.bind_ok_iff.mp h2
    cases h3
    have hck : comps[k]? = some comps[k] := List.getElem?_eq_getElem hkl
    have hC := List.getElem_mem hkl
    set C := comps[k] with hCdef
    have hsplit : comps = comps.take k ++ C :: comps.drop (k + 1) := by
      rw [hCdef, ← List.drop_eq_getElem_cons hkl, List.take_append_drop]
    have hnd := ht.once
    have hdis : ∀ v ∈ C, v ∉ (comps.take k).flatten := by
      rw [hsplit, List.flatten_append, List.flatten_cons] at hnd
      intro v hv hm
      exact (List.nodup_append.mp hnd).2.2 v hm v (List.mem_append_left _ hv) rfl
    unfold solveComponent at h2
    simp only [Res.bind_eq, rd_of_getElem? (offsets_getElem? comps (k := k + 1) (by omega)),
      rd_of_getElem? (offsets_getElem? comps (k := k) (by omega)), Res.ok_bind, off_succ hck,
      Nat.add_sub_cancel_left, readCells_comp hck] at h2
    obtain ⟨j1, j2, j3⟩ := component_settled ρ (E := HasEdge n ia ja) (z := z) hhuge (ht.nonempty C hC)
      ((List.nodup_flatten.mp ht.once).1 C hC) (fun v hv => hV v (hVc C hC v hv))
      (fun s s' v hv => hQ s s' v (hVc C hC v hv)) i1 (fun v hv => i2 v (hdis v hv)) h2
    rw [List.take_succ_eq_append_getElem hkl, ← hCdef]
    refine ⟨j1, ?_, ?_⟩
    · intro u hu
      rw [List.flatten_append, List.mem_append, not_or] at hu
      rw [j2 u (by simpa using hu.2), i2 u hu.1]
    · intro D hD v hv
      rcases List.mem_append.mp hD with hD | hD
      · have hvf : v ∈ (comps.take k).flatten := List.mem_flatten.mpr ⟨D, hD, hv⟩
        refine (i3 D hD v hv).frame hv (fun u hu => j2 u fun hc => hdis u hc (List.mem_flatten.mpr ⟨D, hD, hu⟩)) ?_
        intro u hu
        exact j2 u fun hc => ht.order _ C _ hsplit u hc v hvf hu
      · cases List.mem_singleton.mp hD
        exact j3 v hv

include ρ in
/-- All components. -/
theorem solve_settled {n : Nat} {ia : List Nat} {ja : List Int} {V : Nat → Prop} {comps : List (List Nat)}
    (ht : Topo n ia ja V comps) (hV : ∀ v, V v → v ≤ INT_MAX) (hhuge : Arith.lt (tracerTol : R) huge = true)
    (hQ : ∀ s s' : List R × List R, ∀ v, V v → Q s → solveSingleCell d b ls s (v : Int) = .ok s' → Q s') {fuel : Nat}
    {z out : List R × List R} (hz : Q z)
    (h : solve d b ls (cellsOf comps) (offsets comps) fuel z = .ok out) :
    ∃ s, out = (s.1.map fun t => Arith.min t maxTof, s.2) ∧ Q s ∧ (∀ u, ¬ V u → cellAt s u = cellAt z u) ∧
      ∀ C ∈ comps, ∀ v ∈ C, Settled d b ls Q (HasEdge n ia ja) z C s v := by
  have hloop := loop_settled ρ ht hV hhuge hQ (fuel := fuel) hz
  unfold solve at h
  simp only [Res.bind_eq, Res.pure_eq, offsets_length, Nat.add_sub_cancel] at h
  obtain ⟨s, h1, h2⟩ := Res.bind_ok_iff.mp h
  cases h2
  obtain ⟨i1, i2, i3⟩ := hloop comps.length le_rfl s h1
  rw [List.take_length] at i2 i3
  exact ⟨s, rfl, i1, fun u hu => i2 u fun hc => hu ((ht.cover u).mp hc), i3⟩

end
end Verif.Rounding
