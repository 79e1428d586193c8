/-
One visit to a cell, with larger values upstream.
-/
import Verif.Proofs.RoundingTime

namespace Verif
open Verif.Spec

namespace X
variable {K : Type} [Field K] [LinearOrder K] [IsStrictOrderedRing K]

theorem mul_mono {a b c d : X K} (ha : X.lt a (fin 0) = false) (hab : X.lt b a = false) (hc : X.lt c (fin 0) = false)
    (hcd : X.lt d c = false) (h1 : a ≠ nan) (h2 : b ≠ nan) (h3 : c ≠ nan) (h4 : d ≠ nan) :
    X.lt (X.mul b d) (X.mul a c) = false := by
  cases a <;> cases b <;> cases c <;> cases d <;> simp_all [X.lt, X.mul, X.infSign]
  · exact mul_le_mul hab hcd hc (le_trans ha hab)
  all_goals split_ifs <;> first | rfl | (exfalso; linarith)

theorem div_mono {a b d : X K} (ha : X.lt a (fin 0) = false) (hab : X.lt b a = false) (hd : X.lt d (fin 0) = false)
    (h1 : a ≠ nan) (h2 : b ≠ nan) (h3 : d ≠ nan) : X.lt (X.div b d) (X.div a d) = false := by
  cases a <;> cases b <;> cases d <;> simp_all [X.lt, X.div, X.infSign]
  all_goals split_ifs <;> first | rfl | (exfalso; linarith) | skip
  rename_i a b d h
  simp only [decide_eq_false_iff_not, not_lt]
  exact div_le_div_of_nonneg_right hab hd

end X

namespace Rounding
open Solver Toolbox
variable {R : Type} [Arith R] {K : Type} [Field K] [LinearOrder K] [IsStrictOrderedRing K] (ρ : Rounded R K)
include ρ

omit [IsStrictOrderedRing K] in
theorem notNegative_of_ge {x y : R} (hx : NotNegative x) (hn : Num ρ x) (h : Arith.lt y x = false) : NotNegative y := by
  rw [notNegative_iff ρ] at *
  rw [ρ.lt] at h
  exact X.lt_false_trans hx h hn

theorem mul_mono {a b c d : R} (ha : NotNegative a) (hab : Arith.lt b a = false) (hc : NotNegative c)
    (hcd : Arith.lt d c = false) (h1 : Num ρ a) (h2 : Num ρ b) (h3 : Num ρ c) (h4 : Num ρ d) :
    Arith.lt (Arith.mul b d) (Arith.mul a c) = false := by
  rw [notNegative_iff ρ] at *
  rw [ρ.lt] at *
  rw [ρ.mul, ρ.mul]
  exact rnd_lt ρ (X.mul_mono ha hab hc hcd h1 h2 h3 h4)

/-- Sums over the cells upstream. -/
theorem upwind_mono {tof tof' tracer tracer' : List R} {nb : List (Int × R)} (hw : ∀ e ∈ nb, NotNegative e.2 ∧ Num ρ e.2)
    (hc : ∀ (i : Nat) (x x' : R), tracer[i]? = some x → tracer'[i]? = some x' → NotNegative x ∧ Num ρ x ∧ Num ρ x' ∧ Arith.lt x' x = false)
    {a a' up up' : R × R} (ha : Arith.lt a'.2 a.2 = false) (h : forEach nb a (addUpwind tof tracer) = .ok up)
    (h' : forEach nb a' (addUpwind tof' tracer') = .ok up') : Arith.lt up'.2 up.2 = false := by
  induction nb generalizing a a' with
  | nil => cases h; cases h'; exact ha
  | cons e nb ih =>
    rw [forEach_cons] at h h'
    obtain ⟨b, hb, h⟩ := Res.bind_ok_iff.mp h
    obtain ⟨b', hb', h'⟩ := Res.bind_ok_iff.mp h'
    refine ih (fun x hx => hw x (List.mem_cons_of_mem _ hx)) ?_ h h'
    unfold addUpwind at hb hb'
    simp only [Res.bind_eq, Res.pure_eq, Res.bind_ok_iff, rd_iff] at hb hb'
    obtain ⟨t, ht, c, hc1, e1⟩ := hb
    obtain ⟨t', ht', c', hc1', e1'⟩ := hb'
    cases e1; cases e1'
    obtain ⟨k1, k2, k3, k4⟩ := hc _ c c' hc1 hc1'
    obtain ⟨w1, w2⟩ := hw e List.mem_cons_self
    exact add_mono ρ ha (mul_mono ρ k1 k4 w1 (lt_irrefl ρ e.2) k2 k3 w2 w2)

theorem upwind_mono_time {tof tof' tracer tracer' : List R} {nb : List (Int × R)} (hw : ∀ e ∈ nb, NotNegative e.2 ∧ Num ρ e.2)
    (hc : ∀ (i : Nat) (x x' : R), tracer[i]? = some x → tracer'[i]? = some x' → NotNegative x ∧ Fin ρ x ∧ ρ.val x' = ρ.val x)
    (ht : ∀ (i : Nat) (x x' : R), tof[i]? = some x → tof'[i]? = some x' → NotNegative x ∧ Fin ρ x ∧ Fin ρ x' ∧ Arith.lt x' x = false)
    {a a' up up' : R × R} (ha : Arith.lt a'.1 a.1 = false) (h : forEach nb a (addUpwind tof tracer) = .ok up)
    (h' : forEach nb a' (addUpwind tof' tracer') = .ok up') : Arith.lt up'.1 up.1 = false := by
  induction nb generalizing a a' with
  | nil => cases h; cases h'; exact ha
  | cons e nb ih =>
    rw [forEach_cons] at h h'
    obtain ⟨b, hb, h⟩ := Res.bind_ok_iff.mp h
    obtain ⟨b', hb', h'⟩ := Res.bind_ok_iff.mp h'
    refine ih (fun x hx => hw x (List.mem_cons_of_mem _ hx)) ?_ h h'
    unfold addUpwind at hb hb'
    simp only [Res.bind_eq, Res.pure_eq, Res.bind_ok_iff, rd_iff] at hb hb'
    obtain ⟨t, ht1, c, hc1, e1⟩ := hb
    obtain ⟨t', ht1', c', hc1', e1'⟩ := hb'
    cases e1; cases e1'
    obtain ⟨k1, k2, k3⟩ := hc _ c c' hc1 hc1'
    obtain ⟨j1, j2, j3, j4⟩ := ht _ t t' ht1 ht1'
    obtain ⟨w1, w2⟩ := hw e List.mem_cons_self
    have hf' : Fin ρ c' := by
      obtain ⟨k, hk⟩ := k2
      exact ⟨k, by rw [k3, hk]⟩
    have hcc : Arith.lt c' c = false := by rw [ρ.lt, k3]; exact X.lt_irrefl _
    exact add_mono ρ ha (mul_mono ρ (mul_notNegative ρ j1 k1) (mul_mono ρ j1 j4 k1 hcc j2.num j3.num k2.num hf'.num) w1
      (lt_irrefl ρ e.2) (mul_num ρ j2 k2) (mul_num ρ j3 hf') w2 w2)

omit [IsStrictOrderedRing K] in
theorem assert_le {x : R} {u : Unit} (h : assertThat (Arith.le Arith.zero x) = .ok u) : NotNegative x ∧ Num ρ x := by
  unfold assertThat at h
  split at h
  · rename_i hx
    rw [ρ.le, val_zero' ρ, X.le_iff] at hx
    exact ⟨by rw [notNegative_iff ρ]; exact hx.1, hx.2.2⟩
  · cases h

/-- Tracer values grow with those upstream. -/
theorem cell_mono_tracer {d : SolverData R} {b : List Bool} {ls : List R} {s s' : List R × List R} {v : Int}
    (hw : ∀ nb, d.gReverse.cellNeighbourhood v = .ok nb → ∀ e ∈ nb, NotNegative e.2 ∧ Num ρ e.2)
    (hc : ∀ (i : Nat) (x x' : R), s.2[i]? = some x → s'.2[i]? = some x' → NotNegative x ∧ Num ρ x ∧ Num ρ x' ∧ Arith.lt x' x = false)
    {p p' : R × R} (h : cellVals d b ls s v = .ok p) (h' : cellVals d b ls s' v = .ok p') : Arith.lt p'.2 p.2 = false := by
  unfold cellVals at h h'
  simp only [Res.bind_eq, Res.pure_eq, Res.bind_ok_iff, rd_iff] at h h'
  obtain ⟨src, h1, start, h2, infl, h3, nb, h4, up, h5, con, h6, u1, h7, u2, h8, c, h9, pv, h10, e⟩ := h
  obtain ⟨src', k1, start', k2, infl', k3, nb', k4, up', k5, con', k6, u1', k7, u2', k8, c', k9, pv', k10, e'⟩ := h'
  rw [h1] at k1; cases k1
  rw [h2] at k2; cases k2
  rw [h3] at k3; cases k3
  rw [h4] at k4; cases k4
  rw [h10] at k10; cases k10
  cases e; cases e'
  have hup := upwind_mono ρ (hw nb h4) hc (a := (Arith.zero, Arith.zero)) (a' := (Arith.zero, Arith.zero)) (lt_irrefl ρ _) h5 k5
  have hcon : Arith.lt con' con = false := by
    unfold withLocalSource at h6 k6
    cases start with
    | false => cases h6; cases k6; exact hup
    | true =>
      simp only [if_true, Res.bind_eq, Res.pure_eq, Res.bind_ok_iff, rd_iff] at h6 k6
      obtain ⟨l, hl, e⟩ := h6
      obtain ⟨l', hl', e'⟩ := k6
      rw [hl] at hl'; cases hl'
      cases e; cases e'
      exact add_mono ρ hup (lt_irrefl ρ l)
  obtain ⟨t1, t2⟩ := assert_le ρ h7
  obtain ⟨g1, g2⟩ := assert_le ρ h8
  obtain ⟨g1', g2'⟩ := assert_le ρ k8
  show Arith.lt c' c = false
  unfold cellTracer at h9 k9
  split at h9
  · rename_i hz
    rw [if_pos hz] at k9
    simp only [Res.bind_eq, Res.pure_eq, Res.bind_ok_iff] at h9 k9
    obtain ⟨_, _, e⟩ := h9
    obtain ⟨_, _, e'⟩ := k9
    cases e; cases e'
    exact lt_irrefl ρ _
  · rename_i hz
    rw [if_neg hz] at k9
    cases h9; cases k9
    have hz := ne_zero ρ (by simpa using hz)
    rw [notNegative_iff ρ] at *
    rw [ρ.lt] at *
    rw [ρ.div _ _ hz, ρ.div _ _ hz]
    exact rnd_lt ρ (X.div_mono g1 hcon t1 g2 g2' t2)

/-- Times of flight grow with those upstream. -/
theorem cell_mono_time {d : SolverData R} {b : List Bool} {ls : List R} {s s' : List R × List R} {v : Int}
    (hw : ∀ nb, d.gReverse.cellNeighbourhood v = .ok nb → ∀ e ∈ nb, NotNegative e.2 ∧ Num ρ e.2)
    (hpv : ∀ x ∈ d.pv, NotNegative x ∧ Fin ρ x)
    (hc : ∀ (i : Nat) (x x' : R), s.2[i]? = some x → s'.2[i]? = some x' → NotNegative x ∧ Fin ρ x ∧ ρ.val x' = ρ.val x)
    (ht : ∀ (i : Nat) (x x' : R), s.1[i]? = some x → s'.1[i]? = some x' → NotNegative x ∧ Fin ρ x ∧ Fin ρ x' ∧ Arith.lt x' x = false)
    (hup : ∀ nb up, d.gReverse.cellNeighbourhood v = .ok nb → forEach nb (Arith.zero, Arith.zero) (addUpwind s.1 s.2) = .ok up →
      NotNegative up.1 ∧ Num ρ up.1)
    (hup' : ∀ nb up, d.gReverse.cellNeighbourhood v = .ok nb → forEach nb (Arith.zero, Arith.zero) (addUpwind s'.1 s'.2) = .ok up →
      Num ρ up.1)
    {p p' : R × R} (h : cellVals d b ls s v = .ok p) (h' : cellVals d b ls s' v = .ok p') (he : ρ.val p'.2 = ρ.val p.2)
    (hf : Fin ρ p.2) : Arith.lt p'.1 p.1 = false := by
  unfold cellVals at h h'
  simp only [Res.bind_eq, Res.pure_eq, Res.bind_ok_iff, rd_iff] at h h'
  obtain ⟨src, h1, start, h2, infl, h3, nb, h4, up, h5, con, h6, u1, h7, u2, h8, c, h9, pv, h10, e⟩ := h
  obtain ⟨src', k1, start', k2, infl', k3, nb', k4, up', k5, con', k6, u1', k7, u2', k8, c', k9, pv', k10, e'⟩ := h'
  rw [h1] at k1; cases k1
  rw [h2] at k2; cases k2
  rw [h3] at k3; cases k3
  rw [h4] at k4; cases k4
  rw [h10] at k10; cases k10
  cases e; cases e'
  have hu := upwind_mono_time ρ (hw nb h4) hc ht (a := (Arith.zero, Arith.zero)) (a' := (Arith.zero, Arith.zero)) (lt_irrefl ρ _) h5 k5
  obtain ⟨t1, t2⟩ := assert_le ρ h7
  obtain ⟨p1, p2⟩ := hpv pv (List.mem_of_getElem? h10)
  obtain ⟨u1, u2⟩ := hup nb up h4 h5
  have u3 := hup' nb up' h4 k5
  set total := Arith.add infl (cellSource src start) with htotal
  show Arith.lt (cellTof pv total c' up'.1) (cellTof pv total c up.1) = false
  simp only [] at he hf
  unfold cellTof
  simp only
  have hb : Arith.lt Arith.zero c' = Arith.lt Arith.zero c := by rw [ρ.lt, ρ.lt, he]
  rw [hb]
  split
  · exact lt_irrefl ρ _
  split
  · rename_i _ hpos
    have hpc : X.lt (X.fin 0) (ρ.val c) = true := by rw [ρ.lt, val_zero' ρ] at hpos; exact hpos
    have htp : X.lt (X.fin 0) (ρ.val total) = true := by
      have hne : ρ.val total ≠ X.fin 0 := by
        intro hz
        unfold cellTracer at h9
        rw [if_pos (by rw [ρ.eq, hz, val_zero' ρ]; simp [X.eq])] at h9
        simp only [Res.bind_eq, Res.pure_eq, Res.bind_ok_iff] at h9
        obtain ⟨_, _, e⟩ := h9
        cases e
        rw [val_zero' ρ] at hpc
        simp [X.lt] at hpc
      rw [notNegative_iff ρ] at t1
      unfold Num at t2
      cases ht : ρ.val total <;> simp_all [X.lt]
      exact lt_of_le_of_ne t1 (Ne.symm hne)
    have hcn : NotNegative c := by
      rw [notNegative_iff ρ]
      obtain ⟨k, hk⟩ := hf
      rw [hk] at hpc ⊢
      simp only [X.lt, decide_eq_true_eq, decide_eq_false_iff_not, not_lt] at hpc ⊢
      exact hpc.le
    have hden : ρ.val (Arith.mul total c') = ρ.val (Arith.mul total c) := by rw [ρ.mul, ρ.mul, he]
    have hmul : ρ.val (Arith.mul pv c') = ρ.val (Arith.mul pv c) := by rw [ρ.mul, ρ.mul, he]
    have hnum : Arith.lt (Arith.add (Arith.mul pv c') up'.1) (Arith.add (Arith.mul pv c) up.1) = false :=
      add_mono ρ (by rw [ρ.lt, hmul]; exact X.lt_irrefl _) hu
    have hmn := mul_notNegative ρ p1 hcn
    have hmm := mul_num ρ p2 hf
    have hmm' : Num ρ (Arith.mul pv c') := by unfold Num; rw [hmul]; exact hmm
    have hmn' : NotNegative (Arith.mul pv c') := by rw [notNegative_iff ρ, hmul, ← notNegative_iff ρ]; exact hmn
    have u1' := notNegative_of_ge ρ u1 u2 hu
    have hsn := add_notNegative ρ hmn u1
    have hdn := mul_notNegative ρ t1 hcn
    have hs1 := add_num_of ρ hmm hmn u2 u1
    have hs2 := add_num_of ρ hmm' hmn' u3 u1'
    have hdm : Num ρ (Arith.mul total c) := mul_num_of ρ t2 t1 hf.num hcn (fun _ => hpc) (fun hh => by
      obtain ⟨k, hk⟩ := hf
      rw [hk] at hh; cases hh)
    rw [ρ.lt, ρ.div_mul _ _ _ htp hpc, ρ.div_mul _ _ _ htp (by rw [he]; exact hpc), hden]
    rw [notNegative_iff ρ] at hsn hdn
    rw [ρ.lt] at hnum
    exact rnd_lt ρ (X.div_mono hsn hnum hdn hs1 hs2 hdm)
  · exact lt_irrefl ρ _

end Rounding
end Verif
