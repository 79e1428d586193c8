/-
Sweep efficiency computed with `double`s.
-/
import Verif.Proofs.SweepRounding

namespace Verif.Rounding
open Verif.Spec Verif.Derived Finset

variable {n : Nat} {t p : Nat → ℚ} {η : ℚ}

/-- Filled volume when times are sorted up to a factor. -/
theorem fill_near (hη : 0 ≤ η) (hp : ∀ j < n, 0 ≤ p j) (ht : ∀ j < n, 0 < t j) (hm : ∀ i j, i ≤ j → j < n → t i ≤ t j * (1 + η)) {i : Nat} (hi : i < n) :
    |S p (i + 1) + t i * (S (rt t p) n - S (rt t p) (i + 1)) - fill n t p (t i)| ≤ η * S p n ∧
      t i * (S (rt t p) n - S (rt t p) (i + 1)) ≤ (1 + η) * S p n := by
  have hti := ht i hi
  have e1 : S p (i + 1) + t i * (S (rt t p) n - S (rt t p) (i + 1)) = ∑ j ∈ range n, if j ≤ i then p j else p j * (t i / t j) := by
    rw [S_sub _ (by omega : i + 1 ≤ n), mul_sum]
    unfold S
    rw [← Finset.sum_range_add_sum_Ico _ (by omega : i + 1 ≤ n)]
    congr 1
    · refine sum_congr rfl fun j hj => ?_
      rw [if_pos (by have := mem_range.mp hj; omega)]
    · refine sum_congr rfl fun j hj => ?_
      have := mem_Ico.mp hj
      rw [if_neg (by omega)]
      unfold rt
      ring
  have hpt : ∀ j < n, p j * min 1 (t i / t j) ≤ (if j ≤ i then p j else p j * (t i / t j)) ∧
      (if j ≤ i then p j else p j * (t i / t j)) ≤ p j * min 1 (t i / t j) + η * p j := by
    intro j hj
    have hpj := hp j hj
    have htj := ht j hj
    by_cases hji : j ≤ i
    · rw [if_pos hji]
      refine ⟨mul_le_of_le_one_right hpj (min_le_left _ _), ?_⟩
      have h1 : 1 ≤ min 1 (t i / t j) + η := by
        rw [← min_add_add_right]
        refine le_min (by linarith) ?_
        have h2 := hm j i hji hi
        rw [← sub_le_iff_le_add, le_div_iff₀ htj]
        have h3 : 0 ≤ η * (η * t i) := mul_nonneg hη (mul_nonneg hη hti.le)
        by_cases hη1 : η ≤ 1
        · have : (1 - η) * t j ≤ (1 - η) * (t i * (1 + η)) := mul_le_mul_of_nonneg_left h2 (by linarith)
          linarith [show (1 - η) * (t i * (1 + η)) = t i - η * (η * t i) by ring]
        · have : (1 - η) * t j ≤ 0 := mul_nonpos_of_nonpos_of_nonneg (by linarith) htj.le
          linarith
      calc p j = p j * 1 := (mul_one _).symm
        _ ≤ p j * (min 1 (t i / t j) + η) := mul_le_mul_of_nonneg_left h1 hpj
        _ = p j * min 1 (t i / t j) + η * p j := by ring
    · rw [if_neg hji]
      refine ⟨mul_le_mul_of_nonneg_left (min_le_right _ _) hpj, ?_⟩
      have h1 : t i / t j ≤ min 1 (t i / t j) + η := by
        rw [← min_add_add_right]
        refine le_min ?_ (by linarith)
        rw [div_le_iff₀ htj, mul_comm]
        exact hm i j (by omega) hj
      calc p j * (t i / t j) ≤ p j * (min 1 (t i / t j) + η) := mul_le_mul_of_nonneg_left h1 hpj
        _ = p j * min 1 (t i / t j) + η * p j := by ring
  constructor
  · rw [e1]
    unfold fill
    rw [← sum_sub_distrib]
    refine (abs_sum_le_sum_abs _ _).trans ?_
    unfold S
    rw [mul_sum]
    refine sum_le_sum fun j hj => ?_
    obtain ⟨h1, h2⟩ := hpt j (mem_range.mp hj)
    rw [abs_of_nonneg (by linarith)]
    linarith
  · rw [S_sub _ (by omega : i + 1 ≤ n), mul_sum]
    have h1 : ∑ j ∈ Ico (i + 1) n, t i * rt t p j ≤ ∑ j ∈ Ico (i + 1) n, (1 + η) * p j := by
      refine sum_le_sum fun j hj => ?_
      have hj' := mem_Ico.mp hj
      have h2 := hm i j (by omega) hj'.2
      have htj := ht j hj'.2
      unfold rt
      rw [mul_div_assoc', div_le_iff₀ htj]
      calc t i * p j ≤ t j * (1 + η) * p j := mul_le_mul_of_nonneg_right h2 (hp j hj'.2)
        _ = (1 + η) * p j * t j := by ring
    refine h1.trans ?_
    rw [← mul_sum]
    refine mul_le_mul_of_nonneg_left ?_ (by linarith)
    unfold S
    rw [range_eq_Ico]
    exact sum_le_sum_of_subset_of_nonneg (Ico_subset_Ico_left (Nat.zero_le _)) fun j hj _ => hp j (mem_Ico.mp hj).2

/-- The loop of sweep efficiency. -/
theorem sweep_loop {Phi F : List Double} (hn : n < INT_MAX) (v1 : Values n Phi (doubleIn Phi)) (v2 : Values n F (doubleIn F)) {κ μ δ : ℚ}
    (hη : η ≤ 1 / 2 ^ 40) (hη0 : 0 ≤ η) (hηκ : η ≤ 1 / 4 * κ) (hp : ∀ j < n, 0 ≤ p j) (ht : ∀ j < n, 0 < t j)
    (hm : ∀ i j, i ≤ j → j < n → t i ≤ t j * (1 + η))
    (hP : 0 < S p n) (hQ : 0 < S (rt t p) n) (hflat : ∀ i < n, p i = 0 → doubleIn F (i + 1) = doubleIn F i)
    (hnear : ∀ i ≤ n, |doubleIn Phi i - S p i / S p n| ≤ δ ∧ |doubleIn F i - S (rt t p) i / S (rt t p) n| ≤ δ)
    (hμ0 : 1 / 2 ^ 48 ≤ μ) (hμ1 : μ ≤ 1) (hδ : 2 * δ = κ * μ) (hκ : κ ≤ 1 / 8) (hκ1 : 14 / 2 ^ 51 ≤ κ) (hδ1 : 7 / 2 ^ 51 ≤ δ)
    (hbig : ∀ i < n, p i ≠ 0 → μ * S p n ≤ p i ∧ μ * S (rt t p) n ≤ rt t p i) :
    ∃ tD Ev, sweepEfficiency (Phi, F) = .ok (Arith.zero :: tD, Arith.zero :: Ev) ∧
      List.Forall₂ (fun (d : Double) i => ∃ x, d.val = X.fin x ∧ |x - t i * S (rt t p) n / S p n| ≤ 3 * κ * (t i * S (rt t p) n / S p n))
        tD (nonempty p n) ∧
      List.Forall₂ (fun (d : Double) i => ∃ x, d.val = X.fin x ∧ |x - fill n t p (t i) / S p n| ≤ 6 * κ) Ev (nonempty p n) := by
  unfold sweepEfficiency
  simp only [v1.length, v2.length]
  rw [if_neg (by simp), narrowInt_small (by omega), if_neg (by omega), Int.toNat_natCast]
  have hd : (List.range (n + 1)).drop 1 = (List.range n).map (· + 1) := by
    rw [List.range_succ_eq_map]; rfl
  rw [hd]
  have hloop : ∀ m ≤ n, ∃ tD Ev, forEach ((List.range m).map (· + 1)) (([Arith.zero], [Arith.zero]) : List Double × List Double) (sweepStep Phi F)
        = .ok (Arith.zero :: tD, Arith.zero :: Ev) ∧
      List.Forall₂ (fun (d : Double) i => ∃ x, d.val = X.fin x ∧ |x - t i * S (rt t p) n / S p n| ≤ 3 * κ * (t i * S (rt t p) n / S p n))
        tD (nonempty p m) ∧
      List.Forall₂ (fun (d : Double) i => ∃ x, d.val = X.fin x ∧ |x - fill n t p (t i) / S p n| ≤ 6 * κ) Ev (nonempty p m) := by
    intro m
    induction m with
    | zero => intro _; exact ⟨[], [], rfl, by simp [nonempty], by simp [nonempty]⟩
    | succ i ih =>
      intro hi
      obtain ⟨tD, Ev, e1, e2, e3⟩ := ih (by omega)
      obtain ⟨a0, ga0, va0⟩ := v1.val i (by omega)
      obtain ⟨a1, ga1, va1⟩ := v1.val (i + 1) (by omega)
      obtain ⟨b0, gb0, vb0⟩ := v2.val i (by omega)
      obtain ⟨b1, gb1, vb1⟩ := v2.val (i + 1) (by omega)
      have hne : nonempty p (i + 1) = nonempty p i ++ if p i ≠ 0 then [i] else [] := by
        unfold nonempty
        rw [List.range_succ, List.filter_append]
        congr 1
        by_cases hp : p i = 0 <;> simp [hp]
      have hstep : forEach ((List.range (i + 1)).map (· + 1)) (([Arith.zero], [Arith.zero]) : List Double × List Double) (sweepStep Phi F)
          = if !Arith.eq (Arith.sub b1 b0) Arith.zero then
              .ok (Arith.zero :: tD ++ [Arith.div (Arith.sub a1 a0) (Arith.sub b1 b0)], Arith.zero :: Ev ++
                [Arith.add a1 (Arith.mul (Arith.sub (Arith.lit 1) b1) (Arith.div (Arith.sub a1 a0) (Arith.sub b1 b0)))])
            else .ok (Arith.zero :: tD, Arith.zero :: Ev) := by
        rw [List.range_succ, List.map_append, forEach_append, e1]
        simp only [Res.ok_bind, List.map_cons, List.map_nil, forEach_cons, forEach_nil, sweepStep, Res.bind_eq,
          Res.pure_eq, Nat.add_sub_cancel]
        rw [rd_of_getElem? ga0, rd_of_getElem? ga1, rd_of_getElem? gb0, rd_of_getElem? gb1]
        simp only [Res.ok_bind]
        split <;> rfl
      rw [hstep, hne]
      by_cases hp0 : p i = 0
      · have hz : Arith.eq (Arith.sub b1 b0) (Arith.zero : Double) = true := by
          rw [Double.rounded.eq, Double.rounded.sub, show Double.rounded.val b1 = X.fin _ from vb1, show Double.rounded.val b0 = X.fin _ from vb0,
            hflat i (by omega) hp0, show ∀ x : ℚ, X.sub (X.fin x) (X.fin x) = X.fin (x - x) from fun x => Solver.X_sub x x, sub_self, show Double.rounded.val (Arith.zero : Double) = X.fin 0 from val_zero _,
            Double.rounded.rnd_zero]
          simp [X.eq]
        rw [hz]
        simp only [Bool.not_true, Bool.false_eq_true, if_false, hp0, ne_eq, not_true_eq_false, List.append_nil]
        exact ⟨tD, Ev, rfl, e2, e3⟩
      · have hti := ht i (by omega)
        obtain ⟨big1, big2⟩ := hbig i (by omega) hp0
        have hpi := hp i (by omega)
        have q1 : S p (i + 1) / S p n - S p i / S p n = p i / S p n := Φ_step (n := n) (p := p) i
        have q2 : S (rt t p) (i + 1) / S (rt t p) n - S (rt t p) i / S (rt t p) n = rt t p i / S (rt t p) n := Φ_step (n := n) (p := rt t p) i
        have hrt : ∀ j < n, 0 ≤ rt t p j := fun j hj => div_nonneg (hp j hj) (ht j hj).le
        have bd : ∀ y : Nat → ℚ, (∀ j < n, 0 ≤ y j) → y i ≤ S y n := fun y hy => single_le_sum (f := y) (fun j hj => hy j (mem_range.mp hj)) (mem_range.mpr (by omega))
        obtain ⟨f1, f2⟩ := fill_near hη0 hp ht hm (i := i) (by omega)
        have eτ : p i / S p n / (rt t p i / S (rt t p) n) = t i * S (rt t p) n / S p n := by
          unfold rt at hQ ⊢
          have h1 := hti.ne'
          have h2 := hP.ne'
          have h3 := hQ.ne'
          field_simp
        have e1F : 1 - S (rt t p) (i + 1) / S (rt t p) n = (S (rt t p) n - S (rt t p) (i + 1)) / S (rt t p) n := by
          rw [sub_div, div_self hQ.ne']
        have eprod : (1 - S (rt t p) (i + 1) / S (rt t p) n) * (t i * S (rt t p) n / S p n)
            = t i * (S (rt t p) n - S (rt t p) (i + 1)) / S p n := by
          rw [e1F]
          have h2 := hP.ne'
          have h3 := hQ.ne'
          field_simp
        obtain ⟨⟨z, z1, z2⟩, x, x1, x2, w, w1, w2⟩ := point_near (μ := μ) (κ := κ) (δ := δ) (η := η) va0 va1 vb0 vb1 (hnear i (by omega)).1 (hnear (i + 1) hi).1
          (hnear i (by omega)).2 (hnear (i + 1) hi).2 hμ0 (by rw [q1, le_div_iff₀ hP]; exact big1) (by rw [q2, le_div_iff₀ hQ]; exact big2)
          (by rw [q1, _root_.div_le_one hP]; exact bd p hp) (by rw [q2, _root_.div_le_one hQ]; exact bd _ hrt)
          (v2.bounds _ hi).1 (v2.bounds _ hi).2 (v1.bounds _ hi).1 (v1.bounds _ hi).2
          (by rw [_root_.div_le_one hQ]; exact S_mono hrt hi le_rfl) hδ hκ hκ1 hδ1 hμ1 hη
          (by rw [q1, q2, eτ, eprod, div_le_iff₀ hP]; exact f2)
        rw [q1, q2, eτ] at x2 w2
        have hz : Arith.eq (Arith.sub b1 b0) (Arith.zero : Double) = false := by
          rw [Double.rounded.eq, show Double.rounded.val (Arith.zero : Double) = X.fin 0 from val_zero _, show Double.rounded.val (Arith.sub b1 b0) = X.fin z from z1]
          simp [X.eq, z2]
        rw [hz]
        simp only [Bool.not_false, if_true, ne_eq, hp0, not_false_eq_true]
        refine ⟨_, _, rfl, List.rel_append e2 (List.Forall₂.cons ⟨x, x1, x2⟩ List.Forall₂.nil), List.rel_append e3 (List.Forall₂.cons ⟨w, w1, ?_⟩ List.Forall₂.nil)⟩
        rw [eprod] at w2
        have h5 : |S p (i + 1) / S p n + t i * (S (rt t p) n - S (rt t p) (i + 1)) / S p n - fill n t p (t i) / S p n| ≤ η := by
          rw [← add_div, ← sub_div, abs_div, abs_of_pos hP, div_le_iff₀ hP]
          exact f1
        have h6 := abs_sub_le w (S p (i + 1) / S p n + t i * (S (rt t p) n - S (rt t p) (i + 1)) / S p n) (fill n t p (t i) / S p n)
        linarith
  exact hloop n le_rfl

/-- Only elements of the second list matter. -/
theorem forall₂_mem {α β : Type} {r s : α → β → Prop} {l : List α} {m : List β} (h : List.Forall₂ r l m) (hrs : ∀ a, ∀ b ∈ m, r a b → s a b) :
    List.Forall₂ s l m := by
  induction h with
  | nil => exact List.Forall₂.nil
  | cons hab _ ih => exact List.Forall₂.cons (hrs _ _ List.mem_cons_self hab) (ih fun a b hb => hrs a b (List.mem_cons_of_mem _ hb))

/-- Sweep efficiency of the curve, with `double`s. -/
theorem sweep_double {I : CurveInput ℚ} {inj prod pv : List Double} {frac : Double} {sort : List (Double × Double) → List (Double × Double)}
    (h : I.OfOrdinarySize) (hd : I.StoredAs inj prod pv frac) (hs : SortsPairs sort) (hn : I.n < INT_MAX) {μ : ℚ}
    (hμ : 16 * (2 * I.n + 5) / 2 ^ 51 ≤ μ)
    (hpart : ∀ v < I.n, I.pv v = 0 ∨ μ * (∑ u ∈ range I.n, I.pv u) ≤ I.pv v ∧
      μ * (∑ u ∈ range I.n, I.pv u / I.time u) ≤ I.pv v / I.time v) :
    ∃ θ, |θ - I.frac| ≤ (I.n + 1) / 2 ^ 51 * I.frac ∧ ∃ g tD Ev, ∃ cells : List Nat, Derived.curve sort inj prod pv frac = .ok g ∧
      sweepEfficiency g = .ok (Arith.zero :: tD, Arith.zero :: Ev) ∧
      cells.Nodup ∧ (∀ v, v ∈ cells ↔ (I.withFraction θ).Kept v ∧ 0 < I.pv v) ∧
      List.Forall₂ (fun (d : Double) v => ∃ x, d.val = X.fin x ∧
        |x - I.time v * (I.withFraction θ).rate / (I.withFraction θ).volume|
          ≤ 6 * ((2 * I.n + 5) / 2 ^ 51 / μ) * (I.time v * (I.withFraction θ).rate / (I.withFraction θ).volume)) tD cells ∧
      List.Forall₂ (fun (d : Double) v => ∃ x, d.val = X.fin x ∧
        |x - (I.withFraction θ).swept (I.time v) / (I.withFraction θ).volume| ≤ 12 * ((2 * I.n + 5) / 2 ^ 51 / μ)) Ev cells := by
  obtain ⟨θ, hθ, Phi, F, hc, r1, r2, σ, hσ, hm, hflat, hnear⟩ := curve_near h hd hs
  refine ⟨θ, hθ, ?_⟩
  have hJ := withFraction_valid h hθ
  set J := I.withFraction θ with hJdef
  have hσ' : Order J.n σ := hσ
  have hv : S (fun j => J.keptPv (σ j)) I.n = J.volume := S_volume (I := J) hσ'
  have hr : S (rt (fun j => J.rank (σ j)) fun j => J.keptPv (σ j)) I.n = J.rate := S_rate (I := J) hσ'
  have hP : 0 < J.volume := volume_pos hJ
  have hpv : ∀ i < I.n, 0 ≤ J.keptPv (σ i) := fun i hi => keptPv_nonneg hJ (hσ.1 i hi)
  have hrk := rank_pos hJ
  have hQ : 0 < J.rate := by
    rw [← hr]
    obtain ⟨v, hk, hp⟩ := hJ.some_pv
    obtain ⟨j, hj, rfl⟩ := order_surj hσ hk.1
    exact sum_pos' (fun u hu => div_nonneg (hpv u (mem_range.mp hu)) (hrk _).le)
      ⟨j, mem_range.mpr hj, div_pos (keptPv_pos.mpr ⟨hk, hp⟩) (hrk _)⟩
  have htpos : ∀ v < I.n, 0 ≤ I.pv v / I.time v := fun v hv => div_nonneg (h.pv v hv).1 (h.time v hv).le
  have volume_le : J.volume ≤ ∑ u ∈ range I.n, I.pv u := sum_le_sum_of_subset_of_nonneg (filter_subset _ _) fun v hv _ => (h.pv v (mem_range.mp hv)).1
  have rate_le : J.rate ≤ ∑ u ∈ range I.n, I.pv u / I.time u := sum_le_sum_of_subset_of_nonneg (filter_subset _ _) fun v hv _ => htpos v (mem_range.mp hv)
  have hμpos : 0 < μ := lt_of_lt_of_le (by positivity) hμ
  have hn1 : 1 ≤ I.n := by obtain ⟨v, hv, _⟩ := h.some_pv; omega
  have hnq : (1 : ℚ) ≤ I.n := by exact_mod_cast hn1
  have hμ1 : μ ≤ 1 := by
    obtain ⟨v, hv, hp, _⟩ := h.some_pv
    rcases hpart v hv with h0 | ⟨h1, _⟩
    · rw [h0] at hp; exact absurd hp (_root_.lt_irrefl _)
    · have h2 : I.pv v ≤ ∑ u ∈ range I.n, I.pv u := single_le_sum (f := I.pv) (fun u hu => (h.pv u (mem_range.mp hu)).1) (mem_range.mpr hv)
      have h3 : 0 < ∑ u ∈ range I.n, I.pv u := lt_of_lt_of_le hp h2
      by_contra hc
      push Not at hc
      have := mul_lt_mul_of_pos_right hc h3
      rw [one_mul] at this
      linarith
  set δ : ℚ := (2 * I.n + 5) / 2 ^ 51 with hδdef
  have h16 : 16 * δ ≤ μ := by rw [hδdef, mul_div_assoc']; exact hμ
  have hδ7 : 7 / 2 ^ 51 ≤ δ := by rw [hδdef]; exact div_le_div_of_nonneg_right (by linarith) (by positivity)
  have hδ0 : 0 < δ := lt_of_lt_of_le (by norm_num) hδ7
  have hδμ : δ ≤ δ / μ := by rw [le_div_iff₀ hμpos]; exact mul_le_of_le_one_right hδ0.le hμ1
  have hκ8 : δ / μ ≤ 1 / 16 := by rw [div_le_iff₀ hμpos]; linarith
  have hk : ∀ i < I.n, J.keptPv (σ i) ≠ 0 → J.Kept (σ i) ∧ 0 < I.pv (σ i) := fun i hi h0 =>
    keptPv_pos.mp (lt_of_le_of_ne (hpv i hi) (Ne.symm h0))
  obtain ⟨tD, Ev, e1, e2, e3⟩ := sweep_loop (n := I.n) (t := fun j => J.rank (σ j)) (p := fun j => J.keptPv (σ j)) (η := 1 / 2 ^ 50) (κ := 2 * (δ / μ)) (μ := μ)
    (δ := δ) hn (values_of_rising r1) (values_of_rising r2) (by norm_num) (by norm_num) (by norm_num at hδ7 ⊢; linarith) hpv (fun j _ => hrk _) hm
    (by rw [hv]; exact hP) (by rw [hr]; exact hQ) hflat hnear (by norm_num at hδ7 ⊢; linarith) hμ1
    (by rw [mul_assoc, div_mul_cancel₀ _ hμpos.ne']) (by linarith) (by norm_num at hδ7 ⊢; linarith) hδ7 (by
      intro i hi h0
      obtain ⟨k1, k2⟩ := hk i hi h0
      have hi' := hσ.1 i hi
      rw [hv, hr]
      have a1 : J.keptPv (σ i) = I.pv (σ i) := by unfold CurveInput.keptPv; rw [if_pos k1]; rfl
      have a2 : J.rank (σ i) = I.time (σ i) := by unfold CurveInput.rank; rw [if_pos k1]; rfl
      have a3 : rt (fun j => J.rank (σ j)) (fun j => J.keptPv (σ j)) i = I.pv (σ i) / I.time (σ i) := by
        show J.keptPv (σ i) / J.rank (σ i) = _
        rw [a1, a2]
      rw [a3]
      show _ ≤ J.keptPv (σ i) ∧ _
      rw [a1]
      rcases hpart _ hi' with h0 | ⟨h1, h2⟩
      · rw [h0] at k2; exact absurd k2 (_root_.lt_irrefl _)
      · exact ⟨(mul_le_mul_of_nonneg_left volume_le hμpos.le).trans h1, (mul_le_mul_of_nonneg_left rate_le hμpos.le).trans h2⟩)
  have hin : ∀ i ∈ nonempty (fun j => J.keptPv (σ j)) I.n, J.rank (σ i) = I.time (σ i) := by
    intro i hi
    obtain ⟨h1, h2⟩ := List.mem_filter.mp hi
    have k1 := (hk i (List.mem_range.mp h1) (of_decide_eq_true h2)).1
    unfold CurveInput.rank; rw [if_pos k1]; rfl
  refine ⟨(Phi, F), tD, Ev, (nonempty (fun j => J.keptPv (σ j)) I.n).map σ, hc, e1, ?_, ?_, ?_, ?_⟩
  · unfold nonempty
    rw [List.nodup_map_iff_inj_on (List.nodup_range.filter _)]
    intro u hu v hv e
    exact hσ.2 u (List.mem_range.mp (List.mem_filter.mp hu).1) v (List.mem_range.mp (List.mem_filter.mp hv).1) e
  · intro v
    rw [List.mem_map]
    constructor
    · rintro ⟨j, hj, rfl⟩
      obtain ⟨h1, h2⟩ := List.mem_filter.mp hj
      exact hk j (List.mem_range.mp h1) (of_decide_eq_true h2)
    · rintro ⟨hkv, hp⟩
      obtain ⟨j, hj, rfl⟩ := order_surj hσ hkv.1
      refine ⟨j, List.mem_filter.mpr ⟨List.mem_range.mpr hj, ?_⟩, rfl⟩
      simpa using (keptPv_pos.mpr ⟨hkv, hp⟩).ne'
  · rw [List.forall₂_map_right_iff]
    rw [hv, hr] at e2
    refine forall₂_mem e2 fun d i hi hx => ?_
    rw [← hin i hi]
    obtain ⟨x, x1, x2⟩ := hx
    refine ⟨x, x1, x2.trans (le_of_eq (by ring))⟩
  · rw [List.forall₂_map_right_iff]
    rw [hv] at e3
    refine forall₂_mem e3 fun d i hi hx => ?_
    rw [← hin i hi]
    obtain ⟨x, x1, x2⟩ := hx
    have := fill_swept (I := J) hσ' (J.rank (σ i))
    rw [show fill I.n (fun j => J.rank (σ j)) (fun j => J.keptPv (σ j)) (J.rank (σ i)) = J.swept (J.rank (σ i)) from this] at x2
    exact ⟨x, x1, x2.trans (le_of_eq (by ring))⟩

end Verif.Rounding
