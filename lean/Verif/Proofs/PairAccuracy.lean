/-
Rounding errors of sums over the cells of two solutions.
-/
import Verif.Spec.PairAccuracy
import Verif.Proofs.DoublePrecise
import Verif.Proofs.DoubleSign
import Verif.Proofs.AccuracyProblem
import Mathlib.Tactic.Linarith

namespace Verif.Rounding
open Verif.Spec Verif.Toolbox Verif.Derived

abbrev q52 : ℚ := 1 + 1 / 2 ^ 52

theorem close_of_abs {k : Nat} (hk : k ≤ 2 ^ 49) {x y : ℚ} (hy : 0 ≤ y) (h : |x - y| ≤ k / 2 ^ 51 * y) :
    Close q52 (3 * k) x y := by
  have hk' : (k : ℚ) ≤ 2 ^ 49 := by exact_mod_cast hk
  have hk0 : (0 : ℚ) ≤ k := Nat.cast_nonneg k
  obtain ⟨h1, h2⟩ := abs_le.mp h
  have hb : 1 + 3 * (k : ℚ) * (1 / 2 ^ 52) ≤ q52 ^ (3 * k) := by
    have := one_add_mul_le_pow (a := (1 / 2 ^ 52 : ℚ)) (by norm_num) (3 * k)
    push_cast at this
    exact this
  have hx : y * (1 - k / 2 ^ 51) ≤ x := by linarith
  have hsmall : (k : ℚ) / 2 ^ 51 ≤ 1 / 4 := by
    rw [div_le_iff₀ (by positivity)]
    norm_num at hk' ⊢
    linarith
  constructor
  · have h3 : y * ((1 - k / 2 ^ 51) * (1 + 3 * (k : ℚ) * (1 / 2 ^ 52))) ≤ x * q52 ^ (3 * k) := by
      rw [← mul_assoc]
      refine mul_le_mul hx hb (by positivity) ?_
      refine le_trans (mul_nonneg hy ?_) hx
      linarith
    refine le_trans ?_ h3
    refine le_mul_of_one_le_right hy ?_
    have e : 3 * (k : ℚ) * (1 / 2 ^ 52) = 3 / 2 * (k / 2 ^ 51) := by ring
    rw [e]
    have ht : (0 : ℚ) ≤ k / 2 ^ 51 := by positivity
    generalize (k : ℚ) / 2 ^ 51 = t at hsmall ht
    nlinarith [mul_nonneg ht (sub_nonneg.mpr hsmall)]
  · calc x ≤ y * (1 + k / 2 ^ 51) := by linarith
      _ ≤ y * (1 + 3 * (k : ℚ) * (1 / 2 ^ 52)) := by
        refine mul_le_mul_of_nonneg_left ?_ hy
        have : (0 : ℚ) ≤ k / 2 ^ 51 := by positivity
        have e : 3 * (k : ℚ) * (1 / 2 ^ 52) = 3 / 2 * (k / 2 ^ 51) := by ring
        rw [e]; linarith
      _ ≤ y * q52 ^ (3 * k) := mul_le_mul_of_nonneg_left hb hy

theorem near_of_within {k : Nat} (hk : k ≤ 2 ^ 49) {a : Double} {y : ℚ} (hy : 0 ≤ y)
    (h : Within k (some a) (some (X.fin y))) : Near Double.rounded q52 (3 * k) a y := by
  rcases h with ⟨h, _⟩ | ⟨d, x, y', h1, h2, h3, h4⟩
  · cases h
  · cases h1
    cases h3
    exact ⟨x, h2, close_of_abs hk hy h4⟩

theorem range_fraction {y : ℚ} (h1 : y = 0 ∨ 1 / 2 ^ 300 ≤ y) (h2 : y ≤ 1) : Range 300 y := by
  rcases h1 with rfl | h1
  · exact Or.inl rfl
  refine Or.inr ⟨?_, h2.trans (one_le_pow₀ (by norm_num))⟩
  rwa [div_le_iff₀ (two_pow_pos' 300)] at h1

theorem within_of_near {k : Nat} (hk : k ≤ 2 ^ 51) {a : Double} {y : ℚ} (hy : 0 ≤ y)
    (h : Near Double.rounded q52 k a y) : Within k (some a) (some (X.fin y)) :=
  within_of_agrees hk (Or.inr ⟨a, y, rfl, rfl, hy, h⟩)

/-- Looking up a cell in both. -/
theorem fractions_find {n k : Nat} (hk : k ≤ 2 ^ 49) {T : CellSetValues Double} {T' : CellSetValues (X ℚ)}
    (h : FractionsWithin n k T T') (c : Int) : (T.find c = none ∧ T'.find c = none) ∨
    ∃ d y, T.find c = some d ∧ T'.find c = some (X.fin y) ∧ Near Double.rounded q52 (3 * k) d y ∧ (y = 0 ∨ 1 / 2 ^ 300 ≤ y) ∧ y ≤ 1 := by
  unfold FractionsWithin at h
  induction h with
  | nil => exact Or.inl ⟨rfl, rfl⟩
  | @cons a b l1 l2 h1 _ ih =>
    rw [OMap.find_cons, OMap.find_cons]
    obtain ⟨e, _, _, hw, y, ey, h2, h3⟩ := h1
    rw [e]
    by_cases hc : b.1 = c
    · rw [if_pos hc, if_pos hc]
      have hy : (0 : ℚ) ≤ y := (range_fraction h2 h3).nonneg
      rw [ey] at hw ⊢
      exact Or.inr ⟨_, _, rfl, rfl, near_of_within hk hy hw, h2, h3⟩
    · rw [if_neg hc, if_neg hc]
      exact ih

/-- A sum of numbers that are zero or not tiny is of the same kind. -/
theorem range_sum {s t : ℚ} (hs : Range 800 s) (ht : Range 700 t) (hb : s + t ≤ 2 ^ 800) : Range 800 (s + t) := by
  have hs0 := hs.nonneg
  have ht0 := ht.nonneg
  rcases hs with rfl | ⟨h1, _⟩
  · rw [zero_add]; exact ht.mono (by norm_num)
  · refine Or.inr ⟨?_, hb⟩
    have : 0 ≤ t * 2 ^ 800 := by positivity
    rw [add_mul]; exact h1.trans (le_add_of_nonneg_right this)

/-- Sum of pore volumes times both concentrations. -/
theorem volume_fold {n k l : Nat} (hk : k ≤ 2 ^ 49) (hl : l ≤ 2 ^ 49) (hn : n ≤ INT_MAX) {pv : List Double} {f : Nat → ℚ}
    (hpv : pv.map Double.val = arr n f) (hf : ∀ v < n, Ordinary (f v)) (hf0 : ∀ v < n, 0 ≤ f v)
    {T : CellSetValues Double} {T' : CellSetValues (X ℚ)} (hT : FractionsWithin n l T T')
    {a : CellSetValues Double} {b : CellSetValues (X ℚ)} (h : FractionsWithin n k a b) :
    ∀ (m : Nat) (acc : Double) (s : ℚ) (j : Nat), 3 * (k + l) + 2 ≤ m → m + a.length ≤ 2 ^ 51 →
      Near Double.rounded q52 m acc s → Range 800 s → s ≤ j * 2 ^ 100 → j + a.length ≤ 2 ^ 31 →
      ∃ d s', forEach a acc (addPairVolume T pv) = .ok d ∧ forEach b (X.fin s) (addPairVolume T' (arr n f)) = .ok (X.fin s') ∧
        Near Double.rounded q52 (m + a.length) d s' ∧ 0 ≤ s' := by
  unfold FractionsWithin at h
  induction h with
  | nil =>
    intro m acc s j _ _ h1 h2 _ _
    exact ⟨acc, s, rfl, rfl, h1, h2.nonneg⟩
  | @cons x y l1 l2 h1 h2 ih =>
    intro m acc s j hm hlen hacc hs hsb hj
    have hp := Double.precise
    obtain ⟨e, e0, en, hw, c, ey, c1, c2⟩ := h1
    rw [forEach_cons, forEach_cons]
    have hlen' : (x :: l1).length = l1.length + 1 := rfl
    rw [hlen'] at hlen hj ⊢
    unfold addPairVolume
    rcases fractions_find hl hT y.1 with ⟨f1, f2⟩ | ⟨d, z, f1, f2, hz, z1, z2⟩
    · rw [e, f1, f2]
      simp only [Res.ok_bind]
      obtain ⟨d, s', i1, i2, i3, i4⟩ := ih (m + 1) acc s j (by omega) (by omega) (hacc.mono hp hs.nonneg (by omega)) hs hsb (by omega)
      exact ⟨d, s', i1, i2, by rwa [show m + (l1.length + 1) = m + 1 + l1.length by omega], i4⟩
    · rw [e, f1, f2]
      have hv : y.1.toNat < n := by omega
      have hsz : sizeOfInt y.1 = y.1.toNat := sizeOfInt_nonneg e0 (by omega)
      have hpvd : ∃ p, pv[y.1.toNat]? = some p ∧ p.val = X.fin (f y.1.toNat) := by
        have hg := congrArg (fun l => l[y.1.toNat]?) hpv
        simp only [List.getElem?_map] at hg
        rw [Solver.arr_getElem? f hv] at hg
        obtain ⟨p, h1, h2⟩ := Option.map_eq_some_iff.mp hg
        exact ⟨p, h1, h2⟩
      obtain ⟨p, p1, p2⟩ := hpvd
      have hfr := range_of_ordinary (hf _ hv) (hf0 _ hv)
      have hf00 := hf0 _ hv
      have hcr := range_fraction c1 c2
      have hzr := range_fraction z1 z2
      have hfc : Range 400 (f y.1.toNat * c) := (hfr.mul hcr).mono (by norm_num)
      have ht : Range 700 (f y.1.toNat * c * z) := (hfc.mul hzr).mono (by norm_num)
      have n0 : Near Double.rounded q52 0 p (f y.1.toNat) := near_exact (ρ := Double.rounded) p2
      have n0' : Near Double.rounded q52 (3 * k) x.2 c := near_of_within hk hcr.nonneg (by rw [ey] at hw; exact hw)
      have n1 := near_mul hp (Double.pow_le_two (by omega)) n0 n0' hf00 hcr.nonneg (hfc.mono (by norm_num))
      have n2 := near_mul hp (Double.pow_le_two (by omega)) n1 hz hfc.nonneg hzr.nonneg (ht.mono (by norm_num))
      have htb : f y.1.toNat * c * z ≤ 2 ^ 100 := by
        calc f y.1.toNat * c * z ≤ f y.1.toNat * 1 * 1 :=
              mul_le_mul (mul_le_mul_of_nonneg_left c2 hf00) z2 hzr.nonneg (by simpa using hf00)
          _ = f y.1.toNat := by ring
          _ ≤ 2 ^ 100 := hfr.le
      generalize hte : f y.1.toNat * c * z = t at n2 ht htb
      have hsum : s + t ≤ ((j + 1 : Nat) : ℚ) * 2 ^ 100 := by push_cast; linarith
      have hbig : s + t ≤ 2 ^ 800 := by
        refine hsum.trans ?_
        have : ((j + 1 : Nat) : ℚ) ≤ 2 ^ 31 := by exact_mod_cast (by omega : j + 1 ≤ 2 ^ 31)
        calc ((j + 1 : Nat) : ℚ) * 2 ^ 100 ≤ 2 ^ 31 * 2 ^ 100 := mul_le_mul_of_nonneg_right this (by positivity)
          _ ≤ 2 ^ 800 := by rw [← pow_add]; exact pow_le_pow_right₀ (by norm_num) (by norm_num)
      have hr := range_sum hs ht hbig
      have n3 := near_add hp (Double.pow_le_two (by omega)) hacc (n2.mono hp ht.nonneg (by omega : _ ≤ m)) (hr.mono (by norm_num))
      obtain ⟨d', s', i1, i2, i3, i4⟩ := ih (m + 1) _ (s + t) (j + 1) (by omega) (by omega) n3 hr hsum (by omega)
      refine ⟨d', s', ?_, ?_, by rwa [show m + (l1.length + 1) = m + 1 + l1.length by omega], i4⟩
      · simp only [Res.bind_eq, Res.pure_eq, hsz, rd_of_getElem? p1, Res.ok_bind]
        exact i1
      · simp only [Res.bind_eq, Res.pure_eq, hsz, Solver.rd_arr f hv, Res.ok_bind, ey]
        have e : Arith.add (X.fin s) (Arith.mul (Arith.mul (X.fin (f y.1.toNat)) (X.fin c)) (X.fin z)) = X.fin (s + t) := by
          rw [← hte]; rfl
        rw [e]
        exact i2

theorem closeTo_of_near {k : Nat} (hk : k ≤ 2 ^ 51) {a : Double} {y : ℚ} (hy : 0 ≤ y)
    (h : Near Double.rounded q52 k a y) : CloseTo k a (X.fin y) := by
  obtain ⟨x, h1, h2⟩ := h
  exact ⟨x, y, h1, rfl, by rw [abs_of_nonneg hy]; exact Double.close_abs hk hy h2⟩

theorem rnd_neg_fin (x : ℚ) : Double.rounded.rnd (X.fin (-x)) = X.neg (Double.rounded.rnd (X.fin x)) := by
  show Double.rnd (X.fin (-x)) = X.neg (Double.rnd (X.fin x))
  by_cases hx : x = 0
  · subst hx
    rw [neg_zero]
    have : Double.rnd (X.fin 0) = X.fin 0 := Double.rounded.rnd_zero
    rw [this]
    simp [X.neg]
  · show Double.val (Double.ofRat false (-x)) = X.neg (Double.val (Double.ofRat false x))
    rw [Double.neg_ofRat false false hx]
    exact Double.val_neg' _

/-- The mirror image of `near_add`. -/
theorem far_add {k : Nat} (hk : k ≤ 2 ^ 51) {a b : Double} {x y : ℚ} (ha : Near Double.rounded q52 k (Arith.neg a) x)
    (hb : Near Double.rounded q52 k (Arith.neg b) y) (h : Range 1000 (x + y)) :
    Near Double.rounded q52 (k + 1) (Arith.neg (Arith.add a b)) (x + y) := by
  have hneg : ∀ {a : Double} {u : ℚ}, Double.rounded.val (Arith.neg a) = X.fin u → Double.rounded.val a = X.fin (-u) := by
    intro a u hu
    rw [Double.rounded.neg] at hu
    cases hv : Double.rounded.val a with
    | fin t =>
      rw [hv] at hu
      simp only [X.neg, X.fin.injEq] at hu
      rw [← hu, neg_neg]
    | pinf => rw [hv] at hu; cases hu
    | ninf => rw [hv] at hu; cases hu
    | nan => rw [hv] at hu; cases hu
  obtain ⟨a', ha, hac⟩ := ha
  obtain ⟨b', hb, hbc⟩ := hb
  refine near_rnd Double.precise (Double.pow_le_two hk) (x := a' + b') ?_ (hac.add hbc) h
  rw [Double.rounded.neg, Double.rounded.add, hneg ha, hneg hb]
  show X.neg (Double.rounded.rnd (X.fin (-a' + -b'))) = _
  rw [← rnd_neg_fin]
  congr 2
  ring

/-- The mirror image of `near_mul`. -/
theorem far_mul {k l : Nat} (hk : k + l ≤ 2 ^ 51) {a b : Double} {x y : ℚ} (ha : Near Double.rounded q52 k (Arith.neg a) x)
    (hb : Near Double.rounded q52 l b y) (hx : 0 ≤ x) (hy : 0 ≤ y) (h : Range 1000 (x * y)) :
    Near Double.rounded q52 (k + l + 1) (Arith.neg (Arith.mul a b)) (x * y) := by
  obtain ⟨a', ha, hac⟩ := ha
  obtain ⟨b', hb, hbc⟩ := hb
  have hva : Double.rounded.val a = X.fin (-a') := by
    rw [Double.rounded.neg] at ha
    cases hv : Double.rounded.val a with
    | fin t =>
      rw [hv] at ha
      simp only [X.neg, X.fin.injEq] at ha
      rw [← ha, neg_neg]
    | pinf => rw [hv] at ha; cases ha
    | ninf => rw [hv] at ha; cases ha
    | nan => rw [hv] at ha; cases ha
  refine near_rnd Double.precise (Double.pow_le_two hk) (x := a' * b') ?_ (hac.mul Double.precise.one_le hbc hx hy) h
  rw [Double.rounded.neg, Double.rounded.mul, hva, hb]
  show X.neg (Double.rounded.rnd (X.fin (-a' * b'))) = _
  rw [← rnd_neg_fin]
  congr 2
  ring

theorem lt_zero_val {d : Double} {x : ℚ} (h : d.val = X.fin x) : Arith.lt (Arith.zero : Double) d = decide (0 < x) := by
  have h1 : Arith.lt (Arith.zero : Double) d = X.lt (Double.rounded.val Arith.zero) (Double.rounded.val d) := Double.rounded.lt _ _
  rw [h1, show Double.rounded.val Arith.zero = X.fin 0 from Double.val_lit_zero]
  show X.lt (X.fin 0) d.val = _
  rw [h]; rfl

/-- Sum of what enters, weighted with concentrations. -/
theorem inflow_fold {n l : Nat} (hl : l ≤ 2 ^ 49) {T : CellSetValues Double} {T' : CellSetValues (X ℚ)}
    (hT : FractionsWithin n l T T') {a : CellSetValues Double} {b : CellSetValues (X ℚ)} (h : FluxesStored a b) :
    ∀ (m : Nat) (acc : Double) (s : ℚ) (j : Nat), 3 * l + 1 ≤ m → m + a.length ≤ 2 ^ 51 →
      Near Double.rounded q52 m acc s → Range 800 s → s ≤ j * 2 ^ 100 → j + a.length ≤ 2 ^ 31 →
      ∃ s', b.foldl (addPairFlux T' true) (X.fin s) = X.fin s' ∧ 0 ≤ s' ∧
        Near Double.rounded q52 (m + a.length) (a.foldl (addPairFlux T true) acc) s' := by
  unfold FluxesStored at h
  induction h with
  | nil =>
    intro m acc s j _ _ h1 h2 _ _
    exact ⟨s, rfl, h2.nonneg, h1⟩
  | @cons x y l1 l2 h1 h2 ih =>
    intro m acc s j hm hlen hacc hs hsb hj
    have hp := Double.precise
    obtain ⟨e, q, ex, ey, hq⟩ := h1
    rw [List.foldl_cons, List.foldl_cons]
    have hlen' : (x :: l1).length = l1.length + 1 := rfl
    rw [hlen'] at hlen hj ⊢
    have skip : addPairFlux T true acc x = acc → addPairFlux T' true (X.fin s) y = X.fin s →
        ∃ s', l2.foldl (addPairFlux T' true) (addPairFlux T' true (X.fin s) y) = X.fin s' ∧ 0 ≤ s' ∧
          Near Double.rounded q52 (m + (l1.length + 1)) (l1.foldl (addPairFlux T true) (addPairFlux T true acc x)) s' := by
      intro e1 e2
      rw [e1, e2]
      obtain ⟨s', i1, i2, i3⟩ := ih (m + 1) acc s j (by omega) (by omega) (hacc.mono hp hs.nonneg (by omega)) hs hsb (by omega)
      exact ⟨s', i1, i2, by rwa [show m + (l1.length + 1) = m + 1 + l1.length by omega]⟩
    rcases fractions_find hl hT y.1 with ⟨f1, f2⟩ | ⟨d, z, f1, f2, hz, z1, z2⟩
    · exact skip (by unfold addPairFlux; rw [e, f1]) (by unfold addPairFlux; rw [f2])
    · by_cases hq0 : 0 < q
      · have hzr := range_fraction z1 z2
        have hqr := range_of_ordinary hq hq0.le
        have ht : Range 400 (q * z) := (hqr.mul hzr).mono (by norm_num)
        have n0 : Near Double.rounded q52 0 x.2 q := near_exact (ρ := Double.rounded) ex
        have n1 := near_mul hp (Double.pow_le_two (by omega)) n0 hz hq0.le hzr.nonneg (ht.mono (by norm_num))
        have htb : q * z ≤ 2 ^ 100 := (mul_le_of_le_one_right hq0.le z2).trans hqr.le
        have e1 : addPairFlux T true acc x = Arith.add acc (Arith.mul x.2 d) := by
          unfold addPairFlux
          rw [e, f1]
          simp only [lt_zero_val ex, hq0, decide_true, beq_self_eq_true, if_true]
        have e2 : addPairFlux T' true (X.fin s) y = X.fin (s + q * z) := by
          unfold addPairFlux
          rw [f2, ey]
          have : Arith.lt (Arith.zero : X ℚ) (X.fin q) = true := by
            show X.lt (X.fin 0) (X.fin q) = true
            simp [X.lt, hq0]
          simp only [this, beq_self_eq_true, if_true]
          rfl
        rw [e1, e2]
        generalize q * z = t at n1 ht htb
        have hsum : s + t ≤ ((j + 1 : Nat) : ℚ) * 2 ^ 100 := by push_cast; linarith
        have hbig : s + t ≤ 2 ^ 800 := by
          refine hsum.trans ?_
          have : ((j + 1 : Nat) : ℚ) ≤ 2 ^ 31 := by exact_mod_cast (by omega : j + 1 ≤ 2 ^ 31)
          calc ((j + 1 : Nat) : ℚ) * 2 ^ 100 ≤ 2 ^ 31 * 2 ^ 100 := mul_le_mul_of_nonneg_right this (by positivity)
            _ ≤ 2 ^ 800 := by rw [← pow_add]; exact pow_le_pow_right₀ (by norm_num) (by norm_num)
        have hr := range_sum hs (ht.mono (by norm_num)) hbig
        have n3 := near_add hp (Double.pow_le_two (by omega)) hacc (n1.mono hp ht.nonneg (by omega : _ ≤ m)) (hr.mono (by norm_num))
        obtain ⟨s', i1, i2, i3⟩ := ih (m + 1) _ (s + t) (j + 1) (by omega) (by omega) n3 hr hsum (by omega)
        exact ⟨s', i1, i2, by rwa [show m + (l1.length + 1) = m + 1 + l1.length by omega]⟩
      · refine skip ?_ ?_
        · unfold addPairFlux
          rw [e, f1]
          simp [lt_zero_val ex, hq0]
        · unfold addPairFlux
          rw [f2, ey]
          have : Arith.lt (Arith.zero : X ℚ) (X.fin q) = false := by
            show X.lt (X.fin 0) (X.fin q) = false
            simp [X.lt, hq0]
          simp [this]

/-- Sum of what leaves, weighted with concentrations. -/
theorem outflow_fold {n l : Nat} (hl : l ≤ 2 ^ 49) {T : CellSetValues Double} {T' : CellSetValues (X ℚ)}
    (hT : FractionsWithin n l T T') {a : CellSetValues Double} {b : CellSetValues (X ℚ)} (h : FluxesStored a b) :
    ∀ (m : Nat) (acc : Double) (s : ℚ) (j : Nat), 3 * l + 1 ≤ m → m + a.length ≤ 2 ^ 51 →
      Near Double.rounded q52 m (Arith.neg acc) s → Range 800 s → s ≤ j * 2 ^ 100 → j + a.length ≤ 2 ^ 31 →
      ∃ s', b.foldl (addPairFlux T' false) (X.fin (-s)) = X.fin (-s') ∧ 0 ≤ s' ∧
        Near Double.rounded q52 (m + a.length) (Arith.neg (a.foldl (addPairFlux T false) acc)) s' := by
  unfold FluxesStored at h
  induction h with
  | nil =>
    intro m acc s j _ _ h1 h2 _ _
    exact ⟨s, rfl, h2.nonneg, h1⟩
  | @cons x y l1 l2 h1 h2 ih =>
    intro m acc s j hm hlen hacc hs hsb hj
    have hp := Double.precise
    obtain ⟨e, q, ex, ey, hq⟩ := h1
    rw [List.foldl_cons, List.foldl_cons]
    have hlen' : (x :: l1).length = l1.length + 1 := rfl
    rw [hlen'] at hlen hj ⊢
    have skip : addPairFlux T false acc x = acc → addPairFlux T' false (X.fin (-s)) y = X.fin (-s) →
        ∃ s', l2.foldl (addPairFlux T' false) (addPairFlux T' false (X.fin (-s)) y) = X.fin (-s') ∧ 0 ≤ s' ∧
          Near Double.rounded q52 (m + (l1.length + 1)) (Arith.neg (l1.foldl (addPairFlux T false) (addPairFlux T false acc x))) s' := by
      intro e1 e2
      rw [e1, e2]
      obtain ⟨s', i1, i2, i3⟩ := ih (m + 1) acc s j (by omega) (by omega) (hacc.mono hp hs.nonneg (by omega)) hs hsb (by omega)
      exact ⟨s', i1, i2, by rwa [show m + (l1.length + 1) = m + 1 + l1.length by omega]⟩
    rcases fractions_find hl hT y.1 with ⟨f1, f2⟩ | ⟨d, z, f1, f2, hz, z1, z2⟩
    · exact skip (by unfold addPairFlux; rw [e, f1]) (by unfold addPairFlux; rw [f2])
    · by_cases hq0 : 0 < q
      · refine skip ?_ ?_
        · unfold addPairFlux
          rw [e, f1]
          simp [lt_zero_val ex, hq0]
        · unfold addPairFlux
          rw [f2, ey]
          have : Arith.lt (Arith.zero : X ℚ) (X.fin q) = true := by
            show X.lt (X.fin 0) (X.fin q) = true
            simp [X.lt, hq0]
          simp [this]
      · have hq1 : 0 ≤ -q := by linarith [not_lt.mp hq0]
        have hzr := range_fraction z1 z2
        have hqr := range_of_ordinary (x := -q) (by unfold Ordinary at hq ⊢; rwa [neg_eq_zero, abs_neg]) hq1
        have ht : Range 400 (-q * z) := (hqr.mul hzr).mono (by norm_num)
        have n0 : Near Double.rounded q52 0 (Arith.neg x.2) (-q) :=
          near_exact (ρ := Double.rounded) (by rw [Double.rounded.neg, show Double.rounded.val x.2 = X.fin q from ex]; rfl)
        have n1 := far_mul (by omega) n0 hz hq1 hzr.nonneg (ht.mono (by norm_num))
        have htb : -q * z ≤ 2 ^ 100 := (mul_le_of_le_one_right hq1 z2).trans hqr.le
        have e1 : addPairFlux T false acc x = Arith.add acc (Arith.mul x.2 d) := by
          unfold addPairFlux
          rw [e, f1]
          simp only [lt_zero_val ex, hq0, decide_false, beq_self_eq_true, if_true]
        have e2 : addPairFlux T' false (X.fin (-s)) y = X.fin (-(s + -q * z)) := by
          unfold addPairFlux
          rw [f2, ey]
          have : Arith.lt (Arith.zero : X ℚ) (X.fin q) = false := by
            show X.lt (X.fin 0) (X.fin q) = false
            simp [X.lt, hq0]
          simp only [this, beq_self_eq_true, if_true]
          show X.fin (-s + q * z) = _
          congr 1; ring
        rw [e1, e2]
        generalize -q * z = t at n1 ht htb
        have hsum : s + t ≤ ((j + 1 : Nat) : ℚ) * 2 ^ 100 := by push_cast; linarith
        have hbig : s + t ≤ 2 ^ 800 := by
          refine hsum.trans ?_
          have : ((j + 1 : Nat) : ℚ) ≤ 2 ^ 31 := by exact_mod_cast (by omega : j + 1 ≤ 2 ^ 31)
          calc ((j + 1 : Nat) : ℚ) * 2 ^ 100 ≤ 2 ^ 31 * 2 ^ 100 := mul_le_mul_of_nonneg_right this (by positivity)
            _ ≤ 2 ^ 800 := by rw [← pow_add]; exact pow_le_pow_right₀ (by norm_num) (by norm_num)
        have hr := range_sum hs (ht.mono (by norm_num)) hbig
        have n3 := far_add (by omega) hacc (n1.mono hp ht.nonneg (by omega : _ ≤ m)) (hr.mono (by norm_num))
        obtain ⟨s', i1, i2, i3⟩ := ih (m + 1) _ (s + t) (j + 1) (by omega) (by omega) n3 hr hsum (by omega)
        exact ⟨s', i1, i2, by rwa [show m + (l1.length + 1) = m + 1 + l1.length by omega]⟩

end Verif.Rounding
