/-
C45 with IEEE 754 doubles: the numbering of the cells and the F-Phi curve.
-/
import Verif.Props.Derived
import Verif.Spec.Rounding
import Verif.Proofs.DoubleInt
import Verif.Props.Rename

namespace Verif.Props
open Verif.Spec Verif.Derived

/-- Numbers with unset sign bit are determined by their values. -/
theorem double_ext {a b : Double} (ha : a.sign = false) (hb : b.sign = false) (h1 : Arith.eq a a = true) (h : Arith.lt a b = false)
    (h' : Arith.lt b a = false) (h2 : Arith.eq b b = true) : a = b := by
  have key : ∀ (m k : Nat) (e f : Int), IsDouble m e → IsDouble k f → e ≤ f → (m : ℚ) * 2 ^ e = k * 2 ^ f → m = k ∧ e = f := by
    intro m k e f hm hk hef h
    obtain ⟨d, rfl⟩ := Int.le.dest hef
    rw [zpow_add₀ (by norm_num : (2 : ℚ) ≠ 0), mul_comm ((2 : ℚ) ^ e), ← mul_assoc] at h
    have h := mul_right_cancel₀ (zpow_ne_zero e (by norm_num : (2 : ℚ) ≠ 0)) h
    have h : m = k * 2 ^ d := by exact_mod_cast h
    rcases Nat.eq_zero_or_pos d with rfl | hd
    · simpa using h
    · exfalso
      obtain ⟨m1, m2, m3, m4⟩ := hm
      obtain ⟨k1, k2, k3, k4⟩ := hk
      have : 2 ^ 52 ≤ k := by
        rcases k4 with k4 | k4
        · exact k4
        · omega
      have h2 : 2 ^ 1 ≤ 2 ^ d := Nat.pow_le_pow_right (by norm_num) hd
      have := Nat.mul_le_mul this h2
      omega
  cases a with
  | nan => exact absurd h1 (by decide)
  | infinite s =>
    cases s with
    | true => cases ha
    | false =>
      cases b with
      | nan => exact absurd h2 (by decide)
      | infinite t => cases t with
        | true => cases hb
        | false => rfl
      | finite t k f hk => exact absurd h' (by simp [Arith.lt, Double.val, X.lt])
  | finite s m e hm =>
    obtain rfl : s = false := ha
    cases b with
    | nan => exact absurd h2 (by decide)
    | infinite t => cases t with
      | true => cases hb
      | false => exact absurd h (by simp [Arith.lt, Double.val, X.lt])
    | finite t k f hk =>
      obtain rfl : t = false := hb
      have e1 : ¬ (m : ℚ) * 2 ^ e < k * 2 ^ f := by simpa [Arith.lt, Double.val, X.lt, Double.signed] using h
      have e2 : ¬ (k : ℚ) * 2 ^ f < m * 2 ^ e := by simpa [Arith.lt, Double.val, X.lt, Double.signed] using h'
      have e3 := le_antisymm (not_lt.mp e2) (not_lt.mp e1)
      rcases le_total e f with l | l
      · obtain ⟨rfl, rfl⟩ := key m k e f hm hk l e3; rfl
      · obtain ⟨rfl, rfl⟩ := key k m f e hk hm l e3.symm; rfl

theorem make_sign (s : Bool) (m : Nat) (e : Int) : (Double.make s m e).sign = s := by
  unfold Double.make
  split
  · rfl
  · split <;> rfl

theorem add_sign {a b : Double} (ha : a.sign = false) (hb : b.sign = false) : (Double.add a b).sign = false := by
  cases a with
  | nan => cases b <;> rfl
  | infinite s =>
    obtain rfl : s = false := ha
    cases b with
    | nan => rfl
    | infinite t => obtain rfl : t = false := hb; rfl
    | finite => rfl
  | finite s m e hm =>
    obtain rfl : s = false := ha
    cases b with
    | nan => rfl
    | infinite t => exact hb
    | finite t k f hk =>
      obtain rfl : t = false := hb
      show (Double.ofRat false ((m : ℚ) * 2 ^ e + k * 2 ^ f)).sign = false
      unfold Double.ofRat
      split
      · rfl
      · rw [Double.round, make_sign]
        have : (0 : ℚ) ≤ (m : ℚ) * (2 : ℚ) ^ e + (k : ℚ) * (2 : ℚ) ^ f :=
          add_nonneg (mul_nonneg m.cast_nonneg (zpow_nonneg zero_le_two _)) (mul_nonneg k.cast_nonneg (zpow_nonneg zero_le_two _))
        simpa using this

section
variable {R : Type} [Arith R]

/-- What the loop makes of lists of data. -/
theorem timesAndPvs_map (cells pre : List (R × R × R)) (m : R) :
    timesAndPvs ((pre ++ cells).map fun c => c.1) ((pre ++ cells).map fun c => c.2.1) ((pre ++ cells).map fun c => c.2.2) m
      (List.range' pre.length cells.length) = .ok (cells.map fun c => timeAndPv m c.1 c.2.1 c.2.2) := by
  induction cells generalizing pre with
  | nil => rfl
  | cons c cells ih =>
    have := ih (pre ++ [c])
    rw [List.append_assoc, List.length_append] at this
    simp only [List.length_cons, List.length_nil, List.range'_succ, timesAndPvs, List.singleton_append, Nat.zero_add] at this ⊢
    have rdm : ∀ f : R × R × R → R, rd ((pre ++ c :: cells).map f) pre.length = .ok (f c) := fun f =>
      rd_of_getElem? (by simp)
    rw [rdm, rdm, rdm, this]
    rfl

theorem curve_map (sort : List (R × R) → List (R × R)) {cells : List (R × R × R)} (hn : cells.length ≤ INT_MAX) (frac : R) :
    curve sort (cells.map fun c => c.1) (cells.map fun c => c.2.1) (cells.map fun c => c.2.2) frac =
      (sortPairs sort (cells.map fun c => timeAndPv (Arith.mul frac (sumOf (cells.map fun c => c.2.2))) c.1 c.2.1 c.2.2)).bind fun sorted =>
        .ok (cumulativeNormalized sorted fun i => i.2, cumulativeNormalized sorted fun i => Arith.div i.2 i.1) := by
  unfold curve
  rw [if_neg (by simp)]
  have hl : ((cells.map fun c => c.2.2).length) = cells.length := List.length_map _
  simp only [hl, narrowInt_small hn, Int.toNat_natCast]
  rw [if_neg (by omega)]
  have := timesAndPvs_map cells [] (Arith.mul frac (sumOf (cells.map fun c => c.2.2)))
  simp only [List.nil_append, List.length_nil] at this
  rw [List.range_eq_range', show (cells.map fun c => c.2.2).foldl Arith.add Arith.zero = sumOf (cells.map fun c => c.2.2) from rfl, this]
  rfl

/-- The same pairs are sorted the same way, if different pairs can be told apart by `<`. -/
theorem sortPairs_perm {sort sort' : List (R × R) → List (R × R)} (hs : SortsPairs sort) (hs' : SortsPairs sort') {l l' : List (R × R)}
    (h : l'.Perm l) (hext : ∀ a ∈ l, ∀ b ∈ l, (Arith.eq a.1 a.1 = true ∧ Arith.eq a.2 a.2 = true) →
      (Arith.eq b.1 b.1 = true ∧ Arith.eq b.2 b.2 = true) →
      Arith.lt b.1 a.1 = false ∧ (Arith.lt a.1 b.1 = true ∨ Arith.lt b.2 a.2 = false) →
      Arith.lt a.1 b.1 = false ∧ (Arith.lt b.1 a.1 = true ∨ Arith.lt a.2 b.2 = false) → a = b) :
    sortPairs sort' l' = sortPairs sort l := by
  unfold sortPairs
  by_cases hall : (l.all fun p => Arith.eq p.1 p.1 && Arith.eq p.2 p.2) = true
  · have hall' : (l'.all fun p => Arith.eq p.1 p.1 && Arith.eq p.2 p.2) = true := by
      rw [List.all_eq_true] at hall ⊢
      exact fun p hp => hall p (h.mem_iff.mp hp)
    rw [if_pos hall, if_pos hall']
    have num : ∀ p ∈ l, IsNumber p.1 ∧ IsNumber p.2 := fun p hp => by
      have := List.all_eq_true.mp hall p hp
      rwa [Bool.and_eq_true] at this
    obtain ⟨p1, s1⟩ := hs l num
    obtain ⟨p2, s2⟩ := hs' l' fun p hp => num p (h.mem_iff.mp hp)
    congr 1
    exact (p2.trans (h.trans p1.symm)).eq_of_pairwise (fun a b ha hb => 
      have ha := h.mem_iff.mp (p2.mem_iff.mp ha)
      have hb := p1.mem_iff.mp hb
      hext a ha b hb (num a ha) (num b hb)) s2 s1
  · have hall' : ¬ (l'.all fun p => Arith.eq p.1 p.1 && Arith.eq p.2 p.2) = true := by
      rw [List.all_eq_true] at hall ⊢
      exact fun c => hall fun p hp => c p (h.mem_iff.mpr hp)
    rw [if_neg hall, if_neg hall']

end

/-- **C45** (IEEE 754 doubles) The cells are given by travel times from the injectors, to the producers, and pore volumes, no sign bit
    being set.  Listing them in another order leaves the curve the same bit by bit, and whichever sorting algorithm is used, provided
    that the same cells are above the cutoff: the computed total pore volume may depend on the order. -/
theorem C45_double {sort sort' : List (Double × Double) → List (Double × Double)} (hs : SortsPairs sort) (hs' : SortsPairs sort')
    {cells cells' : List (Double × Double × Double)} (hperm : cells'.Perm cells) (hn : cells.length ≤ INT_MAX)
    (hsign : ∀ c ∈ cells, c.1.sign = false ∧ c.2.1.sign = false ∧ c.2.2.sign = false) {frac : Double}
    (hcut : ∀ c ∈ cells, Arith.lt (Arith.mul frac (sumOf (cells'.map fun c => c.2.2))) c.2.2 =
      Arith.lt (Arith.mul frac (sumOf (cells.map fun c => c.2.2))) c.2.2) :
    curve sort' (cells'.map fun c => c.1) (cells'.map fun c => c.2.1) (cells'.map fun c => c.2.2) frac =
      curve sort (cells.map fun c => c.1) (cells.map fun c => c.2.1) (cells.map fun c => c.2.2) frac := by
  rw [curve_map sort hn, curve_map sort' (by rw [hperm.length_eq]; exact hn)]
  generalize Arith.mul frac (sumOf (cells'.map fun c => c.2.2)) = M' at *
  generalize Arith.mul frac (sumOf (cells.map fun c => c.2.2)) = M at *
  have e : (cells'.map fun c => timeAndPv M' c.1 c.2.1 c.2.2) = cells'.map fun c => timeAndPv M c.1 c.2.1 c.2.2 := by
    refine List.map_congr_left fun c hc => ?_
    unfold timeAndPv
    rw [hcut c (hperm.mem_iff.mp hc)]
  rw [e, sortPairs_perm hs hs' (hperm.map _)]
  have sgn : ∀ a ∈ cells.map fun c => timeAndPv M c.1 c.2.1 c.2.2, a.1.sign = false ∧ a.2.sign = false := by
    intro a ha
    obtain ⟨c, hc, rfl⟩ := List.mem_map.mp ha
    obtain ⟨h1, h2, h3⟩ := hsign c hc
    unfold timeAndPv
    split
    · refine ⟨?_, rfl⟩
      show (Double.ofRat false ((10 : ℚ) ^ 100)).sign = false
      unfold Double.ofRat
      rw [if_neg (by norm_num), Double.round, make_sign]
      norm_num
    · exact ⟨add_sign h1 h2, h3⟩
  intro a ha b hb na nb h1 h2
  obtain ⟨a1, a2⟩ := sgn a ha
  obtain ⟨b1, b2⟩ := sgn b hb
  refine Prod.ext (double_ext a1 b1 na.1 h2.1 h1.1 nb.1) (double_ext a2 b2 na.2 ?_ ?_ nb.2)
  · rcases h2.2 with h | h
    · rw [h1.1] at h; cases h
    · exact h
  · rcases h1.2 with h | h
    · rw [h2.1] at h; cases h
    · exact h

/-- `1 + 2^-52`, `1` and `2^-52` as pore volumes. -/
def exTie : List (Double × Double × Double) :=
  [(Arith.lit 1, Arith.lit 1, Arith.lit (1 + 1 / 2 ^ 52)), (Arith.lit 1, Arith.lit 1, Arith.lit 1), (Arith.lit 1, Arith.lit 1, Arith.lit (1 / 2 ^ 52))]

/-- The same cells in another order. -/
def exTieOther : List (Double × Double × Double) :=
  [(Arith.lit 1, Arith.lit 1, Arith.lit 1), (Arith.lit 1, Arith.lit 1, Arith.lit (1 / 2 ^ 52)), (Arith.lit 1, Arith.lit 1, Arith.lit (1 + 1 / 2 ^ 52))]

set_option maxRecDepth 100000 in
theorem exTie_perm : exTieOther.Perm exTie := by decide +kernel

set_option maxRecDepth 100000 in
/-- C45 with doubles: with a cutoff of three quarters all hypotheses hold, although the computed total pore volumes differ. -/
example : exTieOther.Perm exTie ∧ (∀ c ∈ exTie, c.1.sign = false ∧ c.2.1.sign = false ∧ c.2.2.sign = false) ∧
    (∀ c ∈ exTie, Arith.lt (Arith.mul (Arith.lit (3 / 4)) (sumOf (exTieOther.map fun c => c.2.2))) c.2.2 =
      Arith.lt (Arith.mul (Arith.lit (3 / 4) : Double) (sumOf (exTie.map fun c => c.2.2))) c.2.2) ∧
    sumOf (exTieOther.map fun c => c.2.2) ≠ sumOf (exTie.map fun c => c.2.2) :=
  ⟨exTie_perm, by decide +kernel, by decide +kernel, by decide +kernel⟩

set_option maxRecDepth 100000 in
/-- **C45** (IEEE 754 doubles) The same cells must be above the cutoff: with a cutoff of one half the curve of three cells depends on
    their order, because the computed total pore volume does, whichever sorting algorithm is used. -/
theorem C45_double_cutoff : ∃ (cells cells' : List (Double × Double × Double)) (frac : Double), cells'.Perm cells ∧
    (∀ c ∈ cells, c.1.sign = false ∧ c.2.1.sign = false ∧ c.2.2.sign = false) ∧
    ∀ sort, SortsPairs sort → ∃ g g',
      curve sort (cells.map fun c => c.1) (cells.map fun c => c.2.1) (cells.map fun c => c.2.2) frac = .ok g ∧
      curve sort (cells'.map fun c => c.1) (cells'.map fun c => c.2.1) (cells'.map fun c => c.2.2) frac = .ok g' ∧
      g.1[2]? = some (Arith.lit 1) ∧ ∃ x, g'.1[2]? = some x ∧ Arith.lt x (Arith.lit (3 / 4)) = true := by
  refine ⟨exTie, exTieOther, Arith.lit (1 / 2), exTie_perm, by decide +kernel, fun sort hs => ?_⟩
  have sorted : ∀ l L : List (Double × Double), (∀ p ∈ l, IsNumber p.1 ∧ IsNumber p.2) → L.Perm l → L.Pairwise (fun a b =>
      Arith.lt b.1 a.1 = false ∧ (Arith.lt a.1 b.1 = true ∨ Arith.lt b.2 a.2 = false)) → (∀ p ∈ l, p.1.sign = false ∧ p.2.sign = false) →
      sort l = L := by
    intro l L num hL hp sgn
    obtain ⟨p1, s1⟩ := hs l num
    refine (p1.trans hL.symm).eq_of_pairwise (fun a b ha hb h1 h2 => ?_) s1 hp
    have ha := p1.mem_iff.mp ha
    have hb := hL.mem_iff.mp hb
    obtain ⟨a1, a2⟩ := sgn a ha
    obtain ⟨b1, b2⟩ := sgn b hb
    refine Prod.ext (double_ext a1 b1 (num a ha).1 h2.1 h1.1 (num b hb).1) (double_ext a2 b2 (num a ha).2 ?_ ?_ (num b hb).2)
    · rcases h2.2 with h | h
      · rw [h1.1] at h; cases h
      · exact h
    · rcases h1.2 with h | h
      · rw [h2.1] at h; cases h
      · exact h
  rw [curve_map sort (show exTie.length ≤ INT_MAX by decide), curve_map sort (show exTieOther.length ≤ INT_MAX by decide)]
  have l1 : (exTie.map fun c => timeAndPv (Arith.mul (Arith.lit (1 / 2)) (sumOf (exTie.map fun c => c.2.2))) c.1 c.2.1 c.2.2)
      = [(Arith.lit (10 ^ 100), Arith.zero), (Arith.lit 2, Arith.lit 1), (Arith.lit 2, Arith.lit (1 / 2 ^ 52))] := by decide +kernel
  have l2 : (exTieOther.map fun c => timeAndPv (Arith.mul (Arith.lit (1 / 2)) (sumOf (exTieOther.map fun c => c.2.2))) c.1 c.2.1 c.2.2)
      = [(Arith.lit 2, Arith.lit 1), (Arith.lit 2, Arith.lit (1 / 2 ^ 52)), (Arith.lit 2, Arith.lit (1 + 1 / 2 ^ 52))] := by decide +kernel
  have s1 := sorted [(Arith.lit (10 ^ 100), Arith.zero), (Arith.lit 2, Arith.lit 1), (Arith.lit 2, Arith.lit (1 / 2 ^ 52))]
    [(Arith.lit 2, Arith.lit (1 / 2 ^ 52)), (Arith.lit 2, Arith.lit 1), (Arith.lit (10 ^ 100), Arith.zero)]
    (by unfold IsNumber; decide +kernel) (by decide +kernel) (by decide +kernel) (by decide +kernel)
  have s2 := sorted [(Arith.lit 2, Arith.lit 1), (Arith.lit 2, Arith.lit (1 / 2 ^ 52)), (Arith.lit 2, Arith.lit (1 + 1 / 2 ^ 52))]
    [(Arith.lit 2, Arith.lit (1 / 2 ^ 52)), (Arith.lit 2, Arith.lit 1), (Arith.lit 2, Arith.lit (1 + 1 / 2 ^ 52))]
    (by unfold IsNumber; decide +kernel) (by decide +kernel) (by decide +kernel) (by decide +kernel)
  rw [l1, l2]
  unfold sortPairs
  rw [if_pos (by decide +kernel), if_pos (by decide +kernel), s1, s2]
  exact ⟨_, _, rfl, rfl, by decide +kernel, _, rfl, by decide +kernel⟩

/-! ### Ignored cells -/

theorem double_val_ext {a b : Double} (ha : a.sign = false) (hb : b.sign = false) (h : a.val = b.val) : a = b := by
  by_cases hn : a.val = X.nan
  · have key : ∀ c : Double, c.val = X.nan → c = Double.nan := by
      intro c hc
      cases c with
      | nan => rfl
      | infinite s => cases s <;> cases hc
      | finite => cases hc
    rw [key a hn, key b (h ▸ hn)]
  · have e : X.eq a.val a.val = true := by
      cases hv : a.val <;> simp_all [X.eq]
    have l : X.lt a.val a.val = false := by
      cases hv : a.val <;> simp [X.lt]
    exact double_ext ha hb e (by show X.lt a.val b.val = false; rw [← h]; exact l) (by show X.lt b.val a.val = false; rw [← h]; exact l)
      (by show X.eq b.val b.val = true; rw [← h]; exact e)

theorem add_zero_double {a : Double} (ha : a.sign = false) : Arith.add a (Arith.zero : Double) = a := by
  refine double_val_ext (add_sign ha rfl) ha ?_
  show (Double.add a _).val = _
  rw [Double.val_add, Double.val_lit_zero]
  have : X.add a.val (X.fin 0) = a.val := by cases a.val <;> simp [X.add]
  rw [this, Double.rnd_val]

theorem div_sign {a b : Double} (ha : a.sign = false) (hb : b.sign = false) : (Double.div a b).sign = false := by
  cases a with
  | nan => cases b <;> rfl
  | infinite s =>
    obtain rfl : s = false := ha
    cases b with
    | nan => rfl
    | infinite t => rfl
    | finite t => obtain rfl : t = false := hb; rfl
  | finite s m e hm =>
    obtain rfl : s = false := ha
    cases b with
    | nan => rfl
    | infinite t => obtain rfl : t = false := hb; rfl
    | finite t k f hk =>
      obtain rfl : t = false := hb
      show (if k = 0 then if m = 0 then Double.nan else Double.infinite false
        else Double.ofRat false ((m : ℚ) * 2 ^ e / (k * 2 ^ f))).sign = false
      split
      · split <;> rfl
      · show (Double.ofRat false ((m : ℚ) * 2 ^ e / (k * 2 ^ f))).sign = false
        unfold Double.ofRat
        split
        · rfl
        · rw [Double.round, make_sign]
          have : (0 : ℚ) ≤ (m : ℚ) * (2 : ℚ) ^ e / ((k : ℚ) * (2 : ℚ) ^ f) :=
            div_nonneg (mul_nonneg m.cast_nonneg (zpow_nonneg zero_le_two _)) (mul_nonneg k.cast_nonneg (zpow_nonneg zero_le_two _))
          simpa using this

theorem foldl_sign (l : List Double) (hl : ∀ x ∈ l, x.sign = false) (acc : Double) (h : acc.sign = false) :
    (l.foldl Arith.add acc).sign = false := by
  induction l generalizing acc with
  | nil => exact h
  | cons x l ih => exact ih (fun y hy => hl y (by simp [hy])) _ (add_sign h (hl x (by simp)))

theorem partialSums_append {R : Type} [Arith R] (xs ys : List R) (acc : R) :
    partialSums acc (xs ++ ys) = partialSums acc xs ++ partialSums (xs.foldl Arith.add acc) ys := by
  induction xs generalizing acc with
  | nil => rfl
  | cons x xs ih => simp [partialSums, ih]

theorem partialSums_last {R : Type} [Arith R] (xs : List R) (acc : R) :
    (acc :: partialSums acc xs).getLast? = some (xs.foldl Arith.add acc) := by
  induction xs generalizing acc with
  | nil => rfl
  | cons x xs ih => rw [partialSums, List.getLast?_cons_cons]; exact ih _

theorem partialSums_zeros {acc : Double} (h : acc.sign = false) (k : Nat) :
    partialSums acc (List.replicate k Arith.zero) = List.replicate k acc := by
  induction k with
  | zero => rfl
  | succ k ih => rw [List.replicate_succ, partialSums, add_zero_double h, ih, List.replicate_succ]

/-- Entries without pore volume repeat the last point. -/
theorem cumulative_zeros (L : List (Double × Double)) (f : Double × Double → Double) (hf : ∀ a ∈ L, (f a).sign = false) (z : Double × Double)
    (hz : f z = Arith.zero) (k : Nat) : ∃ p, (cumulativeNormalized L f).getLast? = some p ∧
      cumulativeNormalized (L ++ List.replicate k z) f = cumulativeNormalized L f ++ List.replicate k p := by
  have hs : ((L.map f).foldl Arith.add (Arith.zero : Double)).sign = false := by
    refine foldl_sign _ (fun x hx => ?_) _ rfl
    obtain ⟨a, ha, rfl⟩ := List.mem_map.mp hx
    exact hf a ha
  have l1 := partialSums_last (L.map f) (Arith.zero : Double)
  have e : partialSum (Arith.zero :: (L ++ List.replicate k z).map f) =
      partialSum (Arith.zero :: L.map f) ++ List.replicate k ((L.map f).foldl Arith.add Arith.zero) := by
    rw [List.map_append, List.map_replicate, hz]
    show Arith.zero :: partialSums _ _ = _
    rw [partialSums_append, partialSums_zeros hs]
    rfl
  have l2 : (partialSum (Arith.zero :: (L ++ List.replicate k z).map f)).getLastD Arith.zero = (L.map f).foldl Arith.add Arith.zero := by
    rw [e, List.getLastD_eq_getLast?, List.getLast?_append]
    rcases Nat.eq_zero_or_pos k with rfl | hk
    · simp only [List.replicate_zero, List.getLast?_nil, Option.none_or]
      show Option.getD (List.getLast? (Arith.zero :: partialSums _ _)) _ = _
      rw [l1]; rfl
    · rw [List.getLast?_replicate, if_neg (by omega)]; rfl
  have l3 : (partialSum (Arith.zero :: L.map f)).getLastD Arith.zero = (L.map f).foldl Arith.add Arith.zero := by
    rw [List.getLastD_eq_getLast?]
    show Option.getD (List.getLast? (Arith.zero :: partialSums _ _)) _ = _
    rw [l1]; rfl
  refine ⟨Arith.div ((L.map f).foldl Arith.add Arith.zero) ((L.map f).foldl Arith.add Arith.zero), ?_, ?_⟩
  · unfold cumulativeNormalized
    simp only [l3]
    rw [List.getLast?_map]
    show Option.map _ (List.getLast? (Arith.zero :: partialSums _ _)) = _
    rw [l1]; rfl
  · unfold cumulativeNormalized
    simp only [l2, l3]
    rw [e, List.map_append, List.map_replicate]

theorem lt_asymm_value {x y : X ℚ} (h : X.lt x y = true) : X.lt y x = false ∧ X.eq x x = true := by
  cases x <;> cases y <;> simp_all [X.lt, X.eq]
  exact h.le

set_option maxRecDepth 100000 in
theorem zero_by_huge : Arith.div (Arith.zero : Double) (Arith.lit (10 ^ 100)) = Arith.zero := by decide +kernel

/-- **C46** (IEEE 754 doubles) The cells are given by travel times from the injectors, to the producers, and pore volumes, no sign bit
    being set; travel times of the cells not above the cutoff are below `10^100`.  The curve is, bit by bit, the curve of the cells not above the cutoff,
    computed with a cutoff that none of them exceeds, followed by one copy of its end point per ignored cell. -/
theorem C46_double {sort sort' : List (Double × Double) → List (Double × Double)} (hs : SortsPairs sort) (hs' : SortsPairs sort')
    {cells kept : List (Double × Double × Double)} (hn : cells.length ≤ INT_MAX)
    (hsign : ∀ c ∈ cells, c.1.sign = false ∧ c.2.1.sign = false ∧ c.2.2.sign = false) (hnum : ∀ c ∈ cells, IsNumber c.2.2)
    {frac frac' : Double} (hk : kept = cells.filter fun c => !Arith.lt (Arith.mul frac (sumOf (cells.map fun c => c.2.2))) c.2.2)
    (ht : ∀ c ∈ kept, Arith.lt (Arith.add c.1 c.2.1) (Arith.lit (10 ^ 100)) = true)
    (hall : ∀ c ∈ kept, Arith.lt (Arith.mul frac' (sumOf (kept.map fun c => c.2.2))) c.2.2 = false) :
    ∃ Phi F p f, curve sort' (kept.map fun c => c.1) (kept.map fun c => c.2.1) (kept.map fun c => c.2.2) frac' = .ok (Phi, F) ∧
      Phi.getLast? = some p ∧ F.getLast? = some f ∧
      curve sort (cells.map fun c => c.1) (cells.map fun c => c.2.1) (cells.map fun c => c.2.2) frac =
        .ok (Phi ++ List.replicate (cells.length - kept.length) p, F ++ List.replicate (cells.length - kept.length) f) := by
  have hle : kept.length ≤ cells.length := by rw [hk]; exact List.length_filter_le _ _
  rw [curve_map sort hn, curve_map sort' (hle.trans hn)]
  generalize Arith.mul frac (sumOf (cells.map fun c => c.2.2)) = M at *
  generalize Arith.mul frac' (sumOf (kept.map fun c => c.2.2)) = M' at *
  have sub : ∀ c ∈ kept, c ∈ cells ∧ Arith.lt M c.2.2 = false := fun c hc => by
    rw [hk, List.mem_filter] at hc
    exact ⟨hc.1, by simpa using hc.2⟩
  -- the pairs
  have eK : (kept.map fun c => timeAndPv M' c.1 c.2.1 c.2.2) = kept.map fun c => (Arith.add c.1 c.2.1, c.2.2) := by
    refine List.map_congr_left fun c hc => ?_
    unfold timeAndPv
    rw [hall c hc]; rfl
  have perm : (cells.map fun c => timeAndPv M c.1 c.2.1 c.2.2).Perm
      ((kept.map fun c => (Arith.add c.1 c.2.1, c.2.2)) ++
        List.replicate (cells.length - kept.length) ((Arith.lit (10 ^ 100), Arith.zero) : Double × Double)) := by
    rw [hk]
    clear hk ht hall eK sub hle hn hsign hnum
    induction cells with
    | nil => exact List.Perm.refl _
    | cons c cells ih =>
      have hlen : (cells.filter fun c => !Arith.lt M c.2.2).length ≤ cells.length := List.length_filter_le _ _
      rw [List.map_cons, List.filter_cons]
      unfold timeAndPv at ih ⊢
      cases h : Arith.lt M c.2.2 with
      | false =>
        simp only [Bool.not_false, if_true, List.map_cons, List.length_cons, List.cons_append, Nat.add_sub_add_right]
        exact ih.cons _
      | true =>
        simp only [Bool.not_true, if_true, Bool.false_eq_true, if_false, List.length_cons]
        rw [Nat.sub_add_comm hlen, List.replicate_succ]
        exact (ih.cons _).trans List.perm_middle.symm
  have numK : ∀ p ∈ kept.map fun c => ((Arith.add c.1 c.2.1, c.2.2) : Double × Double), IsNumber p.1 ∧ IsNumber p.2 := by
    intro p hp
    obtain ⟨c, hc, rfl⟩ := List.mem_map.mp hp
    refine ⟨?_, hnum c (sub c hc).1⟩
    exact (lt_asymm_value (ht c hc)).2
  have sgnK : ∀ p ∈ kept.map fun c => ((Arith.add c.1 c.2.1, c.2.2) : Double × Double), p.1.sign = false ∧ p.2.sign = false := by
    intro p hp
    obtain ⟨c, hc, rfl⟩ := List.mem_map.mp hp
    obtain ⟨h1, h2, h3⟩ := hsign c (sub c hc).1
    exact ⟨add_sign h1 h2, h3⟩
  have ltK : ∀ p ∈ kept.map fun c => ((Arith.add c.1 c.2.1, c.2.2) : Double × Double), Arith.lt p.1 (Arith.lit (10 ^ 100)) = true := by
    intro p hp
    obtain ⟨c, hc, rfl⟩ := List.mem_map.mp hp
    exact ht c hc
  rw [eK]
  generalize (kept.map fun c => ((Arith.add c.1 c.2.1, c.2.2) : Double × Double)) = l at *
  generalize (cells.map fun c => timeAndPv M c.1 c.2.1 c.2.2) = l' at *
  generalize cells.length - kept.length = k at *
  have hz : (Arith.lit (10 ^ 100) : Double).sign = false ∧ IsNumber (Arith.lit (10 ^ 100) : Double) ∧ IsNumber (Arith.zero : Double) ∧
      Arith.lt (Arith.lit (10 ^ 100) : Double) (Arith.lit (10 ^ 100)) = false ∧ Arith.lt (Arith.zero : Double) Arith.zero = false := by
    unfold IsNumber; decide +kernel
  have mem : ∀ p ∈ l', p ∈ l ∨ p = (Arith.lit (10 ^ 100), Arith.zero) := fun p hp => by
    rcases List.mem_append.mp (perm.mem_iff.mp hp) with h | h
    · exact .inl h
    · exact .inr (List.eq_of_mem_replicate h)
  have num : ∀ p ∈ l', IsNumber p.1 ∧ IsNumber p.2 := fun p hp => by
    rcases mem p hp with h | rfl
    · exact numK p h
    · exact ⟨hz.2.1, hz.2.2.1⟩
  have sgn : ∀ p ∈ l', p.1.sign = false ∧ p.2.sign = false := fun p hp => by
    rcases mem p hp with h | rfl
    · exact sgnK p h
    · exact ⟨hz.1, rfl⟩
  obtain ⟨p1, s1⟩ := hs l' num
  obtain ⟨p2, s2⟩ := hs' l numK
  have sorted : sort l' = sort' l ++ List.replicate k (Arith.lit (10 ^ 100), Arith.zero) := by
    refine (p1.trans (perm.trans (p2.symm.append_right _))).eq_of_pairwise (fun a b ha hb h1 h2 => ?_) s1 ?_
    · have ha := p1.mem_iff.mp ha
      have hb := perm.mem_iff.mpr ((p2.append_right _).mem_iff.mp hb)
      refine Prod.ext (double_ext (sgn a ha).1 (sgn b hb).1 (num a ha).1 h2.1 h1.1 (num b hb).1)
        (double_ext (sgn a ha).2 (sgn b hb).2 (num a ha).2 ?_ ?_ (num b hb).2)
      · rcases h2.2 with h | h
        · rw [h1.1] at h; cases h
        · exact h
      · rcases h1.2 with h | h
        · rw [h2.1] at h; cases h
        · exact h
    · refine List.pairwise_append.mpr ⟨s2, List.pairwise_replicate.mpr (.inr ⟨hz.2.2.2.1, .inr hz.2.2.2.2⟩), fun a ha b hb => ?_⟩
      obtain rfl := List.eq_of_mem_replicate hb
      have := ltK a (p2.mem_iff.mp ha)
      exact ⟨(lt_asymm_value this).1, .inl this⟩
  have allK : (l.all fun p => Arith.eq p.1 p.1 && Arith.eq p.2 p.2) = true :=
    List.all_eq_true.mpr fun p hp => by rw [Bool.and_eq_true]; exact numK p hp
  have all' : (l'.all fun p => Arith.eq p.1 p.1 && Arith.eq p.2 p.2) = true :=
    List.all_eq_true.mpr fun p hp => by rw [Bool.and_eq_true]; exact num p hp
  unfold sortPairs
  rw [if_pos allK, if_pos all', sorted]
  have sS : ∀ a ∈ sort' l, a.1.sign = false ∧ a.2.sign = false := fun a ha => sgnK a (p2.mem_iff.mp ha)
  obtain ⟨p, q1, q2⟩ := cumulative_zeros (sort' l) (fun i => i.2) (fun a ha => (sS a ha).2) (Arith.lit (10 ^ 100), Arith.zero) rfl k
  obtain ⟨f, q3, q4⟩ := cumulative_zeros (sort' l) (fun i => Arith.div i.2 i.1) (fun a ha => div_sign (sS a ha).2 (sS a ha).1)
    (Arith.lit (10 ^ 100), Arith.zero) zero_by_huge k
  refine ⟨_, _, p, f, rfl, q1, q3, ?_⟩
  show Res.ok _ = _
  rw [q2, q4]

set_option maxRecDepth 100000 in
/-- C46 with doubles: one of the three cells is above the cutoff of one half, and all hypotheses hold. -/
example : (∀ c ∈ exTie, c.1.sign = false ∧ c.2.1.sign = false ∧ c.2.2.sign = false) ∧ (∀ c ∈ exTie, IsNumber c.2.2) ∧
    exTie.drop 1 = (exTie.filter fun c => !Arith.lt (Arith.mul (Arith.lit (1 / 2)) (sumOf (exTie.map fun c => c.2.2))) c.2.2) ∧
    (∀ c ∈ exTie.drop 1, Arith.lt (Arith.add c.1 c.2.1) (Arith.lit (10 ^ 100)) = true) ∧
    (∀ c ∈ exTie.drop 1, Arith.lt (Arith.mul (Arith.lit 1) (sumOf ((exTie.drop 1).map fun c => c.2.2))) c.2.2 = false) :=
  ⟨by decide +kernel, by unfold IsNumber; decide +kernel, by decide +kernel, by decide +kernel, by decide +kernel⟩

end Verif.Props
