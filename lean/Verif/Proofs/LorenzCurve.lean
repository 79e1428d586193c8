/-
Rounding errors of the F-Phi curve.
-/
import Verif.Proofs.LorenzRounding

namespace Verif.Rounding
open Verif.Spec Verif.Derived Finset

theorem near_notNegative {k : Nat} {a : Double} {y : ℚ} (h : Near Double.rounded q52 k a y) (hy : 0 ≤ y) : NotNegative a := by
  obtain ⟨x, h1, h2⟩ := h
  rw [notNegative_iff Double.rounded, h1]
  have := h2.nonneg Double.precise.one_le hy
  simpa [X.lt] using this

theorem near_isNumber {k : Nat} {a : Double} {y : ℚ} (h : Near Double.rounded q52 k a y) : IsNumber a := by
  obtain ⟨x, h1, _⟩ := h
  rw [isNumber_iff Double.rounded]
  unfold Num
  rw [h1]; simp

theorem S_nonneg {y : Nat → ℚ} {n : Nat} (hy : ∀ j < n, 0 ≤ y j) {i : Nat} (hi : i ≤ n) : 0 ≤ S y i := by
  have := S_mono hy (Nat.zero_le i) hi
  simpa [S] using this

theorem S_range {n : Nat} (hn : n ≤ INT_MAX) {y : Nat → ℚ} (hr : ∀ j < n, Range 300 (y j)) : ∀ i ≤ n, Range 400 (S y i) ∧ S y i ≤ i * 2 ^ 300 := by
  intro i
  have hI : INT_MAX = 2147483647 := rfl
  induction i with
  | zero => intro _; exact ⟨Or.inl (by simp [S]), by simp [S]⟩
  | succ i ih =>
    intro hi
    obtain ⟨h1, h2⟩ := ih (by omega)
    have hy := hr i (by omega)
    have hle := hy.le
    rw [S_succ]
    have hb : S y i + y i ≤ ((i + 1 : ℕ) : ℚ) * 2 ^ 300 := by push_cast; rw [add_mul, one_mul]; exact add_le_add h2 hle
    refine ⟨?_, hb⟩
    have hb2 : S y i + y i ≤ 2 ^ 400 := by
      refine hb.trans ?_
      have : ((i + 1 : ℕ) : ℚ) ≤ 2 ^ 31 := by exact_mod_cast (by omega : i + 1 ≤ 2 ^ 31)
      calc ((i + 1 : ℕ) : ℚ) * 2 ^ 300 ≤ 2 ^ 31 * 2 ^ 300 := mul_le_mul_of_nonneg_right this (by positivity)
        _ ≤ 2 ^ 400 := by rw [← pow_add]; exact pow_le_pow_right₀ (by norm_num) (by norm_num)
    have hy0 := hy.nonneg
    rcases h1 with h1 | ⟨h1, _⟩
    · rw [h1, zero_add]; exact hy.mono (by norm_num)
    · refine Or.inr ⟨?_, hb2⟩
      have : 0 ≤ y i * 2 ^ 400 := by positivity
      rw [add_mul]; exact h1.trans (le_add_of_nonneg_right this)

/-- Sums, from left to right. -/
theorem sums_near {n : Nat} (hn : n ≤ INT_MAX) {d : Nat → Double} {y : Nat → ℚ} {k : Nat} (hk : k ≤ 8)
    (hd : ∀ j < n, Near Double.rounded q52 k (d j) (y j)) (hr : ∀ j < n, Range 300 (y j)) :
    ∀ i ≤ n, Near Double.rounded q52 (k + i) ((((List.range n).map d).take i).foldl Arith.add Arith.zero) (S y i) := by
  have hp := Double.precise
  have hI : INT_MAX = 2147483647 := rfl
  intro i
  induction i with
  | zero => intro _; exact near_zero hp _
  | succ i ih =>
    intro hi
    have h1 := ih (by omega)
    have e : ((List.range n).map d).take (i + 1) = ((List.range n).map d).take i ++ [d i] := by
      rw [← List.map_take, ← List.map_take, List.take_range, List.take_range, min_eq_left hi, min_eq_left (by omega), List.range_succ, List.map_append]
      rfl
    rw [e, List.foldl_append, S_succ]
    have h2 := (S_range hn hr (i + 1) hi).1
    rw [S_succ] at h2
    rw [← Nat.add_assoc]
    exact near_add hp (k := k + i) (Double.pow_le_two (by omega)) h1 ((hd i (by omega)).mono hp (hr i (by omega)).nonneg (by omega)) (h2.mono (by norm_num))

/-- Normalized sums. -/
theorem cumulative_near {n : Nat} (hn : n ≤ INT_MAX) {d : Nat → Double} {y : Nat → ℚ} {k : Nat} (hk : k ≤ 8)
    (hd : ∀ j < n, Near Double.rounded q52 k (d j) (y j)) (hr : ∀ j < n, Range 300 (y j)) (hpos : 0 < S y n) :
    Rising n (cumulativeNormalized (List.range n) d) ∧
    (∀ i ≤ n, ∃ a, (cumulativeNormalized (List.range n) d)[i]? = some a ∧
      Near Double.rounded q52 (2 * (k + n) + 1) a (S y i / S y n)) ∧
    ∀ i < n, y i = 0 → doubleIn (cumulativeNormalized (List.range n) d) (i + 1) = doubleIn (cumulativeNormalized (List.range n) d) i := by
  have hp := Double.precise
  have hI : INT_MAX = 2147483647 := rfl
  have hget : ∀ i ≤ n, ∃ a, (cumulativeNormalized (List.range n) d)[i]? = some a ∧
      Near Double.rounded q52 (2 * (k + n) + 1) a (S y i / S y n) := by
    intro i hi
    refine ⟨Arith.div ((((List.range n).map d).take i).foldl Arith.add Arith.zero) (((List.range n).map d).foldl Arith.add Arith.zero), ?_, ?_⟩
    · unfold cumulativeNormalized
      simp only
      rw [List.getElem?_map, partialSum_getElem?, partialSum_last, if_pos (by simpa using hi)]
      rfl
    · have h1 := sums_near hn hk hd hr i hi
      have h2 := sums_near hn hk hd hr n le_rfl
      rw [List.take_of_length_le (by simp)] at h2
      have r1 := (S_range hn hr i hi).1
      have r2 := (S_range hn hr n le_rfl).1
      have hq := near_div hp (Double.pow_le_two (by omega)) h1 h2 r1.nonneg hpos ((r1.div r2).mono (by norm_num))
      exact hq.mono hp (div_nonneg r1.nonneg hpos.le) (by omega)
  have hflat : ∀ i < n, y i = 0 →
      doubleIn (cumulativeNormalized (List.range n) d) (i + 1) = doubleIn (cumulativeNormalized (List.range n) d) i := by
    intro i hi h0
    have hent : ∀ j ≤ n, (cumulativeNormalized (List.range n) d)[j]? = some (Arith.div
        ((((List.range n).map d).take j).foldl Arith.add Arith.zero) (((List.range n).map d).foldl Arith.add Arith.zero)) := by
      intro j hj
      unfold cumulativeNormalized
      simp only
      rw [List.getElem?_map, partialSum_getElem?, partialSum_last, if_pos (by simpa using hj)]
      rfl
    unfold doubleIn
    rw [hent (i + 1) (by omega), hent i (by omega)]
    simp only [Option.map_some]
    have e : ((List.range n).map d).take (i + 1) = ((List.range n).map d).take i ++ [d i] := by
      rw [← List.map_take, ← List.map_take, List.take_range, List.take_range, min_eq_left (by omega), min_eq_left (by omega),
        List.range_succ, List.map_append]
      rfl
    rw [e, List.foldl_append]
    simp only [List.foldl_cons, List.foldl_nil]
    set q := (((List.range n).map d).take i).foldl Arith.add Arith.zero with hq
    obtain ⟨x, x1, x2⟩ := hd i hi
    have hx0 : x = 0 := (x2.zero_iff hp.one_le (by rw [h0])).mpr h0
    obtain ⟨z, z1, _⟩ := sums_near hn hk hd hr i (by omega)
    rw [← hq] at z1
    have hadd : Double.rounded.val (Arith.add q (d i)) = Double.rounded.val q := by
      have hsum : X.add (Double.rounded.val q) (Double.rounded.val (d i)) = Double.rounded.val q := by
        rw [z1, x1, hx0]
        show X.fin (z + 0) = X.fin z
        rw [add_zero]
      rw [Double.rounded.add, hsum, Double.rounded.rnd_val]
    have h2 := sums_near hn hk hd hr n le_rfl
    rw [List.take_of_length_le (by simp)] at h2
    obtain ⟨t, t1, t2⟩ := h2
    have ht0 : t ≠ 0 := ((t2.pos_iff hp.one_le hpos.le).mpr hpos).ne'
    have hne : Double.rounded.val (((List.range n).map d).foldl Arith.add Arith.zero) ≠ X.fin 0 := by rw [t1]; simpa using ht0
    have := Double.rounded.div (Arith.add q (d i)) _ hne
    rw [hadd, ← Double.rounded.div q _ hne] at this
    change (Arith.div (Arith.add q (d i)) _ : Double).val = (Arith.div q _ : Double).val at this
    rw [this]
  refine ⟨?_, hget, hflat⟩
  obtain ⟨a, h1, h2⟩ := hget n le_rfl
  have hr := rising Double.rounded (input := List.range n) (extract := d)
    (fun j hj => near_notNegative (hd j (List.mem_range.mp hj)) (hr j (List.mem_range.mp hj)).nonneg) rfl
  rw [List.length_range] at hr
  exact hr.2 a h1 (near_isNumber h2)

/-- What a rising list of `double`s contains. -/
theorem values_of_rising {n : Nat} {L : List Double} (h : Rising n L) : Values n L (doubleIn L) := by
  obtain ⟨hlen, ⟨a, b, ha, hb, ea, eb⟩, hm⟩ := h
  rw [Double.rounded.eq] at ea eb
  rw [val_zero] at ea
  rw [val_one] at eb
  have va : a.val = X.fin 0 := by
    change X.eq a.val _ = true at ea
    cases e : a.val <;> rw [e] at ea <;> simp [X.eq] at ea
    rw [ea]
  have vb : b.val = X.fin 1 := by
    change X.eq b.val _ = true at eb
    cases e : b.val <;> rw [e] at eb <;> simp [X.eq] at eb
    rw [eb]
  have hval : ∀ i ≤ n, ∃ c, L[i]? = some c ∧ c.val = X.fin (doubleIn L i) := by
    intro i hi
    have hlt : i < L.length := by omega
    refine ⟨L[i], List.getElem?_eq_getElem hlt, ?_⟩
    have h1 := hm 0 i a L[i] (Nat.zero_le _) ha (List.getElem?_eq_getElem hlt)
    have h2 := hm i n L[i] b hi (List.getElem?_eq_getElem hlt) hb
    rw [Double.rounded.le] at h1 h2
    change X.le a.val (L[i]).val = true at h1
    change X.le (L[i]).val b.val = true at h2
    rw [va] at h1
    rw [vb] at h2
    unfold doubleIn
    rw [List.getElem?_eq_getElem hlt]
    simp only [Option.map_some]
    cases e : (L[i]).val with
    | fin x => rfl
    | pinf => rw [e] at h2; simp [X.le, X.lt, X.eq] at h2
    | ninf => rw [e] at h1; simp [X.le, X.lt, X.eq] at h1
    | nan => rw [e] at h1; simp [X.le, X.lt, X.eq] at h1
  refine ⟨hlen, hval, ?_, ?_, ?_⟩
  · intro i hi
    obtain ⟨c, c1, c2⟩ := hval i (by omega)
    obtain ⟨c', c1', c2'⟩ := hval (i + 1) (by omega)
    have := hm i (i + 1) c c' (by omega) c1 c1'
    rw [Double.rounded.le] at this
    change X.le c.val c'.val = true at this
    rw [c2, c2'] at this
    simp only [X.le, X.lt, X.eq, Bool.or_eq_true, decide_eq_true_eq] at this
    rcases this with h | h
    · exact h.le
    · exact h.le
  · obtain ⟨c, c1, c2⟩ := hval 0 (Nat.zero_le _)
    rw [ha] at c1; cases c1
    rw [va] at c2
    exact (X.fin.inj c2).symm
  · obtain ⟨c, c1, c2⟩ := hval n le_rfl
    rw [hb] at c1; cases c1
    rw [vb] at c2
    exact (X.fin.inj c2).symm

/-- An entry of a stored array. -/
theorem stored_get {n : Nat} {l : List Double} {f : Nat → ℚ} (h : l.map Double.val = arr n f) {v : Nat} (hv : v < n) :
    ∃ p, l[v]? = some p ∧ p.val = X.fin (f v) := by
  have hg := congrArg (fun l => l[v]?) h
  simp only [List.getElem?_map] at hg
  rw [Solver.arr_getElem? f hv] at hg
  exact Option.map_eq_some_iff.mp hg

theorem stored_length {n : Nat} {l : List Double} {f : Nat → ℚ} (h : l.map Double.val = arr n f) : l.length = n := by
  have := congrArg List.length h
  simpa [arr] using this

/-- The stored values, one per cell. -/
theorem stored_fun {n : Nat} {l : List Double} {f : Nat → ℚ} (h : l.map Double.val = arr n f) :
    ∃ d : Nat → Double, l = (List.range n).map d ∧ ∀ v < n, (d v).val = X.fin (f v) := by
  have hl := stored_length h
  refine ⟨fun v => l.getD v Arith.zero, ?_, ?_⟩
  · apply List.ext_getElem
    · simp [hl]
    · intro j h1 h2
      simp [List.getD, h1]
  · intro v hv
    obtain ⟨p, h1, h2⟩ := stored_get h hv
    simp only [List.getD, h1, Option.getD_some]
    exact h2

variable {I : CurveInput ℚ} {inj prod pv : List Double} {frac : Double}

theorem range_time (h : I.OfOrdinarySize) {v : Nat} (hv : v < I.n) : Range 101 (I.time v) :=
  (range_of_ordinary (h.inj v hv).2 (h.inj v hv).1).add (range_of_ordinary (h.prod v hv).2 (h.prod v hv).1)

/-- The computed cutoff. -/
theorem cutoff_near (h : I.OfOrdinarySize) (hd : I.StoredAs inj prod pv frac) :
    ∃ θ, |θ - I.frac| ≤ (I.n + 1) / 2 ^ 51 * I.frac ∧
      (Arith.mul frac (pv.foldl Arith.add Arith.zero)).val = X.fin (θ * ∑ u ∈ range I.n, I.pv u) := by
  have hp := Double.precise
  have hI : INT_MAX = 2147483647 := rfl
  have hn := h.int
  obtain ⟨d, hd1, hd2⟩ := stored_fun hd.pv
  have hr : ∀ j < I.n, Range 100 (I.pv j) := fun j hj => range_of_ordinary (h.pv j hj).2 (h.pv j hj).1
  have h1 := sums_near hn (k := 0) (by omega) (d := d) (y := I.pv) (fun j hj => near_exact (ρ := Double.rounded) (hd2 j hj))
    (fun j hj => (hr j hj).mono (by norm_num)) I.n le_rfl
  rw [List.take_of_length_le (by simp), ← hd1] at h1
  have r1 := (S_range hn (fun j hj => (hr j hj).mono (by norm_num : 100 ≤ 300)) I.n le_rfl).1
  have rf := range_of_ordinary h.frac.2 h.frac.1.le
  have hfr : Near Double.rounded q52 0 frac I.frac := near_exact (ρ := Double.rounded) hd.frac
  have h2 := near_mul hp (Double.pow_le_two (by omega)) hfr h1 h.frac.1.le r1.nonneg ((rf.mul r1).mono (by norm_num))
  obtain ⟨x, x1, x2⟩ := h2
  have hpos : 0 < S I.pv I.n := by
    obtain ⟨v, hv, hv0, _⟩ := h.some_pv
    exact sum_pos' (fun u hu => (h.pv u (mem_range.mp hu)).1) ⟨v, mem_range.mpr hv, hv0⟩
  refine ⟨x / S I.pv I.n, ?_, ?_⟩
  · have := Double.close_abs (by omega) (mul_nonneg h.frac.1.le hpos.le) x2
    have e : x / S I.pv I.n - I.frac = (x - I.frac * S I.pv I.n) / S I.pv I.n := by field_simp
    rw [e, abs_div, abs_of_pos hpos, div_le_iff₀ hpos]
    refine this.trans (le_of_eq ?_)
    push_cast; ring
  · show Double.rounded.val _ = _
    rw [x1]
    congr 1
    exact (div_mul_cancel₀ x hpos.ne').symm

theorem withFraction_valid (h : I.OfOrdinarySize) {θ : ℚ} (hθ : |θ - I.frac| ≤ (I.n + 1) / 2 ^ 51 * I.frac) : (I.withFraction θ).Valid := by
  have hI : INT_MAX = 2147483647 := rfl
  refine ⟨h.int, fun v hv => (h.pv v hv).1, fun v hv => h.time v hv.1, ?_⟩
  obtain ⟨v, hv, h0, h1⟩ := h.some_pv
  refine ⟨v, ⟨hv, ?_⟩, h0⟩
  show I.pv v ≤ θ * ∑ u ∈ range I.n, I.pv u
  have hs : 0 ≤ ∑ u ∈ range I.n, I.pv u := sum_nonneg fun u hu => (h.pv u (mem_range.mp hu)).1
  have hn : (I.n : ℚ) ≤ 2 ^ 31 := by exact_mod_cast (by have := h.int; omega : I.n ≤ 2 ^ 31)
  have hb : ((I.n : ℚ) + 1) / 2 ^ 51 ≤ 1 / 2 := by
    rw [div_le_iff₀ (by positivity)]
    calc (I.n : ℚ) + 1 ≤ 2 ^ 31 + 1 := by linarith
      _ ≤ _ := by norm_num
  have h2 : ((I.n : ℚ) + 1) / 2 ^ 51 * I.frac ≤ 1 / 2 * I.frac := mul_le_mul_of_nonneg_right hb h.frac.1.le
  have h3 := (abs_le.mp (hθ.trans h2)).1
  have h4 : I.frac / 2 * ∑ u ∈ range I.n, I.pv u ≤ θ * ∑ u ∈ range I.n, I.pv u := mul_le_mul_of_nonneg_right (by linarith) hs
  linarith

/-- Travel time and pore volume of a cell. -/
theorem entry_near (h : I.OfOrdinarySize) {θ : ℚ} {m : Double} (hm : m.val = X.fin (θ * ∑ u ∈ range I.n, I.pv u))
    {a b p : Double} {v : Nat} (hv : v < I.n) (ha : a.val = X.fin (I.inj v)) (hb : b.val = X.fin (I.prod v)) (hpv : p.val = X.fin (I.pv v)) :
    Near Double.rounded q52 1 (timeAndPv m a b p).1 ((I.withFraction θ).rank v) ∧
    (timeAndPv m a b p).2.val = X.fin ((I.withFraction θ).keptPv v) ∧ Range 400 ((I.withFraction θ).rank v) := by
  have hp := Double.precise
  unfold timeAndPv
  have hlt : Arith.lt m p = decide (θ * ∑ u ∈ range I.n, I.pv u < I.pv v) := by
    have := Double.rounded.lt m p
    rw [this]
    show X.lt m.val p.val = _
    rw [hm, hpv]; rfl
  have hkept : (I.withFraction θ).Kept v ↔ ¬ θ * ∑ u ∈ range I.n, I.pv u < I.pv v := by
    unfold CurveInput.Kept
    rw [not_lt]
    exact ⟨fun h => h.2, fun h => ⟨hv, h⟩⟩
  rw [hlt]
  unfold CurveInput.rank CurveInput.keptPv
  by_cases hc : θ * ∑ u ∈ range I.n, I.pv u < I.pv v
  · have hk : ¬ (I.withFraction θ).Kept v := by rw [hkept]; simpa using hc
    simp only [hc, decide_true, if_true, if_neg hk]
    have hrg : Range 400 ((10 : ℚ) ^ 100) := Or.inr ⟨
      one_le_mul_of_one_le_of_one_le (one_le_pow₀ (by norm_num)) (one_le_pow₀ (by norm_num)),
      by rw [show (400 : ℕ) = 4 * 100 from rfl, pow_mul]; exact pow_le_pow_left₀ (by norm_num) (by norm_num) 100⟩
    refine ⟨?_, val_zero' Double.rounded, hrg⟩
    have := near_rnd hp (k := 0) (by norm_num) (a := (Arith.lit (10 ^ 100) : Double)) (x := (10 : ℚ) ^ 100) (y := 10 ^ 100)
      (by rw [Double.rounded.lit]; push_cast; rfl) (close_refl _ _) (hrg.mono (by norm_num))
    exact this
  · have hk : (I.withFraction θ).Kept v := by rw [hkept]; exact hc
    simp only [hc, decide_false, if_pos hk]
    have ht := range_time h hv
    refine ⟨?_, hpv, ht.mono (by norm_num)⟩
    exact near_add hp (k := 0) (by norm_num) (near_exact (ρ := Double.rounded) ha) (near_exact (ρ := Double.rounded) hb) (ht.mono (by norm_num))

/-- The curve computed with `double`s. -/
theorem curve_near (h : I.OfOrdinarySize) (hd : I.StoredAs inj prod pv frac) {sort : List (Double × Double) → List (Double × Double)}
    (hs : SortsPairs sort) :
    ∃ θ, |θ - I.frac| ≤ (I.n + 1) / 2 ^ 51 * I.frac ∧ ∃ Phi F, Derived.curve sort inj prod pv frac = .ok (Phi, F) ∧
      Rising I.n Phi ∧ Rising I.n F ∧ ∃ σ, Order I.n σ ∧
      (∀ i j, i ≤ j → j < I.n → (I.withFraction θ).rank (σ i) ≤ (I.withFraction θ).rank (σ j) * (1 + 1 / 2 ^ 50)) ∧
      (∀ i < I.n, (I.withFraction θ).keptPv (σ i) = 0 → doubleIn F (i + 1) = doubleIn F i) ∧
      ∀ i ≤ I.n,
        |doubleIn Phi i - S (fun j => (I.withFraction θ).keptPv (σ j)) i / S (fun j => (I.withFraction θ).keptPv (σ j)) I.n|
          ≤ (2 * I.n + 5) / 2 ^ 51 ∧
        |doubleIn F i - S (rt (fun j => (I.withFraction θ).rank (σ j)) fun j => (I.withFraction θ).keptPv (σ j)) i
            / S (rt (fun j => (I.withFraction θ).rank (σ j)) fun j => (I.withFraction θ).keptPv (σ j)) I.n|
          ≤ (2 * I.n + 5) / 2 ^ 51 := by
  have hp := Double.precise
  have hI : INT_MAX = 2147483647 := rfl
  have hn := h.int
  obtain ⟨θ, hθ, hm⟩ := cutoff_near h hd
  refine ⟨θ, hθ, ?_⟩
  have hJ := withFraction_valid h hθ
  set J := I.withFraction θ with hJdef
  have hJn : J.n = I.n := rfl
  obtain ⟨da, ea, va⟩ := stored_fun hd.inj
  obtain ⟨db, eb, vb⟩ := stored_fun hd.prod
  obtain ⟨dp, ep, vp⟩ := stored_fun hd.pv
  set m := Arith.mul frac (pv.foldl Arith.add Arith.zero) with hmdef
  set ent : Nat → Double × Double := fun v => timeAndPv m (da v) (db v) (dp v) with hent
  have hentry : ∀ v < I.n, Near Double.rounded q52 1 (ent v).1 (J.rank v) ∧ (ent v).2.val = X.fin (J.keptPv v) ∧ Range 400 (J.rank v) :=
    fun v hv => entry_near h hm hv (va v hv) (vb v hv) (vp v hv)
  have hloop : ∀ l : List Nat, (∀ v ∈ l, v < I.n) → timesAndPvs inj prod pv m l = .ok (l.map ent) := by
    intro l
    induction l with
    | nil => intro _; rfl
    | cons v l ih =>
      intro hl
      have hv := hl v List.mem_cons_self
      have g : ∀ (d : Nat → Double), ((List.range I.n).map d)[v]? = some (d v) := by
        intro d; rw [List.getElem?_map, List.getElem?_range hv]; rfl
      unfold timesAndPvs
      rw [ih fun u hu => hl u (List.mem_cons_of_mem _ hu), ea, eb, ep, rd_of_getElem? (g dp), rd_of_getElem? (g da), rd_of_getElem? (g db)]
      rfl
  have hnum : ∀ p ∈ (List.range I.n).map ent, IsNumber p.1 ∧ IsNumber p.2 := by
    intro p hpm
    obtain ⟨v, hv, rfl⟩ := List.mem_map.mp hpm
    have hv := List.mem_range.mp hv
    obtain ⟨h1, h2, _⟩ := hentry v hv
    exact ⟨near_isNumber h1, near_isNumber (near_exact (ρ := Double.rounded) (q := q52) h2)⟩
  obtain ⟨hperm, hpair⟩ := hs _ hnum
  obtain ⟨σ, hσ, hL⟩ := perm_order _ hperm
  have hsort : sortPairs sort ((List.range I.n).map ent) = .ok ((List.range I.n).map fun j => ent (σ j)) := by
    unfold sortPairs
    rw [if_pos, hL]
    rw [List.all_eq_true]
    intro p hpm
    obtain ⟨h1, h2⟩ := hnum p hpm
    unfold IsNumber at h1 h2
    rw [h1, h2]; rfl
  have hcum : ∀ f : Double × Double → Double, cumulativeNormalized ((List.range I.n).map fun j => ent (σ j)) f
      = cumulativeNormalized (List.range I.n) fun j => f (ent (σ j)) := by
    intro f
    unfold cumulativeNormalized
    rw [List.map_map]; rfl
  have hPpos : 0 < S (fun j => J.keptPv (σ j)) I.n := by
    have := S_volume (I := J) hσ
    rw [hJn] at this
    rw [this]; exact volume_pos hJ
  have hkr : ∀ v < I.n, Range 100 (J.keptPv v) := by
    intro v hv
    unfold CurveInput.keptPv
    split
    · exact range_of_ordinary (h.pv v hv).2 (h.pv v hv).1
    · exact Or.inl rfl
  have hrr : ∀ v < I.n, Range 300 (J.keptPv v / J.rank v) := by
    intro v hv
    by_cases hk : J.Kept v
    · have e : J.rank v = I.time v := by unfold CurveInput.rank; rw [if_pos hk]; rfl
      rw [e]
      exact ((hkr v hv).div (range_time h hv)).mono (by norm_num)
    · have e : J.keptPv v = 0 := by unfold CurveInput.keptPv; rw [if_neg hk]
      rw [e, zero_div]; exact Or.inl rfl
  have hrp := rank_pos hJ
  have hQpos : 0 < S (rt (fun j => J.rank (σ j)) fun j => J.keptPv (σ j)) I.n := by
    have hex : ∃ j < I.n, 0 < J.keptPv (σ j) := by
      by_contra hc
      push Not at hc
      have h2 : S (fun j => J.keptPv (σ j)) I.n ≤ 0 := sum_nonpos fun j hj => hc j (mem_range.mp hj)
      linarith
    obtain ⟨j, hj, hj0⟩ := hex
    exact sum_pos' (fun u hu => (hrr _ (hσ.1 u (mem_range.mp hu))).nonneg) ⟨j, mem_range.mpr hj, div_pos hj0 (hrp _)⟩
  obtain ⟨rise1, near1, _⟩ := cumulative_near hn (k := 0) (by omega) (d := fun j => (ent (σ j)).2) (y := fun j => J.keptPv (σ j))
    (fun j hj => near_exact (ρ := Double.rounded) (hentry _ (hσ.1 j hj)).2.1) (fun j hj => (hkr _ (hσ.1 j hj)).mono (by norm_num)) hPpos
  obtain ⟨rise2, near2, flat2⟩ := cumulative_near hn (k := 2) (by omega) (d := fun j => Arith.div (ent (σ j)).2 (ent (σ j)).1)
    (y := rt (fun j => J.rank (σ j)) fun j => J.keptPv (σ j)) (fun j hj => by
      obtain ⟨h1, h2, h3⟩ := hentry _ (hσ.1 j hj)
      have h4 := hrr _ (hσ.1 j hj)
      have := near_div hp (k := 0) (l := 1) (Double.pow_le_two (by omega)) (near_exact (ρ := Double.rounded) h2) h1 (hkr _ (hσ.1 j hj)).nonneg (hrp _)
        (h4.mono (by norm_num))
      exact this) (fun j hj => hrr _ (hσ.1 j hj)) hQpos
  refine ⟨_, _, ?_, rise1, rise2, σ, hσ, ?_, fun i hi h0 => flat2 i hi (by unfold rt; beta_reduce; rw [h0, zero_div]), ?_⟩
  · unfold Derived.curve
    have l1 := stored_length hd.inj
    have l2 := stored_length hd.prod
    have l3 := stored_length hd.pv
    have hneg : ¬ ((I.n : Int) < 0) := by omega
    rw [l1, l2, l3]
    simp only [ne_eq, not_true_eq_false, or_self, if_false, narrowInt_small hn, hneg, Int.toNat_natCast]
    rw [← hmdef, hloop _ fun v hv => List.mem_range.mp hv]
    simp only [Res.bind_eq, Res.ok_bind, Res.pure_eq]
    rw [hsort]
    simp only [Res.ok_bind]
    rw [hcum, hcum]
  · intro i j hij hj
    rcases Nat.lt_or_eq_of_le hij with hlt | rfl
    · rw [hL, List.pairwise_map, List.pairwise_iff_getElem] at hpair
      have h1 := (hpair i j (by simp; omega) (by simpa using hj) hlt).1
      simp only [List.getElem_range] at h1
      obtain ⟨x, x1, x2⟩ := (hentry _ (hσ.1 i (by omega))).1
      obtain ⟨y, y1, y2⟩ := (hentry _ (hσ.1 j hj)).1
      rw [Double.rounded.lt, x1, y1] at h1
      simp only [X.lt, decide_eq_false_iff_not, not_lt] at h1
      have hq0 : (0 : ℚ) ≤ q52 := by norm_num
      rw [Close, pow_one] at x2 y2
      calc J.rank (σ i) ≤ x * q52 := x2.1
        _ ≤ y * q52 := mul_le_mul_of_nonneg_right h1 hq0
        _ ≤ J.rank (σ j) * q52 * q52 := mul_le_mul_of_nonneg_right y2.2 hq0
        _ = J.rank (σ j) * (q52 * q52) := by ring
        _ ≤ J.rank (σ j) * (1 + 1 / 2 ^ 50) := mul_le_mul_of_nonneg_left (by norm_num) (hrp _).le
    · exact le_mul_of_one_le_right (hrp _).le (by norm_num)
  · intro i hi
    have fin : ∀ {L : List Double} {y : Nat → ℚ} {k : Nat}, k ≤ 2 → (∀ j < I.n, 0 ≤ y j) → 0 < S y I.n →
        (∀ i ≤ I.n, ∃ a, L[i]? = some a ∧ Near Double.rounded q52 (2 * (k + I.n) + 1) a (S y i / S y I.n)) →
        |doubleIn L i - S y i / S y I.n| ≤ (2 * I.n + 5) / 2 ^ 51 := by
      intro L y k hk hy hpos hL
      obtain ⟨a, a1, x, a2, a3⟩ := hL i hi
      have e : doubleIn L i = x := by
        unfold doubleIn
        rw [a1]
        simp only [Option.map_some]
        change a.val = _ at a2
        rw [a2]
      rw [e]
      have hle : S y i / S y I.n ≤ 1 := by rw [_root_.div_le_one hpos]; exact S_mono hy hi le_rfl
      have hge : 0 ≤ S y i / S y I.n := div_nonneg (S_nonneg hy hi) hpos.le
      have := Double.close_abs (by omega) hge a3
      refine this.trans ?_
      have hkq : (k : ℚ) ≤ 2 := by exact_mod_cast hk
      calc ((2 * (k + I.n) + 1 : ℕ) : ℚ) / 2 ^ 51 * (S y i / S y I.n) ≤ ((2 * (k + I.n) + 1 : ℕ) : ℚ) / 2 ^ 51 * 1 :=
            mul_le_mul_of_nonneg_left hle (by positivity)
        _ ≤ (2 * I.n + 5) / 2 ^ 51 := by
            rw [mul_one]
            apply div_le_div_of_nonneg_right _ (by positivity)
            push_cast; linarith
    exact ⟨fin (by omega) (fun j hj => (hkr _ (hσ.1 j hj)).nonneg) hPpos near1, fin le_rfl (fun j hj => (hrr _ (hσ.1 j hj)).nonneg) hQpos near2⟩

/-- The Lorenz coefficient computed with `double`s. -/
theorem lorenz_near (h : I.OfOrdinarySize) (hd : I.StoredAs inj prod pv frac) {sort : List (Double × Double) → List (Double × Double)}
    (hs : SortsPairs sort) :
    ∃ θ, |θ - I.frac| ≤ (I.n + 1) / 2 ^ 51 * I.frac ∧ ∃ g d x, Derived.curve sort inj prod pv frac = .ok g ∧
      lorenzCoefficient g = .ok d ∧ d.val = X.fin x ∧ |x - (I.withFraction θ).meanDifference| ≤ (10 * I.n + 50) / 2 ^ 51 := by
  obtain ⟨θ, hθ, Phi, F, hc, r1, r2, σ, hσ, hm, _, hnear⟩ := curve_near h hd hs
  have hJ := withFraction_valid h hθ
  refine ⟨θ, hθ, (Phi, F), ?_⟩
  have v1 := values_of_rising r1
  have v2 := values_of_rising r2
  obtain ⟨d, x, e1, e2, e3⟩ := lorenz_close h.int v1 v2
  refine ⟨d, x, hc, e1, e2, ?_⟩
  set J := I.withFraction θ with hJdef
  have hσ' : Order J.n σ := hσ
  have hpv : ∀ i < I.n, 0 ≤ J.keptPv (σ i) := fun i hi => keptPv_nonneg hJ (hσ.1 i hi)
  have hP : 0 < S (fun j => J.keptPv (σ j)) I.n := by
    have := S_volume (I := J) hσ'
    rw [show S (fun j => J.keptPv (σ j)) I.n = J.volume from this]; exact volume_pos hJ
  have hrt : ∀ i < I.n, 0 ≤ rt (fun j => J.rank (σ j)) (fun j => J.keptPv (σ j)) i := fun i hi => div_nonneg (hpv i hi) (rank_pos hJ _).le
  have hQ : 0 < S (rt (fun j => J.rank (σ j)) fun j => J.keptPv (σ j)) I.n := by
    have hex : ∃ j < I.n, 0 < J.keptPv (σ j) := by
      by_contra hc
      push Not at hc
      have h2 : S (fun j => J.keptPv (σ j)) I.n ≤ 0 := sum_nonpos fun j hj => hc j (mem_range.mp hj)
      linarith
    obtain ⟨j, hj, hj0⟩ := hex
    exact sum_pos' (fun u hu => hrt u (mem_range.mp hu)) ⟨j, mem_range.mpr hj, div_pos hj0 (rank_pos hJ _)⟩
  have hsp := area_spread (n := I.n) (t := fun j => J.rank (σ j)) (p := fun j => J.keptPv (σ j)) (η := 1 / 2 ^ 50) (by norm_num) hpv
    (fun i _ => rank_pos hJ _) (fun i j hj hi => hm j i hj.le hi) hP hQ
  have hso : spread I.n (fun j => J.rank (σ j)) (fun j => J.keptPv (σ j))
      / (S (fun j => J.keptPv (σ j)) I.n * S (rt (fun j => J.rank (σ j)) fun j => J.keptPv (σ j)) I.n) = J.meanDifference := spread_order hσ'
  rw [hso] at hsp
  have hΦ : ∀ i < I.n, S (fun j => J.keptPv (σ j)) i / S (fun j => J.keptPv (σ j)) I.n
      ≤ S (fun j => J.keptPv (σ j)) (i + 1) / S (fun j => J.keptPv (σ j)) I.n := fun i hi =>
    div_le_div_of_nonneg_right (S_mono hpv (by omega) (by omega)) hP.le
  have har := area_near (Φ := fun i => S (fun j => J.keptPv (σ j)) i / S (fun j => J.keptPv (σ j)) I.n)
    (F := fun i => S (rt (fun j => J.rank (σ j)) fun j => J.keptPv (σ j)) i / S (rt (fun j => J.rank (σ j)) fun j => J.keptPv (σ j)) I.n)
    (Φ' := doubleIn Phi) (F' := doubleIn F) (δ := (2 * I.n + 5) / 2 ^ 51) hΦ v2.mono (by simp [S]) (div_self hP.ne') v1.zero v1.one v2.zero v2.one
    (fun i hi => (hnear i hi).1) (fun i hi => (hnear i hi).2)
  have hgoal : (10 * (I.n : ℚ) + 50) / 2 ^ 51 = (2 * I.n + 24) / 2 ^ 51 + 4 * ((2 * I.n + 5) / 2 ^ 51) + 6 / 2 ^ 51 := by ring
  rw [hgoal]
  generalize (2 * (I.n : ℚ) + 24) / 2 ^ 51 = A at e3
  generalize (2 * (I.n : ℚ) + 5) / 2 ^ 51 = B at har
  rw [abs_le] at e3 har ⊢
  norm_num at hsp ⊢
  constructor <;> linarith [hsp.1, hsp.2, e3.1, e3.2, har.1, har.2]

end Verif.Rounding
