/-
The F-Phi curve of finite input: reduction to sums over a sorted list.
-/
import Verif.Spec.Derived
import Verif.Proofs.SolverRefine
import Verif.Proofs.FlowGraph
import Mathlib.Data.List.Sort

namespace Verif.Derived
open Verif.Spec Verif.Solver Finset

variable {K : Type} [Field K] [LinearOrder K]

/-- The order of `std::pair`. -/
def LexLe (a b : K × K) : Prop := a.1 < b.1 ∨ (a.1 = b.1 ∧ a.2 ≤ b.2)

theorem lexLe_antisymm {a b : K × K} (h1 : LexLe a b) (h2 : LexLe b a) : a = b := by
  rcases h1 with h1 | ⟨h1, h1'⟩ <;> rcases h2 with h2 | ⟨h2, h2'⟩
  · exact absurd h2 (lt_asymm h1)
  · rw [h2] at h1; exact absurd h1 (lt_irrefl _)
  · rw [h1] at h2; exact absurd h2 (lt_irrefl _)
  · exact Prod.ext h1 (le_antisymm h1' h2')

/-- A pair of finite numbers. -/
def pr (a : K × K) : X K × X K := (X.fin a.1, X.fin a.2)

theorem pr_inj : Function.Injective (pr : K × K → X K × X K) := by
  intro a b h
  simp only [pr, Prod.mk.injEq, X.fin.injEq] at h
  exact Prod.ext h.1 h.2

theorem pairLt_pr (a b : K × K) : pairLt (pr b) (pr a) = false ↔ LexLe a b := by
  unfold pairLt pr LexLe
  simp only [X_lt, Bool.or_eq_false_iff, Bool.and_eq_false_iff, Bool.not_eq_false', decide_eq_false_iff_not,
    decide_eq_true_eq, not_lt]
  constructor
  · rintro ⟨h1, h2⟩
    rcases lt_or_eq_of_le h1 with h | h
    · exact Or.inl h
    · rcases h2 with h2 | h2
      · exact Or.inl h2
      · exact Or.inr ⟨h, h2⟩
  · rintro (h | ⟨h1, h2⟩)
    · exact ⟨h.le, Or.inl h⟩
    · exact ⟨h1.le, Or.inr h2⟩

/-- Sorting finite pairs. -/
theorem sort_finite {sort : List (X K × X K) → List (X K × X K)} (hs : StdSort sort) (l : List (K × K)) :
    ∃ L : List (K × K), sortPairs sort (l.map pr) = .ok (L.map pr) ∧ L.Perm l ∧ L.Pairwise LexLe := by
  have hnan : ∀ p ∈ l.map pr, p.1 ≠ X.nan ∧ p.2 ≠ X.nan := by
    intro p hp
    obtain ⟨a, _, rfl⟩ := List.mem_map.mp hp
    simp [pr]
  obtain ⟨h1, h2⟩ := hs _ hnan
  have hall : ((l.map pr).all fun p => Arith.eq p.1 p.1 && Arith.eq p.2 p.2) = true := by
    rw [List.all_eq_true]
    intro p hp
    obtain ⟨a, _, rfl⟩ := List.mem_map.mp hp
    simp [pr, X_eq]
  have hex : ∀ s : List (X K × X K), (∀ p ∈ s, ∃ a, p = pr a) → ∃ L : List (K × K), s = L.map pr := by
    intro s
    induction s with
    | nil => intro _; exact ⟨[], rfl⟩
    | cons p s ih =>
      intro h
      obtain ⟨a, rfl⟩ := h p (by simp)
      obtain ⟨L, rfl⟩ := ih fun q hq => h q (by simp [hq])
      exact ⟨a :: L, rfl⟩
  obtain ⟨L, hL⟩ := hex (sort (l.map pr)) (by
    intro p hp
    obtain ⟨a, _, rfl⟩ := List.mem_map.mp (h1.mem_iff.mp hp)
    exact ⟨a, rfl⟩)
  refine ⟨L, ?_, ?_, ?_⟩
  · unfold sortPairs; rw [if_pos hall, hL]
  · rw [hL] at h1
    exact (List.map_perm_map_iff pr_inj).mp h1
  · rw [hL, List.pairwise_map] at h2
    exact h2.imp fun h => (pairLt_pr _ _).mp h

theorem sorted_unique {L L' : List (K × K)} (h : L.Perm L') (h1 : L.Pairwise LexLe) (h2 : L'.Pairwise LexLe) : L = L' :=
  h.eq_of_pairwise (fun _ _ _ _ => lexLe_antisymm) h1 h2

/-! ### Partial sums -/

theorem partialSums_fin (l : List K) (a : K) :
    partialSums (X.fin a) (l.map X.fin) = (List.range l.length).map fun i => X.fin (a + (l.take (i + 1)).sum) := by
  induction l generalizing a with
  | nil => rfl
  | cons x l ih =>
    rw [List.map_cons, partialSums, X_add, ih, List.length_cons, List.range_succ_eq_map, List.map_cons, List.map_map]
    congr 1
    · simp
    · apply List.map_congr_left
      intro i _
      simp [add_assoc]

theorem partialSum_fin (l : List K) :
    partialSum (X.fin 0 :: l.map X.fin) = (List.range (l.length + 1)).map fun i => X.fin ((l.take i).sum) := by
  rw [partialSum, partialSums_fin, List.range_succ_eq_map, List.map_cons, List.map_map]
  simp [Function.comp_def]

/-- Sums of the first entries. -/
theorem sum_take (l : List K) (i : Nat) (hi : i ≤ l.length) : (l.take i).sum = ∑ j ∈ range i, l.getD j 0 := by
  induction i with
  | zero => simp
  | succ i ih =>
    rw [sum_range_succ, ← ih (by omega), List.take_add_one, List.sum_append]
    have : i < l.length := by omega
    simp [List.getD, this]

theorem cumulative_fin {α : Type} (L : List α) (extract : α → X K) (q : α → K) (h : ∀ a ∈ L, extract a = X.fin (q a))
    (hne : (L.map q).sum ≠ 0) :
    cumulativeNormalized L extract = arr (L.length + 1) fun i => ((L.map q).take i).sum / (L.map q).sum := by
  unfold cumulativeNormalized
  have e : L.map extract = (L.map q).map X.fin := by
    rw [List.map_map]; exact List.map_congr_left h
  simp only
  rw [X_zero, e, partialSum_fin, List.length_map]
  have hlast : ((List.range (L.length + 1)).map fun i => (X.fin (((L.map q).take i).sum) : X K)).getLastD (X.fin 0)
      = X.fin (L.map q).sum := by
    rw [List.range_succ, List.map_append, List.map_singleton, List.getLastD_concat,
      List.take_of_length_le (by simp)]
  rw [hlast]
  unfold arr
  rw [List.map_map]
  apply List.map_congr_left
  intro i _
  simp only [Function.comp]
  rw [X_div hne]

/-! ### The entries that are sorted -/

/-- Travel time and pore volume of a cell, or their replacements. -/
def entry (I : CurveInput K) (v : Nat) : K × K :=
  (I.rank v, I.keptPv v)

theorem narrowInt_small {n : Nat} (h : n ≤ INT_MAX) : narrowInt n = (n : Int) := by
  have hI : INT_MAX = 2147483647 := rfl
  unfold narrowInt
  have : n % 4294967296 = n := Nat.mod_eq_of_lt (by omega)
  simp only [this]
  rw [if_pos (by omega)]

theorem arr_rd {n : Nat} (f : Nat → K) {i : Nat} (h : i < n) : rd (arr n f) i = .ok (X.fin (f i)) := by
  apply rd_of_getElem?
  unfold arr
  simp [h]

theorem lit_big : (Arith.lit (10 ^ 100) : X K) = X.fin ((10 : K) ^ 100) := by
  show X.fin (((10 ^ 100 : ℚ)) : K) = _
  push_cast
  rfl

theorem timesAndPvs_eq (I : CurveInput K) (l : List Nat) (hl : ∀ v ∈ l, v < I.n) :
    timesAndPvs (arr I.n I.inj) (arr I.n I.prod) (arr I.n I.pv) (X.fin (I.frac * ∑ u ∈ range I.n, I.pv u)) l
      = .ok ((l.map (entry I)).map pr) := by
  induction l with
  | nil => rfl
  | cons v l ih =>
    have hv := hl v (by simp)
    unfold timesAndPvs
    simp only [Res.bind_eq, Res.pure_eq]
    rw [arr_rd _ hv, arr_rd _ hv, arr_rd _ hv, ih fun u hu => hl u (by simp [hu])]
    simp only [Res.ok_bind, List.map_cons]
    congr 2
    unfold timeAndPv entry CurveInput.rank CurveInput.keptPv
    rw [X_lt]
    by_cases hk : I.Kept v
    · rw [if_pos hk, if_pos hk, if_neg (by simpa using hk.2), X_add]; rfl
    · have : I.frac * ∑ u ∈ range I.n, I.pv u < I.pv v := by
        by_contra hc
        exact hk ⟨hv, not_lt.mp hc⟩
      rw [if_neg hk, if_neg hk, if_pos (by simpa using this), lit_big, X_zero]; rfl

theorem arr_sum (n : Nat) (f : Nat → K) : (arr n f).foldl Arith.add Arith.zero = X.fin (∑ u ∈ range n, f u) := by
  unfold arr
  have := foldl_fin ((List.range n).map f) (0 : K)
  rw [List.map_map] at this
  rw [X_zero, show (List.range n).map (fun i => X.fin (f i)) = (List.range n).map (X.fin ∘ f) from rfl, this, zero_add]
  congr 1

/-- The curve of finite input is the pair of cumulative sums over the sorted entries. -/
theorem curve_sorted (I : CurveInput K) (hn : I.n ≤ INT_MAX) {sort : List (X K × X K) → List (X K × X K)}
    (hs : StdSort sort) :
    ∃ L : List (K × K), L.Perm ((List.range I.n).map (entry I)) ∧ L.Pairwise LexLe ∧
      I.curve sort = .ok (cumulativeNormalized (L.map pr) (fun i => i.2),
        cumulativeNormalized (L.map pr) fun i => Arith.div i.2 i.1) := by
  obtain ⟨L, h1, h2, h3⟩ := sort_finite hs ((List.range I.n).map (entry I))
  refine ⟨L, h2, h3, ?_⟩
  unfold CurveInput.curve curve
  have hlen : ∀ f : Nat → K, (arr I.n f).length = I.n := by intro f; simp [arr]
  simp only [arr_sum, X_mul]
  rw [if_neg (by simp [hlen])]
  simp only [hlen]
  rw [narrowInt_small hn, if_neg (by omega), Int.toNat_natCast,
    timesAndPvs_eq I _ (fun v hv => List.mem_range.mp hv)]
  simp only [Res.bind_eq, Res.ok_bind, Res.pure_eq]
  rw [h1]
  rfl

end Verif.Derived
