/-
The F-Phi curve in floating-point arithmetic.
-/
import Verif.Proofs.RoundingFinite
import Verif.Model.DerivedQuantities

namespace Verif.Rounding
open Verif.Spec Verif.Derived

variable {R : Type} [Arith R]

theorem partialSums_getElem? (l : List R) (a : R) (i : Nat) :
    (partialSums a l)[i]? = if i < l.length then some ((l.take (i + 1)).foldl Arith.add a) else none := by
  induction l generalizing a i with
  | nil => simp [partialSums]
  | cons x l ih =>
    unfold partialSums
    cases i with
    | zero => simp
    | succ i => rw [List.getElem?_cons_succ, ih]; simp

theorem partialSum_getElem? (l : List R) (i : Nat) :
    (partialSum (Arith.zero :: l))[i]? = if i ≤ l.length then some ((l.take i).foldl Arith.add Arith.zero) else none := by
  unfold partialSum
  cases i with
  | zero => simp
  | succ i =>
    rw [List.getElem?_cons_succ, partialSums_getElem?]
    simp [Nat.succ_le_iff]

theorem partialSum_length (l : List R) : (partialSum (Arith.zero :: l)).length = l.length + 1 := by
  have h : ∀ (l : List R) a, (partialSums a l).length = l.length := by
    intro l
    induction l with
    | nil => intro a; rfl
    | cons x l ih => intro a; simp [partialSums, ih]
  simp [partialSum, h]

theorem partialSum_last (l : List R) : (partialSum (Arith.zero :: l)).getLastD Arith.zero = l.foldl Arith.add Arith.zero := by
  have h := partialSum_getElem? l l.length
  have hlen := partialSum_length l
  rw [if_pos le_rfl, List.take_length] at h
  rw [List.getLastD_eq_getLast?, List.getLast?_eq_getElem?, hlen, Nat.add_sub_cancel, h]
  rfl

theorem timesAndPvs_mem {inj prod pv : List R} {m : R} {idx : List Nat} {l : List (R × R)}
    (h : timesAndPvs inj prod pv m idx = .ok l) :
    l.length = idx.length ∧ ∀ p ∈ l, ∃ (i : Nat) (v a b : R), pv[i]? = some v ∧ inj[i]? = some a ∧ prod[i]? = some b ∧
      p = timeAndPv m a b v := by
  induction idx generalizing l with
  | nil => cases h; simp
  | cons i idx ih =>
    unfold timesAndPvs at h
    simp only [Res.bind_eq, Res.pure_eq, Res.bind_ok_iff] at h
    obtain ⟨v, hv, a, ha, b, hb, t, ht, e⟩ := h
    cases e
    rw [rd_iff] at hv ha hb
    obtain ⟨h1, h2⟩ := ih ht
    refine ⟨by simp [h1], ?_⟩
    intro p hp
    rcases List.mem_cons.mp hp with rfl | hp
    · exact ⟨i, v, a, b, hv, ha, hb, rfl⟩
    · exact h2 p hp

variable {K : Type} [Field K] [LinearOrder K] [IsStrictOrderedRing K] (ρ : Rounded R K)
include ρ

theorem isNumber_iff {x : R} : IsNumber x ↔ Num ρ x := by
  unfold IsNumber Num
  rw [ρ.eq]
  cases ρ.val x <;> simp [X.eq]

theorem div_self_fin {t : R} (h : Num ρ (Arith.div t t)) (h0 : NotNegative t) : ∃ k, ρ.val t = X.fin k ∧ 0 < k := by
  unfold Num at h
  rw [notNegative_iff ρ] at h0
  by_cases hz : ρ.val t = X.fin 0
  · rcases ρ.div_zero t t hz with e | e <;> rw [e, hz] at h <;> simp [X.div, X.infSign, X.neg] at h
  · rw [ρ.div _ _ hz] at h
    cases et : ρ.val t with
    | fin k =>
      rw [et] at h0 hz
      refine ⟨k, rfl, lt_of_le_of_ne ?_ ?_⟩
      · simpa [X.lt] using h0
      · intro e; apply hz; rw [e]
    | pinf => rw [et] at h; simp [X.div, ρ.rnd_nan] at h
    | ninf => rw [et] at h; simp [X.div, ρ.rnd_nan] at h
    | nan => rw [et] at h; simp [X.div, ρ.rnd_nan] at h

theorem rising {α : Type} {input : List α} {extract : α → R} (hx : ∀ a ∈ input, NotNegative (extract a))
    {L : List R} (hL : cumulativeNormalized input extract = L) :
    L.length = input.length + 1 ∧ ∀ b, L[input.length]? = some b → IsNumber b → Rising input.length L := by
  set xs := input.map extract with hxs
  have hxl : xs.length = input.length := by simp [hxs]
  have hxn : ∀ x ∈ xs, NotNegative x := by
    intro x h
    obtain ⟨a, ha, rfl⟩ := List.mem_map.mp h
    exact hx a ha
  have hget : ∀ i, L[i]? = if i ≤ input.length then
      some (Arith.div ((xs.take i).foldl Arith.add Arith.zero) (xs.foldl Arith.add Arith.zero)) else none := by
    intro i
    rw [← hL]
    unfold cumulativeNormalized
    simp only
    rw [List.getElem?_map, ← hxs, partialSum_getElem?, partialSum_last, hxl]
    split <;> rfl
  have hlen : L.length = input.length + 1 := by
    rw [← hL]
    unfold cumulativeNormalized
    simp only
    rw [List.length_map, partialSum_length, List.length_map]
  refine ⟨hlen, ?_⟩
  intro b hb hnum
  rw [hget, if_pos le_rfl, ← hxl, List.take_length, Option.some.injEq] at hb
  subst hb
  set t := xs.foldl Arith.add Arith.zero with ht
  have htn : NotNegative t := foldl_notNegative ρ hxn (zero_notNegative ρ)
  obtain ⟨k, hk, hpos⟩ := div_self_fin ρ ((isNumber_iff ρ).mp hnum) htn
  have hne : ρ.val t ≠ X.fin 0 := by rw [hk]; simp [hpos.ne']
  -- partial sums are finite and increase
  have hsplit : ∀ i j, i ≤ j → (xs.take j).foldl Arith.add Arith.zero
      = ((xs.take j).drop i).foldl Arith.add ((xs.take i).foldl Arith.add Arith.zero) := by
    intro i j hij
    conv_lhs => rw [← List.take_append_drop i (xs.take j), List.take_take, Nat.min_eq_left hij, List.foldl_append]
  have hsub : ∀ i j, ∀ x ∈ (xs.take j).drop i, NotNegative x := fun i j x hm =>
    hxn x (List.mem_of_mem_take (List.mem_of_mem_drop hm))
  have hpn : ∀ i, NotNegative ((xs.take i).foldl Arith.add Arith.zero) := fun i =>
    foldl_notNegative ρ (fun x hm => hxn x (List.mem_of_mem_take hm)) (zero_notNegative ρ)
  have hfin : ∀ i, Fin ρ ((xs.take i).foldl Arith.add Arith.zero) := by
    intro i
    have : Fin ρ ((xs.take (max i xs.length)).foldl Arith.add Arith.zero) := by
      rw [List.take_of_length_le (by omega)]; exact ⟨k, hk⟩
    rw [hsplit i _ (by omega)] at this
    exact (fin_of_foldl ρ (hsub _ _) (hpn i) this).1
  have hmono : ∀ i j, i ≤ j → Arith.lt ((xs.take j).foldl Arith.add Arith.zero) ((xs.take i).foldl Arith.add Arith.zero) = false := by
    intro i j hij
    rw [hsplit i j hij]
    exact le_foldl ρ (hsub i j) (Or.inr (lt_irrefl ρ _)) (hpn i)
  have hval : ∀ i a, ρ.val ((xs.take i).foldl Arith.add Arith.zero) = X.fin a →
      ρ.val (Arith.div ((xs.take i).foldl Arith.add Arith.zero) t) = ρ.rnd (X.fin (a / k)) := by
    intro i a ha
    rw [ρ.div _ _ hne, ha, hk]
    simp [X.div, hpos.ne']
  refine ⟨hlen, ⟨_, _, by rw [hget, if_pos (Nat.zero_le _)], by rw [hget, if_pos le_rfl], ?_, ?_⟩, ?_⟩
  · rw [ρ.eq, hval 0 0 (by simpa using val_zero' ρ), val_zero]
    simp [ρ.rnd_zero, X.eq]
  · rw [← hxl, ρ.eq, hval xs.length k (by rw [List.take_length]; exact hk), val_one, div_self hpos.ne', ρ.rnd_one]
    simp [X.eq]
  · intro i j a b hij ha hb
    rw [hget] at ha hb
    split at ha
    · split at hb
      · cases ha; cases hb
        obtain ⟨p, hp⟩ := hfin i
        obtain ⟨q, hq⟩ := hfin j
        rw [ρ.le, hval i p hp, hval j q hq]
        apply ρ.rnd_mono
        have := hmono i j hij
        rw [ρ.lt, hp, hq] at this
        rw [X.le_iff]
        refine ⟨?_, by simp, by simp⟩
        simp only [X.lt, decide_eq_false_iff_not, not_lt] at this ⊢
        gcongr
      · cases hb
    · cases ha

end Verif.Rounding
