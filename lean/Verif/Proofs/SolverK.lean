/-
The tracer and time-of-flight iteration on exact numbers: one cell, one sweep, monotonicity,
boundedness, convergence.
-/
import Verif.Spec.Flow
import Mathlib.Algebra.Order.BigOperators.Group.Finset
import Mathlib.Algebra.Order.Archimedean.Basic
import Mathlib.Algebra.BigOperators.Ring.Finset
import Mathlib.Tactic.Linarith
import Mathlib.Tactic.Ring
import Mathlib.Tactic.FieldSimp
import Mathlib.Tactic.Positivity

namespace Verif.Solver
open Finset Verif.Spec

/-- A flow problem with a set of start cells, their local sources, and the cap. -/
structure Sys (K : Type) extends Flow K where
  start : Nat → Bool
  ls : Nat → K
  M : K

/-- values of (tof, tracer) -/
abbrev St (K : Type) := (Nat → K) × (Nat → K)

namespace Sys
variable {K : Type} [Field K] [LinearOrder K]

/-- A start cell without source. -/
def Dead (S : Sys K) (v : Nat) : Prop := S.start v = true ∧ S.src v = 0

instance (S : Sys K) (v : Nat) : Decidable (S.Dead v) := inferInstanceAs (Decidable (_ ∧ _))

/-- The tracer injected into `v`. -/
def inj (S : Sys K) (v : Nat) : K := if S.start v then S.ls v else 0

/-- Fill time above the cap. -/
def Slow (S : Sys K) (v : Nat) : Prop := S.total v < S.pv v / S.M

instance (S : Sys K) (v : Nat) : Decidable (S.Slow v) := inferInstanceAs (Decidable (_ < _))

def csum (S : Sys K) (c : Nat → K) (v : Nat) : K := ∑ u ∈ range S.n, c u * S.w u v

def ysum (S : Sys K) (s : St K) (v : Nat) : K := ∑ u ∈ range S.n, s.1 u * s.2 u * S.w u v

def cNew (S : Sys K) (c : Nat → K) (v : Nat) : K :=
  if S.Dead v then 0 else (S.csum c v + S.inj v) / S.total v

def tNew (S : Sys K) (s : St K) (v : Nat) : K :=
  if S.Dead v then S.M else if S.Slow v then S.M
  else if 0 < S.cNew s.2 v then
    (S.pv v * S.cNew s.2 v + S.ysum s v) / (S.total v * S.cNew s.2 v)
  else S.M

/-- Update of one cell. -/
def upd (S : Sys K) (s : St K) (v : Nat) : St K :=
  (Function.update s.1 v (S.tNew s v), Function.update s.2 v (S.cNew s.2 v))

/-- One sweep. -/
def sweep (S : Sys K) (C : List Nat) (s : St K) : St K := C.foldl S.upd s

structure Ok (S : Sys K) : Prop where
  w_nonneg : ∀ u v, u < S.n → v < S.n → 0 ≤ S.w u v
  pv_nonneg : ∀ v < S.n, 0 ≤ S.pv v
  src_nonneg : ∀ v < S.n, 0 ≤ S.src v
  ls_nonneg : ∀ v < S.n, S.start v = true → 0 ≤ S.ls v
  M_pos : 0 < S.M

/-- `B` bounds the ratio of local source to source. -/
structure Bounded (S : Sys K) (B : K) : Prop where
  one : 1 ≤ B
  ls : ∀ v < S.n, S.start v = true → S.src v ≠ 0 → S.ls v ≤ B * S.src v

/-- tof times tracer -/
def y (s : St K) (v : Nat) : K := s.1 v * s.2 v

variable {S : Sys K} {s : St K} {v : Nat} {B : K}

theorem upd_self : (S.upd s v).1 v = S.tNew s v ∧ (S.upd s v).2 v = S.cNew s.2 v := by
  simp [upd]

theorem upd_other {u : Nat} (h : u ≠ v) : (S.upd s v).1 u = s.1 u ∧ (S.upd s v).2 u = s.2 u := by
  simp [upd, h]

variable [IsStrictOrderedRing K]

theorem Ok.inflow_nonneg (h : S.Ok) (hv : v < S.n) : 0 ≤ S.inflow v :=
  sum_nonneg fun u hu => h.w_nonneg u v (mem_range.mp hu) hv

theorem Ok.total_nonneg (h : S.Ok) (hv : v < S.n) : 0 ≤ S.total v :=
  add_nonneg (h.inflow_nonneg hv) (h.src_nonneg v hv)

theorem Ok.inj_nonneg (h : S.Ok) (hv : v < S.n) : 0 ≤ S.inj v := by
  unfold inj; split
  · exact h.ls_nonneg v hv (by assumption)
  · exact le_refl _

/-- All values are non-negative. -/
def NonNeg (S : Sys K) (s : St K) : Prop := ∀ v < S.n, 0 ≤ s.1 v ∧ 0 ≤ s.2 v

theorem Ok.csum_nonneg (h : S.Ok) (hn : S.NonNeg s) (hv : v < S.n) : 0 ≤ S.csum s.2 v :=
  sum_nonneg fun u hu => mul_nonneg (hn u (mem_range.mp hu)).2 (h.w_nonneg u v (mem_range.mp hu) hv)

theorem Ok.ysum_nonneg (h : S.Ok) (hn : S.NonNeg s) (hv : v < S.n) : 0 ≤ S.ysum s v :=
  sum_nonneg fun u hu => mul_nonneg (mul_nonneg (hn u (mem_range.mp hu)).1 (hn u (mem_range.mp hu)).2)
    (h.w_nonneg u v (mem_range.mp hu) hv)

theorem Ok.cNew_nonneg (h : S.Ok) (hn : S.NonNeg s) (hv : v < S.n) : 0 ≤ S.cNew s.2 v := by
  unfold cNew; split
  · exact le_refl _
  · exact div_nonneg (add_nonneg (h.csum_nonneg hn hv) (h.inj_nonneg hv)) (h.total_nonneg hv)

theorem Ok.tNew_nonneg (h : S.Ok) (hn : S.NonNeg s) (hv : v < S.n) : 0 ≤ S.tNew s v := by
  unfold tNew
  have hM := h.M_pos.le
  split
  · exact hM
  split
  · exact hM
  split
  · have := h.cNew_nonneg hn hv
    exact div_nonneg (add_nonneg (mul_nonneg (h.pv_nonneg v hv) this) (h.ysum_nonneg hn hv))
      (mul_nonneg (h.total_nonneg hv) this)
  · exact hM

theorem Ok.upd_nonneg (h : S.Ok) (hn : S.NonNeg s) (hv : v < S.n) : S.NonNeg (S.upd s v) := by
  intro u hu
  by_cases e : u = v
  · subst e; rw [upd_self.1, upd_self.2]; exact ⟨h.tNew_nonneg hn hv, h.cNew_nonneg hn hv⟩
  · rw [(upd_other e).1, (upd_other e).2]; exact hn u hu

/-- In a live cell without inflow nothing arrives. -/
theorem Ok.zero_of_total (h : S.Ok) (hv : v < S.n) (ht : S.total v = 0) (hd : ¬ S.Dead v)
    (c : Nat → K) : S.csum c v = 0 ∧ S.inj v = 0 := by
  have h1 := h.inflow_nonneg hv
  have h2 := h.src_nonneg v hv
  unfold Flow.total at ht
  have hi : S.inflow v = 0 := by linarith
  have hs : S.src v = 0 := by linarith
  constructor
  · apply sum_eq_zero
    intro u hu
    have := (sum_eq_zero_iff_of_nonneg fun u hu => h.w_nonneg u v (mem_range.mp hu) hv).mp hi u hu
    rw [this, mul_zero]
  · unfold inj; split
    · exact absurd ⟨by assumption, hs⟩ hd
    · rfl

/-- The defining equation of the new tracer value. -/
theorem Ok.cNew_eq (h : S.Ok) (hv : v < S.n) (hd : ¬ S.Dead v) (c : Nat → K) :
    S.total v * S.cNew c v = S.csum c v + S.inj v := by
  unfold cNew; rw [if_neg hd]
  by_cases ht : S.total v = 0
  · obtain ⟨a, b⟩ := h.zero_of_total hv ht hd c
    rw [a, b, ht]; simp
  · field_simp

theorem Ok.cNew_le (h : S.Ok) (hB : S.Bounded B) (hn : S.NonNeg s) (hc : ∀ u < S.n, s.2 u ≤ B)
    (hv : v < S.n) : S.cNew s.2 v ≤ B := by
  have hB0 : 0 ≤ B := le_trans zero_le_one hB.one
  by_cases hd : S.Dead v
  · unfold cNew; rw [if_pos hd]; exact hB0
  by_cases ht : S.total v = 0
  · unfold cNew; rw [if_neg hd, ht]; simpa using hB0
  have htp : 0 < S.total v := lt_of_le_of_ne (h.total_nonneg hv) (Ne.symm ht)
  have h1 : S.csum s.2 v ≤ B * S.inflow v := by
    unfold csum Flow.inflow; rw [mul_sum]
    exact sum_le_sum fun u hu => mul_le_mul_of_nonneg_right (hc u (mem_range.mp hu))
      (h.w_nonneg u v (mem_range.mp hu) hv)
  have h2 : S.inj v ≤ B * S.src v := by
    unfold inj; split
    · rename_i hs
      exact hB.ls v hv hs fun h0 => hd ⟨hs, h0⟩
    · exact mul_nonneg hB0 (h.src_nonneg v hv)
  have h3 := h.cNew_eq hv hd s.2
  have h4 : S.total v * S.cNew s.2 v ≤ S.total v * B := by
    rw [h3]; unfold Flow.total; linarith
  exact le_of_mul_le_mul_left h4 htp

/-- Positive values pass on. -/
theorem Ok.cNew_pos (h : S.Ok) (hn : S.NonNeg s) (hv : v < S.n) (hd : ¬ S.Dead v)
    (hp : 0 < S.inj v ∨ ∃ u < S.n, 0 < s.2 u ∧ 0 < S.w u v) : 0 < S.cNew s.2 v := by
  have h0 := h.csum_nonneg hn hv
  have h1 := h.inj_nonneg hv
  have hs : 0 < S.csum s.2 v + S.inj v := by
    rcases hp with hp | ⟨u, hu, hc, hw⟩
    · linarith
    · have : s.2 u * S.w u v ≤ S.csum s.2 v :=
        single_le_sum (f := fun u => s.2 u * S.w u v) (fun u hu => mul_nonneg (hn u (mem_range.mp hu)).2
          (h.w_nonneg u v (mem_range.mp hu) hv)) (mem_range.mpr hu)
      have := mul_pos hc hw
      linarith
  have h3 := h.cNew_eq hv hd s.2
  have h4 := h.total_nonneg hv
  by_contra hc
  have := mul_nonpos_of_nonneg_of_nonpos h4 (not_lt.mp hc)
  linarith

/-- Where a new tracer value is positive, it comes from somewhere. -/
theorem Ok.cNew_pos_imp (h : S.Ok) (hn : S.NonNeg s) (hv : v < S.n) (hp : 0 < S.cNew s.2 v) :
    (S.start v = true ∧ 0 < S.ls v ∧ 0 < S.src v) ∨ ∃ u < S.n, 0 < s.2 u ∧ 0 < S.w u v := by
  by_cases hd : S.Dead v
  · unfold cNew at hp; rw [if_pos hd] at hp; exact absurd hp (lt_irrefl _)
  by_contra hcon
  push Not at hcon
  have hc : S.csum s.2 v = 0 := by
    apply sum_eq_zero
    intro u hu
    have hu := mem_range.mp hu
    by_cases h1 : 0 < s.2 u
    · have := hcon.2 u hu h1
      rw [le_antisymm this (h.w_nonneg u v hu hv), mul_zero]
    · rw [le_antisymm (not_lt.mp h1) (hn u hu).2, zero_mul]
  have hi : S.inj v = 0 := by
    unfold inj; split
    · rename_i hs
      by_contra hl
      have hl : 0 < S.ls v := lt_of_le_of_ne (h.ls_nonneg v hv hs) (Ne.symm hl)
      have := hcon.1 hs hl
      exact hd ⟨hs, le_antisymm this (h.src_nonneg v hv)⟩
    · rfl
  unfold cNew at hp; rw [if_neg hd, hc, hi] at hp; simp at hp

/-- The new product of tof and tracer. -/
def yNew (S : Sys K) (s : St K) (v : Nat) : K :=
  if S.Dead v then 0 else if S.Slow v then S.M * S.cNew s.2 v
  else (S.pv v * S.cNew s.2 v + S.ysum s v) / S.total v

theorem Ok.ysum_zero (h : S.Ok) (hn : S.NonNeg s) (hv : v < S.n) (hd : ¬ S.Dead v)
    (hc : S.cNew s.2 v = 0) : S.ysum s v = 0 := by
  have h3 := h.cNew_eq hv hd s.2
  rw [hc, mul_zero] at h3
  have h0 := h.csum_nonneg hn hv
  have h1 := h.inj_nonneg hv
  have hz : S.csum s.2 v = 0 := by linarith
  have := (sum_eq_zero_iff_of_nonneg fun u hu => mul_nonneg (hn u (mem_range.mp hu)).2
          (h.w_nonneg u v (mem_range.mp hu) hv)).mp hz
  apply sum_eq_zero
  intro u hu
  rw [mul_assoc, this u hu, mul_zero]

theorem Ok.total_ne (h : S.Ok) (hv : v < S.n) (hp : 0 < S.cNew s.2 v) : 0 < S.total v := by
  refine lt_of_le_of_ne (h.total_nonneg hv) fun ht => ?_
  unfold cNew at hp
  rw [← ht] at hp
  split at hp <;> simp at hp

theorem Ok.upd_y (h : S.Ok) (hn : S.NonNeg s) (hv : v < S.n) : y (S.upd s v) v = S.yNew s v := by
  unfold y; rw [upd_self.1, upd_self.2]; unfold tNew yNew
  split
  · rename_i hd; unfold cNew; rw [if_pos hd, mul_zero]
  · rename_i hd
    split
    · rfl
    · split
      · rename_i hp
        have := h.total_ne hv hp
        field_simp
      · rename_i hp
        have hc : S.cNew s.2 v = 0 := le_antisymm (not_lt.mp hp) (h.cNew_nonneg hn hv)
        rw [hc, h.ysum_zero hn hv hd hc]; simp

theorem y_other {u : Nat} (hu : u ≠ v) : y (S.upd s v) u = y s u := by
  unfold y; rw [(upd_other hu).1, (upd_other hu).2]

theorem ysum_eq (S : Sys K) (s : St K) (v : Nat) : S.ysum s v = ∑ u ∈ range S.n, y s u * S.w u v := rfl

/-- `s` lies below `t`. -/
def Below (S : Sys K) (s t : St K) : Prop := ∀ u < S.n, s.2 u ≤ t.2 u ∧ y s u ≤ y t u

theorem Below.refl (S : Sys K) (s : St K) : S.Below s s := fun _ _ => ⟨le_refl _, le_refl _⟩

theorem Below.trans {s t r : St K} (h : S.Below s t) (h' : S.Below t r) : S.Below s r :=
  fun u hu => ⟨le_trans (h u hu).1 (h' u hu).1, le_trans (h u hu).2 (h' u hu).2⟩

theorem Ok.cNew_mono (h : S.Ok) {s t : St K} (hb : S.Below s t) (hv : v < S.n) :
    S.cNew s.2 v ≤ S.cNew t.2 v := by
  unfold cNew; split
  · exact le_refl _
  · apply div_le_div_of_nonneg_right _ (h.total_nonneg hv)
    apply add_le_add_left
    exact sum_le_sum fun u hu => mul_le_mul_of_nonneg_right (hb u (mem_range.mp hu)).1
      (h.w_nonneg u v (mem_range.mp hu) hv)

theorem Ok.yNew_mono (h : S.Ok) {s t : St K} (hb : S.Below s t) (hv : v < S.n) :
    S.yNew s v ≤ S.yNew t v := by
  have hc := h.cNew_mono hb hv
  unfold yNew; split
  · exact le_refl _
  split
  · exact mul_le_mul_of_nonneg_left hc h.M_pos.le
  · apply div_le_div_of_nonneg_right _ (h.total_nonneg hv)
    apply add_le_add (mul_le_mul_of_nonneg_left hc (h.pv_nonneg v hv))
    exact sum_le_sum fun u hu => mul_le_mul_of_nonneg_right (hb u (mem_range.mp hu)).2
      (h.w_nonneg u v (mem_range.mp hu) hv)

/-- An update of any of the cells in `C` does not decrease anything. -/
def Sub (S : Sys K) (C : List Nat) (s : St K) : Prop :=
  ∀ v ∈ C, s.2 v ≤ S.cNew s.2 v ∧ y s v ≤ S.yNew s v

theorem Ok.upd_above (h : S.Ok) (hn : S.NonNeg s) {C : List Nat} (hs : S.Sub C s) (hv : v ∈ C)
    (hvn : v < S.n) : S.Below s (S.upd s v) := by
  intro u hu
  by_cases e : u = v
  · subst e; rw [upd_self.2, h.upd_y hn hu]; exact hs u hv
  · rw [(upd_other e).2, y_other e]; exact ⟨le_refl _, le_refl _⟩

theorem Ok.upd_sub (h : S.Ok) (hn : S.NonNeg s) {C : List Nat} (hC : ∀ v ∈ C, v < S.n)
    (hs : S.Sub C s) (hv : v ∈ C) : S.Sub C (S.upd s v) := by
  have hb := h.upd_above hn hs hv (hC v hv)
  intro u hu
  have h1 := h.cNew_mono hb (hC u hu)
  have h2 := h.yNew_mono hb (hC u hu)
  by_cases e : u = v
  · subst e; rw [upd_self.2, h.upd_y hn (hC u hu)]; exact ⟨h1, h2⟩
  · rw [(upd_other e).2, y_other e]
    exact ⟨le_trans (hs u hu).1 h1, le_trans (hs u hu).2 h2⟩

/-- What a partial sweep over cells of `C` preserves and achieves. -/
theorem Ok.foldl_sub (h : S.Ok) {C : List Nat} (hC : ∀ v ∈ C, v < S.n) :
    ∀ (l : List Nat) (s : St K), S.NonNeg s → S.Sub C s → (∀ v ∈ l, v ∈ C) →
      S.NonNeg (l.foldl S.upd s) ∧ S.Sub C (l.foldl S.upd s) ∧ S.Below s (l.foldl S.upd s)
  | [], s, hn, hs, _ => ⟨hn, hs, Below.refl S s⟩
  | v :: l, s, hn, hs, hl => by
    have hv := hl v List.mem_cons_self
    have hb := h.upd_above hn hs hv (hC v hv)
    obtain ⟨a, b, c⟩ := h.foldl_sub hC l (S.upd s v) (h.upd_nonneg hn (hC v hv)) (h.upd_sub hn hC hs hv)
      fun u hu => hl u (List.mem_cons_of_mem _ hu)
    exact ⟨a, b, hb.trans c⟩

theorem foldl_other : ∀ (l : List Nat) (s : St K) {u : Nat}, u ∉ l →
    (l.foldl S.upd s).1 u = s.1 u ∧ (l.foldl S.upd s).2 u = s.2 u
  | [], _, _, _ => ⟨rfl, rfl⟩
  | v :: l, s, u, hu => by
    have h1 := foldl_other l (S.upd s v) (u := u) fun h => hu (List.mem_cons_of_mem _ h)
    have h2 : u ≠ v := fun h => hu (h ▸ List.mem_cons_self)
    have h3 := upd_other (S := S) (s := s) h2
    exact ⟨h1.1.trans h3.1, h1.2.trans h3.2⟩

/-- Each cell of a sweep got its value from a state between the one before and the one after. -/
theorem Ok.sweep_between (h : S.Ok) {C : List Nat} (hC : ∀ v ∈ C, v < S.n) (hnd : C.Nodup)
    (hn : S.NonNeg s) (hs : S.Sub C s) (hv : v ∈ C) :
    ∃ t, S.NonNeg t ∧ S.Below s t ∧ S.Below t (S.sweep C s) ∧
      (∀ u, u ∉ C → t.1 u = s.1 u ∧ t.2 u = s.2 u) ∧
      (S.sweep C s).1 v = S.tNew t v ∧ (S.sweep C s).2 v = S.cNew t.2 v := by
  obtain ⟨l1, l2, rfl⟩ := List.append_of_mem hv
  have hl2 : v ∉ l2 := by
    have := (List.nodup_append.mp hnd).2.1
    exact (List.nodup_cons.mp this).1
  have hsub1 : ∀ x ∈ l1, x ∈ l1 ++ v :: l2 := fun x hx => List.mem_append_left _ hx
  obtain ⟨a, b, c⟩ := h.foldl_sub hC l1 s hn hs hsub1
  refine ⟨l1.foldl S.upd s, a, c, ?_, ?_, ?_⟩
  · have : S.sweep (l1 ++ v :: l2) s = (v :: l2).foldl S.upd (l1.foldl S.upd s) := by
      unfold sweep; rw [List.foldl_append]
    rw [this]
    exact (h.foldl_sub hC (v :: l2) _ a b fun x hx => List.mem_append_right _ hx).2.2
  · intro u hu
    exact foldl_other l1 s fun hx => hu (hsub1 u hx)
  · unfold sweep; rw [List.foldl_append, List.foldl_cons]
    have h1 := foldl_other (S := S) l2 (S.upd (l1.foldl S.upd s) v) hl2
    exact ⟨h1.1.trans upd_self.1, h1.2.trans upd_self.2⟩

theorem sweep_other {C : List Nat} {u : Nat} (hu : u ∉ C) :
    (S.sweep C s).1 u = s.1 u ∧ (S.sweep C s).2 u = s.2 u := foldl_other C s hu

/-! ### The sequence of sweeps -/

theorem Ok.iter_sub (h : S.Ok) {C : List Nat} (hC : ∀ v ∈ C, v < S.n) (hn : S.NonNeg s)
    (hs : S.Sub C s) (k : Nat) : S.NonNeg ((S.sweep C)^[k] s) ∧ S.Sub C ((S.sweep C)^[k] s) := by
  induction k with
  | zero => exact ⟨hn, hs⟩
  | succ k ih =>
    rw [Function.iterate_succ_apply']
    obtain ⟨a, b, _⟩ := h.foldl_sub hC C _ ih.1 ih.2 fun v hv => hv
    exact ⟨a, b⟩

theorem Ok.iter_mono (h : S.Ok) {C : List Nat} (hC : ∀ v ∈ C, v < S.n) (hn : S.NonNeg s)
    (hs : S.Sub C s) {j k : Nat} (hjk : j ≤ k) :
    S.Below ((S.sweep C)^[j] s) ((S.sweep C)^[k] s) := by
  induction hjk with
  | refl => exact Below.refl S _
  | @step k _ ih =>
    rw [Function.iterate_succ_apply']
    obtain ⟨h1, h2⟩ := h.iter_sub hC hn hs k
    exact ih.trans (h.foldl_sub hC C _ h1 h2 fun v hv => hv).2.2

theorem iter_other {C : List Nat} {u : Nat} (hu : u ∉ C) (k : Nat) :
    ((S.sweep C)^[k] s).1 u = s.1 u ∧ ((S.sweep C)^[k] s).2 u = s.2 u := by
  induction k with
  | zero => exact ⟨rfl, rfl⟩
  | succ k ih =>
    rw [Function.iterate_succ_apply']
    have := sweep_other (S := S) (s := (S.sweep C)^[k] s) hu
    exact ⟨this.1.trans ih.1, this.2.trans ih.2⟩

/-- A property of states kept by the update of any cell of `C` is kept by sweeps. -/
theorem iter_inv {C : List Nat} (P : St K → Prop) (hP : ∀ s, P s → ∀ v ∈ C, P (S.upd s v)) (h : P s)
    (k : Nat) : P ((S.sweep C)^[k] s) := by
  have hf : ∀ (l : List Nat) (s : St K), (∀ v ∈ l, v ∈ C) → P s → P (l.foldl S.upd s) := by
    intro l
    induction l with
    | nil => intro s _ hs; exact hs
    | cons v l ih =>
      intro s hl hs
      exact ih _ (fun u hu => hl u (List.mem_cons_of_mem _ hu)) (hP s hs v (hl v List.mem_cons_self))
  induction k with
  | zero => exact h
  | succ k ih => rw [Function.iterate_succ_apply']; exact hf C _ (fun v hv => hv) ih

/-- A finite family of positive numbers has a positive lower bound. -/
theorem exists_pos_le {α : Type} (l : List α) (f : α → K) :
    ∃ p : K, 0 < p ∧ p ≤ 1 ∧ ∀ a ∈ l, 0 < f a → p ≤ f a := by
  induction l with
  | nil => exact ⟨1, one_pos, le_refl _, by simp⟩
  | cons a l ih =>
    obtain ⟨p, h0, h1, h2⟩ := ih
    by_cases ha : 0 < f a
    · refine ⟨min p (f a), lt_min h0 ha, le_trans (min_le_left _ _) h1, ?_⟩
      intro b hb hp
      rcases List.mem_cons.mp hb with rfl | hb
      · exact min_le_right _ _
      · exact le_trans (min_le_left _ _) (h2 b hb hp)
    · refine ⟨p, h0, h1, ?_⟩
      intro b hb hp
      rcases List.mem_cons.mp hb with rfl | hb
      · exact absurd hp ha
      · exact h2 b hb hp

theorem exists_ge {α : Type} (l : List α) (f : α → K) : ∃ p : K, 0 ≤ p ∧ ∀ a ∈ l, f a ≤ p := by
  induction l with
  | nil => exact ⟨0, le_refl _, by simp⟩
  | cons a l ih =>
    obtain ⟨p, h0, h2⟩ := ih
    refine ⟨max p (f a), le_trans h0 (le_max_left _ _), ?_⟩
    intro b hb
    rcases List.mem_cons.mp hb with rfl | hb
    · exact le_max_right _ _
    · exact le_trans (h2 b hb) (le_max_left _ _)

/-- Part of the inflow of `v` that comes from `C`. -/
def within (S : Sys K) (C : List Nat) (v : Nat) : K := ∑ u ∈ range S.n, if u ∈ C then S.w u v else 0

/-- Any two cells of `C` are connected inside `C`. -/
def Connected (S : Sys K) (C : List Nat) : Prop :=
  ∀ u ∈ C, ∀ v ∈ C, Relation.ReflTransGen (fun a b => a ∈ C ∧ b ∈ C ∧ 0 < S.w a b) u v

/-- Distance of the cells of a connected set from one of them. -/
theorem exists_rank {C : List Nat} (hcon : S.Connected C) {r : Nat} (hr : r ∈ C) :
    ∃ d : Nat → Nat, ∀ v ∈ C, v ≠ r → ∃ u ∈ C, 0 < S.w u v ∧ d u < d v := by
  classical
  let E : Nat → Nat → Prop := fun a b => a ∈ C ∧ b ∈ C ∧ 0 < S.w a b
  -- walks of a given length
  let W : Nat → Nat → Prop := fun k => Nat.rec (motive := fun _ => Nat → Prop) (fun v => v = r)
    (fun _ P v => ∃ u, P u ∧ E u v) k
  have hW : ∀ v ∈ C, ∃ k, W k v := by
    intro v hv
    have := hcon r hr v hv
    induction this with
    | refl => exact ⟨0, rfl⟩
    | tail _ e ih =>
      obtain ⟨k, hk⟩ := ih e.1
      exact ⟨k + 1, _, hk, e⟩
  refine ⟨fun v => if h : ∃ k, W k v then Nat.find h else 0, ?_⟩
  intro v hv hne
  have hex := hW v hv
  have hf := Nat.find_spec hex
  cases hk : Nat.find hex with
  | zero => rw [hk] at hf; exact absurd hf hne
  | succ k =>
    rw [hk] at hf
    obtain ⟨u, hu, e⟩ := hf
    refine ⟨u, e.1, e.2.2, ?_⟩
    have hexu : ∃ k, W k u := ⟨k, hu⟩
    show (if h : ∃ k, W k u then Nat.find h else 0) < if h : ∃ k, W k v then Nat.find h else 0
    rw [dif_pos hexu, dif_pos hex, hk]
    exact Nat.lt_succ_of_le (Nat.find_min' hexu hu)

/-- In a connected set fed from outside there is a positive weighting that strictly decreases
    under the flow inside the set. -/
theorem Ok.exists_super (h : S.Ok) {C : List Nat} (hC : ∀ v ∈ C, v < S.n) (hcon : S.Connected C)
    {r : Nat} (hr : r ∈ C) (hdef : S.within C r < S.total r) (htot : ∀ v ∈ C, 0 < S.total v) :
    ∃ z : Nat → K, (∀ v ∈ C, 0 < z v) ∧
      ∀ v ∈ C, ∑ u ∈ range S.n, (if u ∈ C then z u * S.w u v else 0) < S.total v * z v := by
  obtain ⟨d, hd⟩ := exists_rank hcon hr
  -- smallest relative flux inside the set
  obtain ⟨p, hp0, hp1, hp⟩ := exists_pos_le (C ×ˢ C) fun q : Nat × Nat => S.w q.1 q.2 / S.total q.2
  have hwithin : ∀ v ∈ C, S.within C v ≤ S.total v := by
    intro v hv
    have h1 : S.within C v ≤ S.inflow v := by
      unfold within Flow.inflow
      apply sum_le_sum
      intro u hu
      split
      · exact le_refl _
      · exact h.w_nonneg u v (mem_range.mp hu) (hC v hv)
    have := h.src_nonneg v (hC v hv)
    unfold Flow.total; linarith
  set q : K := p / 2 with hq
  have hq0 : 0 < q := by positivity
  have hqp : q < p := by rw [hq]; linarith
  have hq1 : q < 1 := lt_of_lt_of_le hqp hp1
  have hgap : 0 < S.total r - S.within C r := by linarith
  set A : K := 2 + S.total r / (S.total r - S.within C r) with hA
  have hA2 : 2 ≤ A := by
    have : 0 ≤ S.total r / (S.total r - S.within C r) := div_nonneg (htot r hr).le hgap.le
    rw [hA]; linarith
  have hqd : ∀ k : Nat, 0 < q ^ k ∧ q ^ k ≤ 1 := fun k => ⟨pow_pos hq0 k, pow_le_one₀ hq0.le hq1.le⟩
  refine ⟨fun v => A - q ^ d v, fun v _ => by have := (hqd (d v)).2; linarith, ?_⟩
  intro v hv
  have hzA : ∀ u, A - q ^ d u ≤ A := fun u => by have := (hqd (d u)).1; linarith
  have hbase : ∑ u ∈ range S.n, (if u ∈ C then (A - q ^ d u) * S.w u v else 0) ≤ A * S.within C v := by
    unfold within; rw [mul_sum]
    apply sum_le_sum
    intro u hu
    split
    · exact mul_le_mul_of_nonneg_right (hzA u) (h.w_nonneg u v (mem_range.mp hu) (hC v hv))
    · rw [mul_zero]
  by_cases hvr : v = r
  · subst hvr
    refine lt_of_le_of_lt hbase ?_
    have h1 : A * (S.total v - S.within C v) = 2 * (S.total v - S.within C v) + S.total v := by
      rw [hA]; field_simp
    have h2 : S.total v * q ^ d v ≤ S.total v := by
      have := mul_le_mul_of_nonneg_left (hqd (d v)).2 (htot v hv).le
      linarith
    nlinarith
  · obtain ⟨u0, hu0, hw0, hd0⟩ := hd v hv hvr
    -- the neighbour nearer to the root makes up the difference
    have hstrict : ∑ u ∈ range S.n, (if u ∈ C then (A - q ^ d u) * S.w u v else 0)
        ≤ A * S.within C v - q ^ d u0 * S.w u0 v := by
      have hm : u0 ∈ range S.n := mem_range.mpr (hC u0 hu0)
      unfold within
      rw [← add_sum_erase _ _ hm, ← add_sum_erase (range S.n) (fun u => if u ∈ C then S.w u v else 0) hm,
        if_pos hu0, if_pos hu0, mul_add]
      have : ∑ x ∈ (range S.n).erase u0, (if x ∈ C then (A - q ^ d x) * S.w x v else 0)
          ≤ A * ∑ x ∈ (range S.n).erase u0, (if x ∈ C then S.w x v else 0) := by
        rw [mul_sum]
        apply sum_le_sum
        intro u hu
        have hu := mem_of_mem_erase hu
        split
        · exact mul_le_mul_of_nonneg_right (hzA u) (h.w_nonneg u v (mem_range.mp hu) (hC v hv))
        · rw [mul_zero]
      nlinarith
    have hpw : p * S.total v ≤ S.w u0 v := by
      have := hp (u0, v) (List.mem_product.mpr ⟨hu0, hv⟩) (div_pos hw0 (htot v hv))
      exact (le_div_iff₀ (htot v hv)).mp this
    have h3 : q ^ d v ≤ q * q ^ d u0 := by
      rw [← pow_succ']
      exact pow_le_pow_of_le_one hq0.le hq1.le hd0
    have h4 : S.total v * q ^ d v < q ^ d u0 * S.w u0 v := by
      calc S.total v * q ^ d v ≤ S.total v * (q * q ^ d u0) := mul_le_mul_of_nonneg_left h3 (htot v hv).le
        _ < S.total v * (p * q ^ d u0) := by
          apply mul_lt_mul_of_pos_left _ (htot v hv)
          exact mul_lt_mul_of_pos_right hqp (hqd _).1
        _ = q ^ d u0 * (p * S.total v) := by ring
        _ ≤ q ^ d u0 * S.w u0 v := mul_le_mul_of_nonneg_left hpw (hqd _).1.le
    have h5 := mul_le_mul_of_nonneg_left (hwithin v hv) (by linarith : (0 : K) ≤ A)
    nlinarith

/-! ### Boundedness and convergence -/

/-- What is known about a connected set of cells when its iteration begins. -/
structure Begin (S : Sys K) (B : K) (C : List Nat) (s : St K) : Prop where
  lt : ∀ v ∈ C, v < S.n
  nodup : C.Nodup
  nonneg : S.NonNeg s
  le : ∀ v < S.n, s.2 v ≤ B
  zero : ∀ v ∈ C, s.1 v = 0 ∧ s.2 v = 0
  connected : S.Connected C
  total : ∀ v ∈ C, 0 < S.total v

variable {C : List Nat}

theorem Ok.yNew_nonneg (h : S.Ok) (hn : S.NonNeg s) (hv : v < S.n) : 0 ≤ S.yNew s v := by
  have h1 := h.cNew_nonneg hn hv
  unfold yNew
  split
  · exact le_refl _
  split
  · exact mul_nonneg h.M_pos.le h1
  · exact div_nonneg (add_nonneg (mul_nonneg (h.pv_nonneg v hv) h1) (h.ysum_nonneg hn hv)) (h.total_nonneg hv)

theorem Begin.sub (hb : S.Begin B C s) (h : S.Ok) : S.Sub C s := by
  intro v hv
  obtain ⟨h1, h2⟩ := hb.zero v hv
  unfold y
  rw [h1, h2, zero_mul]
  exact ⟨h.cNew_nonneg hb.nonneg (hb.lt v hv), h.yNew_nonneg hb.nonneg (hb.lt v hv)⟩

theorem Begin.iter_le (hb : S.Begin B C s) (h : S.Ok) (hB : S.Bounded B) (k : Nat) :
    S.NonNeg ((S.sweep C)^[k] s) ∧ ∀ v < S.n, ((S.sweep C)^[k] s).2 v ≤ B := by
  refine iter_inv (S := S) (fun s => S.NonNeg s ∧ ∀ v < S.n, s.2 v ≤ B) ?_ ⟨hb.nonneg, hb.le⟩ k
  rintro s ⟨h1, h2⟩ v hv
  refine ⟨h.upd_nonneg h1 (hb.lt v hv), ?_⟩
  intro u hu
  by_cases e : u = v
  · subst e; rw [upd_self.2]; exact h.cNew_le hB h1 h2 hu
  · rw [(upd_other e).2]; exact h2 u hu

/-- The products of tof and tracer stay bounded. -/
theorem Begin.iter_y (hb : S.Begin B C s) (h : S.Ok) (hB : S.Bounded B) :
    ∃ Y : K, 0 ≤ Y ∧ ∀ k, ∀ v ∈ C, y ((S.sweep C)^[k] s) v ≤ Y := by
  have hB0 : 0 ≤ B := le_trans zero_le_one hB.one
  by_cases hdef : ∃ r ∈ C, S.within C r < S.total r
  · obtain ⟨r, hr, hdef⟩ := hdef
    obtain ⟨z, hz, hsup⟩ := h.exists_super hb.lt hb.connected hr hdef hb.total
    -- inflow into `v` that does not depend on the iteration
    let b : Nat → K := fun v => S.pv v * B + ∑ u ∈ range S.n, if u ∈ C then 0 else y s u * S.w u v
    obtain ⟨L1, hL10, hL1⟩ := exists_ge C fun v =>
      b v / (S.total v * z v - ∑ u ∈ range S.n, (if u ∈ C then z u * S.w u v else 0))
    obtain ⟨L2, hL20, hL2⟩ := exists_ge C fun v => S.M * B / z v
    set L : K := max L1 L2 with hL
    have hL0 : 0 ≤ L := le_trans hL10 (le_max_left _ _)
    have hinv : ∀ k, S.NonNeg ((S.sweep C)^[k] s) ∧ (∀ v < S.n, ((S.sweep C)^[k] s).2 v ≤ B) ∧
        (∀ u, u ∉ C → y ((S.sweep C)^[k] s) u = y s u) ∧
        ∀ v ∈ C, y ((S.sweep C)^[k] s) v ≤ L * z v := by
      intro k
      refine iter_inv (S := S) (fun t => S.NonNeg t ∧ (∀ v < S.n, t.2 v ≤ B) ∧
        (∀ u, u ∉ C → y t u = y s u) ∧ ∀ v ∈ C, y t v ≤ L * z v) ?_ ?_ k
      · rintro t ⟨h1, h2, h3, h4⟩ v hv
        have hvn := hb.lt v hv
        have hcB := h.cNew_le hB h1 h2 hvn
        refine ⟨h.upd_nonneg h1 hvn, ?_, ?_, ?_⟩
        · intro u hu
          by_cases e : u = v
          · subst e; rw [upd_self.2]; exact hcB
          · rw [(upd_other e).2]; exact h2 u hu
        · intro u hu
          have e : u ≠ v := fun e => hu (e ▸ hv)
          rw [y_other e]; exact h3 u hu
        · intro u hu
          by_cases e : u = v
          · subst e
            rw [h.upd_y h1 hvn]
            unfold yNew
            have hLz : 0 ≤ L * z u := mul_nonneg hL0 (hz u hu).le
            split
            · exact hLz
            split
            · have h5 := hL2 u hu
              have h6 : S.M * B ≤ L * z u := by
                refine (div_le_iff₀ (hz u hu)).mp (le_trans h5 ?_)
                exact le_max_right _ _
              exact le_trans (mul_le_mul_of_nonneg_left hcB h.M_pos.le) h6
            · rw [div_le_iff₀ (hb.total u hu)]
              have hgap := hsup u hu
              have h5 := hL1 u hu
              have h6 := (div_le_iff₀ (by linarith)).mp (le_trans h5 (le_max_left L1 L2))
              rw [← hL] at h6
              have h7 : S.ysum t u ≤ (∑ x ∈ range S.n, if x ∈ C then 0 else y s x * S.w x u)
                  + L * ∑ x ∈ range S.n, (if x ∈ C then z x * S.w x u else 0) := by
                rw [ysum_eq, mul_sum, ← sum_add_distrib]
                apply sum_le_sum
                intro x hx
                have hx := mem_range.mp hx
                split
                · rename_i hxC
                  rw [zero_add, ← mul_assoc]
                  exact mul_le_mul_of_nonneg_right (h4 x hxC) (h.w_nonneg x u hx hvn)
                · rename_i hxC
                  rw [h3 x hxC, mul_zero, add_zero]
              have h8 := mul_le_mul_of_nonneg_left hcB (h.pv_nonneg u hvn)
              have h9 : b u = S.pv u * B + ∑ x ∈ range S.n, if x ∈ C then 0 else y s x * S.w x u := rfl
              nlinarith
          · rw [y_other e]; exact h4 u hu
      · refine ⟨hb.nonneg, hb.le, fun _ _ => rfl, ?_⟩
        intro v hv
        have : y s v = 0 := by unfold y; rw [(hb.zero v hv).2, mul_zero]
        rw [this]; exact mul_nonneg hL0 (hz v hv).le
    obtain ⟨Y, hY0, hY⟩ := exists_ge C fun v => L * z v
    exact ⟨Y, hY0, fun k v hv => le_trans ((hinv k).2.2.2 v hv) (hY v hv)⟩
  · -- no inflow from outside: nothing ever arrives
    push Not at hdef
    have hno : ∀ v ∈ C, S.src v = 0 ∧ ∀ u < S.n, u ∉ C → S.w u v = 0 := by
      intro v hv
      have h1 := hdef v hv
      have h2 : S.inflow v = S.within C v + ∑ u ∈ range S.n, if u ∈ C then 0 else S.w u v := by
        unfold within Flow.inflow
        rw [← sum_add_distrib]
        apply sum_congr rfl
        intro u _
        split <;> simp
      have h3 : ∀ u ∈ range S.n, 0 ≤ if u ∈ C then 0 else S.w u v := by
        intro u hu
        split
        · exact le_refl _
        · exact h.w_nonneg u v (mem_range.mp hu) (hb.lt v hv)
      have h4 := sum_nonneg h3
      have h5 := h.src_nonneg v (hb.lt v hv)
      unfold Flow.total at h1
      have h6 : ∑ u ∈ range S.n, (if u ∈ C then 0 else S.w u v) = 0 := by linarith
      refine ⟨by linarith, ?_⟩
      intro u hu hC
      have := (sum_eq_zero_iff_of_nonneg h3).mp h6 u (mem_range.mpr hu)
      rwa [if_neg hC] at this
    have hinv : ∀ k, ∀ v ∈ C, ((S.sweep C)^[k] s).2 v = 0 := by
      intro k
      refine iter_inv (S := S) (fun t => ∀ v ∈ C, t.2 v = 0) ?_ (fun v hv => (hb.zero v hv).2) k
      intro t ht v hv u hu
      by_cases e : u = v
      · subst e
        rw [upd_self.2]
        unfold cNew
        split
        · rfl
        · rename_i hd
          have hs : S.start u ≠ true := fun hs => hd ⟨hs, (hno u hu).1⟩
          have h1 : S.inj u = 0 := by unfold inj; rw [if_neg hs]
          have h2 : S.csum t.2 u = 0 := by
            apply sum_eq_zero
            intro x hx
            by_cases hxC : x ∈ C
            · rw [ht x hxC, zero_mul]
            · rw [(hno u hu).2 x (mem_range.mp hx) hxC, mul_zero]
          rw [h1, h2]; simp
      · rw [(upd_other e).2]; exact ht u hu
    refine ⟨0, le_refl _, ?_⟩
    intro k v hv
    unfold y; rw [hinv k v hv, mul_zero]

/-- The stopping criterion between two successive states. -/
structure Conv (C : List Nat) (tolT tolC : K) (s t : St K) : Prop where
  tof : ∀ v ∈ C, |t.1 v - s.1 v| ≤ tolT
  tracer : ∀ v ∈ C, |t.2 v - s.2 v| ≤ tolC
  zero : ∀ v ∈ C, s.2 v = 0 ↔ t.2 v = 0

/-- A bounded monotone sequence has arbitrarily small increments. -/
theorem small_increment [Archimedean K] (a : Nat → K) (A : K) (hA : ∀ k, a k ≤ A) (k0 : Nat) {e : K} (he : 0 < e) :
    ∃ k ≥ k0, a (k + 1) - a k ≤ e := by
  by_contra hcon
  push Not at hcon
  have h1 : ∀ j : Nat, a k0 + j * e ≤ a (k0 + j) := by
    intro j
    induction j with
    | zero => simp
    | succ j ih =>
      have := hcon (k0 + j) (by omega)
      have h2 : k0 + (j + 1) = k0 + j + 1 := by omega
      rw [h2]; push_cast; linarith
  obtain ⟨j, hj⟩ := exists_nat_gt ((A - a k0) / e)
  have h2 := h1 j
  have h3 := hA (k0 + j)
  have h4 : A - a k0 < j * e := (div_lt_iff₀ he).mp hj
  linarith

/-- After a sweep, cells without tracer, without source or with slow filling have the cap. -/
theorem Ok.sweep_cap (h : S.Ok) (hC : ∀ v ∈ C, v < S.n) (hnd : C.Nodup) (hn : S.NonNeg s) (hs : S.Sub C s)
    (hv : v ∈ C) (hc : S.Slow v ∨ (S.sweep C s).2 v = 0) : (S.sweep C s).1 v = S.M := by
  obtain ⟨t, ht, _, _, _, h1, h2⟩ := h.sweep_between hC hnd hn hs hv
  rw [h1]; unfold tNew
  split
  · rfl
  split
  · rfl
  · rename_i hsl
    rcases hc with hc | hc
    · exact absurd hc hsl
    · rw [h2] at hc; rw [hc, if_neg (lt_irrefl _)]

theorem Begin.converges [Archimedean K] (hb : S.Begin B C s) (h : S.Ok) (hB : S.Bounded B) {tolT tolC : K}
    (hT : 0 < tolT) (hCt : 0 < tolC) :
    ∃ k, Conv C tolT tolC ((S.sweep C)^[k] s) ((S.sweep C)^[k + 1] s) := by
  have hsub := hb.sub h
  obtain ⟨Y, hY0, hY⟩ := hb.iter_y h hB
  have hle := hb.iter_le h hB
  set x : Nat → St K := fun k => (S.sweep C)^[k] s with hx
  have hmono : ∀ {j k : Nat}, j ≤ k → S.Below (x j) (x k) := fun hjk => h.iter_mono hb.lt hb.nonneg hsub hjk
  have hx1 : ∀ k, x (k + 1) = S.sweep C (x k) := fun k => Function.iterate_succ_apply' _ _ _
  -- positivity settles
  have hpos : ∃ k0, ∀ v ∈ C, (∃ k, 0 < (x k).2 v) → 0 < (x k0).2 v := by
    have : ∀ l : List Nat, (∀ v ∈ l, v ∈ C) → ∃ k0, ∀ v ∈ l, (∃ k, 0 < (x k).2 v) → 0 < (x k0).2 v := by
      intro l
      induction l with
      | nil => intro _; exact ⟨0, by simp⟩
      | cons v l ih =>
        intro hl
        obtain ⟨k0, hk0⟩ := ih fun u hu => hl u (List.mem_cons_of_mem _ hu)
        by_cases hv : ∃ k, 0 < (x k).2 v
        · obtain ⟨k, hk⟩ := hv
          refine ⟨max k0 k, ?_⟩
          intro u hu hex
          have hun := hb.lt u (hl u hu)
          rcases List.mem_cons.mp hu with rfl | hu
          · exact lt_of_lt_of_le hk (hmono (le_max_right k0 k) u hun).1
          · exact lt_of_lt_of_le (hk0 u hu hex) (hmono (le_max_left k0 k) u hun).1
        · refine ⟨k0, ?_⟩
          intro u hu hex
          rcases List.mem_cons.mp hu with rfl | hu
          · exact absurd hex hv
          · exact hk0 u hu hex
    exact this C fun v hv => hv
  obtain ⟨k0, hk0⟩ := hpos
  obtain ⟨m, hm0, hm1, hm⟩ := exists_pos_le C fun v => (x k0).2 v
  -- small increments
  set e : K := min tolC (tolT * m / (1 + Y / m)) with he
  have hYm : 0 < 1 + Y / m := by have := div_nonneg hY0 hm0.le; linarith
  have he0 : 0 < e := lt_min hCt (div_pos (mul_pos hT hm0) hYm)
  let a : Nat → K := fun k => ∑ v ∈ C.toFinset, ((x k).2 v + y (x k) v)
  have hA : ∀ k, a k ≤ ∑ v ∈ C.toFinset, (B + Y) := by
    intro k
    apply sum_le_sum
    intro v hv
    have hv := List.mem_toFinset.mp hv
    exact add_le_add ((hle k).2 v (hb.lt v hv)) (hY k v hv)
  obtain ⟨k, hk, hinc⟩ := small_increment a _ hA (k0 + 1) he0
  have hstep := hmono (Nat.le_succ k)
  -- increments of single cells
  have hone : ∀ v ∈ C, ((x (k + 1)).2 v - (x k).2 v) + (y (x (k + 1)) v - y (x k) v) ≤ e := by
    intro v hv
    have h1 : a (k + 1) - a k
        = ∑ v ∈ C.toFinset, (((x (k + 1)).2 v - (x k).2 v) + (y (x (k + 1)) v - y (x k) v)) := by
      show (∑ v ∈ C.toFinset, _) - (∑ v ∈ C.toFinset, _) = _
      rw [← sum_sub_distrib]
      exact sum_congr rfl fun _ _ => by ring
    rw [h1] at hinc
    refine le_trans ?_ hinc
    refine single_le_sum (f := fun v => ((x (k + 1)).2 v - (x k).2 v) + (y (x (k + 1)) v - y (x k) v)) ?_
      (List.mem_toFinset.mpr hv)
    intro u hu
    obtain ⟨h2, h3⟩ := hstep u (hb.lt u (List.mem_toFinset.mp hu))
    show (0 : K) ≤ _ - _ + (_ - _)
    linarith
  have hc1 : ∀ v ∈ C, 0 ≤ (x (k + 1)).2 v - (x k).2 v ∧ (x (k + 1)).2 v - (x k).2 v ≤ e ∧
      0 ≤ y (x (k + 1)) v - y (x k) v ∧ y (x (k + 1)) v - y (x k) v ≤ e := by
    intro v hv
    have h1 := hone v hv
    obtain ⟨h2, h3⟩ := hstep v (hb.lt v hv)
    have h2 : (x k).2 v ≤ (x (k + 1)).2 v := h2
    have h3 : y (x k) v ≤ y (x (k + 1)) v := h3
    refine ⟨by linarith, by linarith, by linarith, by linarith⟩
  have hzero : ∀ v ∈ C, (x k).2 v = 0 ↔ (x (k + 1)).2 v = 0 := by
    intro v hv
    have hvn := hb.lt v hv
    constructor
    · intro h0
      by_contra hne
      have hp : 0 < (x (k + 1)).2 v := lt_of_le_of_ne ((hle (k + 1)).1 v hvn).2 (Ne.symm hne)
      have h1 := hk0 v hv ⟨k + 1, hp⟩
      have h2 := (hmono (show k0 ≤ k by omega) v hvn).1
      rw [h0] at h2; linarith
    · intro h0
      have h1 := (hc1 v hv).1
      have h2 := ((hle k).1 v hvn).2
      have h2 : 0 ≤ (x k).2 v := h2
      rw [h0] at h1; linarith
  refine ⟨k, ⟨?_, ?_, hzero⟩⟩
  · intro v hv
    have hvn := hb.lt v hv
    show |(x (k + 1)).1 v - (x k).1 v| ≤ tolT
    obtain ⟨j, rfl⟩ : ∃ j, k = j + 1 := ⟨k - 1, by omega⟩
    obtain ⟨hnj, hsj⟩ := h.iter_sub hb.lt hb.nonneg hsub j
    obtain ⟨hnk, hsk⟩ := h.iter_sub hb.lt hb.nonneg hsub (j + 1)
    by_cases hcap : S.Slow v ∨ (x (j + 1)).2 v = 0
    · have h1 : (x (j + 1)).1 v = S.M := by
        rw [hx1 j] at hcap ⊢
        exact h.sweep_cap hb.lt hb.nodup hnj hsj hv hcap
      have h2 : (x (j + 1 + 1)).1 v = S.M := by
        have hcap' : S.Slow v ∨ (x (j + 1 + 1)).2 v = 0 := hcap.imp id fun h0 => (hzero v hv).mp h0
        rw [hx1 (j + 1)] at hcap' ⊢
        exact h.sweep_cap hb.lt hb.nodup hnk hsk hv hcap'
      rw [h1, h2, sub_self, abs_zero]; exact hT.le
    · push Not at hcap
      have hcp : 0 < (x (j + 1)).2 v := lt_of_le_of_ne ((hle (j + 1)).1 v hvn).2 (Ne.symm hcap.2)
      have hmc : m ≤ (x (j + 1)).2 v := le_trans (hm v hv (hk0 v hv ⟨j + 1, hcp⟩)) (hmono (by omega) v hvn).1
      obtain ⟨d1, d2, d3, d4⟩ := hc1 v hv
      set c := (x (j + 1)).2 v
      set c' := (x (j + 1 + 1)).2 v
      set τ := (x (j + 1)).1 v
      set τ' := (x (j + 1 + 1)).1 v
      have hy : y (x (j + 1)) v = τ * c := rfl
      have hy' : y (x (j + 1 + 1)) v = τ' * c' := rfl
      have hτ0 : 0 ≤ τ := ((hle (j + 1)).1 v hvn).1
      have hτY : τ * m ≤ Y := by
        have := hY (j + 1) v hv
        rw [show y ((S.sweep C)^[j + 1] s) v = τ * c from rfl] at this
        exact le_trans (mul_le_mul_of_nonneg_left hmc hτ0) this
      have hτ : τ ≤ Y / m := (le_div_iff₀ hm0).mpr hτY
      rw [hy, hy'] at d3 d4
      have hc'm : m ≤ c' := by linarith
      -- (τ' - τ) c' = (y' - y) - τ (c' - c)
      have hid : (τ' - τ) * c' = (τ' * c' - τ * c) - τ * (c' - c) := by ring
      have h1 : τ * (c' - c) ≤ Y / m * e := by
        exact mul_le_mul hτ d2 d1 (div_nonneg hY0 hm0.le)
      have h2 : 0 ≤ τ * (c' - c) := mul_nonneg hτ0 d1
      have h3 : |τ' - τ| * c' ≤ e * (1 + Y / m) := by
        rw [← abs_of_nonneg (le_trans hm0.le hc'm), ← abs_mul, hid, abs_le]
        constructor
        · nlinarith
        · nlinarith
      have h4 : e * (1 + Y / m) ≤ tolT * m := by
        have := min_le_right tolC (tolT * m / (1 + Y / m))
        rw [← he] at this
        exact (le_div_iff₀ hYm).mp this
      have h5 : |τ' - τ| * m ≤ tolT * m :=
        le_trans (mul_le_mul_of_nonneg_left hc'm (abs_nonneg _)) (le_trans h3 h4)
      exact le_of_mul_le_mul_right h5 hm0
  · intro v hv
    obtain ⟨d1, d2, _, _⟩ := hc1 v hv
    show |(x (k + 1)).2 v - (x k).2 v| ≤ tolC
    rw [abs_of_nonneg d1]
    exact le_trans d2 (min_le_left _ _)

end Sys
end Verif.Solver
