/-
Values that are updated one after the other by monotone rules, and take finitely many values.
-/
import Mathlib.Order.OrderIsoNat
import Mathlib.Order.RelClasses
import Mathlib.Data.Set.Finite.Basic
import Mathlib.Data.Finset.Max
import Mathlib.Order.WellFounded
import Mathlib.Data.Fintype.Order
import Mathlib.Data.List.Nodup

namespace Verif.Climb

theorem settles {K : Type} [LinearOrder K] {Z : Set K} (hZ : Z.Finite) {f : Nat → K} (hf : ∀ k, f k ∈ Z)
    (hm : ∀ k, f k ≤ f (k + 1)) : ∃ N, ∀ k, N ≤ k → f k = f N := by
  have : Finite Z := hZ
  have hmono : Monotone f := monotone_nat_of_le_succ hm
  obtain ⟨N, hN⟩ := WellFoundedGT.monotone_chain_condition (α := Z) ⟨fun k => ⟨f k, hf k⟩, fun a b h => hmono h⟩
  exact ⟨N, fun k hk => (congrArg Subtype.val (hN k hk)).symm⟩

theorem settle_all {K : Type} [LinearOrder K] {Z : Set K} (hZ : Z.Finite) {f : Nat → Nat → K} (l : List Nat)
    (hf : ∀ k, ∀ u ∈ l, f k u ∈ Z) (hm : ∀ k, ∀ u ∈ l, f k u ≤ f (k + 1) u) :
    ∃ N, ∀ k, N ≤ k → ∀ u ∈ l, f k u = f N u := by
  induction l with
  | nil => exact ⟨0, by simp⟩
  | cons v l ih =>
    obtain ⟨N, hN⟩ := ih (fun k u hu => hf k u (List.mem_cons_of_mem _ hu)) (fun k u hu => hm k u (List.mem_cons_of_mem _ hu))
    obtain ⟨N', hN'⟩ := settles hZ (f := fun k => f k v) (fun k => hf k v List.mem_cons_self) (fun k => hm k v List.mem_cons_self)
    refine ⟨max N N', fun k hk u hu => ?_⟩
    have h1 : N ≤ k := le_trans (le_max_left _ _) hk
    have h2 : N' ≤ k := le_trans (le_max_right _ _) hk
    rcases List.mem_cons.mp hu with rfl | hu
    · exact (hN' k h2).trans (hN' _ (le_max_right _ _)).symm
    · exact (hN k h1 u hu).trans (hN _ (le_max_left _ _) u hu).symm

variable {S K : Type} [LinearOrder K]

/-- All updates of a sweep. -/
def sweep (vis : Nat → S → S) (l : List Nat) (s : S) : S := l.foldl (fun s v => vis v s) s

/-- Updates `vis` of values `x`, for the cells of `l`, of states that satisfy `A`. -/
structure Rule (vis : Nat → S → S) (x : S → Nat → K) (l : List Nat) (A : S → Prop) : Prop where
  keep : ∀ s v, v ∈ l → A s → A (vis v s)
  frame : ∀ s v, v ∈ l → A s → ∀ u, u ≠ v → x (vis v s) u = x s u
  mono : ∀ s s' v, v ∈ l → A s → A s' → (∀ u, x s u ≤ x s' u) → x (vis v s) v ≤ x (vis v s') v

namespace Rule
variable {vis : Nat → S → S} {x : S → Nat → K} {l : List Nat} {A : S → Prop}

theorem dual (h : Rule vis x l A) : Rule (K := Kᵒᵈ) vis (fun s u => OrderDual.toDual (x s u)) l A :=
  ⟨h.keep, fun s v hv hs u hu => congrArg OrderDual.toDual (h.frame s v hv hs u hu),
    fun s s' v hv hs hs' hle => h.mono s' s v hv hs' hs hle⟩

theorem sub (h : Rule vis x l A) {l' : List Nat} (hl : ∀ v ∈ l', v ∈ l) : Rule vis x l' A :=
  ⟨fun s v hv => h.keep s v (hl v hv), fun s v hv => h.frame s v (hl v hv), fun s s' v hv => h.mono s s' v (hl v hv)⟩

theorem tail {v : Nat} {l : List Nat} (h : Rule vis x (v :: l) A) : Rule vis x l A :=
  h.sub fun _ hw => List.mem_cons_of_mem _ hw

theorem keep_sweep (h : Rule vis x l A) {s : S} (hs : A s) : A (sweep vis l s) := by
  induction l generalizing s with
  | nil => exact hs
  | cons v l ih => exact ih h.tail (h.keep s v List.mem_cons_self hs)

theorem frame_sweep (h : Rule vis x l A) {s : S} (hs : A s) {u : Nat} (hu : u ∉ l) : x (sweep vis l s) u = x s u := by
  induction l generalizing s with
  | nil => rfl
  | cons v l ih =>
    rw [List.mem_cons, not_or] at hu
    exact (ih h.tail (h.keep s v List.mem_cons_self hs) hu.2).trans (h.frame s v List.mem_cons_self hs u hu.1)

theorem mono_vis (h : Rule vis x l A) {s s' : S} {v : Nat} (hv : v ∈ l) (hs : A s) (hs' : A s') (hle : ∀ u, x s u ≤ x s' u) :
    ∀ u, x (vis v s) u ≤ x (vis v s') u := by
  intro u
  by_cases e : u = v
  · subst e; exact h.mono s s' u hv hs hs' hle
  · rw [h.frame s v hv hs u e, h.frame s' v hv hs' u e]; exact hle u

theorem mono_sweep (h : Rule vis x l A) {s s' : S} (hs : A s) (hs' : A s') (hle : ∀ u, x s u ≤ x s' u) :
    ∀ u, x (sweep vis l s) u ≤ x (sweep vis l s') u := by
  induction l generalizing s s' with
  | nil => exact hle
  | cons v l ih =>
    exact ih h.tail (h.keep s v List.mem_cons_self hs) (h.keep s' v List.mem_cons_self hs')
      (h.mono_vis List.mem_cons_self hs hs' hle)

/-- No update makes a value smaller. -/
def Rises (vis : Nat → S → S) (x : S → Nat → K) (l : List Nat) (s : S) : Prop := ∀ v ∈ l, x s v ≤ x (vis v s) v

theorem le_vis (h : Rule vis x l A) {s : S} {v : Nat} (hv : v ∈ l) (hs : A s) (hr : Rises vis x l s) : ∀ u, x s u ≤ x (vis v s) u := by
  intro u
  by_cases e : u = v
  · subst e; exact hr u hv
  · rw [h.frame s v hv hs u e]

theorem rises_vis (h : Rule vis x l A) {s : S} {v : Nat} (hv : v ∈ l) (hs : A s) (hr : Rises vis x l s) : Rises vis x l (vis v s) := by
  intro w hw
  have h1 := h.mono s (vis v s) w hw hs (h.keep s v hv hs) (h.le_vis hv hs hr)
  by_cases e : w = v
  · subst e; exact h1
  · rw [h.frame s v hv hs w e]
    exact (hr w hw).trans h1

theorem rises_sweep (h : Rule vis x l A) : ∀ (l' : List Nat), (∀ v ∈ l', v ∈ l) → ∀ {s : S}, A s → Rises vis x l s →
    Rises vis x l (sweep vis l' s) ∧ ∀ u, x s u ≤ x (sweep vis l' s) u := by
  intro l'
  induction l' with
  | nil => intro _ s _ hr; exact ⟨hr, fun _ => le_rfl⟩
  | cons v l' ih =>
    intro hl s hs hr
    have hv := hl v List.mem_cons_self
    obtain ⟨h1, h2⟩ := ih (fun w hw => hl w (List.mem_cons_of_mem _ hw)) (h.keep s v hv hs) (h.rises_vis hv hs hr)
    exact ⟨h1, fun u => (h.le_vis hv hs hr u).trans (h2 u)⟩

/-- Nothing changes any more. -/
def Fixed (vis : Nat → S → S) (x : S → Nat → K) (l : List Nat) (s : S) : Prop := ∀ v ∈ l, x (vis v s) v = x s v

theorem fixed_of_sweep (h : Rule vis x l A) (hnd : l.Nodup) {s : S} (hs : A s) (hr : Rises vis x l s)
    (he : ∀ u ∈ l, x (sweep vis l s) u = x s u) : Fixed vis x l s := by
  have key : ∀ (l' : List Nat), (∀ v ∈ l', v ∈ l) → l'.Nodup → ∀ {t : S}, A t → Rises vis x l t → (∀ u, x t u = x s u) →
      (∀ u ∈ l', x (sweep vis l' t) u = x s u) → ∀ v ∈ l', x (vis v s) v = x s v := by
    intro l'
    induction l' with
    | nil => intro _ _ t _ _ _ _ v hv; cases hv
    | cons w l' ih =>
      intro hl hnd' t ht hrt hte hse
      have hw := hl w List.mem_cons_self
      obtain ⟨hwn, hnd''⟩ := List.nodup_cons.mp hnd'
      have hA := h.keep t w hw ht
      have hR := h.rises_vis hw ht hrt
      have hsub : ∀ v ∈ l', v ∈ l := fun v hv => hl v (List.mem_cons_of_mem _ hv)
      have hvw : x (vis w t) w = x s w := by
        have := hse w List.mem_cons_self
        rw [← this]
        exact ((h.sub hsub).frame_sweep hA hwn).symm
      have hall : ∀ u, x (vis w t) u = x s u := by
        intro u
        by_cases e : u = w
        · subst e; exact hvw
        · rw [h.frame t w hw ht u e, hte u]
      intro v hv
      rcases List.mem_cons.mp hv with rfl | hv
      · rw [← hvw]
        exact le_antisymm (h.mono s t v hw hs ht fun u => (hte u).ge) (h.mono t s v hw ht hs fun u => (hte u).le)
      · exact ih hsub hnd'' hA hR hall (fun u hu => hse u (List.mem_cons_of_mem _ hu)) v hv
  exact key l (fun _ h => h) hnd hs hr (fun _ => rfl) he

theorem keep_iter (h : Rule vis x l A) {s : S} (hs : A s) (k : Nat) : A ((sweep vis l)^[k] s) := by
  induction k with
  | zero => exact hs
  | succ k ih => rw [Function.iterate_succ_apply']; exact h.keep_sweep ih

theorem frame_iter (h : Rule vis x l A) {s : S} (hs : A s) {u : Nat} (hu : u ∉ l) (k : Nat) : x ((sweep vis l)^[k] s) u = x s u := by
  induction k with
  | zero => rfl
  | succ k ih => rw [Function.iterate_succ_apply', h.frame_sweep (h.keep_iter hs k) hu, ih]

theorem mono_iter (h : Rule vis x l A) {s s' : S} (hs : A s) (hs' : A s') (hle : ∀ u, x s u ≤ x s' u) (k : Nat) :
    ∀ u, x ((sweep vis l)^[k] s) u ≤ x ((sweep vis l)^[k] s') u := by
  induction k with
  | zero => exact hle
  | succ k ih =>
    rw [Function.iterate_succ_apply', Function.iterate_succ_apply']
    exact h.mono_sweep (h.keep_iter hs k) (h.keep_iter hs' k) ih

theorem rises_iter (h : Rule vis x l A) {s : S} (hs : A s) (hr : Rises vis x l s) (k : Nat) : Rises vis x l ((sweep vis l)^[k] s) := by
  induction k with
  | zero => exact hr
  | succ k ih => rw [Function.iterate_succ_apply']; exact (h.rises_sweep l (fun _ h => h) (h.keep_iter hs k) ih).1

/-- Rising values settle. -/
theorem limit (h : Rule vis x l A) (hnd : l.Nodup) {Z : Set K} (hZ : Z.Finite) (hAZ : ∀ s, A s → ∀ u ∈ l, x s u ∈ Z) {s : S} (hs : A s)
    (hr : Rises vis x l s) : ∃ N, (∀ k, N ≤ k → ∀ u, x ((sweep vis l)^[k] s) u = x ((sweep vis l)^[N] s) u) ∧
      Fixed vis x l ((sweep vis l)^[N] s) ∧ ∀ k, ∀ u, x ((sweep vis l)^[k] s) u ≤ x ((sweep vis l)^[N] s) u := by
  have hstep : ∀ k u, x ((sweep vis l)^[k] s) u ≤ x ((sweep vis l)^[k + 1] s) u := by
    intro k u
    rw [Function.iterate_succ_apply']
    exact (h.rises_sweep l (fun _ h => h) (h.keep_iter hs k) (h.rises_iter hs hr k)).2 u
  obtain ⟨N, hN⟩ := settle_all hZ (f := fun k u => x ((sweep vis l)^[k] s) u) l (fun k u hu => hAZ _ (h.keep_iter hs k) u hu)
    (fun k u _ => hstep k u)
  have hall : ∀ k, N ≤ k → ∀ u, x ((sweep vis l)^[k] s) u = x ((sweep vis l)^[N] s) u := by
    intro k hk u
    by_cases hu : u ∈ l
    · exact hN k hk u hu
    · rw [h.frame_iter hs hu, h.frame_iter hs hu]
  refine ⟨N, hall, h.fixed_of_sweep hnd (h.keep_iter hs N) (h.rises_iter hs hr N) fun u _ => ?_, fun k u => ?_⟩
  · rw [← Function.iterate_succ_apply' (sweep vis l)]
    exact hall (N + 1) (by omega) u
  · rcases le_total k N with hk | hk
    · exact monotone_nat_of_le_succ (f := fun k => x ((sweep vis l)^[k] s) u) (fun k => hstep k u) hk
    · exact (hall k hk u).le

/-- Values between rising and falling ones. -/
theorem squeeze (h : Rule vis x l A) (hnd : l.Nodup) {Z : Set K} (hZ : Z.Finite) (hAZ : ∀ s, A s → ∀ u ∈ l, x s u ∈ Z) {a s b : S}
    (ha : A a) (hs : A s) (hb : A b) (hra : Rises vis x l a) (hrb : ∀ v ∈ l, x (vis v b) v ≤ x b v)
    (has : ∀ u, x a u ≤ x s u) (hsb : ∀ u, x s u ≤ x b u) :
    ∃ N lo hi, A lo ∧ A hi ∧ Fixed vis x l lo ∧ Fixed vis x l hi ∧ ∀ k, N ≤ k → ∀ u,
      x lo u ≤ x ((sweep vis l)^[k] s) u ∧ x ((sweep vis l)^[k] s) u ≤ x hi u := by
  obtain ⟨N, h1, h2, _⟩ := h.limit hnd hZ hAZ ha hra
  obtain ⟨M, h3, h4, _⟩ := h.dual.limit hnd (Z := Z) hZ hAZ hb hrb
  refine ⟨max N M, _, _, h.keep_iter ha N, h.keep_iter hb M, h2, fun v hv => OrderDual.toDual_inj.mp (h4 v hv), ?_⟩
  intro k hk u
  have e1 := h1 k (le_trans (le_max_left _ _) hk) u
  have e2 := OrderDual.toDual_inj.mp (h3 k (le_trans (le_max_right _ _) hk) u)
  rw [← e1, ← e2]
  exact ⟨h.mono_iter ha hs has k u, h.mono_iter hs hb hsb k u⟩

end Rule
end Verif.Climb
