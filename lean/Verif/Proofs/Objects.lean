/- Proofs about the small classes. -/
import Verif.Model.ConnectivityGraph
import Verif.Spec.Objects
import Verif.Proofs.Res
import Verif.Proofs.OMap
import Mathlib.Data.List.Induction

namespace Verif

/-! ### ConnectivityGraph -/

theorem ConnectivityGraph.maxElement_ge_iff (n m : Int) (l : List Int) :
    maxElement m l ≥ n ↔ ∃ x ∈ m :: l, n ≤ x := by
  induction l generalizing m with
  | nil => simp [maxElement]
  | cons y l ih =>
    unfold maxElement
    rw [ih]
    simp only [List.mem_cons, exists_eq_or_imp]
    split
    · constructor
      · rintro (h | h); · exact .inr (.inl h)
        · exact .inr (.inr h)
      · rintro (h | h | h)
        · left; omega
        · exact .inl h
        · exact .inr h
    · constructor
      · rintro (h | h); · exact .inl h
        · exact .inr (.inr h)
      · rintro (h | h | h)
        · exact .inl h
        · left; omega
        · exact .inr h

theorem ConnectivityGraph.hasTooLarge_iff (n : Int) (l : List Int) :
    hasTooLarge n l = true ↔ ∃ x ∈ l, n ≤ x := by
  cases l with
  | nil => simp [hasTooLarge]
  | cons x l =>
    unfold hasTooLarge
    rw [decide_eq_true_iff, maxElement_ge_iff]

/-! ### unordered_set -/

theorem mem_setInsert (s : List Int) (x y : Int) : y ∈ setInsert s x ↔ y ∈ s ∨ y = x := by
  unfold setInsert; split
  · rename_i h
    constructor
    · exact .inl
    · rintro (h' | rfl) <;> assumption
  · simp

theorem nodup_setInsert {s : List Int} (h : s.Nodup) (x : Int) : (setInsert s x).Nodup := by
  unfold setInsert; split
  · exact h
  · rename_i hx
    rw [List.nodup_append]
    refine ⟨h, by simp, ?_⟩
    rintro a ha b hb rfl
    simp only [List.mem_singleton] at hb
    subst hb; exact hx ha

theorem mem_foldl_setInsert (cs s : List Int) (y : Int) :
    y ∈ cs.foldl setInsert s ↔ y ∈ s ∨ y ∈ cs := by
  induction cs generalizing s with
  | nil => simp
  | cons c cs ih => simp only [List.foldl_cons, ih, mem_setInsert, List.mem_cons, or_assoc]

theorem nodup_foldl_setInsert (cs : List Int) {s : List Int} (h : s.Nodup) :
    (cs.foldl setInsert s).Nodup := by
  induction cs generalizing s with
  | nil => exact h
  | cons c cs ih => exact ih (nodup_setInsert h c)

/-! ### Solution -/

open Spec

namespace Solution
variable {R : Type}

/-- Effect of one assignment on the stored data. -/
def applyA (s : Solution R) : Assigned R → Solution R
  | .global t => s.assignToF t
  | .tof i x => s.assignTimeOfFlight i x
  | .conc i x => s.assignConcentration i x

/-- Effect of a list of assignments. -/
def replay (L : List (Assigned R)) : Solution R := L.foldl applyA {}

theorem replay_append (L : List (Assigned R)) (e : Assigned R) :
    replay (L ++ [e]) = applyA (replay L) e := by simp [replay]

theorem lastSome_append {α β : Type} (f : α → Option β) (l : List α) (x : α) :
    lastSome f (l ++ [x]) = (f x).or (lastSome f l) := by
  unfold lastSome
  rw [List.reverse_append]
  show List.findSome? f (x :: l.reverse) = _
  rw [List.findSome?_cons]
  cases f x <;> rfl

theorem replay_spec (L : List (Assigned R)) :
    (replay L).timeOfFlight = (lastSome Assigned.global? L).getD [] ∧
    (∀ i, (replay L).tracerToF.find i = lastSome (Assigned.tof? i) L) ∧
    (∀ i, (replay L).tracer.find i = lastSome (Assigned.conc? i) L) ∧
    (replay L).tracer.Sorted := by
  induction L using List.reverseRecOn with
  | nil => exact ⟨rfl, fun _ => rfl, fun _ => rfl, OMap.sorted_nil⟩
  | append_singleton L e ih =>
    obtain ⟨h1, h2, h3, h4⟩ := ih
    rw [replay_append]
    cases e with
    | global t =>
      refine ⟨?_, fun i => ?_, fun i => ?_, h4⟩
      · rw [lastSome_append]; rfl
      · rw [lastSome_append]; exact h2 i
      · rw [lastSome_append]; exact h3 i
    | tof j x =>
      refine ⟨?_, fun i => ?_, fun i => ?_, h4⟩
      · rw [lastSome_append]; exact h1
      · rw [lastSome_append]
        show ((replay L).tracerToF.assign j x).find i = _
        rw [OMap.find_assign]
        unfold Assigned.tof?
        by_cases h : j = i
        · simp [h]
        · simp [h]; exact h2 i
      · rw [lastSome_append]; exact h3 i
    | conc j x =>
      refine ⟨?_, fun i => ?_, fun i => ?_, OMap.sorted_assign h4 j x⟩
      · rw [lastSome_append]; exact h1
      · rw [lastSome_append]; exact h2 i
      · rw [lastSome_append]
        show ((replay L).tracer.assign j x).find i = _
        rw [OMap.find_assign]
        unfold Assigned.conc?
        by_cases h : j = i
        · simp [h]
        · simp [h]; exact h3 i

end Solution

end Verif
