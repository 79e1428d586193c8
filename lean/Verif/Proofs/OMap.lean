/- Lemmas about ordered maps. -/
import Verif.Model.CellSet
import Mathlib.Order.Defs.LinearOrder
import Mathlib.Order.Lattice
import Mathlib.Tactic.Common
import Mathlib.Algebra.Order.Group.Int
import Mathlib.Data.List.Perm.Subperm

namespace Verif

namespace OMap
section
variable {κ α β : Type} [LinearOrder κ]

theorem find_nil (k : κ) : find ([] : OMap κ α) k = none := rfl

theorem find_cons (e : κ × α) (m : OMap κ α) (k : κ) :
    find (e :: m) k = if e.1 = k then some e.2 else find m k := by
  show (if ¬ e.1 < k ∧ ¬ k < e.1 then some e.2 else find m k) = _
  by_cases h : e.1 = k
  · simp [h]
  · rw [if_neg h, if_neg]
    rintro ⟨h1, h2⟩
    exact h (le_antisymm (not_lt.mp h2) (not_lt.mp h1))

theorem assign_cons (e : κ × α) (m : OMap κ α) (k : κ) (v : α) :
    assign (e :: m) k v = if k < e.1 then (k, v) :: e :: m
      else if e.1 < k then e :: assign m k v else (k, v) :: m := by
  show (if k < e.1 then (k, v) :: e :: m else if e.1 < k then e :: assign m k v else (e.1, v) :: m) = _
  by_cases h : k < e.1
  · simp [h]
  · by_cases h' : e.1 < k
    · simp [h, h']
    · have : e.1 = k := le_antisymm (not_lt.mp h) (not_lt.mp h')
      simp [this]

theorem find_assign (m : OMap κ α) (k k' : κ) (v : α) :
    find (assign m k v) k' = if k = k' then some v else find m k' := by
  induction m with
  | nil => simp [assign, find_cons]
  | cons e m ih =>
    rw [assign_cons]
    split
    · simp only [find_cons]
    · split
      · rename_i h1 h2
        rw [find_cons, find_cons, ih]
        by_cases h : k = k'
        · subst h; simp [ne_of_lt h2]
        · simp [h]
      · rename_i h1 h2
        have : e.1 = k := le_antisymm (not_lt.mp h1) (not_lt.mp h2)
        rw [find_cons, find_cons, this]
        by_cases h : k = k' <;> simp [h]

theorem mem_assign {m : OMap κ α} {k : κ} {v : α} {x : κ × α} (h : x ∈ assign m k v) :
    x = (k, v) ∨ x ∈ m := by
  induction m with
  | nil => simpa [assign] using h
  | cons e m ih =>
    rw [assign_cons] at h
    split at h
    · simpa using h
    · split at h
      · rcases List.mem_cons.mp h with h | h
        · right; simp [h]
        · rcases ih h with h | h
          · exact .inl h
          · right; simp [h]
      · rcases List.mem_cons.mp h with h | h
        · exact .inl h
        · right; simp [h]

theorem sorted_nil : Sorted ([] : OMap κ α) := List.Pairwise.nil

theorem sorted_assign {m : OMap κ α} (h : Sorted m) (k : κ) (v : α) : Sorted (assign m k v) := by
  induction m with
  | nil => exact List.pairwise_singleton _ _
  | cons e m ih =>
    have hh := List.pairwise_cons.mp h
    rw [assign_cons]
    split
    · rename_i hlt
      refine List.pairwise_cons.mpr ⟨?_, h⟩
      intro x hx
      rcases List.mem_cons.mp hx with rfl | hx
      · exact hlt
      · exact lt_trans hlt (hh.1 x hx)
    · split
      · rename_i _ hlt
        refine List.pairwise_cons.mpr ⟨?_, ih hh.2⟩
        intro x hx
        rcases mem_assign hx with rfl | hx
        · exact hlt
        · exact hh.1 x hx
      · rename_i h1 h2
        have he : e.1 = k := le_antisymm (not_lt.mp h1) (not_lt.mp h2)
        refine List.pairwise_cons.mpr ⟨?_, hh.2⟩
        intro x hx
        exact he ▸ hh.1 x hx

theorem find_some_mem {m : OMap κ α} {k : κ} {v : α} (h : find m k = some v) : (k, v) ∈ m := by
  induction m with
  | nil => cases h
  | cons e m ih =>
    rw [find_cons] at h
    split at h
    · rename_i he
      simp only [Option.some.injEq] at h
      subst he h; simp
    · exact List.mem_cons_of_mem _ (ih h)

theorem mem_find {m : OMap κ α} (hs : Sorted m) {k : κ} {v : α} (h : (k, v) ∈ m) :
    find m k = some v := by
  induction m with
  | nil => cases h
  | cons e m ih =>
    have hh := List.pairwise_cons.mp hs
    rw [find_cons]
    rcases List.mem_cons.mp h with rfl | h
    · simp
    · have := hh.1 _ h
      rw [if_neg (ne_of_lt this)]
      exact ih hh.2 h

theorem find_iff {m : OMap κ α} (hs : Sorted m) {k : κ} {v : α} :
    find m k = some v ↔ (k, v) ∈ m := ⟨find_some_mem, mem_find hs⟩

theorem find_none_iff {m : OMap κ α} {k : κ} : find m k = none ↔ ∀ e ∈ m, e.1 ≠ k := by
  induction m with
  | nil => simp [find_nil]
  | cons e m ih =>
    rw [find_cons]
    by_cases h : e.1 = k
    · simp [h]
    · simp [h, ih]

theorem find_isSome_iff {m : OMap κ α} {k : κ} : (find m k).isSome ↔ k ∈ m.map Prod.fst := by
  rw [← Option.ne_none_iff_isSome, ne_eq, find_none_iff]
  simp only [List.mem_map, ne_eq, not_forall, not_not]
  constructor
  · rintro ⟨e, he, rfl⟩; exact ⟨e, he, rfl⟩
  · rintro ⟨e, he, rfl⟩; exact ⟨e, he, rfl⟩

theorem keys_sorted {m : OMap κ α} (hs : Sorted m) : (m.map Prod.fst).Pairwise (· < ·) :=
  List.pairwise_map.mpr hs

theorem keys_nodup {m : OMap κ α} (hs : Sorted m) : (m.map Prod.fst).Nodup :=
  (keys_sorted hs).imp (fun h => ne_of_lt h)

/-- Two maps with the same lookups are equal. -/
theorem ext {m m' : OMap κ α} (h : Sorted m) (h' : Sorted m') (he : ∀ k, find m k = find m' k) :
    m = m' := by
  refine List.Perm.eq_of_pairwise (le := fun a b : κ × α => a.1 < b.1) ?_ h h' ?_
  · intro a b _ _ h1 h2; exact absurd h2 (lt_asymm h1)
  · rw [List.perm_ext_iff_of_nodup]
    · rintro ⟨k, v⟩
      rw [← find_iff h, ← find_iff h', he]
    · exact h.imp fun hlt e => by subst e; exact lt_irrefl _ hlt
    · exact h'.imp fun hlt e => by subst e; exact lt_irrefl _ hlt

theorem mem_assign_iff {m : OMap κ α} (hs : Sorted m) {k : κ} {v : α} {x : κ × α} :
    x ∈ assign m k v ↔ x = (k, v) ∨ (x ∈ m ∧ x.1 ≠ k) := by
  obtain ⟨a, b⟩ := x
  rw [← find_iff (sorted_assign hs k v), find_assign]
  by_cases h : k = a
  · subst h; simp [eq_comm]
  · rw [if_neg h, find_iff hs]
    constructor
    · intro h'; exact .inr ⟨h', fun e => h e.symm⟩
    · rintro (h' | h')
      · simp only [Prod.mk.injEq] at h'; exact absurd h'.1.symm h
      · exact h'.1

theorem keys_assign (m : OMap κ α) (k : κ) (v : α) (k' : κ) :
    k' ∈ (assign m k v).map Prod.fst ↔ k' = k ∨ k' ∈ m.map Prod.fst := by
  rw [← find_isSome_iff, find_assign, ← find_isSome_iff]
  by_cases h : k = k'
  · simp [h]
  · simp [h, Ne.symm h]

theorem insert_eq (m : OMap κ α) (k : κ) (v : α) :
    insert m k v = if (find m k).isSome then m else assign m k v := by
  unfold insert; cases h : find m k <;> simp

theorem sorted_insert {m : OMap κ α} (h : Sorted m) (k : κ) (v : α) : Sorted (insert m k v) := by
  rw [insert_eq]; split
  · exact h
  · exact sorted_assign h k v

/-- Assigning to a key above all others appends. -/
theorem assign_append {m : OMap κ α} {k : κ} {v : α} (h : ∀ e ∈ m, e.1 < k) :
    assign m k v = m ++ [(k, v)] := by
  induction m with
  | nil => rfl
  | cons e m ih =>
    have he := h e (by simp)
    rw [assign_cons, if_neg (lt_asymm he), if_pos he, ih (fun x hx => h x (by simp [hx]))]
    rfl

theorem insert_append {m : OMap κ α} {k : κ} {v : α} (h : ∀ e ∈ m, e.1 < k) :
    insert m k v = m ++ [(k, v)] := by
  rw [insert_eq, if_neg, assign_append h]
  rw [Bool.not_eq_true, Option.isSome_eq_false_iff, Option.isNone_iff_eq_none, find_none_iff]
  intro e he; exact ne_of_lt (h e he)

end
end OMap

/-! ### `std::string` order -/

theorem strLt_irrefl (a : Str) : strLt a a = false := by
  induction a with
  | nil => rfl
  | cons x a ih => simp [strLt, ih]

theorem strLt_trans {a b c : Str} (h : strLt a b = true) (h' : strLt b c = true) :
    strLt a c = true := by
  induction a generalizing b c with
  | nil =>
    cases c with
    | nil => cases b <;> simp [strLt] at h'
    | cons _ _ => rfl
  | cons x a ih =>
    cases b with
    | nil => simp [strLt] at h
    | cons y b =>
      cases c with
      | nil => simp [strLt] at h'
      | cons z c =>
        simp only [strLt] at h h' ⊢
        by_cases h1 : x < y
        · by_cases h2 : y < z
          · rw [if_pos (UInt8.lt_trans h1 h2)]
          · rw [if_neg h2] at h'
            by_cases h3 : z < y
            · simp [h3] at h'
            · have : y = z := UInt8.le_antisymm (UInt8.not_lt.mp h3) (UInt8.not_lt.mp h2)
              subst this; simp [h1]
        · rw [if_neg h1] at h
          by_cases h4 : y < x
          · simp [h4] at h
          · have : x = y := UInt8.le_antisymm (UInt8.not_lt.mp h4) (UInt8.not_lt.mp h1)
            subst this
            simp only [UInt8.lt_irrefl, if_false] at h
            by_cases h2 : x < z
            · simp [h2]
            · rw [if_neg h2] at h' ⊢
              by_cases h3 : z < x
              · simp [h3] at h'
              · rw [if_neg h3] at h' ⊢
                exact ih h h'

theorem strLt_total (a b : Str) : strLt a b = true ∨ a = b ∨ strLt b a = true := by
  induction a generalizing b with
  | nil => cases b <;> simp [strLt]
  | cons x a ih =>
    cases b with
    | nil => simp [strLt]
    | cons y b =>
      simp only [strLt]
      by_cases h1 : x < y
      · simp [h1]
      · by_cases h2 : y < x
        · simp [h2]
        · have : x = y := UInt8.le_antisymm (UInt8.not_lt.mp h2) (UInt8.not_lt.mp h1)
          subst this
          simpa using ih b

namespace CellSetID

/-- `operator<` makes `CellSetID` a linear order. -/
instance : LinearOrder CellSetID where
  le x y := x < y ∨ x = y
  lt x y := x < y
  le_refl x := .inr rfl
  le_trans x y z := by
    rintro (h | rfl) (h' | rfl)
    · exact .inl (strLt_trans h h')
    · exact .inl h
    · exact .inl h'
    · exact .inr rfl
  lt_iff_le_not_ge x y := by
    constructor
    · intro h
      refine ⟨.inl h, ?_⟩
      rintro (h' | rfl)
      · have := strLt_trans h h'; rw [strLt_irrefl] at this; cases this
      · have : strLt y.id y.id = true := h
        rw [strLt_irrefl] at this; cases this
    · rintro ⟨h | rfl, h'⟩
      · exact h
      · exact absurd (.inr rfl) h'
  le_antisymm x y := by
    rintro (h | rfl) (h' | h')
    · have := strLt_trans h h'; rw [strLt_irrefl] at this; cases this
    · exact h'.symm
    · rfl
    · rfl
  le_total x y := by
    rcases strLt_total x.id y.id with h | h | h
    · exact .inl (.inl h)
    · exact .inl (.inr (by cases x; cases y; simp_all))
    · exact .inr (.inl h)
  toDecidableLE x y := inferInstanceAs (Decidable (x < y ∨ x = y))
  toDecidableEq := inferInstance
  toDecidableLT := inferInstance

end CellSetID

end Verif
