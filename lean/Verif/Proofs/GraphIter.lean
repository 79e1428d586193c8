/- Iterating over a compressed graph. -/
import Verif.Proofs.Compress

namespace Verif
open Spec
variable {R : Type}

/-- Splitting a list by key. -/
theorem perm_flatMap_filter {α κ : Type} [DecidableEq κ] (key : α → κ) (ks : List κ) (hk : ks.Nodup)
    (l : List α) (hl : ∀ a ∈ l, key a ∈ ks) :
    (ks.flatMap fun k => l.filter fun a => key a = k).Perm l := by
  induction ks generalizing l with
  | nil =>
    have : l = [] := by
      cases l with
      | nil => rfl
      | cons a l => exact absurd (hl a (by simp)) (by simp)
    simp [this]
  | cons k ks ih =>
    rw [List.nodup_cons] at hk
    rw [List.flatMap_cons]
    have h2 : (ks.flatMap fun k' => l.filter fun a => key a = k')
        = ks.flatMap fun k' => (l.filter fun a => !decide (key a = k)).filter fun a => key a = k' := by
      apply List.flatMap_congr
      intro k' hk'
      rw [List.filter_filter]
      apply List.filter_congr
      intro a _
      by_cases h : key a = k'
      · have : key a ≠ k := by rintro rfl; exact hk.1 (h ▸ hk')
        simp [h, show ¬ k' = k from h ▸ this]
      · simp [h]
    rw [h2]
    have h3 := ih hk.2 (l.filter fun a => !decide (key a = k)) (by
      intro a ha
      rw [List.mem_filter] at ha
      have := hl a ha.1
      rw [List.mem_cons] at this
      rcases this with h | h
      · simp [h] at ha
      · exact h)
    exact (List.Perm.append_left _ h3).trans (List.filter_append_perm _ _)

section rows
variable {n : Nat} {E : Int → Int → Prop} {sp : List Nat} {nb : List Int} {w : List R}

theorem lookup_zip {α β : Type} [BEq α] [LawfulBEq α] : ∀ (l : List α) (w : List β)
    (_ : l.Nodup) (_ : w.length = l.length) (t : Nat) (ht : t < l.length),
    (l.zip w).lookup l[t] = w[t]?
  | [], _, _, _, t, ht => by simp at ht
  | a :: l, [], _, hl, _, _ => by simp at hl
  | a :: l, b :: w, hn, hl, 0, _ => by simp
  | a :: l, b :: w, hn, hl, t + 1, ht => by
    rw [List.nodup_cons] at hn
    have ht' : t < l.length := by simpa using ht
    have hne : (l[t] == a) = false := by
      rw [beq_eq_false_iff_ne]; rintro h; exact hn.1 (h ▸ List.getElem_mem ht')
    simp only [List.zip_cons_cons, List.getElem_cons_succ, List.lookup, hne, List.getElem?_cons_succ]
    exact lookup_zip l w hn.2 (by simpa using hl) t ht'

theorem lookup_zip_none {α β : Type} [BEq α] [LawfulBEq α] : ∀ (l : List α) (w : List β) (x : α),
    x ∉ l → (l.zip w).lookup x = none
  | [], _, _, _ => by simp
  | a :: l, [], _, _ => by simp
  | a :: l, b :: w, x, hx => by
    rw [List.mem_cons, not_or] at hx
    have hne : (x == a) = false := by rw [beq_eq_false_iff_ne]; exact hx.1
    simp only [List.zip_cons_cons, List.lookup, hne]
    exact lookup_zip_none l w x hx.2

variable [Arith R]

/-- Looking up a stored weight. -/
theorem lookupWeight_eq (g : AssembledConnections R) (cs : List (Int × Int × R))
    (ha : IsAdjacency n E g.startPointers g.neighbourhood)
    (hw : HasWeights n cs g.startPointers g.neighbourhood g.connectionWeight) (r : Nat) (hr : r < n)
    (j : Int) :
    (E r j → lookupWeight g r j = some ((weightsOf cs r j).foldl Arith.add Arith.zero)) ∧
    (¬ E r j → lookupWeight g r j = none) := by
  unfold lookupWeight
  have hnd : (rowOf g.startPointers g.neighbourhood r).Nodup :=
    (ha.sorted r hr).imp fun h => ne_of_lt h
  constructor
  · intro he
    obtain ⟨t, ht, hjt⟩ := List.getElem_of_mem ((ha.mem r hr j).mpr he)
    have hlr := ha.length_rowOf hr (xs := g.neighbourhood) rfl
    have hlw := ha.length_rowOf hr hw.size
    have h1 := lookup_zip (rowOf g.startPointers g.neighbourhood r)
      (rowOf g.startPointers g.connectionWeight r) hnd (by rw [hlr, hlw]) t ht
    rw [hjt] at h1
    have ht' : t < g.startPointers.getD (r + 1) 0 - g.startPointers.getD r 0 := by omega
    rw [h1, ha.rowOf_getElem? hr t ht']
    apply hw.sum r hr _ (by omega) (by omega)
    rw [← ha.rowOf_getElem? hr t ht', List.getElem?_eq_getElem ht, hjt]
  · intro he
    exact lookup_zip_none _ _ _ fun h => he ((ha.mem r hr j).mp h)

omit [Arith R] in
/-- `cellNeighbourhood` returns the row. -/
theorem cellNeighbourhood_eq (g : AssembledConnections R)
    (ha : IsAdjacency n E g.startPointers g.neighbourhood)
    (hw : g.connectionWeight.length = g.neighbourhood.length) (r : Nat) (hr : r < n)
    (hrI : r < INT_MAX) :
    g.cellNeighbourhood r = .ok ((rowOf g.startPointers g.neighbourhood r).zip
      (rowOf g.startPointers g.connectionWeight r)) := by
  have hs := ha.size
  have h1 : sizeOfInt (r : Int) = r := by
    rw [sizeOfInt_nonneg (by omega) (by omega)]; simp
  have h2 : sizeOfInt ((r : Int) + 1) = r + 1 := by
    rw [sizeOfInt_nonneg (by omega) (by omega)]; omega
  have hb : g.startPointers[r]? = some (g.startPointers.getD r 0) := by
    simp [List.getD_eq_getElem?_getD, show r < g.startPointers.length by omega]
  have he : g.startPointers[r + 1]? = some (g.startPointers.getD (r + 1) 0) := by
    simp [List.getD_eq_getElem?_getD, show r + 1 < g.startPointers.length by omega]
  have hm := ha.mono_getD (a := r) (b := r + 1) (by omega) (by omega)
  have hl := ha.le_length (r := r + 1) (by omega)
  unfold AssembledConnections.cellNeighbourhood
  have hn : ¬ (g.startPointers.getD (r + 1) 0 < g.startPointers.getD r 0 ∨
      g.neighbourhood.length < g.startPointers.getD (r + 1) 0) := by omega
  simp only [h1, h2, Res.bind_eq, rd_of_getElem? hb, rd_of_getElem? he, Res.ok_bind, hw,
    beq_self_eq_true, assertThat_true, hn, if_false, Res.pure_eq]
  unfold rowOf
  congr 1
  simp only [List.zip_eq_zipWith, List.drop_zipWith, List.take_zipWith]

/-- The (row, column) pairs of the whole graph. -/
def pairsOf (n : Nat) (sp : List Nat) (nb : List Int) : List (Nat × Int) :=
  (List.range n).flatMap fun r => (rowOf sp nb r).map fun j => (r, j)

theorem pairsOf_sorted (ha : IsAdjacency n E sp nb) :
    (pairsOf n sp nb).Pairwise fun a b => a.1 < b.1 ∨ (a.1 = b.1 ∧ a.2 < b.2) := by
  unfold pairsOf
  rw [List.pairwise_flatMap]
  constructor
  · intro r hr
    rw [List.pairwise_map]
    refine (ha.sorted r (by simpa using hr)).imp ?_
    intro a b h; exact Or.inr ⟨rfl, h⟩
  · refine List.pairwise_lt_range.imp ?_
    intro a b hab x hx y hy
    simp at hx hy
    obtain ⟨_, _, rfl⟩ := hx; obtain ⟨_, _, rfl⟩ := hy
    exact Or.inl hab

theorem mem_pairsOf (ha : IsAdjacency n E sp nb) (r : Nat) (j : Int) :
    (r, j) ∈ pairsOf n sp nb ↔ r < n ∧ E r j := by
  simp only [pairsOf, List.mem_flatMap, List.mem_range, List.mem_map, Prod.mk.injEq]
  constructor
  · rintro ⟨r', hr', j', hj', rfl, rfl⟩; exact ⟨hr', (ha.mem _ hr' _).mp hj'⟩
  · rintro ⟨hr, he⟩; exact ⟨r, hr, j, (ha.mem r hr j).mpr he, rfl, rfl⟩

omit [Arith R] in
theorem visited_pairs (ha : IsAdjacency n E sp nb) (hl : w.length = nb.length) :
    (visited n fun r => (rowOf sp nb r).zip (rowOf sp w r)).map (fun x => (x.1, x.2.1))
      = pairsOf n sp nb := by
  unfold visited pairsOf
  rw [List.map_flatMap]
  apply List.flatMap_congr
  intro r hr
  have hr' : r < n := by simpa using hr
  rw [List.map_map]
  have : (rowOf sp nb r).map (fun j => (r, j))
      = (((rowOf sp nb r).zip (rowOf sp w r)).map Prod.fst).map (fun j => (r, j)) := by
    rw [List.map_fst_zip]
    rw [ha.length_rowOf hr' rfl, ha.length_rowOf hr' hl]
  rw [this, List.map_map]; rfl

omit [Arith R] in
theorem visited_weights (ha : IsAdjacency n E sp nb) (hl : w.length = nb.length) :
    (visited n fun r => (rowOf sp nb r).zip (rowOf sp w r)).map (fun x => x.2.2) = w := by
  conv_rhs => rw [ha.flatten_eq hl]
  unfold visited
  rw [List.map_flatMap]
  apply List.flatMap_congr
  intro r hr
  have hr' : r < n := by simpa using hr
  rw [List.map_map]
  have : rowOf sp w r = ((rowOf sp nb r).zip (rowOf sp w r)).map Prod.snd := by
    rw [List.map_snd_zip]
    rw [ha.length_rowOf hr' rfl, ha.length_rowOf hr' hl]
  conv_rhs => rw [this]
  rfl

/-- Each visited triple carries the accumulated weight of its connection. -/
theorem visited_value {cs : List (Int × Int × R)} (ha : IsAdjacency n E sp nb)
    (hw : HasWeights n cs sp nb w) :
    ∀ x ∈ visited n (fun r => (rowOf sp nb r).zip (rowOf sp w r)),
      x.2.2 = (weightsOf cs x.1 x.2.1).foldl Arith.add Arith.zero := by
  rintro ⟨r, j, v⟩ hx
  simp only [visited, List.mem_flatMap, List.mem_range, List.mem_map, Prod.mk.injEq] at hx
  obtain ⟨r', hr', ⟨j', v'⟩, hz, rfl, rfl, rfl⟩ := hx
  obtain ⟨t, ht, hjt⟩ := List.getElem_of_mem hz
  have hlr := ha.length_rowOf hr' (xs := nb) rfl
  have hlw := ha.length_rowOf hr' hw.size
  have ht' : t < sp.getD (r' + 1) 0 - sp.getD r' 0 := by
    simp only [List.length_zip] at ht; omega
  rw [List.getElem_zip, Prod.mk.injEq] at hjt
  have e1 : nb[sp.getD r' 0 + t]? = some j' := by
    rw [← ha.rowOf_getElem? hr' t ht', List.getElem?_eq_getElem (by omega), hjt.1]
  have e2 : w[sp.getD r' 0 + t]? = some v' := by
    rw [← ha.rowOf_getElem? hr' t ht', List.getElem?_eq_getElem (by omega), hjt.2]
  have := hw.sum r' hr' (sp.getD r' 0 + t) (by omega) (by omega) j' e1
  rw [e2] at this
  simpa using this

/-! ### Sums with exact addition -/

theorem ExactAdd.foldl_add (h : ExactAdd R) (l : List R) (z : R) :
    l.foldl Arith.add z = Arith.add z (l.foldl Arith.add Arith.zero) := by
  induction l generalizing z with
  | nil => simp only [List.foldl_nil]; rw [h.comm, h.zero_add]
  | cons x l ih =>
    simp only [List.foldl_cons]
    rw [ih, ih (Arith.add Arith.zero x), h.zero_add, h.assoc]

theorem ExactAdd.foldl_perm (h : ExactAdd R) {l l' : List R} (hp : l.Perm l') :
    l.foldl Arith.add Arith.zero = l'.foldl Arith.add Arith.zero := by
  have : RightCommutative (Arith.add : R → R → R) := ⟨fun a b c => by
    rw [h.assoc, h.comm b c, ← h.assoc]⟩
  exact hp.foldl_eq _

theorem ExactAdd.foldl_flatMap (h : ExactAdd R) {α : Type} (ks : List α) (f : α → List R) :
    (ks.flatMap f).foldl Arith.add Arith.zero
      = (ks.map fun k => (f k).foldl Arith.add Arith.zero).foldl Arith.add Arith.zero := by
  induction ks with
  | nil => rfl
  | cons k ks ih =>
    rw [List.flatMap_cons, List.map_cons, List.foldl_append, ExactAdd.foldl_add h, ih, List.foldl_cons,
      h.zero_add]
    exact (ExactAdd.foldl_add h _ _).symm

/-- With exact addition the visited weights add up to all the weights given. -/
theorem visited_sum (h : ExactAdd R) {cs : List (Int × Int × R)}
    (ha : IsAdjacency n (fun i j => ∃ v, (i, j, v) ∈ cs) sp nb) (hw : HasWeights n cs sp nb w)
    (hlt : ∀ c ∈ cs, 0 ≤ c.1 ∧ c.1 < n) :
    ((visited n fun r => (rowOf sp nb r).zip (rowOf sp w r)).map (fun x => x.2.2)).foldl
        Arith.add Arith.zero
      = (cs.map fun c => c.2.2).foldl Arith.add Arith.zero := by
  have hnd : (pairsOf n sp nb).Nodup := (pairsOf_sorted ha).imp (by
    rintro a b (h | ⟨_, h⟩) rfl <;> omega)
  have hp := perm_flatMap_filter (fun c : Int × Int × R => (c.1.toNat, c.2.1)) (pairsOf n sp nb) hnd cs (by
    intro c hc
    rw [mem_pairsOf ha]
    have := hlt c hc
    refine ⟨by omega, c.2.2, ?_⟩
    rw [show ((c.1.toNat : Nat) : Int) = c.1 by omega]; exact hc)
  have hp' := hp.map (fun c => c.2.2)
  rw [← ExactAdd.foldl_perm h hp', List.map_flatMap, ExactAdd.foldl_flatMap h]
  congr 1
  rw [← visited_pairs ha hw.size, List.map_map]
  apply List.map_congr_left
  intro x hx
  rw [visited_value ha hw x hx]
  simp only [Function.comp_def, weightsOf]
  congr 2
  apply List.filter_congr
  intro c hc
  have := hlt c hc
  rw [Bool.eq_iff_iff]
  simp only [Bool.and_eq_true, beq_iff_eq, decide_eq_true_eq, Prod.mk.injEq]
  omega

end rows
end Verif
