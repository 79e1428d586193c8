/-
What `assignInflowFlux` stores.
-/
import Verif.Proofs.ToolboxHistory
import Verif.Proofs.OMap
import Verif.Proofs.SolverRefine
import Mathlib.Tactic.Linarith

namespace Verif.Toolbox
open Verif.Spec Verif.Solver

variable {R : Type} [Arith R]

/-- All entries of an inflow map, with their id. -/
def entries {R : Type} (m : InflowFlux R) : List (CellSetID × Int × R) :=
  m.flatMap fun set => set.2.map fun e => (set.1, e.1, e.2)

/-- Store a list of positive contributions. -/
def gather (l : List (CellSetID × Int × R)) : Split R := l.foldl (fun s e => s.put e.1 e.2.1 e.2.2) {}

/-- The entries that act as sources. -/
def positives (l : List (CellSetID × Int × R)) : List (CellSetID × Int × R) := l.filter fun e => Arith.lt Arith.zero e.2.2

/-- The entries that act as sinks, with positive sign. -/
def negatives (l : List (CellSetID × Int × R)) : List (CellSetID × Int × R) :=
  (l.filter fun e => !Arith.lt Arith.zero e.2.2 && Arith.lt e.2.2 Arith.zero).map fun e => (e.1, e.2.1, Arith.neg e.2.2)

theorem splitInflow_eq (m : InflowFlux R) :
    splitInflow m = (gather (positives (entries m)), gather (negatives (entries m))) := by
  have h1 : splitInflow m = (entries m).foldl (fun s e => splitEntry e.1 s (e.2.1, e.2.2)) ({}, {}) := by
    unfold splitInflow entries
    rw [List.foldl_flatMap]
    congr 1
    funext s set
    rw [List.foldl_map]
  rw [h1]
  suffices h : ∀ (l : List (CellSetID × Int × R)) (s : Split R × Split R),
      l.foldl (fun s e => splitEntry e.1 s (e.2.1, e.2.2)) s =
        ((positives l).foldl (fun s e => s.put e.1 e.2.1 e.2.2) s.1,
         (negatives l).foldl (fun s e => s.put e.1 e.2.1 e.2.2) s.2) from h _ _
  intro l
  induction l with
  | nil => intro s; rfl
  | cons e l ih =>
    intro s
    rw [List.foldl_cons, ih]
    unfold splitEntry positives negatives
    by_cases h1 : Arith.lt Arith.zero e.2.2 = true
    · simp [h1]
    · by_cases h2 : Arith.lt e.2.2 Arith.zero = true
      · simp [h1, h2]
      · simp [h1, h2]

theorem gather_append (l : List (CellSetID × Int × R)) (e : CellSetID × Int × R) :
    gather (l ++ [e]) = (gather l).put e.1 e.2.1 e.2.2 := by
  unfold gather; rw [List.foldl_append]; rfl

theorem gather_sorted (l : List (CellSetID × Int × R)) :
    OMap.Sorted (gather l).only ∧ OMap.Sorted (gather l).byId := by
  induction l using List.reverseRecOn with
  | nil => exact ⟨OMap.sorted_nil, OMap.sorted_nil⟩
  | append_singleton l e ih =>
    rw [gather_append]
    exact ⟨OMap.sorted_assign ih.1 _ _, OMap.sorted_assign ih.2 _ _⟩

theorem gather_only (l : List (CellSetID × Int × R)) (c : Int) :
    OMap.find (gather l).only c = if (∃ e ∈ l, e.2.1 = c)
      then some (((l.filter fun e => decide (e.2.1 = c)).map fun e => e.2.2).foldl Arith.add Arith.zero) else none := by
  induction l using List.reverseRecOn with
  | nil => simp [gather, OMap.find]
  | append_singleton l e ih =>
    rw [gather_append]
    unfold Split.put
    simp only
    rw [OMap.find_assign]
    by_cases h : e.2.1 = c
    · rw [if_pos h, if_pos ⟨e, by simp, h⟩, List.filter_append]
      simp only [List.filter_singleton, h, decide_true, if_true, List.map_append, List.map_singleton, List.foldl_append,
        List.foldl_cons, List.foldl_nil]
      unfold OMap.at_
      rw [ih]
      split
      · rfl
      · rename_i hno
        have : l.filter (fun e => decide (e.2.1 = c)) = [] := by
          rw [List.filter_eq_nil_iff]
          intro e' he' hd
          exact hno ⟨e', he', by simpa using hd⟩
        rw [this]; rfl
    · rw [if_neg h, ih, List.filter_append]
      simp only [List.filter_singleton, h, decide_false, cond_false, List.append_nil]
      have : (∃ e' ∈ l ++ [e], e'.2.1 = c) ↔ ∃ e' ∈ l, e'.2.1 = c := by
        constructor
        · rintro ⟨e', he', hd⟩
          rcases List.mem_append.mp he' with h' | h'
          · exact ⟨e', h', hd⟩
          · rw [List.mem_singleton.mp h'] at hd; exact absurd hd h
        · rintro ⟨e', he', hd⟩; exact ⟨e', List.mem_append_left _ he', hd⟩
      simp only [this]

theorem gather_byId (l : List (CellSetID × Int × R)) (i : CellSetID) :
    OMap.find (gather l).byId i = if (∃ e ∈ l, e.1 = i)
      then some ((l.filter fun e => decide (e.1 = i)).foldl (fun m e => OMap.insert m e.2.1 e.2.2) []) else none := by
  induction l using List.reverseRecOn with
  | nil => simp [gather, OMap.find]
  | append_singleton l e ih =>
    rw [gather_append]
    unfold Split.put
    simp only
    rw [OMap.find_assign]
    by_cases h : e.1 = i
    · rw [if_pos h, if_pos ⟨e, by simp, h⟩, List.filter_append]
      simp only [List.filter_singleton, h, decide_true, if_true, List.foldl_append,
        List.foldl_cons, List.foldl_nil]
      unfold OMap.at_
      rw [ih]
      split
      · rfl
      · rename_i hno
        have : l.filter (fun e => decide (e.1 = i)) = [] := by
          rw [List.filter_eq_nil_iff]
          intro e' he' hd
          exact hno ⟨e', he', by simpa using hd⟩
        rw [this]; rfl
    · rw [if_neg h, ih, List.filter_append]
      simp only [List.filter_singleton, h, decide_false, cond_false, List.append_nil]
      have : (∃ e' ∈ l ++ [e], e'.1 = i) ↔ ∃ e' ∈ l, e'.1 = i := by
        constructor
        · rintro ⟨e', he', hd⟩
          rcases List.mem_append.mp he' with h' | h'
          · exact ⟨e', h', hd⟩
          · rw [List.mem_singleton.mp h'] at hd; exact absurd hd h
        · rintro ⟨e', he', hd⟩; exact ⟨e', List.mem_append_left _ he', hd⟩
      simp only [this]

omit [Arith R] in
/-- Inserting entries in ascending order of the cells. -/
theorem insert_sorted (l : List (CellSetID × Int × R)) (h : l.Pairwise fun a b => a.2.1 < b.2.1) :
    l.foldl (fun m e => OMap.insert m e.2.1 e.2.2) ([] : OMap Int R) = l.map fun e => (e.2.1, e.2.2) := by
  induction l using List.reverseRecOn with
  | nil => rfl
  | append_singleton l e ih =>
    rw [List.pairwise_append] at h
    rw [List.foldl_append, ih h.1, List.foldl_cons, List.foldl_nil, List.map_append, List.map_singleton]
    apply OMap.insert_append
    intro x hx
    obtain ⟨y, hy, rfl⟩ := List.mem_map.mp hx
    exact h.2.2 y hy e (by simp)

/-- Cells present in the sum are those present in some id. -/
theorem gather_ids_cells (l : List (CellSetID × Int × R)) (i : CellSetID) :
    ∀ e ∈ OMap.at_ (gather l).byId i [], (OMap.find (gather l).only e.1).isSome := by
  intro e he
  unfold OMap.at_ at he
  rw [gather_byId] at he
  split at he
  · simp only [Option.getD_some] at he
    have key : ∀ (l' : List (CellSetID × Int × R)) (m : OMap Int R),
        e ∈ l'.foldl (fun m e => OMap.insert m e.2.1 e.2.2) m → e ∈ m ∨ ∃ x ∈ l', x.2.1 = e.1 := by
      intro l'
      induction l' with
      | nil => intro m h; exact Or.inl h
      | cons x l' ih =>
        intro m h
        rcases ih _ h with h | ⟨y, hy, e'⟩
        · change e ∈ OMap.insert m x.2.1 x.2.2 at h
          rw [OMap.insert_eq] at h
          split at h
          · exact Or.inl h
          · rcases OMap.mem_assign h with h | h
            · exact Or.inr ⟨x, by simp, by rw [h]⟩
            · exact Or.inl h
        · exact Or.inr ⟨y, by simp [hy], e'⟩
    rcases key _ _ he with h | ⟨x, hx, e'⟩
    · simp at h
    · rw [gather_only, if_pos ⟨x, (List.mem_filter.mp hx).1, e'⟩]; rfl
  · simp at he

/-! ### Exact values -/

section exact
variable {K : Type} [Field K] [LinearOrder K]

/-- Contributions `f` of the cells `cs` of the wells. -/
def contributions (wells : List (WellFlux K)) (cs : WellFlux K → List Nat) (f : WellFlux K → Nat → K) :
    List (CellSetID × Int × X K) :=
  wells.flatMap fun w => (cs w).map fun v : Nat => (w.id, (v : Int), X.fin (f w v))

theorem filter_cells (wells : List (WellFlux K)) (p : CellSetID × Int × X K → Bool) (q : WellFlux K → Nat → Bool)
    (cs : WellFlux K → List Nat) (f : WellFlux K → Nat → K)
    (h : ∀ w ∈ wells, ∀ v ∈ cs w, p (w.id, (v : Int), X.fin (f w v)) = q w v) :
    (contributions wells cs f).filter p = contributions wells (fun w => (cs w).filter (q w)) f := by
  unfold contributions
  rw [List.filter_flatMap]
  apply List.flatMap_congr
  intro w hw
  rw [List.filter_map]
  congr 1
  apply List.filter_congr
  intro v hv
  exact h w hw v hv

theorem positives_inflowMap (P : Problem K) :
    positives (entries P.inflowMap) = contributions P.wells posCells fun w => w.val := by
  have : entries P.inflowMap = contributions P.wells (fun w => w.cells) fun w => w.val := by
    unfold entries Problem.inflowMap contributions valuesOf
    rw [List.flatMap_map]
    apply List.flatMap_congr
    intro w _
    rw [List.map_map]; rfl
  rw [this]
  exact filter_cells P.wells _ (fun w v => decide (0 < w.val v)) _ _ (fun w _ v _ => by
    rw [X_zero, X_lt])

theorem negatives_inflowMap (P : Problem K) :
    negatives (entries P.inflowMap) = contributions P.wells negCells fun w v => - w.val v := by
  have : entries P.inflowMap = contributions P.wells (fun w => w.cells) fun w => w.val := by
    unfold entries Problem.inflowMap contributions valuesOf
    rw [List.flatMap_map]
    apply List.flatMap_congr
    intro w _
    rw [List.map_map]; rfl
  unfold negatives
  rw [this, filter_cells P.wells _ (fun w v => decide (w.val v < 0)) _ _ (fun w _ v _ => by
    rw [X_zero, X_lt, X_lt]
    by_cases h : w.val v < 0
    · simp [h, not_lt.mpr h.le]
    · simp [h])]
  unfold contributions
  rw [List.map_flatMap]
  apply List.flatMap_congr
  intro w _
  rw [List.map_map]; rfl

omit [LinearOrder K] in
theorem mem_contributions {wells : List (WellFlux K)} {cs : WellFlux K → List Nat} {f : WellFlux K → Nat → K}
    {e : CellSetID × Int × X K} :
    e ∈ contributions wells cs f ↔ ∃ w ∈ wells, ∃ v ∈ cs w, e = (w.id, (v : Int), X.fin (f w v)) := by
  unfold contributions
  simp only [List.mem_flatMap, List.mem_map]
  constructor
  · rintro ⟨w, hw, v, hv, rfl⟩; exact ⟨w, hw, v, hv, rfl⟩
  · rintro ⟨w, hw, v, hv, rfl⟩; exact ⟨w, hw, v, hv, rfl⟩

/-- The values stored for an id. -/
theorem contributions_byId {wells : List (WellFlux K)} (hid : wells.Pairwise fun a b => a.id < b.id)
    {cs : WellFlux K → List Nat} (hcs : ∀ w ∈ wells, (cs w).Pairwise (· < ·)) (f : WellFlux K → Nat → K)
    {w : WellFlux K} (hw : w ∈ wells) (hne : cs w ≠ []) :
    OMap.find (gather (contributions wells cs f)).byId w.id = some (valuesOf (cs w) (f w)) := by
  have hfil : (contributions wells cs f).filter (fun e => decide (e.1 = w.id))
      = (cs w).map fun v : Nat => (w.id, (v : Int), X.fin (f w v)) := by
    clear hcs hne
    induction wells with
    | nil => simp at hw
    | cons a l ih =>
      rw [List.pairwise_cons] at hid
      have e : contributions (a :: l) cs f
          = ((cs a).map fun v : Nat => (a.id, (v : Int), X.fin (f a v))) ++ contributions l cs f := by
        unfold contributions; rw [List.flatMap_cons]
      rw [e, List.filter_append]
      rcases List.mem_cons.mp hw with rfl | hw
      · have h1 : (contributions l cs f).filter (fun e => decide (e.1 = w.id)) = [] := by
          rw [List.filter_eq_nil_iff]
          intro x hx hd
          obtain ⟨w', hw', v, _, rfl⟩ := mem_contributions.mp hx
          simp only [decide_eq_true_eq] at hd
          have := hid.1 w' hw'
          rw [hd] at this
          exact lt_irrefl _ this
        rw [h1, List.append_nil, List.filter_eq_self]
        intro x hx
        obtain ⟨v, _, rfl⟩ := List.mem_map.mp hx
        simp
      · have h1 : ((cs a).map fun v : Nat => (a.id, (v : Int), X.fin (f a v))).filter (fun e => decide (e.1 = w.id)) = [] := by
          rw [List.filter_eq_nil_iff]
          intro x hx hd
          obtain ⟨v, _, rfl⟩ := List.mem_map.mp hx
          simp only [decide_eq_true_eq] at hd
          have := hid.1 w hw
          rw [hd] at this
          exact lt_irrefl _ this
        rw [h1, List.nil_append, ih hid.2 hw]
  obtain ⟨v, hv⟩ := List.exists_mem_of_ne_nil _ hne
  rw [gather_byId, if_pos ⟨_, mem_contributions.mpr ⟨w, hw, v, hv, rfl⟩, rfl⟩, hfil, insert_sorted]
  · rw [List.map_map]; rfl
  · rw [List.pairwise_map]
    exact (hcs w hw).imp fun h => by simpa using h

theorem contributions_byId_none {wells : List (WellFlux K)} {cs : WellFlux K → List Nat} {f : WellFlux K → Nat → K}
    {i : CellSetID} (h : ¬ ∃ w ∈ wells, w.id = i ∧ cs w ≠ []) :
    OMap.find (gather (contributions wells cs f)).byId i = none := by
  rw [gather_byId, if_neg]
  rintro ⟨e, he, rfl⟩
  obtain ⟨w, hw, v, hv, rfl⟩ := mem_contributions.mp he
  exact h ⟨w, hw, rfl, List.ne_nil_of_mem hv⟩

/-- The sum stored for a cell. -/
theorem contributions_only {wells : List (WellFlux K)} {cs : WellFlux K → List Nat}
    (hcs : ∀ w ∈ wells, (cs w).Nodup) (f : WellFlux K → Nat → K) (v : Nat) :
    ((((contributions wells cs f).filter fun e => decide (e.2.1 = (v : Int))).map fun e => e.2.2).foldl Arith.add Arith.zero)
      = X.fin (wells.map fun w => if v ∈ cs w then f w v else 0).sum := by
  have e1 : (contributions wells cs f).filter (fun e => decide (e.2.1 = (v : Int)))
      = contributions wells (fun w => (cs w).filter fun u => decide (u = v)) f :=
    filter_cells wells _ (fun _ u => decide (u = v)) cs f (fun w _ u _ => by simp)
  rw [e1, X_zero]
  clear e1
  suffices h : ∀ a : K, ((contributions wells (fun w => (cs w).filter fun u => decide (u = v)) f).map fun e => e.2.2).foldl
      Arith.add (X.fin a) = X.fin (a + (wells.map fun w => if v ∈ cs w then f w v else 0).sum) by
    have := h 0; rw [zero_add] at this; exact this
  induction wells with
  | nil => intro a; simp [contributions]
  | cons w l ih =>
    intro a
    have e : contributions (w :: l) (fun w => (cs w).filter fun u => decide (u = v)) f
        = (((cs w).filter fun u => decide (u = v)).map fun v : Nat => (w.id, (v : Int), X.fin (f w v)))
          ++ contributions l (fun w => (cs w).filter fun u => decide (u = v)) f := by
      unfold contributions; rw [List.flatMap_cons]
    rw [e, List.map_append, List.foldl_append, List.map_cons, List.sum_cons]
    have e2 : ((((cs w).filter fun u => decide (u = v)).map fun v : Nat => (w.id, (v : Int), X.fin (f w v))).map
        fun e => e.2.2).foldl Arith.add (X.fin a) = X.fin (a + if v ∈ cs w then f w v else 0) := by
      by_cases hv : v ∈ cs w
      · have : (cs w).filter (fun u => decide (u = v)) = [v] := by
          have hnd := hcs w (by simp)
          have hp : ∀ l : List Nat, l.Nodup → v ∈ l → l.filter (fun u => decide (u = v)) = [v] := by
            intro l
            induction l with
            | nil => simp
            | cons x l ih =>
              intro hn hm
              rw [List.nodup_cons] at hn
              by_cases hx : x = v
              · subst hx
                rw [List.filter_cons_of_pos (by simp)]
                congr 1
                rw [List.filter_eq_nil_iff]
                intro y hy hd
                simp only [decide_eq_true_eq] at hd
                exact hn.1 (hd ▸ hy)
              · rw [List.filter_cons_of_neg (by simpa using hx)]
                exact ih hn.2 ((List.mem_cons.mp hm).resolve_left fun h => hx h.symm)
          exact hp _ hnd hv
        rw [this, if_pos hv]; rfl
      · have : (cs w).filter (fun u => decide (u = v)) = [] := by
          rw [List.filter_eq_nil_iff]
          intro y hy hd
          simp only [decide_eq_true_eq] at hd
          exact hv (hd ▸ hy)
        rw [this, if_neg hv, add_zero]; rfl
    rw [e2, ih (fun w' hw' => hcs w' (by simp [hw'])), add_assoc]

end exact
end Verif.Toolbox
