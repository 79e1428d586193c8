/- `compress` after arbitrary histories. -/
import Verif.Proofs.CreateUB
import Verif.Proofs.Adjacency
import Verif.Spec.GraphHistory

namespace Verif
open Spec
variable {R : Type}

theorem Spec.addTo_append (g : AssembledConnections R) (a b : List (Conn R)) :
    addTo g (a ++ b) = addTo (addTo g a) b := by simp [addTo]

/-- The pending connection list after a list of calls. -/
theorem addTo_conns (g : AssembledConnections R) (cs : List (Conn R)) :
    (addTo g cs).csr = g.csr ∧
    (addTo g cs).conns.i = g.conns.i ++ cs.map (fun c => c.1) ∧
    (addTo g cs).conns.j = g.conns.j ++ cs.map (fun c => c.2.1) ∧
    (addTo g cs).conns.v = g.conns.v ++ cs.filterMap (fun c => c.2.2) ∧
    (addTo g cs).conns.maxI = cs.foldl (fun m c => max m c.1) g.conns.maxI ∧
    (addTo g cs).conns.maxJ = cs.foldl (fun m c => max m c.2.1) g.conns.maxJ := by
  induction cs generalizing g with
  | nil => simp [addTo]
  | cons c cs ih =>
    obtain ⟨i, j, v⟩ := c
    have := ih (addOne g (i, j, v))
    simp only [addTo, List.foldl_cons] at this ⊢
    cases v with
    | none =>
      simp only [addOne, AssembledConnections.addConnection, Connections.add] at this ⊢
      simpa using this
    | some w =>
      simp only [addOne, AssembledConnections.addConnectionW, Connections.addW, Connections.add] at this ⊢
      simpa using this

theorem foldl_max_le {α : Type} (f : α → Int) (cs : List α) (m b : Int) :
    cs.foldl (fun m c => max m (f c)) m ≤ b ↔ m ≤ b ∧ ∀ c ∈ cs, f c ≤ b := by
  induction cs generalizing m with
  | nil => simp
  | cons c cs ih => simp [ih, and_assoc]

theorem le_foldl_max {α : Type} (f : α → Int) (cs : List α) (m : Int) :
    m ≤ cs.foldl (fun m c => max m (f c)) m ∧ ∀ c ∈ cs, f c ≤ cs.foldl (fun m c => max m (f c)) m :=
  (foldl_max_le f cs m _).mp (le_refl _)

/-- `Mixed` is what `isValid` rejects. -/
theorem isValid_iff (cs : List (Conn R)) (c : Connections R)
    (hi : c.i = cs.map (fun c => c.1)) (hj : c.j = cs.map (fun c => c.2.1))
    (hv : c.v = cs.filterMap (fun c => c.2.2)) : c.isValid = true ↔ ¬ Mixed cs := by
  have hlen : (cs.filterMap (fun c => c.2.2)).length = cs.length ↔ ∀ c ∈ cs, c.2.2.isSome := by
    rw [List.filterMap_length_eq_length]
  have hemp : cs.filterMap (fun c => c.2.2) = [] ↔ ∀ c ∈ cs, c.2.2.isNone := by
    simp [List.filterMap_eq_nil_iff]
  unfold Connections.isValid Mixed
  rw [hi, hj, hv]
  simp only [List.length_map, beq_self_eq_true, Bool.true_and, Bool.or_eq_true, List.isEmpty_iff,
    beq_iff_eq, hlen, hemp]
  constructor
  · rintro h ⟨⟨a, ha, ha'⟩, b, hb, hb'⟩
    rcases h with h | h
    · have := h a ha; cases hh : a.2.2 <;> simp_all
    · have := h b hb; cases hh : b.2.2 <;> simp_all
  · intro h
    by_contra hc
    rw [not_or] at hc
    simp only [not_forall] at hc
    obtain ⟨⟨a, ha, ha'⟩, b, hb, hb'⟩ := hc
    exact h ⟨⟨a, ha, by cases hh : a.2.2 <;> simp_all⟩, b, hb, by cases hh : b.2.2 <;> simp_all⟩

theorem not_mixed_weights {cs : List (Conn R)} (h : ¬ Mixed cs) :
    cs.filterMap (fun c => c.2.2) = [] ∨ (cs.filterMap (fun c => c.2.2)).length = cs.length := by
  by_cases h1 : ∃ c ∈ cs, c.2.2.isSome
  · right
    rw [List.filterMap_length_eq_length]
    intro a ha
    by_contra hc
    exact h ⟨h1, a, ha, by cases hh : a.2.2 <;> simp_all⟩
  · left
    rw [List.filterMap_eq_nil_iff]
    intro a ha
    by_contra hc
    exact h1 ⟨a, ha, by cases hh : a.2.2 <;> simp_all⟩

variable [Arith R]

theorem CSR.createStep_eq_ok {g g' : CSR R} {c : Connections R} {n : Nat} (h : g.create c n = .ok g') :
    g.createStep c n = (g', .ok ()) := by
  unfold CSR.create at h
  unfold CSR.createStep
  split at h
  · simp at h
  · rename_i hc
    rw [if_neg hc]
    simp only [Res.bind_eq, Res.bind_ok_iff] at h
    obtain ⟨g1, h1, g2, h2, g3, h3, g4, h4, h5⟩ := h
    simp [h1, h2, h3, h4, h5]

theorem CSR.createStep_eq_ub {g : CSR R} {c : Connections R} {n : Nat} {u : UB}
    (h : g.create c n = .ub u) : g.createStep c n = (g, .ub u) := by
  unfold CSR.create at h
  unfold CSR.createStep
  split at h
  · simp at h
  · rename_i hc
    rw [if_neg hc]
    simp only [Res.bind_eq] at h
    cases h1 : assemble g c with
    | ok g1 =>
      rw [h1] at h; simp only [Res.ok_bind] at h ⊢
      cases h2 : sort g1 with
      | ok g2 =>
        rw [h2] at h; simp only [Res.ok_bind] at h ⊢
        cases h3 : condenseDuplicates g2 with
        | ok g3 =>
          rw [h3] at h; simp only [Res.ok_bind] at h ⊢
          cases h4 : applyWeights g3 c with
          | ok g4 => rw [h4] at h; simp only [Res.ok_bind] at h ⊢; simp [h]
          | _ => rw [h4] at h; simp at h; try simp [h]
        | _ => rw [h3] at h; simp at h; try simp [h]
      | _ => rw [h2] at h; simp at h; try simp [h]
    | _ => rw [h1] at h; simp at h; try simp [h]

/-- The four possible outcomes of `compress` after the calls `cs` on an object with an
    empty pending list, whatever the object was used for before. -/
theorem compress_outcome (g : AssembledConnections R) (cs : List (Conn R)) (n : Nat)
    (hn : n < 18446744073709551616)
    (hi : g.conns.i = []) (hj : g.conns.j = []) (hv : g.conns.v = [])
    (hI : -1 ≤ g.conns.maxI ∧ g.conns.maxI < INT_MAX) (hJ : -1 ≤ g.conns.maxJ ∧ g.conns.maxJ < INT_MAX)
    (hrange : ∀ c ∈ cs, (-2147483648 ≤ c.1 ∧ c.1 ≤ 2147483647) ∧
      (-2147483648 ≤ c.2.1 ∧ c.2.1 ≤ 2147483647)) :
    (Mixed cs → (addTo g cs).compressStep n = (addTo g cs, .throw .logicError)) ∧
    (¬ Mixed cs → cs ≠ [] →
      ((∃ c ∈ cs, (n : Int) ≤ c.1) ∨ (n : Int) ≤ g.conns.maxI ∨
        (g.conns.maxI = -1 ∧ ∀ c ∈ cs, c.1 < 0)) →
      (addTo g cs).compressStep n = (addTo g cs, .throw .invalidArgument)) ∧
    (¬ Mixed cs → (∀ c ∈ cs, c.1 < n) → (cs ≠ [] → g.conns.maxI < n) →
      (cs ≠ [] → g.conns.maxI = -1 → ∃ c ∈ cs, 0 ≤ c.1) → (∃ c ∈ cs, ¬ ValidConn c) →
      ∃ g' u, (addTo g cs).compressStep n = (g', .ub u) ∧
        ((∀ c ∈ cs, c.1 < INT_MAX ∧ c.2.1 < INT_MAX) → u = .outOfBounds)) ∧
    (¬ Mixed cs → (∀ c ∈ cs, c.1 < n) → (cs ≠ [] → g.conns.maxI < n) → (∀ c ∈ cs, ValidConn c) →
      ∃ g', (addTo g cs).compressStep n = (g', .ok ()) ∧
        g'.conns.i = [] ∧ g'.conns.j = [] ∧ g'.conns.v = [] ∧
        g'.conns.maxI = (addTo g cs).conns.maxI ∧ g'.conns.maxJ = (addTo g cs).conns.maxJ ∧
        IsAdjacency (max ((addTo g cs).conns.maxI + 1).toNat n)
          (fun i j => ∃ w, (i, j, w) ∈ cs) g'.startPointers g'.neighbourhood ∧
        ((∀ c ∈ cs, c.2.2.isNone) → g'.connectionWeight = g.connectionWeight) ∧
        (∀ ws, cs = weighted ws → ws ≠ [] →
          HasWeights (max ((addTo g cs).conns.maxI + 1).toNat n) ws
            g'.startPointers g'.neighbourhood g'.connectionWeight)) := by
  obtain ⟨a0, a1, a2, a3, a4, a5⟩ := addTo_conns g cs
  rw [hi, List.nil_append] at a1
  rw [hj, List.nil_append] at a2
  rw [hv, List.nil_append] at a3
  have hval := isValid_iff cs (addTo g cs).conns a1 a2 a3
  have hmI := le_foldl_max (fun c : Conn R => c.1) cs g.conns.maxI
  have hmJ := le_foldl_max (fun c : Conn R => c.2.1) cs g.conns.maxJ
  rw [← a4] at hmI
  rw [← a5] at hmJ
  have hmIle := fun b => foldl_max_le (fun c : Conn R => c.1) cs g.conns.maxI b
  have hmJle := fun b => foldl_max_le (fun c : Conn R => c.2.1) cs g.conns.maxJ b
  simp only [← a4] at hmIle
  simp only [← a5] at hmJle
  let es := cs.map fun c => (c.1, c.2.1)
  have hes1 : (addTo g cs).conns.i = es.map Prod.fst := by rw [a1]; simp [es, Function.comp_def]
  have hes2 : (addTo g cs).conns.j = es.map Prod.snd := by rw [a2]; simp [es, Function.comp_def]
  have hempty : (addTo g cs).conns.isEmpty = cs.isEmpty := by
    unfold Connections.isEmpty; rw [a1]; cases cs <;> simp
  have hImax : (addTo g cs).conns.maxI ≤ 2147483647 :=
    (hmIle _).mpr ⟨by unfold INT_MAX at hI; omega, fun c hc => (hrange c hc).1.2⟩
  refine ⟨?_, ?_, ?_, ?_⟩
  · intro hm
    unfold AssembledConnections.compressStep
    have : (addTo g cs).conns.isValid = false := by
      rw [Bool.eq_false_iff]; intro h; exact hval.mp h hm
    simp [this]
  · intro hm hne hbad
    unfold AssembledConnections.compressStep CSR.createStep
    have hchk : (!(addTo g cs).conns.isEmpty && decide (n ≤ sizeOfInt (addTo g cs).conns.maxI)) = true := by
      rw [hempty]
      have hc0 : cs.isEmpty = false := by cases cs <;> simp_all
      simp only [hc0, Bool.not_false, Bool.true_and, decide_eq_true_eq]
      by_cases hneg : (addTo g cs).conns.maxI < 0
      · have : (addTo g cs).conns.maxI = -1 := by have := hmI.1; omega
        rw [this]
        have : sizeOfInt (-1) = 18446744073709551615 := by decide
        omega
      · rw [sizeOfInt_nonneg (by omega) (by unfold INT_MAX; omega)]
        rcases hbad with ⟨c, hc, hcn⟩ | h | ⟨h1, h2⟩
        · have := hmI.2 c hc; omega
        · have := hmI.1; omega
        · have := (hmIle (-1)).mpr ⟨by omega, fun c hc => by have := h2 c hc; omega⟩
          omega
    simp [hval.mpr hm, hchk]
  · intro hm hlt hlt' hex ⟨c, hc, hcv⟩
    have hne : cs ≠ [] := by rintro rfl; simp at hc
    have hmn : (addTo g cs).conns.maxI < n := by
      have := (hmIle (n - 1)).mpr ⟨by have := hlt' hne; omega, fun c hc => by have := hlt c hc; omega⟩
      omega
    have hm0 : 0 ≤ (addTo g cs).conns.maxI := by
      by_cases h : g.conns.maxI = -1
      · obtain ⟨d, hd, hd0⟩ := hex hne h
        exact le_trans hd0 (hmI.2 d hd)
      · have := hmI.1; omega
    have hchk : (!(addTo g cs).conns.isEmpty && decide (n ≤ sizeOfInt (addTo g cs).conns.maxI)) = false := by
      rw [sizeOfInt_nonneg hm0 (by unfold INT_MAX; omega)]
      have : ¬ n ≤ (addTo g cs).conns.maxI.toNat := by omega
      simp [this]
    obtain ⟨u, hu, hoob⟩ := CSR.create_ub (addTo g cs).csr (addTo g cs).conns es n hes1 hes2
      (by omega) (by have := hmJ.1; omega)
      (by intro e he; obtain ⟨d, hd, rfl⟩ := List.mem_map.mp he
          exact ⟨(hrange d hd).1.1, (hrange d hd).2.1⟩)
      (by intro e he; obtain ⟨d, hd, rfl⟩ := List.mem_map.mp he
          exact ⟨hmI.2 d hd, hmJ.2 d hd⟩) hchk
      (by
        by_contra hno
        rw [not_or, not_or] at hno
        apply hcv
        have h1 := hmI.2 c hc
        have h2 := hmJ.2 c hc
        have h3 : ¬ (c.1 < 0 ∨ c.2.1 < 0) := fun h =>
          hno.1 ⟨(c.1, c.2.1), List.mem_map_of_mem hc, h⟩
        have h4 := hno.2
        unfold INT_MAX at h4
        unfold ValidConn ValidIndex
        omega)
    have := CSR.createStep_eq_ub hu
    refine ⟨{ addTo g cs with csr := (addTo g cs).csr }, u, ?_, fun hall => hoob ?_ ?_⟩
    · unfold AssembledConnections.compressStep
      simp [hval.mpr hm, this]
    · have := (hmIle (INT_MAX - 1)).mpr ⟨by omega, fun c hc => by have := (hall c hc).1; omega⟩
      omega
    · have := (hmJle (INT_MAX - 1)).mpr ⟨by omega, fun c hc => by have := (hall c hc).2; omega⟩
      omega
  · intro hm hlt hlt' hvalid
    have hvw := not_mixed_weights hm
    obtain ⟨csr', e, hadj, hsa, hw⟩ := CSR.create_spec (addTo g cs).csr (addTo g cs).conns es n
      hes1 hes2
      (by intro e he; obtain ⟨d, hd, rfl⟩ := List.mem_map.mp he
          exact ⟨(hvalid d hd).1.1, (hvalid d hd).2.1⟩)
      ⟨by have := hmI.1; omega, by
        have := (hmIle (INT_MAX - 1)).mpr ⟨by omega, fun c hc => by
          have := (hvalid c hc).1.2; unfold INT_MAX; omega⟩
        omega⟩
      ⟨by have := hmJ.1; omega, by
        have := (hmJle (INT_MAX - 1)).mpr ⟨by omega, fun c hc => by
          have := (hvalid c hc).2.2; unfold INT_MAX; omega⟩
        omega⟩
      (by intro e he; obtain ⟨d, hd, rfl⟩ := List.mem_map.mp he
          exact ⟨hmI.2 d hd, hmJ.2 d hd⟩)
      (by
        intro hne
        have hne' : cs ≠ [] := by rintro rfl; simp [es] at hne
        have := (hmIle (n - 1)).mpr ⟨by have := hlt' hne'; omega, fun c hc => by
          have := hlt c hc; omega⟩
        omega)
      (by rw [a3]; simpa [es] using hvw)
    have hst := CSR.createStep_eq_ok e
    refine ⟨{ conns := (addTo g cs).conns.clear, csr := csr' }, ?_, rfl, rfl, rfl, rfl, rfl, ?_, ?_, ?_⟩
    · unfold AssembledConnections.compressStep
      simp [hval.mpr hm, hst]
    · refine hadj.congr ?_
      intro r _ j
      simp only [es, List.mem_map, Prod.mk.injEq, Prod.exists]
      constructor
      · rintro ⟨a, b, w, h, rfl, rfl⟩; exact ⟨w, h⟩
      · rintro ⟨w, h⟩; exact ⟨_, _, w, h, rfl, rfl⟩
    · intro hnone
      have : (addTo g cs).conns.v = [] := by
        rw [a3, List.filterMap_eq_nil_iff]
        intro a ha; have := hnone a ha; simpa using this
      have := hsa this
      simp only [AssembledConnections.connectionWeight]
      rw [this, a0]
    · rintro ws rfl hne
      apply hw ws
      · simp [es, weighted, Function.comp_def]
      · rw [a3]; simp [weighted, List.filterMap_map]
      · rw [a3]; simp [weighted, List.filterMap_map]; exact hne

/-- `compress` and `compressStep` agree. -/
theorem compress_of_step_ok {g g' : AssembledConnections R} {n : Nat}
    (h : g.compressStep n = (g', .ok ())) : g.compress n = .ok g' := by
  unfold AssembledConnections.compressStep at h
  unfold AssembledConnections.compress
  split at h
  · simp at h
  · rename_i hv
    rw [if_neg hv]
    unfold CSR.createStep at h
    unfold CSR.create
    by_cases hc : (!g.conns.isEmpty && decide (n ≤ sizeOfInt g.conns.maxI)) = true
    · simp [hc] at h
    · simp only [hc, Bool.false_eq_true, if_false] at h ⊢
      cases h1 : CSR.assemble g.csr g.conns with
      | ok g1 =>
        cases h2 : CSR.sort g1 with
        | ok g2 =>
          cases h3 : CSR.condenseDuplicates g2 with
          | ok g3 =>
            cases h4 : CSR.applyWeights g3 g.conns with
            | ok g4 =>
              cases h5 : CSR.extendRows g4 n with
              | ok g5 => simp [h1, h2, h3, h4, h5] at h; simp [h2, h3, h4, h5, h]
              | _ => simp [h1, h2, h3, h4, h5] at h
            | _ => simp [h1, h2, h3, h4] at h
          | _ => simp [h1, h2, h3] at h
        | _ => simp [h1, h2] at h
      | _ => simp [h1] at h

end Verif
