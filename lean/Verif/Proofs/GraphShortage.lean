/-
What the lists of an `AssembledConnections` object hold after calls that ran out of memory.
-/
import Verif.Spec.GraphShortage
import Verif.Proofs.GraphIter

namespace Verif.GraphShortage
open Spec

variable {R : Type} [Arith R]

omit [Arith R] in
theorem freshWith_append (cs : List (Conn R)) (c : Conn R) : freshWith (cs ++ [c]) = addOne (freshWith cs) c := by
  unfold freshWith addTo; rw [List.foldl_append]; rfl

omit [Arith R] in
theorem addOne_csr (g : AssembledConnections R) (c : Conn R) : (addOne g c).csr = g.csr := by
  unfold addOne; split <;> rfl

omit [Arith R] in
theorem addOne_conns {g g' : AssembledConnections R} (h : g.conns = g'.conns) (c : Conn R) :
    (addOne g c).conns = (addOne g' c).conns := by
  unfold addOne
  split
  · show g.conns.add _ _ = g'.conns.add _ _; rw [h]
  · show g.conns.addW _ _ _ = g'.conns.addW _ _ _; rw [h]

omit [Arith R] in
theorem addOne_lengths (g : AssembledConnections R) (c : Conn R) :
    (addOne g c).conns.i.length = g.conns.i.length + 1 ∧ (addOne g c).conns.j.length = g.conns.j.length + 1 ∧
    (addOne g c).conns.v.length = g.conns.v.length + (if c.2.2.isSome then 1 else 0) := by
  unfold addOne
  split
  · rename_i h
    simp [AssembledConnections.addConnection, Connections.add, h]
  · rename_i h
    simp [AssembledConnections.addConnectionW, Connections.addW, Connections.add, h]

theorem assemble_noThrow_weights {g : CSR R} {c : Connections R} (h : c.isWeighted = false) {e : Exc} :
    g.applyWeights c ≠ .throw e := by
  unfold CSR.applyWeights; rw [h]; nofun

omit [Arith R] in
theorem extendRows_noThrow {g : CSR R} {n : Nat} {e : Exc} : g.extendRows n ≠ .throw e := by
  unfold CSR.extendRows
  split
  · intro h
    unfold rd at h
    split at h <;> simp [bind, Res.bind, pure] at h
  · nofun

/-- A `compress` that throws keeps the list and, for an unweighted list, the weights. -/
theorem rejected_keeps {g g' : AssembledConnections R} {n : Nat} {e : Exc} (h : g.compressStep n = (g', .throw e)) :
    g'.conns = g.conns ∧ (g.conns.isWeighted = false → g'.csr.sa = g.csr.sa) := by
  unfold AssembledConnections.compressStep at h
  split at h
  · cases h; exact ⟨rfl, fun _ => rfl⟩
  · unfold CSR.createStep at h
    by_cases hb : (!g.conns.isEmpty && decide (n ≤ sizeOfInt g.conns.maxI)) = true
    · rw [if_pos hb] at h
      simp only at h
      cases h; exact ⟨rfl, fun _ => rfl⟩
    · rw [if_neg hb] at h
      generalize ((CSR.assemble g.csr g.conns).bind CSR.sort).bind CSR.condenseDuplicates = r at h
      cases r with
      | ok g1 =>
        simp only at h
        cases hw : g1.applyWeights g.conns with
        | ok g2 =>
          rw [hw] at h
          simp only at h
          cases hx : g2.extendRows n with
          | ok g3 => rw [hx] at h; simp at h
          | throw e => exact absurd hx extendRows_noThrow
          | ub u => rw [hx] at h; simp at h
          | diverge => rw [hx] at h; simp at h
        | throw e' =>
          rw [hw] at h
          simp only [Prod.mk.injEq] at h
          obtain ⟨rfl, _⟩ := h
          exact ⟨rfl, fun h => absurd hw (assemble_noThrow_weights h)⟩
        | ub u => rw [hw] at h; simp at h
        | diverge => rw [hw] at h; simp at h
      | throw e' =>
        simp only [Prod.mk.injEq] at h
        obtain ⟨rfl, _⟩ := h
        exact ⟨rfl, fun _ => rfl⟩
      | ub u => simp at h
      | diverge => simp at h

/-- The lists after a history. -/
structure Lists (es : List (GraphEvent R)) (g : AssembledConnections R) : Prop where
  form : g.conns.j.length < g.conns.i.length ∨ ∃ cs, Kept es cs ∧ g.conns = (freshWith cs).conns
  weights : g.conns.v = [] → g.csr.sa = []
  weight_le : g.conns.v.length ≤ g.conns.j.length
  column_le : g.conns.j.length ≤ g.conns.i.length

theorem lists {es : List (GraphEvent R)} {g : AssembledConnections R} (h : GraphAfter {} es g) : Lists es g := by
  induction h with
  | start => exact ⟨.inr ⟨[], .nil, rfl⟩, fun _ => rfl, le_refl _, le_refl _⟩
  | @added es g c _ ih =>
    obtain ⟨l1, l2, l3⟩ := addOne_lengths g c
    refine ⟨?_, fun hv => ?_, ?_, ?_⟩
    · rcases ih.form with h | ⟨cs, hk, h⟩
      · left; omega
      · right
        exact ⟨_, .added c hk, by rw [freshWith_append]; exact addOne_conns h c⟩
    · rw [addOne_csr]
      refine ih.weights (List.eq_nil_iff_length_eq_zero.mpr ?_)
      rw [List.eq_nil_iff_length_eq_zero] at hv; omega
    · have := ih.weight_le; rw [l2, l3]; split <;> omega
    · have := ih.column_le; omega
  | @notAdded es g g' c _ hr ih =>
    obtain ⟨i, j, v⟩ := c
    obtain ⟨hr⟩ := hr
    have h1 := ih.weight_le
    have h2 := ih.column_le
    cases hr with
    | row =>
      refine ⟨?_, ih.weights, h1, h2⟩
      rcases ih.form with h | ⟨cs, hk, h⟩
      · exact .inl h
      · exact .inr ⟨cs, .dropped _ hk, h⟩
    | column => exact ⟨.inl (by simp only [List.length_append, List.length_cons, List.length_nil]; omega), ih.weights, h1, by simp; omega⟩
    | weight =>
      rename_i v
      refine ⟨?_, ih.weights, by simp [Connections.add]; omega, by simp [Connections.add]; omega⟩
      rcases ih.form with h | ⟨cs, hk, h⟩
      · left; simp [Connections.add]; omega
      · right
        refine ⟨_, .unweighted i j v hk, ?_⟩
        rw [freshWith_append]
        show g.conns.add i j = (freshWith cs).conns.add i j
        rw [h]
  | @notCompressed es g g' n _ hr ih =>
    obtain ⟨_, csr, hw⟩ := hr
    refine ⟨?_, fun hv => ?_, ih.weight_le, ih.column_le⟩
    · rcases ih.form with h | ⟨cs, hk, h⟩
      · exact .inl h
      · exact .inr ⟨cs, .notCompressed n hk, h⟩
    · have hv : g.conns.v = [] := hv
      show csr.sa = []
      rw [hw (by unfold Connections.isWeighted; rw [hv]; rfl)]
      exact ih.weights hv
  | @rejected es g g' n e _ hr ih =>
    obtain ⟨h1, h2⟩ := rejected_keeps hr
    refine ⟨?_, fun hv => ?_, by rw [h1]; exact ih.weight_le, by rw [h1]; exact ih.column_le⟩
    · rw [h1]
      rcases ih.form with h | ⟨cs, hk, h⟩
      · exact .inl h
      · exact .inr ⟨cs, .rejected n hk, h⟩
    · rw [h1] at hv
      rw [h2 (by unfold Connections.isWeighted; rw [hv]; rfl)]
      exact ih.weights hv

omit [Arith R] in
/-- What is kept besides the added connections has no weight. -/
theorem kept_form {es : List (GraphEvent R)} {cs : List (Conn R)} (h : Kept es cs) :
    (addedConns es).Sublist cs ∧ (cs = addedConns es ∨ ∃ c ∈ cs, c.2.2.isNone) ∧
    ∀ c ∈ cs, ∃ v, .added (c.1, c.2.1, v) ∈ es ∨ .notAdded (c.1, c.2.1, v) ∈ es := by
  have app : ∀ (es : List (GraphEvent R)) e, addedConns (es ++ [e]) = addedConns es ++ addedConns [e] := by
    intro es e; unfold addedConns; rw [List.filterMap_append]
  induction h with
  | nil => exact ⟨.slnil, .inl rfl, nofun⟩
  | added c _ ih =>
    obtain ⟨h1, h2, h3⟩ := ih
    rw [app]
    refine ⟨List.Sublist.append h1 (.refl _), ?_, ?_⟩
    · rcases h2 with rfl | ⟨x, hx, hn⟩
      · exact .inl rfl
      · exact .inr ⟨x, by simp [hx], hn⟩
    · intro x hx
      rw [List.mem_append, List.mem_singleton] at hx
      rcases hx with hx | rfl
      · obtain ⟨v, hv⟩ := h3 x hx
        exact ⟨v, by simp only [List.mem_append]; tauto⟩
      · exact ⟨x.2.2, by simp⟩
  | dropped c _ ih =>
    obtain ⟨h1, h2, h3⟩ := ih
    rw [app]
    refine ⟨by simpa [addedConns] using h1, by simpa [addedConns] using h2, fun x hx => ?_⟩
    obtain ⟨v, hv⟩ := h3 x hx
    exact ⟨v, by simp only [List.mem_append]; tauto⟩
  | unweighted i j w _ ih =>
    obtain ⟨h1, h2, h3⟩ := ih
    rw [app]
    refine ⟨by simpa [addedConns] using h1.trans (List.sublist_append_left _ _), .inr ⟨(i, j, none), by simp, rfl⟩, fun x hx => ?_⟩
    rw [List.mem_append, List.mem_singleton] at hx
    rcases hx with hx | rfl
    · obtain ⟨v, hv⟩ := h3 x hx
      exact ⟨v, by simp only [List.mem_append]; tauto⟩
    · exact ⟨some w, by simp⟩
  | notCompressed n _ ih =>
    obtain ⟨h1, h2, h3⟩ := ih
    rw [app]
    refine ⟨by simpa [addedConns] using h1, by simpa [addedConns] using h2, fun x hx => ?_⟩
    obtain ⟨v, hv⟩ := h3 x hx
    exact ⟨v, by simp only [List.mem_append]; tauto⟩
  | rejected n _ ih =>
    obtain ⟨h1, h2, h3⟩ := ih
    rw [app]
    refine ⟨by simpa [addedConns] using h1, by simpa [addedConns] using h2, fun x hx => ?_⟩
    obtain ⟨v, hv⟩ := h3 x hx
    exact ⟨v, by simp only [List.mem_append]; tauto⟩

theorem compress_throw {g : AssembledConnections R} {n : Nat} {e : Exc} {g' : AssembledConnections R}
    (h : g.compressStep n = (g', .throw e)) : g.compress n = .throw e := by
  unfold AssembledConnections.compressStep at h
  unfold AssembledConnections.compress
  split at h
  · rename_i hv
    rw [if_pos hv]
    cases h; rfl
  · rename_i hv
    rw [if_neg hv]
    unfold CSR.createStep at h
    unfold CSR.create
    by_cases hc : (!g.conns.isEmpty && decide (n ≤ sizeOfInt g.conns.maxI)) = true
    · rw [if_pos hc] at h ⊢
      cases h; rfl
    · simp only [hc, Bool.false_eq_true, if_false] at h ⊢
      cases h1 : CSR.assemble g.csr g.conns with
      | ok g1 =>
        cases h2 : CSR.sort g1 with
        | ok g2 =>
          cases h3 : CSR.condenseDuplicates g2 with
          | ok g3 =>
            cases h4 : CSR.applyWeights g3 g.conns with
            | ok g4 =>
              cases h5 : CSR.extendRows g4 n with
              | ok g5 => simp [h1, h2, h3, h4, h5] at h
              | _ => simp [h1, h2, h3, h4, h5] at h; try simp [h2, h3, h4, h5, h]
            | _ => simp [h1, h2, h3, h4] at h; try simp [h2, h3, h4, h]
          | _ => simp [h1, h2, h3] at h; try simp [h2, h3, h]
        | _ => simp [h1, h2] at h; try simp [h2, h]
      | _ => simp [h1] at h; try simp [h]

/-- The result of `compress` depends on the list only, and on the old weights if the list has none. -/
theorem contents_eq {g : AssembledConnections R} {cs : List (Conn R)} (h : g.conns = (freshWith cs).conns)
    (hsa : g.conns.v = [] → g.csr.sa = []) {n : Nat} (hn : n < 18446744073709551616) (hv : ∀ c ∈ cs, ValidConn c) :
    contents (g.compress n) = contents ((freshWith cs).compress n) ∧ (Mixed cs → g.compress n = .throw .logicError) := by
  have ha := addTo_conns ({ conns := {}, csr := g.csr } : AssembledConnections R) cs
  have hb := addTo_conns ({} : AssembledConnections R) cs
  have hg : g = addTo ({ conns := {}, csr := g.csr } : AssembledConnections R) cs := by
    obtain ⟨a0, a1, a2, a3, a4, a5⟩ := ha
    obtain ⟨b0, b1, b2, b3, b4, b5⟩ := hb
    have e : (addTo ({ conns := {}, csr := g.csr } : AssembledConnections R) cs).conns = g.conns := by
      rw [h]
      show _ = (addTo {} cs).conns
      rw [show (addTo ({} : AssembledConnections R) cs).conns = ⟨_, _, _, _, _⟩ from rfl]
      rw [b1, b2, b3, b4, b5, ← a1, ← a2, ← a3, ← a4, ← a5]
    have ext : ∀ x y : AssembledConnections R, x.conns = y.conns → x.csr = y.csr → x = y := by
      rintro ⟨⟩ ⟨⟩ h1 h2; cases h1; cases h2; rfl
    exact ext _ _ e.symm a0.symm
  have hr : ∀ c ∈ cs, (-2147483648 ≤ c.1 ∧ c.1 ≤ 2147483647) ∧
      (-2147483648 ≤ c.2.1 ∧ c.2.1 ≤ 2147483647) := by
    intro c hc; have := hv c hc; unfold ValidConn ValidIndex at this; omega
  have o1 := compress_outcome ({ conns := {}, csr := g.csr } : AssembledConnections R) cs n hn rfl rfl rfl
    ⟨by show (-1 : Int) ≤ -1; omega, by show (-1 : Int) < _; decide⟩ ⟨by show (-1 : Int) ≤ -1; omega, by show (-1 : Int) < _; decide⟩ hr
  have o2 := compress_outcome ({} : AssembledConnections R) cs n hn rfl rfl rfl
    ⟨by show (-1 : Int) ≤ -1; omega, by show (-1 : Int) < _; decide⟩ ⟨by show (-1 : Int) ≤ -1; omega, by show (-1 : Int) < _; decide⟩ hr
  rw [← hg] at o1
  obtain ⟨p1, p2, _, p4⟩ := o1
  obtain ⟨q1, q2, _, q4⟩ := o2
  refine ⟨?_, fun hm => compress_throw (p1 hm)⟩
  by_cases hm : Mixed cs
  · rw [compress_throw (p1 hm), show (freshWith cs).compress n = _ from compress_throw (q1 hm)]
  · by_cases hlt : ∀ c ∈ cs, c.1 < (n : Int)
    · obtain ⟨g1, s1, _, _, _, m1, _, i1, u1, w1⟩ := p4 hm hlt (fun _ => by show (-1 : Int) < _; omega) hv
      obtain ⟨g2, s2, _, _, _, m2, _, i2, u2, w2⟩ := q4 hm hlt (fun _ => by show (-1 : Int) < _; omega) hv
      have hmax : g.conns.maxI = (addTo ({} : AssembledConnections R) cs).conns.maxI := by rw [h]; rfl
      rw [hmax] at i1 w1
      rw [compress_of_step_ok s1, show (freshWith cs).compress n = _ from compress_of_step_ok s2]
      obtain ⟨e1, e2⟩ := i1.unique i2
      have e3 : g1.connectionWeight = g2.connectionWeight := by
        by_cases hw : ∀ c ∈ cs, c.2.2.isNone
        · rw [u1 hw, u2 hw]
          refine hsa ?_
          rw [h]
          show (addTo {} cs).conns.v = []
          rw [hb.2.2.2.1, List.nil_append, List.filterMap_eq_nil_iff]
          intro c hc; exact Option.isNone_iff_eq_none.mp (hw c hc)
        · push Not at hw
          obtain ⟨c, hc, hcw⟩ := hw
          have hsome : ∀ c ∈ cs, c.2.2.isSome := by
            intro d hd
            by_contra hd'
            exact hm ⟨⟨c, hc, by simpa [Option.isSome_iff_ne_none] using hcw⟩, d, hd, by simpa using hd'⟩
          have hcs : cs = weighted (cs.filterMap fun c => c.2.2.map fun w => (c.1, c.2.1, w)) := by
            clear * - hsome
            induction cs with
            | nil => rfl
            | cons c l ih =>
              obtain ⟨i, j, w⟩ := c
              cases w with
              | none => have := hsome (i, j, none) (by simp); simp at this
              | some w =>
                simp only [weighted] at ih ⊢
                simp only [List.filterMap_cons, Option.map_some, List.map_cons, List.cons.injEq, true_and]
                exact ih fun c hc => hsome c (by simp [hc])
          have hne : (cs.filterMap fun c => c.2.2.map fun w => (c.1, c.2.1, w)) ≠ [] := by
            intro e; rw [e] at hcs; rw [hcs] at hc; cases hc
          have x1 := w1 _ hcs hne
          have x2 := w2 _ hcs hne
          rw [← e1, ← e2] at x2
          exact x1.unique i1 x2 fun _ _ => rfl
      show Res.ok (_, _, _) = Res.ok (_, _, _)
      rw [e1, e2, e3]
    · push Not at hlt
      obtain ⟨c, hc, hcn⟩ := hlt
      have hne : cs ≠ [] := List.ne_nil_of_mem hc
      rw [compress_throw (p2 hm hne (.inl ⟨c, hc, hcn⟩)),
        show (freshWith cs).compress n = _ from compress_throw (q2 hm hne (.inl ⟨c, hc, hcn⟩))]

theorem compress_invalid {g : AssembledConnections R} {n : Nat} (h : g.conns.isValid = false) :
    g.compress n = .throw .logicError := by
  unfold AssembledConnections.compress; rw [h]; rfl

omit [Arith R] in
theorem isValid_false {c : Connections R} (h : c.j.length ≤ c.i.length) (hv : c.v.length ≤ c.j.length) :
    c.isValid = false ↔ c.j.length < c.i.length ∨ (c.v ≠ [] ∧ c.v.length < c.i.length) := by
  unfold Connections.isValid
  rw [Bool.and_eq_false_iff, Bool.or_eq_false_iff]
  simp only [beq_eq_false_iff_ne, List.isEmpty_eq_false_iff]
  constructor
  · rintro (h1 | ⟨h1, h2⟩)
    · left; omega
    · exact .inr ⟨h1, by omega⟩
  · rintro (h1 | ⟨h1, h2⟩)
    · left; omega
    · exact .inr ⟨h1, by omega⟩

/-- An invalid list stays invalid. -/
theorem stays_invalid {g₀ g : AssembledConnections R} {es : List (GraphEvent R)} (h : GraphAfter g₀ es g)
    (h1 : g₀.conns.v.length ≤ g₀.conns.j.length) (h2 : g₀.conns.j.length ≤ g₀.conns.i.length)
    (hv : g₀.conns.isValid = false) :
    g.conns.v.length ≤ g.conns.j.length ∧ g.conns.j.length ≤ g.conns.i.length ∧ g.conns.isValid = false := by
  induction h with
  | start => exact ⟨h1, h2, hv⟩
  | @added es g c _ ih =>
    obtain ⟨i1, i2, i3⟩ := ih
    obtain ⟨l1, l2, l3⟩ := addOne_lengths g c
    have k1 : (addOne g c).conns.v.length ≤ (addOne g c).conns.j.length := by rw [l2, l3]; split <;> omega
    refine ⟨k1, by omega, (isValid_false (by omega) k1).mpr ?_⟩
    rcases (isValid_false i2 i1).mp i3 with h | ⟨h, h'⟩
    · left; omega
    · refine .inr ⟨fun e => h ?_, by rw [l1, l3]; split <;> omega⟩
      rw [List.eq_nil_iff_length_eq_zero] at e ⊢; omega
  | @notAdded es g g' c _ hr ih =>
    obtain ⟨i1, i2, i3⟩ := ih
    obtain ⟨i, j, v⟩ := c
    obtain ⟨hr⟩ := hr
    cases hr with
    | row => exact ⟨i1, i2, i3⟩
    | column =>
      have k2 : g.conns.j.length < (g.conns.i ++ [i]).length := by simp; omega
      exact ⟨i1, k2.le, (isValid_false (c := { g.conns with i := g.conns.i ++ [i] }) k2.le i1).mpr (.inl k2)⟩
    | weight =>
      have k1 : (g.conns.add i j).v.length ≤ (g.conns.add i j).j.length := by simp [Connections.add]; omega
      have k2 : (g.conns.add i j).j.length ≤ (g.conns.add i j).i.length := by simp [Connections.add]; omega
      refine ⟨k1, k2, (isValid_false k2 k1).mpr ?_⟩
      rcases (isValid_false i2 i1).mp i3 with h | ⟨h, h'⟩
      · left; simp [Connections.add]; omega
      · exact .inr ⟨h, by simp [Connections.add]; omega⟩
  | notCompressed n _ hr ih =>
    obtain ⟨_, csr, _⟩ := hr
    exact ih
  | rejected _ hr ih =>
    rw [(rejected_keeps hr).1]; exact ih

end Verif.GraphShortage
