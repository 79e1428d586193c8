/-
C69: assembling a graph when memory runs out.
-/
import Verif.Proofs.GraphShortage
import Verif.Props.Graph

namespace Verif.Props
open Spec GraphShortage

variable {R : Type} [Arith R]

/-- All connections for which `addConnection` was called have valid indices. -/
def AllValid (es : List (GraphEvent R)) : Prop :=
  ∀ c, .added c ∈ es ∨ .notAdded c ∈ es → ValidConn c

omit [Arith R] in
private theorem kept_valid {es : List (GraphEvent R)} (hv : AllValid es) {cs : List (Conn R)} (h : Kept es cs) :
    ∀ c ∈ cs, ValidConn c := by
  intro c hc
  obtain ⟨v, h⟩ := (kept_form h).2.2 c hc
  have := hv (c.1, c.2.1, v) h
  exact this

/-- Calls on a new object may run out of memory anywhere.  Then `compress` throws `std::logic_error`, or it gives the graph of the
    connections whose `addConnection` returned, or, if none of these had a weight, possibly a graph without weights that has some of
    the other connections too. -/
theorem C69_outcomes {es : List (GraphEvent R)} {g : AssembledConnections R} (h : GraphAfter {} es g) (hv : AllValid es)
    (n : Nat) (hn : n < 18446744073709551616) :
    g.compress n = .throw .logicError ∨
    contents (g.compress n) = contents ((freshWith (addedConns es)).compress n) ∨
    ∃ cs, Kept es cs ∧ (∀ c ∈ cs, c.2.2 = none) ∧ contents (g.compress n) = contents ((freshWith cs).compress n) := by
  have hl := lists h
  rcases hl.form with hb | ⟨cs, hk, hc⟩
  · exact .inl (compress_invalid ((isValid_false hl.column_le hl.weight_le).mpr (.inl hb)))
  · obtain ⟨he, hm⟩ := contents_eq hc hl.weights hn (kept_valid hv hk)
    by_cases hmix : Mixed cs
    · exact .inl (hm hmix)
    · obtain ⟨_, h2, _⟩ := kept_form hk
      rcases h2 with rfl | ⟨c, hcm, hcn⟩
      · exact .inr (.inl he)
      · refine .inr (.inr ⟨cs, hk, fun d hd => ?_, he⟩)
        by_contra hd'
        exact hmix ⟨⟨d, hd, Option.isSome_iff_ne_none.mpr hd'⟩, c, hcm, hcn⟩

/-- If at least one `addConnection` with a weight returned: the graph of the connections whose `addConnection` returned, or
    `std::logic_error`; never another graph. -/
theorem C69_weighted {es : List (GraphEvent R)} {g : AssembledConnections R} (h : GraphAfter {} es g) (hv : AllValid es)
    (hw : ∃ c ∈ addedConns es, c.2.2 ≠ none) (n : Nat) (hn : n < 18446744073709551616) :
    g.compress n = .throw .logicError ∨
    contents (g.compress n) = contents ((freshWith (addedConns es)).compress n) := by
  rcases C69_outcomes h hv n hn with h | h | ⟨cs, hk, hc, _⟩
  · exact .inl h
  · exact .inr h
  · obtain ⟨c, hm, hne⟩ := hw
    exact absurd (hc c ((kept_form hk).1.subset hm)) hne

/-- A history that meets the hypotheses: both cases occur, depending on which vector ran out of memory. -/
example (a b : R) : let es : List (GraphEvent R) := [.added (0, 1, some a), .notCompressed 3, .notAdded (1, 2, some b), .added (1, 2, some b)]
    AllValid es ∧ (∃ c ∈ addedConns es, c.2.2 ≠ none) ∧
    (∃ g, GraphAfter {} es g ∧ g.compress 3 = .throw .logicError) ∧
    ∃ g, GraphAfter {} es g ∧ ∃ x, contents (g.compress 3) = .ok x := by
  refine ⟨?_, ⟨(0, 1, some a), List.mem_cons_self, by simp⟩, ⟨_, .added (es := [_, _, _]) _ (.notAdded (es := [_, _]) (.notCompressed (es := [_]) 3
    (.added (es := []) _ .start) (.intro rfl {} (fun _ => rfl))) (.intro (.column _ _ _))), rfl⟩,
    ⟨_, .added (es := [_, _, _]) _ (.notAdded (es := [_, _]) (.notCompressed (es := [_]) 3
    (.added (es := []) _ .start) (.intro rfl {} (fun _ => rfl))) (.intro (.row _ _ _))), ?_⟩⟩
  swap
  · have hv : ∀ c ∈ ([(0, 1, some a), (1, 2, some b)] : List (Conn R)), ValidConn c := by simp [ValidConn, ValidIndex]
    obtain ⟨x, hx, _⟩ := fresh_ok ([(0, 1, some a), (1, 2, some b)] : List (Conn R)) 3 (by omega) (by simp [Mixed]) hv (by simp)
    refine ⟨(x.startPointers, x.neighbourhood, x.connectionWeight), (contents_eq (cs := [(0, 1, some a), (1, 2, some b)]) rfl (fun _ => rfl) (by omega) hv).1.trans ?_⟩
    rw [compress_of_step_ok hx]
    rfl
  intro c hc
  simp at hc
  rcases hc with (rfl | rfl) | rfl <;> simp [ValidConn, ValidIndex]

/-- If no `addConnection` ran out of memory, `compress` may be repeated until it succeeds: it ends as on a new object. -/
theorem C69_compress_again {es : List (GraphEvent R)} {g : AssembledConnections R} (h : GraphAfter {} es g) (hv : AllValid es)
    (ha : ∀ c, .notAdded c ∉ es) (n : Nat) (hn : n < 18446744073709551616) :
    contents (g.compress n) = contents ((freshWith (addedConns es)).compress n) := by
  have key : g.conns = (freshWith (addedConns es)).conns ∧ (g.conns.v = [] → g.csr.sa = []) := by
    refine ⟨?_, (lists h).weights⟩
    clear hv
    have app : ∀ (es : List (GraphEvent R)) e, addedConns (es ++ [e]) = addedConns es ++ addedConns [e] := by
      intro es e; unfold addedConns; rw [List.filterMap_append]
    induction h with
    | start => rfl
    | added c _ ih =>
      rw [app]
      show _ = (freshWith (_ ++ [c])).conns
      rw [freshWith_append]
      exact addOne_conns (ih fun c h => ha c (by simp [h])) c
    | @notAdded es g g' c _ hr ih => exact absurd (by simp) (ha c)
    | notCompressed n _ hr ih =>
      obtain ⟨_, csr, _⟩ := hr
      rw [app, show addedConns [GraphEvent.notCompressed n] = ([] : List (Conn R)) from rfl, List.append_nil]
      exact ih fun c h => ha c (by simp [h])
    | @rejected es g g' n e _ hr ih =>
      rw [app, show addedConns [GraphEvent.rejected n] = ([] : List (Conn R)) from rfl, List.append_nil, (rejected_keeps hr).1]
      exact ih fun c h => ha c (by simp [h])
  refine (contents_eq key.1 key.2 hn fun c hc => hv c (.inl ?_)).1
  unfold addedConns at hc
  rw [List.mem_filterMap] at hc
  obtain ⟨e, he, hc⟩ := hc
  cases e <;> simp at hc
  subst hc; exact he

/-- Once `compress` has thrown `std::logic_error`, it does so for ever, whatever is called in between. -/
theorem C69_permanent {es es' : List (GraphEvent R)} {g g' : AssembledConnections R} (h : GraphAfter {} es g) (hv : AllValid es)
    {n : Nat} (hn : n < 18446744073709551616) (hl : g.compress n = .throw .logicError) (h' : GraphAfter g es' g') (n' : Nat) :
    g'.compress n' = .throw .logicError := by
  have hL := lists h
  have hinv : g.conns.isValid = false := by
    by_contra hval
    rcases hL.form with hb | ⟨cs, hk, hc⟩
    · exact hval ((isValid_false hL.column_le hL.weight_le).mpr (.inl hb))
    · have hval' := hval
      rw [Bool.not_eq_false] at hval'
      have hcn := addTo_conns ({} : AssembledConnections R) cs
      have hmix : ¬ Mixed cs := by
        refine (isValid_iff cs g.conns ?_ ?_ ?_).mp hval'
        · rw [hc]; exact hcn.2.1
        · rw [hc]; exact hcn.2.2.1
        · rw [hc]; exact hcn.2.2.2.1
      obtain ⟨he, _⟩ := contents_eq hc hL.weights hn (kept_valid hv hk)
      rw [hl] at he
      have hvc := kept_valid hv hk
      by_cases hlt : ∀ c ∈ cs, c.1 < (n : Int)
      · obtain ⟨x, hx, _⟩ := fresh_ok cs n hn hmix hvc hlt
        rw [compress_of_step_ok hx] at he
        cases he
      · push Not at hlt
        obtain ⟨c, hcm, hcn⟩ := hlt
        have hr : ∀ c ∈ cs, (-2147483648 ≤ c.1 ∧ c.1 ≤ 2147483647) ∧
            (-2147483648 ≤ c.2.1 ∧ c.2.1 ≤ 2147483647) := by
          intro c hc; have := hvc c hc; unfold ValidConn ValidIndex at this; omega
        have := (compress_outcome ({} : AssembledConnections R) cs n hn rfl rfl rfl
          ⟨by show (-1 : Int) ≤ -1; omega, by show (-1 : Int) < _; decide⟩
          ⟨by show (-1 : Int) ≤ -1; omega, by show (-1 : Int) < _; decide⟩ hr).2.1 hmix (List.ne_nil_of_mem hcm) (.inl ⟨c, hcm, hcn⟩)
        rw [show (freshWith cs).compress n = _ from compress_throw this] at he
        cases he
  exact compress_invalid (stays_invalid h' hL.weight_le hL.column_le hinv).2.2

/-- Hypotheses of `C69_compress_again` and, with the history continued, of `C69_permanent`. -/
example (a : R) : (∃ g, GraphAfter {} [GraphEvent.added (0, 1, some a), .notCompressed 3, .rejected 0, .notCompressed 2] g) ∧
    ∃ g g', GraphAfter {} [GraphEvent.added (0, 1, some a), .notAdded (1, 0, some a)] g ∧ g.compress 3 = .throw .logicError ∧
      GraphAfter g [.added (1, 0, some a), .rejected 3] g' := by
  refine ⟨⟨_, .notCompressed (es := [_, _, _]) 2 (.rejected (es := [_, _]) (e := .invalidArgument) (.notCompressed (es := [_]) 3
    (.added (es := []) _ .start) (.intro rfl {} (fun _ => rfl))) rfl) (.intro rfl { ia := [7] } nofun)⟩,
    _, _, .notAdded (es := [_]) (.added (es := []) _ .start) (.intro (.weight _ _ _)), rfl,
    .rejected (es := [_]) (e := .logicError) (.added (es := []) _ .start) rfl⟩

/-- The exception in `C69_outcomes` is real: when the very first `addConnection`, with a weight, runs out of memory storing the
    weight, the connection is in the graph, which has no weights. -/
theorem C69_weight_lost (w : R) :
    ∃ g, GraphAfter {} [.notAdded (0, 1, some w)] g ∧
      contents (g.compress 2) = .ok ([0, 1, 1], [1], []) := by
  refine ⟨_, .notAdded (es := []) .start (.intro (.weight 0 1 w)), ?_⟩
  rfl

end Verif.Props
