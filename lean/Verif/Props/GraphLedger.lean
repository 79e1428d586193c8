/-
C92: what every history of calls on one graph object leaves.
-/
import Verif.Props.Graph
import Verif.Spec.GraphLedger

namespace Verif.Props
open Verif.Spec

variable {R : Type}

theorem weighted_weightsGiven {cs : List (Conn R)} (hm : ¬ Mixed cs) (h : weightsGiven cs ≠ []) :
    cs = weighted (weightsGiven cs) := by
  have hsome : ∀ c ∈ cs, c.2.2.isSome := by
    intro c hc
    by_contra hn
    refine hm ⟨?_, c, hc, by simpa using hn⟩
    obtain ⟨x, hx⟩ := List.exists_mem_of_ne_nil _ h
    obtain ⟨d, hd, e⟩ := List.mem_filterMap.mp hx
    refine ⟨d, hd, ?_⟩
    cases hv : d.2.2 with
    | none => rw [hv] at e; simp at e
    | some v => simp
  clear hm h
  induction cs with
  | nil => rfl
  | cons c cs ih =>
    obtain ⟨i, j, v⟩ := c
    have hv := hsome (i, j, v) (by simp)
    obtain ⟨w, rfl⟩ := Option.isSome_iff_exists.mp hv
    have := ih fun c hc => hsome c (by simp [hc])
    have e : weightsGiven ((i, j, some w) :: cs) = (i, j, w) :: weightsGiven cs := by simp [weightsGiven]
    rw [e]
    conv_lhs => rw [this]
    rfl

theorem weightsGiven_nil {cs : List (Conn R)} (h : weightsGiven cs = []) : ∀ c ∈ cs, c.2.2.isNone := by
  intro c hc
  by_contra hn
  obtain ⟨v, hv⟩ := Option.isSome_iff_exists.mp (by cases h : c.2.2 <;> simp_all : c.2.2.isSome = true)
  have : (c.1, c.2.1, v) ∈ weightsGiven cs := List.mem_filterMap.mpr ⟨c, hc, by rw [hv]; rfl⟩
  rw [h] at this
  cases this

theorem weightsGiven_weighted (ws : List (Int × Int × R)) : weightsGiven (weighted ws) = ws := by
  unfold weightsGiven weighted
  rw [List.filterMap_map]
  conv_rhs => rw [← List.filterMap_some (l := ws)]
  rfl

theorem mem_weighted {ws : List (Int × Int × R)} {i j : Int} :
    (∃ w, (i, j, w) ∈ weighted ws) ↔ ∃ w, (i, j, w) ∈ ws := by
  unfold weighted
  constructor
  · rintro ⟨w, h⟩
    obtain ⟨x, hx, e⟩ := List.mem_map.mp h
    obtain ⟨rfl, rfl, _⟩ := by simpa using e
    exact ⟨x.2.2, hx⟩
  · rintro ⟨w, h⟩
    exact ⟨some w, List.mem_map.mpr ⟨_, h, rfl⟩⟩

theorem rowsNeeded_eq (cs : List (Conn R)) (hv : ∀ c ∈ cs, 0 ≤ c.1) :
    (cs.foldl (fun m c => max m c.1) (-1) + 1).toNat = rowsNeeded cs := by
  suffices H : ∀ m : Int, -1 ≤ m → (cs.foldl (fun m c => max m c.1) m + 1).toNat
      = cs.foldl (fun m c => max m (c.1.toNat + 1)) (m + 1).toNat from H (-1) (le_refl _)
  induction cs with
  | nil => intro m _; rfl
  | cons c cs ih =>
    intro m hm
    have h0 := hv c (by simp)
    have e : (max m c.1 + 1).toNat = max (m + 1).toNat (c.1.toNat + 1) := by omega
    rw [List.foldl_cons, List.foldl_cons, ih (fun c hc => hv c (by simp [hc])) _ (by omega), e]

variable [Arith R]

/-- What the ledger and the object have in common in every history. -/
structure Agree (calls : List (GraphCall R)) (L : Ledger R) (g : AssembledConnections R) : Prop where
  all : L.all = connsOf calls
  pending : ∀ c ∈ L.pending, c ∈ connsOf calls
  object : ∃ g0, g = addTo g0 L.pending ∧ g0.conns.i = [] ∧ g0.conns.j = [] ∧ g0.conns.v = [] ∧
    -1 ≤ g0.conns.maxI ∧ -1 ≤ g0.conns.maxJ
  maxI : g.conns.maxI = (connsOf calls).foldl (fun m c => max m c.1) (-1)
  maxJ : g.conns.maxJ = (connsOf calls).foldl (fun m c => max m c.2.1) (-1)
  describes : L.Describes g

theorem Agree.compress {calls : List (GraphCall R)} {L : Ledger R} {g : AssembledConnections R} (h : Agree calls L g)
    (hv : ∀ c ∈ connsOf calls, ValidConn c) {n : Nat} (hn : n < 18446744073709551616) :
    (g.compressStep n).2 = L.outcome n ∧ (∀ e, L.outcome n = .throw e → (g.compressStep n).1 = g) ∧
      Agree (calls ++ [.compress n]) (L.next (.compress n)) (g.compressStep n).1 := by
  obtain ⟨g0, hg, hi, hj, hvs, hI, hJ⟩ := h.object
  have a := addTo_conns g0 L.pending
  rw [← hg] at a
  have lI := le_foldl_max (fun c : Conn R => c.1) L.pending g0.conns.maxI
  have lJ := le_foldl_max (fun c : Conn R => c.2.1) L.pending g0.conns.maxJ
  rw [← a.2.2.2.2.1] at lI
  rw [← a.2.2.2.2.2] at lJ
  have uI : g.conns.maxI ≤ INT_MAX - 1 := by
    rw [h.maxI]
    exact (foldl_max_le (fun c : Conn R => c.1) _ _ _).mpr
      ⟨by decide, fun c hc => by have := (hv c hc).1.2; unfold INT_MAX; omega⟩
  have uJ : g.conns.maxJ ≤ INT_MAX - 1 := by
    rw [h.maxJ]
    exact (foldl_max_le (fun c : Conn R => c.2.1) _ _ _).mpr
      ⟨by decide, fun c hc => by have := (hv c hc).2.2; unfold INT_MAX; omega⟩
  have hpv : ∀ c ∈ L.pending, ValidConn c := fun c hc => hv c (h.pending c hc)
  obtain ⟨o1, o2, _, o4⟩ := compress_outcome g0 L.pending n hn hi hj hvs ⟨hI, by omega⟩ ⟨hJ, by omega⟩ (fun c hc => by
    have := hpv c hc; unfold ValidConn ValidIndex at this; omega)
  rw [← hg] at o1 o2 o4
  have hc : connsOf (calls ++ [.compress n]) = connsOf calls := by simp [connsOf]
  have keep : ∀ e, L.outcome n = .throw e → g.compressStep n = (g, .throw e) →
      (g.compressStep n).2 = L.outcome n ∧ (∀ e, L.outcome n = .throw e → (g.compressStep n).1 = g) ∧
      Agree (calls ++ [.compress n]) (L.next (.compress n)) (g.compressStep n).1 := by
    intro e h1 h2
    have hL : L.next (.compress n) = L := by simp only [Ledger.next, h1]
    rw [h2, hL]
    exact ⟨h1.symm, fun _ _ => rfl, ⟨by rw [hc]; exact h.all, by rw [hc]; exact h.pending, h.object, by rw [hc]; exact h.maxI,
      by rw [hc]; exact h.maxJ, h.describes⟩⟩
  by_cases hm : Mixed L.pending
  · exact keep .logicError (by unfold Ledger.outcome; rw [if_pos hm]) (o1 hm)
  by_cases hbad : L.pending ≠ [] ∧ ∃ c ∈ L.all, (n : Int) ≤ c.1
  · refine keep .invalidArgument (by unfold Ledger.outcome; rw [if_neg hm, if_pos hbad]) (o2 hm hbad.1 ?_)
    obtain ⟨c, hc, hnc⟩ := hbad.2
    rw [h.all] at hc
    have h1 : c.1 ≤ g.conns.maxI := by
      rw [h.maxI]; exact (le_foldl_max (fun c : Conn R => c.1) (connsOf calls) (-1)).2 c hc
    by_contra hno
    push Not at hno
    have h2 : g.conns.maxI ≤ (n : Int) - 1 := by
      rw [a.2.2.2.2.1]
      exact (foldl_max_le (fun c : Conn R => c.1) _ _ _).mpr ⟨by omega, fun d hd => by have := hno.1 d hd; omega⟩
    omega
  · have hok : L.outcome n = .ok () := by unfold Ledger.outcome; rw [if_neg hm, if_neg hbad]
    have hlt : L.pending ≠ [] → g.conns.maxI < n := by
      intro hne
      have h1 : ∀ c ∈ connsOf calls, c.1 < (n : Int) := by
        intro c hc
        by_contra h'
        exact hbad ⟨hne, c, by rw [h.all]; exact hc, by omega⟩
      have : g.conns.maxI ≤ (n : Int) - 1 := by
        rw [h.maxI]
        exact (foldl_max_le (fun c : Conn R => c.1) _ _ _).mpr ⟨by omega, fun c hc => by have := h1 c hc; omega⟩
      omega
    have hrows : max (g.conns.maxI + 1).toNat n = max n (rowsNeeded L.all) := by
      rw [h.maxI, h.all, rowsNeeded_eq _ fun c hc => (hv c hc).1.1, max_comm]
    obtain ⟨g', e, e1, e2, e3, e4, e5, hadj, hw0, hw⟩ := o4 hm
      (fun c hc => by
        have := lI.2 c hc
        have := hlt (by rintro h0; rw [h0] at hc; cases hc)
        omega)
      (fun hne => by have := hlt hne; omega) hpv
    rw [hrows] at hadj hw
    rw [e]
    have hL : L.next (.compress n) =
        { all := L.all, pending := [], graph := some (max n (rowsNeeded L.all), L.pending),
          weights := if weightsGiven L.pending = [] then L.weights
            else some (max n (rowsNeeded L.all), weightsGiven L.pending) } := by
      simp only [Ledger.next, hok]
    rw [hL]
    refine ⟨hok.symm, fun e he => (by rw [hok] at he; cases he), ?_⟩
    refine ⟨by rw [hc]; exact h.all, fun c hc => (by cases hc), ⟨g', rfl, e1, e2, e3, by omega, by omega⟩,
      by rw [hc, e4]; exact h.maxI, by rw [hc, e5]; exact h.maxJ, ?_⟩
    have hcw : g.connectionWeight = g0.connectionWeight := by
      unfold AssembledConnections.connectionWeight; rw [a.1]
    constructor
    · intro h0; cases h0
    · intro m cs hs
      obtain ⟨rfl, rfl⟩ := by simpa using hs
      refine ⟨?_, hadj⟩
      unfold AssembledConnections.numRows
      rw [hadj.size]
      simp
    · intro m ws hs hne
      obtain ⟨rfl, h2⟩ := by simpa using hs
      exact hw ws h2 hne
    · intro h0
      dsimp only at h0
      split at h0
      · rename_i hnil
        rw [hw0 (weightsGiven_nil hnil), ← hcw]
        exact h.describes.no_weights h0
      · cases h0
    · intro m ws hs
      dsimp only at hs
      split at hs
      · rename_i hnil
        rw [hw0 (weightsGiven_nil hnil), ← hcw]
        exact h.describes.old_weights m ws hs
      · rename_i hne
        obtain ⟨rfl, rfl⟩ := by simpa using hs
        have heq := weighted_weightsGiven hm hne
        refine ⟨g'.startPointers, g'.neighbourhood, ?_, hw _ heq hne⟩
        have : (fun i j => ∃ w, (i, j, w) ∈ weightsGiven L.pending) = fun i j => ∃ w, (i, j, w) ∈ L.pending := by
          funext i j
          rw [← mem_weighted, ← heq]
        rw [this]
        exact hadj

theorem agree (calls : List (GraphCall R)) (hv : ∀ c ∈ connsOf calls, ValidConn c)
    (hn : ∀ n, GraphCall.compress n ∈ calls → n < 18446744073709551616) :
    Agree calls (ledger calls) (afterCalls calls) := by
  induction calls using List.reverseRecOn with
  | nil =>
    refine ⟨rfl, fun c hc => (by cases hc), ⟨{}, rfl, rfl, rfl, rfl, le_refl _, le_refl _⟩, rfl, rfl, ?_⟩
    constructor
    · intro _; exact ⟨rfl, rfl⟩
    · intro n cs h; cases h
    · intro n cs h; cases h
    · intro _; rfl
    · intro n cs h; cases h
  | append_singleton calls x ih =>
    have hsub : ∀ c ∈ connsOf calls, c ∈ connsOf (calls ++ [x]) := fun c hc => by
      unfold connsOf; rw [List.filterMap_append]; exact List.mem_append_left _ hc
    have h := ih (fun c hc => hv c (hsub c hc)) (fun n hc => hn n (List.mem_append_left _ hc))
    have eg : afterCalls (calls ++ [x]) = doCall (afterCalls calls) x := by simp [afterCalls]
    have eL : ledger (calls ++ [x]) = (ledger calls).next x := by simp [ledger]
    rw [eg, eL]
    cases x with
    | compress n =>
      exact (h.compress (fun c hc => hv c (hsub c hc)) (hn n (by simp))).2.2
    | add c =>
      have hc : connsOf (calls ++ [.add c]) = connsOf calls ++ [c] := by simp [connsOf]
      have em := afterCalls_max (calls ++ [.add c])
      rw [eg] at em
      obtain ⟨g0, hg, h1⟩ := h.object
      have hcsr : (addOne (afterCalls calls) c).csr = (afterCalls calls).csr := by
        unfold addOne; split <;> rfl
      refine ⟨?_, ?_, ⟨g0, ?_, h1⟩, em.1, em.2, ?_⟩
      · rw [hc]; show (ledger calls).all ++ [c] = _; rw [h.all]
      · intro d hd
        rw [hc]
        rcases List.mem_append.mp (show d ∈ (ledger calls).pending ++ [c] from hd) with hd | hd
        · exact List.mem_append_left _ (h.pending d hd)
        · exact List.mem_append_right _ hd
      · show addOne (afterCalls calls) c = addTo g0 ((ledger calls).pending ++ [c])
        rw [hg]; simp [addTo]
      · have D := h.describes
        have s1 : (addOne (afterCalls calls) c).startPointers = (afterCalls calls).startPointers := by
          unfold AssembledConnections.startPointers; rw [hcsr]
        have s2 : (addOne (afterCalls calls) c).neighbourhood = (afterCalls calls).neighbourhood := by
          unfold AssembledConnections.neighbourhood; rw [hcsr]
        have s3 : (addOne (afterCalls calls) c).connectionWeight = (afterCalls calls).connectionWeight := by
          unfold AssembledConnections.connectionWeight; rw [hcsr]
        have s4 : (addOne (afterCalls calls) c).numRows = (afterCalls calls).numRows := by
          unfold AssembledConnections.numRows; rw [s1]
        show Ledger.Describes _ (addOne (afterCalls calls) c)
        constructor
        · rw [s1, s2]; exact D.none_yet
        · rw [s1, s2, s4]; exact D.graph
        · rw [s1, s2, s3]; exact D.weights
        · rw [s3]; exact D.no_weights
        · rw [s3]; exact D.old_weights

/-- **C92** In every history of `addConnection()` and `compress()` calls with indices in range, also after exceptions, the next
    `compress(n)` ends as the ledger of the calls says, and the graph and the weights the object shows are those of the
    ledger. -/
theorem C92_every_history (calls : List (GraphCall R)) (hv : ∀ c ∈ connsOf calls, ValidConn c)
    (hn : ∀ m, GraphCall.compress m ∈ calls → m < 18446744073709551616) :
    (ledger calls).Describes (afterCalls calls) ∧
      ∀ n < 18446744073709551616, ((afterCalls calls).compressStep n).2 = (ledger calls).outcome n ∧
        ∀ e, ((afterCalls calls).compressStep n).2 = .throw e → ((afterCalls calls).compressStep n).1 = afterCalls calls := by
  have h := agree calls hv hn
  refine ⟨h.describes, fun n hn' => ?_⟩
  obtain ⟨h1, h2, _⟩ := h.compress hv hn'
  exact ⟨h1, fun e he => h2 e (by rw [← h1]; exact he)⟩

/-- A weighted connection from source 2, a rejected and a successful `compress()`, then a connection without weight: two
    rows are rejected because of the old connection, three are accepted and the old weight stays. -/
def exGraphCalls (a : R) : List (GraphCall R) :=
  [.add (2, 0, some a), .compress 2, .compress 3, .add (0, 1, none), .compress 2]

example (a : R) : (∀ c ∈ connsOf (exGraphCalls a), ValidConn c) ∧
    (∀ m, GraphCall.compress m ∈ exGraphCalls a → m < 18446744073709551616) ∧
    (ledger (exGraphCalls a)).outcome 2 = .throw .invalidArgument ∧ (ledger (exGraphCalls a)).outcome 3 = .ok () ∧
    (ledger (exGraphCalls a)).graph = some (3, [(2, 0, some a)]) ∧
    ledger (exGraphCalls a ++ [.compress 3]) =
      { all := [(2, 0, some a), (0, 1, none)], pending := [], graph := some (3, [(0, 1, none)]), weights := some (3, [(2, 0, a)]) } := by
  refine ⟨?_, ?_, ?_, ?_, ?_, ?_⟩
  · simp [exGraphCalls, connsOf, ValidConn, ValidIndex]
  · simp [exGraphCalls]
  all_goals simp [exGraphCalls, ledger, Ledger.next, Ledger.outcome, Mixed, rowsNeeded, weightsGiven]

end Verif.Props
