/-
C87: the text that `operator<<` writes can be read back.
-/
import Verif.Proofs.Text
import Verif.Props.Graph

namespace Verif.Props
open Verif.Spec Verif.Text Verif

/-- Format flags of a stream that prints decimal numbers, without signs or capitals that are not needed, and that is not in fixed
    format (libstdc++: `fixed` is bit 2, `hex` 3, `oct` 6, `showpos` 11, `uppercase` 14). -/
def Ordinary10 (flags : Nat) : Prop := ∀ b ∈ [2, 3, 6, 11, 14], flags.testBit b = false

theorem plain_of {flags : Nat} (h : Ordinary10 flags) : plainFlags (flags ||| 2 ^ 8) = true := by
  have h2 := h 2 (by simp)
  have h3 := h 3 (by simp)
  have h6 := h 6 (by simp)
  have h11 := h 11 (by simp)
  have h14 := h 14 (by simp)
  unfold plainFlags
  simp only [Nat.testBit_or, h2, h3, h6, h11, h14, Nat.testBit_two_pow]
  cases flags.testBit 8 <;> decide

/-- **C87** Whatever is in the stream, printing a compressed graph appends a text from which the connections can be read back:
    one line for each, and each weight is exactly the `double` nearest to the printed number.  (The sum of the weights that were
    given to a connection must be a number; it may be infinite.) -/
theorem C87_read_back (ws : List (Int × Int × Double)) (n : Nat) (hn : n ≤ INT_MAX)
    (hv : ∀ c ∈ ws, ValidIndex c.1 ∧ ValidIndex c.2.1) (hlt : ∀ c ∈ ws, c.1 < n)
    (hnan : ∀ c ∈ ws, (weightsOf ws c.1 c.2.1).foldl Arith.add Arith.zero ≠ Double.nan) (os : OStream Double)
    (hf : Ordinary10 os.flags) {before : List Char} (hb : linesText os.out = some before) :
    ∃ g L os' text, (freshWith (weighted ws)).compress n = .ok g ∧
      (∀ r < n, g.cellNeighbourhood r = .ok (L r)) ∧ g.print os = .ok os' ∧ linesText os'.out = some (before ++ text) ∧
      readConnections text = some ((visited n L).map fun x => ((x.1 : Int), x.2.1, x.2.2)) := by
  obtain ⟨g, L, os', e, hL, hp, hout, _, _⟩ := C09_print_partial ws n hn hv hlt os
  have hn64 : n < 18446744073709551616 := by unfold INT_MAX at hn; omega
  obtain ⟨g1, e1, ha, hw, _⟩ := C02_weights_accumulate ws n hn64 hv hlt
  obtain rfl : g1 = g := by
    rw [e] at e1
    exact ((Res.ok.injEq _ _).mp e1).symm
  refine ⟨g1, L, os', ((visited n L).map fun x => ((x.1 : Int), x.2.1, x.2.2)).flatMap fun l => bare l ++ ['\n'], e, hL, hp, ?_, ?_⟩
  · have h1 := linesText_eq (plain_of hf) ((visited n L).map fun x => ((x.1 : Int), x.2.1, x.2.2))
    rw [List.map_map] at h1
    rw [hout]
    have h2 := linesText_append os.out _ h1
    rw [hb] at h2
    exact h2
  · refine readConnections_text ?_
    intro l hl
    obtain ⟨x, hx, rfl⟩ := List.mem_map.mp hl
    have hx' : x ∈ visited n fun r => (rowOf g1.startPointers g1.neighbourhood r).zip (rowOf g1.startPointers g1.connectionWeight r) := by
      obtain ⟨r, hr, hx⟩ := List.mem_flatMap.mp hx
      refine List.mem_flatMap.mpr ⟨r, hr, ?_⟩
      have hr' : r < n := List.mem_range.mp hr
      have h1 := cellNeighbourhood_eq g1 ha hw.size r hr' (by omega)
      rw [hL r hr'] at h1
      beta_reduce
      rw [← (Res.ok.injEq _ _).mp h1]
      exact hx
    have hp : (x.1, x.2.1) ∈ pairsOf n g1.startPointers g1.neighbourhood := by
      rw [← visited_pairs ha hw.size]
      exact List.mem_map.mpr ⟨x, hx', rfl⟩
    obtain ⟨_, w, hw0⟩ := (mem_pairsOf ha _ _).mp hp
    have := hnan _ hw0
    show x.2.2 ≠ .nan
    rw [visited_value ha hw x hx']
    exact this

/-- Three connections, one of them in two parts. -/
def threeParts : List (Int × Int × Double) := [(0, 1, Arith.lit (1 / 10)), (1, 0, Arith.lit (1 / 3)), (0, 1, Arith.lit (1 / 7))]

theorem threeParts_valid : ∀ c ∈ threeParts, (ValidIndex c.1 ∧ ValidIndex c.2.1) ∧ c.1 < (2 : Nat) := by
  intro c hc
  simp only [threeParts, List.mem_cons, List.not_mem_nil, or_false] at hc
  rcases hc with rfl | rfl | rfl <;> simp [ValidIndex]

theorem not_nan_of_eq {a : Double} (h : Arith.eq a a = true) : a ≠ .nan := by
  rintro rfl
  cases h

/-- Printed to a new stream, after nothing. -/
example : ∃ g L os' text, (freshWith (weighted threeParts)).compress 2 = .ok g ∧
    (∀ r : Nat, r < 2 → g.cellNeighbourhood r = .ok (L r)) ∧ g.print ⟨6, 4098, []⟩ = .ok os' ∧ linesText os'.out = some ([] ++ text) ∧
    readConnections text = some ((visited 2 L).map fun x => ((x.1 : Int), x.2.1, x.2.2)) :=
  C87_read_back threeParts 2 (by decide) (fun c hc => (threeParts_valid c hc).1) (fun c hc => (threeParts_valid c hc).2)
    (by
      intro c hc
      simp only [threeParts, List.mem_cons, List.not_mem_nil, or_false] at hc
      rcases hc with rfl | rfl | rfl <;> exact not_nan_of_eq (by decide +kernel))
    ⟨6, 4098, []⟩ (by unfold Ordinary10; decide) rfl

example : String.ofList (doubleText 16 (Double.ofRat false (1 / 10))) = "1.0000000000000001e-01" := by decide +kernel

theorem filter_key {α β : Type} [DecidableEq β] (f : α → β) : ∀ (l : List α), (l.Pairwise fun a b => f a ≠ f b) → ∀ x ∈ l,
    l.filter (fun a => f a == f x) = [x] := by
  intro l
  induction l with
  | nil => intro _ x hx; cases hx
  | cons a l ih =>
    intro h x hx
    obtain ⟨h1, h2⟩ := List.pairwise_cons.mp h
    rcases List.mem_cons.mp hx with rfl | hx
    · have : l.filter (fun a => f a == f x) = [] := by
        rw [List.filter_eq_nil_iff]
        intro b hb
        have := h1 b hb
        simpa using fun e => this e.symm
      simp [this]
    · rw [List.filter_cons_of_neg (by simpa using h1 x hx)]
      exact ih h2 x hx

/-- **C87** A graph that is built from the connections of a compressed graph, as they are read back, is the same: same rows, same
    columns, same weights. -/
theorem C87_rebuild (ws : List (Int × Int × Double)) (n : Nat) (hn : n ≤ INT_MAX)
    (hv : ∀ c ∈ ws, ValidIndex c.1 ∧ ValidIndex c.2.1) (hlt : ∀ c ∈ ws, c.1 < n) :
    ∃ g L g', (freshWith (weighted ws)).compress n = .ok g ∧ (∀ r < n, g.cellNeighbourhood r = .ok (L r)) ∧
      (freshWith (weighted ((visited n L).map fun x => ((x.1 : Int), x.2.1, x.2.2)))).compress n = .ok g' ∧
      g'.startPointers = g.startPointers ∧ g'.neighbourhood = g.neighbourhood ∧ g'.connectionWeight = g.connectionWeight := by
  have hn64 : n < 18446744073709551616 := by unfold INT_MAX at hn; omega
  obtain ⟨g, e, ha, hw, _⟩ := C02_weights_accumulate ws n hn64 hv hlt
  let L : Nat → List (Int × Double) := fun r => (rowOf g.startPointers g.neighbourhood r).zip (rowOf g.startPointers g.connectionWeight r)
  have hL : ∀ r < n, g.cellNeighbourhood r = .ok (L r) := fun r hr => cellNeighbourhood_eq g ha hw.size r hr (by omega)
  have hsorted : (visited n L).Pairwise fun a b => a.1 < b.1 ∨ (a.1 = b.1 ∧ a.2.1 < b.2.1) := by
    have h := pairsOf_sorted ha
    rw [← visited_pairs ha hw.size, List.pairwise_map] at h
    exact h
  have hmem : ∀ (r : Nat) (j : Int), (∃ w, (r, j, w) ∈ visited n L) ↔ r < n ∧ ∃ w, ((r : Int), j, w) ∈ ws := by
    intro r j
    rw [← mem_pairsOf ha, ← visited_pairs ha hw.size, List.mem_map]
    constructor
    · rintro ⟨w, h⟩; exact ⟨_, h, rfl⟩
    · rintro ⟨⟨a, b, w⟩, h, he⟩
      simp only [Prod.mk.injEq] at he
      obtain ⟨rfl, rfl⟩ := he
      exact ⟨w, h⟩
  have hval := visited_value ha hw
  have hv' : ∀ c ∈ (visited n L).map (fun x => ((x.1 : Int), x.2.1, x.2.2)), (ValidIndex c.1 ∧ ValidIndex c.2.1) ∧ c.1 < n := by
    intro c hc
    obtain ⟨x, hx, rfl⟩ := List.mem_map.mp hc
    obtain ⟨h1, w, h2⟩ := (hmem x.1 x.2.1).mp ⟨x.2.2, hx⟩
    have h3 : (ValidIndex (x.1 : Int) ∧ ValidIndex x.2.1) := hv _ h2
    have h4 : (x.1 : Int) < n := by exact_mod_cast h1
    exact ⟨h3, h4⟩
  obtain ⟨g', e', ha', hw', _⟩ := C02_weights_accumulate _ n hn64 (fun c hc => (hv' c hc).1) fun c hc => (hv' c hc).2
  have hE : ∀ r < n, ∀ j : Int, (∃ w, ((r : Int), j, w) ∈ (visited n L).map fun x => ((x.1 : Int), x.2.1, x.2.2)) ↔
      ∃ w, ((r : Int), j, w) ∈ ws := by
    intro r hr j
    constructor
    · rintro ⟨w, h⟩
      obtain ⟨x, hx, hxe⟩ := List.mem_map.mp h
      simp only [Prod.mk.injEq, Nat.cast_inj] at hxe
      obtain ⟨rfl, rfl, rfl⟩ := hxe
      exact ((hmem _ _).mp ⟨_, hx⟩).2
    · rintro ⟨w, h⟩
      obtain ⟨v, hx⟩ := (hmem r j).mpr ⟨hr, w, h⟩
      exact ⟨v, List.mem_map.mpr ⟨_, hx, rfl⟩⟩
  obtain ⟨u1, u2⟩ := (ha'.congr hE).unique ha
  refine ⟨g, L, g', e, hL, e', u1, u2, ?_⟩
  rw [u1, u2] at hw'
  refine HasWeights.unique ha hw' hw fun i j => ?_
  by_cases hex : ∃ r : Nat, i = r ∧ r < n ∧ ∃ w, ((r : Int), j, w) ∈ ws
  · obtain ⟨r, rfl, hr, hw0⟩ := hex
    obtain ⟨v, hx⟩ := (hmem r j).mpr ⟨hr, hw0⟩
    have hone : weightsOf ((visited n L).map fun x => ((x.1 : Int), x.2.1, x.2.2)) r j = [v] := by
      have hne : (visited n L).Pairwise fun a b => (a.1, a.2.1) ≠ (b.1, b.2.1) := by
        refine hsorted.imp ?_
        rintro a b (h | ⟨h1, h2⟩) heq <;> simp only [Prod.mk.injEq] at heq <;> omega
      have hk := filter_key (fun a : Nat × Int × Double => (a.1, a.2.1)) _ hne _ hx
      unfold weightsOf
      rw [List.filter_map, List.map_map]
      have : (visited n L).filter ((fun c : Int × Int × Double => c.1 == (r : Int) && c.2.1 == j) ∘ fun x => ((x.1 : Int), x.2.1, x.2.2))
          = [(r, j, v)] := by
        rw [← hk]
        apply List.filter_congr
        intro a _
        rw [Bool.eq_iff_iff]
        simp
      rw [this]
      rfl
    rw [hone, ← hval _ hx]
    have hnz : v ≠ Double.zero true := by
      have := hval _ hx
      simp only at this
      rw [this]
      refine fold_ne_minus_zero _ ?_
      intro h
      cases h
    exact add_zero_left hnz
  · have h1 : weightsOf ws i j = [] := by
      unfold weightsOf
      rw [List.map_eq_nil_iff, List.filter_eq_nil_iff]
      intro c hc hcc
      simp only [Bool.and_eq_true, beq_iff_eq] at hcc
      obtain ⟨rfl, rfl⟩ := hcc
      have h0 := (hv c hc).1.1
      have h2 := hlt c hc
      exact hex ⟨c.1.toNat, by omega, by omega, c.2.2, by rw [Int.toNat_of_nonneg h0]; exact hc⟩
    have h2 : weightsOf ((visited n L).map fun x => ((x.1 : Int), x.2.1, x.2.2)) i j = [] := by
      unfold weightsOf
      rw [List.map_eq_nil_iff, List.filter_eq_nil_iff]
      intro c hc hcc
      simp only [Bool.and_eq_true, beq_iff_eq] at hcc
      obtain ⟨rfl, rfl⟩ := hcc
      obtain ⟨x, hx, rfl⟩ := List.mem_map.mp hc
      obtain ⟨h3, h4⟩ := (hmem x.1 x.2.1).mp ⟨x.2.2, hx⟩
      exact hex ⟨x.1, rfl, h3, h4⟩
    rw [h1, h2]

/-- Its hypotheses hold of the connections above. -/
example : ∃ g L g', (freshWith (weighted threeParts)).compress 2 = .ok g ∧ (∀ r : Nat, r < 2 → g.cellNeighbourhood r = .ok (L r)) ∧
    (freshWith (weighted ((visited 2 L).map fun x => ((x.1 : Int), x.2.1, x.2.2)))).compress 2 = .ok g' ∧
    g'.startPointers = g.startPointers ∧ g'.neighbourhood = g.neighbourhood ∧ g'.connectionWeight = g.connectionWeight :=
  C87_rebuild threeParts 2 (by decide) (fun c hc => (threeParts_valid c hc).1) fun c hc => (threeParts_valid c hc).2

end Verif.Props
