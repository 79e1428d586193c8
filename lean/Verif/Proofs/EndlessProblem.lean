/-
The problem on which the computation with `double`s does not return.
-/
import Verif.Proofs.EndlessData
import Verif.Proofs.ToolboxExist
import Verif.Spec.Accuracy

namespace Verif.Endless
open Verif.Solver Verif.Spec Verif.Tarjan Verif.Toolbox Verif.Rounding Double

/-- The flux of connection `c`, which leaves cell `c`. -/
def fluxNat (N c : Nat) : Nat := if c < N then 19 else if c = N then 20 else if c = N + 1 then 38 else 1

theorem fluxAt_eq (N c : Nat) : fluxAt N c = ofNat (fluxNat N c) := by
  unfold fluxAt fluxNat
  split
  · rfl
  · split
    · rfl
    · split <;> rfl

theorem fluxNat_bounds (N c : Nat) : 1 ≤ fluxNat N c ∧ fluxNat N c ≤ 38 := by
  unfold fluxNat
  split
  · omega
  · split
    · omega
    · split <;> omega

theorem fluxNat_lt {N c : Nat} (h : c < N) : fluxNat N c = 19 := if_pos h
theorem fluxNat_0 (N : Nat) : fluxNat N N = 20 := by simp [fluxNat]
theorem fluxNat_1 (N : Nat) : fluxNat N (N + 1) = 38 := by simp [fluxNat]
theorem fluxNat_2 (N : Nat) : fluxNat N (N + 2) = 1 := by simp [fluxNat]

/-- A chain of `N` cells that ends in a ring of three. -/
def ringConns (N : Nat) : List (Nat × Nat) :=
  (List.range N).map (fun v => (v, v + 1)) ++ [(N, N + 1), (N + 1, N + 2), (N + 2, N)]

instance (N u v : Nat) : Decidable (chainRing N u v) := by unfold chainRing; infer_instance

theorem ringConns_length (N : Nat) : (ringConns N).length = N + 3 := by simp [ringConns]

theorem ringConns_get {N c u v : Nat} : (ringConns N)[c]? = some (u, v) ↔ c = u ∧ chainRing N u v := by
  unfold ringConns chainRing
  rcases Nat.lt_or_ge c N with h | h
  · rw [List.getElem?_append_left (by simpa using h), List.getElem?_map, List.getElem?_range h]
    simp only [Option.map_some, Option.some.injEq, Prod.mk.injEq]
    omega
  · rw [List.getElem?_append_right (by simpa using h), List.length_map, List.length_range]
    obtain ⟨k, rfl⟩ := Nat.exists_eq_add_of_le h
    rw [Nat.add_sub_cancel_left]
    match k with
    | 0 => simp; omega
    | 1 => simp; omega
    | 2 => simp; omega
    | k + 3 => simp; omega

/-- 0, ..., `N - 1`: a chain of large cells; `N`, `N + 1`, `N + 2`: a ring of small cells.  Injectors in cells 0 and `N + 1`, a
    producer in cell `N + 2`. -/
def ringProblem (N : Nat) : Problem ℚ where
  n := N + 3
  conns := ringConns N
  nphase := 1
  phi c _ := fluxNat N c
  pv v := if v < N then 85500000000 else 1
  wells := [⟨⟨[73]⟩, [0], fun _ => 19⟩, ⟨⟨[74]⟩, [N + 1], fun _ => 18⟩, ⟨⟨[80]⟩, [N + 2], fun _ => -37⟩]

theorem ring_net (N c : Nat) : (ringProblem N).net c = fluxNat N c := by
  simp [Problem.net, ringProblem]

theorem ring_valid {N : Nat} (hI : N + 3 ≤ INT_MAX) : (ringProblem N).Valid where
  int := hI
  pos := by show 0 < N + 3; omega
  some_connection := by
    intro e
    have h : (ringConns N).length = 0 := by
      show ((ringProblem N).conns).length = 0
      rw [e]; rfl
    rw [ringConns_length] at h; omega
  range := by
    intro e he
    obtain ⟨c, hc⟩ := List.mem_iff_getElem?.mp he
    obtain ⟨_, h⟩ := ringConns_get.mp (show (ringConns N)[c]? = some (e.1, e.2) from hc)
    unfold chainRing at h
    show e.1 < N + 3 ∧ e.2 < N + 3
    omega
  pv v _ := by
    show (0 : ℚ) ≤ if v < N then 85500000000 else 1
    split <;> norm_num
  wells_sorted := by unfold ringProblem; simp; decide
  cells_sorted := by unfold ringProblem; simp
  cells_range := by unfold ringProblem; simp

theorem ring_ordinary {N : Nat} (hI : N + 3 ≤ INT_MAX) : (ringProblem N).OfOrdinarySize (N + 3) where
  flux c _ := by
    rw [ring_net]
    obtain ⟨h1, h2⟩ := fluxNat_bounds N c
    right
    rw [abs_of_nonneg (by positivity)]
    have h1 : (1 : ℚ) ≤ (fluxNat N c : ℚ) := by exact_mod_cast h1
    have h2 : (fluxNat N c : ℚ) ≤ 38 := by exact_mod_cast h2
    constructor
    · refine le_trans ?_ h1; norm_num
    · refine h2.trans ?_; norm_num
  well w hw v hv := by
    simp only [ringProblem, List.mem_cons, List.not_mem_nil, or_false] at hw
    right
    rcases hw with rfl | rfl | rfl <;> norm_num
  pv v _ := by
    right
    unfold ringProblem
    simp only
    split <;> norm_num
  degree v := (List.length_filter_le _ _).trans (by show (ringConns N).length ≤ _; rw [ringConns_length])
  wells v := (List.length_filter_le _ _).trans (by show 3 ≤ _; omega)
  bound := by unfold INT_MAX at hI; omega

theorem ring_flux (N u v : Nat) : (ringProblem N).flux u v = if chainRing N u v then (fluxNat N u : ℚ) else 0 := by
  unfold Problem.flux Problem.carried
  simp only [ring_net]
  have h : ∀ c, ((if (ringProblem N).conns[c]? = some (u, v) then max (fluxNat N c : ℚ) 0 else 0) +
      (if (ringProblem N).conns[c]? = some (v, u) then max (-(fluxNat N c : ℚ)) 0 else 0))
      = if c = u then (if chainRing N u v then (fluxNat N u : ℚ) else 0) else 0 := by
    intro c
    have e1 : max (fluxNat N c : ℚ) 0 = fluxNat N c := max_eq_left (by positivity)
    have e2 : max (-(fluxNat N c : ℚ)) 0 = 0 := max_eq_right (by simp)
    rw [e1, e2, ite_self, add_zero]
    have : ((ringProblem N).conns[c]? = some (u, v)) ↔ c = u ∧ chainRing N u v := ringConns_get
    simp only [this]
    by_cases hc : c = u
    · subst hc; simp
    · simp [hc]
  rw [Finset.sum_congr rfl fun c _ => h c, Finset.sum_ite_eq']
  by_cases hr : chainRing N u v
  · rw [if_pos]
    rw [Finset.mem_range]
    show u < (ringConns N).length
    rw [ringConns_length]
    unfold chainRing at hr; omega
  · rw [if_neg hr, ite_self]

theorem ring_balanced {N : Nat} (hN : 1 ≤ N) : (ringProblem N).Balanced := by
  intro v hv
  have hv : v < N + 3 := hv
  simp only [ring_flux]
  have hout : ∑ u ∈ Finset.range (N + 3), (if chainRing N v u then (fluxNat N v : ℚ) else 0) = fluxNat N v := by
    have : ∀ u, (chainRing N v u ↔ u = if v < N + 2 then v + 1 else N) := by
      intro u; unfold chainRing; split <;> omega
    simp only [this]
    rw [Finset.sum_ite_eq', if_pos]
    rw [Finset.mem_range]; split <;> omega
  have hone : ∀ w < N + 3, (∀ u, chainRing N u v ↔ u = w) →
      ∑ u ∈ Finset.range (N + 3), (if chainRing N u v then (fluxNat N u : ℚ) else 0) = fluxNat N w := by
    intro w hw h
    simp only [h]
    rw [Finset.sum_ite_eq', if_pos (Finset.mem_range.mpr hw)]
  have hsrc : (ringProblem N).source v = (if v = 0 then 19 else 0) + ((if v = N + 1 then 18 else 0)) := by
    simp only [Problem.source, ringProblem, List.map_cons, List.map_nil, List.sum_cons, List.sum_nil, Problem.wellAt, List.mem_singleton]
    split_ifs <;> norm_num
  have hsink : (ringProblem N).sink v = if v = N + 2 then 37 else 0 := by
    simp only [Problem.sink, ringProblem, List.map_cons, List.map_nil, List.sum_cons, List.sum_nil, Problem.wellAt, List.mem_singleton]
    split_ifs <;> norm_num
  rw [hsrc, hsink]
  show _ + ∑ u ∈ Finset.range (N + 3), _ = _ + ∑ u ∈ Finset.range (N + 3), _
  rw [hout]
  by_cases h0 : v = 0
  · subst h0
    rw [Finset.sum_eq_zero]
    · unfold fluxNat; simp [show 0 < N by omega]
    · intro u _; rw [if_neg]; unfold chainRing; omega
  by_cases h1 : v < N
  · rw [hone (v - 1) (by omega) (by intro u; unfold chainRing; omega)]
    rw [fluxNat_lt h1, fluxNat_lt (by omega), if_neg h0, if_neg (show ¬ v = N + 1 by omega), if_neg (show ¬ v = N + 2 by omega)]
    norm_num
  by_cases h2 : v = N
  · subst h2
    have : ∀ u, (if chainRing v u v then (fluxNat v u : ℚ) else 0) =
        (if u = v - 1 then (fluxNat v u : ℚ) else 0) + (if u = v + 2 then (fluxNat v u : ℚ) else 0) := by
      intro u
      by_cases e1 : u = v - 1
      · rw [if_pos (by unfold chainRing; omega), if_pos e1, if_neg (by omega), add_zero]
      · by_cases e2 : u = v + 2
        · rw [if_pos (by unfold chainRing; omega), if_neg e1, if_pos e2, zero_add]
        · rw [if_neg (by unfold chainRing; omega), if_neg e1, if_neg e2, add_zero]
    simp only [this]
    rw [Finset.sum_add_distrib, Finset.sum_ite_eq', Finset.sum_ite_eq', if_pos (Finset.mem_range.mpr (by omega)),
      if_pos (Finset.mem_range.mpr (by omega))]
    rw [fluxNat_0, fluxNat_2, fluxNat_lt (show v - 1 < v by omega), if_neg h0, if_neg (show ¬ v = v + 1 by omega),
      if_neg (show ¬ v = v + 2 by omega)]
    norm_num
  by_cases h3 : v = N + 1
  · subst h3
    rw [hone N (by omega) (by intro u; unfold chainRing; omega)]
    unfold fluxNat
    simp
    norm_num
  · have h4 : v = N + 2 := by omega
    subst h4
    rw [hone (N + 1) (by omega) (by intro u; unfold chainRing; omega)]
    unfold fluxNat
    simp
    norm_num

/-- The inflow as `double`s. -/
def ringInflow (N : Nat) : InflowFlux Double :=
  [(⟨[73]⟩, [(0, ofNat 19)]), (⟨[74]⟩, [(((N + 1 : Nat) : Int), ofNat 18)]), (⟨[80]⟩, [(((N + 2 : Nat) : Int), Arith.lit (-37))])]

theorem ring_inflow (N : Nat) : positives (entries (ringInflow N)) = wellsAt N ⟨[73]⟩ ⟨[74]⟩ := by
  have h1 : Arith.lt (Arith.zero : Double) (ofNat 19) = true := by decide +kernel
  have h2 : Arith.lt (Arith.zero : Double) (ofNat 18) = true := by decide +kernel
  have h3 : Arith.lt (Arith.zero : Double) (Arith.lit (-37)) = false := by decide +kernel
  simp [positives, entries, ringInflow, wellsAt, h1, h2, h3]

theorem ofNat_pos {k : Nat} (h1 : 1 ≤ k) (h2 : k ≤ 2 ^ 50) : Arith.lt (Arith.zero : Double) (ofNat k) = true := by
  rw [zero_eq, lt_ofNat (by norm_num) h2]
  exact decide_eq_true (by omega)

theorem ring_directed (N : Nat) : directed (ringConns N) (fun c => phaseSum (fun _ => fluxAt N c) 1) = links N := by
  have hs : ∀ c, phaseSum (fun _ => fluxAt N c) 1 = fluxAt N c := by
    intro c
    rw [fluxAt_eq]
    have := fluxNat_bounds N c
    show Arith.add Arith.zero (ofNat _) = _
    rw [zero_eq, add_ofNat (by norm_num) (by omega), Nat.zero_add]
  have ho : ∀ (e : Nat × Nat) c, orient e (phaseSum (fun _ => fluxAt N c) 1) = [((e.1 : Int), (e.2 : Int), fluxAt N c)] := by
    intro e c
    have := fluxNat_bounds N c
    rw [hs, fluxAt_eq]
    unfold orient
    rw [if_pos (ofNat_pos this.1 (by omega))]
  unfold directed
  simp only [ho]
  unfold ringConns links
  rw [List.zipIdx_append, List.map_append, List.flatten_append]
  congr 1
  · have hfl : ∀ l : List ((Nat × Nat) × Nat), (l.map fun e => [((e.1.1 : Int), (e.1.2 : Int), fluxAt N e.2)]).flatten
        = l.map fun e => ((e.1.1 : Int), (e.1.2 : Int), fluxAt N e.2) := by
      intro l
      induction l with
      | nil => rfl
      | cons a l ih => simp only [List.map_cons, List.flatten_cons, ih]; rfl
    rw [hfl]
    refine List.ext_getElem? fun k => ?_
    rw [List.getElem?_map, List.getElem?_zipIdx, List.getElem?_map, List.getElem?_map]
    rcases Nat.lt_or_ge k N with h | h
    · rw [List.getElem?_range h]
      simp [fluxAt, h]
    · rw [List.getElem?_eq_none (by simpa using h)]
      rfl
  · have : ¬ N + 1 + 1 < N := by omega
    have h' : ¬ N + 1 + 1 = N := by omega
    simp [fluxAt, this, h']

end Verif.Endless
