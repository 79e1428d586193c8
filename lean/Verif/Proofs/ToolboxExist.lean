/-
Every problem can be given to a toolbox.
-/
import Verif.Proofs.ToolboxTop
import Verif.Props.Objects

namespace Verif.Toolbox
open Verif.Spec Verif.Solver Verif.Spec.Problem

theorem lastSome_const {α β : Type} {f : α → Option β} {l : List α} {b : β} (h : ∃ x ∈ l, f x = some b)
    (hu : ∀ x ∈ l, ∀ b', f x = some b' → b' = b) : lastSome f l = some b := by
  cases e : lastSome f l with
  | none =>
    obtain ⟨x, hx, hb⟩ := h
    have := List.findSome?_eq_none_iff.mp e x (List.mem_reverse.mpr hx)
    rw [hb] at this; cases this
  | some b' =>
    obtain ⟨x, hx, hb⟩ := lastSome_spec e
    rw [hu x hx b' hb]

/-- The table of a list of connections. -/
def table (cs : List (Nat × Nat)) : List Int := cs.flatMap fun e => [(e.1 : Int), (e.2 : Int)]

theorem table_length (cs : List (Nat × Nat)) : (table cs).length = 2 * cs.length := by
  induction cs with
  | nil => rfl
  | cons e cs ih =>
    show ([(e.1 : Int), (e.2 : Int)] ++ table cs).length = _
    rw [List.length_append, ih]; simp; omega

theorem table_get (cs : List (Nat × Nat)) (i : Nat) (h : i < cs.length) :
    (table cs)[2 * i]? = some (cs[i].1 : Int) ∧ (table cs)[2 * i + 1]? = some (cs[i].2 : Int) := by
  induction cs generalizing i with
  | nil => simp at h
  | cons e cs ih =>
    have e1 : table (e :: cs) = (e.1 : Int) :: (e.2 : Int) :: table cs := rfl
    rw [e1]
    cases i with
    | zero => exact ⟨rfl, rfl⟩
    | succ i =>
      have := ih i (by simpa using h)
      rw [show 2 * (i + 1) = 2 * i + 1 + 1 by omega]
      simpa using this

/-- Every connectivity with cells in range can be constructed. -/
theorem exists_connectivity {n : Nat} (hn : n ≤ INT_MAX) {cs : List (Nat × Nat)} (hr : ∀ e ∈ cs, e.1 < n ∧ e.2 < n) :
    ∃ g, ConnectivityGraph.create n (table cs) = .ok g ∧ ValidConnectivity g n cs := by
  have hI : INT_MAX = 2147483647 := rfl
  have hmem : ∀ c ∈ table cs, 0 ≤ c ∧ c < n := by
    intro c hc
    obtain ⟨e, he, hc⟩ := List.mem_flatMap.mp hc
    have := hr e he
    simp at hc
    omega
  obtain ⟨h1, h2⟩ := Props.C18_table_partial n (by omega) (table cs) fun c hc => (hmem c hc).1
  have hlen := table_length cs
  have hex : ∃ g, ConnectivityGraph.create n (table cs) = .ok g := by
    cases e : ConnectivityGraph.create n (table cs) with
    | ok g => exact ⟨g, rfl⟩
    | throw x =>
      unfold ConnectivityGraph.create at e h1
      split at e
      · omega
      · split at e
        · rename_i h3 h4
          rw [if_neg h3, if_pos h4] at h1
          rcases h1.mp rfl with h | ⟨c, hc, h⟩
          · omega
          · exact absurd (hmem c hc) h
        · cases e
    | ub u => unfold ConnectivityGraph.create at e; split at e; cases e; split at e <;> cases e
    | diverge => unfold ConnectivityGraph.create at e; split at e; cases e; split at e <;> cases e
  obtain ⟨g, hg⟩ := hex
  obtain ⟨a, b, c⟩ := h2 g hg
  refine ⟨g, hg, ⟨a, by rw [b]; omega, ?_⟩, hn, hr⟩
  intro i hi
  obtain ⟨x, y, hx, hy, hc⟩ := c i (by omega)
  obtain ⟨hx', hy'⟩ := table_get cs i hi
  rw [hx] at hx'; rw [hy] at hy'
  cases hx'; cases hy'
  exact hc

/-- Every flux field that fits in memory can be stored. -/
theorem exists_flux {R : Type} [Arith R] (m np : Nat) (h : m * np < SIZE_MOD) (phi : Nat → Nat → R) :
    ∃ f, (∃ ws, Props.writeAll (ConnectionValues.create m np) ws = .ok f) ∧ HasFlux f m np phi := by
  let ws : List (Nat × Nat × R) := (List.range m).flatMap fun c => (List.range np).map fun p => (c, p, phi c p)
  obtain ⟨f, h1, h2, h3, h4, _⟩ := Props.C19_two_dimensional_array (R := R) m np h ws
  refine ⟨f, ⟨ws, h1⟩, h2, h3, ?_⟩
  intro c hc p hp
  rw [h4 c hc p hp]
  have : Props.lastWritten ws c p = some (phi c p) := by
    refine lastSome_const ⟨(c, p, phi c p), ?_, by simp⟩ ?_
    · refine List.mem_flatMap.mpr ⟨c, List.mem_range.mpr hc, List.mem_map.mpr ⟨p, List.mem_range.mpr hp, rfl⟩⟩
    · intro x hx b' hb
      obtain ⟨c', _, hx⟩ := List.mem_flatMap.mp hx
      obtain ⟨p', _, rfl⟩ := List.mem_map.mp hx
      simp only at hb
      split at hb
      · rename_i h; obtain ⟨rfl, rfl⟩ := h; cases hb; rfl
      · cases hb
  rw [this]; rfl

/-- Three calls give data to a toolbox. -/
theorem exists_calls {R : Type} [Arith R] {g : ConnectivityGraph} {n : Nat} {cs : List (Nat × Nat)}
    (hg : HasConnections g n cs) {pv : List R} (hpv : pv.length = n) {np : Nat} (hs : cs.length * np < SIZE_MOD)
    (phi : Nat → Nat → R) (m : InflowFlux R) :
    ∃ calls, lastPoreVolume g calls = some pv ∧ FluxGiven g calls np phi ∧ lastInflow calls = some m := by
  obtain ⟨f, _, hf⟩ := exists_flux cs.length np hs phi
  refine ⟨[.assignPoreVolume pv, .assignConnectionFlux f, .assignInflowFlux m], ?_, ⟨f, ?_, ?_⟩, rfl⟩
  · simp [lastPoreVolume, lastSome, hg.cells, hpv]
  · simp [lastFlux, lastSome, hg.count, hf.conns]
  · rw [hg.count]; exact hf

theorem exists_given {K : Type} [Field K] [LinearOrder K] {P : Problem K} (hP : P.Valid)
    (hs : P.conns.length * P.nphase < SIZE_MOD) : ∃ g calls, P.GivenTo g calls := by
  obtain ⟨g, _, hg⟩ := exists_connectivity hP.int hP.range
  obtain ⟨calls, h1, h2, h3⟩ := exists_calls hg.toHasConnections (pv := arr P.n P.pv) (by simp [arr]) hs
    (fun c p => X.fin (P.phi c p)) P.inflowMap
  exact ⟨g, calls, hg.toHasConnections, h1, h2, Or.inl h3⟩

end Verif.Toolbox
