/-
The graphs of a toolbox as a function of the directed connections.
-/
import Verif.Proofs.ToolboxHistory
import Verif.Proofs.FlowGraph

namespace Verif.Toolbox
open Verif.Spec Verif.Solver

variable {R : Type} [Arith R]

/-- A connection between `e.1` and `e.2` with flux `x`, oriented along the flow; nothing without flow. -/
def orient (e : Nat × Nat) (x : R) : List (Int × Int × R) :=
  if Arith.lt Arith.zero x then [((e.1 : Int), (e.2 : Int), x)]
  else if Arith.lt x Arith.zero then [((e.2 : Int), (e.1 : Int), Arith.neg x)]
  else []

/-- The oriented connections of a connectivity. -/
def directed (cs : List (Nat × Nat)) (x : Nat → R) : List (Int × Int × R) :=
  (cs.zipIdx.map fun e => orient e.1 (x e.2)).flatten

omit [Arith R] in
/-- Exchange the ends. -/
def swapEnds (l : List (Int × Int × R)) : List (Int × Int × R) := l.map fun c => (c.2.1, c.1, c.2.2)

theorem connectionFlux_eq {f : ConnectionValues R} {m np : Nat} {phi : Nat → Nat → R} (h : HasFlux f m np phi)
    {c : Nat} (hc : c < m) : connectionFlux f c = .ok (phaseSum (phi c) np) := by
  unfold connectionFlux phaseSum
  rw [h.phases, List.foldl_map]
  exact forEach_eq_foldl (fun s p => Arith.add s (phi c p)) (fun s p hp => by
    simp only [Res.bind_eq, Res.pure_eq]
    rw [h.get c hc p (List.mem_range.mp hp)]; rfl)

omit [Arith R] in
theorem addTo_append (g : AssembledConnections R) (a b : List (Conn R)) : addTo g (a ++ b) = addTo (addTo g a) b := by
  unfold addTo; rw [List.foldl_append]

theorem addFluxOf_eq {g : ConnectivityGraph} {n : Nat} {cs : List (Nat × Nat)} (hg : HasConnections g n cs)
    {f : ConnectionValues R} {np : Nat} {phi : Nat → Nat → R} (hf : HasFlux f cs.length np phi)
    {c : Nat} (hc : c < cs.length) (s : AssembledConnections R × AssembledConnections R) :
    addFluxOf g f s c = .ok (addTo s.1 (weighted (orient cs[c] (phaseSum (phi c) np))),
      addTo s.2 (weighted (swapEnds (orient cs[c] (phaseSum (phi c) np))))) := by
  unfold addFluxOf orient
  simp only [Res.bind_eq, Res.pure_eq, hg.connection c hc, connectionFlux_eq hf hc, Res.ok_bind]
  split
  · rfl
  · split <;> rfl

theorem addFluxes_eq {g : ConnectivityGraph} {n : Nat} {cs : List (Nat × Nat)} (hg : HasConnections g n cs)
    {f : ConnectionValues R} {np : Nat} {phi : Nat → Nat → R} (hf : HasFlux f cs.length np phi)
    (k : Nat) (s : AssembledConnections R × AssembledConnections R) (hk : k ≤ cs.length) :
    addFluxes g f ((List.range cs.length).drop k) s =
      ((addTo s.1 (weighted (((cs.zipIdx.drop k).map fun e => orient e.1 (phaseSum (phi e.2) np)).flatten)),
        addTo s.2 (weighted (swapEnds (((cs.zipIdx.drop k).map fun e => orient e.1 (phaseSum (phi e.2) np)).flatten)))),
        .ok ()) := by
  induction hd : cs.length - k generalizing k s with
  | zero =>
    have h1 : (List.range cs.length).drop k = [] := by rw [List.drop_eq_nil_iff]; simp; omega
    have h2 : cs.zipIdx.drop k = [] := by rw [List.drop_eq_nil_iff]; simp; omega
    rw [h1, h2]; rfl
  | succ d ih =>
    have hlt : k < cs.length := by omega
    have h1 : (List.range cs.length).drop k = k :: (List.range cs.length).drop (k + 1) := by
      rw [List.drop_eq_getElem_cons (by simpa using hlt)]; simp
    have h2 : cs.zipIdx.drop k = (cs[k], k) :: cs.zipIdx.drop (k + 1) := by
      rw [List.drop_eq_getElem_cons (by simpa using hlt)]; simp
    rw [h1, h2]
    unfold addFluxes
    rw [addFluxOf_eq hg hf hlt]
    simp only [finish]
    rw [ih (k + 1) _ (by omega) (by omega)]
    simp only [List.map_cons, List.flatten_cons]
    unfold swapEnds weighted
    simp only [List.map_append, addTo_append]

theorem directed_range {n : Nat} {cs : List (Nat × Nat)} (hr : ∀ e ∈ cs, e.1 < n ∧ e.2 < n) (x : Nat → R) :
    ∀ c ∈ directed cs x, (0 ≤ c.1 ∧ c.1 < n) ∧ (0 ≤ c.2.1 ∧ c.2.1 < n) := by
  intro c hc
  unfold directed at hc
  obtain ⟨l, hl, hcl⟩ := List.mem_flatten.mp hc
  obtain ⟨⟨e, i⟩, he, rfl⟩ := List.mem_map.mp hl
  have he' : e ∈ cs := by
    have := List.mem_zipIdx_iff_getElem?.mp he
    exact List.mem_of_getElem? this
  have := hr e he'
  simp only at hcl
  unfold orient at hcl
  split at hcl
  · rw [List.mem_singleton.mp hcl]; simp only; omega
  · split at hcl
    · rw [List.mem_singleton.mp hcl]; simp only; omega
    · simp at hcl

omit [Arith R] in
theorem not_mixed_weighted (ws : List (Int × Int × R)) : ¬ Mixed (weighted ws) := by
  rintro ⟨_, c, hc, hn⟩
  obtain ⟨w, _, rfl⟩ := List.mem_map.mp hc
  simp at hn

omit [Arith R] in
theorem mem_swapEnds {l : List (Int × Int × R)} {c : Int × Int × R} (h : c ∈ swapEnds l) :
    (c.2.1, c.1, c.2.2) ∈ l := by
  obtain ⟨c', h', rfl⟩ := List.mem_map.mp h
  exact h'

theorem compressStep_ok {n : Nat} (hn : n ≤ INT_MAX) {ws : List (Int × Int × R)}
    (h : ∀ c ∈ ws, (0 ≤ c.1 ∧ c.1 < n) ∧ (0 ≤ c.2.1 ∧ c.2.1 < n)) :
    ∃ g, (freshWith (weighted ws)).compressStep n = (g, .ok ()) ∧ (freshWith (weighted ws)).compress n = .ok g ∧
      IsAdjacency n (fun i j => ∃ w, (i, j, w) ∈ ws) g.startPointers g.neighbourhood ∧
      HasWeights n ws g.startPointers g.neighbourhood g.connectionWeight := by
  have hI : INT_MAX = 2147483647 := rfl
  obtain ⟨g, h1, _, h3, h4⟩ := Props.fresh_ok (weighted ws) n (by omega) (not_mixed_weighted ws)
    (by
      intro c hc
      obtain ⟨w, hw, rfl⟩ := List.mem_map.mp hc
      have := h w hw
      unfold ValidConn ValidIndex; simp only; omega)
    (by
      intro c hc
      obtain ⟨w, hw, rfl⟩ := List.mem_map.mp hc
      exact (h w hw).1.2)
  refine ⟨g, h1, compress_of_step_ok h1, h3.congr ?_, h4 ws rfl⟩
  intro r _ j
  constructor
  · rintro ⟨w, hw⟩
    obtain ⟨c, hc, e⟩ := List.mem_map.mp hw
    simp only [Prod.mk.injEq] at e
    obtain ⟨e1, e2, _⟩ := e
    exact ⟨c.2.2, by rw [← e1, ← e2]; exact hc⟩
  · rintro ⟨w, hw⟩; exact ⟨some w, List.mem_map.mpr ⟨_, hw, rfl⟩⟩

/-- The graphs depend only on the oriented connections. -/
def graphsOf (n : Nat) (D : List (Int × Int × R)) : AssembledConnections R × AssembledConnections R :=
  (((freshWith (weighted D)).compressStep n).1, ((freshWith (weighted (swapEnds D))).compressStep n).1)

theorem graphs_eq {g : ConnectivityGraph} {n : Nat} {cs : List (Nat × Nat)} (hg : ValidConnectivity g n cs)
    {f : ConnectionValues R} {np : Nat} {phi : Nat → Nat → R} (hf : HasFlux f cs.length np phi) :
    graphs g f = .ok (graphsOf n (directed cs fun c => phaseSum (phi c) np)) := by
  have hI : INT_MAX = 2147483647 := rfl
  have hint := hg.int
  have hN : sizeOfInt (narrowInt g.numCells) = n := by
    rw [hg.cells]
    have : narrowInt n = (n : Int) := by
      unfold narrowInt
      simp only
      split <;> omega
    rw [this, sizeOfInt_nonneg (by omega) (by omega)]; omega
  have h := addFluxes_eq hg.toHasConnections hf 0 ({}, {}) (by omega)
  simp only [List.drop_zero] at h
  have hr := directed_range hg.range fun c => phaseSum (phi c) np
  obtain ⟨d, hd, _⟩ := compressStep_ok hint hr
  obtain ⟨u, hu, _⟩ := compressStep_ok (ws := swapEnds (directed cs fun c => phaseSum (phi c) np)) hint (by
    intro c hc
    have := hr _ (mem_swapEnds hc)
    exact ⟨this.2, this.1⟩)
  unfold graphs
  rw [hg.count, h, hN]
  show Res.bind (Res.ok ()) _ = _
  unfold graphsOf
  rw [hd, hu]
  simp only [Res.ok_bind]
  have e1 : addTo ({} : AssembledConnections R) (weighted (cs.zipIdx.map fun e => orient e.1 (phaseSum (phi e.2) np)).flatten)
      = freshWith (weighted (directed cs fun c => phaseSum (phi c) np)) := rfl
  have e2 : addTo ({} : AssembledConnections R) (weighted (swapEnds (cs.zipIdx.map fun e => orient e.1 (phaseSum (phi e.2) np)).flatten))
      = freshWith (weighted (swapEnds (directed cs fun c => phaseSum (phi c) np))) := rfl
  rw [e1, e2, hd, hu]
  rfl

end Verif.Toolbox
