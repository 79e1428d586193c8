/-
Memory safety of solves in any arithmetic.
-/
import Verif.Proofs.SolverRun
import Verif.Proofs.SolverVisit
import Verif.Proofs.GraphIter

namespace Verif

/-- How a computation on well-formed data may end. -/
inductive Res.Safe {α : Type} : Res α → Prop
  | ok (a : α) : Res.Safe (.ok a)
  | logicError : Res.Safe (.throw .logicError)
  | assertFail : Res.Safe (.ub .assertFail)
  | diverge : Res.Safe .diverge

theorem Res.Safe.bind {α β : Type} {r : Res α} {k : α → Res β} (h : r.Safe) (hk : ∀ a, r = .ok a → (k a).Safe) :
    (r.bind k).Safe := by
  cases h with
  | ok a => exact hk a rfl
  | logicError => exact .logicError
  | assertFail => exact .assertFail
  | diverge => exact .diverge

theorem assertThat_safe (b : Bool) : (assertThat b).Safe := by
  cases b
  · exact .assertFail
  · exact .ok _

/-- A loop with an invariant. -/
theorem forEach_safe {α σ : Type} {f : σ → α → Res σ} (P : σ → Prop) {xs : List α} {s : σ} (h0 : P s)
    (hs : ∀ s, ∀ x ∈ xs, P s → (f s x).Safe) (hp : ∀ s s', ∀ x ∈ xs, P s → f s x = .ok s' → P s') :
    (forEach xs s f).Safe := by
  induction xs generalizing s with
  | nil => exact .ok _
  | cons x xs ih =>
    rw [forEach_cons]
    exact (hs s x (by simp) h0).bind fun a ha =>
      ih (hp s a x (by simp) h0 ha) (fun s y hy => hs s y (by simp [hy])) fun s s' y hy => hp s s' y (by simp [hy])

end Verif

namespace Verif.Solver
open Verif.Spec Verif.Tarjan

variable {R : Type}

/-- A compressed graph between cells `0..n-1`. -/
structure GoodGraph (g : AssembledConnections R) (n : Nat) : Prop where
  adj : ∃ E, IsAdjacency n E g.startPointers g.neighbourhood ∧ ∀ r < n, ∀ j : Int, E r j → 0 ≤ j ∧ j < n
  weights : g.connectionWeight.length = g.neighbourhood.length

theorem GoodGraph.rows {g : AssembledConnections R} {n : Nat} (h : GoodGraph g n) (hI : n ≤ INT_MAX) {v : Nat} (hv : v < n) :
    ∃ nb, g.cellNeighbourhood (v : Int) = .ok nb ∧ ∀ e ∈ nb, 0 ≤ e.1 ∧ e.1 < n := by
  obtain ⟨E, ha, hE⟩ := h.adj
  refine ⟨_, cellNeighbourhood_eq g ha h.weights v hv (by omega), ?_⟩
  intro e he
  exact hE v hv _ ((ha.mem v hv _).mp (List.of_mem_zip he).1)

theorem GoodGraph.isGraph {g : AssembledConnections R} {n : Nat} (h : GoodGraph g n) (hI : n ≤ INT_MAX) :
    IsGraph n g.startPointers g.neighbourhood := by
  obtain ⟨E, ha, hE⟩ := h.adj
  have hsz := ha.size
  have hmem : ∀ u < n, ∀ j ∈ rowOf g.startPointers g.neighbourhood u, 0 ≤ j ∧ j < (n : Int) :=
    fun u hu j hj => hE u hu j ((ha.mem u hu j).mp hj)
  refine ⟨by omega, ?_, ?_, hmem, hI, ?_⟩
  · intro u hu; exact ha.mono_getD (by omega) (by omega)
  · rw [ha.last_getD]
  · intro u hu
    rw [← ha.length_rowOf hu rfl]
    have hnd : (rowOf g.startPointers g.neighbourhood u).Nodup := (ha.sorted u hu).imp fun hab => ne_of_lt hab
    have hsub : (rowOf g.startPointers g.neighbourhood u).toFinset ⊆ (Finset.range n).image fun v : Nat => (v : Int) := by
      intro j hj
      have := hmem u hu j (List.mem_toFinset.mp hj)
      exact Finset.mem_image.mpr ⟨j.toNat, Finset.mem_range.mpr (by omega), by omega⟩
    have h1 := Finset.card_le_card hsub
    rw [List.toFinset_card_of_nodup hnd] at h1
    have h2 := Finset.card_image_le (s := Finset.range n) (f := fun v : Nat => (v : Int))
    rw [Finset.card_range] at h2
    omega

theorem GoodGraph.size {g : AssembledConnections R} {n : Nat} (h : GoodGraph g n) : g.startPointers.length = n + 1 := by
  obtain ⟨E, ha, _⟩ := h.adj; exact ha.size

variable [Arith R]

/-- A solver that was constructed from consistent data. -/
structure Ready (d : SolverData R) (n : Nat) : Prop where
  int : n ≤ INT_MAX
  graph : GoodGraph d.g n
  reverse : GoodGraph d.gReverse n
  pv : d.pv.length = n
  influx : d.influx.length = n
  source : d.sourceTerm.length = n

theorem inOutFlux_ok {g : AssembledConnections R} {n : Nat} (h : GoodGraph g n) (hI : n ≤ INT_MAX) :
    ∃ io, inOutFlux g = .ok io ∧ io.1.length = n := by
  have hI' : INT_MAX = 2147483647 := rfl
  have hn : narrowInt g.numRows = (n : Int) := by
    unfold AssembledConnections.numRows
    rw [h.size, if_neg (by omega), Nat.add_sub_cancel]
    unfold narrowInt
    simp only
    split <;> omega
  unfold inOutFlux
  simp only [hn, Int.toNat_natCast]
  rw [if_neg (by omega)]
  obtain ⟨s, h1, h2⟩ := forEach_range_inv (n := n)
    (s := (List.replicate n (Arith.zero : R), List.replicate n (Arith.zero : R)))
    (f := fun s cell => do
      let nb ← g.cellNeighbourhood cell
      forEach nb s (addFlux cell)) (fun _ s => s.1.length = n ∧ s.2.length = n) (by simp) (by
    intro k s hk hs
    obtain ⟨nb, hnb, hr⟩ := h.rows hI hk
    simp only [Res.bind_eq, hnb, Res.ok_bind]
    refine forEach_inv (fun _ (s : List R × List R) => s.1.length = n ∧ s.2.length = n) hs ?_
    intro pre x post s e hs
    have hx := hr x (by rw [e]; simp)
    have hsz : sizeOfInt x.1 < n := by rw [sizeOfInt_nonneg (by omega) (by omega)]; omega
    unfold addFlux
    simp only [Res.bind_eq, rd_ok (show sizeOfInt x.1 < s.1.length by omega), Res.ok_bind,
      wr_ok (show sizeOfInt x.1 < s.1.length by omega), rd_ok (show k < s.2.length by omega),
      wr_ok (show k < s.2.length by omega), Res.pure_eq]
    exact ⟨_, rfl, by simpa using hs.1, by simpa using hs.2⟩)
  exact ⟨s, h1, h2.1⟩

theorem expandSparse_ok {n : Nat} (hI : n ≤ INT_MAX) {v : CellSetValues R} (h : ∀ e ∈ v, 0 ≤ e.1 ∧ e.1 < n) :
    ∃ l, expandSparse n v = .ok l ∧ l.length = n := by
  unfold expandSparse
  obtain ⟨s, h1, h2⟩ := forEach_inv (xs := v) (s := List.replicate n (Arith.zero : R))
    (f := fun r data => wr r (sizeOfInt data.1) data.2) (fun _ s => s.length = n) (by simp) (by
    intro pre x post s e hs
    have hx := h x (by rw [e]; simp)
    have hsz : sizeOfInt x.1 < n := by rw [sizeOfInt_nonneg (by omega) (by omega)]; omega
    exact ⟨_, wr_ok (by omega), by simpa using hs⟩)
  exact ⟨s, h1, h2⟩

/-- Construction from consistent data succeeds. -/
theorem create_ready {g gr : AssembledConnections R} {n : Nat} (hI : n ≤ INT_MAX) (hg : GoodGraph g n) (hgr : GoodGraph gr n)
    {pv : List R} (hpv : pv.length = n) {source : CellSetValues R} (hs : ∀ e ∈ source, 0 ≤ e.1 ∧ e.1 < n) :
    ∃ d st, create g gr pv source = .ok (d, st) ∧ Ready d n ∧ st.localSource.length = n := by
  obtain ⟨io, h1, h2⟩ := inOutFlux_ok hg hI
  obtain ⟨src, h3, h4⟩ := expandSparse_ok hI hs
  unfold create
  simp only [Res.bind_eq, h1, Res.ok_bind, hpv, h3, Res.pure_eq]
  exact ⟨_, _, rfl, ⟨hI, hg, hgr, hpv, h2, h4⟩, by simp⟩

variable {d : SolverData R} {n : Nat} {isStart : List Bool} {ls : List R}

/-- Both fields have one entry per cell. -/
def Sized (n : Nat) (s : List R × List R) : Prop := s.1.length = n ∧ s.2.length = n

theorem single_safe (hd : Ready d n) (h1 : isStart.length = n) (h2 : ls.length = n) {s : List R × List R} (hs : Sized n s)
    {v : Nat} (hv : v < n) : (solveSingleCell d isStart ls s (v : Int)).Safe := by
  have hI := hd.int
  have hsz : sizeOfInt (v : Int) = v := by rw [sizeOfInt_nonneg (by omega) (by omega)]; simp
  obtain ⟨nb, hnb, hr⟩ := hd.reverse.rows hI hv
  have hup : ∃ up, forEach nb (Arith.zero, Arith.zero) (addUpwind s.1 s.2) = .ok up := by
    obtain ⟨u, hu, _⟩ := forEach_inv (xs := nb) (s := ((Arith.zero : R), (Arith.zero : R))) (f := addUpwind s.1 s.2)
      (fun _ _ => True) trivial (by
      intro pre x post t e _
      have hx := hr x (by rw [e]; simp)
      have hxs : sizeOfInt x.1 < n := by rw [sizeOfInt_nonneg (by omega) (by omega)]; omega
      unfold addUpwind
      simp only [Res.bind_eq, rd_ok (show sizeOfInt x.1 < s.1.length by rw [hs.1]; omega), Res.ok_bind,
        rd_ok (show sizeOfInt x.1 < s.2.length by rw [hs.2]; omega), Res.pure_eq]
      exact ⟨_, rfl, trivial⟩)
    exact ⟨u, hu⟩
  obtain ⟨up, hup⟩ := hup
  have hls : ∀ b x, ∃ y, withLocalSource b ls v x = .ok y := by
    intro b x
    unfold withLocalSource
    cases b
    · exact ⟨_, rfl⟩
    · simp only [Res.bind_eq, rd_ok (show v < ls.length by omega), Res.ok_bind, Res.pure_eq]; exact ⟨_, rfl⟩
  unfold solveSingleCell
  simp only [hsz, Res.bind_eq, rd_ok (show v < d.sourceTerm.length by rw [hd.source]; exact hv), Res.ok_bind,
    rd_ok (show v < isStart.length by omega), rd_ok (show v < d.influx.length by rw [hd.influx]; exact hv), hnb, hup]
  obtain ⟨y, hy⟩ := hls (isStart[v]'(by omega)) up.2
  rw [hy, Res.ok_bind]
  refine (assertThat_safe _).bind fun _ _ => (assertThat_safe _).bind fun _ _ => ?_
  have hct : ∀ a b : R, (cellTracer a b).Safe := by
    intro a b
    unfold cellTracer
    split
    · simp only [Res.bind_eq, Res.pure_eq]
      exact (assertThat_safe _).bind fun _ _ => .ok _
    · exact .ok _
  refine (hct _ _).bind fun c _ => ?_
  rw [wr_ok (show v < s.2.length by rw [hs.2]; exact hv), Res.ok_bind, rd_ok (show v < d.pv.length by rw [hd.pv]; exact hv),
    Res.ok_bind, wr_ok (show v < s.1.length by rw [hs.1]; exact hv), Res.ok_bind]
  exact .ok _

theorem single_sized {s t : List R × List R} {c : Int} (h : solveSingleCell d isStart ls s c = .ok t) (hs : Sized n s) : Sized n t := by
  unfold solveSingleCell at h
  simp only [Res.bind_eq, Res.pure_eq, Res.bind_ok_iff] at h
  obtain ⟨_, _, _, _, _, _, _, _, _, _, _, _, _, _, _, _, _, _, tr, h1, _, _, tf, h2, h3⟩ := h
  cases h3
  rw [wr_eq_ok_iff] at h1 h2
  exact ⟨by rw [h2.2]; simp [hs.1], by rw [h1.2]; simp [hs.2]⟩

theorem sweep_safe (hd : Ready d n) (h1 : isStart.length = n) (h2 : ls.length = n)
    {s : (List R × List R) × (R × R)} (hs : Sized n s.1) {v : Nat} (hv : v < n) :
    (sweepCell d isStart ls s (v : Int)).Safe := by
  have hI := hd.int
  have hsz : sizeOfInt (v : Int) = v := by rw [sizeOfInt_nonneg (by omega) (by omega)]; simp
  unfold sweepCell
  simp only [hsz, Res.bind_eq, rd_ok (show v < s.1.1.length by rw [hs.1]; exact hv), Res.ok_bind,
    rd_ok (show v < s.1.2.length by rw [hs.2]; exact hv)]
  refine (single_safe hd h1 h2 hs hv).bind fun f hf => ?_
  have := single_sized hf hs
  rw [rd_ok (show v < f.1.length by rw [this.1]; exact hv), Res.ok_bind,
    rd_ok (show v < f.2.length by rw [this.2]; exact hv), Res.ok_bind]
  exact .ok _

theorem sweep_sized {s t : (List R × List R) × (R × R)} {c : Int} (h : sweepCell d isStart ls s c = .ok t)
    (hs : Sized n s.1) : Sized n t.1 := by
  unfold sweepCell at h
  simp only [Res.bind_eq, Res.pure_eq, Res.bind_ok_iff] at h
  obtain ⟨_, _, _, _, f, hf, _, _, _, _, e⟩ := h
  cases e
  exact single_sized hf hs

theorem gaussSeidel_safe (hd : Ready d n) (h1 : isStart.length = n) (h2 : ls.length = n) {cells : List Nat}
    (hc : ∀ v ∈ cells, v < n) (fuel : Nat) {s : (List R × List R) × (R × R)} (hs : Sized n s.1) :
    (gaussSeidel d isStart ls (cells.map fun v : Nat => (v : Int)) fuel s).Safe := by
  induction fuel generalizing s with
  | zero =>
    unfold gaussSeidel
    split
    · exact .diverge
    · exact .ok _
  | succ k ih =>
    unfold gaussSeidel
    split
    · simp only [Res.bind_eq]
      have hp : ∀ s s' : (List R × List R) × (R × R), ∀ x ∈ cells.map fun v : Nat => (v : Int), Sized n s.1 →
          sweepCell d isStart ls s x = .ok s' → Sized n s'.1 := fun s s' x _ hs h => sweep_sized h hs
      refine (forEach_safe (s := (s.1, (Arith.zero, Arith.zero))) (fun s : (List R × List R) × (R × R) => Sized n s.1) hs ?_ hp).bind fun a ha => ih ?_
      · intro s x hx hs
        obtain ⟨v, hv, rfl⟩ := List.mem_map.mp hx
        exact sweep_safe hd h1 h2 hs (hc v hv)
      · exact (forEach_ok (s := (s.1, (Arith.zero, Arith.zero))) (fun s : (List R × List R) × (R × R) => Sized n s.1) hs hp ha).1
    · exact .ok _

theorem gaussSeidel_sized {cells : List Int} (fuel : Nat) {s : (List R × List R) × (R × R)} {t : List R × List R}
    (h : gaussSeidel d isStart ls cells fuel s = .ok t) (hs : Sized n s.1) : Sized n t := by
  induction fuel generalizing s with
  | zero =>
    unfold gaussSeidel at h
    split at h
    · cases h
    · cases h; exact hs
  | succ k ih =>
    unfold gaussSeidel at h
    split at h
    · simp only [Res.bind_eq, Res.bind_ok_iff] at h
      obtain ⟨a, ha, h⟩ := h
      exact ih h (forEach_ok (s := (s.1, (Arith.zero, Arith.zero))) (fun s : (List R × List R) × (R × R) => Sized n s.1) hs
        (fun s s' x _ hs h => sweep_sized h hs) ha).1
    · cases h; exact hs

theorem solve_safe (hd : Ready d n) (h1 : isStart.length = n) (h2 : ls.length = n) {comps : List (List Nat)}
    (hc : ∀ c ∈ comps, ∀ v ∈ c, v < n) (fuel : Nat) {s : List R × List R} (hs : Sized n s) :
    (solve d isStart ls (cellsOf comps) (offsets comps) fuel s).Safe ∧
      ∀ t, solve d isStart ls (cellsOf comps) (offsets comps) fuel s = .ok t → Sized n t := by
  have hcomp : ∀ (s : List R × List R) (k : Nat), k < comps.length →
      ∃ c ∈ comps, solveComponent d isStart ls (cellsOf comps) (offsets comps) fuel s k
        = match c.map fun v : Nat => (v : Int) with
          | [cell] => solveSingleCell d isStart ls s cell
          | cells => solveMultiCell d isStart ls fuel s cells := by
    intro s k hk
    have hck : comps[k]? = some comps[k] := List.getElem?_eq_getElem hk
    refine ⟨comps[k], List.getElem_mem hk, ?_⟩
    unfold solveComponent
    simp only [Res.bind_eq, rd_of_getElem? (offsets_getElem? comps (k := k + 1) (by omega)),
      rd_of_getElem? (offsets_getElem? comps (k := k) (by omega)), Res.ok_bind, off_succ hck,
      Nat.add_sub_cancel_left, readCells_comp hck]
    rfl
  have hlen : (offsets comps).length - 1 = comps.length := by rw [offsets_length]; omega
  have hkeep : ∀ s s' : List R × List R, ∀ k ∈ List.range ((offsets comps).length - 1), Sized n s →
      solveComponent d isStart ls (cellsOf comps) (offsets comps) fuel s k = .ok s' → Sized n s' := by
    intro s s' k hk hs h
    rw [hlen] at hk
    obtain ⟨c, hcm, e⟩ := hcomp s k (List.mem_range.mp hk)
    rw [e] at h
    split at h
    · exact single_sized h hs
    · exact gaussSeidel_sized fuel h hs
  constructor
  · unfold solve
    simp only [Res.bind_eq, Res.pure_eq]
    refine (forEach_safe (Sized n) hs ?_ hkeep).bind fun a _ => .ok _
    intro s k hk hs
    rw [hlen] at hk
    obtain ⟨c, hcm, e⟩ := hcomp s k (List.mem_range.mp hk)
    rw [e]
    split
    · rename_i cell hcell
      match c, hcell with
      | [v], hcell =>
        simp only [List.map_cons, List.map_nil, List.cons.injEq, and_true] at hcell
        subst hcell
        exact single_safe hd h1 h2 hs (hc _ hcm v (by simp))
    · exact gaussSeidel_safe hd h1 h2 (hc c hcm) fuel hs
  · intro t ht
    unfold solve at ht
    simp only [Res.bind_eq, Res.pure_eq, Res.bind_ok_iff] at ht
    obtain ⟨a, ha, e⟩ := ht
    cases e
    have := (forEach_ok (Sized n) hs hkeep ha).1
    exact ⟨by simpa using this.1, this.2⟩

/-- `solveGlobal` in any arithmetic. -/
theorem solveGlobal_safe (hd : Ready d n) : ∃ N, ∀ fuel, N ≤ fuel → ∀ s, (solveGlobal d Alloc.good fuel s).2.Safe := by
  have hG := hd.graph.isGraph hd.int
  obtain ⟨comps, ht, horder⟩ := computeOrdering_spec hG hd.graph.size Alloc.good_good
  refine ⟨n + numEdges n d.g.startPointers, fun fuel hf s => ?_⟩
  unfold solveGlobal prepareForSolve
  simp only [hd.pv]
  have hst : ∃ b, setupStartArrayFromSource d (List.replicate n false) = .ok b ∧ b.length = n := by
    unfold setupStartArrayFromSource
    rw [hd.pv]
    obtain ⟨b, hb, hl⟩ := forEach_range_inv (n := n) (s := List.replicate n false)
      (f := fun b cell => do
        let x ← rd d.sourceTerm cell
        if Arith.lt Arith.zero x then wr b cell true else pure b) (fun _ b => b.length = n) (by simp) (by
      intro k b hk hb
      simp only [Res.bind_eq, rd_ok (show k < d.sourceTerm.length by rw [hd.source]; exact hk), Res.ok_bind]
      split
      · exact ⟨_, wr_ok (by omega), by simpa using hb⟩
      · exact ⟨_, rfl, hb⟩)
    exact ⟨b, hb, hl⟩
  obtain ⟨b, hb, hbl⟩ := hst
  rw [hb]
  simp only [finish, horder fuel hf]
  have hc : ∀ c ∈ comps, ∀ v ∈ c, v < n := fun c hc v hv => (ht.cover v).mp (List.mem_flatten.mpr ⟨c, hc, hv⟩)
  have hsafe := (solve_safe hd hbl hd.source hc fuel (s := (List.replicate n Arith.zero, List.replicate n Arith.zero))
    ⟨by simp, by simp⟩).1
  generalize solve d b d.sourceTerm (cellsOf comps) (offsets comps) fuel
    (List.replicate n Arith.zero, List.replicate n Arith.zero) = r at hsafe ⊢
  cases hsafe with
  | ok a => exact .ok _
  | logicError => exact .logicError
  | assertFail => exact .assertFail
  | diverge => exact .diverge

theorem setupLocalSource_safe {n : Nat} (hI : n ≤ INT_MAX) {startset : CellSetValues R} (hp : ∀ e ∈ startset, 0 ≤ e.1 ∧ e.1 < n)
    {ls : List R} (hl : ls.length = n) :
    (setupLocalSource ls startset).1.length = n ∧ (setupLocalSource ls startset).2.Safe := by
  induction startset generalizing ls with
  | nil => exact ⟨hl, .ok _⟩
  | cons p ps ih =>
    unfold setupLocalSource
    have hx := hp p (by simp)
    have hsz : sizeOfInt p.1 < ls.length := by rw [sizeOfInt_nonneg (by omega) (by omega)]; omega
    split
    · exact ⟨hl, .logicError⟩
    · rw [wr_ok hsz]
      exact ih (fun e he => hp e (by simp [he])) (by simpa using hl)

/-- `solveLocal` in any arithmetic. -/
theorem solveLocal_safe (hd : Ready d n) {startset : CellSetValues R} (hp : ∀ e ∈ startset, 0 ≤ e.1 ∧ e.1 < n) :
    ∃ N, ∀ fuel, N ≤ fuel → ∀ s : SolverState R, s.localSource.length = n →
      (solveLocal d Alloc.good fuel startset s).2.Safe := by
  have hI := hd.int
  have hG := hd.graph.isGraph hI
  have hcast : (startset.map fun p => p.1) = (startset.map fun p => p.1.toNat).map fun v : Nat => (v : Int) := by
    rw [List.map_map]
    apply List.map_congr_left
    intro e he
    have := hp e he
    simp only [Function.comp]; omega
  have hlt : ∀ p ∈ startset.map fun p => p.1.toNat, p < n := by
    intro p h
    obtain ⟨e, he, rfl⟩ := List.mem_map.mp h
    have := hp e he
    omega
  obtain ⟨comps, ht, horder⟩ := computeLocalOrdering_spec hG hd.graph.size Alloc.good_good _ hlt
  refine ⟨n + numEdges n d.g.startPointers, fun fuel hf s hls => ?_⟩
  have hc : ∀ c ∈ comps, ∀ v ∈ c, v < n := by
    intro c hc v hv
    obtain ⟨p, hpm, hr⟩ := (ht.cover v).mp (List.mem_flatten.mpr ⟨c, hc, hv⟩)
    rcases Relation.ReflTransGen.cases_tail hr with e | ⟨x, _, hx⟩
    · rw [e]; exact hlt p hpm
    · have := hG.range x hx.1 _ hx.2; omega
  unfold solveLocal prepareForSolve
  simp only [hd.pv]
  have hst : ∃ b, setupStartArray (List.replicate n false) startset = .ok b ∧ b.length = n := by
    unfold setupStartArray
    obtain ⟨b, hb, hl⟩ := forEach_inv (xs := startset) (s := List.replicate n false)
      (f := fun b p => wr b (sizeOfInt p.1) true) (fun _ b => b.length = n) (by simp) (by
      intro pre x post b e hb
      have hx := hp x (by rw [e]; simp)
      have hsz : sizeOfInt x.1 < n := by rw [sizeOfInt_nonneg (by omega) (by omega)]; omega
      exact ⟨_, wr_ok (by omega), by simpa using hb⟩)
    exact ⟨b, hb, hl⟩
  obtain ⟨b, hb, hbl⟩ := hst
  rw [hb, hcast]
  simp only [finish, horder fuel hf]
  obtain ⟨hl1, hl2⟩ := setupLocalSource_safe hI hp hls
  generalize setupLocalSource s.localSource startset = ls at hl1 hl2 ⊢
  obtain ⟨ls, r0⟩ := ls
  simp only at hl1 hl2
  cases hl2 with
  | logicError => exact .logicError
  | assertFail => exact .assertFail
  | diverge => exact .diverge
  | ok u =>
    simp only
    obtain ⟨hsafe, hsz⟩ := solve_safe hd hbl hl1 hc fuel (s := (List.replicate n Arith.zero, List.replicate n Arith.zero))
      ⟨by simp, by simp⟩
    generalize solve d b ls (cellsOf comps) (offsets comps) fuel
      (List.replicate n Arith.zero, List.replicate n Arith.zero) = r at hsafe hsz ⊢
    cases hsafe with
    | logicError => exact .logicError
    | assertFail => exact .assertFail
    | diverge => exact .diverge
    | ok a =>
      simp only
      have ha := hsz a rfl
      have hcl : ∃ l, cleanupLocalSource ls startset = .ok l := by
        unfold cleanupLocalSource
        obtain ⟨l, hl, _⟩ := forEach_inv (xs := startset) (s := ls)
          (f := fun ls p => wr ls (sizeOfInt p.1) Arith.zero) (fun _ b => b.length = n) hl1 (by
          intro pre x post b e hb
          have hx := hp x (by rw [e]; simp)
          have hsz : sizeOfInt x.1 < n := by rw [sizeOfInt_nonneg (by omega) (by omega)]; omega
          exact ⟨_, wr_ok (by omega), by simpa using hb⟩)
        exact ⟨l, hl⟩
      obtain ⟨l, hl⟩ := hcl
      rw [hl]
      simp only
      have hcol : (collect a.1 a.2 (cellsOf comps) (offsets comps)).Safe := by
        unfold collect
        simp only [Res.bind_eq, back_offsets, Res.ok_bind]
        have : readCells (cellsOf comps) 0 comps.flatten.length = .ok (cellsOf comps) := by
          have e : comps.flatten.length = (cellsOf comps).length := by unfold cellsOf; rw [List.length_map]
          unfold readCells
          rw [e, if_pos (by omega), List.drop_zero, List.take_length]
        rw [this, Res.ok_bind]
        refine forEach_safe (fun _ => True) trivial ?_ (fun _ _ _ _ _ _ => trivial)
        intro q x hx _
        obtain ⟨v, hv, rfl⟩ := List.mem_map.mp hx
        obtain ⟨c, hcm, hvc⟩ := List.mem_flatten.mp hv
        have hv := hc c hcm v hvc
        have hsz : sizeOfInt (v : Int) = v := by rw [sizeOfInt_nonneg (by omega) (by omega)]; simp
        unfold collectCell
        simp only [hsz, Res.bind_eq, rd_ok (show v < a.1.length by rw [ha.1]; exact hv), Res.ok_bind,
          rd_ok (show v < a.2.length by rw [ha.2]; exact hv)]
        split
        · exact .logicError
        · exact .ok _
      generalize collect a.1 a.2 (cellsOf comps) (offsets comps) = r at hcol ⊢
      cases hcol with
      | ok a => exact .ok _
      | logicError => exact .logicError
      | assertFail => exact .assertFail
      | diverge => exact .diverge

end Verif.Solver
