/-
Whole solves on finite values.
-/
import Verif.Proofs.SolverRefine
import Verif.Proofs.SolverComp
import Verif.Proofs.SolverOrder
import Verif.Proofs.Adjacency
import Verif.Proofs.OMap

namespace Verif.Solver
open Finset Verif.Spec Verif.Tarjan

variable {K : Type} [Field K] [LinearOrder K]

/-! ### The graph -/

section graph
variable {g : AssembledConnections (X K)} {n : Nat} {w : Nat → Nat → K}

theorem _root_.Verif.Spec.HasFlow.mem_row (h : HasFlow g n w) {u : Nat} (hu : u < n) (j : Int) :
    j ∈ rowOf g.startPointers g.neighbourhood u ↔ ∃ v : Nat, j = v ∧ v < n ∧ 0 < w u v := by
  rw [h.adj.mem u hu]
  constructor
  · rintro ⟨u', v, e, hj, hv, hw⟩
    have : u = u' := by exact_mod_cast e
    subst this; exact ⟨v, hj, hv, hw⟩
  · rintro ⟨v, hj, hv, hw⟩; exact ⟨u, v, rfl, hj, hv, hw⟩

theorem _root_.Verif.Spec.HasFlow.isGraph (h : HasFlow g n w) (hI : n ≤ INT_MAX) : IsGraph n g.startPointers g.neighbourhood := by
  have hsz := h.adj.size
  refine ⟨by omega, ?_, ?_, ?_, hI, ?_⟩
  · intro u hu; exact h.adj.mono_getD (by omega) (by omega)
  · rw [h.adj.last_getD]
  · intro u hu j hj
    obtain ⟨v, rfl, hv, _⟩ := (h.mem_row hu j).mp hj
    omega
  · intro u hu
    rw [← h.adj.length_rowOf hu rfl]
    have hnd : (rowOf g.startPointers g.neighbourhood u).Nodup :=
      (h.adj.sorted u hu).imp fun hab => ne_of_lt hab
    have hsub : (rowOf g.startPointers g.neighbourhood u).toFinset
        ⊆ (Finset.range n).image fun v : Nat => (v : Int) := by
      intro j hj
      obtain ⟨v, rfl, hv, _⟩ := (h.mem_row hu j).mp (List.mem_toFinset.mp hj)
      exact mem_image.mpr ⟨v, mem_range.mpr hv, rfl⟩
    have h1 := card_le_card hsub
    rw [List.toFinset_card_of_nodup hnd] at h1
    have h2 := card_image_le (s := Finset.range n) (f := fun v : Nat => (v : Int))
    rw [card_range] at h2
    omega

theorem hasEdge_iff (h : HasFlow g n w) (u v : Nat) :
    HasEdge n g.startPointers g.neighbourhood u v ↔ u < n ∧ v < n ∧ 0 < w u v := by
  unfold HasEdge
  constructor
  · rintro ⟨hu, hr⟩
    obtain ⟨v', e, hv, hw⟩ := (h.mem_row hu _).mp hr
    have : v = v' := by exact_mod_cast e
    subst this; exact ⟨hu, hv, hw⟩
  · rintro ⟨hu, hv, hw⟩
    exact ⟨hu, (h.mem_row hu _).mpr ⟨v, rfl, hv, hw⟩⟩

theorem reachable_iff {F : Flow K} (h : HasFlow g F.n F.w) (u v : Nat) :
    Reachable F.n g.startPointers g.neighbourhood u v ↔ F.Reach u v := by
  unfold Reachable Flow.Reach
  have : HasEdge F.n g.startPointers g.neighbourhood = F.Edge := by
    funext a b; exact propext (hasEdge_iff h a b)
  rw [this]

end graph

/-- Components of the cells `V`, most upstream first. -/
structure FTopo (S : Sys K) (V : Nat → Prop) (comps : List (List Nat)) : Prop where
  nonempty : ∀ c ∈ comps, c ≠ []
  once : comps.flatten.Nodup
  cover : ∀ v, v ∈ comps.flatten ↔ V v
  lt : ∀ v, V v → v < S.n
  connected : ∀ c ∈ comps, S.Connected c
  reach : ∀ c ∈ comps, ∀ u ∈ c, ∀ v ∈ c, S.Reach u v
  order : ∀ pre c post, comps = pre ++ c :: post → ∀ x ∈ c, ∀ v ∈ pre.flatten, ¬ 0 < S.w x v
  maximal : ∀ c ∈ comps, ∀ u ∈ c, ∀ v, S.Reach u v → S.Reach v u → v ∈ c

theorem FTopo.of {S : Sys K} {g : AssembledConnections (X K)} (h : HasFlow g S.n S.w) {V : Nat → Prop}
    {comps : List (List Nat)} (ht : Topo S.n g.startPointers g.neighbourhood V comps)
    (hlt : ∀ v, V v → v < S.n) (hcl : ∀ u v, V u → S.Reach u v → V v) : FTopo S V comps := by
  have hR := reachable_iff (F := S.toFlow) h
  refine ⟨ht.nonempty, ht.once, ht.cover, hlt, ?_, ?_, ?_, ?_⟩
  · intro c hc u hu v hv
    have hVu : V u := (ht.cover u).mp (List.mem_flatten.mpr ⟨c, hc, hu⟩)
    have h1 := (hR u v).mp (ht.strong c hc u hu v hv)
    have h2 := (hR v u).mp (ht.strong c hc v hv u hu)
    clear hv
    induction h1 with
    | refl => exact .refl
    | @tail b v hub e ih =>
      have hb2 : S.Reach b u := Relation.ReflTransGen.head e h2
      have hbc : b ∈ c := ht.weak c hc u hu b (hcl u b hVu hub) ((hR u b).mpr hub) ((hR b u).mpr hb2)
      have hvc : v ∈ c := ht.weak c hc u hu v (hcl u v hVu (hub.tail e)) ((hR u v).mpr (hub.tail e))
        ((hR v u).mpr h2)
      exact (ih hb2).tail ⟨hbc, hvc, e.2.2⟩
  · intro c hc u hu v hv
    exact (hR u v).mp (ht.strong c hc u hu v hv)
  · intro pre c post e x hx v hv hw
    refine ht.order pre c post e x hx v hv ((hasEdge_iff h x v).mpr ⟨?_, ?_, hw⟩)
    · refine hlt x ((ht.cover x).mp (List.mem_flatten.mpr ⟨c, ?_, hx⟩)); rw [e]; simp
    · refine hlt v ((ht.cover v).mp ?_); rw [e, List.flatten_append]; exact List.mem_append_left _ hv
  · intro c hc u hu v h1 h2
    exact ht.weak c hc u hu v (hcl u v ((ht.cover u).mp (List.mem_flatten.mpr ⟨c, hc, hu⟩)) h1) ((hR u v).mpr h1)
      ((hR v u).mpr h2)

variable [IsStrictOrderedRing K]

/-! ### The component loop -/

section solve
variable {S : Sys K} {d : SolverData (X K)} {isStart : List Bool} {localSource : List (X K)} {B : K}

theorem readCells_comp {comps : List (List Nat)} {k : Nat} {c : List Nat} (hc : comps[k]? = some c) :
    readCells (cellsOf comps) (off comps k) c.length = .ok (c.map fun v : Nat => (v : Int)) := by
  have hk : k < comps.length := by
    by_contra hcon; rw [List.getElem?_eq_none (by omega)] at hc; simp at hc
  have hle := off_le comps (k + 1)
  rw [off_succ hc] at hle
  have hget : comps[k] = c := by rw [List.getElem?_eq_getElem hk] at hc; simpa using hc
  have hsplit : comps = comps.take k ++ c :: comps.drop (k + 1) := by
    rw [← hget, List.getElem_cons_drop, List.take_append_drop]
  unfold readCells
  rw [if_pos (by unfold cellsOf; rw [List.length_map]; exact hle)]
  congr 1
  unfold cellsOf
  rw [← List.map_drop, ← List.map_take]
  congr 1
  have h1 : comps.flatten = (comps.take k).flatten ++ (c ++ (comps.drop (k + 1)).flatten) := by
    conv_lhs => rw [hsplit]
    rw [List.flatten_append, List.flatten_cons]
  rw [h1, show off comps k = (comps.take k).flatten.length from rfl, List.drop_left, List.take_left]

theorem component_exact [Archimedean K] (hd : IsSolver S.toFlow d) (hS : S.Ok) (hB : S.Bounded B)
    (hst : HasStarts S isStart localSource) {V : Nat → Prop} {comps : List (List Nat)} (ht : FTopo S V comps)
    {k : Nat} (hk : k < comps.length) {s : St K} (hi : S.Inv B tolT tolC (comps.take k) s) :
    ∃ s' N, (∀ fuel, N ≤ fuel → solveComponent d isStart localSource (cellsOf comps) (offsets comps) fuel
        (arr S.n s.1, arr S.n s.2) k = .ok (arr S.n s'.1, arr S.n s'.2)) ∧
      S.Inv B tolT tolC (comps.take (k + 1)) s' := by
  have hck : comps[k]? = some comps[k] := List.getElem?_eq_getElem hk
  have hmem : comps[k] ∈ comps := List.getElem_mem hk
  have hsplit : comps = comps.take k ++ comps[k] :: comps.drop (k + 1) := by
    rw [List.getElem_cons_drop, List.take_append_drop]
  have hlt : ∀ v ∈ comps[k], v < S.n := fun v hv =>
    ht.lt v ((ht.cover v).mp (List.mem_flatten.mpr ⟨_, hmem, hv⟩))
  have hdlt : ∀ v ∈ (comps.take k).flatten, v < S.n := fun v hv =>
    ht.lt v ((ht.cover v).mp (by rw [hsplit, List.flatten_append]; exact List.mem_append_left _ hv))
  have honce := ht.once
  rw [hsplit, List.flatten_append, List.flatten_cons] at honce
  have hnd : comps[k].Nodup := (List.nodup_append.mp (List.nodup_append.mp honce).2.1).1
  have hnew : ∀ x ∈ comps[k], x ∉ (comps.take k).flatten := by
    intro x hx hx'
    exact (List.nodup_append.mp honce).2.2 x hx' x (List.mem_append_left _ hx) rfl
  have hup := ht.order _ _ _ hsplit
  have hne := ht.nonempty _ hmem
  have hcon := ht.connected _ hmem
  have htake : comps.take (k + 1) = comps.take k ++ [comps[k]] := List.take_succ_eq_append_getElem hk
  have hread : ∀ fuel, solveComponent d isStart localSource (cellsOf comps) (offsets comps) fuel
        (arr S.n s.1, arr S.n s.2) k
      = (match comps[k].map fun v : Nat => (v : Int) with
        | [cell] => solveSingleCell d isStart localSource (arr S.n s.1, arr S.n s.2) cell
        | cells => solveMultiCell d isStart localSource fuel (arr S.n s.1, arr S.n s.2) cells) := by
    intro fuel
    unfold solveComponent
    simp only [Res.bind_eq, rd_of_getElem? (offsets_getElem? comps (k := k + 1) (by omega)),
      rd_of_getElem? (offsets_getElem? comps (k := k) (by omega)), Res.ok_bind, off_succ hck,
      Nat.add_sub_cancel_left, readCells_comp hck]
    rfl
  rw [htake]
  generalize hcdef : comps[k] = c at *
  match c, hne with
  | [v], _ =>
    refine ⟨S.upd s v, 0, ?_, ?_⟩
    · intro fuel _
      rw [hread fuel]
      exact single_exact hd hS hst hi.nonneg (hlt v (by simp))
    · exact hi.single hS hB hdlt (hlt v (by simp)) (hnew v (by simp)) (hup v (by simp))
  | a :: b :: l, _ =>
    have htot : ∀ v ∈ a :: b :: l, 0 < S.total v := by
      intro v hv
      -- some other cell of the component
      have hother : ∃ u ∈ a :: b :: l, u ≠ v := by
        by_cases e : a = v
        · refine ⟨b, by simp, ?_⟩
          rintro rfl
          subst e
          exact (List.nodup_cons.mp hnd).1 (by simp)
        · exact ⟨a, by simp, e⟩
      obtain ⟨u, hu, huv⟩ := hother
      have hp := hcon u hu v hv
      rcases Relation.ReflTransGen.cases_tail hp with e | ⟨x, _, hx⟩
      · exact absurd e.symm huv
      · have hxn := hlt x hx.1
        have h1 : S.w x v ≤ S.inflow v :=
          single_le_sum (f := fun u => S.w u v) (fun u hu => hS.w_nonneg u v (mem_range.mp hu) (hlt v hv))
            (mem_range.mpr hxn)
        have h2 := hS.src_nonneg v (hlt v hv)
        have h3 := hx.2.2
        unfold Flow.total; linarith
    have hb : S.Begin B (a :: b :: l) s := hi.begin hlt hnd hnew hcon htot
    obtain ⟨k, hcv⟩ := hb.converges hS hB tolT_pos tolC_pos
    obtain ⟨h, hh, hgo⟩ := huge_continues (K := K)
    obtain ⟨j, hcv', hrun⟩ := gaussSeidel_exact hd hS hst hlt hnd k s h h hi.nonneg hgo hcv
    refine ⟨_, k + 1, ?_, hi.multi hS hB hdlt hb (by simp) hnew hup hcv'⟩
    intro fuel hf
    rw [hread fuel]
    simp only [List.map_cons]
    unfold solveMultiCell
    rw [hh]
    exact hrun fuel hf

theorem solve_exact [Archimedean K] (hd : IsSolver S.toFlow d) (hS : S.Ok) (hB : S.Bounded B)
    (hst : HasStarts S isStart localSource) {V : Nat → Prop} {comps : List (List Nat)} (ht : FTopo S V comps) :
    ∃ s N, (∀ fuel, N ≤ fuel → solve d isStart localSource (cellsOf comps) (offsets comps) fuel
        (arr S.n fun _ => 0, arr S.n fun _ => 0)
          = .ok (arr S.n (fun v => min (s.1 v) cap), arr S.n s.2)) ∧
      S.Inv B tolT tolC comps s := by
  have hloop : ∀ k ≤ comps.length, ∃ s N, (∀ fuel, N ≤ fuel →
      forEach (List.range k) (arr S.n fun _ => 0, arr S.n fun _ => 0)
        (solveComponent d isStart localSource (cellsOf comps) (offsets comps) fuel)
        = .ok (arr S.n s.1, arr S.n s.2)) ∧ S.Inv B tolT tolC (comps.take k) s := by
    intro k
    induction k with
    | zero => intro _; exact ⟨(fun _ => 0, fun _ => 0), 0, fun _ _ => rfl, Sys.Inv.init hB⟩
    | succ k ih =>
      intro hk
      obtain ⟨s, N, h1, h2⟩ := ih (by omega)
      obtain ⟨s', N', h1', h2'⟩ := component_exact hd hS hB hst ht (by omega) h2
      refine ⟨s', max N N', ?_, h2'⟩
      intro fuel hf
      rw [List.range_succ, forEach_append, h1 fuel (le_trans (le_max_left _ _) hf), Res.ok_bind, forEach_cons,
        h1' fuel (le_trans (le_max_right _ _) hf)]
      rfl
  obtain ⟨s, N, h1, h2⟩ := hloop comps.length (le_refl _)
  rw [List.take_length] at h2
  refine ⟨s, N, ?_, h2⟩
  intro fuel hf
  unfold solve
  simp only [Res.bind_eq, Res.pure_eq, offsets_length, Nat.add_sub_cancel, h1 fuel hf, Res.ok_bind]
  congr 2
  unfold arr
  rw [List.map_map]
  apply List.map_congr_left
  intro i _
  simp only [Function.comp, maxTof_eq, X_min]

end solve

/-! ### Construction -/

section create

theorem replicate_arr (n : Nat) : List.replicate n (Arith.zero : X K) = arr n fun _ => 0 := by
  unfold arr
  rw [List.map_const', List.length_range, X_zero]

theorem expandSparse_exact {n : Nat} (hI : n ≤ INT_MAX) {ps : List Nat} {f : Nat → K} (hp : ∀ p ∈ ps, p < n)
    (h0 : ∀ v < n, v ∉ ps → f v = 0) : expandSparse n (valuesOf ps f) = .ok (arr n f) := by
  unfold expandSparse
  rw [replicate_arr]
  have key : ∀ (l : List Nat) (h : Nat → K), (∀ p ∈ l, p < n) →
      forEach (valuesOf l f) (arr n h) (fun r data => wr r (sizeOfInt data.1) data.2)
        = .ok (arr n fun v => if v ∈ l then f v else h v) := by
    intro l
    induction l with
    | nil => intro h _; simp [valuesOf]
    | cons p l ih =>
      intro h hl
      have hpn := hl p List.mem_cons_self
      unfold valuesOf at ih ⊢
      rw [List.map_cons, forEach_cons]
      simp only [sizeOfInt_nat hpn hI, wr_arr _ _ hpn, Res.ok_bind]
      rw [ih _ fun x hx => hl x (List.mem_cons_of_mem _ hx)]
      congr 1
      apply arr_congr
      intro v _
      by_cases hv : v ∈ l
      · simp [hv]
      · by_cases e : v = p
        · subst e; simp
        · simp [hv, e]
  rw [key ps _ hp]
  congr 1
  apply arr_congr
  intro v hv
  by_cases hm : v ∈ ps
  · simp [hm]
  · simp [hm, h0 v hv hm]

theorem inOutFlux_exact {g : AssembledConnections (X K)} {n : Nat} {w : Nat → Nat → K} (hg : HasFlow g n w)
    (hI : n ≤ INT_MAX) (hw : ∀ u v, u < n → v < n → 0 ≤ w u v) :
    ∃ out, inOutFlux g = .ok (arr n fun v => ∑ u ∈ range n, w u v, out) := by
  have hI' : INT_MAX = 2147483647 := rfl
  have hnar : narrowInt g.numRows = (n : Int) := by
    unfold AssembledConnections.numRows
    rw [hg.adj.size, if_neg (by omega), Nat.add_sub_cancel]
    unfold narrowInt
    simp only
    rw [Nat.mod_eq_of_lt (by omega), if_pos (by omega)]
  unfold inOutFlux
  simp only [hnar]
  rw [if_neg (by omega), Int.toNat_natCast]
  obtain ⟨r, e, h1, _⟩ := forEach_range_inv (n := n)
    (s := (List.replicate n (Arith.zero : X K), List.replicate n (Arith.zero : X K)))
    (f := fun s (cell : Nat) => do
      let nb ← g.cellNeighbourhood cell
      forEach nb s (addFlux cell))
    (fun k s => s.1 = arr n (fun v => ∑ u ∈ range k, w u v) ∧ ∃ o, s.2 = arr n o)
    (by simp only [sum_range_zero]; exact ⟨replicate_arr n, _, replicate_arr n⟩)
    (by
      rintro k ⟨a, b⟩ hk ⟨ha, o, hb⟩
      simp only at ha hb
      subst ha hb
      simp only [Res.bind_eq, hg.rows k hk, Res.ok_bind]
      have key : ∀ (l : List Nat) (f h : Nat → K), (∀ v ∈ l, v < n) → l.Nodup →
          ∃ h', forEach (l.map fun v : Nat => ((v : Int), X.fin (w k v))) (arr n f, arr n h) (addFlux k)
            = .ok (arr n (fun v => f v + if v ∈ l then w k v else 0), arr n h') := by
        intro l
        induction l with
        | nil => intro f h _ _; exact ⟨h, by simp⟩
        | cons v l ih =>
          intro f h hl hnd
          have hv := hl v List.mem_cons_self
          obtain ⟨hvl, hnd'⟩ := List.nodup_cons.mp hnd
          obtain ⟨h', e⟩ := ih (Function.update f v (f v + w k v)) (Function.update h k (h k + w k v))
            (fun x hx => hl x (List.mem_cons_of_mem _ hx)) hnd'
          refine ⟨h', ?_⟩
          have hstep : addFlux k (arr n f, arr n h) ((v : Int), X.fin (w k v))
              = .ok (arr n (Function.update f v (f v + w k v)), arr n (Function.update h k (h k + w k v))) := by
            unfold addFlux
            simp only [Res.bind_eq, Res.pure_eq, sizeOfInt_nat hv hI, rd_arr _ hv, rd_arr _ hk, Res.ok_bind,
              X_add, wr_arr _ _ hv, wr_arr _ _ hk]
          rw [List.map_cons, forEach_cons, hstep, Res.ok_bind, e]
          congr 2
          apply arr_congr
          intro x _
          by_cases ex : x = v
          · subst ex; simp [hvl]
          · simp [ex]
      obtain ⟨h', e⟩ := key ((List.range n).filter fun v => decide (0 < w k v))
        (fun v => ∑ u ∈ range k, w u v) o (fun v hv => List.mem_range.mp (List.mem_filter.mp hv).1)
        (List.nodup_range.filter _)
      refine ⟨_, e, ?_, h', rfl⟩
      apply arr_congr
      intro v hv
      rw [sum_range_succ]
      congr 1
      by_cases hp : 0 < w k v
      · rw [if_pos (List.mem_filter.mpr ⟨List.mem_range.mpr hv, by simpa using hp⟩)]
      · rw [if_neg (fun hm => hp (by simpa using (List.mem_filter.mp hm).2))]
        exact le_antisymm (hw k v hk hv) (not_lt.mp hp))
  refine ⟨r.2, ?_⟩
  rw [e]
  congr 1
  exact Prod.ext h1 rfl

/-- The constructor. -/
theorem create_exact {F : Flow K} (hF : F.Valid) {g gr : AssembledConnections (X K)}
    (hg : HasFlow g F.n F.w) (hgr : HasFlow gr F.n fun u v => F.w v u) {ps : List Nat}
    (hp : ∀ p ∈ ps, p < F.n) (h0 : ∀ v < F.n, v ∉ ps → F.src v = 0) :
    ∃ d st, create g gr (arr F.n F.pv) (valuesOf ps F.src) = .ok (d, st) ∧ IsSolver F d ∧
      st.localSource.length = F.n := by
  obtain ⟨out, e⟩ := inOutFlux_exact hg hF.int hF.w_nonneg
  refine ⟨⟨g, gr, arr F.n F.pv, arr F.n F.inflow, out, arr F.n F.src⟩,
    { localSource := List.replicate F.n Arith.zero }, ?_, ⟨hg, hgr, rfl, rfl, rfl⟩, by simp⟩
  unfold create
  simp only [Res.bind_eq, Res.pure_eq, e, Res.ok_bind, arr_length, expandSparse_exact hF.int hp h0]
  rfl

end create

end Verif.Solver
