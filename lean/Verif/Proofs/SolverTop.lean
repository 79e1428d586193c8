/-
`solveGlobal` and `solveLocal` on finite values.
-/
import Verif.Proofs.SolverRun
import Verif.Proofs.SolverState

namespace Verif.Solver
open Finset Verif.Spec Verif.Tarjan

variable {K : Type} [Field K] [LinearOrder K]

theorem Alloc.Good.eq {al : Alloc} (h : al.Good) : al = Alloc.good := by
  obtain ⟨w, st, ⟨a, b, c⟩, ⟨x, y, z⟩⟩ := al
  have h1 := h.workspace; have h2 := h.status; have h3 := h.result; have h4 := h.reverse
  simp only [AllocSCC.all, Bool.and_eq_true] at h1 h2 h3 h4
  obtain ⟨rfl, rfl, rfl⟩ := h3
  obtain ⟨rfl, rfl, rfl⟩ := h4
  subst h1 h2
  rfl

theorem Alloc.good_good : Alloc.good.Good := ⟨rfl, rfl, rfl, rfl⟩

/-- The system solved by `solveLocal`. -/
def localSys (F : Flow K) (starts : List Nat) (ls : Nat → K) : Sys K :=
  { F with
    start := fun v => decide (v ∈ starts)
    ls := ls
    M := cap }

/-- The system solved by `solveGlobal`. -/
def globalSys (F : Flow K) : Sys K :=
  { F with
    start := fun v => decide (0 < F.src v)
    ls := F.src
    M := cap }

variable [IsStrictOrderedRing K]

theorem localSys_ok {F : Flow K} (hF : F.Valid) {starts : List Nat} {ls : Nat → K} (h : ∀ p ∈ starts, 0 ≤ ls p) :
    (localSys F starts ls).Ok :=
  ⟨hF.w_nonneg, hF.pv_nonneg, hF.src_nonneg, fun v _ hs => h v (by simpa [localSys] using hs), cap_pos⟩

theorem globalSys_ok {F : Flow K} (hF : F.Valid) : (globalSys F).Ok :=
  ⟨hF.w_nonneg, hF.pv_nonneg, hF.src_nonneg, fun v hv _ => hF.src_nonneg v hv, cap_pos⟩

theorem globalSys_bounded (F : Flow K) : (globalSys F).Bounded 1 :=
  ⟨le_refl _, fun v _ _ _ => by simp [globalSys]⟩

/-- Some bound always exists. -/
theorem exists_bounded {F : Flow K} (hF : F.Valid) (starts : List Nat) (ls : Nat → K) :
    ∃ B, (localSys F starts ls).Bounded B := by
  obtain ⟨p, hp0, hp⟩ := Sys.exists_ge (List.range F.n) fun v => ls v / F.src v
  refine ⟨1 + p, by linarith, ?_⟩
  intro v hv _ hsrc
  have hs : 0 < F.src v := lt_of_le_of_ne (hF.src_nonneg v hv) (Ne.symm hsrc)
  have h1 := hp v (List.mem_range.mpr hv)
  have h2 : ls v ≤ p * F.src v := (div_le_iff₀ hs).mp h1
  show ls v ≤ (1 + p) * F.src v
  nlinarith

omit [IsStrictOrderedRing K] in
theorem reach_lt {F : Flow K} {u v : Nat} (hu : u < F.n) (h : F.Reach u v) : v < F.n := by
  rcases Relation.ReflTransGen.cases_tail h with e | ⟨x, _, e⟩
  · rw [e]; exact hu
  · exact e.2.1

/-! ### Pieces -/

omit [IsStrictOrderedRing K] in
theorem setupStartArray_exact {n : Nat} (hI : n ≤ INT_MAX) (starts : List Nat) (f : Nat → K)
    (hp : ∀ p ∈ starts, p < n) : ∃ b, setupStartArray (List.replicate n false) (valuesOf starts f) = .ok b ∧
      ∀ v < n, b[v]? = some (decide (v ∈ starts)) := by
  have key : ∀ (l : List Nat) (b : List Bool), (∀ p ∈ l, p < n) → b.length = n →
      ∃ b', setupStartArray b (valuesOf l f) = .ok b' ∧ b'.length = n ∧
        ∀ v < n, b'[v]? = if v ∈ l then some true else b[v]? := by
    intro l
    induction l with
    | nil => intro b _ hb; exact ⟨b, rfl, hb, by simp⟩
    | cons p l ih =>
      intro b hl hb
      have hpn := hl p List.mem_cons_self
      obtain ⟨b', e, h1, h2⟩ := ih (b.set p true) (fun x hx => hl x (List.mem_cons_of_mem _ hx)) (by simpa)
      refine ⟨b', ?_, h1, ?_⟩
      · unfold setupStartArray valuesOf at e ⊢
        rw [List.map_cons, forEach_cons]
        simp only [sizeOfInt_nat hpn hI, wr_ok (show p < b.length by omega), Res.ok_bind]
        exact e
      · intro v hv
        rw [h2 v hv]
        by_cases hvl : v ∈ l
        · simp [hvl]
        · by_cases ev : v = p
          · subst ev; simp [hvl, hb, hv]
          · simp [hvl, ev, List.getElem?_set_ne (Ne.symm ev)]
  obtain ⟨b', e, _, h2⟩ := key starts (List.replicate n false) hp (by simp)
  refine ⟨b', e, ?_⟩
  intro v hv
  rw [h2 v hv]
  by_cases hm : v ∈ starts <;> simp [hm, hv]

omit [IsStrictOrderedRing K] in
theorem setupStartArrayFromSource_exact {F : Flow K} {d : SolverData (X K)} (hd : IsSolver F d) :
    ∃ b, setupStartArrayFromSource d (List.replicate F.n false) = .ok b ∧
      ∀ v < F.n, b[v]? = some (decide (0 < F.src v)) := by
  unfold setupStartArrayFromSource
  rw [hd.pv, arr_length]
  obtain ⟨b, e, _, h2⟩ := forEach_range_inv (n := F.n) (s := List.replicate F.n false)
    (f := fun (b : List Bool) cell => do
      let x ← rd d.sourceTerm cell
      if Arith.lt Arith.zero x then wr b cell true else pure b)
    (fun k b => b.length = F.n ∧ ∀ v < F.n, b[v]? = some (decide (v < k ∧ 0 < F.src v)))
    (by
      refine ⟨by simp, ?_⟩
      intro v hv; simp [hv])
    (by
      rintro k b hk ⟨h1, h2⟩
      simp only [Res.bind_eq, Res.pure_eq, hd.source, rd_arr _ hk, Res.ok_bind, X_zero, X_lt]
      by_cases hs : 0 < F.src k
      · refine ⟨b.set k true, ?_, by simpa, ?_⟩
        · simp only [hs, decide_true, if_true]; exact wr_ok (by omega)
        · intro v hv
          by_cases e : v = k
          · subst e; rw [List.getElem?_set_self (by omega)]; simp [hs]
          · rw [List.getElem?_set_ne (Ne.symm e), h2 v hv]
            have : v < k + 1 ↔ v < k := by omega
            simp only [this]
      · refine ⟨b, by simp [hs], h1, ?_⟩
        intro v hv
        rw [h2 v hv]
        by_cases e : v = k
        · subst e; simp [hs]
        · have : v < k + 1 ↔ v < k := by omega
          simp only [this])
  refine ⟨b, e, ?_⟩
  intro v hv
  rw [h2 v hv]; simp [hv]

theorem setupLocalSource_exact {n : Nat} (hI : n ≤ INT_MAX) (f : Nat → K) : ∀ (starts : List Nat),
    (∀ p ∈ starts, p < n) → (∀ p ∈ starts, 0 ≤ f p) → ∀ (ls : List (X K)), ls.length = n →
      ∃ ls', setupLocalSource ls (valuesOf starts f) = (ls', .ok ()) ∧ ls'.length = n ∧
        ∀ v, ls'[v]? = if v ∈ starts then some (X.fin (f v)) else ls[v]?
  | [], _, _, ls, hl => ⟨ls, rfl, hl, by simp⟩
  | p :: starts, hp, hn, ls, hl => by
    have hpn := hp p List.mem_cons_self
    have hp0 := hn p List.mem_cons_self
    obtain ⟨ls', e, h1, h2⟩ := setupLocalSource_exact hI f starts (fun x hx => hp x (List.mem_cons_of_mem _ hx))
      (fun x hx => hn x (List.mem_cons_of_mem _ hx)) (ls.set p (X.fin (f p))) (by simpa)
    refine ⟨ls', ?_, h1, ?_⟩
    · unfold valuesOf at e ⊢
      rw [List.map_cons]
      unfold setupLocalSource
      have hlt : Arith.lt (X.fin (f p)) (Arith.zero : X K) = false := by
        rw [X_zero, X_lt]; simpa using hp0
      simp only [hlt, Bool.false_eq_true, if_false, sizeOfInt_nat hpn hI, wr_ok (show p < ls.length by omega)]
      exact e
    · intro v
      rw [h2 v]
      by_cases hvl : v ∈ starts
      · simp [hvl]
      · by_cases ev : v = p
        · subst ev; simp [hvl, hl, hpn]
        · simp [hvl, ev, List.getElem?_set_ne (Ne.symm ev)]

omit [IsStrictOrderedRing K] in
theorem cleanup_exact {n : Nat} (hI : n ≤ INT_MAX) (f : Nat → K) (starts : List Nat)
    (hp : ∀ p ∈ starts, p < n) (ls : List (X K)) (hl : ls.length = n) :
    ∃ ls', cleanupLocalSource ls (valuesOf starts f) = .ok ls' ∧ ls'.length = n := by
  unfold cleanupLocalSource
  refine forEach_inv (fun _ (ls : List (X K)) => ls.length = n) hl ?_
  intro pre x post s hx hs
  have hm : x ∈ valuesOf starts f := by rw [hx]; simp
  obtain ⟨p, hps, rfl⟩ := List.mem_map.mp hm
  have hpn := hp p hps
  exact ⟨s.set p Arith.zero, by simp only [sizeOfInt_nat hpn hI]; exact wr_ok (by omega), by simpa⟩

omit [IsStrictOrderedRing K] in
/-- A map filled cell by cell is the map listing the cells in ascending order. -/
theorem fill_eq (f : Nat → K) (l : List Nat) (cells : List Nat) (hs : cells.Pairwise (· < ·))
    (hm : ∀ v, v ∈ cells ↔ v ∈ l) :
    (l.foldl (fun (m : CellSetValues (X K)) v => m.assign ((v : Nat) : Int) (X.fin (f v))) []) = valuesOf cells f := by
  apply OMap.ext
  · have : ∀ (l : List Nat) (m : CellSetValues (X K)), OMap.Sorted m →
        OMap.Sorted (l.foldl (fun (m : CellSetValues (X K)) v => m.assign ((v : Nat) : Int) (X.fin (f v))) m) := by
      intro l
      induction l with
      | nil => intro m hm; exact hm
      | cons v l ih => intro m hm; exact ih _ (OMap.sorted_assign hm _ _)
    exact this l [] OMap.sorted_nil
  · unfold OMap.Sorted valuesOf
    rw [List.pairwise_map]
    exact hs.imp fun hab => by simpa using hab
  · intro k
    have h1 : ∀ (l : List Nat) (m : CellSetValues (X K)),
        OMap.find (l.foldl (fun (m : CellSetValues (X K)) v => m.assign ((v : Nat) : Int) (X.fin (f v))) m) k
          = if ∃ v ∈ l, ((v : Nat) : Int) = k then some (X.fin (f k.toNat)) else OMap.find m k := by
      intro l
      induction l with
      | nil => intro m; simp
      | cons v l ih =>
        intro m
        rw [List.foldl_cons, ih, OMap.find_assign]
        by_cases h1 : ∃ v ∈ l, ((v : Nat) : Int) = k
        · rw [if_pos h1, if_pos]
          obtain ⟨x, hx, e⟩ := h1
          exact ⟨x, List.mem_cons_of_mem _ hx, e⟩
        · rw [if_neg h1]
          by_cases h2 : ((v : Nat) : Int) = k
          · subst h2; simp
          · rw [if_neg h2]
            rw [if_neg]
            rintro ⟨x, hx, e⟩
            rcases List.mem_cons.mp hx with rfl | hx
            · exact h2 e
            · exact h1 ⟨x, hx, e⟩
    rw [h1]
    have hsorted : OMap.Sorted (valuesOf cells f) := by
      unfold OMap.Sorted valuesOf
      rw [List.pairwise_map]
      exact hs.imp fun hab => by simpa using hab
    by_cases hk : ∃ v ∈ l, ((v : Nat) : Int) = k
    · obtain ⟨v, hv, rfl⟩ := hk
      rw [if_pos ⟨v, hv, rfl⟩]
      symm
      refine OMap.mem_find hsorted ?_
      exact List.mem_map.mpr ⟨v, (hm v).mpr hv, by simp⟩
    · rw [if_neg hk]
      symm
      show OMap.find _ k = none
      rw [OMap.find_none_iff]
      intro e he hk'
      obtain ⟨v, hv, rfl⟩ := List.mem_map.mp he
      exact hk ⟨v, (hm v).mp hv, hk'⟩

theorem collect_loop {n : Nat} (hI : n ≤ INT_MAX) (τ c : Nat → K) : ∀ (l : List Nat), (∀ v ∈ l, v < n) →
    ∀ r : LocalSolution (X K),
      ((∀ v ∈ l, 0 < c v) → forEach (l.map fun v : Nat => (v : Int)) r (collectCell (arr n τ) (arr n c))
        = .ok ⟨l.foldl (fun (m : CellSetValues (X K)) v => m.assign ((v : Nat) : Int) (X.fin (τ v))) r.tof,
          l.foldl (fun (m : CellSetValues (X K)) v => m.assign ((v : Nat) : Int) (X.fin (c v))) r.concentration⟩) ∧
      ((∃ v ∈ l, ¬ 0 < c v) → forEach (l.map fun v : Nat => (v : Int)) r (collectCell (arr n τ) (arr n c))
        = .throw .logicError)
  | [], _, r => ⟨fun _ => rfl, by simp⟩
  | v :: l, hl, r => by
    have hv := hl v List.mem_cons_self
    have ih := collect_loop hI τ c l (fun x hx => hl x (List.mem_cons_of_mem _ hx))
      ⟨r.tof.assign (v : Int) (X.fin (τ v)), r.concentration.assign (v : Int) (X.fin (c v))⟩
    have hstep : collectCell (arr n τ) (arr n c) r (v : Int) = if 0 < c v then
        .ok ⟨r.tof.assign (v : Int) (X.fin (τ v)), r.concentration.assign (v : Int) (X.fin (c v))⟩
        else .throw .logicError := by
      unfold collectCell
      simp only [Res.bind_eq, Res.pure_eq, sizeOfInt_nat hv hI, rd_arr _ hv, Res.ok_bind, X_zero, X_le]
      by_cases hc : 0 < c v
      · simp [hc, not_le.mpr hc]
      · simp [hc, not_lt.mp hc]
    rw [List.map_cons, forEach_cons, hstep]
    constructor
    · intro hpos
      rw [if_pos (hpos v List.mem_cons_self), Res.ok_bind]
      exact ih.1 fun x hx => hpos x (List.mem_cons_of_mem _ hx)
    · intro hex
      by_cases hc : 0 < c v
      · rw [if_pos hc, Res.ok_bind]
        refine ih.2 ?_
        obtain ⟨x, hx, hn⟩ := hex
        rcases List.mem_cons.mp hx with rfl | hx
        · exact absurd hc hn
        · exact ⟨x, hx, hn⟩
      · rw [if_neg hc]; rfl

theorem collect_exact {n : Nat} (hI : n ≤ INT_MAX) (τ c : Nat → K) (comps : List (List Nat))
    (hl : ∀ v ∈ comps.flatten, v < n) :
    ((∀ v ∈ comps.flatten, 0 < c v) → ∀ cells : List Nat, cells.Pairwise (· < ·) →
      (∀ v, v ∈ cells ↔ v ∈ comps.flatten) →
        collect (arr n τ) (arr n c) (cellsOf comps) (offsets comps) = .ok ⟨valuesOf cells τ, valuesOf cells c⟩) ∧
    ((∃ v ∈ comps.flatten, ¬ 0 < c v) →
        collect (arr n τ) (arr n c) (cellsOf comps) (offsets comps) = .throw .logicError) := by
  have hread : readCells (cellsOf comps) 0 comps.flatten.length = .ok (cellsOf comps) := by
    have hl : (cellsOf comps).length = comps.flatten.length := by unfold cellsOf; rw [List.length_map]
    unfold readCells
    rw [if_pos (by omega), List.drop_zero, ← hl, List.take_length]
  unfold collect
  simp only [Res.bind_eq, back_offsets, Res.ok_bind, hread]
  obtain ⟨h1, h2⟩ := collect_loop hI τ c comps.flatten hl ⟨[], []⟩
  constructor
  · intro hpos cells hs hm
    rw [show cellsOf comps = comps.flatten.map fun v : Nat => (v : Int) from rfl, h1 hpos]
    simp only [fill_eq τ _ cells hs hm, fill_eq c _ cells hs hm]
  · intro hex; exact h2 hex

/-! ### Whole calls -/

/-- `solveGlobal` -/
theorem global_run [Archimedean K] {F : Flow K} (hF : F.Valid) {d : SolverData (X K)} (hd : IsSolver F d) :
    ∃ (s : St K) (comps : List (List Nat)) (N : Nat),
      FTopo (globalSys F) (· < F.n) comps ∧ (globalSys F).Inv 1 tolT tolC comps s ∧
      ∀ fuel, N ≤ fuel → ∀ st : SolverState (X K),
        (solveGlobal d Alloc.good fuel st).2 = .ok (arr F.n fun v => min (s.1 v) cap) := by
  have hI := hF.int
  have hG := hd.graph.isGraph hI
  obtain ⟨comps, htopo, horder⟩ := computeOrdering_spec hG hd.graph.adj.size Alloc.good_good
  have ht : FTopo (globalSys F) (· < F.n) comps :=
    FTopo.of (S := globalSys F) hd.graph htopo (fun v hv => hv) fun u v hu hr => reach_lt hu hr
  obtain ⟨b, eb, hb⟩ := setupStartArrayFromSource_exact hd
  have hst : HasStarts (globalSys F) b d.sourceTerm :=
    ⟨hb, fun v hv _ => by rw [hd.source]; exact arr_getElem? _ hv, rfl, hI⟩
  obtain ⟨s, N, hrun, hinv⟩ := solve_exact (S := globalSys F) hd (globalSys_ok hF) (globalSys_bounded F) hst ht
  refine ⟨s, comps, max N (F.n + numEdges F.n d.g.startPointers), ht, hinv, ?_⟩
  intro fuel hf st
  have hpv : d.pv.length = F.n := by rw [hd.pv, arr_length]
  have hrun := hrun fuel (le_trans (le_max_left _ _) hf)
  have hn : (globalSys F).n = F.n := rfl
  rw [hn] at hrun
  unfold solveGlobal prepareForSolve
  simp only [hpv, eb, finish, horder fuel (le_trans (le_max_right _ _) hf), replicate_arr, hrun]

/-- `solveLocal` -/
theorem local_run [Archimedean K] {F : Flow K} (hF : F.Valid) {d : SolverData (X K)} (hd : IsSolver F d)
    {starts : List Nat} (hp : ∀ p ∈ starts, p < F.n) {ls : Nat → K} (hls : ∀ p ∈ starts, 0 ≤ ls p)
    {B : K} (hB : (localSys F starts ls).Bounded B) :
    ∃ (s : St K) (comps : List (List Nat)) (N : Nat),
      FTopo (localSys F starts ls) (fun v => ∃ p ∈ starts, F.Reach p v) comps ∧
      (localSys F starts ls).Inv B tolT tolC comps s ∧
      ∀ fuel, N ≤ fuel → ∀ st : SolverState (X K), st.localSource.length = F.n →
        ((∀ v ∈ comps.flatten, 0 < s.2 v) → ∀ cells : List Nat, cells.Pairwise (· < ·) →
          (∀ v, v ∈ cells ↔ v ∈ comps.flatten) →
          (solveLocal d Alloc.good fuel (valuesOf starts ls) st).2
            = .ok ⟨valuesOf cells fun v => min (s.1 v) cap, valuesOf cells s.2⟩) ∧
        ((∃ v ∈ comps.flatten, ¬ 0 < s.2 v) →
          (solveLocal d Alloc.good fuel (valuesOf starts ls) st).2 = .throw .logicError) := by
  have hI := hF.int
  have hG := hd.graph.isGraph hI
  obtain ⟨comps, htopo, horder⟩ := computeLocalOrdering_spec hG hd.graph.adj.size Alloc.good_good starts hp
  have hV : (fun v => ∃ p ∈ starts, Reachable F.n d.g.startPointers d.g.neighbourhood p v)
      = fun v => ∃ p ∈ starts, F.Reach p v := by
    funext v
    exact propext (exists_congr fun p => and_congr_right fun _ => reachable_iff hd.graph p v)
  rw [hV] at htopo
  have ht : FTopo (localSys F starts ls) (fun v => ∃ p ∈ starts, F.Reach p v) comps :=
    FTopo.of (S := localSys F starts ls) hd.graph htopo
      (by rintro v ⟨p, hps, hr⟩; exact reach_lt (hp p hps) hr)
      (by rintro u v ⟨p, hps, hr⟩ hr'; exact ⟨p, hps, hr.trans hr'⟩)
  obtain ⟨b, eb, hb⟩ := setupStartArray_exact hI starts ls hp
  obtain ⟨ls0, _, hl0, h0⟩ := setupLocalSource_exact hI ls starts hp hls (List.replicate F.n Arith.zero) (by simp)
  have hst : HasStarts (localSys F starts ls) b ls0 :=
    ⟨hb, fun v _ hs => by rw [h0 v, if_pos (by simpa [localSys] using hs)]; rfl, rfl, hI⟩
  obtain ⟨s, N, hrun, hinv⟩ := solve_exact (S := localSys F starts ls) hd (localSys_ok hF hls) hB hst ht
  refine ⟨s, comps, max N (F.n + numEdges F.n d.g.startPointers), ht, hinv, ?_⟩
  intro fuel hf st hl
  have hpv : d.pv.length = F.n := by rw [hd.pv, arr_length]
  have hn : (localSys F starts ls).n = F.n := rfl
  have hrun := hrun fuel (le_trans (le_max_left _ _) hf)
  rw [hn] at hrun
  obtain ⟨ls1, e1, hl1, h1⟩ := setupLocalSource_exact hI ls starts hp hls st.localSource hl
  have hsame : SameStarts b ls1 ls0 := by
    intro i hi
    by_cases hin : i < F.n
    · rw [hb i hin] at hi
      have hi' : i ∈ starts := by simpa using hi
      rw [h1 i, h0 i, if_pos hi', if_pos hi']
    · rw [List.getElem?_eq_none (by omega), List.getElem?_eq_none (by omega)]
  obtain ⟨ls2, e2, _⟩ := cleanup_exact hI ls starts hp ls1 hl1
  have hkeys : (valuesOf starts ls).map (fun p => p.1) = starts.map fun v : Nat => (v : Int) := by
    unfold valuesOf; rw [List.map_map]; rfl
  have hres : (solveLocal d Alloc.good fuel (valuesOf starts ls) st).2
      = collect (arr F.n fun v => min (s.1 v) cap) (arr F.n s.2) (cellsOf comps) (offsets comps) := by
    unfold solveLocal prepareForSolve
    simp only [hpv, eb, finish, hkeys, horder fuel (le_trans (le_max_right _ _) hf), replicate_arr, e1,
      solve_congr hsame, hrun, e2]
    cases collect (arr F.n fun v => min (s.1 v) cap) (arr F.n s.2) (cellsOf comps) (offsets comps) <;> rfl
  obtain ⟨g1, g2⟩ := collect_exact hI (fun v => min (s.1 v) cap) s.2 comps
    fun v hv => ht.lt v ((ht.cover v).mp hv)
  rw [hres]
  exact ⟨g1, g2⟩

end Verif.Solver
