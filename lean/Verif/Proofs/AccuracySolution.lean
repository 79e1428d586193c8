/-
Rounding errors of a whole diagnostics computation on cycle-free flow.
-/
import Verif.Proofs.AccuracyData
import Verif.Props.ToolboxFlow

namespace Verif.OMap
variable {κ α β : Type} [LT κ] [DecidableLT κ]

theorem find_mapValues (φ : α → β) (m : OMap κ α) (k : κ) :
    find (m.map fun e => (e.1, φ e.2)) k = (find m k).map φ := by
  induction m with
  | nil => rfl
  | cons e m ih =>
    rw [List.map_cons]
    unfold find
    split
    · rfl
    · exact ih

theorem assign_mapValues (φ : α → β) (m : OMap κ α) (k : κ) (v : α) :
    assign (m.map fun e => (e.1, φ e.2)) k (φ v) = (assign m k v).map fun e => (e.1, φ e.2) := by
  induction m with
  | nil => rfl
  | cons e m ih =>
    rw [List.map_cons]
    unfold assign
    split
    · rfl
    · split
      · rw [ih]; rfl
      · rfl

theorem insert_mapValues (φ : α → β) (m : OMap κ α) (k : κ) (v : α) :
    insert (m.map fun e => (e.1, φ e.2)) k (φ v) = (insert m k v).map fun e => (e.1, φ e.2) := by
  unfold insert
  rw [find_mapValues]
  cases find m k with
  | none => exact assign_mapValues φ m k v
  | some _ => rfl

end Verif.OMap

namespace Verif.Rounding
open Finset Verif.Spec Verif.Solver Verif.Toolbox Verif.Tarjan

/-- What is stored for an id depends on the values alone. -/
theorem gather_byId_map {R S : Type} [Arith R] [Arith S] (φ : R → S) (l : List (CellSetID × Int × R)) (i : CellSetID) :
    OMap.find (gather (l.map fun e => (e.1, e.2.1, φ e.2.2))).byId i
      = (OMap.find (gather l).byId i).map fun m => m.map fun e => (e.1, φ e.2) := by
  rw [gather_byId, gather_byId]
  have hex : (∃ e ∈ l.map fun e => (e.1, e.2.1, φ e.2.2), e.1 = i) ↔ ∃ e ∈ l, e.1 = i := by
    simp only [List.mem_map]
    constructor
    · rintro ⟨_, ⟨e, he, rfl⟩, h⟩; exact ⟨e, he, h⟩
    · rintro ⟨e, he, h⟩; exact ⟨_, ⟨e, he, rfl⟩, h⟩
  simp only [hex]
  split
  · simp only [Option.map_some, Option.some.injEq]
    rw [List.filter_map, List.foldl_map]
    suffices h : ∀ (l : List (CellSetID × Int × R)) (m : OMap Int R),
        l.foldl (fun m e => OMap.insert m e.2.1 (φ e.2.2)) (m.map fun e => (e.1, φ e.2))
          = (l.foldl (fun m e => OMap.insert m e.2.1 e.2.2) m).map fun e => (e.1, φ e.2) from h _ []
    intro l
    induction l with
    | nil => intro m; rfl
    | cons e l ih =>
      intro m
      rw [List.foldl_cons, List.foldl_cons, OMap.insert_mapValues, ih]
  · rfl

variable {R : Type} [Arith R] {K : Type} [Field K] [LinearOrder K] [IsStrictOrderedRing K] {ρ : Rounded R K} {q : K}

omit [IsStrictOrderedRing K] in
/-- Sparse values that stand for `ls` on `starts`. -/
theorem values_of_map {ls : Nat → K} : ∀ {starts : List Nat} {B : CellSetValues R}, starts.Nodup →
    B.map (fun e => (e.1, ρ.val e.2)) = valuesOf starts ls →
    ∃ f : Nat → R, B = starts.map (fun p : Nat => ((p : Int), f p)) ∧ ∀ p ∈ starts, ρ.val (f p) = X.fin (ls p) := by
  intro starts
  induction starts with
  | nil =>
    intro B _ h
    have : B = [] := by simpa [valuesOf] using h
    exact ⟨fun _ => Arith.zero, by simpa using this, by simp⟩
  | cons p starts ih =>
    intro B hnd h
    rw [List.nodup_cons] at hnd
    cases B with
    | nil => simp [valuesOf] at h
    | cons b B =>
      simp only [valuesOf, List.map_cons, List.cons.injEq, Prod.mk.injEq] at h
      obtain ⟨⟨h1, h2⟩, h3⟩ := h
      obtain ⟨f, hf, hv⟩ := ih hnd.2 h3
      refine ⟨fun x => if x = p then b.2 else f x, ?_, ?_⟩
      · rw [List.map_cons]
        simp only [if_true]
        rw [← h1]
        congr 1
        rw [hf]
        apply List.map_congr_left
        intro x hx
        have : x ≠ p := fun e => hnd.1 (e ▸ hx)
        simp [this]
      · intro x hx
        rcases List.mem_cons.mp hx with rfl | hx
        · simpa using h2
        · have : x ≠ p := fun e => hnd.1 (e ▸ hx)
          simpa [this] using hv x hx

omit [Field K] [LinearOrder K] [IsStrictOrderedRing K] in
theorem find_valuesOf {cells : List Nat} {g : Nat → K} (v : Nat) :
    OMap.find (valuesOf cells g) (v : Int) = if v ∈ cells then some (X.fin (g v)) else none := by
  induction cells with
  | nil => rfl
  | cons c cells ih =>
    unfold valuesOf at *
    rw [List.map_cons]
    unfold OMap.find
    by_cases e : v = c
    · subst e; simp
    · rw [if_neg (by simp only [not_lt, not_and, not_le]; omega), ih]
      simp [e]

variable (ρ q) in
/-- Both absent, or both present and close. -/
def Agrees (k : Nat) (a : Option R) (b : Option (X K)) : Prop :=
  (a = none ∧ b = none) ∨ ∃ x y, a = some x ∧ b = some (X.fin y) ∧ 0 ≤ y ∧ Near ρ q k x y

/-- Where every cell that passes flow on receives flow, the tracer of all sources together is 1 or 0. -/
theorem whole_tracer {F : Flow K} (hF : F.Valid) {c τ : Nat → K} (hf : Facts F (· < F.n) (fun v => 0 < F.src v) F.src τ c)
    (hsup : ∀ u v, F.Edge u v → 0 < F.total u) {depth : Nat → Nat} (hd : ∀ u v, F.Edge u v → depth u < depth v) :
    ∀ m v, depth v = m → v < F.n → 0 < F.total v → c v = 1 := by
  have hacy := acyclic_of_depth hd
  intro m
  induction m using Nat.strong_induction_on with
  | _ m ih =>
    intro v hm hv hpos
    have h1 := hf.exact v hv (fun h => h.1.ne' h.2) (hacy v)
    have h2 : ∑ u ∈ Finset.range F.n, c u * F.w u v = F.inflow v := by
      unfold Flow.inflow
      apply Finset.sum_congr rfl
      intro u hu
      have hun := Finset.mem_range.mp hu
      by_cases hw : 0 < F.w u v
      · rw [ih (depth u) (by rw [← hm]; exact hd u v ⟨hun, hv, hw⟩) u rfl hun (hsup u v ⟨hun, hv, hw⟩), one_mul]
      · rw [le_antisymm (not_lt.mp hw) (hF.w_nonneg u v hun hv), mul_zero]
    rw [h2] at h1
    have h3 : F.total v * c v = F.total v * 1 := by rw [h1, mul_one]; rfl
    exact mul_left_cancel₀ hpos.ne' h3

/-- Results that are not extremely small. -/
structure Visible (sol : Solution (X K)) : Prop where
  tof : ∀ t : K, X.fin t ∈ sol.timeOfFlight → 0 < t → 1 ≤ t * 2 ^ 300
  conc : ∀ i, ∀ e ∈ sol.concentration i, ∀ x : K, e.2 = X.fin x → 0 < x → 1 ≤ x * 2 ^ 300
  tofOf : ∀ i, ∀ e ∈ sol.timeOfFlightOf i, ∀ t : K, e.2 = X.fin t → 0 < t → 1 ≤ t * 2 ^ 300

section
variable {D : List (Int × Int × R)} {pv : List R} {l : List (CellSetID × Int × R)} {F : Flow K}
  {DK : List (Nat × Nat × K)} {wells : List (WellFlux K)} {cs : WellFlux K → List Nat} {f : WellFlux K → Nat → K} {M : Nat}

theorem one_le_of_min {t : K} (h : 0 < min t cap → 1 ≤ min t cap * 2 ^ 300) (ht : 0 < t) : 1 ≤ t * 2 ^ 300 := by
  have hcap : (0 : K) < cap := by unfold cap; positivity
  refine (h (lt_min ht hcap)).trans ?_
  exact mul_le_mul_of_nonneg_right (min_le_left _ _) (two_pow_pos' 300).le

/-- The sources of a start set, and the exact results for it. -/
theorem local_data [Archimedean K] (hp : Precise ρ q) (h : Inputs ρ D pv l F DK wells cs f M) {starts : List CellSet}
    {sol' : Solution (X K)} (hD : Props.Diag F wells cs f starts sol') (hvis : Visible sol') {s : CellSet} (hss : s ∈ starts) :
    ∃ w ∈ wells, ∃ (fR : Nat → R) (τ c : Nat → K) (cells : List Nat),
      OMap.at_ (gather l).byId s.id [] = (cs w).map (fun p : Nat => ((p : Int), fR p)) ∧
      (∀ p ∈ cs w, p < F.n) ∧ (∀ p ∈ cs w, 0 < F.src p) ∧ (∀ p ∈ cs w, Near ρ q M (fR p) (f w p) ∧ 0 ≤ f w p) ∧
      Facts F (F.Downstream (cs w)) (· ∈ cs w) (injected (cs w) (f w)) τ c ∧ (∀ v < F.n, c v ≤ 1) ∧
      (∀ v, F.Downstream (cs w) v → 0 < c v) ∧
      (∀ v, F.Downstream (cs w) v → 0 < c v → 1 ≤ c v * 2 ^ 300) ∧
      (∀ v, F.Downstream (cs w) v → 0 < τ v → 1 ≤ τ v * 2 ^ 300) ∧ (∀ v, v ∈ cells ↔ F.Downstream (cs w) v) ∧
      sol'.timeOfFlightOf s.id = valuesOf cells (fun v => min (τ v) cap) ∧ sol'.concentration s.id = valuesOf cells c := by
  obtain ⟨d', st', hfor, hglob, hloc⟩ := hD.solved
  obtain ⟨w, hw, ew, hne⟩ := hD.known s hss
  obtain ⟨ls, hls', e1, e2⟩ := hloc w hw ⟨s, hss, ew.symm⟩
  rw [ew] at e1 e2
  -- the values stored for the id
  have hB : OMap.find (gather l).byId w.id ≠ none ∧
      (OMap.at_ (gather l).byId w.id []).map (fun e => (e.1, ρ.val e.2)) = valuesOf (cs w) (f w) := by
    have := gather_byId_map ρ.val l w.id
    rw [h.sources, h.side.byId hw hne] at this
    unfold OMap.at_
    cases hfi : OMap.find (gather l).byId w.id with
    | none => rw [hfi] at this; cases this
    | some m =>
      rw [hfi] at this
      simp only [Option.map_some, Option.some.injEq] at this
      exact ⟨by simp, this.symm⟩
  obtain ⟨fR, hfR, hval⟩ := values_of_map ((h.side.sorted w hw).imp fun h => ne_of_lt h) hB.2
  have hsrc : ∀ p ∈ cs w, 0 < F.src p := fun p hp => (h.side.src_pos p).mpr ⟨w, hw, hp⟩
  obtain ⟨τ, c, r, hret, hcle, hf, hok, _⟩ := local_facts hfor (starts := cs w) (h.side.range w hw)
    (ls := f w) (fun p hp => (h.side.pos w hw p hp).le) (B := 1) le_rfl (fun p hp _ => by
      rw [one_mul]; exact h.side.le_src hw hp)
  have hcpos := facts_pos (h.side.range w hw) (h.side.pos w hw) hsrc hf
  obtain ⟨cells, hcs, hcm, er⟩ := hok hcpos
  have els : ls = ⟨valuesOf cells fun v => min (τ v) cap, valuesOf cells c⟩ := by
    have := hls'.unique hret
    rw [er] at this
    exact Res.ok.inj this
  rw [els] at e1 e2
  simp only at e1 e2
  refine ⟨w, hw, fR, τ, c, cells, by rw [← hfR, ew], h.side.range w hw, hsrc, ?_, hf, hcle, hcpos, ?_, ?_, hcm, e1, e2⟩
  · intro p hpm
    have h0 := (h.side.pos w hw p hpm).le
    exact ⟨(near_exact (hval p hpm)).mono hp h0 (Nat.zero_le _), h0⟩
  · intro v hv hc
    refine hvis.conc s.id (((v : Nat) : Int), X.fin (c v)) ?_ _ rfl hc
    rw [e2]
    exact List.mem_map.mpr ⟨v, (hcm v).mpr hv, rfl⟩
  · intro v hv ht
    refine one_le_of_min (hvis.tofOf s.id (((v : Nat) : Int), X.fin (min (τ v) cap)) ?_ _ rfl) ht
    rw [e1]
    exact List.mem_map.mpr ⟨v, (hcm v).mpr hv, rfl⟩

/-- All results agree with those of the exact computation. -/
theorem computeSolution_accuracy [Archimedean K] (hp : Precise ρ q) (hM : q ^ (2 * M + 2) * 200 < 201)
    (h : Inputs ρ D pv l F DK wells cs f M) (hm : ∀ v < F.n, Moderate F v) {depth : Nat → Nat}
    (hd : ∀ u v, F.Edge u v → depth u < depth v) (hd100 : ∀ v < F.n, depth v ≤ 2 ^ 100)
    (hdq : ∀ v < F.n, q ^ expT M (depth v) ≤ 2) (hsup : ∀ u v, F.Edge u v → 0 < F.total u) {starts : List CellSet}
    {sol : Solution R} {sol' : Solution (X K)} (hD : Props.Diag F wells cs f starts sol') (hvis : Visible sol') {fuel : Nat}
    (hfuel : F.n + numEdges F.n (graphsOf F.n D).1.startPointers ≤ fuel)
    (hs : computeSolution (graphsOf F.n D).1 (graphsOf F.n D).2 pv (gather l).only (gather l).byId noFailure fuel starts = .ok sol) :
    (∀ v < F.n, Agrees ρ q (expT M (depth v)) sol.timeOfFlight[v]? sol'.timeOfFlight[v]?) ∧
    ∀ i, ∀ v < F.n,
      Agrees ρ q (expC M (depth v)) ((sol.concentration i).find (v : Int)) ((sol'.concentration i).find (v : Int)) ∧
      Agrees ρ q (expT M (depth v)) ((sol.timeOfFlightOf i).find (v : Int)) ((sol'.timeOfFlightOf i).find (v : Int)) := by
  have hcap : (0 : K) < cap := by unfold cap; positivity
  obtain ⟨d, st, tof, h1, h2, h3, rfl⟩ := (computeSolution_ok_iff (a := Alloc.good)).mp hs
  obtain ⟨hA, hG, hE, hg, hls⟩ := h.solver hp hM (fun v hv => (hm v hv).toSized) h1
  rw [← hg] at hfuel
  obtain ⟨r1, r2, r3, _, _⟩ := recordAll_spec (okOf d st Alloc.good fuel (gather l).byId) (starts.map CellSet.id)
    ({ tof := tof } : Solution R)
  obtain ⟨d', st', hfor, hglob, hloc⟩ := hD.solved
  constructor
  · obtain ⟨τ, c, hret, hcle, hf⟩ := global_facts hfor
    have e : sol'.timeOfFlight = arr F.n fun v => min (τ v) cap := by
      have := hglob.unique hret
      exact Res.ok.inj this
    have hget : ∀ v < F.n, sol'.timeOfFlight[v]? = some (X.fin (min (τ v) cap)) := by
      intro v hv
      rw [e]; unfold arr
      simp [hv]
    have key := global_accuracy hp hA hM hm hG hE h.valid hf hcle (by
      intro v hv hc
      rw [whole_tracer h.valid hf hsup hd _ v rfl hv (live_of_facts hf h.valid hv hc), one_mul]
      exact one_le_pow₀ one_le_two) (by
      intro v hv ht
      exact one_le_of_min (hvis.tof _ (List.mem_of_getElem? (hget v hv))) ht) hd hd100 hdq hfuel h2
    intro v hv
    obtain ⟨t, ht, hn⟩ := key v hv
    refine Or.inr ⟨t, _, ?_, hget v hv, le_min (hf.nonneg v hv).1 hcap.le, hn⟩
    unfold Solution.timeOfFlight
    rw [r1]; exact ht
  · intro i v hv
    unfold Solution.timeOfFlightOf Solution.concentration Solution.solutionValues
    rw [r2, r3]
    by_cases hi : ∃ s ∈ starts, s.id = i
    swap
    · have hi' : i ∉ starts.map CellSet.id := fun hc => hi (List.mem_map.mp hc)
      obtain ⟨e1, e2⟩ := hD.other i hi
      unfold Solution.timeOfFlightOf Solution.solutionValues at e1
      unfold Solution.concentration Solution.solutionValues at e2
      rw [if_neg hi', if_neg hi', e1, e2]
      exact ⟨Or.inl ⟨by simp [OMap.find_nil], rfl⟩, Or.inl ⟨by simp [OMap.find_nil], rfl⟩⟩
    have hi' : i ∈ starts.map CellSet.id := List.mem_map.mpr hi
    rw [if_pos hi', if_pos hi']
    obtain ⟨s, hss, rfl⟩ := hi
    obtain ⟨w, hw, fR, τ, c, cells, hfR, hrg, hsrc, hfl, hf, hcle, hcpos, hcmin, htmin, hcm, e1, e2⟩ := local_data hp h hD hvis hss
    obtain ⟨x, hx⟩ := h3 s hss
    have hrun : (solveLocal d Alloc.good fuel ((cs w).map fun p : Nat => ((p : Int), fR p)) st).2 = .ok x := by
      rw [← hfR]; exact hx
    have key := local_accuracy hp hA hM hm hG hE h.valid hrg hsrc hfl hf hcle hcmin htmin hd hd100 hdq hfuel hls hrun
    have hokx : okOf d st Alloc.good fuel (gather l).byId s.id = x := by
      unfold okOf; rw [hx]
    rw [hokx]
    unfold Solution.timeOfFlightOf Solution.solutionValues at e1
    unfold Solution.concentration Solution.solutionValues at e2
    rw [e1, e2, find_valuesOf, find_valuesOf]
    simp only
    by_cases hdv : F.Downstream (cs w) v
    · obtain ⟨t, a, k1, k2, k3, k4⟩ := key.1 v hdv
      rw [if_pos ((hcm v).mpr hdv), if_pos ((hcm v).mpr hdv)]
      obtain ⟨n1, n2⟩ := hf.nonneg v hv
      exact ⟨Or.inr ⟨a, _, k2, rfl, n2, k4⟩, Or.inr ⟨t, _, k1, rfl, le_min n1 hcap.le, k3⟩⟩
    · obtain ⟨k1, k2⟩ := key.2 v hdv
      rw [if_neg fun hc => hdv ((hcm v).mp hc), if_neg fun hc => hdv ((hcm v).mp hc)]
      exact ⟨Or.inl ⟨k2, rfl⟩, Or.inl ⟨k1, rfl⟩⟩

end
end Verif.Rounding
