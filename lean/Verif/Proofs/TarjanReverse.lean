/- tarjan_reverse_sccresult() and the complete calls of tarjan.c. -/
import Verif.Proofs.TarjanTop

namespace Verif.Tarjan
open Verif.Spec

theorem copyIntVector_spec (c : List Nat) (src : Mem Int) (b : Nat) (dst : Mem Int) (d : Nat)
    (hsrc : ∀ (i v : Nat), c[i]? = some v → src[b + i]? = some (some (v : Int)))
    (hd : d + c.length ≤ dst.length) :
    ∃ dst', copyIntVector c.length src b dst d = .ok dst' ∧ dst'.length = dst.length ∧
      (∀ j < d, dst'[j]? = dst[j]?) ∧
      (∀ (i v : Nat), c[i]? = some v → dst'[d + i]? = some (some (v : Int))) := by
  unfold copyIntVector
  obtain ⟨dst', e, h1, h2, h3⟩ := forEach_range_inv (n := c.length) (s := dst)
    (f := fun dst i => do
      let x ← rdM src (b + i)
      wrM dst (d + i) x)
    (fun k w => w.length = dst.length ∧ (∀ j < d, w[j]? = dst[j]?) ∧
      ∀ (i v : Nat), i < k → c[i]? = some v → w[d + i]? = some (some (v : Int)))
    (by simp) (by
      intro i w hi ⟨hw1, hw2, hw3⟩
      have := hsrc i c[i] (List.getElem?_eq_getElem hi)
      simp only [Res.bind_eq, rdM_of_getElem? this, Res.ok_bind]
      refine ⟨_, wrM_ok (by omega), by simp [hw1], ?_, ?_⟩
      · intro j hj; rw [List.getElem?_set_ne (by omega)]; exact hw2 j hj
      · intro j v hj hv
        by_cases hji : j = i
        · subst hji
          rw [List.getElem?_set_self (by omega)]
          rw [List.getElem?_eq_getElem hi] at hv; simp at hv; rw [hv]
        · rw [List.getElem?_set_ne (by omega)]; exact hw3 j v (by omega) hv)
  refine ⟨dst', e, h1, h2, ?_⟩
  intro i v hv
  refine h3 i v ?_ hv
  by_contra hcon; rw [List.getElem?_eq_none (by omega)] at hv; simp at hv

theorem flatten_split {l : List (List Nat)} {k j v : Nat} {c : List Nat} (hc : l[k]? = some c)
    (hv : (l.take (k + 1)).flatten[j]? = some v) :
    (j < off l k ∧ (l.take k).flatten[j]? = some v) ∨ (off l k ≤ j ∧ c[j - off l k]? = some v) := by
  have hkl : k < l.length := by
    by_contra hcon; rw [List.getElem?_eq_none (by omega)] at hc; simp at hc
  have hck : l[k] = c := by rw [List.getElem?_eq_getElem hkl] at hc; simpa using hc
  rw [List.take_succ_eq_append_getElem hkl, hck, List.flatten_append] at hv
  simp only [List.flatten_cons, List.flatten_nil, List.append_nil] at hv
  rcases Nat.lt_or_ge j (off l k) with hj | hj
  · left; exact ⟨hj, by rwa [List.getElem?_append_left hj] at hv⟩
  · right
    refine ⟨hj, ?_⟩
    rw [List.getElem?_append_right hj] at hv
    exact hv

theorem off_le (l : List (List Nat)) (k : Nat) : off l k ≤ l.flatten.length := by
  have := congrArg (fun l => l.flatten.length) (List.take_append_drop k l)
  simp only [List.flatten_append, List.length_append] at this
  unfold off; omega

/-- tarjan.c:332-351 -/
theorem reverseSccCore_spec {src dst : SCCResult} {done : List (List Nat)} (h : Stored src done)
    (hne : ∀ c ∈ done, c ≠ []) (hs : dst.start.length = done.flatten.length + 1)
    (hv : dst.vert.length = done.flatten.length) :
    ∃ dst', reverseSccCore src dst = .ok dst' ∧ dst'.ncomp = done.length ∧ Stored dst' done.reverse := by
  have hlen : done.length ≤ done.flatten.length := by
    clear h hs hv
    induction done with
    | nil => simp
    | cons c l ih =>
      have h1 := ih fun d hd => hne d (by simp [hd])
      have h2 : 0 < c.length := List.length_pos_of_ne_nil (hne c (by simp))
      simp only [List.length_cons, List.flatten_cons, List.length_append]; omega
  have hflat : done.reverse.flatten.length = done.flatten.length := by
    rw [List.length_flatten, List.length_flatten, List.map_reverse, List.sum_reverse]
  have hinit : initialiseCsr dst = .ok { dst with ncomp := 0, start := dst.start.set 0 (some 0) } := by
    unfold initialiseCsr
    simp only [Res.bind_eq, Res.pure_eq, wrM_ok (show 0 < dst.start.length by omega), Res.ok_bind]
  unfold reverseSccCore
  simp only [Res.bind_eq, Res.pure_eq, hinit, Res.ok_bind, h.ncomp]
  obtain ⟨dst', e, h1, h2, h3, h4, h5⟩ := forEach_range_inv (n := done.length)
    (s := { dst with ncomp := 0, start := dst.start.set 0 (some 0) })
    (f := fun dst k =>
      (rdM src.start (done.length - k)).bind fun e =>
      (rdM src.start (done.length - k - 1)).bind fun b =>
      (rdM dst.start dst.ncomp).bind fun d =>
      (wrM dst.start (dst.ncomp + 1) d).bind fun start =>
      (copyIntVector (sizeSub e b) src.vert b dst.vert d).bind fun vert =>
      (wrM start (dst.ncomp + 1) (d + sizeSub e b)).bind fun start =>
      Res.ok { dst with ncomp := dst.ncomp + 1, start := start, vert := vert })
    (fun k d => d.ncomp = k ∧ d.start.length = done.flatten.length + 1 ∧
      d.vert.length = done.flatten.length ∧
      (∀ j ≤ k, d.start[j]? = some (some (off done.reverse j))) ∧
      (∀ (j v : Nat), (done.reverse.take k).flatten[j]? = some v → d.vert[j]? = some (some (v : Int))))
    (by
      refine ⟨rfl, by simp [hs], hv, ?_, by simp⟩
      intro j hj
      obtain rfl : j = 0 := by omega
      simp only
      rw [List.getElem?_set_self (by omega)]; simp [off])
    (by
      intro k d hk ⟨a1, a2, a3, a4, a5⟩
      obtain ⟨m, hm⟩ : ∃ m, done.length - k = m + 1 := ⟨done.length - k - 1, by omega⟩
      obtain ⟨c, hc⟩ : ∃ c, done[m]? = some c := ⟨_, List.getElem?_eq_getElem (by omega)⟩
      have hcr : done.reverse[k]? = some c := by
        rw [List.getElem?_reverse (by omega), show done.length - 1 - k = m by omega]; exact hc
      have hsz : sizeSub (off done (m + 1)) (off done m) = c.length := by
        rw [off_succ hc]; simp [sizeSub]
      have hoff := off_succ hcr
      have hofl := off_le done.reverse (k + 1)
      rw [hflat] at hofl
      obtain ⟨vert, ev, v1, v2, v3⟩ := copyIntVector_spec c src.vert (off done m) d.vert (off done.reverse k)
        (h.comp_vert hc) (by omega)
      have hmm : done.length - k - 1 = m := by omega
      rw [hmm, hm, rdM_of_getElem? (h.start (m + 1) (by omega)), Res.ok_bind,
        rdM_of_getElem? (h.start m (by omega)), Res.ok_bind, a1, rdM_of_getElem? (a4 k (le_refl _)), Res.ok_bind,
        wrM_ok (by omega), Res.ok_bind, hsz, ev, Res.ok_bind, wrM_ok (by simp; omega), Res.ok_bind]
      refine ⟨_, rfl, rfl, by simp [a2], by rw [← a3]; exact v1, ?_, ?_⟩
      · intro j hj
        simp only [List.set_set]
        rcases Nat.lt_or_ge j (k + 1) with hj' | hj'
        · rw [List.getElem?_set_ne (by omega)]; exact a4 j (by omega)
        · obtain rfl : j = k + 1 := by omega
          rw [List.getElem?_set_self (by omega), hoff]
      · intro j v hj
        rcases flatten_split hcr hj with ⟨q1, q2⟩ | ⟨q1, q2⟩
        · rw [v2 j q1]; exact a5 j v q2
        · have := v3 _ v q2
          rwa [show off done.reverse k + (j - off done.reverse k) = j by omega] at this)
  refine ⟨dst', e, h1, by rw [h1]; simp, ?_, ?_⟩
  · intro k hk; exact h4 k (by simpa using hk)
  · intro k v hk
    refine h5 k v ?_
    rw [List.take_of_length_le (by simp)]; exact hk

theorem allocate_some (n : Nat) (a : AllocSCC) (ha : a.all = true) : ∃ scc, allocateSccResult a n = some scc ∧
    scc.start.length = n + 1 ∧ scc.vert.length = n := by
  obtain ⟨x, y, z⟩ := a
  cases x <;> cases y <;> cases z <;> simp [AllocSCC.all] at ha
  exact ⟨_, rfl, by simp, by simp⟩

theorem allocate_none (n : Nat) (a : AllocSCC) (ha : a.all = false) : allocateSccResult a n = none := by
  obtain ⟨x, y, z⟩ := a
  cases x <;> cases y <;> cases z <;> simp [AllocSCC.all] at ha <;> rfl

theorem reverse_spec {scc : SCCResult} {done : List (List Nat)} (h : Stored scc done)
    (hne : ∀ c ∈ done, c ≠ []) (a : AllocSCC) (ha : a.all = true) :
    ∃ scc', reverseSccResult a (some scc) = .ok (true, some scc') ∧ Stored scc' done.reverse := by
  have h0 := h.start done.length (le_refl _)
  rw [off_length, ← h.ncomp] at h0
  obtain ⟨rev, e1, l1, l2⟩ := allocate_some done.flatten.length a ha
  obtain ⟨rev', e2, n2, s2⟩ := reverseSccCore_spec h hne l1 l2
  refine ⟨{ scc with start := rev'.start, vert := rev'.vert }, ?_, ?_⟩
  · unfold reverseSccResult
    simp only [Res.bind_eq, Res.pure_eq, rdM_of_getElem? h0, Res.ok_bind, e1, e2]
  · exact ⟨by simp [h.ncomp], s2.start, s2.vert⟩

theorem reverse_fail {scc : SCCResult} {done : List (List Nat)} (h : Stored scc done)
    (a : AllocSCC) (ha : a.all = false) : reverseSccResult a (some scc) = .ok (false, some scc) := by
  have h0 := h.start done.length (le_refl _)
  rw [off_length, ← h.ncomp] at h0
  unfold reverseSccResult
  simp only [Res.bind_eq, Res.pure_eq, rdM_of_getElem? h0, Res.ok_bind, allocate_none _ a ha]

section
variable {nv : Nat} {ia : List Nat} {ja : List Int}

/-- Complete call of `tarjan`, all allocations successful. -/
theorem tarjan_run_entry (hG : IsGraph nv ia ja) (a : AllocSCC) (ha : a.all = true) :
    ∃ scc comps, (∀ fuel, nv + numEdges nv ia ≤ fuel →
        tarjan true true a nv ia ja fuel = .ok (some scc)) ∧
      Stored scc comps ∧ IsSCCs nv ia ja (· < nv) comps ∧
      ∀ c ∈ comps, ∃ l u, c = l ++ [u] ∧ ((∃ p, p ∉ c ∧ HasEdge nv ia ja p u) ∨
        ∀ v, Reachable nv ia ja v u → u ≤ v) := by
  obtain ⟨scc0, e0, l1, l2⟩ := allocate_some nv a ha
  have hnv := hG.vertices_int
  have hN : nv ≤ 18446744073709551616 := by unfold INT_MAX at hnv; omega
  let work : WorkSpace := { nvert := nv, status := List.replicate nv none
                            link := List.replicate nv none, time := List.replicate nv none }
  obtain ⟨s, e1, r1⟩ := initialise_spec (w := work) (scc := scc0) (by simp [work]) (by simp [work])
    (by simp [work]) l1 l2
  have hC := csr_of_graph hG
  obtain ⟨s', g', e2, I2, R2, f2, p2, _, hd, _, hE⟩ := globalLoop_spec (Rch := (· < nv)) hC hN
    (fun u hu v hv => ⟨hC.lt u hu v hv, hC.lt u hu v hv⟩) (fun p hp => hp) nv 0 nv Ghost.init s (by omega)
    (le_refl _) (Inv.init _ _ _) r1 rfl rfl
  refine ⟨s'.scc, g'.done, ?_, R2.stored, I2.isSCCs hG ?_, ?_⟩
  · intro fuel hfuel
    have hm : measure nv (adjOf nv ia ja) Ghost.init = nv + numEdges nv ia := by
      rw [← remSum_all hG]; simp [measure, Ghost.init]
    have := e2 (fuel - (nv + numEdges nv ia))
    rw [hm, show nv + numEdges nv ia + (fuel - (nv + numEdges nv ia)) = fuel by omega] at this
    unfold tarjan createWorkspace
    simp only [if_true, e0, Res.bind_eq, Res.pure_eq]
    unfold tarjanGlobal
    simp only [Res.bind_eq]
    rw [show initialise _ scc0 = .ok s from e1, Res.ok_bind, r1.nvert]
    simp only [work] at this ⊢
    rw [this]; rfl
  · intro v
    rw [← I2.st_done v]
    constructor
    · intro hv; exact (I2.lt v (Or.inl ((I2.st_done v).mp hv))).1
    · intro hv; exact hd v (by omega) hv
  · intro c hc
    obtain ⟨l, u, e, h⟩ := (hE (fun v hv => by omega) (Entered.init _ _ _)).done c hc
    refine ⟨l, u, e, ?_⟩
    rcases h with ⟨p, h1, _, h3⟩ | h
    · exact Or.inl ⟨p, h1, (edge_iff hG p u).mp h3⟩
    · exact Or.inr fun v hv => h v ((reach_iff hG v u).mpr hv)

theorem tarjan_run (hG : IsGraph nv ia ja) (a : AllocSCC) (ha : a.all = true) :
    ∃ scc comps, (∀ fuel, nv + numEdges nv ia ≤ fuel →
        tarjan true true a nv ia ja fuel = .ok (some scc)) ∧
      Stored scc comps ∧ IsSCCs nv ia ja (· < nv) comps := by
  obtain ⟨scc, comps, h1, h2, h3, _⟩ := tarjan_run_entry hG a ha
  exact ⟨scc, comps, h1, h2, h3⟩

/-- Complete call of `tarjan_reachable_sccs`, all allocations successful.  The components are
    a function of the graph and the start points. -/
theorem reachable_run_entry (hG : IsGraph nv ia ja) (starts : List Nat) (hs : ∀ p ∈ starts, p < nv)
    (w : WorkSpace) (hw : IsWorkSpace w) (hnv : nv ≤ w.nvert) (a : AllocSCC) (ha : a.all = true) :
    ∃ scc w', (∀ fuel, nv + numEdges nv ia ≤ fuel →
        reachableSccs a nv ia ja (starts.map fun p : Nat => (p : Int)) (some w) fuel
          = .ok (some scc, some w')) ∧
      IsWorkSpace w' ∧ w'.nvert = w.nvert ∧
      Stored scc (Ghost.init.search nv (adjOf nv ia ja) starts).done ∧
      IsSCCs nv ia ja (fun v => ∃ p ∈ starts, Reachable nv ia ja p v)
        (Ghost.init.search nv (adjOf nv ia ja) starts).done ∧
      ∀ c ∈ (Ghost.init.search nv (adjOf nv ia ja) starts).done, ∃ l u, c = l ++ [u] ∧
        ((∃ p, p ∉ c ∧ (∃ q ∈ starts, Reachable nv ia ja q p) ∧ HasEdge nv ia ja p u) ∨ u ∈ starts) := by
  obtain ⟨scc0, e0, l1, l2⟩ := allocate_some w.nvert a ha
  obtain ⟨s, e1, r1⟩ := initialise_spec (w := w) (scc := scc0) hw.status hw.link hw.time l1 l2
  have hC := csr_of_graph hG
  have hsz := hw.size
  obtain ⟨s', g', e2, I2, R2, f2, p2, _, hd, hg, hE⟩ := reachableLoop_spec
    (Rch := fun v => v < nv ∧ ∃ p ∈ starts, Reach (adjOf nv ia ja) p v) hC hnv (by omega)
    (fun u hu v hv => ⟨hC.lt u hu.1 v hv, hC.lt u hu.1 v hv, by
      obtain ⟨p, hp, hr⟩ := hu.2; exact ⟨p, hp, hr.tail hv⟩⟩) starts
    (fun p hp => ⟨hs p hp, hs p hp, p, hp, .refl⟩) Ghost.init s (Inv.init _ _ _) r1 rfl rfl
  refine ⟨s'.scc, s'.work, ?_, ?_, R2.nvert, hg ▸ R2.stored, hg ▸ I2.isSCCs hG ?_, hg ▸ ?_⟩
  · intro fuel hfuel
    have hm : measure nv (adjOf nv ia ja) Ghost.init = nv + numEdges nv ia := by
      rw [← remSum_all hG]; simp [measure, Ghost.init]
    have := e2 (fuel - (nv + numEdges nv ia))
    rw [hm, show nv + numEdges nv ia + (fuel - (nv + numEdges nv ia)) = fuel by omega] at this
    unfold reachableSccs
    simp only [Res.bind_eq, Res.pure_eq, assertThat_ok (show decide (w.nvert ≥ nv) = true by simpa using hnv),
      Res.ok_bind, e0, e1, this]
  · have := R2.nvert
    exact ⟨by rw [R2.lenStatus, this], by rw [R2.lenLink, this], by rw [R2.lenTime, this], by omega⟩
  · intro v
    constructor
    · intro hv
      obtain ⟨_, p, hp, hr⟩ := (I2.lt v (Or.inl hv)).2
      exact ⟨p, hp, (reach_iff hG p v).mp hr⟩
    · rintro ⟨p, hp, hr⟩
      exact I2.done_closed ((I2.st_done p).mp (hd p hp)) ((reach_iff hG p v).mpr hr)
  · intro c hc
    obtain ⟨l, u, e, h⟩ := (hE (· ∈ starts) (fun p hp => hp) (Entered.init _ _ _)).done c hc
    refine ⟨l, u, e, ?_⟩
    rcases h with ⟨p, h1, ⟨_, q, hq, hr⟩, h3⟩ | h
    · exact Or.inl ⟨p, h1, ⟨q, hq, (reach_iff hG q p).mp hr⟩, (edge_iff hG p u).mp h3⟩
    · exact Or.inr h

theorem reachable_run (hG : IsGraph nv ia ja) (starts : List Nat) (hs : ∀ p ∈ starts, p < nv)
    (w : WorkSpace) (hw : IsWorkSpace w) (hnv : nv ≤ w.nvert) (a : AllocSCC) (ha : a.all = true) :
    ∃ scc w', (∀ fuel, nv + numEdges nv ia ≤ fuel →
        reachableSccs a nv ia ja (starts.map fun p : Nat => (p : Int)) (some w) fuel
          = .ok (some scc, some w')) ∧
      IsWorkSpace w' ∧ w'.nvert = w.nvert ∧
      Stored scc (Ghost.init.search nv (adjOf nv ia ja) starts).done ∧
      IsSCCs nv ia ja (fun v => ∃ p ∈ starts, Reachable nv ia ja p v)
        (Ghost.init.search nv (adjOf nv ia ja) starts).done := by
  obtain ⟨scc, w', h1, h2, h3, h4, h5, _⟩ := reachable_run_entry hG starts hs w hw hnv a ha
  exact ⟨scc, w', h1, h2, h3, h4, h5⟩

end

end Verif.Tarjan
