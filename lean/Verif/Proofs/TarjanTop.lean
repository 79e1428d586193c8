/- The public functions of tarjan.c on ghost data, and their specification. -/
import Verif.Proofs.TarjanMem
import Verif.Proofs.TarjanEntry
import Verif.Spec.SCC

namespace Verif.Tarjan
open Verif.Spec

/-- Successor lists of a graph in compressed form. -/
def adjOf (nv : Nat) (ia : List Nat) (ja : List Int) (u : Nat) : List Nat :=
  if u < nv then (rowOf ia ja u).map Int.toNat else []

section
variable {nv : Nat} {ia : List Nat} {ja : List Int}

theorem length_row (h : IsGraph nv ia ja) {u : Nat} (hu : u < nv) :
    (rowOf ia ja u).length = ia.getD (u + 1) 0 - ia.getD u 0 := by
  have hmono : ∀ b ≤ nv, ∀ a ≤ b, ia.getD a 0 ≤ ia.getD b 0 := by
    intro b
    induction b with
    | zero => intro _ a ha; obtain rfl : a = 0 := by omega
              exact le_refl _
    | succ b ih =>
      intro hb a ha
      rcases Nat.lt_or_ge a (b + 1) with h1 | h1
      · exact le_trans (ih (by omega) a (by omega)) (h.mono b (by omega))
      · obtain rfl : a = b + 1 := by omega
        exact le_refl _
  have h1 := hmono nv (le_refl _) (u + 1) (by omega)
  have h2 := h.last
  unfold rowOf
  rw [List.length_take, List.length_drop]; omega

theorem csr_of_graph (h : IsGraph nv ia ja) : Csr nv (adjOf nv ia ja) ia ja := by
  refine ⟨?_, ?_, ?_, h.vertices_int⟩
  · intro u hu
    have hlen := length_row h hu
    have hm := h.mono u hu
    have hsz := h.size
    have hadj : (adjOf nv ia ja u).length = ia.getD (u + 1) 0 - ia.getD u 0 := by
      simp only [adjOf, if_pos hu, List.length_map, hlen]
    refine ⟨ia.getD u 0, ?_, ?_, ?_⟩
    · rw [List.getD_eq_getElem?_getD, List.getElem?_eq_getElem (by omega)]; rfl
    · rw [hadj, show ia.getD u 0 + (ia.getD (u + 1) 0 - ia.getD u 0) = ia.getD (u + 1) 0 by omega,
        List.getD_eq_getElem?_getD, List.getElem?_eq_getElem (by omega)]; rfl
    · intro k v hk
      simp only [adjOf, if_pos hu, List.getElem?_map, Option.map_eq_some_iff] at hk
      obtain ⟨x, hx, rfl⟩ := hk
      have hxr := h.range u hu x (List.mem_of_getElem? hx)
      have hkl : k < ia.getD (u + 1) 0 - ia.getD u 0 := by
        by_contra hcon; rw [List.getElem?_eq_none (by omega)] at hx; simp at hx
      unfold rowOf at hx
      rw [List.getElem?_take_of_lt hkl, List.getElem?_drop] at hx
      rw [hx]; congr 1; omega
  · intro u hu
    simp only [adjOf, if_pos hu, List.length_map, length_row h hu]
    exact h.degrees_int u hu
  · intro u hu v hv
    simp only [adjOf, if_pos hu, List.mem_map] at hv
    obtain ⟨x, hx, rfl⟩ := hv
    have := h.range u hu x hx; omega

theorem edge_iff (h : IsGraph nv ia ja) (u v : Nat) : Edge (adjOf nv ia ja) u v ↔ HasEdge nv ia ja u v := by
  unfold Edge HasEdge adjOf
  by_cases hu : u < nv
  · rw [if_pos hu, List.mem_map]
    simp only [hu, true_and]
    constructor
    · rintro ⟨x, hx, rfl⟩
      have := h.range u hu x hx
      rwa [Int.toNat_of_nonneg this.1]
    · intro hx; exact ⟨v, hx, rfl⟩
  · simp [hu]

theorem reach_iff (h : IsGraph nv ia ja) (u v : Nat) :
    Reach (adjOf nv ia ja) u v ↔ Reachable nv ia ja u v := by
  unfold Reachable Reach
  rw [show Edge (adjOf nv ia ja) = HasEdge nv ia ja from by
    funext a b; exact propext (edge_iff h a b)]

theorem reachable_lt (h : IsGraph nv ia ja) {u v : Nat} (hu : u < nv) (hr : Reachable nv ia ja u v) :
    v < nv := by
  induction hr with
  | refl => exact hu
  | tail _ he _ => have := h.range _ he.1 _ he.2; omega

theorem remSum_all (h : IsGraph nv ia ja) :
    remSum nv (adjOf nv ia ja) (fun _ => -1) = nv + numEdges nv ia := by
  unfold remSum numEdges
  simp only [if_true]
  suffices H : ∀ k ≤ nv, ia.getD 0 0 ≤ ia.getD k 0 ∧
      ∑ v ∈ Finset.range k, ((adjOf nv ia ja v).length + 1) = k + (ia.getD k 0 - ia.getD 0 0) from
    (H nv (le_refl _)).2
  intro k
  induction k with
  | zero => intro _; simp
  | succ k ih =>
    intro hk
    obtain ⟨h1, h2⟩ := ih (by omega)
    have hm := h.mono k (by omega)
    refine ⟨le_trans h1 hm, ?_⟩
    rw [Finset.sum_range_succ, h2]
    simp only [adjOf, if_pos (show k < nv by omega), List.length_map, length_row h (show k < nv by omega)]
    omega

end

/-- Nothing has been visited. -/
def Ghost.init : Ghost :=
  { done := [], frames := [], pend := none, st := fun _ => -1, lk := fun _ => 0, tm := fun _ => 0
    clock := 0 }

theorem Inv.init (nv : Nat) (adj : Nat → List Nat) (Rch : Nat → Prop) : Inv nv adj Rch Ghost.init := by
  refine ⟨?_, ?_, ?_, ?_, ?_, ?_, ?_, ?_, ?_, ?_, ?_, ?_, ?_, ?_, ?_, ?_, ?_, ?_, ?_, ?_, ?_⟩ <;>
    simp [Ghost.init]

theorem Entered.init (Rch Sd : Nat → Prop) (adj : Nat → List Nat) : Entered Rch Sd adj Ghost.init :=
  ⟨fun p h _ => by simp [Ghost.init] at h, fun f h => by simp [Ghost.init] at h, fun c h => by simp [Ghost.init] at h⟩

theorem assignIntVector_spec (n : Nat) (val : Int) (v : Mem Int) (h : n ≤ v.length) :
    ∃ v', assignIntVector n val v = .ok v' ∧ v'.length = v.length ∧ ∀ i < n, v'[i]? = some (some val) := by
  unfold assignIntVector
  obtain ⟨v', e, h1, h2⟩ := forEach_range_inv (n := n) (s := v) (f := fun v i => wrM v i val)
    (fun k w => w.length = v.length ∧ ∀ i < k, w[i]? = some (some val)) (by simp) (by
      intro i w hi hw
      refine ⟨_, wrM_ok (by omega), by simp [hw.1], ?_⟩
      intro j hj
      by_cases hji : i = j
      · subst hji; rw [List.getElem?_set_self (by omega)]
      · rw [List.getElem?_set_ne hji]; exact hw.2 j (by omega))
  exact ⟨v', e, h1, h2⟩

theorem initialise_spec {w : WorkSpace} {scc : SCCResult} (hw : w.status.length = w.nvert)
    (hl : w.link.length = w.nvert) (ht : w.time.length = w.nvert)
    (hs : scc.start.length = w.nvert + 1) (hv : scc.vert.length = w.nvert) :
    ∃ s, initialise w scc = .ok s ∧ Rel w.nvert s Ghost.init [] := by
  obtain ⟨st, e, h1, h2⟩ := assignIntVector_spec w.nvert REMAINING w.status (by omega)
  refine ⟨{ work := { w with status := st }
            scc := { scc with
              ncomp := 0
              start := scc.start.set 0 (some 0)
              vtop := w.nvert + 1
              vbase := w.nvert + 1
              ctop := w.nvert
              cbase := w.nvert } }, ?_, ?_⟩
  · unfold initialise initialiseCsr initialiseStacks
    simp only [Res.bind_eq, Res.pure_eq, e, Res.ok_bind, wrM_ok (show 0 < scc.start.length by omega)]
  · refine ⟨rfl, h1.trans hw, hl, ht, by simp [hs], hv, rfl, rfl, ?_, ?_, ?_, rfl, ?_, ?_, ?_, ?_, ?_, ?_⟩
    · intro v hv'; exact h2 v hv'
    · intro v hv'; simp [Ghost.init] at hv'
    · intro v hv'; simp [Ghost.init] at hv'
    · intro k hk
      simp only [Ghost.init, List.length_nil, Nat.le_zero] at hk; subst hk
      simp only
      rw [List.getElem?_set_self (by omega)]; simp [off]
    · intro k v hk; simp [Ghost.init] at hk
    · simp [Ghost.init]
    · intro k v hk; simp [Ghost.init] at hk
    · simp
    · intro k v hk; simp at hk

/-- Searches from a list of start points, skipping completed ones. -/
def Ghost.search (nv : Nat) (adj : Nat → List Nat) (starts : List Nat) (g : Ghost) : Ghost :=
  starts.foldl (fun g p => if g.st p = -2 then g else (g.begin p).run adj (measure nv adj g)) g

section
variable {nv N : Nat} {adj : Nat → List Nat} {Rch : Nat → Prop} {ia : List Nat} {ja : List Int}

/-- tarjan.c:508-516 on ghost data. -/
theorem reachableLoop_spec (hC : Csr nv adj ia ja) (hN : nv ≤ N) (hN64 : N ≤ 18446744073709551616)
    (hcl : ∀ u, Rch u → ∀ v ∈ adj u, v < nv ∧ Rch v) (starts : List Nat)
    (hs : ∀ p ∈ starts, p < nv ∧ Rch p) :
    ∀ (g : Ghost) (s : Run), Inv nv adj Rch g → Rel N s g [] → g.frames = [] → g.pend = none →
    ∃ s' g', (∀ k, reachableLoop ia ja (starts.map fun p : Nat => (p : Int)) s (measure nv adj g + k)
        = .ok (s', measure nv adj g' + k)) ∧
      Inv nv adj Rch g' ∧ Rel N s' g' [] ∧ g'.frames = [] ∧ g'.pend = none ∧
      (∀ v, g.st v ≠ -1 → g'.st v ≠ -1) ∧ (∀ p ∈ starts, g'.st p = -2) ∧
      g' = g.search nv adj starts ∧
      ∀ Sd : Nat → Prop, (∀ p ∈ starts, Sd p) → Entered Rch Sd adj g → Entered Rch Sd adj g' := by
  induction starts with
  | nil =>
    intro g s h hr hf hp
    exact ⟨s, g, fun k => rfl, h, hr, hf, hp, fun v hv => hv, by simp, rfl, fun _ _ he => he⟩
  | cons p starts ih =>
    intro g s h hr hf hp
    obtain ⟨hplt, hpr⟩ := hs p (by simp)
    have hsz : sizeOfInt (p : Int) = p := by
      have := hC.nv_le
      rw [sizeOfInt_nonneg (by omega) (by omega)]; rfl
    have hst := hr.status p (by omega)
    have hdone : ∀ g' : Ghost, Inv nv adj Rch g' → g'.frames = [] → g'.st p ≠ -1 → g'.st p = -2 := by
      intro g' hi hf' hne
      have h2 := hi.st_ge p
      have h3 := hi.st_stk p
      rw [hf'] at h3; simp at h3; omega
    by_cases hd : g.st p = -2
    · obtain ⟨s2, g2, e2, I2, R2, f2, p2, hs2, hs3, hg2, hE⟩ := ih (fun q hq => hs q (by simp [hq])) g s h hr hf hp
      refine ⟨s2, g2, ?_, I2, R2, f2, p2, hs2, ?_, ?_, fun Sd hSd he => hE Sd (fun q hq => hSd q (by simp [hq])) he⟩
      · intro k
        have := e2 k
        unfold reachableLoop at this ⊢
        simp only [List.map_cons, forEach_cons, Res.bind_eq, Res.pure_eq, hsz, rdM_of_getElem? hst, Res.ok_bind]
        rw [if_pos (by rw [hd]; rfl), Res.ok_bind]; exact this
      · intro q hq
        rcases List.mem_cons.mp hq with rfl | hq
        · exact hdone g2 I2 f2 (hs2 q (by omega))
        · exact hs3 q hq
      · rw [hg2]; simp [Ghost.search, hd]
    · obtain ⟨s1, g1, e1, I1, R1, f1, p1, hs1, hst1, hg1⟩ := local_spec hC hN hN64 hcl h hr hf hplt hpr hd
      obtain ⟨s2, g2, e2, I2, R2, f2, p2, hs2, hs3, hg2, hE⟩ := ih (fun q hq => hs q (by simp [hq])) g1 s1 I1 R1 f1 p1
      refine ⟨s2, g2, ?_, I2, R2, f2, p2, fun v hv => hs2 v (hs1 v hv), ?_, ?_, fun Sd hSd he =>
        hE Sd (fun q hq => hSd q (by simp [hq])) (hg1 ▸ Entered.run hcl _ (he.begin (hSd p (by simp))) (h.begin hf hplt hpr hd))⟩
      · intro k
        have := e2 k
        unfold reachableLoop at this ⊢
        simp only [List.map_cons, forEach_cons, Res.bind_eq, Res.pure_eq, hsz, rdM_of_getElem? hst, Res.ok_bind]
        rw [if_neg (by show ¬ _ = (-2 : Int); exact hd), e1 k, Res.ok_bind]; exact this
      · intro q hq
        rcases List.mem_cons.mp hq with rfl | hq
        · exact hdone g2 I2 f2 (hs2 q (by omega))
        · exact hs3 q hq
      · rw [hg2, hg1]; simp [Ghost.search, hd]

/-- tarjan.c:296-330 on ghost data: equivalent to searching from all vertices in order. -/
theorem globalLoop_spec (hC : Csr nv adj ia ja) (hN64 : nv ≤ 18446744073709551616)
    (hcl : ∀ u, Rch u → ∀ v ∈ adj u, v < nv ∧ Rch v) (hall : ∀ p < nv, Rch p) (d : Nat) :
    ∀ (i rounds : Nat) (g : Ghost) (s : Run), i + d = nv → d ≤ rounds →
    Inv nv adj Rch g → Rel nv s g [] → g.frames = [] → g.pend = none →
    ∃ s' g', (∀ k, ((findStart s.work d i).bind fun next =>
        globalLoop ia ja rounds next s (measure nv adj g + k)) = .ok (s', measure nv adj g' + k)) ∧
      Inv nv adj Rch g' ∧ Rel nv s' g' [] ∧ g'.frames = [] ∧ g'.pend = none ∧
      (∀ v, g.st v ≠ -1 → g'.st v ≠ -1) ∧ (∀ p, i ≤ p → p < nv → g'.st p = -2) ∧
      g' = g.search nv adj (List.range' i d) ∧
      ((∀ v < i, g.st v = -2) → Entered Rch (fun u => ∀ v, Reach adj v u → u ≤ v) adj g →
        Entered Rch (fun u => ∀ v, Reach adj v u → u ≤ v) adj g') := by
  induction d with
  | zero =>
    intro i rounds g s hi _ h hr hf hp
    refine ⟨s, g, ?_, h, hr, hf, hp, fun v hv => hv, fun p h1 h2 => by omega, rfl, fun _ he => he⟩
    intro k
    simp only [findStart, Res.ok_bind]
    unfold globalLoop
    rw [if_neg (by rw [hr.nvert]; omega)]
  | succ d ih =>
    intro i rounds g s hi hrounds h hr hf hp
    have hst := hr.status i (by omega)
    have hdone : ∀ g' : Ghost, Inv nv adj Rch g' → g'.frames = [] → g'.st i ≠ -1 → g'.st i = -2 := by
      intro g' hi hf' hne
      have h2 := hi.st_ge i
      have h3 := hi.st_stk i
      rw [hf'] at h3; simp at h3; omega
    by_cases hd : g.st i = -2
    · obtain ⟨s2, g2, e2, I2, R2, f2, p2, hs2, hs3, hg2, hE⟩ := ih (i + 1) rounds g s (by omega) (by omega) h hr hf hp
      refine ⟨s2, g2, ?_, I2, R2, f2, p2, hs2, ?_, ?_, fun hlt he => hE (fun v hv => ?_) he⟩
      rotate_right
      · rcases Nat.lt_or_ge v i with hv' | hv'
        · exact hlt v hv'
        · rw [show v = i by omega]; exact hd
      · intro k
        rw [findStart]
        simp only [Res.bind_eq, rdM_of_getElem? hst, Res.ok_bind]
        rw [if_pos (by rw [hd]; rfl)]; exact e2 k
      · intro q h1 h2
        rcases Nat.lt_or_ge i q with h3 | h3
        · exact hs3 q h3 h2
        · obtain rfl : i = q := by omega
          exact hdone g2 I2 f2 (hs2 i (by omega))
      · rw [hg2]; simp [Ghost.search, List.range'_succ, hd]
    · obtain ⟨s1, g1, e1, I1, R1, f1, p1, hs1, hst1, hg1⟩ :=
        local_spec hC (le_refl _) hN64 hcl h hr hf (show i < nv by omega) (hall i (by omega)) hd
      obtain ⟨rounds, rfl⟩ : ∃ r, rounds = r + 1 := ⟨rounds - 1, by omega⟩
      obtain ⟨s2, g2, e2, I2, R2, f2, p2, hs2, hs3, hg2, hE⟩ :=
        ih (i + 1) rounds g1 s1 (by omega) (by omega) I1 R1 f1 p1
      refine ⟨s2, g2, ?_, I2, R2, f2, p2, fun v hv => hs2 v (hs1 v hv), ?_, ?_, fun hlt he => hE (fun v hv => ?_)
        (hg1 ▸ Entered.run hcl _ (he.begin fun v hr => ?_) (h.begin hf (show i < nv by omega) (hall i (by omega)) hd))⟩
      rotate_right 2
      · have h1 := I1.st_ge v
        have h2 := I1.st_stk v
        rw [f1] at h2
        simp only [stk_nil, List.not_mem_nil, iff_false] at h2
        rcases Nat.lt_or_ge v i with hv' | hv'
        · have := hs1 v (by rw [hlt v hv']; omega)
          omega
        · rw [show v = i by omega]; exact hst1
      · by_contra hvi
        exact hd ((h.st_done i).mpr (h.done_closed ((h.st_done v).mp (hlt v (by omega))) hr))
      · intro k
        rw [findStart]
        simp only [Res.bind_eq, Res.pure_eq, rdM_of_getElem? hst, Res.ok_bind]
        rw [if_neg (by show ¬ _ = (-2 : Int); exact hd), Res.ok_bind]
        unfold globalLoop
        rw [if_pos (by rw [hr.nvert]; omega)]
        simp only [Res.bind_eq, e1 k, Res.ok_bind]
        have hst' := R1.status i (by omega)
        rw [R1.nvert, show nv - i = d + 1 by omega, findStart]
        simp only [Res.bind_eq, rdM_of_getElem? hst', Res.ok_bind]
        rw [if_pos (by rw [hst1]; rfl)]; exact e2 k
      · intro q h1 h2
        rcases Nat.lt_or_ge i q with h3 | h3
        · exact hs3 q h3 h2
        · obtain rfl : i = q := by omega
          exact hdone g2 I2 f2 (hs2 i (by omega))
      · rw [hg2, hg1]; simp [Ghost.search, List.range'_succ, hd]

/-- Reachability never leads to a later component. -/
theorem Inv.order {g : Ghost} (h : Inv nv adj Rch g) {a b : Nat} {A B : List Nat} {u v : Nat}
    (ha : g.done[a]? = some A) (hb : g.done[b]? = some B) (hu : u ∈ A) (hv : v ∈ B)
    (hr : Reach adj u v) : b ≤ a := by
  by_contra hlt
  have hal : a < g.done.length := by
    by_contra hcon; rw [List.getElem?_eq_none (by omega)] at ha; simp at ha
  have hbl : b < g.done.length := by
    by_contra hcon; rw [List.getElem?_eq_none (by omega)] at hb; simp at hb
  have hclosed : ∀ x y, Reach adj x y → x ∈ (g.done.take (a + 1)).flatten →
      y ∈ (g.done.take (a + 1)).flatten := by
    intro x y hxy hx
    induction hxy with
    | refl => exact hx
    | tail _ he ih =>
      rename_i p q _
      obtain ⟨C, hC, hpC⟩ := List.mem_flatten.mp ih
      obtain ⟨i, hi, hCi⟩ := List.mem_iff_getElem.mp hC
      have hil : i < g.done.length ∧ i ≤ a := by
        rw [List.length_take] at hi; omega
      have hCi' : g.done[i] = C := by rw [← hCi]; simp
      have hsplit : g.done = g.done.take i ++ C :: g.done.drop (i + 1) := by
        rw [← hCi', ← List.drop_eq_getElem_cons hil.1, List.take_append_drop]
      rcases h.closed _ _ _ hsplit p hpC q he with hq | hq
      · obtain ⟨C', hC', hq'⟩ := List.mem_flatten.mp hq
        exact List.mem_flatten.mpr ⟨C', (List.take_subset_take_left _ (by omega)) hC', hq'⟩
      · exact List.mem_flatten.mpr ⟨C, hC, hq⟩
  have hin := hclosed u v hr (List.mem_flatten.mpr ⟨A, by
    rw [List.getElem?_eq_getElem hal] at ha; simp at ha
    rw [← ha]; exact List.mem_iff_getElem.mpr ⟨a, by rw [List.length_take]; omega, by simp⟩, hu⟩)
  have hB : v ∈ (g.done.drop (a + 1)).flatten := List.mem_flatten.mpr ⟨B, by
    rw [List.getElem?_eq_getElem hbl] at hb; simp at hb
    rw [← hb]
    exact List.mem_iff_getElem.mpr ⟨b - (a + 1), by rw [List.length_drop]; omega, by
      rw [List.getElem_drop]; congr 1; omega⟩, hv⟩
  have hnd := h.nodupD
  rw [← List.take_append_drop (a + 1) g.done, List.flatten_append, List.nodup_append] at hnd
  exact hnd.2.2 v hin v hB rfl

/-- What a finished search has established. -/
theorem Inv.isSCCs (hG : IsGraph nv ia ja) {g : Ghost} (h : Inv nv (adjOf nv ia ja) Rch g) {V : Nat → Prop}
    (hV : ∀ v, v ∈ g.done.flatten ↔ V v) : IsSCCs nv ia ja V g.done := by
  refine ⟨fun c hc => (h.conn c hc).1, h.nodupD, hV, ?_, ?_, fun c hc pre u post e hp => ?_⟩
  · intro a b A B u v ha hb hu hv
    constructor
    · rintro rfl
      rw [ha] at hb; simp only [Option.some.injEq] at hb; subst hb
      have hc := (h.conn A (List.mem_of_getElem? ha)).2
      rw [← reach_iff hG, ← reach_iff hG]
      exact ⟨hc u hu v hv, hc v hv u hu⟩
    · rintro ⟨h1, h2⟩
      rw [← reach_iff hG] at h1 h2
      exact Nat.le_antisymm (h.order hb ha hv hu h2) (h.order ha hb hu hv h1)
  · intro a b A B u v ha hb hu hv he
    exact h.order ha hb hu hv (.single ((edge_iff hG u v).mpr he))
  · obtain ⟨q, hq, hE⟩ := h.backD c hc pre u post e hp
    exact ⟨q, hq, (edge_iff hG q u).mp hE⟩

end

theorem flatten_getElem? {done : List (List Nat)} {k : Nat} {c : List Nat} (hc : done[k]? = some c)
    {i : Nat} (hi : i < c.length) : done.flatten[off done k + i]? = c[i]? := by
  have hkl : k < done.length := by
    by_contra hcon; rw [List.getElem?_eq_none (by omega)] at hc; simp at hc
  have hck : done[k] = c := by rw [List.getElem?_eq_getElem hkl] at hc; simpa using hc
  have hsplit : done.flatten = (done.take k).flatten ++ (c ++ (done.drop (k + 1)).flatten) := by
    rw [← List.flatten_cons, ← List.flatten_append, ← hck, ← List.drop_eq_getElem_cons hkl,
      List.take_append_drop]
  rw [hsplit, List.getElem?_append_right (by unfold off; omega)]
  unfold off
  rw [Nat.add_sub_cancel_left, List.getElem?_append_left hi]

theorem off_succ {done : List (List Nat)} {k : Nat} {c : List Nat} (hc : done[k]? = some c) :
    off done (k + 1) = off done k + c.length := by
  have hkl : k < done.length := by
    by_contra hcon; rw [List.getElem?_eq_none (by omega)] at hc; simp at hc
  unfold off
  rw [List.take_succ_eq_append_getElem hkl]
  rw [List.getElem?_eq_getElem hkl] at hc; simp at hc; simp [hc]

/-- Reading a stretch of storage. -/
theorem readLoop (vert : Mem Int) (b : Nat) (c : List Nat)
    (h : ∀ (i v : Nat), c[i]? = some v → vert[b + i]? = some (some (v : Int))) :
    (forEach (List.range c.length) [] fun acc i => do
      let x ← rdM vert (b + i)
      pure (acc ++ [x])) = .ok (c.map fun v : Nat => (v : Int)) := by
  obtain ⟨s', e, hs'⟩ := forEach_range_inv (n := c.length) (s := ([] : List Int))
    (f := fun acc i => do
      let x ← rdM vert (b + i)
      pure (acc ++ [x]))
    (fun k acc => acc = (c.take k).map fun v : Nat => (v : Int)) (by simp) (by
      intro i acc hi hacc
      have := h i c[i] (List.getElem?_eq_getElem hi)
      simp only [Res.bind_eq, Res.pure_eq, rdM_of_getElem? this, Res.ok_bind]
      refine ⟨_, rfl, ?_⟩
      rw [List.take_succ_eq_append_getElem hi, hacc, List.map_append]; rfl)
  rw [e, hs', List.take_length]

/-- Stored components: the arrays hold the components `done` in compressed form. -/
structure Stored (scc : SCCResult) (done : List (List Nat)) : Prop where
  ncomp : scc.ncomp = done.length
  start : ∀ k ≤ done.length, scc.start[k]? = some (some (off done k))
  vert : ∀ (k v : Nat), done.flatten[k]? = some v → scc.vert[k]? = some (some (v : Int))

theorem Stored.comp_vert {scc : SCCResult} {done} (h : Stored scc done) {k : Nat} {c : List Nat}
    (hc : done[k]? = some c) :
    ∀ (i v : Nat), c[i]? = some v → scc.vert[off done k + i]? = some (some (v : Int)) := by
  intro i v hi
  have hil : i < c.length := by
    by_contra hcon; rw [List.getElem?_eq_none (by omega)] at hi; simp at hi
  exact h.vert _ v (by rw [flatten_getElem? hc hil]; exact hi)

theorem Stored.shows {scc : SCCResult} {done} (h : Stored scc done) : Shows scc done := by
  refine ⟨h.ncomp, ?_⟩
  intro k c hc
  have hkl : k < done.length := by
    by_contra hcon; rw [List.getElem?_eq_none (by omega)] at hc; simp at hc
  unfold getStrongComponent
  have hsz : sizeSub (off done (k + 1)) (off done k) = c.length := by
    rw [off_succ hc]; simp [sizeSub]
  simp only [Res.bind_eq, assertThat_ok (show decide (k < getNumComponents scc) = true by
      unfold getNumComponents; rw [h.ncomp]; simpa using hkl), Res.ok_bind,
    rdM_of_getElem? (h.start k (by omega)), rdM_of_getElem? (h.start (k + 1) (by omega)), hsz]
  exact readLoop scc.vert _ c (h.comp_vert hc)

theorem Rel.stored {N : Nat} {s : Run} {g : Ghost} {vl} (h : Rel N s g vl) : Stored s.scc g.done :=
  ⟨h.ncomp, h.start, h.vert⟩

end Verif.Tarjan
