/-
The order in which the cells of a chain that leads into a ring are visited.
-/
import Verif.Proofs.SolverOrder
import Verif.Props.TarjanListing

namespace Verif.Endless
open Verif.Solver Verif.Spec Verif.Tarjan

/-- The edges of the chain 0 → 1 → ... → N and the ring N → N+1 → N+2 → N. -/
def chainRing (N u v : Nat) : Prop :=
  (u < N ∧ v = u + 1) ∨ (u = N ∧ v = N + 1) ∨ (u = N + 1 ∧ v = N + 2) ∨ (u = N + 2 ∧ v = N)

/-- A list of the numbers below `M` in which no number comes after its successor is ascending. -/
theorem eq_range_of_pairwise : ∀ {M : Nat} {l : List Nat}, l.Nodup → (∀ x, x ∈ l ↔ x < M) →
    l.Pairwise (fun a b => b + 1 ≠ a) → l = List.range M
  | 0, l, _, hm, _ => by
    rcases List.eq_nil_or_concat l with rfl | ⟨l', x, rfl⟩
    · rfl
    · have := (hm x).mp (by simp); omega
  | M + 1, l, hn, hm, hp => by
    rcases List.eq_nil_or_concat l with rfl | ⟨l', x, rfl⟩
    · have := (hm 0).mpr (by omega); simp at this
    · rw [List.concat_eq_append] at hn hm hp ⊢
      obtain ⟨h1, h2, h3⟩ := List.pairwise_append.mp hp
      obtain ⟨k1, _, k3⟩ := List.nodup_append.mp hn
      have hx : x = M := by
        by_contra hne
        have hlt := (hm x).mp (by simp)
        have hs := (hm (x + 1)).mpr (by omega)
        rcases List.mem_append.mp hs with h | h
        · exact h3 _ h x (by simp) rfl
        · simp at h
      subst hx
      rw [List.range_succ]
      congr 1
      refine eq_range_of_pairwise k1 (fun y => ?_) h1
      constructor
      · intro hy
        have := (hm y).mp (by simp [hy])
        have : y ≠ x := k3 y hy x (by simp)
        omega
      · intro hy
        have := (hm y).mpr (by omega)
        rcases List.mem_append.mp this with h | h
        · exact h
        · simp at h; omega

section
variable {N : Nat} {ia : List Nat} {ja : List Int}

theorem chain_reach (hE : ∀ u v, HasEdge (N + 3) ia ja u v ↔ chainRing N u v) {u v : Nat}
    (h : Reachable (N + 3) ia ja u v) : v < N → u ≤ v := by
  induction h with
  | refl => exact fun _ => le_refl _
  | tail _ h ih =>
    intro hv
    rcases (hE _ _).mp h with ⟨h1, h2⟩ | ⟨h1, h2⟩ | ⟨h1, h2⟩ | ⟨h1, h2⟩ <;> omega

theorem reach_chain (hE : ∀ u v, HasEdge (N + 3) ia ja u v ↔ chainRing N u v) :
    ∀ v, v ≤ N → Reachable (N + 3) ia ja 0 v := by
  intro v
  induction v with
  | zero => exact fun _ => .refl
  | succ v ih => exact fun h => (ih (by omega)).tail ((hE _ _).mpr (Or.inl ⟨by omega, rfl⟩))

/-- The components, most upstream first: the cells of the chain in order, then the ring, listed against the flow. -/
theorem comps_eq (hN : 1 ≤ N) (hE : ∀ u v, HasEdge (N + 3) ia ja u v ↔ chainRing N u v) {comps : List (List Nat)}
    (hc : IsSCCs (N + 3) ia ja (· < N + 3) comps)
    (he : ∀ c ∈ comps, ∃ l u, c = l ++ [u] ∧ ((∃ p, p ∉ c ∧ HasEdge (N + 3) ia ja p u) ∨
        ∀ v, Reachable (N + 3) ia ja v u → u ≤ v)) :
    comps.reverse = (List.range N).map (fun v => [v]) ++ [[N + 2, N + 1, N]] := by
  have ht := Topo.of_sccs hc
  have e1 : HasEdge (N + 3) ia ja N (N + 1) := (hE _ _).mpr (by unfold chainRing; omega)
  have e2 : HasEdge (N + 3) ia ja (N + 1) (N + 2) := (hE _ _).mpr (by unfold chainRing; omega)
  have e3 : HasEdge (N + 3) ia ja (N + 2) N := (hE _ _).mpr (by unfold chainRing; omega)
  have hnd : ∀ c ∈ comps, c.Nodup := (List.nodup_flatten.mp hc.once).1
  have hst : ∀ c ∈ comps, ∀ u ∈ c, ∀ v ∈ c, Reachable (N + 3) ia ja u v := fun c h => ht.strong c (List.mem_reverse.mpr h)
  have hlt : ∀ c ∈ comps, ∀ u ∈ c, u < N + 3 := fun c h u hu => (hc.cover u).mp (List.mem_flatten.mpr ⟨c, h, hu⟩)
  -- a component with a cell of the chain
  have hchain : ∀ c ∈ comps, ∀ v ∈ c, v < N → c = [v] := by
    intro c h v hv hvN
    have hall : ∀ u ∈ c, u = v := by
      intro u hu
      have h1 := chain_reach hE (hst c h u hu v hv) hvN
      have h2 := chain_reach hE (hst c h v hv u hu) (by omega)
      omega
    have hd := hnd c h
    match c, hv, hall, hd with
    | [x], _, hall, _ => rw [hall x (by simp)]
    | x :: y :: l, _, hall, hd =>
      exfalso
      have h1 := hall x (by simp)
      have h2 := hall y (by simp)
      rw [List.nodup_cons] at hd
      exact hd.1 (by rw [h1, ← h2]; simp)
  -- the others
  have hring : ∀ c ∈ comps, (∀ v ∈ c, N ≤ v) → c = [N + 2, N + 1, N] := by
    intro c h hge
    have hmem : ∀ x, N ≤ x → x < N + 3 → x ∈ c := by
      intro x hx1 hx2
      obtain ⟨l, u, rfl, _⟩ := he c h
      have hu := hge u (by simp)
      have hu' := hlt _ h u (by simp)
      have hcyc : ∀ y, N ≤ y → y < N + 3 → Reachable (N + 3) ia ja N y ∧ Reachable (N + 3) ia ja y N := by
        intro y h1 h2
        have : y = N ∨ y = N + 1 ∨ y = N + 2 := by omega
        rcases this with rfl | rfl | rfl
        · exact ⟨.refl, .refl⟩
        · exact ⟨.single e1, .tail (.single e2) e3⟩
        · exact ⟨.tail (.single e1) e2, .single e3⟩
      exact ht.weak _ (List.mem_reverse.mpr h) u (by simp) x hx2 ((hcyc u hu hu').2.trans (hcyc x hx1 hx2).1)
        ((hcyc x hx1 hx2).2.trans (hcyc u hu hu').1)
    have hag := Props.against_of_inner (hnd c h) (hc.inner c h) (by
      intro p _ u hu v hv h1 h2
      have := hge u hu
      have := hge v hv
      rw [hE] at h1 h2
      unfold chainRing at h1 h2
      omega)
    obtain ⟨l, u, e, hlast⟩ := he c h
    have huN : u = N := by
      have hu : N ≤ u := hge u (by rw [e]; simp)
      have hu' : u < N + 3 := hlt c h u (by rw [e]; simp)
      rcases hlast with ⟨p, hp, hpe⟩ | hall
      · have hpN : p < N := by
          by_contra hcon
          exact hp (hmem p (by omega) hpe.1)
        rw [hE] at hpe
        unfold chainRing at hpe
        omega
      · have := hall 0 (by
          have : u = N ∨ u = N + 1 ∨ u = N + 2 := by omega
          rcases this with rfl | rfl | rfl
          · exact reach_chain hE _ (le_refl _)
          · exact (reach_chain hE N (le_refl _)).tail e1
          · exact ((reach_chain hE N (le_refl _)).tail e1).tail e2)
        omega
    subst huN
    have hlen : c.length = 3 := by
      apply le_antisymm
      · have : c.toFinset ⊆ {u, u + 1, u + 2} := by
          intro x hx
          have hx := List.mem_toFinset.mp hx
          have := hge x hx
          have := hlt c h x hx
          simp only [Finset.mem_insert, Finset.mem_singleton]
          omega
        have := Finset.card_le_card this
        rw [List.toFinset_card_of_nodup (hnd c h)] at this
        exact this.trans (Finset.card_le_three)
      · have : ({u, u + 1, u + 2} : Finset Nat) ⊆ c.toFinset := by
          intro x hx
          simp only [Finset.mem_insert, Finset.mem_singleton] at hx
          exact List.mem_toFinset.mpr (hmem x (by omega) (by omega))
        have := Finset.card_le_card this
        rw [List.toFinset_card_of_nodup (hnd c h)] at this
        refine le_trans ?_ this
        rw [Finset.card_insert_of_notMem (by simp), Finset.card_insert_of_notMem (by simp), Finset.card_singleton]
    rw [e] at hlen hag ⊢
    rw [e] at hge
    match l, hlen, hag, hge with
    | _ :: _ :: _ :: _, hlen, _, _ => simp at hlen
    | [a, b], _, hag, hge =>
      have h1 : HasEdge (u + 3) ia ja b a := by simpa using (List.isChain_cons_cons.mp hag).1
      have h2 : HasEdge (u + 3) ia ja u b := by simpa using (List.isChain_cons_cons.mp (List.isChain_cons_cons.mp hag).2).1
      rw [hE] at h1 h2
      unfold chainRing at h1 h2
      have hb : b = u + 1 := by omega
      subst hb
      have ha : a = u + 2 := by omega
      subst ha
      rfl
  -- the key of a component is its first cell in the order 0, ..., N
  set key : List Nat → Nat := fun c => if ∀ v ∈ c, N ≤ v then N else c.headD 0 with hkey
  set back' : Nat → List Nat := fun k => if k < N then [k] else [N + 2, N + 1, N] with hback
  have hcase : ∀ c ∈ comps, (c = [N + 2, N + 1, N] ∧ key c = N) ∨ ∃ v, v < N ∧ c = [v] ∧ key c = v := by
    intro c h
    by_cases hge : ∀ v ∈ c, N ≤ v
    · left
      exact ⟨hring c h hge, by simp only [hkey]; rw [if_pos hge]⟩
    · right
      have hge' := hge
      push Not at hge
      obtain ⟨v, hv, hvN⟩ := hge
      have := hchain c h v hv hvN
      exact ⟨v, hvN, this, by simp only [hkey]; rw [if_neg hge', this]; rfl⟩
  have hrev : ∀ c ∈ comps.reverse, c ∈ comps := fun c h => List.mem_reverse.mp h
  have hkb : comps.reverse = (comps.reverse.map key).map back' := by
    rw [List.map_map]
    conv_lhs => rw [← List.map_id comps.reverse]
    refine List.map_congr_left fun c h => ?_
    simp only [id, Function.comp]
    rcases hcase c (hrev c h) with ⟨h1, h2⟩ | ⟨v, hv, h1, h2⟩
    · rw [h2]; simp only [hback]; rw [if_neg (by omega)]; exact h1
    · rw [h2]; simp only [hback]; rw [if_pos hv]; exact h1
  have hmemk : ∀ c ∈ comps, ∃ w ∈ c, w = key c := by
    intro c h
    rcases hcase c h with ⟨h1, h2⟩ | ⟨v, hv, h1, h2⟩
    · exact ⟨N, by rw [h1]; simp, h2.symm⟩
    · exact ⟨v, by rw [h1]; simp, h2.symm⟩
  have hkeys : comps.reverse.map key = List.range (N + 1) := by
    apply eq_range_of_pairwise
    · -- no two components have the same key
      have hdis := (List.nodup_flatten.mp ht.once).2
      rw [List.nodup_iff_pairwise_ne, List.pairwise_map]
      refine List.Pairwise.imp_of_mem ?_ hdis
      intro a b ha hb hab heq
      obtain ⟨w, hw, e⟩ := hmemk a (hrev a ha)
      obtain ⟨w', hw', e'⟩ := hmemk b (hrev b hb)
      rw [e, heq, ← e'] at hw
      exact hab hw hw'
    · intro x
      simp only [List.mem_map]
      constructor
      · rintro ⟨c, h, rfl⟩
        rcases hcase c (hrev c h) with ⟨_, h2⟩ | ⟨v, hv, _, h2⟩ <;> omega
      · intro hx
        obtain ⟨c, h, hxc⟩ := List.mem_flatten.mp ((hc.cover x).mpr (by omega))
        refine ⟨c, List.mem_reverse.mpr h, ?_⟩
        rcases hcase c h with ⟨h1, h2⟩ | ⟨v, hv, h1, h2⟩
        · rw [h1] at hxc; simp at hxc; omega
        · rw [h1] at hxc; simp at hxc; omega
    · rw [List.pairwise_map, List.pairwise_iff_getElem]
      intro i j hi hj hij heq
      set a := comps.reverse[i] with ha
      set b := comps.reverse[j] with hb
      have hma : a ∈ comps := hrev _ (List.getElem_mem hi)
      have hmb : b ∈ comps := hrev _ (List.getElem_mem hj)
      have hsplit : comps.reverse = comps.reverse.take j ++ b :: comps.reverse.drop (j + 1) := by
        rw [hb, ← List.drop_eq_getElem_cons hj, List.take_append_drop]
      obtain ⟨x, hx, e⟩ := hmemk b hmb
      obtain ⟨v, hv, e'⟩ := hmemk a hma
      refine ht.order _ b _ hsplit x hx v ?_ ?_
      · refine List.mem_flatten.mpr ⟨a, ?_, hv⟩
        rw [List.mem_take_iff_getElem]
        exact ⟨i, by omega, rfl⟩
      · rw [hE]
        left
        rcases hcase b hmb with ⟨_, h2⟩ | ⟨w, hw, _, h2⟩
        · rcases hcase a hma with ⟨_, h3⟩ | ⟨w', hw', _, h3⟩ <;> omega
        · omega
  rw [hkb, hkeys, List.range_succ, List.map_append]
  congr 1
  · refine List.map_congr_left fun k hk => ?_
    simp only [hback]
    rw [if_pos (List.mem_range.mp hk)]
  · simp [hback]

end
end Verif.Endless
