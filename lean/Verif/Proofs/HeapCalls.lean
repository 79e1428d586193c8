/-
The calls of tarjan.c on the heap: what they return, which blocks they leave.
-/
import Verif.Proofs.HeapTarjan

namespace Verif.Heap
open Verif.Tarjan Verif.Solver

variable {α β : Type}

theorem lift_eq (r : Res α) (h : Heap) : lift r h = some (h, r) := rfl

/-- How a call `m` made on the heap `h` ends: as `r` says.  If it returns, the blocks `F`
    it was given became the blocks `G`, and `Q` holds of the value returned and the blocks.
    If it throws, the blocks `F` became blocks `G` for which `T` holds. -/
def Ends {γ : Type} (h : Heap) (m : Option (Heap × Res α)) (r : Res γ) (F : List Nat)
    (Q : α → γ → (Nat → Option Obj) → List Nat → Prop)
    (T : (Nat → Option Obj) → List Nat → Prop := fun _ _ => False) : Prop :=
  match r with
  | .ok x => ∃ h' a G, m = some (h', .ok a) ∧ Step h h' ∧ Q a x h'.block G ∧
      Change h.block h'.block F G
  | .throw e => ∃ h' G, m = some (h', .throw e) ∧ Step h h' ∧ T h'.block G ∧
      Change h.block h'.block F G
  | .ub u => ∃ h', m = some (h', .ub u)
  | .diverge => ∃ h', m = some (h', .diverge)

theorem tarjanGlobal_spec {h : Heap} {a b a' b' c' : Nat} {x : WorkSpace} {y : SCCResult}
    (w : WorkAt h.block a b x) (s : SccAt h.block a' b' c' y) (ia : List Nat) (ja : List Int)
    (fuel : Nat) :
    Ends h (tarjanGlobal ia ja (some a) (some a') fuel h) (Tarjan.tarjanGlobal ia ja x y fuel)
      ([a, b] ++ [a', b', c']) fun _ r f G => G = [a, b] ++ [a', b', c'] ∧
        WorkAt f a b r.1.work ∧ SccAt f a' b' c' r.1.scc := by
  have hd := w.disjoint s
  have e : tarjanGlobal ia ja (some a) (some a') fuel h =
      H.bind (lift (Tarjan.tarjanGlobal ia ja x y fuel))
        (fun r => H.bind (storeWork (some a) r.1.work) fun _ => storeScc (some a') r.1.scc) h := by
    simp only [tarjanGlobal, bind_eq]
    rw [bind_ok (loadWork_eq w), bind_ok (loadScc_eq s)]
  cases hr : Tarjan.tarjanGlobal ia ja x y fuel with
  | ok r =>
    rw [hr] at e
    rw [bind_ok (lift_eq _ _)] at e
    obtain ⟨h1, e1, st1, w1, ch1⟩ := storeWork_spec w r.1.work
    have s1 : SccAt h1.block a' b' c' y := s.congr fun z hz => by
      have : z ∉ [a, b] := fun hz' => hd z hz' hz
      exact ch1.frame z this this
    obtain ⟨h2, e2, st2, s2, ch2⟩ := storeScc_spec s1 r.1.scc
    have hd' : ∀ z ∈ [a, b], z ∉ [a', b', c'] := hd
    refine ⟨h2, (), _, ?_, st1.trans st2, ⟨rfl, ?_, s2⟩, ?_⟩
    · rw [e, bind_ok e1, e2]
    · exact w1.congr fun z hz => ch2.frame z (hd z hz) (hd z hz)
    · refine Change.trans (G := [a, b] ++ [a', b', c']) ?_ (ch2.extend w.nodup hd)
      have := ch1.extend (X := [a', b', c']) s.nodup (fun z hz hz' => hd z hz' hz)
      exact this.perm List.perm_append_comm List.perm_append_comm
  | throw x' => exact absurd hr ((noThrow_tarjanGlobal _ _ _ _ _).ne _)
  | ub u => rw [hr] at e; exact ⟨h, by rw [e, bind_ub (lift_eq _ _)]⟩
  | diverge => rw [hr] at e; exact ⟨h, by rw [e, bind_diverge (lift_eq _ _)]⟩

/-- Blocks allocated in a call are none of those that lived before. -/
theorem Change.disjoint {f g : Nat → Option Obj} {F X : List Nat} (c : Change f g [] F)
    (hl : ∀ y ∈ X, f y ≠ none) : ∀ y ∈ X, y ∉ F := by
  intro y hy hF
  rcases c.fresh y hF with h | h
  · simp at h
  · exact hl y hy h

theorem tarjan_spec (nv : Nat) (ia : List Nat) (ja : List Int) (fuel : Nat) {h : Heap}
    (hv : h.Valid) : ∃ ws st al, (h.NoFail → ws = true ∧ st = true ∧ al = AllocSCC.mk true true true) ∧
      Ends h (tarjan nv ia ja fuel h) (Tarjan.tarjan ws st al nv ia ja fuel) []
        fun p x f G => SccPtr f p x G := by
  obtain ⟨h1, p, ws, st, F, e1, st1, nf1, w1, ch1⟩ := createWorkspace_spec nv hv
  obtain ⟨h2, q, al, G, e2, st2, nf2, s2, ch2⟩ := allocateSccResult_spec nv (st1.valid hv)
  refine ⟨ws, st, al, fun nf => ⟨(nf1 nf).1, (nf1 nf).2, nf2 (st1.noFail nf)⟩, ?_⟩
  have hd : ∀ y ∈ F, y ∉ G := ch2.disjoint w1.live
  have w2 := w1.congr (g := h2.block) fun y hy => ch2.frame y (by simp) (hd y hy)
  have ch12 : Change h.block h2.block [] (F ++ G) := by
    have := ch2.extend w1.nodup hd
    rw [List.append_nil] at this
    exact ch1.trans this
  unfold Tarjan.tarjan
  generalize Tarjan.createWorkspace ws st nv = X at w2
  generalize Tarjan.allocateSccResult al nv = Y at s2
  -- the failure path
  have fail : (p.isNone || q.isNone) = true →
      ∃ h', tarjan nv ia ja fuel h = some (h', .ok none) ∧ Step h h' ∧
        Change h.block h'.block [] [] := by
    intro hn
    obtain ⟨h3, e3, st3, ch3⟩ := destroySccResult_ptr s2
    have w3 := w2.congr (g := h3.block) fun y hy => ch3.frame y (hd y hy) (by simp)
    obtain ⟨h4, e4, st4, ch4⟩ := destroyWorkspace_ptr w3
    refine ⟨h4, ?_, ((st1.trans st2).trans st3).trans st4, ?_⟩
    · simp only [tarjan, bind_eq, pure_eq]
      rw [bind_ok e1, bind_ok e2, if_pos hn]
      have : (H.bind (destroySccResult q) fun _ => H.bind (destroyWorkspace p) fun _ =>
          H.pure ((none, none) : Ptr × Ptr)) h2 = some (h4, .ok (none, none)) := by
        rw [bind_ok e3, bind_ok e4]; rfl
      rw [bind_ok this]
      simp [H.bind, H.pure, destroyWorkspace_null]
    · have c3 := ch3.extend w2.nodup (fun y _ => by simp)
      rw [List.append_nil] at c3
      exact (ch12.trans c3).trans ch4
  cases w2 with
  | null =>
    obtain ⟨h', e, st', ch'⟩ := fail rfl
    cases s2 <;> exact ⟨h', none, [], e, st', .null, ch'⟩
  | @some a b x w2 =>
    cases s2 with
    | null =>
      obtain ⟨h', e, st', ch'⟩ := fail (by simp)
      exact ⟨h', none, [], e, st', .null, ch'⟩
    | @some a' b' c' y s2 =>
      have eq : tarjan nv ia ja fuel h = H.bind (tarjanGlobal ia ja (some a) (some a') fuel)
          (fun _ => H.bind (destroyWorkspace (some a)) fun _ => H.pure (some a')) h2 := by
        simp only [tarjan, bind_eq, pure_eq]
        rw [bind_ok e1, bind_ok e2]
        simp [H.bind, H.pure]
      have gl := tarjanGlobal_spec w2 s2 ia ja fuel
      show Ends h _ ((Tarjan.tarjanGlobal ia ja x y fuel).bind fun r => .ok (some r.1.scc)) _ _
      cases hr : Tarjan.tarjanGlobal ia ja x y fuel with
      | ok r =>
        rw [hr] at gl
        obtain ⟨h3, _, _, e3, st3, ⟨rfl, w3, s3⟩, ch3⟩ := gl
        obtain ⟨h4, e4, st4, ch4⟩ := destroyWorkspace_spec w3
        have dj := w3.disjoint s3
        refine ⟨h4, some a', [a', b', c'], ?_, ((st1.trans st2).trans st3).trans st4, .some ?_, ?_⟩
        · rw [eq, bind_ok e3, bind_ok e4]; rfl
        · exact s3.congr fun y hy => ch4.frame y (fun hy' => dj y hy' hy) (by simp)
        · have c4 := ch4.extend s3.nodup (fun y _ => by simp)
          rw [List.append_nil] at c4
          exact (ch12.trans ch3).trans (c4.perm List.perm_append_comm (List.Perm.refl _))
      | throw x' => exact absurd hr ((noThrow_tarjanGlobal _ _ _ _ _).ne _)
      | ub u =>
        rw [hr] at gl
        obtain ⟨h3, e3⟩ := gl
        exact ⟨h3, by rw [eq, bind_ub e3]⟩
      | diverge =>
        rw [hr] at gl
        obtain ⟨h3, e3⟩ := gl
        exact ⟨h3, by rw [eq, bind_diverge e3]⟩

theorem reachableSccs_spec (nv : Nat) (ia : List Nat) (ja : List Int) (pts : List Int)
    (fuel : Nat) {h : Heap} (hv : h.Valid) {p : Ptr} {X : Option WorkSpace} {F : List Nat}
    (w : WorkPtr h.block p X F) :
    ∃ al, (h.NoFail → al = AllocSCC.mk true true true) ∧
      Ends h (reachableSccs nv ia ja pts p fuel h)
        (Tarjan.reachableSccs al nv ia ja pts X fuel) F
        fun q x f G => ∃ G', G = F ++ G' ∧ SccPtr f q x.1 G' ∧ WorkPtr f p x.2 F := by
  cases w with
  | null =>
    refine ⟨⟨true, true, true⟩, fun _ => rfl, ⟨h, ?_⟩⟩
    simp [reachableSccs, assertThat, bind_eq, H.bind, lift]
  | @some a b x w =>
    obtain ⟨h2, q, al, G, e2, st2, nf2, s2, ch2⟩ := allocateSccResult_spec x.nvert hv
    refine ⟨al, nf2, ?_⟩
    have hd : ∀ y ∈ [a, b], y ∉ G := ch2.disjoint w.live
    have w2 := w.congr (g := h2.block) fun y hy => ch2.frame y (by simp) (hd y hy)
    have ch12 : Change h.block h2.block [a, b] ([a, b] ++ G) := by
      have := ch2.extend w.nodup hd
      rwa [List.append_nil] at this
    have eq : reachableSccs nv ia ja pts (some a) fuel h =
        H.bind (lift (assertThat (x.nvert ≥ nv))) (fun _ =>
          H.bind (allocateSccResult x.nvert) fun scc =>
          if scc.isSome then
            H.bind (loadScc scc) fun s => H.bind (lift (initialise x s)) fun i =>
            H.bind (lift (reachableLoop ia ja pts i fuel)) fun r =>
            H.bind (storeWork (some a) r.1.work) fun _ =>
            H.bind (storeScc scc r.1.scc) fun _ => H.pure scc
          else H.pure scc) h := by
      simp only [reachableSccs, bind_eq, pure_eq]
      have : lift (assertThat (Option.isSome (some a))) h = some (h, .ok ()) := rfl
      rw [bind_ok this, bind_ok (loadWork_eq w)]
    unfold Tarjan.reachableSccs
    by_cases hnv : x.nvert ≥ nv
    · have ha : assertThat (decide (x.nvert ≥ nv)) = .ok () := by simp [assertThat, hnv]
      simp only [ha]
      rw [ha, bind_ok (lift_eq _ _), bind_ok e2] at eq
      show Ends h _ (match Tarjan.allocateSccResult al x.nvert with
        | none => _ | some scc => _) _ _
      generalize Tarjan.allocateSccResult al x.nvert = Y at s2
      cases s2 with
      | null =>
        exact ⟨h2, none, _, by rw [eq]; rfl, st2, ⟨[], rfl, .null, .some w2⟩, ch12⟩
      | @some a' b' c' y s2 =>
        rw [if_pos (by rfl), bind_ok (loadScc_eq s2)] at eq
        show Ends h _ ((initialise x y).bind fun s => _) _ _
        cases hi : initialise x y with
        | ok i =>
          rw [hi, bind_ok (lift_eq _ _)] at eq
          show Ends h _ ((reachableLoop ia ja pts i fuel).bind fun s => _) _ _
          cases hr : reachableLoop ia ja pts i fuel with
          | ok r =>
            rw [hr, bind_ok (lift_eq _ _)] at eq
            obtain ⟨h3, e3, st3, w3, ch3⟩ := storeWork_spec w2 r.1.work
            have s3 : SccAt h3.block a' b' c' y := s2.congr fun z hz => by
              have : z ∉ [a, b] := fun hz' => hd z hz' hz
              exact ch3.frame z this this
            obtain ⟨h4, e4, st4, s4, ch4⟩ := storeScc_spec s3 r.1.scc
            refine ⟨h4, some a', _, ?_, (st2.trans st3).trans st4, ⟨_, rfl, .some s4, .some ?_⟩, ?_⟩
            · rw [eq, bind_ok e3, bind_ok e4]; rfl
            · exact w3.congr fun z hz => ch4.frame z (hd z hz) (hd z hz)
            · refine ch12.trans (Change.trans (G := [a, b] ++ [a', b', c']) ?_
                (ch4.extend w.nodup hd))
              have := ch3.extend (X := [a', b', c']) s2.nodup (fun z hz hz' => hd z hz' hz)
              exact this.perm List.perm_append_comm List.perm_append_comm
          | throw e => exact absurd hr ((noThrow_reachableLoop _ _ _ _ _).ne _)
          | ub u => exact ⟨h2, by rw [eq, hr, bind_ub (lift_eq _ _)]⟩
          | diverge => exact ⟨h2, by rw [eq, hr, bind_diverge (lift_eq _ _)]⟩
        | throw e => exact absurd hi ((noThrow_initialise _ _).ne _)
        | ub u => exact ⟨h2, by rw [eq, hi, bind_ub (lift_eq _ _)]⟩
        | diverge => exact ⟨h2, by rw [eq, hi, bind_diverge (lift_eq _ _)]⟩
    · have ha : assertThat (decide (x.nvert ≥ nv)) = .ub .assertFail := by simp [assertThat, hnv]
      simp only [ha]
      rw [ha, bind_ub (lift_eq _ _)] at eq
      exact ⟨h, eq⟩

theorem swapScc_spec {h : Heap} {a b c a' b' c' : Nat} {x y : SCCResult}
    (s : SccAt h.block a b c x) (t : SccAt h.block a' b' c' y)
    (hd : ∀ z ∈ [a, b, c], z ∉ [a', b', c']) :
    ∃ h', swapScc (some a') (some a) h = some (h', .ok ()) ∧ Step h h' ∧
      SccAt h'.block a b' c' { x with start := y.start, vert := y.vert } ∧
      SccAt h'.block a' b c { y with start := x.start, vert := x.vert } ∧
      Change h.block h'.block ([a, b, c] ++ [a', b', c']) ([a, b', c'] ++ [a', b, c]) := by
  have h1 := s.ne₁; have h2 := s.ne₂; have h3 := s.ne₃
  have t1 := t.ne₁; have t2 := t.ne₂; have t3 := t.ne₃
  have da := hd a (by simp); have db := hd b (by simp); have dc := hd c (by simp)
  simp only [List.mem_cons, List.not_mem_nil, or_false, not_or] at da db dc
  refine ⟨{ h with block := fun z =>
      if z = a then some (.scc ⟨x.ncomp, some b', some c', x.vtop, x.vbase, x.ctop, x.cbase⟩)
      else if z = a' then some (.scc ⟨y.ncomp, some b, some c, y.vtop, y.vbase, y.ctop, y.cbase⟩)
      else (h.block z) }, ?_, ⟨rfl, ?_⟩, ⟨?_, ?_, ?_⟩, ⟨?_, ?_, ?_⟩, ?_, ?_, ?_, ?_⟩
  · simp [swapScc, loadSccStruct, load, store, bind_eq, pure_eq, H.bind, H.pure, s.str, t.str,
      da.1]
  · intro hv z hz
    have e1 : z ≠ a := fun e => s.live a (by simp) (hv a (e ▸ hz))
    have e2 : z ≠ a' := fun e => t.live a' (by simp) (hv a' (e ▸ hz))
    simp [e1, e2, hv z hz]
  · simp
  · simp [t1.symm, Ne.symm da.2.1, t.start]
  · simp [t2.symm, Ne.symm da.2.2, t.vert]
  · simp [Ne.symm da.1]
  · simp [h1.symm, db.1, s.start]
  · simp [h2.symm, dc.1, s.vert]
  · simp only [List.cons_append, List.nil_append, List.nodup_cons, List.mem_cons, List.not_mem_nil,
      or_false, not_or, List.nodup_nil, not_false_iff, and_true]
    refine ⟨⟨da.2.1, da.2.2, da.1, h1, h2⟩, ⟨t3, Ne.symm t1, Ne.symm db.2.1, Ne.symm dc.2.1⟩,
      ⟨Ne.symm t2, Ne.symm db.2.2, Ne.symm dc.2.2⟩, ⟨Ne.symm db.1, Ne.symm dc.1⟩, h3⟩
  · intro z hz
    refine .inl ?_
    simp only [List.cons_append, List.nil_append, List.mem_cons, List.not_mem_nil, or_false] at hz ⊢
    tauto
  · intro z hz _
    simp only [List.cons_append, List.nil_append, List.mem_cons, List.not_mem_nil, or_false,
      not_or] at hz
    simp [hz.1, hz.2.2.2.1]
  · intro z hz hz'
    exfalso
    simp only [List.cons_append, List.nil_append, List.mem_cons, List.not_mem_nil, or_false] at hz hz'
    tauto

theorem reverseSccResult_spec {h : Heap} (hv : h.Valid) {p : Ptr} {X : Option SCCResult}
    {F : List Nat} (w : SccPtr h.block p X F) :
    ∃ al, (h.NoFail → al = AllocSCC.mk true true true) ∧
      Ends h (reverseSccResult p h) (Tarjan.reverseSccResult al X) F
        fun ok x f G => ok = x.1 ∧ SccPtr f p x.2 G := by
  cases w with
  | null =>
    refine ⟨⟨true, true, true⟩, fun _ => rfl, ⟨h, ?_⟩⟩
    simp [reverseSccResult, loadScc, loadSccStruct, load, bind_eq, H.bind]
  | @some a b c x s =>
    have eq : reverseSccResult (some a) h =
        H.bind (lift (rdM x.start x.ncomp)) (fun n =>
          H.bind (allocateSccResult n) fun rev =>
          if rev.isSome then
            H.bind (loadScc rev) fun d => H.bind (lift (reverseSccCore x d)) fun d =>
            H.bind (storeScc rev d) fun _ => H.bind (swapScc rev (some a)) fun _ =>
            H.bind (destroySccResult rev) fun _ => H.pure rev.isSome
          else H.pure rev.isSome) h := by
      simp only [reverseSccResult, bind_eq, pure_eq]
      rw [bind_ok (loadScc_eq s)]
    cases hn : rdM x.start x.ncomp with
    | throw e => exact absurd hn ((NoThrow.rdM _ _).ne _)
    | ub u =>
      refine ⟨⟨true, true, true⟩, fun _ => rfl, ?_⟩
      unfold Tarjan.reverseSccResult
      simp only [hn]
      exact ⟨h, by rw [eq, hn, bind_ub (lift_eq _ _)]⟩
    | diverge =>
      refine ⟨⟨true, true, true⟩, fun _ => rfl, ?_⟩
      unfold Tarjan.reverseSccResult
      simp only [hn]
      exact ⟨h, by rw [eq, hn, bind_diverge (lift_eq _ _)]⟩
    | ok n =>
      obtain ⟨h2, q, al, G, e2, st2, nf2, t2, ch2⟩ := allocateSccResult_spec n hv
      refine ⟨al, nf2, ?_⟩
      have hd : ∀ y ∈ [a, b, c], y ∉ G := ch2.disjoint s.live
      have s2 := s.congr (g := h2.block) fun y hy => ch2.frame y (by simp) (hd y hy)
      have ch12 : Change h.block h2.block [a, b, c] ([a, b, c] ++ G) := by
        have := ch2.extend s.nodup hd
        rwa [List.append_nil] at this
      unfold Tarjan.reverseSccResult
      simp only [hn]
      rw [hn, bind_ok (lift_eq _ _), bind_ok e2] at eq
      show Ends h _ (match Tarjan.allocateSccResult al n with
        | none => _ | some scc => _) _ _
      generalize Tarjan.allocateSccResult al n = Y at t2
      cases t2 with
      | null =>
        exact ⟨h2, false, _, by rw [eq]; rfl, st2, ⟨rfl, .some s2⟩, ch12⟩
      | @some a' b' c' y t2 =>
        rw [if_pos (by rfl), bind_ok (loadScc_eq t2)] at eq
        show Ends h _ ((reverseSccCore x y).bind fun s => _) _ _
        cases hr : reverseSccCore x y with
        | throw e => exact absurd hr ((noThrow_reverseSccCore _ _).ne _)
        | ub u => exact ⟨h2, by rw [eq, hr, bind_ub (lift_eq _ _)]⟩
        | diverge => exact ⟨h2, by rw [eq, hr, bind_diverge (lift_eq _ _)]⟩
        | ok d =>
          rw [hr, bind_ok (lift_eq _ _)] at eq
          obtain ⟨h3, e3, st3, t3, ch3⟩ := storeScc_spec t2 d
          have s3 := s2.congr (g := h3.block) fun z hz => ch3.frame z (hd z hz) (hd z hz)
          obtain ⟨h4, e4, st4, s4, t4, ch4⟩ := swapScc_spec s3 t3 hd
          obtain ⟨h5, e5, st5, ch5⟩ := destroySccResult_spec t4
          have hd' : ∀ z ∈ [a, b', c'], z ∉ [a', b, c] := by
            intro z hz hz'
            have := ch4.nodup
            rw [List.nodup_append] at this
            exact this.2.2 z hz z hz' rfl
          refine ⟨h5, true, [a, b', c'], ?_, ((st2.trans st3).trans st4).trans st5,
            ⟨rfl, .some (s4.congr fun z hz => ch5.frame z (hd' z hz) (by simp))⟩, ?_⟩
          · rw [eq, bind_ok e3, bind_ok e4, bind_ok e5]; rfl
          · have c5 := ch5.extend s4.nodup (fun z _ => by simp)
            rw [List.append_nil] at c5
            exact ((ch12.trans (ch3.extend s.nodup hd)).trans ch4).trans c5

end Verif.Heap
