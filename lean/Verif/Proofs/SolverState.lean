/-
What a call of the solver returns does not depend on what earlier calls left in its members.
-/
import Verif.Proofs.SolverOrder

namespace Verif

/-- Both computations end alike, with related results. -/
def Res.Rel {α β : Type} (P : α → β → Prop) : Res α → Res β → Prop
  | .ok a, .ok b => P a b
  | .throw e, .throw e' => e = e'
  | .ub u, .ub u' => u = u'
  | .diverge, .diverge => True
  | _, _ => False

theorem Res.Rel.bind {α β γ δ : Type} {P : α → β → Prop} {Q : γ → δ → Prop} {x : Res α} {y : Res β}
    {f : α → Res γ} {g : β → Res δ} (h : Res.Rel P x y) (hf : ∀ a b, P a b → Res.Rel Q (f a) (g b)) :
    Res.Rel Q (x.bind f) (y.bind g) := by
  cases x <;> cases y <;> simp_all [Res.Rel]

theorem Res.Rel.eq {α : Type} {x y : Res α} (h : Res.Rel (· = ·) x y) : x = y := by
  cases x <;> cases y <;> simp_all [Res.Rel]

theorem Res.Rel.rfl {α : Type} {x : Res α} : Res.Rel (fun a b => x = .ok a ∧ a = b) x x := by
  cases x <;> simp [Res.Rel]

theorem Res.Rel.mono {α β : Type} {P Q : α → β → Prop} {x : Res α} {y : Res β} (h : Res.Rel P x y)
    (hPQ : ∀ a b, P a b → Q a b) : Res.Rel Q x y := by
  cases x <;> cases y <;> simp_all [Res.Rel]

theorem Res.Rel.and {α β : Type} {P Q : α → β → Prop} {x : Res α} {y : Res β} (h : Res.Rel P x y)
    (hQ : Res.Rel Q x y) : Res.Rel (fun a b => P a b ∧ Q a b) x y := by
  cases x <;> cases y <;> simp_all [Res.Rel]

theorem wr_rel {α : Type} {v w : List α} (h : v.length = w.length) (i : Nat) (x : α) :
    Res.Rel (fun a b => i < v.length ∧ a = v.set i x ∧ b = w.set i x) (wr v i x) (wr w i x) := by
  unfold wr
  rw [← h]
  by_cases hi : i < v.length <;> simp [hi, Res.Rel]

theorem forEach_range_rel {σ τ : Type} {n : Nat} {s : σ} {t : τ} {f : σ → Nat → Res σ} {g : τ → Nat → Res τ}
    (P : Nat → σ → τ → Prop) (h0 : P 0 s t)
    (hstep : ∀ k s t, k < n → P k s t → Res.Rel (P (k + 1)) (f s k) (g t k)) :
    Res.Rel (P n) (forEach (List.range n) s f) (forEach (List.range n) t g) := by
  induction n with
  | zero => exact h0
  | succ n ih =>
    rw [List.range_succ, forEach_append, forEach_append]
    refine Res.Rel.bind (ih fun k s t hk => hstep k s t (by omega)) ?_
    intro a b hab
    simp only [forEach_cons, forEach_nil]
    refine Res.Rel.bind (hstep n a b (by omega) hab) ?_
    intro a' b' h'
    exact h'

namespace Solver
open Verif.Tarjan

variable {R : Type}

/-! ### The ordering -/

theorem copyInto_rel : ∀ (xs : List Int) (v w : List Int) (b : Nat), v.length = w.length → v.take b = w.take b →
    Res.Rel (fun a c => a.length = v.length ∧ c.length = v.length ∧ a.take (b + xs.length) = c.take (b + xs.length))
      (copyInto v b xs) (copyInto w b xs)
  | [], v, w, b, hl, ht => ⟨rfl, hl.symm, ht⟩
  | x :: xs, v, w, b, hl, ht => by
    unfold copyInto
    refine Res.Rel.bind (wr_rel hl b x) ?_
    rintro a c ⟨hb, rfl, rfl⟩
    have h1 : (v.set b x).take (b + 1) = (w.set b x).take (b + 1) := by
      rw [List.take_add_one, List.take_add_one, List.take_set_of_le (le_refl _), List.take_set_of_le (le_refl _), ht,
        List.getElem?_set_self hb, List.getElem?_set_self (by omega)]
    refine Res.Rel.mono (copyInto_rel xs (v.set b x) (w.set b x) (b + 1) (by simpa) h1) ?_
    rintro a c ⟨e1, e2, e3⟩
    refine ⟨by simpa using e1, by simpa using e2, ?_⟩
    rw [List.length_cons, show b + (xs.length + 1) = b + 1 + xs.length by omega]
    exact e3

theorem extractOrdering_rel (scc : SCCResult) (n : Nat) (s t : List Int × List Nat) :
    Res.Rel (fun a b => a.2 = b.2 ∧ a.1.length = n ∧ b.1.length = n ∧
        ∀ e, back a.2 = .ok e → a.1.take e = b.1.take e)
      (extractOrdering scc n s) (extractOrdering scc n t) := by
  unfold extractOrdering
  simp only [Res.bind_eq]
  cases hN : intOfSize (getNumComponents scc) with
  | throw e => simp [Res.Rel]
  | ub e => simp [Res.Rel]
  | diverge => simp [Res.Rel]
  | ok N =>
    simp only [Res.ok_bind]
    set m := N.toNat
    rw [wr_ok (by rw [resize_length]; omega), wr_ok (by rw [resize_length]; omega), Res.ok_bind, Res.ok_bind]
    refine Res.Rel.mono (forEach_range_rel
      (fun k (a b : List Int × List Nat) => a.1.length = n ∧ b.1.length = n ∧ a.2.length = m + 1 ∧ b.2.length = m + 1 ∧
        (∀ j ≤ k, a.2[j]? = b.2[j]?) ∧ ∃ e, a.2[k]? = some e ∧ a.1.take e = b.1.take e) ?_ ?_) ?_
    · refine ⟨resize_length _ _ _, resize_length _ _ _, by simp [resize_length], by simp [resize_length], ?_, 0, ?_, rfl⟩
      · intro j hj
        obtain rfl : j = 0 := by omega
        rw [List.getElem?_set_self (by rw [resize_length]; omega), List.getElem?_set_self (by rw [resize_length]; omega)]
      · rw [List.getElem?_set_self (by rw [resize_length]; omega)]
    · rintro k ⟨a1, a2⟩ ⟨b1, b2⟩ hk ⟨h1, h2, h3, h4, h5, e, h6, h7⟩
      simp only at h1 h2 h3 h4 h5 h6 h7
      unfold extractComponent
      simp only [Res.bind_eq, Res.pure_eq]
      cases hc : getStrongComponent scc k with
      | throw e => simp [Res.Rel]
      | ub e => simp [Res.Rel]
      | diverge => simp [Res.Rel]
      | ok tc =>
        have h6' : b2[k]? = some e := by rw [← h5 k (le_refl _)]; exact h6
        simp only [Res.ok_bind, rd_of_getElem? h6, rd_of_getElem? h6']
        refine Res.Rel.bind (copyInto_rel tc a1 b1 e (by omega) h7) ?_
        rintro a1' b1' ⟨g1, g2, g3⟩
        unfold intOfSize
        by_cases hI : e + tc.length ≤ INT_MAX
        · simp only [if_pos hI, Res.ok_bind]
          refine Res.Rel.bind (wr_rel (show a2.length = b2.length by omega) _ _) ?_
          rintro a2' b2' ⟨hlt, rfl, rfl⟩
          refine ⟨by simp only; omega, by simp only; omega, by simp [h3], by simp [h4], ?_, e + tc.length, ?_, g3⟩
          · intro j hj
            simp only
            by_cases hjk : j = k + 1
            · subst hjk; rw [List.getElem?_set_self (by omega), List.getElem?_set_self (by omega)]
            · rw [List.getElem?_set_ne (by omega), List.getElem?_set_ne (by omega)]; exact h5 j (by omega)
          · simp only
            rw [List.getElem?_set_self (by omega)]
            rfl
        · simp [hI, Res.Rel]
    · rintro ⟨a1, a2⟩ ⟨b1, b2⟩ ⟨h1, h2, h3, h4, h5, e, h6, h7⟩
      simp only at h1 h2 h3 h4 h5 h6 h7
      refine ⟨?_, h1, h2, ?_⟩
      · apply List.ext_getElem?
        intro j
        by_cases hj : j ≤ m
        · exact h5 j hj
        · rw [List.getElem?_eq_none (by simp only; omega), List.getElem?_eq_none (by simp only; omega)]
      · intro e' he'
        unfold back at he'
        simp only [h3, Nat.add_sub_cancel, rd_of_getElem? h6] at he'
        cases he'
        exact h7

/-- The ordering does not depend on the old contents of the vectors it is stored in. -/
theorem computeOrdering_indep (g : AssembledConnections R) (n : Nat) (al : Alloc) (fuel : Nat) (s t : List Int × List Nat) :
    computeOrdering g n al fuel s = computeOrdering g n al fuel t := by
  apply Res.Rel.eq
  unfold computeOrdering
  simp only [Res.bind_eq, Res.pure_eq]
  refine Res.Rel.bind Res.Rel.rfl ?_
  rintro _ _ ⟨_, rfl⟩
  refine Res.Rel.bind Res.Rel.rfl ?_
  rintro _ _ ⟨_, rfl⟩
  refine Res.Rel.bind Res.Rel.rfl ?_
  rintro scc _ ⟨_, rfl⟩
  refine Res.Rel.bind (extractOrdering_rel scc n s t) ?_
  rintro ⟨a1, a2⟩ ⟨b1, b2⟩ ⟨h1, h2, h3, h4⟩
  simp only at h1 h2 h3 h4
  subst h1
  refine Res.Rel.bind Res.Rel.rfl ?_
  rintro last _ ⟨hlast, rfl⟩
  simp only at hlast
  by_cases hn : last = n
  · subst hn
    have := h4 _ hlast
    rw [← h2, List.take_length, h2, ← h3, List.take_length] at this
    subst this
    simp [Res.Rel]
  · simp [assertThat, hn, Res.Rel]

theorem computeLocalOrdering_indep (g : AssembledConnections R) (n : Nat) (starts : List Int) (al : Alloc) (fuel : Nat)
    (s t : List Int × List Nat) :
    computeLocalOrdering g n starts al fuel s = computeLocalOrdering g n starts al fuel t := by
  apply Res.Rel.eq
  unfold computeLocalOrdering
  simp only [Res.bind_eq, Res.pure_eq]
  refine Res.Rel.bind Res.Rel.rfl ?_
  rintro _ _ ⟨_, rfl⟩
  refine Res.Rel.bind Res.Rel.rfl ?_
  rintro _ _ ⟨_, rfl⟩
  refine Res.Rel.bind Res.Rel.rfl ?_
  rintro scc _ ⟨_, rfl⟩
  refine Res.Rel.bind (extractOrdering_rel scc n s t) ?_
  rintro ⟨a1, a2⟩ ⟨b1, b2⟩ ⟨h1, h2, h3, h4⟩
  simp only at h1 h2 h3 h4
  subst h1
  refine Res.Rel.bind Res.Rel.rfl ?_
  rintro last _ ⟨hlast, rfl⟩
  have := h4 _ hlast
  simp only [Res.Rel, resize, this, h2, h3]

/-! ### The local source -/

variable [Arith R]

/-- The local source is read in start cells only. -/
def SameStarts (isStart : List Bool) (ls ls' : List R) : Prop := ∀ i : Nat, isStart[i]? = some true → ls[i]? = ls'[i]?

variable {d : SolverData R} {isStart : List Bool} {ls ls' : List R}

theorem single_congr (h : SameStarts isStart ls ls') (s : List R × List R) (cell : Int) :
    solveSingleCell d isStart ls s cell = solveSingleCell d isStart ls' s cell := by
  unfold solveSingleCell
  simp only [Res.bind_eq, Res.pure_eq]
  congr 1; funext src
  apply Res.Rel.eq
  refine Res.Rel.bind Res.Rel.rfl ?_
  rintro start _ ⟨hst, rfl⟩
  have hw : ∀ c, withLocalSource start ls (sizeOfInt cell) c = withLocalSource start ls' (sizeOfInt cell) c := by
    intro c
    unfold withLocalSource
    cases start with
    | false => rfl
    | true =>
      have := h _ (rd_eq_ok_iff.mp hst)
      unfold rd
      rw [this]
  simp only [hw]
  exact Res.Rel.mono Res.Rel.rfl fun a b h => h.2

theorem sweepCell_congr (h : SameStarts isStart ls ls') (s : (List R × List R) × (R × R)) (cell : Int) :
    sweepCell d isStart ls s cell = sweepCell d isStart ls' s cell := by
  unfold sweepCell
  simp only [single_congr h]

theorem gaussSeidel_congr (h : SameStarts isStart ls ls') (cells : List Int) : ∀ fuel s,
    gaussSeidel d isStart ls cells fuel s = gaussSeidel d isStart ls' cells fuel s := by
  have hf : sweepCell d isStart ls = sweepCell d isStart ls' := by
    funext s cell; exact sweepCell_congr h s cell
  intro fuel
  induction fuel with
  | zero => intro s; unfold gaussSeidel; rfl
  | succ fuel ih =>
    intro s
    unfold gaussSeidel
    simp only [hf, ih]

theorem solve_congr (h : SameStarts isStart ls ls') (seq : List Int) (cs : List Nat) (fuel : Nat) (s : List R × List R) :
    solve d isStart ls seq cs fuel s = solve d isStart ls' seq cs fuel s := by
  have hf : solveComponent d isStart ls seq cs fuel = solveComponent d isStart ls' seq cs fuel := by
    funext s k
    unfold solveComponent
    simp only [single_congr h, solveMultiCell, gaussSeidel_congr h]
  unfold solve
  rw [hf]

theorem setupLocalSource_length : ∀ (st : CellSetValues R) (ls : List R), (setupLocalSource ls st).1.length = ls.length
  | [], _ => rfl
  | p :: st, ls => by
    unfold setupLocalSource
    by_cases h : Arith.lt p.2 Arith.zero = true
    · simp [h]
    · simp only [h, Bool.false_eq_true, if_false]
      unfold wr
      by_cases hi : sizeOfInt p.1 < ls.length
      · simp only [if_pos hi]; rw [setupLocalSource_length st]; simp
      · simp [if_neg hi]

theorem setupLocalSource_rel : ∀ (st : CellSetValues R) (ls ls' : List R) (A : Nat → Prop), ls.length = ls'.length →
    (∀ i, A i → ls[i]? = ls'[i]?) →
    (setupLocalSource ls st).2 = (setupLocalSource ls' st).2 ∧
    ((setupLocalSource ls st).2 = .ok () → ∀ i, (A i ∨ ∃ p ∈ st, sizeOfInt p.1 = i) →
      (setupLocalSource ls st).1[i]? = (setupLocalSource ls' st).1[i]?)
  | [], ls, ls', A, _, hA => ⟨rfl, fun _ i hi => hA i (by simpa using hi)⟩
  | p :: st, ls, ls', A, hl, hA => by
    unfold setupLocalSource
    by_cases h : Arith.lt p.2 Arith.zero = true
    · simp [h]
    · simp only [h, Bool.false_eq_true, if_false]
      unfold wr
      by_cases hi : sizeOfInt p.1 < ls.length
      · simp only [if_pos hi, if_pos (show sizeOfInt p.1 < ls'.length by omega)]
        obtain ⟨h1, h2⟩ := setupLocalSource_rel st (ls.set (sizeOfInt p.1) p.2) (ls'.set (sizeOfInt p.1) p.2)
          (fun i => A i ∨ sizeOfInt p.1 = i) (by simpa) (by
            rintro i hi'
            by_cases e : sizeOfInt p.1 = i
            · subst e; rw [List.getElem?_set_self hi, List.getElem?_set_self (by omega)]
            · rw [List.getElem?_set_ne e, List.getElem?_set_ne e]
              exact hA i (hi'.resolve_right e))
        refine ⟨h1, fun hok i hi' => h2 hok i ?_⟩
        rcases hi' with hA' | ⟨q, hq, e⟩
        · exact Or.inl (Or.inl hA')
        · rcases List.mem_cons.mp hq with rfl | hq
          · exact Or.inl (Or.inr e)
          · exact Or.inr ⟨q, hq, e⟩
      · simp [if_neg hi, if_neg (show ¬ sizeOfInt p.1 < ls'.length by omega)]

theorem setupStartArray_true : ∀ (st : CellSetValues R) (b b' : List Bool), setupStartArray b st = .ok b' →
    ∀ i : Nat, b'[i]? = some true → b[i]? = some true ∨ ∃ p ∈ st, sizeOfInt p.1 = i
  | [], b, b', h, i, hi => by
    cases h; exact Or.inl hi
  | p :: st, b, b', h, i, hi => by
    unfold setupStartArray at h
    rw [forEach_cons] at h
    obtain ⟨b1, h1, h2⟩ := Res.bind_ok_iff.mp h
    obtain ⟨hlt, rfl⟩ := wr_eq_ok_iff.mp h1
    rcases setupStartArray_true st _ b' h2 i hi with h3 | ⟨q, hq, e⟩
    · by_cases e : sizeOfInt p.1 = i
      · exact Or.inr ⟨p, List.mem_cons_self, e⟩
      · rw [List.getElem?_set_ne e] at h3; exact Or.inl h3
    · exact Or.inr ⟨q, List.mem_cons_of_mem _ hq, e⟩

theorem cleanupLocalSource_rel (st : CellSetValues R) : ∀ (ls ls' : List R), ls.length = ls'.length →
    Res.Rel (fun a b => a.length = ls.length ∧ b.length = ls.length)
      (cleanupLocalSource ls st) (cleanupLocalSource ls' st) := by
  unfold cleanupLocalSource
  induction st with
  | nil => intro ls ls' h; exact ⟨rfl, h.symm⟩
  | cons p st ih =>
    intro ls ls' h
    simp only [forEach_cons]
    refine Res.Rel.bind (wr_rel h _ _) ?_
    rintro a b ⟨_, rfl, rfl⟩
    refine Res.Rel.mono (ih _ _ (by simpa)) ?_
    rintro a b ⟨h1, h2⟩
    exact ⟨by simpa using h1, by simpa using h2⟩

theorem finish_rel {S α β γ : Type} {P : α → β → Prop} {x : Res α} {y : Res β} (h : Res.Rel P x y)
    {s s' : S} {k : α → S × Res γ} {k' : β → S × Res γ} (hk : ∀ a b, P a b → (k a).2 = (k' b).2) :
    (finish s x k).2 = (finish s' y k').2 := by
  cases x <;> cases y <;> simp_all [Res.Rel, finish]
  exact hk _ _ h

theorem solveGlobal_indep (al : Alloc) (fuel : Nat) (s t : SolverState R) :
    (solveGlobal d al fuel s).2 = (solveGlobal d al fuel t).2 := by
  unfold solveGlobal prepareForSolve
  refine finish_rel Res.Rel.rfl ?_
  rintro b _ ⟨_, rfl⟩
  simp only
  rw [computeOrdering_indep d.g d.pv.length al fuel (s.sequence, s.componentStarts) (t.sequence, t.componentStarts)]
  refine finish_rel Res.Rel.rfl ?_
  rintro o _ ⟨_, rfl⟩
  refine finish_rel Res.Rel.rfl ?_
  rintro f _ ⟨_, rfl⟩
  rfl

theorem solveLocal_indep (al : Alloc) (fuel : Nat) (startset : CellSetValues R) (s t : SolverState R)
    (hst : s.localSource.length = t.localSource.length) :
    (solveLocal d al fuel startset s).2 = (solveLocal d al fuel startset t).2 := by
  unfold solveLocal prepareForSolve
  refine finish_rel Res.Rel.rfl ?_
  rintro b _ ⟨hb, rfl⟩
  simp only at hb ⊢
  rw [computeLocalOrdering_indep d.g d.pv.length _ al fuel (s.sequence, s.componentStarts) (t.sequence, t.componentStarts)]
  refine finish_rel Res.Rel.rfl ?_
  rintro o _ ⟨_, rfl⟩
  obtain ⟨h1, h2⟩ := setupLocalSource_rel startset s.localSource t.localSource (fun _ => False) hst (by simp)
  rw [← h1]
  refine finish_rel Res.Rel.rfl ?_
  rintro _ _ ⟨hok, rfl⟩
  have hsame : SameStarts b (setupLocalSource s.localSource startset).1 (setupLocalSource t.localSource startset).1 := by
    intro i hi
    refine h2 hok i ?_
    rcases setupStartArray_true startset _ _ hb i hi with h3 | h3
    · simp [List.getElem?_replicate] at h3
    · exact Or.inr h3
  rw [solve_congr hsame]
  refine finish_rel Res.Rel.rfl ?_
  rintro f _ ⟨_, rfl⟩
  refine finish_rel (cleanupLocalSource_rel startset _ _ (by rw [setupLocalSource_length, setupLocalSource_length, hst])) ?_
  rintro _ _ _
  refine finish_rel Res.Rel.rfl ?_
  rintro _ _ ⟨_, rfl⟩
  rfl

/-- The length of the local source term never changes. -/
theorem finish_state {S α β : Type} {Q : S → Prop} {s : S} {x : Res α} {k : α → S × Res β} (hs : Q s)
    (hk : ∀ a, x = .ok a → Q (k a).1) : Q (finish s x k).1 := by
  cases x <;> simp_all [finish]

theorem solveGlobal_state (hd : d.sourceTerm.length = d.pv.length) (al : Alloc) (fuel : Nat) (s : SolverState R)
    (hs : s.localSource.length = d.pv.length) :
    (solveGlobal d al fuel s).1.localSource.length = d.pv.length := by
  unfold solveGlobal prepareForSolve
  refine finish_state (Q := fun s : SolverState R => s.localSource.length = d.pv.length) hs fun b _ => ?_
  refine finish_state (Q := fun s : SolverState R => s.localSource.length = d.pv.length) hd fun o _ => ?_
  refine finish_state (Q := fun s : SolverState R => s.localSource.length = d.pv.length) hd fun f _ => ?_
  simp [hd]

theorem cleanupLocalSource_length {st : CellSetValues R} {ls ls' : List R} (h : cleanupLocalSource ls st = .ok ls') :
    ls'.length = ls.length := by
  have := cleanupLocalSource_rel st ls ls rfl
  rw [h] at this
  exact this.1

theorem solveLocal_state (al : Alloc) (fuel : Nat) (startset : CellSetValues R) (s : SolverState R) {n : Nat}
    (hs : s.localSource.length = n) : (solveLocal d al fuel startset s).1.localSource.length = n := by
  unfold solveLocal prepareForSolve
  refine finish_state (Q := fun s : SolverState R => s.localSource.length = n) hs fun b _ => ?_
  refine finish_state (Q := fun s : SolverState R => s.localSource.length = n) hs fun o _ => ?_
  have h1 : (setupLocalSource s.localSource startset).1.length = n := by rw [setupLocalSource_length, hs]
  refine finish_state (Q := fun s : SolverState R => s.localSource.length = n) h1 fun _ _ => ?_
  refine finish_state (Q := fun s : SolverState R => s.localSource.length = n) h1 fun f _ => ?_
  refine finish_state (Q := fun s : SolverState R => s.localSource.length = n) h1 fun l hl => ?_
  have h2 : l.length = n := by rw [cleanupLocalSource_length hl]; exact h1
  exact finish_state (Q := fun s : SolverState R => s.localSource.length = n) h2 fun r _ => h2

theorem expandSparse_length {n : Nat} {v : CellSetValues R} {l : List R} (h : expandSparse n v = .ok l) : l.length = n := by
  unfold expandSparse at h
  refine (forEach_ok (fun r => r.length = n) (by simp) ?_ h).1
  intro s s' p _ hs he
  obtain ⟨_, rfl⟩ := wr_eq_ok_iff.mp he
  simpa using hs

theorem create_lengths {g gr : AssembledConnections R} {pv : List R} {source : CellSetValues R}
    {st : SolverState R} (h : create g gr pv source = .ok (d, st)) :
    d.sourceTerm.length = d.pv.length ∧ st.localSource.length = d.pv.length := by
  unfold create at h
  simp only [Res.bind_eq, Res.pure_eq] at h
  obtain ⟨io, _, h⟩ := Res.bind_ok_iff.mp h
  obtain ⟨src, hsrc, h⟩ := Res.bind_ok_iff.mp h
  cases h
  exact ⟨expandSparse_length hsrc, by simp⟩

end Solver
end Verif
