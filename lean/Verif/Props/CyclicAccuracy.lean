/-
C76, C77: how far computed concentrations and times are from the exact ones in flow with cycles.  Exact arithmetic.
-/
import Mathlib.LinearAlgebra.FiniteDimensional.Basic
import Verif.Props.ToolboxFlow
import Verif.Spec.Balanced

namespace Verif.Props
open Verif.Spec Verif.Toolbox Verif.Solver Finset

variable {K : Type} [Field K] [LinearOrder K] [IsStrictOrderedRing K] [Archimedean K]
variable {F : Flow K} {d : SolverData (X K)} {st : SolverState (X K)}

omit [Archimedean K] in
/-- A field that is at most the mean of what comes in is at most 0 in every cell that a source reaches. -/
theorem max_principle (hF : F.Valid) {S : Nat → Prop} {e : Nat → K} (hS : ∀ v < F.n, ¬ S v → e v ≤ 0)
    (hle : ∀ v < F.n, S v → F.total v * e v ≤ ∑ u ∈ range F.n, e u * F.w u v)
    (hsrc : ∀ v < F.n, S v → ∃ p, p < F.n ∧ 0 < F.src p ∧ F.Reach p v) : ∀ v < F.n, e v ≤ 0 := by
  intro v0 hv0
  by_contra hc
  rw [not_le] at hc
  obtain ⟨m, hm, hmax⟩ := exists_max_image (range F.n) e ⟨v0, mem_range.mpr hv0⟩
  have hpos : 0 < e m := lt_of_lt_of_le hc (hmax v0 (mem_range.mpr hv0))
  have hmn := mem_range.mp hm
  have key : ∀ v < F.n, e v = e m → F.src v ≤ 0 ∧ ∀ u, F.Edge u v → e u = e m := by
    intro v hv he
    have hSv : S v := by
      by_contra hn
      have := hS v hv hn
      rw [he] at this
      exact absurd hpos (not_lt.mpr this)
    have h1 := hle v hv hSv
    rw [he] at h1
    unfold Flow.total Flow.inflow at h1
    have h2 : 0 ≤ ∑ u ∈ range F.n, (e m - e u) * F.w u v := sum_nonneg fun u hu =>
      mul_nonneg (sub_nonneg.mpr (hmax u hu)) (hF.w_nonneg u v (mem_range.mp hu) hv)
    have h3 : ∑ u ∈ range F.n, (e m - e u) * F.w u v
        = (∑ u ∈ range F.n, F.w u v) * e m - ∑ u ∈ range F.n, e u * F.w u v := by
      rw [sum_mul, ← sum_sub_distrib]
      exact sum_congr rfl fun u _ => by ring
    have h4 : F.src v * e m ≤ 0 := by linarith
    have h5 : F.src v ≤ 0 := by
      by_contra hn
      exact absurd (mul_pos (not_le.mp hn) hpos) (not_lt.mpr h4)
    refine ⟨h5, ?_⟩
    have h6 : F.src v = 0 := le_antisymm h5 (hF.src_nonneg v hv)
    have h7 : ∑ u ∈ range F.n, (e m - e u) * F.w u v = 0 := by
      apply le_antisymm _ h2
      rw [h3]
      rw [h6] at h1
      linarith
    rintro u ⟨hu, _, hw⟩
    have := (sum_eq_zero_iff_of_nonneg fun u hu =>
      mul_nonneg (sub_nonneg.mpr (hmax u hu)) (hF.w_nonneg u v (mem_range.mp hu) hv)).mp h7 u (mem_range.mpr hu)
    rcases mul_eq_zero.mp this with h | h
    · linarith
    · exact absurd hw (by rw [h]; exact lt_irrefl _)
  have hSm : S m := by
    by_contra hn
    exact absurd hpos (not_lt.mpr (hS m hmn hn))
  obtain ⟨p, hp, hps, hr⟩ := hsrc m hmn hSm
  have hpm : ∀ p, F.Reach p m → e p = e m := by
    intro p hr
    induction hr using Relation.ReflTransGen.head_induction_on with
    | refl => rfl
    | head hxy _ ih => exact (key _ hxy.2.1 ih).2 _ hxy
  exact absurd (key p hp (hpm p hr)).1 (not_le.mpr hps)

omit [Archimedean K] in
/-- Two fields carried from the same cells, one with at least the additions of the other. -/
theorem carries_le (hF : F.Valid) {starts : List Nat} (hp : ∀ p ∈ starts, p < F.n ∧ 0 < F.src p) {q q' x x' : Nat → K}
    (h : F.Carries starts q x) (h' : F.Carries starts q' x') (hq : ∀ v < F.n, q v ≤ q' v) : ∀ v < F.n, x v ≤ x' v := by
  have := max_principle hF (S := F.Downstream starts) (e := fun v => x v - x' v) (fun v hv hn => by
    show x v - x' v ≤ 0
    rw [h.1 v hv hn, h'.1 v hv hn, sub_zero]) (fun v hv hd => by
    show F.total v * (x v - x' v) ≤ ∑ u ∈ range F.n, (x u - x' u) * F.w u v
    have e : ∑ u ∈ range F.n, (x u - x' u) * F.w u v = (∑ u ∈ range F.n, x u * F.w u v) - ∑ u ∈ range F.n, x' u * F.w u v := by
      rw [← sum_sub_distrib]; exact sum_congr rfl fun u _ => by ring
    rw [e, mul_sub, h.2 v hv hd, h'.2 v hv hd]
    linarith [hq v hv]) (fun v _ ⟨p, h1, h2⟩ => ⟨p, (hp p h1).1, (hp p h1).2, h2⟩)
  intro v hv
  exact sub_nonpos.mp (this v hv)

omit [Archimedean K] in
/-- **C76** Every flow carries exactly one field from cells with sources, with or without cycles; if nothing is taken
    out anywhere, it is nowhere negative. -/
theorem C76_exact (hF : F.Valid) {starts : List Nat} (hp : ∀ p ∈ starts, p < F.n ∧ 0 < F.src p) (q : Nat → K) :
    (∃ x, F.Carries starts q x) ∧
    (∀ x y, F.Carries starts q x → F.Carries starts q y → ∀ v < F.n, x v = y v) ∧
    ((∀ v < F.n, 0 ≤ q v) → ∀ x, F.Carries starts q x → ∀ v < F.n, 0 ≤ x v) := by
  classical
  refine ⟨?_, fun x y hx hy v hv => le_antisymm (carries_le hF hp hx hy (fun _ _ => le_rfl) v hv)
    (carries_le hF hp hy hx (fun _ _ => le_rfl) v hv), fun hq x hx => carries_le hF hp (q := fun _ => 0) (x := fun _ => 0)
    ⟨fun _ _ _ => rfl, fun v _ _ => by simp⟩ hx hq⟩
  let ext : (Fin F.n → K) → Nat → K := fun x v => if hv : v < F.n then x ⟨v, hv⟩ else 0
  have hext : ∀ x (v : Fin F.n), ext x v = x v := fun x v => by simp [ext]
  let L : (Fin F.n → K) →ₗ[K] (Fin F.n → K) :=
    { toFun := fun x v => if F.Downstream starts v then F.total v * x v - ∑ u : Fin F.n, x u * F.w u v else x v
      map_add' := by
        intro x y
        funext v
        simp only [Pi.add_apply]
        split
        · rw [mul_add]
          simp only [add_mul]
          rw [sum_add_distrib]; ring
        · rfl
      map_smul' := by
        intro a x
        funext v
        simp only [Pi.smul_apply, smul_eq_mul, RingHom.id_apply]
        split
        · rw [mul_sub, mul_sum]
          congr 1
          · ring
          · exact sum_congr rfl fun u _ => by ring
        · rfl }
  have hL : ∀ x b, L x = b ↔ (∀ v < F.n, ¬ F.Downstream starts v → ext x v = ext b v) ∧
      ∀ v < F.n, F.Downstream starts v → F.total v * ext x v = (∑ u ∈ range F.n, ext x u * F.w u v) + ext b v := by
    intro x b
    have hsum : ∀ v, ∑ u ∈ range F.n, ext x u * F.w u v = ∑ u : Fin F.n, x u * F.w u v := by
      intro v
      rw [← Fin.sum_univ_eq_sum_range (fun u => ext x u * F.w u v)]
      exact sum_congr rfl fun u _ => by rw [hext]
    constructor
    · intro e
      have hv' : ∀ v : Fin F.n, L x v = b v := fun v => congrFun e v
      refine ⟨fun v hv hn => ?_, fun v hv hd => ?_⟩
      · have := hv' ⟨v, hv⟩
        simp only [L, LinearMap.coe_mk, AddHom.coe_mk, if_neg hn] at this
        rw [hext x ⟨v, hv⟩, hext b ⟨v, hv⟩]; exact this
      · have := hv' ⟨v, hv⟩
        simp only [L, LinearMap.coe_mk, AddHom.coe_mk, if_pos hd] at this
        rw [hext x ⟨v, hv⟩, hext b ⟨v, hv⟩, hsum, ← this]; ring
    · rintro ⟨h1, h2⟩
      funext v
      simp only [L, LinearMap.coe_mk, AddHom.coe_mk]
      split
      · have := h2 v v.2 (by assumption)
        rw [hext x v, hext b v, hsum] at this
        rw [this]; ring
      · have := h1 v v.2 (by assumption)
        rw [hext x v, hext b v] at this
        exact this
  have hinj : Function.Injective L := by
    rw [← LinearMap.ker_eq_bot, LinearMap.ker_eq_bot']
    intro x hx
    obtain ⟨h1, h2⟩ := (hL x 0).mp hx
    have z : ∀ v, ext 0 v = 0 := fun v => by simp [ext]
    have hc : F.Carries starts (fun _ => 0) (ext x) :=
      ⟨fun v hv hn => by rw [h1 v hv hn, z], fun v hv hd => by rw [h2 v hv hd, z]⟩
    have h0 : F.Carries starts (fun _ => 0) (fun _ => (0 : K)) := ⟨fun _ _ _ => rfl, fun v _ _ => by simp⟩
    funext v
    rw [← hext x v]
    exact le_antisymm (carries_le hF hp hc h0 (fun _ _ => le_rfl) v v.2) (carries_le hF hp h0 hc (fun _ _ => le_rfl) v v.2)
  obtain ⟨x, hx⟩ := LinearMap.injective_iff_surjective.mp hinj (fun v => if F.Downstream starts v then q v else 0)
  obtain ⟨h1, h2⟩ := (hL x _).mp hx
  refine ⟨ext x, fun v hv hn => ?_, fun v hv hd => ?_⟩
  · rw [h1 v hv hn]; simp [ext, hn]
  · rw [h2 v hv hd]; simp [ext, hv, hd]

/-- **C76** (no cell has a self-connection as its only cycle) The computed concentrations are never above the exact
    ones, and below them by at most the tolerance `1e-9` times the field that the flow carries when each cell adds the
    flux that it receives from its own cycle. -/
theorem C76_error (h : SolverFor F d st) (hself : ∀ v < F.n, ¬ F.Loop v) {starts : List Nat}
    (hp : ∀ p ∈ starts, p < F.n) {ls : Nat → K} (hls : ∀ p ∈ starts, 0 ≤ ls p) {sol : LocalSolution (X K)}
    (hr : LocalReturns d st (valuesOf starts ls) (.ok sol)) {x m : Nat → K}
    (hx : F.Carries starts (injected starts ls) x) (hm : F.Carries starts F.cycleInflow m) :
    ∀ v < F.n, valueAt sol.concentration v ≤ x v ∧ x v - valueAt sol.concentration v ≤ 1 / 1000000000 * m v := by
  obtain ⟨τ, hf, hv⟩ := local_values h hp hls hr
  have hF := h.valid
  set c := valueAt sol.concentration with hc
  have hsrc : ∀ v < F.n, F.Downstream starts v → ∃ p, p < F.n ∧ 0 < F.src p ∧ F.Reach p v := by
    rintro v _ ⟨p, h1, h2⟩
    refine ⟨p, hp p h1, ?_, h2⟩
    have := (hv p ⟨p, h1, Relation.ReflTransGen.refl⟩).2.2
    exact lt_of_le_of_ne (hF.src_nonneg p (hp p h1)) fun e => this ⟨h1, e.symm⟩
  have hres := C26_balance_cyclic_partial h hp hls hr
  have e : ∀ (a b : Nat → K) v, ∑ u ∈ range F.n, (a u - b u) * F.w u v
      = (∑ u ∈ range F.n, a u * F.w u v) - ∑ u ∈ range F.n, b u * F.w u v := by
    intro a b v
    rw [← sum_sub_distrib]; exact sum_congr rfl fun u _ => by ring
  have h1 := max_principle hF (S := F.Downstream starts) (e := fun v => c v - x v) (fun v hvn hn => by
    show c v - x v ≤ 0
    rw [hx.1 v hvn hn, hf.off v hn, sub_zero]) (fun v hvn hd => by
    show F.total v * (c v - x v) ≤ ∑ u ∈ range F.n, (c u - x u) * F.w u v
    have := (hres v hvn).1
    rw [e, mul_sub, hx.2 v hvn hd]
    linarith) hsrc
  have h2 := max_principle hF (S := F.Downstream starts) (e := fun v => (x v - c v) - 1 / 1000000000 * m v)
    (fun v hvn hn => by
    show (x v - c v) - 1 / 1000000000 * m v ≤ 0
    rw [hx.1 v hvn hn, hm.1 v hvn hn, hf.off v hn]; simp) (fun v hvn hd => by
    show F.total v * ((x v - c v) - 1 / 1000000000 * m v) ≤ ∑ u ∈ range F.n, ((x u - c u) - 1 / 1000000000 * m u) * F.w u v
    have h3 := (hres v hvn).2.1 (hself v hvn)
    have h4 : ∑ u ∈ range F.n, 1 / 1000000000 * m u * F.w u v = 1 / 1000000000 * ∑ u ∈ range F.n, m u * F.w u v := by
      rw [mul_sum]; exact sum_congr rfl fun u _ => by ring
    have h5 := hm.2 v hvn hd
    rw [e (fun u => x u - c u) (fun u => 1 / 1000000000 * m u), e x c, h4]
    have h6 : F.total v * ((x v - c v) - 1 / 1000000000 * m v)
        = F.total v * x v - F.total v * c v - 1 / 1000000000 * (F.total v * m v) := by ring
    rw [h6, hx.2 v hvn hd, h5]
    linarith) hsrc
  intro v hvn
  exact ⟨sub_nonpos.mp (h1 v hvn), sub_nonpos.mp (h2 v hvn)⟩

omit [Archimedean K] in
/-- **C76** The bound of `C76_error` is itself at most any field that loses at least the flux from the cell's own cycle. -/
theorem C76_bound (hF : F.Valid) {starts : List Nat} (hp : ∀ p ∈ starts, p < F.n ∧ 0 < F.src p) {m b : Nat → K}
    (hm : F.Carries starts F.cycleInflow m) (h0 : ∀ v < F.n, 0 ≤ b v)
    (hb : ∀ v < F.n, F.Downstream starts v → (∑ u ∈ range F.n, b u * F.w u v) + F.cycleInflow v ≤ F.total v * b v) :
    ∀ v < F.n, m v ≤ b v := by
  have := max_principle hF (S := F.Downstream starts) (e := fun v => m v - b v) (fun v hv hn => by
    show m v - b v ≤ 0
    rw [hm.1 v hv hn]; linarith [h0 v hv]) (fun v hv hd => by
    show F.total v * (m v - b v) ≤ ∑ u ∈ range F.n, (m u - b u) * F.w u v
    have e : ∑ u ∈ range F.n, (m u - b u) * F.w u v = (∑ u ∈ range F.n, m u * F.w u v) - ∑ u ∈ range F.n, b u * F.w u v := by
      rw [← sum_sub_distrib]; exact sum_congr rfl fun u _ => by ring
    rw [e, mul_sub, hm.2 v hv hd]
    linarith [hb v hv hd]) (fun v _ ⟨p, h1, h2⟩ => ⟨p, (hp p h1).1, (hp p h1).2, h2⟩)
  intro v hv
  exact sub_nonpos.mp (this v hv)

/-- **C76** (no cell has a self-connection as its only cycle) If the start values of all tracers add up to the
    sources, then in every cell such that a source reaches each cell upstream of it the concentrations miss 1 by at
    most the number of tracers times `1e-9` times the field that the flow carries from all sources when each cell adds
    the flux that it receives from its own cycle. -/
theorem C76_sum (h : SolverFor F d st) (hself : ∀ v < F.n, ¬ F.Loop v) {N : Nat} {starts : Fin N → List Nat}
    (hp : ∀ k, ∀ p ∈ starts k, p < F.n) {ls : Fin N → Nat → K} (hls : ∀ k, ∀ p ∈ starts k, 0 ≤ ls k p)
    (hsplit : ∀ v < F.n, ∑ k, injected (starts k) (ls k) v = F.src v) {sol : Fin N → LocalSolution (X K)}
    (hr : ∀ k, LocalReturns d st (valuesOf (starts k) (ls k)) (.ok (sol k))) {all : List Nat}
    (hall : ∀ p, p ∈ all ↔ p < F.n ∧ 0 < F.src p) {m : Nat → K} (hm : F.Carries all F.cycleInflow m) :
    ∀ v < F.n, (∀ u, F.Reach u v → F.Downstream all u) →
      1 - ∑ k, valueAt (sol k).concentration v ≤ (N : K) * (1 / 1000000000 * m v) := by
  classical
  have hF := h.valid
  have hallp : ∀ p ∈ all, p < F.n ∧ 0 < F.src p := fun p => (hall p).mp
  have hcyc : ∀ v < F.n, 0 ≤ F.cycleInflow v := by
    intro v hv
    unfold Flow.cycleInflow
    refine sum_nonneg fun u hu => ?_
    split
    · exact hF.w_nonneg u v (mem_range.mp hu) hv
    · exact le_rfl
  have hm0 := (C76_exact hF hallp F.cycleInflow).2.2 hcyc m hm
  set C : Nat → K := fun v => ∑ k, valueAt (sol k).concentration v with hC
  set S : Nat → Prop := fun v => ∀ u, F.Reach u v → F.Downstream all u with hS
  set e : Nat → K := fun v => 1 - C v - (N : K) * (1 / 1000000000 * m v) with he
  have hbal : ∀ v < F.n, (∑ u ∈ range F.n, C u * F.w u v) + F.src v - (N : K) * (1 / 1000000000 * F.cycleInflow v)
      ≤ F.total v * C v := by
    intro v hv
    have h1 : ∀ k, (∑ u ∈ range F.n, valueAt (sol k).concentration u * F.w u v) + injected (starts k) (ls k) v
        - 1 / 1000000000 * F.cycleInflow v ≤ F.total v * valueAt (sol k).concentration v := by
      intro k
      have := (C26_balance_cyclic_partial h (hp k) (hls k) (hr k) v hv).2.1 (hself v hv)
      linarith
    have h2 := sum_le_sum fun k (_ : k ∈ univ) => h1 k
    rw [sum_sub_distrib, sum_add_distrib, hsplit v hv, sum_const, card_univ, Fintype.card_fin, nsmul_eq_mul,
      sum_comm, ← mul_sum] at h2
    have h3 : ∑ u ∈ range F.n, C u * F.w u v = ∑ u ∈ range F.n, ∑ k, valueAt (sol k).concentration u * F.w u v :=
      sum_congr rfl fun u _ => by rw [hC, sum_mul]
    rw [h3]; exact h2
  have hle : ∀ v < F.n, S v → F.total v * e v ≤ ∑ u ∈ range F.n, e u * F.w u v := by
    intro v hv hs
    have h1 := hm.2 v hv (hs v Relation.ReflTransGen.refl)
    have h2 : ∑ u ∈ range F.n, e u * F.w u v = F.inflow v - (∑ u ∈ range F.n, C u * F.w u v)
        - (N : K) * (1 / 1000000000 * ∑ u ∈ range F.n, m u * F.w u v) := by
      unfold Flow.inflow
      rw [mul_sum, mul_sum, ← sum_sub_distrib, ← sum_sub_distrib]
      exact sum_congr rfl fun u _ => by rw [he]; ring
    have h3 : F.total v * e v = F.inflow v + F.src v - F.total v * C v
        - (N : K) * (1 / 1000000000 * (F.total v * m v)) := by
      rw [he]; unfold Flow.total; ring
    rw [h2, h3, h1]
    have := hbal v hv
    have e1 : (N : K) * (1 / 1000000000 * ((∑ u ∈ range F.n, m u * F.w u v) + F.cycleInflow v))
      = (N : K) * (1 / 1000000000 * ∑ u ∈ range F.n, m u * F.w u v) + (N : K) * (1 / 1000000000 * F.cycleInflow v) := by ring
    rw [e1]; linarith
  have := max_principle hF (S := S) (e := fun v => if S v then e v else 0) (fun v hv hn => by simp [hn])
    (fun v hv hs => by
      have : ∑ u ∈ range F.n, (if S u then e u else 0) * F.w u v = ∑ u ∈ range F.n, e u * F.w u v := by
        refine sum_congr rfl fun u hu => ?_
        have hu := mem_range.mp hu
        rcases (hF.w_nonneg u v hu hv).eq_or_lt with hz | hz
        · rw [← hz, mul_zero, mul_zero]
        · rw [if_pos fun y hy => hs y (hy.tail ⟨hu, hv, hz⟩)]
      simp only [if_pos hs]
      rw [this]; exact hle v hv hs)
    (fun v hv hs => by
      obtain ⟨p, a, b⟩ := hs v Relation.ReflTransGen.refl
      exact ⟨p, (hallp p a).1, (hallp p a).2, b⟩)
  intro v hv hs
  have hv' := this v hv
  have hs' : S v := hs
  simp only [if_pos hs'] at hv'
  have : e v = 1 - C v - (N : K) * (1 / 1000000000 * m v) := rfl
  rw [this] at hv'
  linarith

/-- **C77** (no cell has a self-connection as its only cycle, no time above `a` < 200 years) The exact time-of-flight
    of a reached cell is `q v / x v`, where `x` are the exact concentrations and `q` is the field that the flow
    carries when each cell adds its pore volume times `x`. The computed time, times `x v`, is above `q v` by at most
    `a * 1e-9 * m v`, and below it by at most `1e-9 * p v + (a * 1e-9 + 200 years * 1e-12) * m v`, where `m` is the
    field of `C76_error` and `p` the one that the flow carries when each cell adds its pore volume times `m`. -/
theorem C77_error (h : SolverFor F d st) (hself : ∀ v < F.n, ¬ F.Loop v) {starts : List Nat}
    (hp : ∀ p ∈ starts, p < F.n) {ls : Nat → K} (hls : ∀ p ∈ starts, 0 ≤ ls p ∧ ls p ≤ F.src p)
    {sol : LocalSolution (X K)} (hr : LocalReturns d st (valuesOf starts ls) (.ok sol)) {x m q p : Nat → K}
    (hx : F.Carries starts (injected starts ls) x) (hm : F.Carries starts F.cycleInflow m)
    (hq : F.Carries starts (fun v => F.pv v * x v) q) (hpm : F.Carries starts (fun v => F.pv v * m v) p)
    {a : K} (ha : a < cap) (hta : ∀ v, F.Downstream starts v → valueAt sol.tof v ≤ a) :
    ∀ v, F.Downstream starts v →
      valueAt sol.tof v * x v - q v ≤ a / 1000000000 * m v ∧
      q v - valueAt sol.tof v * x v ≤ 1 / 1000000000 * p v + (a / 1000000000 + cap / 1000000000000) * m v := by
  have hls0 : ∀ p ∈ starts, 0 ≤ ls p := fun p hps => (hls p hps).1
  obtain ⟨τ', hf, hv⟩ := local_values h hp hls0 hr
  obtain ⟨τ, hτ⟩ := C27_tof_balance_cyclic h hp hls hr
  have herr := C76_error h hself hp hls0 hr hx hm
  have hF := h.valid
  set c := valueAt sol.concentration with hc
  set t := valueAt sol.tof with ht
  have hin : ∀ v, F.Downstream starts v → v < F.n := fun v ⟨p, h1, h2⟩ => reach_lt (hp p h1) h2
  have hsrcp : ∀ p ∈ starts, p < F.n ∧ 0 < F.src p := by
    intro p h1
    have := (hv p ⟨p, h1, Relation.ReflTransGen.refl⟩).2.2
    exact ⟨hp p h1, lt_of_le_of_ne (hF.src_nonneg p (hp p h1)) fun e => this ⟨h1, e.symm⟩⟩
  have hsrc : ∀ v < F.n, F.Downstream starts v → ∃ p, p < F.n ∧ 0 < F.src p ∧ F.Reach p v :=
    fun v _ ⟨p, h1, h2⟩ => ⟨p, (hsrcp p h1).1, (hsrcp p h1).2, h2⟩
  have htt : ∀ v, F.Downstream starts v → t v = τ v := by
    intro v hd
    have h1 := (hτ v hd).1
    have h2 := hta v hd
    rcases le_total (τ v) cap with h3 | h3
    · rw [h1, min_eq_left h3]
    · rw [h1, min_eq_right h3] at h2
      exact absurd ha (not_lt.mpr h2)
  have hslow : ∀ v, F.Downstream starts v → ¬ F.Slow v := by
    intro v hd hs
    have h1 := (hτ v hd).2.1 hs
    have h2 := hta v hd
    rw [htt v hd, h1] at h2
    exact absurd ha (not_lt.mpr h2)
  have ht0 : ∀ v, F.Downstream starts v → 0 ≤ t v := by
    intro v hd
    rw [(hv v hd).2.1]
    exact le_min (hf.nonneg v (hin v hd)).1 cap_pos.le
  have hoff : ∀ v, ¬ F.Downstream starts v → c v = 0 := hf.off
  have hsum : ∀ v, ∑ u ∈ range F.n, τ u * c u * F.w u v = ∑ u ∈ range F.n, t u * c u * F.w u v := by
    intro v
    refine sum_congr rfl fun u _ => ?_
    by_cases hd : F.Downstream starts u
    · rw [htt u hd]
    · rw [hoff u hd]; ring
  have hbal : ∀ v, F.Downstream starts v →
      F.total v * (t v * c v) ≤ F.pv v * c v + ∑ u ∈ range F.n, t u * c u * F.w u v ∧
      F.pv v * c v + (∑ u ∈ range F.n, t u * c u * F.w u v) - F.total v * (t v * c v)
        ≤ (a / 1000000000 + cap / 1000000000000) * F.cycleInflow v := by
    intro v hd
    have ha0 : 0 ≤ a := le_trans (ht0 v hd) (hta v hd)
    have := (hτ v hd).2.2 (hslow v hd) a ha0 (by
      rintro u ⟨_, h2⟩
      have hu : F.Downstream starts u := by obtain ⟨p, h3, h4⟩ := hd; exact ⟨p, h3, h4.trans h2⟩
      rw [← htt u hu]; exact hta u hu)
    simp only [hsum, ← htt v hd] at this
    have e : F.total v * (t v * c v) = F.total v * c v * t v := by ring
    rw [e]
    exact ⟨by linarith [this.1], this.2.1 (hself v (hin v hd))⟩
  have e : ∀ (a b : Nat → K) v, ∑ u ∈ range F.n, (a u - b u) * F.w u v
      = (∑ u ∈ range F.n, a u * F.w u v) - ∑ u ∈ range F.n, b u * F.w u v := by
    intro a b v
    rw [← sum_sub_distrib]; exact sum_congr rfl fun u _ => by ring
  have em : ∀ (k : K) (b : Nat → K) v, ∑ u ∈ range F.n, k * b u * F.w u v = k * ∑ u ∈ range F.n, b u * F.w u v := by
    intro k b v
    rw [mul_sum]; exact sum_congr rfl fun u _ => by ring
  have h1 := max_principle hF (S := F.Downstream starts) (e := fun v => t v * c v - q v) (fun v hvn hn => by
    show t v * c v - q v ≤ 0
    rw [hq.1 v hvn hn, hoff v hn]; simp) (fun v hvn hd => by
    show F.total v * (t v * c v - q v) ≤ ∑ u ∈ range F.n, (t u * c u - q u) * F.w u v
    rw [e (fun u => t u * c u) q, mul_sub, hq.2 v hvn hd]
    have h2 := (hbal v hd).1
    have h3 : F.pv v * c v ≤ F.pv v * x v := mul_le_mul_of_nonneg_left (herr v hvn).1 (hF.pv_nonneg v hvn)
    linarith) hsrc
  set B : K := a / 1000000000 + cap / 1000000000000 with hB
  have h2 := max_principle hF (S := F.Downstream starts)
    (e := fun v => (q v - t v * c v) - (1 / 1000000000 * p v + B * m v)) (fun v hvn hn => by
    show (q v - t v * c v) - (1 / 1000000000 * p v + B * m v) ≤ 0
    rw [hq.1 v hvn hn, hoff v hn, hpm.1 v hvn hn, hm.1 v hvn hn]; simp) (fun v hvn hd => by
    show F.total v * ((q v - t v * c v) - (1 / 1000000000 * p v + B * m v))
      ≤ ∑ u ∈ range F.n, ((q u - t u * c u) - (1 / 1000000000 * p u + B * m u)) * F.w u v
    have e2 : ∑ u ∈ range F.n, (1 / 1000000000 * p u + B * m u) * F.w u v
        = 1 / 1000000000 * (∑ u ∈ range F.n, p u * F.w u v) + B * ∑ u ∈ range F.n, m u * F.w u v := by
      rw [← em, ← em, ← sum_add_distrib]; exact sum_congr rfl fun u _ => by ring
    rw [e (fun u => q u - t u * c u) (fun u => 1 / 1000000000 * p u + B * m u), e q (fun u => t u * c u), e2]
    have h3 := (hbal v hd).2
    have h4 : F.pv v * x v - F.pv v * c v ≤ 1 / 1000000000 * (F.pv v * m v) := by
      have := mul_le_mul_of_nonneg_left (herr v hvn).2 (hF.pv_nonneg v hvn)
      linarith
    have h5 : F.total v * ((q v - t v * c v) - (1 / 1000000000 * p v + B * m v))
        = F.total v * q v - F.total v * (t v * c v) - 1 / 1000000000 * (F.total v * p v) - B * (F.total v * m v) := by ring
    rw [h5, hq.2 v hvn hd, hpm.2 v hvn hd, hm.2 v hvn hd]
    linarith) hsrc
  intro v hd
  have hvn := hin v hd
  have g1 := h1 v hvn
  have g2 := h2 v hvn
  obtain ⟨g3, g4⟩ := herr v hvn
  have g5 := ht0 v hd
  have g6 := hta v hd
  have gm : 0 ≤ 1 / 1000000000 * m v := by linarith
  constructor
  · have k1 : t v * (x v - c v) ≤ t v * (1 / 1000000000 * m v) := mul_le_mul_of_nonneg_left g4 g5
    have k2 : t v * (1 / 1000000000 * m v) ≤ a * (1 / 1000000000 * m v) := mul_le_mul_of_nonneg_right g6 gm
    have k3 : a / 1000000000 * m v = a * (1 / 1000000000 * m v) := by ring
    rw [k3]
    linarith
  · have k1 : t v * c v ≤ t v * x v := mul_le_mul_of_nonneg_left g3 g5
    linarith

/-- **C77** The bound `a` on the computed times can be read off the exact fields: no cell is slow, and everywhere the
    exact time is below `a` with some room for the tolerance. -/
theorem C77_times (h : SolverFor F d st) (hself : ∀ v < F.n, ¬ F.Loop v) {starts : List Nat}
    (hp : ∀ p ∈ starts, p < F.n) {ls : Nat → K} (hls : ∀ p ∈ starts, 0 ≤ ls p)
    {sol : LocalSolution (X K)} (hr : LocalReturns d st (valuesOf starts ls) (.ok sol)) {x m q : Nat → K}
    (hx : F.Carries starts (injected starts ls) x) (hm : F.Carries starts F.cycleInflow m)
    (hq : F.Carries starts (fun v => F.pv v * x v) q) {a : K} (ha : 0 ≤ a)
    (hslow : ∀ v, F.Downstream starts v → ¬ F.Slow v)
    (hqa : ∀ v, F.Downstream starts v → q v ≤ a * (x v - 1 / 1000000000 * m v)) :
    ∀ v, F.Downstream starts v → valueAt sol.tof v ≤ a := by
  obtain ⟨τ, hf, hv⟩ := local_values h hp hls hr
  have herr := C76_error h hself hp hls hr hx hm
  have hF := h.valid
  set c := valueAt sol.concentration with hc
  have hin : ∀ v, F.Downstream starts v → v < F.n := fun v ⟨p, h1, h2⟩ => reach_lt (hp p h1) h2
  have hsrc : ∀ v < F.n, F.Downstream starts v → ∃ p, p < F.n ∧ 0 < F.src p ∧ F.Reach p v := by
    rintro v _ ⟨p, h1, h2⟩
    refine ⟨p, hp p h1, ?_, h2⟩
    have := (hv p ⟨p, h1, Relation.ReflTransGen.refl⟩).2.2
    exact lt_of_le_of_ne (hF.src_nonneg p (hp p h1)) fun e => this ⟨h1, e.symm⟩
  have h1 := max_principle hF (S := F.Downstream starts) (e := fun v => τ v * c v - q v) (fun v hvn hn => by
    show τ v * c v - q v ≤ 0
    rw [hq.1 v hvn hn, hf.off v hn]; simp) (fun v hvn hd => by
    show F.total v * (τ v * c v - q v) ≤ ∑ u ∈ range F.n, (τ u * c u - q u) * F.w u v
    have e : ∑ u ∈ range F.n, (τ u * c u - q u) * F.w u v
        = (∑ u ∈ range F.n, τ u * c u * F.w u v) - ∑ u ∈ range F.n, q u * F.w u v := by
      rw [← sum_sub_distrib]; exact sum_congr rfl fun u _ => by ring
    rw [e, mul_sub, hq.2 v hvn hd]
    have h2 := hf.tsub v hd (hslow v hd) (hv v hd).1
    have h3 : F.pv v * c v ≤ F.pv v * x v := mul_le_mul_of_nonneg_left (herr v hvn).1 (hF.pv_nonneg v hvn)
    have h4 : F.total v * (τ v * c v) = F.total v * c v * τ v := by ring
    rw [h4]; linarith) hsrc
  intro v hd
  rw [(hv v hd).2.1]
  refine le_trans (min_le_left _ _) ?_
  have h2 := h1 v (hin v hd)
  have h3 := hqa v hd
  have h4 := (herr v (hin v hd)).2
  have h5 : a * (x v - 1 / 1000000000 * m v) ≤ a * c v := mul_le_mul_of_nonneg_left (by linarith) ha
  have h6 : τ v * c v ≤ a * c v := by linarith
  exact le_of_mul_le_mul_right h6 (hv v hd).1

/-! A case: in `exCyclic`, 0 → 1 ⇄ 2, the exact concentrations are 1, and the computed ones miss them by at most `0`,
`1e-9` and `2e-9`. -/

theorem exCyclic_w : exCyclic.w 0 1 = 2 ∧ exCyclic.w 1 2 = 3 ∧ exCyclic.w 2 1 = 1 ∧
    ∀ u v, ¬ ((u = 0 ∧ v = 1) ∨ (u = 1 ∧ v = 2) ∨ (u = 2 ∧ v = 1)) → exCyclic.w u v = 0 := by
  refine ⟨by show fluxOf _ _ _ = _; simp [fluxOf], by show fluxOf _ _ _ = _; simp [fluxOf],
    by show fluxOf _ _ _ = _; simp [fluxOf], ?_⟩
  intro u v hn
  have := (fluxOf_pos (cs := [(0, 1, (2 : ℚ)), (1, 2, 3), (2, 1, 1)]) (by simp) u v)
  refine le_antisymm (not_lt.mp fun h => ?_) this.1
  have := this.2.mp h
  simp at this
  omega

theorem exCyclic_reach : exCyclic.Reach 0 1 ∧ exCyclic.Reach 1 2 ∧ exCyclic.Reach 2 1 ∧ (∀ u, exCyclic.Reach u 0 → u = 0) ∧
    ∀ u, exCyclic.Reach u 3 → u = 3 := by
  obtain ⟨a, b, c, z⟩ := exCyclic_w
  refine ⟨.single ⟨by decide, by decide, by rw [a]; norm_num⟩, .single ⟨by decide, by decide, by rw [b]; norm_num⟩,
    .single ⟨by decide, by decide, by rw [c]; norm_num⟩, ?_, ?_⟩
  · intro u hu
    rcases Relation.ReflTransGen.cases_tail hu with e | ⟨y, _, e⟩
    · exact e.symm
    · have := e.2.2
      rw [z y 0 (by omega)] at this
      exact absurd this (lt_irrefl _)
  · intro u hu
    rcases Relation.ReflTransGen.cases_tail hu with e | ⟨y, _, e⟩
    · exact e.symm
    · have := e.2.2
      rw [z y 3 (by omega)] at this
      exact absurd this (lt_irrefl _)

theorem exCyclic_total : exCyclic.total 0 = 2 ∧ exCyclic.total 1 = 3 ∧ exCyclic.total 2 = 3 := by
  obtain ⟨a, b, c, z⟩ := exCyclic_w
  have hn : exCyclic.n = 4 := rfl
  have s0 : exCyclic.src 0 = 2 := rfl
  have s1 : exCyclic.src 1 = 0 := rfl
  have s2 : exCyclic.src 2 = 0 := rfl
  have t0 : exCyclic.total 0 = 2 := by
    unfold Flow.total Flow.inflow
    simp [hn, sum_range_succ, z 0 0 (by omega), z 1 0 (by omega), z 2 0 (by omega), z 3 0 (by omega), s0]
  have t1 : exCyclic.total 1 = 3 := by
    unfold Flow.total Flow.inflow
    simp [hn, sum_range_succ, a, z 1 1 (by omega), c, z 3 1 (by omega), s1]; norm_num
  have t2 : exCyclic.total 2 = 3 := by
    unfold Flow.total Flow.inflow
    simp [hn, sum_range_succ, b, z 0 2 (by omega), z 2 2 (by omega), z 3 2 (by omega), s2]
  exact ⟨t0, t1, t2⟩

/-- The equations of a field carried from cell 0 of `exCyclic`. -/
theorem exCyclic_carries {q x : Nat → ℚ} (h0 : 2 * x 0 = q 0) (h1 : 3 * x 1 = 2 * x 0 + x 2 + q 1)
    (h2 : 3 * x 2 = 3 * x 1 + q 2) (h3 : x 3 = 0) : exCyclic.Carries [0] q x := by
  obtain ⟨a, b, c, z⟩ := exCyclic_w
  obtain ⟨r1, r2, r3, r4, r5⟩ := exCyclic_reach
  have hn : exCyclic.n = 4 := rfl
  obtain ⟨t0, t1, t2⟩ := exCyclic_total
  constructor
  · intro v hv hnd
    rw [hn] at hv
    interval_cases v
    · exact absurd ⟨0, by simp, .refl⟩ hnd
    · exact absurd ⟨0, by simp, r1⟩ hnd
    · exact absurd ⟨0, by simp, r1.trans r2⟩ hnd
    · exact h3
  · intro v hv hdv
    rw [hn] at hv
    interval_cases v
    · simp [hn, sum_range_succ, t0, z 0 0 (by omega), z 1 0 (by omega), z 2 0 (by omega), z 3 0 (by omega), h0]
    · simp [hn, sum_range_succ, t1, a, z 1 1 (by omega), z 3 1 (by omega), c]; linarith
    · simp [hn, sum_range_succ, t2, b, z 0 2 (by omega), z 2 2 (by omega), z 3 2 (by omega)]; linarith
    · obtain ⟨p, hp, h⟩ := hdv
      have := r5 p h
      simp at hp
      omega

/-- Exact concentrations, and the field that bounds the error. -/
def exX (v : Nat) : ℚ := if v < 3 then 1 else 0
def exM (v : Nat) : ℚ := if v = 1 then 1 else if v = 2 then 2 else 0

theorem exCyclic_exact : exCyclic.Carries [0] (injected [0] exCyclic.src) exX ∧ exCyclic.Carries [0] exCyclic.cycleInflow exM := by
  obtain ⟨a, b, c, z⟩ := exCyclic_w
  obtain ⟨r1, r2, r3, r4, r5⟩ := exCyclic_reach
  have hn : exCyclic.n = 4 := rfl
  have c0 : exCyclic.cycleInflow 0 = 0 := by
    unfold Flow.cycleInflow
    simp [hn, sum_range_succ, z 0 0 (by omega), z 1 0 (by omega), z 2 0 (by omega), z 3 0 (by omega)]
  have c1 : exCyclic.cycleInflow 1 = 1 := by
    unfold Flow.cycleInflow
    have n01 : ¬ exCyclic.SameCycle 0 1 := fun h => by have := r4 1 h.2; omega
    simp [hn, sum_range_succ, n01, z 1 1 (by omega), z 3 1 (by omega), c, show exCyclic.SameCycle 2 1 from ⟨r3, r2⟩]
  have c2 : exCyclic.cycleInflow 2 = 3 := by
    unfold Flow.cycleInflow
    simp [hn, sum_range_succ, b, z 0 2 (by omega), z 2 2 (by omega), z 3 2 (by omega), show exCyclic.SameCycle 1 2 from ⟨r2, r3⟩]
  constructor
  · apply exCyclic_carries <;> simp [exX, injected]
    · rfl
    · norm_num
  · apply exCyclic_carries <;> simp [exM, c0, c1, c2] <;> norm_num

example : ∃ d st sol, SolverFor exCyclic d st ∧ LocalReturns d st (valuesOf [0] exCyclic.src) (.ok sol) ∧
    valueAt sol.concentration 2 ≤ 1 ∧ 1 - valueAt sol.concentration 2 ≤ 1 / 1000000000 * 2 := by
  obtain ⟨d, st, h⟩ := exCyclic_solver
  have hp : ∀ p ∈ [0], p < exCyclic.n := by decide
  obtain ⟨sol, hr, _⟩ := C25_concentration_range h (starts := [0]) (ls := exCyclic.src) hp (by simp [exCyclic])
  have := C76_error h (fun v _ hl => hl.1 (exCyclic_w.2.2.2 v v (by omega))) hp (by simp [exCyclic]) hr exCyclic_exact.1
    exCyclic_exact.2 2 (by decide)
  exact ⟨d, st, sol, h, hr, by simpa [exX, exM] using this⟩

/-- The exact times of cells 0, 1, 2 are 1/2, 7/6 and 3/2; the computed ones are at most 2, and the one of cell 2 lies
    within `1e-8` plus `2e-12` times 200 years of 3/2. -/
example : ∃ d st sol, SolverFor exCyclic d st ∧ LocalReturns d st (valuesOf [0] exCyclic.src) (.ok sol) ∧
    valueAt sol.tof 2 - 3 / 2 ≤ 1 / 100000000 ∧
    3 / 2 - valueAt sol.tof 2 ≤ 1 / 100000000 + 2 * (200 * 365 * 24 * 60 * 60) / 1000000000000 := by
  obtain ⟨d, st, h⟩ := exCyclic_solver
  have hp : ∀ p ∈ [0], p < exCyclic.n := by decide
  obtain ⟨sol, hr, _⟩ := C25_concentration_range h (starts := [0]) (ls := exCyclic.src) hp (by simp [exCyclic])
  have hpv : ∀ v, exCyclic.pv v = 1 := fun _ => rfl
  have hself : ∀ v < exCyclic.n, ¬ exCyclic.Loop v := fun v _ hl => hl.1 (exCyclic_w.2.2.2 v v (by omega))
  have hq : exCyclic.Carries [0] (fun v => exCyclic.pv v * exX v)
      (fun v => if v = 0 then 1 / 2 else if v = 1 then 7 / 6 else if v = 2 then 3 / 2 else 0) := by
    apply exCyclic_carries <;> simp [exX, hpv] <;> norm_num
  have hpm : exCyclic.Carries [0] (fun v => exCyclic.pv v * exM v)
      (fun v => if v = 1 then 5 / 6 else if v = 2 then 3 / 2 else 0) := by
    apply exCyclic_carries <;> simp [exM, hpv] <;> norm_num
  have h3 : ¬ exCyclic.Downstream [0] 3 := by
    rintro ⟨p, hp, h⟩
    have := exCyclic_reach.2.2.2.2 p h
    simp at hp
    omega
  have hd2 : exCyclic.Downstream [0] 2 := ⟨0, by simp, exCyclic_reach.1.trans exCyclic_reach.2.1⟩
  have hlt : ∀ v, exCyclic.Downstream [0] v → v < 3 := by
    intro v hd
    have h1 : v < 4 := by obtain ⟨p, h1, h2⟩ := hd; exact reach_lt (hp p h1) h2
    by_contra hc
    have : v = 3 := by omega
    subst this
    exact h3 hd
  have hta := C77_times h hself hp (by simp [exCyclic]) hr exCyclic_exact.1 exCyclic_exact.2 hq (a := 2) (by norm_num)
    (fun v hd hs => by
      obtain ⟨t0, t1, t2⟩ := exCyclic_total
      have := hlt v hd
      unfold Flow.Slow cap at hs
      rw [hpv] at hs
      interval_cases v
      · rw [t0] at hs; norm_num at hs
      · rw [t1] at hs; norm_num at hs
      · rw [t2] at hs; norm_num at hs)
    (fun v hd => by
      have := hlt v hd
      interval_cases v <;> simp [exX, exM] <;> norm_num)
  have := C77_error h hself hp (by simp [exCyclic]) hr exCyclic_exact.1 exCyclic_exact.2 hq hpm (a := 2)
    (by unfold cap; norm_num) hta 2 hd2
  refine ⟨d, st, sol, h, hr, ?_⟩
  simp [exX, exM] at this
  obtain ⟨g1, g2⟩ := this
  unfold cap at g2
  constructor
  · linarith
  · linarith

omit [IsStrictOrderedRing K] [Archimedean K] in
theorem backward_loop {P : Problem K} {v : Nat} : P.backward.Loop v ↔ P.forward.Loop v := by
  unfold Flow.Loop Flow.SameCycle
  simp only [backward_reach]
  exact and_congr Iff.rfl (forall_congr' fun u => by rw [and_comm])

theorem backward_not_loop {P : Problem K} (h : ∀ v < P.n, ¬ P.forward.Loop v) : ∀ v < P.backward.n, ¬ P.backward.Loop v :=
  fun v hv hl => h v hv (backward_loop.mp hl)

section toolbox
variable {wells : List (WellFlux K)} {cs : WellFlux K → List Nat} {f : WellFlux K → Nat → K}
  {starts : List CellSet} {sol : Solution (X K)}

theorem Diag.error (D : Diag F wells cs f starts sol) (hself : ∀ v < F.n, ¬ F.Loop v) {w : WellFlux K} (hw : w ∈ wells)
    (hs : ∃ s ∈ starts, s.id = w.id) {x m : Nat → K} (hx : F.Carries (cs w) (injected (cs w) (f w)) x)
    (hm : F.Carries (cs w) F.cycleInflow m) :
    ∀ v < F.n, valueAt (sol.concentration w.id) v ≤ x v ∧
      x v - valueAt (sol.concentration w.id) v ≤ 1 / 1000000000 * m v := by
  obtain ⟨d, st, h1, h2, h3⟩ := D.solved
  obtain ⟨l, hl, _, e2⟩ := h3 w hw hs
  rw [e2]
  exact C76_error h1 hself (D.side.range w hw) (fun p hp => (D.side.pos w hw p hp).le) hl hx hm

theorem Diag.sum_error (D : Diag F wells cs f starts sol) (hself : ∀ v < F.n, ¬ F.Loop v)
    (hall : ∀ w ∈ wells, cs w ≠ [] → w.id ∈ sol.startPoints) {all : List Nat}
    (hs : ∀ p, p ∈ all ↔ p < F.n ∧ 0 < F.src p) {m : Nat → K} (hm : F.Carries all F.cycleInflow m) :
    ∀ v < F.n, (∀ u, F.Reach u v → F.Downstream all u) →
      1 - (sol.startPoints.map fun i => valueAt (sol.concentration i) v).sum
        ≤ (sol.startPoints.length : K) * (1 / 1000000000 * m v) := by
  obtain ⟨d, st, h1, l, hl, e⟩ := D.sums
  intro v hv hu
  have hlen : sol.startPoints.length = (asked wells sol).length := by rw [D.startPoints_eq, List.length_map]
  rw [e v, hlen]
  have hmem : ∀ k : Fin (asked wells sol).length, (asked wells sol)[k] ∈ wells := fun k =>
    (mem_asked.mp (List.getElem_mem (l := asked wells sol) k.isLt)).1
  refine C76_sum h1 hself (fun k => D.side.range _ (hmem k)) (fun k p hp => (D.side.pos _ (hmem k) p hp).le) ?_ hl hs hm
    v hv hu
  intro v _
  obtain ⟨a, _, c⟩ := D.injected_sum v
  rw [a, c hall]

theorem Diag.time_error (D : Diag F wells cs f starts sol) (hself : ∀ v < F.n, ¬ F.Loop v) {w : WellFlux K}
    (hw : w ∈ wells) (hs : ∃ s ∈ starts, s.id = w.id) {x m q p : Nat → K}
    (hx : F.Carries (cs w) (injected (cs w) (f w)) x) (hm : F.Carries (cs w) F.cycleInflow m)
    (hq : F.Carries (cs w) (fun v => F.pv v * x v) q) (hpm : F.Carries (cs w) (fun v => F.pv v * m v) p)
    {a : K} (ha : a < cap) (hta : ∀ v, F.Downstream (cs w) v → valueAt (sol.timeOfFlightOf w.id) v ≤ a) :
    ∀ v, F.Downstream (cs w) v →
      valueAt (sol.timeOfFlightOf w.id) v * x v - q v ≤ a / 1000000000 * m v ∧
      q v - valueAt (sol.timeOfFlightOf w.id) v * x v
        ≤ 1 / 1000000000 * p v + (a / 1000000000 + cap / 1000000000000) * m v := by
  obtain ⟨d, st, h1, h2, h3⟩ := D.solved
  obtain ⟨l, hl, e1, e2⟩ := h3 w hw hs
  rw [e1] at hta ⊢
  exact C77_error h1 hself (D.side.range w hw) (fun p hp => ⟨(D.side.pos w hw p hp).le, D.le_src hw hp⟩) hl hx hm hq hpm
    ha hta

variable {P : Problem K} (hP : P.Valid) {g : ConnectivityGraph} {calls : List (Call (X K))} (h : P.GivenTo g calls)
include hP h

/-- **C76** (no cell has a self-connection as its only cycle) An injector's concentrations: never above the exact ones
    `x`, and below them by at most `1e-9 * m`, where `m` is the field that the flow carries from the injector's cells
    when each cell adds the flux that it receives from its own cycle. -/
theorem C76_injection (hself : ∀ v < P.n, ¬ P.forward.Loop v) (hr : InjectionReturns g calls starts (.ok sol))
    {w : WellFlux K} (hw : w ∈ P.wells) (hs : ∃ s ∈ starts, s.id = w.id) :
    ∃ x m, P.forward.Carries (posCells w) (fun v => max (Problem.wellAt w v) 0) x ∧
      P.forward.Carries (posCells w) P.forward.cycleInflow m ∧
      ∀ v < P.n, valueAt (sol.concentration w.id) v ≤ x v ∧
        x v - valueAt (sol.concentration w.id) v ≤ 1 / 1000000000 * m v := by
  have D := diag_injection hP h hr
  have hp : ∀ p ∈ posCells w, p < P.forward.n ∧ 0 < P.forward.src p := fun p hp =>
    ⟨D.side.range w hw p hp, lt_of_lt_of_le (D.side.pos w hw p hp) (D.le_src hw hp)⟩
  have hv : P.forward.Valid := by obtain ⟨d, st, h1, _⟩ := D.solved; exact h1.valid
  obtain ⟨x, hx⟩ := (C76_exact hv hp (injected (posCells w) w.val)).1
  obtain ⟨m, hm⟩ := (C76_exact hv hp P.forward.cycleInflow).1
  have e : injected (posCells w) w.val = fun v => max (Problem.wellAt w v) 0 := funext fun v => injected_pos v
  exact ⟨x, m, e ▸ hx, hm, D.error hself hw hs hx hm⟩

/-- **C76** (no cell has a self-connection as its only cycle) A producer's concentrations, in the reversed flow. -/
theorem C76_production (hself : ∀ v < P.n, ¬ P.forward.Loop v) (hr : ProductionReturns g calls starts (.ok sol))
    {w : WellFlux K} (hw : w ∈ P.wells) (hs : ∃ s ∈ starts, s.id = w.id) :
    ∃ x m, P.backward.Carries (negCells w) (fun v => max (-Problem.wellAt w v) 0) x ∧
      P.backward.Carries (negCells w) P.backward.cycleInflow m ∧
      ∀ v < P.n, valueAt (sol.concentration w.id) v ≤ x v ∧
        x v - valueAt (sol.concentration w.id) v ≤ 1 / 1000000000 * m v := by
  have D := diag_production hP h hr
  have hp : ∀ p ∈ negCells w, p < P.backward.n ∧ 0 < P.backward.src p := fun p hp =>
    ⟨D.side.range w hw p hp, lt_of_lt_of_le (D.side.pos w hw p hp) (D.le_src hw hp)⟩
  have hv : P.backward.Valid := by obtain ⟨d, st, h1, _⟩ := D.solved; exact h1.valid
  obtain ⟨x, hx⟩ := (C76_exact hv hp (injected (negCells w) fun v => - w.val v)).1
  obtain ⟨m, hm⟩ := (C76_exact hv hp P.backward.cycleInflow).1
  have e : injected (negCells w) (fun v => - w.val v) = fun v => max (-Problem.wellAt w v) 0 :=
    funext fun v => injected_neg v
  exact ⟨x, m, e ▸ hx, hm, D.error (backward_not_loop hself) hw hs hx hm⟩

/-- **C76** (no cell has a self-connection as its only cycle) If all injectors are asked for, their concentrations
    miss 1 by at most the number of injectors times `1e-9 * m`, in every cell such that a source reaches each cell
    upstream of it. -/
theorem C76_injection_sum (hself : ∀ v < P.n, ¬ P.forward.Loop v) (hr : InjectionReturns g calls starts (.ok sol))
    (hall : ∀ w ∈ P.wells, (∃ v ∈ w.cells, 0 < w.val v) → ∃ s ∈ starts, s.id = w.id) :
    ∃ m, P.forward.Carries ((List.range P.n).filter fun p => decide (0 < P.source p)) P.forward.cycleInflow m ∧
      ∀ v < P.n, (∀ u, P.forward.Reach u v → ∃ p < P.n, 0 < P.source p ∧ P.forward.Reach p u) →
        1 - (sol.startPoints.map fun i => valueAt (sol.concentration i) v).sum
          ≤ (sol.startPoints.length : K) * (1 / 1000000000 * m v) := by
  have D := diag_injection hP h hr
  have hv : P.forward.Valid := by obtain ⟨d, st, h1, _⟩ := D.solved; exact h1.valid
  have hs : ∀ p, p ∈ (List.range P.n).filter (fun p => decide (0 < P.source p)) ↔ p < P.forward.n ∧ 0 < P.forward.src p := by
    intro p; rw [List.mem_filter, List.mem_range, decide_eq_true_eq]; exact Iff.rfl
  obtain ⟨m, hm⟩ := (C76_exact hv (fun p => (hs p).mp) P.forward.cycleInflow).1
  refine ⟨m, hm, fun v hvn hu => D.sum_error hself ?_ hs hm v hvn fun u hr => ?_⟩
  · intro w hw hne
    rw [D.points]
    apply hall w hw
    obtain ⟨v, hv⟩ := List.exists_mem_of_ne_nil _ hne
    obtain ⟨a, b⟩ := List.mem_filter.mp hv
    exact ⟨v, a, by simpa using b⟩
  · obtain ⟨p, h1, h2, h3⟩ := hu u hr
    exact ⟨p, (hs p).mpr ⟨h1, h2⟩, h3⟩

/-- **C76** (no cell has a self-connection as its only cycle) The same for producers. -/
theorem C76_production_sum (hself : ∀ v < P.n, ¬ P.forward.Loop v) (hr : ProductionReturns g calls starts (.ok sol))
    (hall : ∀ w ∈ P.wells, (∃ v ∈ w.cells, w.val v < 0) → ∃ s ∈ starts, s.id = w.id) :
    ∃ m, P.backward.Carries ((List.range P.n).filter fun p => decide (0 < P.sink p)) P.backward.cycleInflow m ∧
      ∀ v < P.n, (∀ u, P.forward.Reach v u → ∃ p < P.n, 0 < P.sink p ∧ P.forward.Reach u p) →
        1 - (sol.startPoints.map fun i => valueAt (sol.concentration i) v).sum
          ≤ (sol.startPoints.length : K) * (1 / 1000000000 * m v) := by
  have D := diag_production hP h hr
  have hv : P.backward.Valid := by obtain ⟨d, st, h1, _⟩ := D.solved; exact h1.valid
  have hs : ∀ p, p ∈ (List.range P.n).filter (fun p => decide (0 < P.sink p)) ↔ p < P.backward.n ∧ 0 < P.backward.src p := by
    intro p; rw [List.mem_filter, List.mem_range, decide_eq_true_eq]; exact Iff.rfl
  obtain ⟨m, hm⟩ := (C76_exact hv (fun p => (hs p).mp) P.backward.cycleInflow).1
  refine ⟨m, hm, fun v hvn hu => D.sum_error (backward_not_loop hself) ?_ hs hm v hvn fun u hr => ?_⟩
  · intro w hw hne
    rw [D.points]
    apply hall w hw
    obtain ⟨v, hv⟩ := List.exists_mem_of_ne_nil _ hne
    obtain ⟨a, b⟩ := List.mem_filter.mp hv
    exact ⟨v, a, by simpa using b⟩
  · obtain ⟨p, h1, h2, h3⟩ := hu u (backward_reach.mp hr)
    exact ⟨p, (hs p).mpr ⟨h1, h2⟩, backward_reach.mpr h3⟩

/-- **C77** (no cell has a self-connection as its only cycle, no time above `a` < 200 years) An injector's
    times-of-flight, against the exact times `q v / x v`. -/
theorem C77_injection (hself : ∀ v < P.n, ¬ P.forward.Loop v) (hr : InjectionReturns g calls starts (.ok sol))
    {w : WellFlux K} (hw : w ∈ P.wells) (hs : ∃ s ∈ starts, s.id = w.id) {a : K} (ha : a < 200 * 365 * 24 * 60 * 60)
    (hta : ∀ v, P.forward.Downstream (posCells w) v → valueAt (sol.timeOfFlightOf w.id) v ≤ a) :
    ∃ x m q p, P.forward.Carries (posCells w) (fun v => max (Problem.wellAt w v) 0) x ∧
      P.forward.Carries (posCells w) P.forward.cycleInflow m ∧
      P.forward.Carries (posCells w) (fun v => P.pv v * x v) q ∧
      P.forward.Carries (posCells w) (fun v => P.pv v * m v) p ∧
      ∀ v, P.forward.Downstream (posCells w) v →
        valueAt (sol.timeOfFlightOf w.id) v * x v - q v ≤ a / 1000000000 * m v ∧
        q v - valueAt (sol.timeOfFlightOf w.id) v * x v
          ≤ 1 / 1000000000 * p v + (a / 1000000000 + 200 * 365 * 24 * 60 * 60 / 1000000000000) * m v := by
  have D := diag_injection hP h hr
  have hp : ∀ p ∈ posCells w, p < P.forward.n ∧ 0 < P.forward.src p := fun p hp =>
    ⟨D.side.range w hw p hp, lt_of_lt_of_le (D.side.pos w hw p hp) (D.le_src hw hp)⟩
  have hv : P.forward.Valid := by obtain ⟨d, st, h1, _⟩ := D.solved; exact h1.valid
  obtain ⟨x, hx⟩ := (C76_exact hv hp (injected (posCells w) w.val)).1
  obtain ⟨m, hm⟩ := (C76_exact hv hp P.forward.cycleInflow).1
  obtain ⟨q, hq⟩ := (C76_exact hv hp fun v => P.pv v * x v).1
  obtain ⟨p, hpm⟩ := (C76_exact hv hp fun v => P.pv v * m v).1
  have e : injected (posCells w) w.val = fun v => max (Problem.wellAt w v) 0 := funext fun v => injected_pos v
  exact ⟨x, m, q, p, e ▸ hx, hm, hq, hpm, D.time_error hself hw hs hx hm hq hpm ha hta⟩

/-- **C77** The same for a producer, in the reversed flow. -/
theorem C77_production (hself : ∀ v < P.n, ¬ P.forward.Loop v) (hr : ProductionReturns g calls starts (.ok sol))
    {w : WellFlux K} (hw : w ∈ P.wells) (hs : ∃ s ∈ starts, s.id = w.id) {a : K} (ha : a < 200 * 365 * 24 * 60 * 60)
    (hta : ∀ v, P.backward.Downstream (negCells w) v → valueAt (sol.timeOfFlightOf w.id) v ≤ a) :
    ∃ x m q p, P.backward.Carries (negCells w) (fun v => max (-Problem.wellAt w v) 0) x ∧
      P.backward.Carries (negCells w) P.backward.cycleInflow m ∧
      P.backward.Carries (negCells w) (fun v => P.pv v * x v) q ∧
      P.backward.Carries (negCells w) (fun v => P.pv v * m v) p ∧
      ∀ v, P.backward.Downstream (negCells w) v →
        valueAt (sol.timeOfFlightOf w.id) v * x v - q v ≤ a / 1000000000 * m v ∧
        q v - valueAt (sol.timeOfFlightOf w.id) v * x v
          ≤ 1 / 1000000000 * p v + (a / 1000000000 + 200 * 365 * 24 * 60 * 60 / 1000000000000) * m v := by
  have D := diag_production hP h hr
  have hp : ∀ p ∈ negCells w, p < P.backward.n ∧ 0 < P.backward.src p := fun p hp =>
    ⟨D.side.range w hw p hp, lt_of_lt_of_le (D.side.pos w hw p hp) (D.le_src hw hp)⟩
  have hv : P.backward.Valid := by obtain ⟨d, st, h1, _⟩ := D.solved; exact h1.valid
  obtain ⟨x, hx⟩ := (C76_exact hv hp (injected (negCells w) fun v => - w.val v)).1
  obtain ⟨m, hm⟩ := (C76_exact hv hp P.backward.cycleInflow).1
  obtain ⟨q, hq⟩ := (C76_exact hv hp fun v => P.pv v * x v).1
  obtain ⟨p, hpm⟩ := (C76_exact hv hp fun v => P.pv v * m v).1
  have e : injected (negCells w) (fun v => - w.val v) = fun v => max (-Problem.wellAt w v) 0 :=
    funext fun v => injected_neg v
  exact ⟨x, m, q, p, e ▸ hx, hm, hq, hpm, D.time_error (backward_not_loop hself) hw hs hx hm hq hpm ha hta⟩

end toolbox

/-! A problem with a cycle, 0 → 1 → 2 → 3 → 1: a request for its injector is answered. -/

/-- Four cells, an injector in cell 0 and a producer in cell 3; the last connection leads back from cell 3 to cell 1. -/
def exWhirl : Problem ℚ where
  n := 4
  conns := [(0, 1), (1, 2), (2, 3), (3, 1)]
  nphase := 1
  phi c _ := if c = 0 then 2 else if c = 3 then 1 else 3
  pv _ := 1
  wells := [⟨⟨[65]⟩, [0], fun _ => 2⟩, ⟨⟨[80]⟩, [3], fun _ => -2⟩]

theorem exWhirl_valid : exWhirl.Valid where
  int := by decide
  pos := by decide
  some_connection := by decide
  range := by decide
  pv v _ := by show (0 : ℚ) ≤ 1; norm_num
  wells_sorted := by unfold exWhirl; simp; decide
  cells_sorted := by unfold exWhirl; simp
  cells_range := by unfold exWhirl; simp

example : ∃ g calls sol, exWhirl.GivenTo g calls ∧ InjectionReturns g calls [CellSet.ofCells ⟨[65]⟩ [0]] (.ok sol) ∧
    (∀ v < exWhirl.n, exWhirl.flux v v = 0) ∧ ¬ exWhirl.forward.Acyclic ∧
    (∀ w ∈ exWhirl.wells, (∃ v ∈ w.cells, 0 < w.val v) → ∃ s ∈ [CellSet.ofCells ⟨[65]⟩ [0]], s.id = w.id) := by
  obtain ⟨g, calls, h⟩ := exists_given exWhirl_valid (by decide)
  have hacc : InjectionAccepts exWhirl.inflowMap [CellSet.ofCells ⟨[65]⟩ [0]] := by
    have h2 : (Arith.lt Arith.zero (X.fin (2 : ℚ))) = true := by rw [X_zero, X_lt]; simp
    intro s hs
    simp only [List.mem_cons, List.not_mem_nil, or_false] at hs
    subst hs
    refine ⟨⟨_, .head _, rfl, _, .head _, h2⟩, ?_⟩
    intro c hc
    have : c = 0 := by simpa [CellSet.ofCells, CellSet.cells, setInsert] using hc
    subst this
    exact ⟨_, .head _, _, .head _, rfl, h2⟩
  obtain ⟨sol, hsol⟩ := (C40_valid_problem exWhirl_valid h _).1 hacc
  have hf : exWhirl.flux 1 2 = 3 ∧ exWhirl.flux 2 3 = 3 ∧ exWhirl.flux 3 1 = 1 := by
    refine ⟨?_, ?_, ?_⟩ <;> simp [Problem.flux, Problem.carried, Problem.net, exWhirl, sum_range_succ]
  have e12 : exWhirl.forward.Edge 1 2 := ⟨by decide, by decide, by show 0 < exWhirl.flux 1 2; rw [hf.1]; norm_num⟩
  have e23 : exWhirl.forward.Edge 2 3 := ⟨by decide, by decide, by show 0 < exWhirl.flux 2 3; rw [hf.2.1]; norm_num⟩
  have e31 : exWhirl.forward.Edge 3 1 := ⟨by decide, by decide, by show 0 < exWhirl.flux 3 1; rw [hf.2.2]; norm_num⟩
  refine ⟨g, calls, sol, h, hsol, ?_, fun ha => ha 1 (((Relation.TransGen.single e12).tail e23).tail e31), ?_⟩
  · intro v hv
    change v < 4 at hv
    interval_cases v <;> simp [Problem.flux, Problem.carried, exWhirl, sum_range_succ]
  · intro w hw
    simp only [exWhirl, List.mem_cons, List.not_mem_nil, or_false] at hw
    rcases hw with rfl | rfl
    · intro _; exact ⟨_, List.mem_singleton.mpr rfl, rfl⟩
    · rintro ⟨v, _, h⟩; norm_num at h

end Verif.Props
