/-
Rounding errors of solves on cycle-free flow.
-/
import Verif.Proofs.Accuracy
import Verif.Proofs.SolverVisit

namespace Verif.Rounding
open Finset Verif.Spec Verif.Solver Verif.Toolbox

variable {R : Type} [Arith R] {K : Type} [Field K] [LinearOrder K] [IsStrictOrderedRing K]

/-! ### The exact results -/

omit [IsStrictOrderedRing K] in
theorem acyclic_of_depth {F : Flow K} {depth : Nat → Nat} (hd : ∀ u v, F.Edge u v → depth u < depth v) :
    ∀ v, ¬ Relation.TransGen F.Edge v v := by
  have key : ∀ u v, Relation.TransGen F.Edge u v → depth u < depth v := by
    intro u v h
    induction h with
    | single e => exact hd _ _ e
    | tail _ e ih => exact ih.trans (hd _ _ e)
  exact fun v h => Nat.lt_irrefl _ (key v v h)

/-- The exact times of flight are at most 200 years for each cell on the way. -/
theorem tof_depth {F : Flow K} {V start : Nat → Prop} {inj c τ : Nat → K} (hf : Facts F V start inj τ c)
    (hVn : ∀ v, V v → v < F.n) (hw : ∀ u v, u < F.n → v < F.n → 0 ≤ F.w u v)
    (hlive : ∀ v, V v → 0 < c v → 0 < F.total v) (hst : ∀ v, V v → start v → 0 < F.src v) (hinj : ∀ v, 0 ≤ inj v)
    {depth : Nat → Nat} (hd : ∀ u v, F.Edge u v → depth u < depth v) :
    ∀ m v, depth v = m → V v → τ v ≤ (depth v + 1) * cap := by
  have hcap : (0 : K) < cap := by unfold cap; positivity
  have hacy := acyclic_of_depth hd
  intro m
  induction m using Nat.strong_induction_on with
  | _ m ih =>
    intro v hm hv
    have hvn := hVn v hv
    have hcase : τ v = cap → τ v ≤ (depth v + 1) * cap := by
      intro e
      rw [e]
      have : (0 : K) ≤ depth v := Nat.cast_nonneg _
      nlinarith
    by_cases hsl : F.total v < F.pv v / cap ∨ c v = 0
    · exact hcase (hf.capped v hv hsl)
    · rw [not_or] at hsl
      have hc : 0 < c v := lt_of_le_of_ne (hf.nonneg v hvn).2 (Ne.symm hsl.2)
      have ht := hlive v hv hc
      have he := hf.texact v hv hsl.1 hc (hacy v)
      have hfl := hf.exact v hv (fun h => (hst v hv h.1).ne' h.2) (hacy v)
      have hpv : F.pv v ≤ F.total v * cap := by
        have := not_lt.mp hsl.1
        rwa [div_le_iff₀ hcap] at this
      have hsum : (∑ u ∈ range F.n, τ u * c u * F.w u v) ≤ depth v * cap * ∑ u ∈ range F.n, c u * F.w u v := by
        rw [Finset.mul_sum]
        apply Finset.sum_le_sum
        intro u hu
        have hun := Finset.mem_range.mp hu
        have hc0 := (hf.nonneg u hun).2
        by_cases hV : V u
        · rcases lt_or_eq_of_le (hw u v hun hvn) with hw0 | hw0
          · have hlt := hd u v ⟨hun, hvn, hw0⟩
            have := ih (depth u) (by omega) u rfl hV
            have h2 : ((depth u : K) + 1) * cap ≤ depth v * cap := by
              apply mul_le_mul_of_nonneg_right _ hcap.le
              exact_mod_cast hlt
            rw [mul_assoc]
            exact mul_le_mul_of_nonneg_right (this.trans h2) (mul_nonneg hc0 hw0.le)
          · rw [← hw0]; simp
        · rw [hf.off u hV]; simp
      have h1 : (∑ u ∈ range F.n, c u * F.w u v) ≤ F.total v * c v := by
        have := hinj v
        linarith
      have hden : 0 < F.total v * c v := mul_pos ht hc
      have hd0 : (0 : K) ≤ depth v * cap := mul_nonneg (Nat.cast_nonneg _) hcap.le
      have h2 : F.total v * c v * τ v ≤ F.total v * c v * ((depth v + 1) * cap) := by
        calc F.total v * c v * τ v = F.pv v * c v + ∑ u ∈ range F.n, τ u * c u * F.w u v := he
          _ ≤ F.total v * cap * c v + depth v * cap * (F.total v * c v) :=
            add_le_add (mul_le_mul_of_nonneg_right hpv hc.le) (hsum.trans (mul_le_mul_of_nonneg_left h1 hd0))
          _ = F.total v * c v * ((depth v + 1) * cap) := by ring
      exact le_of_mul_le_mul_left h2 hden

/-- Where fluid arrives there is flow. -/
theorem live_of_facts {F : Flow K} {V start : Nat → Prop} {inj c τ : Nat → K} (hf : Facts F V start inj τ c)
    (hF : F.Valid) {v : Nat} (hv : v < F.n) (hc : 0 < c v) : 0 < F.total v := by
  obtain ⟨p, hp, _, _, hs, hr⟩ := hf.source v hv hc
  have hin : 0 ≤ F.inflow v := Finset.sum_nonneg fun u hu => hF.w_nonneg u v (Finset.mem_range.mp hu) hv
  have hsv := hF.src_nonneg v hv
  unfold Flow.total
  rcases Relation.ReflTransGen.cases_tail hr with e | ⟨x, _, e⟩
  · rw [e]; rw [e] at hin; linarith
  · have : F.w x v ≤ F.inflow v := Finset.single_le_sum (f := fun u => F.w u v)
      (fun u hu => hF.w_nonneg u v (Finset.mem_range.mp hu) hv) (Finset.mem_range.mpr e.1)
    have := e.2.2
    linarith

theorem cellEqs_of_facts {F : Flow K} {V start : Nat → Prop} {inj c τ : Nat → K} (hf : Facts F V start inj τ c)
    (hF : F.Valid) (hVn : ∀ v, V v → v < F.n) (hst : ∀ v, V v → start v → 0 < F.src v) (hinj : ∀ v, 0 ≤ inj v)
    {depth : Nat → Nat} (hd : ∀ u v, F.Edge u v → depth u < depth v) (hd100 : ∀ v < F.n, depth v ≤ 2 ^ 100)
    (hcle : ∀ v < F.n, c v ≤ 1) (hcmin : ∀ v, V v → 0 < c v → 1 ≤ c v * 2 ^ 300) (htmin : ∀ v, V v → 0 < τ v → 1 ≤ τ v * 2 ^ 300) :
    ∀ v, V v → CellEqs F inj c τ v := by
  intro v hv
  have hvn := hVn v hv
  have hacy := acyclic_of_depth hd
  obtain ⟨h1, h2⟩ := hf.nonneg v hvn
  refine ⟨hf.exact v hv (fun h => (hst v hv h.1).ne' h.2) (hacy v), live_of_facts hf hF hvn, hf.capped v hv,
    fun a b => hf.texact v hv a b (hacy v), hinj v, hcle v hvn, ?_, ?_⟩
  · rcases lt_or_eq_of_le h2 with h | h
    · exact Or.inr ⟨hcmin v hv h, (hcle v hvn).trans (one_le_pow₀ one_le_two)⟩
    · exact Or.inl h.symm
  · rcases lt_or_eq_of_le h1 with h | h
    · refine Or.inr ⟨htmin v hv h, ?_⟩
      have := tof_depth hf hVn hF.w_nonneg (fun v hv hc => live_of_facts hf hF (hVn v hv) hc) hst hinj hd _ v rfl hv
      refine this.trans ?_
      have hdv : (depth v : K) ≤ 2 ^ 100 := by exact_mod_cast hd100 v hvn
      have hcap : (cap : K) ≤ 2 ^ 40 := by unfold cap; norm_num
      calc ((depth v : K) + 1) * cap ≤ (2 ^ 100 + 1) * 2 ^ 40 := by
            apply mul_le_mul (by linarith) hcap (by unfold cap; positivity) (by positivity)
        _ ≤ 2 ^ 200 := by norm_num
        _ ≤ 2 ^ 300 := pow_le_pow_right₀ one_le_two (by omega)
    · exact Or.inl h.symm

/-! ### The computed results -/

variable {ρ : Rounded R K} {q : K} (hp : Precise ρ q)
include hp

/-- Exponents of the errors of the tracer values and of the times of flight, `m` steps downstream. -/
abbrev expC (M m : Nat) : Nat := (m + 1) * (4 * M + 6)

abbrev expT (M m : Nat) : Nat := (m + 2) ^ 2 * (4 * M + 6)

omit hp in
theorem expC_le {M m m' : Nat} (h : m ≤ m') : expC M m ≤ expC M m' := Nat.mul_le_mul_right _ (by omega)

omit hp in
theorem expT_le {M m m' : Nat} (h : m ≤ m') : expT M m ≤ expT M m' :=
  Nat.mul_le_mul_right _ (Nat.pow_le_pow_left (by omega) 2)

theorem visit_accuracy {d : SolverData R} {F : Flow K} {M : Nat} (hA : Approx ρ q d F M) (hM : q ^ (2 * M + 2) * 200 < 201)
    (hm : ∀ v < F.n, Moderate F v) {V : Nat → Prop} (hVn : ∀ v, V v → v < F.n) {seq : List Nat} (hnd : seq.Nodup)
    (hseq : ∀ v, v ∈ seq ↔ V v) (hupw : Upwind d seq) {inj c τ : Nat → K} (he : ∀ v, V v → CellEqs F inj c τ v)
    (hoff : ∀ v, ¬ V v → c v = 0) {depth : Nat → Nat} (hd : ∀ u v, F.Edge u v → depth u < depth v)
    (hdq : ∀ v < F.n, q ^ expT M (depth v) ≤ 2) {isStart : List Bool} {ls : List R}
    (hb : ∀ v, V v → ∃ b, isStart[v]? = some b ∧ (b = false → inj v = 0) ∧
      (b = true → 0 < F.src v ∧ ∃ a, ls[v]? = some a ∧ Near ρ q M a (inj v)))
    {s : List R × List R} (h : visitCells d isStart ls F.n seq = .ok s) :
    ∀ m v, depth v = m → V v → ∃ t a, s.1[v]? = some t ∧ s.2[v]? = some a ∧
      Near ρ q (expC M m) a (c v) ∧ Near ρ q (expT M m) t (τ v) := by
  have hI := hA.int
  obtain ⟨_, _, hrest, hvis⟩ := visit_fixed (isStart := isStart) (localSource := ls) seq
    (fun v hv => by have := hVn v ((hseq v).mp hv); omega) hnd hupw _ _ h
  intro m
  induction m using Nat.strong_induction_on with
  | _ m ih =>
    intro v hmv hv
    have hvn := hVn v hv
    obtain ⟨b, hb1, hb2, hb3⟩ := hb v hv
    obtain ⟨_, _, p, hpv, hp1, hp2⟩ := hvis v ((hseq v).mpr hv)
    refine ⟨p.1, p.2, hp1, hp2, ?_⟩
    have hcell : ∀ u, F.Edge u v → ∃ t a, s.1[u]? = some t ∧ s.2[u]? = some a ∧
        Near ρ q (m * (4 * M + 6)) a (c u) ∧
        ((Near ρ q ((m + 1) ^ 2 * (4 * M + 6)) t (τ u) ∧ Range 300 (τ u)) ∨ (c u = 0 ∧ ∃ z, ρ.val t = X.fin z)) ∧
        Range 300 (c u) := by
      intro u hu
      by_cases hVu : V u
      · have hlt := hd u v hu
        obtain ⟨t, a, h1, h2, h3, h4⟩ := ih (depth u) (by omega) u rfl hVu
        have heu := he u hVu
        refine ⟨t, a, h1, h2, h3.mono hp heu.crange.nonneg ?_, .inl ⟨h4.mono hp heu.trange.nonneg ?_, heu.trange⟩, heu.crange⟩
        · exact Nat.mul_le_mul_right _ (by omega)
        · exact Nat.mul_le_mul_right _ (Nat.pow_le_pow_left (by omega) 2)
      · have hns : u ∉ seq := fun hm => hVu ((hseq u).mp hm)
        obtain ⟨h1, h2⟩ := hrest u hns
        have h0 : (List.replicate F.n (Arith.zero : R))[u]? = some Arith.zero := by
          rw [List.getElem?_replicate, if_pos hu.1]
        refine ⟨Arith.zero, Arith.zero, by rw [h1]; exact h0, by rw [h2]; exact h0, ?_, .inr ⟨hoff u hVu, 0, val_zero' ρ⟩, ?_⟩
        · rw [hoff u hVu]; exact near_zero hp _
        · left; exact hoff u hVu
    obtain ⟨T, hT⟩ : ∃ T : Nat → R, ∀ u, F.Edge u v → s.1[u]? = some (T u) :=
      ⟨fun u => (s.1[u]?).getD Arith.zero, fun u hu => by obtain ⟨t, a, h1, h2, _⟩ := hcell u hu; simp [h1]⟩
    obtain ⟨C, hC⟩ : ∃ C : Nat → R, ∀ u, F.Edge u v → s.2[u]? = some (C u) :=
      ⟨fun u => (s.2[u]?).getD Arith.zero, fun u hu => by obtain ⟨t, a, h1, h2, _⟩ := hcell u hu; simp [h2]⟩
    have hcell' : ∀ u, F.Edge u v → Near ρ q (m * (4 * M + 6)) (C u) (c u) ∧
        ((Near ρ q ((m + 1) ^ 2 * (4 * M + 6)) (T u) (τ u) ∧ Range 300 (τ u)) ∨ (c u = 0 ∧ ∃ z, ρ.val (T u) = X.fin z)) ∧
        Range 300 (c u) := by
      intro u hu
      obtain ⟨t, a, h1, h2, h3⟩ := hcell u hu
      rw [hT u hu] at h1
      rw [hC u hu] at h2
      cases h1
      cases h2
      exact h3
    have hk : (m + 1) ^ 2 * (4 * M + 6) + 2 * (m * (4 * M + 6) + 4 * M + 4) + 4 * M + 6 ≤ expT M m := by
      unfold expT
      nlinarith
    have := cell_step hp hA hM hvn (hm v hvn) (he v hv) hb1 hb2 hb3 (T := T) (C := C) (fun u hu => ⟨hT u hu, hC u hu⟩)
      ⟨fun u hu => (hcell' u hu).1, fun u hu => (hcell' u hu).2.1, fun u hu => (hcell' u hu).2.2⟩
      ((pow_le_pow_right₀ hp.one_le hk).trans (hmv ▸ hdq v hvn)) hpv
    refine ⟨this.1.mono hp (he v hv).crange.nonneg ?_, this.2.mono hp (he v hv).trange.nonneg hk⟩
    unfold expC
    rw [Nat.add_mul]
    omega

/-! ### Start cells -/

omit hp [IsStrictOrderedRing K] [Arith R] in
theorem startArray_spec {n : Nat} (hI : n ≤ INT_MAX) {starts : List Nat} {f : Nat → R} (hs : ∀ p ∈ starts, p < n)
    {b : List Bool} (h : setupStartArray (List.replicate n false) (starts.map fun p : Nat => ((p : Int), f p)) = .ok b) :
    ∀ v < n, b[v]? = some (decide (v ∈ starts)) := by
  have key : ∀ (l : List Nat) (b b' : List Bool), (∀ p ∈ l, p < n) → b.length = n →
      setupStartArray b (l.map fun p : Nat => ((p : Int), f p)) = .ok b' →
        ∀ v < n, b'[v]? = if v ∈ l then some true else b[v]? := by
    intro l
    induction l with
    | nil => intro b b' _ hb h; cases h; simp
    | cons p l ih =>
      intro b b' hl hb h v hv
      have hpn := hl p List.mem_cons_self
      unfold setupStartArray at h
      rw [List.map_cons, forEach_cons] at h
      simp only [sizeOfInt_nat hpn hI, wr_ok (show p < b.length by omega), Res.ok_bind] at h
      rw [ih (b.set p true) b' (fun x hx => hl x (List.mem_cons_of_mem _ hx)) (by simpa) h v hv]
      by_cases hvl : v ∈ l
      · simp [hvl]
      · by_cases ev : v = p
        · subst ev; simp [hvl, hb, hv]
        · simp [hvl, ev, List.getElem?_set_ne (Ne.symm ev)]
  intro v hv
  rw [key starts _ b hs (by simp) h v hv]
  by_cases hm : v ∈ starts <;> simp [hm, hv]

omit hp [IsStrictOrderedRing K] in
theorem localSource_spec {n : Nat} (hI : n ≤ INT_MAX) {f : Nat → R} : ∀ (starts : List Nat),
    (∀ p ∈ starts, p < n) → (∀ p ∈ starts, Arith.lt (f p) Arith.zero = false) → ∀ (ls : List R), ls.length = n →
      ∀ v : Nat, (setupLocalSource ls (starts.map fun p : Nat => ((p : Int), f p))).1[v]? =
        if v ∈ starts then some (f v) else ls[v]?
  | [], _, _, ls, hl => by simp [setupLocalSource]
  | p :: starts, hp, hn, ls, hl => by
    have hpn := hp p List.mem_cons_self
    intro v
    have := localSource_spec hI starts (fun x hx => hp x (List.mem_cons_of_mem _ hx))
      (fun x hx => hn x (List.mem_cons_of_mem _ hx)) (ls.set p (f p)) (by simpa) v
    rw [List.map_cons]
    unfold setupLocalSource
    simp only [hn p List.mem_cons_self, Bool.false_eq_true, if_false, sizeOfInt_nat hpn hI, wr_ok (show p < ls.length by omega)]
    rw [this]
    by_cases hvl : v ∈ starts
    · simp [hvl]
    · by_cases ev : v = p
      · subst ev; simp [hvl, hl, hpn]
      · simp [hvl, ev, List.getElem?_set_ne (Ne.symm ev)]

omit hp [IsStrictOrderedRing K] in
theorem sourceArray_spec {d : SolverData R} {n : Nat} (hpv : d.pv.length = n) {b : List Bool}
    (h : setupStartArrayFromSource d (List.replicate n false) = .ok b) :
    ∀ v < n, ∃ x, d.sourceTerm[v]? = some x ∧ b[v]? = some (Arith.lt Arith.zero x) := by
  unfold setupStartArrayFromSource at h
  rw [hpv] at h
  have key : ∀ (k : Nat), k ≤ n → ∀ b : List Bool, forEach (List.range k) (List.replicate n false) (fun (b : List Bool) cell => do
      let x ← rd d.sourceTerm cell
      if Arith.lt Arith.zero x then wr b cell true else pure b) = .ok b →
      b.length = n ∧ (∀ v < k, ∃ x, d.sourceTerm[v]? = some x ∧ b[v]? = some (Arith.lt Arith.zero x)) ∧
        ∀ v < n, k ≤ v → b[v]? = some false := by
    intro k
    induction k with
    | zero =>
      intro _ b h
      cases h
      refine ⟨by simp, by simp, ?_⟩
      intro v hv _
      simp [hv]
    | succ k ih =>
      intro hk b h
      rw [List.range_succ, forEach_append] at h
      obtain ⟨b1, h1, h2⟩ := Res.bind_ok_iff.mp h
      obtain ⟨g1, g2, g3⟩ := ih (by omega) b1 h1
      rw [forEach_cons] at h2
      obtain ⟨b2, h2, h3⟩ := Res.bind_ok_iff.mp h2
      cases h3
      simp only [Res.bind_eq, Res.pure_eq] at h2
      obtain ⟨x, hx, h2⟩ := Res.bind_ok_iff.mp h2
      rw [rd_eq_ok_iff] at hx
      by_cases hlt : Arith.lt Arith.zero x = true
      · rw [if_pos hlt, wr_eq_ok_iff] at h2
        obtain ⟨hkl, rfl⟩ := h2
        refine ⟨by simpa, ?_, ?_⟩
        · intro v hv
          by_cases e : v = k
          · subst e
            exact ⟨x, hx, by rw [List.getElem?_set_self hkl, hlt]⟩
          · obtain ⟨y, hy1, hy2⟩ := g2 v (by omega)
            exact ⟨y, hy1, by rw [List.getElem?_set_ne (Ne.symm e)]; exact hy2⟩
        · intro v hv hkv
          rw [List.getElem?_set_ne (by omega)]
          exact g3 v hv (by omega)
      · rw [if_neg hlt] at h2
        cases h2
        refine ⟨g1, ?_, fun v hv hkv => g3 v hv (by omega)⟩
        intro v hv
        by_cases e : v = k
        · subst e
          refine ⟨x, hx, ?_⟩
          rw [g3 v (by omega) le_rfl]
          simpa using hlt
        · exact g2 v (by omega)
  exact (key n le_rfl b h).2.1

/-! ### Solves -/

/-- `solveGlobal()`: each time of flight is close to the exact one. -/
theorem global_accuracy {d : SolverData R} {F : Flow K} {M : Nat} (hA : Approx ρ q d F M) (hM : q ^ (2 * M + 2) * 200 < 201)
    (hm : ∀ v < F.n, Moderate F v) (hG : GraphPair d F.n) (hE : ∀ u v, Verif.Spec.Edge d F.n u v ↔ F.Edge u v) (hF : F.Valid)
    {c τ : Nat → K} (hf : Facts F (· < F.n) (fun v => 0 < F.src v) F.src τ c) (hcle : ∀ v < F.n, c v ≤ 1)
    (hcmin : ∀ v < F.n, 0 < c v → 1 ≤ c v * 2 ^ 300) (htmin : ∀ v < F.n, 0 < τ v → 1 ≤ τ v * 2 ^ 300)
    {depth : Nat → Nat} (hd : ∀ u v, F.Edge u v → depth u < depth v) (hd100 : ∀ v < F.n, depth v ≤ 2 ^ 100)
    (hdq : ∀ v < F.n, q ^ expT M (depth v) ≤ 2)
    {fuel : Nat} (hfuel : F.n + numEdges F.n d.g.startPointers ≤ fuel) {st : SolverState R} {l : List R}
    (h : (solveGlobal d Alloc.good fuel st).2 = .ok l) :
    ∀ v < F.n, ∃ t, l[v]? = some t ∧ Near ρ q (expT M (depth v)) t (min (τ v) cap) := by
  have hI := hA.int
  have hEeq : Verif.Spec.Edge d F.n = F.Edge := by funext u v; exact propext (hE u v)
  have hacy := acyclic_of_depth hd
  have hacy' : ∀ v, ¬ Relation.TransGen (Verif.Spec.Edge d F.n) v v := by rw [hEeq]; exact hacy
  obtain ⟨comps, ht, _⟩ := computeOrdering_spec hG.graph hG.size Alloc.good_good
  have htop : TopologicalOrder (Verif.Spec.Edge d F.n) (· < F.n) comps.flatten := topologicalOrder_of_topo ht hacy'
  obtain ⟨starts, s, h1, h2, h3⟩ := global_visit hG hacy' htop hfuel h
  have hsp := sourceArray_spec hG.pv h1
  have hst : ∀ v, v < F.n → 0 < F.src v → 0 < F.src v := fun _ _ h => h
  have he := cellEqs_of_facts (inj := fun v => if v < F.n then F.src v else 0) (V := (· < F.n)) (c := c) (τ := τ)
    (start := fun v => 0 < F.src v) (F := F)
  have hf' : Facts F (· < F.n) (fun v => 0 < F.src v) (fun v => if v < F.n then F.src v else 0) τ c := by
    obtain ⟨a1, a2, a3, a4, a5, a6, a7, a8, a8', a9, a10, a11, a12, a12', a13⟩ := hf
    refine ⟨a1, a2, ?_, a4, ?_, ?_, ?_, ?_, ?_, a9, a10, a11, a12, a12', a13⟩
    · intro v hv hc
      obtain ⟨p, h1, h2, h3, h4⟩ := a3 v hv hc
      exact ⟨p, h1, h2, by simpa [h1] using h3, h4⟩
    · intro v hv hn hp
      exact a5 v hv hn (by simpa [hv] using hp)
    · intro v hv; simpa [hv] using a6 v hv
    · intro v hv; simpa [hv] using a7 v hv
    · intro v hv; simpa [hv] using a8 v hv
    · intro v hv; simpa [hv] using a8' v hv
  have he := he hf' hF (fun v hv => hv) hst (by
    intro v
    by_cases hv : v < F.n
    · simpa [hv] using hF.src_nonneg v hv
    · simp [hv]) hd hd100 hcle hcmin htmin
  have hb : ∀ v, v < F.n → ∃ b, starts[v]? = some b ∧ (b = false → (if v < F.n then F.src v else 0) = 0) ∧
      (b = true → 0 < F.src v ∧ ∃ a, d.sourceTerm[v]? = some a ∧ Near ρ q M a (if v < F.n then F.src v else 0)) := by
    intro v hv
    obtain ⟨x, hx1, hx2⟩ := hsp v hv
    obtain ⟨a, ha, hna⟩ := hA.source v hv
    rw [ha] at hx1
    cases hx1
    obtain ⟨y, hy, hyc⟩ := hna
    have hs0 := hF.src_nonneg v hv
    have hpos := hyc.pos_iff hp.one_le hs0
    refine ⟨_, hx2, ?_, ?_⟩
    · intro hb
      rw [ρ.lt, hy, val_zero' ρ] at hb
      simp only [X.lt, decide_eq_false_iff_not] at hb
      rw [if_pos hv]
      exact le_antisymm (not_lt.mp fun h => hb (hpos.mpr h)) hs0
    · intro hb
      rw [ρ.lt, hy, val_zero' ρ] at hb
      simp only [X.lt, decide_eq_true_eq] at hb
      rw [if_pos hv]
      exact ⟨hpos.mp hb, _, ha, y, hy, hyc⟩
  intro v hv
  obtain ⟨t, a, g1, g2, g3, g4⟩ := visit_accuracy hp hA hM hm (V := (· < F.n)) (fun v hv => hv) htop.once htop.cells
    (upwind_of_order hG (fun v hv => hv) htop) he hf.off hd hdq hb h2 _ v rfl hv
  refine ⟨Arith.min t maxTof, ?_, near_min hp g4⟩
  rw [h3, List.getElem?_map, g1]
  rfl

/-- The fields of `solveLocal()`: each time of flight and each concentration is close to the exact one. -/
theorem local_fields {d : SolverData R} {F : Flow K} {M : Nat} (hA : Approx ρ q d F M) (hM : q ^ (2 * M + 2) * 200 < 201)
    (hm : ∀ v < F.n, Moderate F v) (hG : GraphPair d F.n) (hF : F.Valid)
    {starts : List Nat} (hs : ∀ p ∈ starts, p < F.n) (hsrc : ∀ p ∈ starts, 0 < F.src p) {f : Nat → R} {ls : Nat → K}
    (hfl : ∀ p ∈ starts, Near ρ q M (f p) (ls p) ∧ 0 ≤ ls p)
    {c τ : Nat → K} (hf : Facts F (F.Downstream starts) (· ∈ starts) (injected starts ls) τ c) (hcle : ∀ v < F.n, c v ≤ 1)
    (hcmin : ∀ v, F.Downstream starts v → 0 < c v → 1 ≤ c v * 2 ^ 300)
    (htmin : ∀ v, F.Downstream starts v → 0 < τ v → 1 ≤ τ v * 2 ^ 300)
    {depth : Nat → Nat} (hd : ∀ u v, F.Edge u v → depth u < depth v) (hd100 : ∀ v < F.n, depth v ≤ 2 ^ 100)
    (hdq : ∀ v < F.n, q ^ expT M (depth v) ≤ 2) {seq : List Nat}
    (hseq : TopologicalOrder (Verif.Spec.Edge d F.n) (F.Downstream starts) seq) {isStart : List Bool} {s : List R × List R}
    (h1 : setupStartArray (List.replicate F.n false) (starts.map fun p : Nat => ((p : Int), f p)) = .ok isStart)
    (h2 : visitCells d isStart (setupLocalSource (List.replicate F.n Arith.zero) (starts.map fun p : Nat => ((p : Int), f p))).1
      F.n seq = .ok s) :
    ∀ v, F.Downstream starts v → ∃ t a, s.1[v]? = some t ∧ s.2[v]? = some a ∧ Near ρ q (expC M (depth v)) a (c v) ∧
      Near ρ q (expT M (depth v)) t (τ v) := by
  have hI := hA.int
  have hVn : ∀ v, F.Downstream starts v → v < F.n := fun v ⟨p, h1, h2⟩ => reach_lt (hs p h1) h2
  have hsp := startArray_spec hI hs h1
  have hlsp := localSource_spec hI (f := f) starts hs (by
    intro p hps
    obtain ⟨⟨y, hy, hyc⟩, h0⟩ := hfl p hps
    rw [ρ.lt, hy, val_zero' ρ]
    simp only [X.lt, decide_eq_false_iff_not, not_lt]
    exact hyc.nonneg hp.one_le h0) (List.replicate F.n Arith.zero) (by simp)
  have hinj : ∀ v, 0 ≤ injected starts ls v := by
    intro v
    unfold injected
    split
    · rename_i hv; exact (hfl v hv).2
    · exact le_rfl
  have he := cellEqs_of_facts hf hF hVn (fun v _ hv => hsrc v hv) hinj hd hd100 hcle hcmin htmin
  have hb : ∀ v, F.Downstream starts v → ∃ b, isStart[v]? = some b ∧ (b = false → injected starts ls v = 0) ∧
      (b = true → 0 < F.src v ∧ ∃ a, (setupLocalSource (List.replicate F.n Arith.zero)
        (starts.map fun p : Nat => ((p : Int), f p))).1[v]? = some a ∧ Near ρ q M a (injected starts ls v)) := by
    intro v hv
    refine ⟨_, hsp v (hVn v hv), ?_, ?_⟩
    · intro hb
      rw [decide_eq_false_iff_not] at hb
      unfold injected
      rw [if_neg hb]
    · intro hb
      rw [decide_eq_true_eq] at hb
      refine ⟨hsrc v hb, f v, by rw [hlsp v, if_pos hb], ?_⟩
      unfold injected
      rw [if_pos hb]
      exact (hfl v hb).1
  exact fun v hv => visit_accuracy hp hA hM hm hVn hseq.once hseq.cells (upwind_of_order hG hVn hseq) he hf.off hd hdq hb h2 _ v rfl hv

/-- `solveLocal()`: each time of flight and each concentration is close to the exact one. -/
theorem local_accuracy {d : SolverData R} {F : Flow K} {M : Nat} (hA : Approx ρ q d F M) (hM : q ^ (2 * M + 2) * 200 < 201)
    (hm : ∀ v < F.n, Moderate F v) (hG : GraphPair d F.n) (hE : ∀ u v, Verif.Spec.Edge d F.n u v ↔ F.Edge u v) (hF : F.Valid)
    {starts : List Nat} (hs : ∀ p ∈ starts, p < F.n) (hsrc : ∀ p ∈ starts, 0 < F.src p) {f : Nat → R} {ls : Nat → K}
    (hfl : ∀ p ∈ starts, Near ρ q M (f p) (ls p) ∧ 0 ≤ ls p)
    {c τ : Nat → K} (hf : Facts F (F.Downstream starts) (· ∈ starts) (injected starts ls) τ c) (hcle : ∀ v < F.n, c v ≤ 1)
    (hcmin : ∀ v, F.Downstream starts v → 0 < c v → 1 ≤ c v * 2 ^ 300)
    (htmin : ∀ v, F.Downstream starts v → 0 < τ v → 1 ≤ τ v * 2 ^ 300)
    {depth : Nat → Nat} (hd : ∀ u v, F.Edge u v → depth u < depth v) (hd100 : ∀ v < F.n, depth v ≤ 2 ^ 100)
    (hdq : ∀ v < F.n, q ^ expT M (depth v) ≤ 2)
    {fuel : Nat} (hfuel : F.n + numEdges F.n d.g.startPointers ≤ fuel) {st : SolverState R} (hl : st.localSource.length = F.n)
    {sol : LocalSolution R} (h : (solveLocal d Alloc.good fuel (starts.map fun p : Nat => ((p : Int), f p)) st).2 = .ok sol) :
    (∀ v, F.Downstream starts v → ∃ t a, sol.tof.find (v : Int) = some t ∧ sol.concentration.find (v : Int) = some a ∧
      Near ρ q (expT M (depth v)) t (min (τ v) cap) ∧ Near ρ q (expC M (depth v)) a (c v)) ∧
    ∀ v : Nat, ¬ F.Downstream starts v → sol.tof.find (v : Int) = none ∧ sol.concentration.find (v : Int) = none := by
  have hEeq : Verif.Spec.Edge d F.n = F.Edge := by funext u v; exact propext (hE u v)
  have hacy := acyclic_of_depth hd
  have hacy' : ∀ v, ¬ Relation.TransGen (Verif.Spec.Edge d F.n) v v := by rw [hEeq]; exact hacy
  obtain ⟨comps, ht, _⟩ := computeLocalOrdering_spec hG.graph hG.size Alloc.good_good starts hs
  have htop := topologicalOrder_of_topo ht hacy'
  have htop' : TopologicalOrder (Verif.Spec.Edge d F.n) (F.Downstream starts) comps.flatten := by
    refine ⟨htop.once, fun v => (htop.cells v).trans ?_, htop.order⟩
    show (∃ p ∈ starts, Relation.ReflTransGen (Verif.Spec.Edge d F.n) p v) ↔ _
    rw [hEeq]
    rfl
  obtain ⟨isStart, s, h1, h2, h3⟩ := local_visit hG hacy' (by simp [List.map_map, Function.comp_def]) hs htop hfuel hl h
  have hfin := local_fields hp hA hM hm hG hF hs hsrc hfl hf hcle hcmin htmin hd hd100 hdq htop' h1 h2
  constructor
  · intro v hv
    obtain ⟨t, a, g1, g2, g3, g4⟩ := hfin v hv
    obtain ⟨k1, k2⟩ := h3 v
    rw [if_pos ((htop'.cells v).mpr hv)] at k1 k2
    refine ⟨_, a, by rw [k1, g1]; rfl, by rw [k2, g2], near_min hp g4, g3⟩
  · intro v hv
    obtain ⟨k1, k2⟩ := h3 v
    rw [if_neg fun h => hv ((htop'.cells v).mp h)] at k1 k2
    exact ⟨k1, k2⟩

end Verif.Rounding
