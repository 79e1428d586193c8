/-
Times of flight are not shorter than the time to fill a cell, in arithmetic with rounding.
-/
import Verif.Proofs.SlackTimeLocal

namespace Verif.Rounding
open Finset Verif.Spec Verif.Solver Verif.Toolbox Verif.Tarjan

variable {R : Type} [Arith R] {K : Type} [Field K] [LinearOrder K] [IsStrictOrderedRing K] {ρ : Rounded R K} {q : K}

omit [Field K] [IsStrictOrderedRing K] in
theorem fin_le_fin {x y : K} : X.le (X.fin x) (X.fin y) = true ↔ x ≤ y := by
  simp only [X.le, X.lt, X.eq, Bool.or_eq_true, decide_eq_true_eq]
  exact le_iff_lt_or_eq.symm

/-- A larger number over the same positive number. -/
theorem div_add_ge {a b c : R} {m D y z : K} (ha : ρ.val a = X.fin m) (hc : ρ.val c = X.fin D) (hD : 0 < D)
    (hb : NotNegative b) (hbn : Num ρ b) (hz : ρ.val (Arith.div a c) = X.fin z)
    (hy : ρ.val (Arith.div (Arith.add a b) c) = X.fin y) : z ≤ y := by
  have hc0 : ρ.val c ≠ X.fin 0 := by rw [hc]; simpa using hD.ne'
  have h1 : X.le (X.fin m) (ρ.val (Arith.add a b)) = true := by
    rw [ρ.add, ← ha, ← ρ.rnd_val a, ha]
    apply ρ.rnd_mono
    rw [← ha, ρ.rnd_val a, ha]
    rw [notNegative_iff ρ] at hb
    unfold Num at hbn
    cases e : ρ.val b with
    | fin u =>
      rw [e] at hb
      simp only [X.lt, decide_eq_false_iff_not, not_lt] at hb
      exact fin_le_fin.mpr (le_add_of_nonneg_right hb)
    | pinf => simp [X.le, X.add, X.lt]
    | ninf => rw [e] at hb; simp [X.lt] at hb
    | nan => exact absurd e hbn
  have h2 : X.le (X.fin z) (X.fin y) = true := by
    rw [← hz, ← hy, ρ.div _ _ hc0, ρ.div _ _ hc0]
    apply ρ.rnd_mono
    rw [ha, hc]
    cases e : ρ.val (Arith.add a b) with
    | fin n =>
      rw [e] at h1
      rw [fin_le_fin] at h1
      simp only [X.div, hD.ne', if_false]
      rw [fin_le_fin]
      exact div_le_div_of_nonneg_right h1 hD.le
    | pinf => simp [X.div, hD.ne', hD.le, X.le, X.lt]
    | ninf => rw [e] at h1; simp [X.le, X.lt, X.eq] at h1
    | nan => rw [e] at h1; simp [X.le, X.lt, X.eq] at h1
  exact fin_le_fin.mp h2

/-- The time of flight computed in one visit, if it is below 200 years and the concentration is not tiny. -/
theorem cell_fill (hp : Precise ρ q) {d : SolverData R} {F : Flow K} {M : Nat} (hA : Approx ρ q d F M)
    (hq2 : q ^ (4 * M + 6) ≤ 2) {v : Nat} (hv : v < F.n) (hm : Sized F v) {isStart : List Bool} {ls : List R} {b : Bool}
    (hb : isStart[v]? = some b) (hb1 : b = true → 0 < F.src v) {s : List R × List R} (hs : Clocked ρ F.n s)
    {p : R × R} (h : cellVals d isStart ls s v = .ok p) {x y : K} (hx : ρ.val p.2 = X.fin x) (hx1 : x ≤ 1) (hx2 : 1 ≤ x * 2 ^ 300)
    (hy : ρ.val p.1 = X.fin y) (hy0 : 0 ≤ y) (hyc : y < cap) :
    F.pv v ≤ F.total v * y * q ^ (2 * M + 4) := by
  have hq := hp.one_le
  have hle : ∀ {i : Nat}, i ≤ 4 * M + 6 → q ^ i ≤ 2 := fun hi => (pow_le_pow_right₀ hq hi).trans hq2
  have hxp : 0 < x := by
    by_contra hn
    exact absurd (hx2.trans (mul_nonpos_of_nonpos_of_nonneg (not_lt.mp hn) (two_pow_pos' (K := K) 300).le)) (not_le.mpr one_pos)
  have hsz : sizeOfInt (v : Int) = v := by
    have := hA.int
    rw [sizeOfInt_nonneg (by omega) (by omega)]; simp
  obtain ⟨l, hrow, hlen, hl, hsum⟩ := hA.row v hv
  obtain ⟨ai, hai, hni⟩ := hA.influx v hv
  obtain ⟨as, has, hns⟩ := hA.source v hv
  obtain ⟨ap, hap, hnp⟩ := hA.pv v hv
  unfold cellVals at h
  simp only [Res.bind_eq, Res.pure_eq, hsz, rd_of_getElem? hai, rd_of_getElem? has, rd_of_getElem? hap, rd_of_getElem? hb,
    hrow, Res.ok_bind] at h
  obtain ⟨up, hup', h⟩ := Res.bind_ok_iff.mp h
  obtain ⟨contrib, _, h⟩ := Res.bind_ok_iff.mp h
  obtain ⟨_, _, h⟩ := Res.bind_ok_iff.mp h
  obtain ⟨_, _, h⟩ := Res.bind_ok_iff.mp h
  obtain ⟨c', hc', h⟩ := Res.bind_ok_iff.mp h
  cases h
  have hw : ∀ e ∈ l.map (fun p => ((p.1 : Int), p.2)), Fin ρ e.2 ∧ Pos ρ e.2 := by
    intro e he
    obtain ⟨p, hpl, rfl⟩ := List.mem_map.mp he
    obtain ⟨h1, ⟨z, hz, hzc⟩, _⟩ := hl p hpl
    have := (hzc.pos_iff hq h1.2.2.le).mpr h1.2.2
    exact ⟨⟨z, hz⟩, by unfold Pos; rw [hz]; simpa [X.lt] using this⟩
  have hupn : Num ρ up.1 := upwind_num ρ hs.1.proper hs.2.2.1 hw (a := (Arith.zero, Arith.zero))
    (by unfold Num; rw [val_zero' ρ]; simp) (zero_notNegative ρ) hup'
  have hupp : NotNegative up.1 := (upwind_bounds ρ hs.1.proper.bounded (fun e he => (hw e he).2.notNegative) (a := (Arith.zero, Arith.zero))
    (w := Arith.zero) (zero_notNegative ρ) (zero_notNegative ρ) (zero_notNegative ρ) hup').1
  have ht0 := hm.total.nonneg
  have hcs : cellSource as b = as := by
    unfold cellSource
    cases b with
    | false => simp
    | true =>
      obtain ⟨x, hx, hxc⟩ := hns
      have hne : x ≠ 0 := ((hxc.pos_iff hq (hb1 rfl).le).mpr (hb1 rfl)).ne'
      rw [ρ.eq, hx, val_zero' ρ]
      simp [X.eq, hne]
  rw [hcs] at hc' hy
  have htot : Near ρ q (2 * M + 1) (Arith.add ai as) (F.total v) :=
    near_add hp (hle (by omega)) hni (hns.mono hp hm.src.nonneg (by omega)) (hm.total.mono (by omega))
  have htp : 0 < F.total v := by
    rcases ht0.eq_or_lt with e | e
    · exfalso
      obtain ⟨z, hz, hzc⟩ := htot
      have : z = 0 := (hzc.zero_iff hq ht0).mpr e.symm
      unfold cellTracer at hc'
      rw [if_pos (by rw [ρ.eq, hz, this, val_zero' ρ]; simp [X.eq])] at hc'
      obtain ⟨_, _, hc'⟩ := Res.bind_ok_iff.mp hc'
      cases hc'
      rw [val_zero' ρ] at hx
      cases hx
      exact _root_.lt_irrefl _ hxp
    · exact e
  have ht1 : 1 ≤ F.total v * 2 ^ 100 := by
    rcases hm.total with h1 | h1
    · exact absurd h1 htp.ne'
    · exact h1.1
  have hcapv : ρ.val (maxTof : R) = X.fin cap := hp.cap
  have hpos : Arith.lt Arith.zero c' = true := by
    have hx : ρ.val c' = X.fin x := hx
    rw [ρ.lt, hx, val_zero' ρ]; simpa [X.lt] using hxp
  have hy : ρ.val (cellTof ap (Arith.add ai as) c' up.1) = X.fin y := hy
  simp only [cellTof, if_pos hpos] at hy
  split at hy
  · exfalso
    rw [hcapv] at hy
    cases hy
    exact _root_.lt_irrefl _ hyc
  have hpv0 := hm.pv.nonneg
  have hqp : 0 ≤ q ^ (2 * M + 4) := (pow_pos' hq _).le
  rcases hm.pv with hpv | ⟨hpv1, hpv2⟩
  · rw [hpv]
    exact mul_nonneg (mul_nonneg ht0 hy0) hqp
  have hpvp : 0 < F.pv v := by
    by_contra hn
    exact absurd (hpv1.trans (mul_nonpos_of_nonpos_of_nonneg (not_lt.mp hn) (two_pow_pos' (K := K) 100).le)) (not_le.mpr one_pos)
  have hxn : Near ρ q 0 c' x := near_exact hx
  have hr : ∀ {a : K}, 0 ≤ a → 1 ≤ a * 2 ^ 100 → a ≤ 2 ^ 100 → Range 1000 (a * x) := by
    intro a ha0 ha1 ha2
    refine Or.inr ⟨?_, ?_⟩
    · have h1 : 1 ≤ (a * 2 ^ 100) * (x * 2 ^ 300) := one_le_mul_of_one_le_of_one_le ha1 hx2
      have h2 : (a * 2 ^ 100) * (x * 2 ^ 300) = a * x * 2 ^ 400 := by
        rw [show (400 : ℕ) = 100 + 300 by norm_num, pow_add]; ring
      rw [h2] at h1
      exact h1.trans (mul_le_mul_of_nonneg_left (pow_le_pow_right₀ one_le_two (by norm_num)) (mul_nonneg ha0 hxp.le))
    · calc a * x ≤ a * 1 := mul_le_mul_of_nonneg_left hx1 ha0
        _ ≤ 2 ^ 100 := by rw [mul_one]; exact ha2
        _ ≤ _ := pow_le_pow_right₀ one_le_two (by norm_num)
  have hn : Near ρ q 1 (Arith.mul ap c') (F.pv v * x) :=
    near_mul hp (k := 0) (l := 0) (hle (by omega)) hnp hxn hpv0 hxp.le (hr hpv0 hpv1 hpv2)
  have hd : Near ρ q (2 * M + 2) (Arith.mul (Arith.add ai as) c') (F.total v * x) :=
    near_mul hp (k := 2 * M + 1) (l := 0) (hle (by omega)) htot hxn ht0 hxp.le (hr ht0 ht1 hm.total.le)
  have hdp : 0 < F.total v * x := mul_pos htp hxp
  have hquot : F.pv v * x / (F.total v * x) = F.pv v / F.total v := mul_div_mul_right _ _ hxp.ne'
  have hdiv := near_div hp (k := 1) (l := 2 * M + 2) (hle (by omega)) hn hd (mul_nonneg hpv0 hxp.le) hdp (by
    rw [hquot]
    have h200 : (2 : K) ^ 200 ≤ 2 ^ 1000 := pow_le_pow_right₀ one_le_two (by norm_num)
    have he : (2 : K) ^ 200 = 2 ^ 100 * 2 ^ 100 := by rw [← pow_add]
    refine Or.inr ⟨?_, ?_⟩
    · rw [div_mul_eq_mul_div, le_div_iff₀ htp, one_mul]
      calc F.total v ≤ 2 ^ 100 := hm.total.le
        _ ≤ (F.pv v * 2 ^ 100) * 2 ^ 100 := le_mul_of_one_le_left (by positivity) hpv1
        _ = F.pv v * 2 ^ 200 := by rw [he]; ring
        _ ≤ _ := mul_le_mul_of_nonneg_left h200 hpv0
    · rw [div_le_iff₀ htp]
      calc F.pv v ≤ 2 ^ 100 := hpv2
        _ ≤ 2 ^ 100 * (F.total v * 2 ^ 100) := le_mul_of_one_le_right (by positivity) ht1
        _ = 2 ^ 200 * F.total v := by rw [he]; ring
        _ ≤ _ := mul_le_mul_of_nonneg_right h200 ht0)
  rw [hquot] at hdiv
  obtain ⟨z, hz, hzc⟩ := hdiv
  obtain ⟨m, hm', _⟩ := hn
  obtain ⟨D, hD, hDc⟩ := hd
  have hzy : z ≤ y := div_add_ge hm' hD ((hDc.pos_iff hq hdp.le).mpr hdp) hupp hupn hz hy
  have h1 : F.pv v / F.total v ≤ y * q ^ (2 * M + 4) := by
    have := hzc.1
    rw [show 1 + (2 * M + 2) + 1 = 2 * M + 4 by omega] at this
    exact this.trans (mul_le_mul_of_nonneg_right hzy hqp)
  rw [div_le_iff₀ htp] at h1
  calc F.pv v ≤ y * q ^ (2 * M + 4) * F.total v := h1
    _ = _ := by ring

/-- The time of flight of a cell that the solver returns, if the concentration is not tiny. -/
theorem settled_fill (hp : Precise ρ q) {d : SolverData R} {F : Flow K} {M : Nat} (hA : Approx ρ q d F M)
    (hq2 : q ^ (4 * M + 6) ≤ 2) {v : Nat} (hv : v < F.n) (hm : Sized F v) {isStart : List Bool} {ls : List R} {b : Bool}
    (hb : isStart[v]? = some b) (hb1 : b = true → 0 < F.src v) {E : Nat → Nat → Prop} {z s : List R × List R} {C : List Nat}
    (hrs : Clocked ρ F.n s) (hset : Settled d isStart ls (Clocked ρ F.n) E z C s v) (htiny : 1 ≤ numOf ρ s.2[v]? * 2 ^ 300) :
    numOf ρ (s.1.map fun t => Arith.min t maxTof)[v]? = cap ∨
      F.pv v ≤ F.total v * numOf ρ (s.1.map fun t => Arith.min t maxTof)[v]? * q ^ (2 * M + 4) := by
  obtain ⟨A, c, hA1, hc1, hcv, hc0, hcle⟩ := hrs.1.at hv
  simp only [List.getElem?_map, hA1, Option.map_some]
  have hcapv : ρ.val (maxTof : R) = X.fin cap := hp.cap
  have hAn := hrs.1.proper.bounded.tof A (List.mem_of_getElem? hA1)
  have hAN := (hrs.2.2.1 v A c hA1 hc1).1
  by_cases hcut : numOf ρ (some (Arith.min A maxTof)) < cap
  swap
  · left
    unfold Arith.min at hcut ⊢
    split at hcut
    · rw [if_pos (by assumption), numOf_some hcapv]
    · rename_i hlt
      rw [if_neg hlt]
      rw [ρ.lt, hcapv] at hlt
      rw [notNegative_iff ρ] at hAn
      cases e : ρ.val A with
      | fin y =>
        rw [numOf_some e] at hcut ⊢
        rw [e] at hlt
        simp only [X.lt, decide_eq_true_eq] at hlt
        exact le_antisymm (not_lt.mp hlt) (not_lt.mp hcut)
      | pinf => rw [e] at hlt; simp [X.lt] at hlt
      | ninf => rw [e] at hAn; simp [X.lt] at hAn
      | nan => exact absurd e hAN
  right
  obtain ⟨e, y, hy, hy0, _⟩ := below_cap hp.cap hAn hAN hcut le_rfl
  rw [e, numOf_some hy] at hcut ⊢
  obtain ⟨t, p, hQt, hcell, hat, _⟩ := hset
  have e1 : s.1[v]? = some p.1 := congrArg Prod.fst hat
  have e2 : s.2[v]? = some p.2 := congrArg Prod.snd hat
  rw [hA1] at e1
  rw [hc1] at e2
  cases e1
  cases e2
  exact cell_fill hp hA hq2 hv hm hb hb1 hQt hcell hcv hcle htiny hy hy0 hcut

/-- `solveLocal()`: a time of flight is 200 years or not shorter than the time to fill the cell, unless the concentration is tiny. -/
theorem local_fill (hp : Precise ρ q) (hGr : Gradual ρ)
    {d : SolverData R}
    {F : Flow K} {M : Nat} (hA : Approx ρ q d F M) (hq2 : q ^ (4 * M + 6) ≤ 2)
    (hm : ∀ v < F.n, Sized F v) (hG : GraphPair d F.n) (hE : ∀ u v, Verif.Spec.Edge d F.n u v ↔ F.Edge u v)
    (hfit : Fits d F.n) (hflow : FiniteFlow ρ d F.n) (hrows : PositiveRows ρ d F.n) (hpvn : ∀ x ∈ d.pv, Num ρ x)
    {starts : List Nat} (hs : ∀ p ∈ starts, p < F.n)
    (hsrc : ∀ p ∈ starts, 0 < F.src p) {f : Nat → R} {ls : Nat → K}
    (hfl : ∀ p ∈ starts, Near ρ q M (f p) (ls p) ∧ 0 ≤ ls p ∧ ls p ≤ F.src p)
    (hle : ∀ p ∈ starts, ∀ s, d.sourceTerm[p]? = some s → NotNegative (f p) ∧ Arith.lt s (f p) = false)
    {fuel : Nat} (hf : F.n + numEdges F.n d.g.startPointers ≤ fuel) {st : SolverState R} (hl : st.localSource.length = F.n)
    {sol : LocalSolution R} (h : (solveLocal d Alloc.good fuel (starts.map fun p : Nat => ((p : Int), f p)) st).2 = .ok sol)
    {v : Nat} (hd : F.Downstream starts v) (htiny : 1 ≤ numOf ρ (sol.concentration.find (v : Int)) * 2 ^ 300) :
    numOf ρ (sol.tof.find (v : Int)) = cap ∨ F.pv v ≤ F.total v * numOf ρ (sol.tof.find (v : Int)) * q ^ (2 * M + 4) := by
  classical
  have hq := hp.one_le
  have hq1 : q ≤ 2 := by
    have : q ^ 1 ≤ q ^ (4 * M + 6) := pow_le_pow_right₀ hq (by omega)
    rw [pow_one] at this
    exact this.trans hq2
  have hI := hfit.int
  have hEeq : Verif.Spec.Edge d F.n = F.Edge := by funext u v; exact propext (hE u v)
  obtain ⟨comps, b, out, ht, hb, hu, ho, hfind⟩ := local_solve hG (by simp [List.map_map, Function.comp_def]) hs hf hl h
  have hEdge : HasEdge F.n d.g.startPointers d.g.neighbourhood = F.Edge := hEeq
  have hV : ∀ v, (∃ p ∈ starts, Reachable F.n d.g.startPointers d.g.neighbourhood p v) ↔ F.Downstream starts v := by
    intro v
    show (∃ p ∈ starts, Relation.ReflTransGen (HasEdge F.n d.g.startPointers d.g.neighbourhood) p v) ↔ _
    rw [hEdge]
    rfl
  have hReach : ∀ u v, Reachable F.n d.g.startPointers d.g.neighbourhood u v ↔ F.Reach u v := by
    intro u v
    show Relation.ReflTransGen (HasEdge F.n d.g.startPointers d.g.neighbourhood) u v ↔ _
    rw [hEdge]
    rfl
  have hVn : ∀ v, F.Downstream starts v → v < F.n := by
    intro v hv
    obtain ⟨p, hps, hr⟩ := (hV v).mpr hv
    exact reachable_lt hG.graph (hs p hps) hr
  have hbs := startArray_spec hI hs hb
  have hlsp := localSource_spec hI starts hs (f := f) (by
    intro p hpm
    obtain ⟨⟨y, hy, hyc⟩, h0, _⟩ := hfl p hpm
    rw [ρ.lt, hy, val_zero' ρ]
    simpa [X.lt] using hyc.nonneg hq h0) (List.replicate F.n Arith.zero) (by simp)
  set lsl := (setupLocalSource (List.replicate F.n Arith.zero) (starts.map fun p : Nat => ((p : Int), f p))).1 with hlsl
  have hstart : ∀ v x, b[v]? = some true → lsl[v]? = some x → v ∈ starts ∧ x = f v := by
    intro v x hbv hx
    have hvn : v < F.n := by
      by_contra hc
      have h1 := hlsp v
      have : v ∉ starts := fun hm => hc (hs v hm)
      rw [if_neg this, hx, List.getElem?_replicate, if_neg hc] at h1
      cases h1
    have h1 := hbs v hvn
    rw [hbv] at h1
    have hvs : v ∈ starts := by simpa using h1
    have h2 := hlsp v
    rw [if_pos hvs, hx] at h2
    exact ⟨hvs, by simpa using h2⟩
  have hlf : LocalFits d b lsl := by
    intro v l s hbv hlv hsv
    obtain ⟨hvs, rfl⟩ := hstart v l hbv hlv
    exact hle v hvs s hsv
  have hln : ∀ (v : Nat) (l : R), b[v]? = some true → lsl[v]? = some l → Num ρ l := by
    intro v l hbv hlv
    obtain ⟨hvs, rfl⟩ := hstart v l hbv hlv
    obtain ⟨⟨y, hy, _⟩, _⟩ := hfl v hvs
    unfold Num; rw [hy]; simp
  obtain ⟨s, hout, hrs, hz, hset⟩ := solve_settled ρ ht (Q := Clocked ρ F.n) (b := b) (d := d) (ls := lsl)
    (fun v hv => by
      have := hVn v ((hV v).mp hv)
      omega) (huge_tol hp hq1) (by
      intro s s' v hv hs' hstep
      have hvn := hVn v ((hV v).mp hv)
      have hso := single_sound ρ hGr hfit hflow hrows hpvn hlf hln hs'.2 ⟨by omega, by exact_mod_cast hvn⟩ hstep
      refine ⟨⟨hso.1, ?_, ?_⟩, hso⟩
      all_goals
        obtain ⟨p, _, _, _, rfl⟩ := single_ok_iff.mp hstep
        simp [hs'.1.tofLen, hs'.1.tracerLen])
    ⟨⟨initial_proper ρ F.n, by simp, by simp⟩, initial_sound ρ F.n⟩ ho
  have hmem : ∀ v, v ∈ comps.flatten ↔ F.Downstream starts v := fun v => (ht.cover v).trans (hV v)
  have hoff : ∀ u < F.n, ¬ F.Downstream starts u → s.1[u]? = some Arith.zero ∧ s.2[u]? = some Arith.zero := by
    intro u hu hn
    have e := hz u fun hc => hn ((hV u).mp hc)
    have e1 : s.1[u]? = (List.replicate F.n (Arith.zero : R))[u]? := congrArg Prod.fst e
    have e2 : s.2[u]? = (List.replicate F.n (Arith.zero : R))[u]? := congrArg Prod.snd e
    rw [e1, e2, List.getElem?_replicate, if_pos hu]
    exact ⟨rfl, rfl⟩
  have hv := hVn v hd
  have hd' := (hmem v).mpr hd
  obtain ⟨C, hC, hvC⟩ := List.mem_flatten.mp hd'
  have hconc : numOf ρ (sol.concentration.find (v : Int)) = numOf ρ s.2[v]? := by rw [(hfind v).2, hout, if_pos hd']
  rw [hconc] at htiny
  rw [(hfind v).1, if_pos hd', hout]
  exact settled_fill hp hA hq2 hv (hm v hv) (hbs v hv) (fun hy => hsrc v (by simpa using hy)) hrs (hset C hC v hvC) htiny

variable {D : List (Int × Int × R)} {pv : List R} {l : List (CellSetID × Int × R)} {F : Flow K}
  {DK : List (Nat × Nat × K)} {wells : List (WellFlux K)} {cs : WellFlux K → List Nat} {f : WellFlux K → Nat → K} {M : Nat}

/-- Times of flight of a well that a computation returns. -/
theorem computeSolution_fill (hp : Precise ρ q) (hGr : Gradual ρ)
    (hM : q ^ (2 * M + 2) * 200 < 201) (hq2 : q ^ (4 * M + 6) ≤ 2)
    (h : Inputs ρ D pv l F DK wells cs f M)
    (hm : ∀ v < F.n, Sized F v) {starts : List CellSet} {sol : Solution R} {fuel : Nat}
    (hfuel : F.n + numEdges F.n (graphsOf F.n D).1.startPointers ≤ fuel)
    (hs : computeSolution (graphsOf F.n D).1 (graphsOf F.n D).2 pv (gather l).only (gather l).byId noFailure fuel starts = .ok sol)
    {w : WellFlux K} (hw : w ∈ wells) (hask : ∃ s ∈ starts, s.id = w.id)
    {v : Nat} (hd : F.Downstream (cs w) v) (htiny : 1 ≤ numOf ρ ((sol.concentration w.id).find (v : Int)) * 2 ^ 300) :
    numOf ρ ((sol.timeOfFlightOf w.id).find (v : Int)) = cap ∨
      F.pv v ≤ F.total v * numOf ρ ((sol.timeOfFlightOf w.id).find (v : Int)) * q ^ (2 * M + 4) := by
  have hI := h.valid.int
  obtain ⟨hpl, hpn, hpg⟩ := h.nonneg_pv
  have hl : ∀ e ∈ l, 0 ≤ e.2.1 ∧ e.2.1 < F.n := fun e he => (h.nonneg_l e he).1
  have hln : ∀ e ∈ l, NotNegative e.2.2 := fun e he => (h.nonneg_l e he).2
  obtain ⟨d, st, tof, h1, h2, h3, rfl⟩ := (computeSolution_ok_iff (a := Alloc.good)).mp hs
  obtain ⟨hfit, hg, hsrcv, _⟩ := create_fits ρ hI h.range_D (fun c hc => (h.pos_D c hc).notNegative) hpl hpn hl hln h1
  obtain ⟨hA, hG, hE, hg, hls⟩ := h.solver hp hM hm h1
  rw [← hg] at hfuel
  have hdpv : d.pv = pv ∧ d.gReverse = (graphsOf F.n D).2 := by
    unfold Solver.create at h1
    simp only [Res.bind_eq, Res.pure_eq, Res.bind_ok_iff] at h1
    obtain ⟨_, _, _, _, e⟩ := h1
    cases e
    exact ⟨rfl, rfl⟩
  have hrows : PositiveRows ρ d F.n := by
    intro v hv nb hnb
    rw [hdpv.2, (graphsOf_rows hI h.range_D).2 v hv] at hnb
    cases hnb
    exact rowOfFlow_pos ρ (swapEnds_pos ρ h.pos_D) v
  obtain ⟨r1, r2, r3, _, _⟩ := recordAll_spec (okOf d st Alloc.good fuel (gather l).byId) (starts.map CellSet.id)
    ({ tof := tof } : Solution R)
  obtain ⟨s, hss, ew⟩ := hask
  obtain ⟨x, hx⟩ := h3 s hss
  rw [ew] at hx
  have hi' : w.id ∈ starts.map CellSet.id := List.mem_map.mpr ⟨s, hss, ew⟩
  obtain ⟨fR, hfR, hval⟩ := stored_values h hw
  have hrun : (solveLocal d Alloc.good fuel ((cs w).map fun p : Nat => ((p : Int), fR p)) st).2 = .ok x := by
    rw [← hfR]; exact hx
  have hokx : okOf d st Alloc.good fuel (gather l).byId w.id = x := by
    unfold okOf; rw [hx]
  have hconc : (recordAll (okOf d st Alloc.good fuel (gather l).byId) (starts.map CellSet.id)
      ({ tof := tof } : Solution R)).concentration w.id = x.concentration := by
    unfold Solution.concentration Solution.solutionValues
    rw [r2, if_pos hi', hokx]
  have htof : (recordAll (okOf d st Alloc.good fuel (gather l).byId) (starts.map CellSet.id)
      ({ tof := tof } : Solution R)).timeOfFlightOf w.id = x.tof := by
    unfold Solution.timeOfFlightOf Solution.solutionValues
    rw [r3, if_pos hi', hokx]
  rw [hconc] at htiny
  rw [htof]
  refine local_fill (ls := f w) hp hGr hA hq2 hm hG hE hfit (finite_flow hp hM hA h.valid hm) hrows
    (by rw [hdpv.1]; exact h.num_pv) (h.side.range w hw)
    (fun p hp => (h.side.src_pos p).mpr ⟨w, hw, hp⟩) (fun p hpm => ?_) (fun p hpm v hv => ?_) hfuel hls hrun hd htiny
  · have h0 := (h.side.pos w hw p hpm).le
    exact ⟨(near_exact (hval p hpm)).mono hp h0 (Nat.zero_le _), h0, h.side.le_src hw hpm⟩
  · have he : ((p : Int), fR p) ∈ OMap.at_ (gather l).byId w.id [] := by
      rw [hfR]; exact List.mem_map.mpr ⟨p, hpm, rfl⟩
    refine ⟨hln _ (byId_mem he), ?_⟩
    obtain ⟨y, hy⟩ := Option.isSome_iff_exists.mp (gather_ids_cells l w.id _ he)
    have hmm := OMap.find_some_mem hy
    have := hsrcv _ hmm
    simp only [Int.toNat_natCast] at this
    rw [this] at hv; cases hv
    exact (only_ge ρ hln hmm).2 w.id _ he

end Verif.Rounding
