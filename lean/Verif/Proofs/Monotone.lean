/-
Two computations that differ in pore volumes only, side by side: in every arithmetic with
rounding, the larger pore volumes do not give the shorter times.
-/
import Verif.Proofs.RoundingToolbox
import Verif.Proofs.Ends

namespace Verif

namespace X
variable {K : Type} [Field K] [LinearOrder K] [IsStrictOrderedRing K]

theorem mul_larger {a b c : X K} (h : X.lt b a = false) (hc : X.lt c (fin 0) = false) :
    X.lt (X.mul b c) (X.mul a c) = false := by
  cases a <;> cases b <;> cases c <;> simp_all [X.lt, X.mul, X.infSign]
  · exact mul_le_mul_of_nonneg_right h hc
  all_goals (try split_ifs <;> simp_all) <;> first | rfl | (exfalso; linarith) | skip
  rename_i c
  rcases lt_or_eq_of_le hc with h0 | h0
  · simp [h0, not_lt.mpr h0.le]
  · simp [← h0]

theorem div_larger {a b c : X K} (h : X.lt b a = false) (hc : X.lt c (fin 0) = false) :
    X.lt (X.div b c) (X.div a c) = false := by
  cases a <;> cases b <;> cases c <;> simp_all [X.lt, X.div, X.infSign]
  all_goals (try split_ifs <;> simp_all) <;> first | rfl | (exfalso; linarith) | skip
  exact div_le_div_of_nonneg_right h hc

end X

namespace Rounding.Larger
open Verif.Spec Verif.Solver Verif.Toolbox Verif.Tarjan Verif.Counter Verif.Rounding

variable {R : Type} [Arith R]

/-- Side by side: the same tracer values, and in the cells of `S` times that are not shorter. -/
structure Below (S : Nat → Prop) (s s' : List R × List R) : Prop where
  tracer : s'.2 = s.2
  size : s'.1.length = s.1.length
  tof : ∀ u t t', S u → s.1[u]? = some t → s'.1[u]? = some t' → Arith.lt t' t = false

/-- The same data, other pore volumes.  In the cells of `S`, which has all cells upstream of its
    cells, it takes more than 200 years to fill the cell with both of them or with none. -/
structure Data (d d' : SolverData R) (n : Nat) (S : Nat → Prop) : Prop where
  data : d' = { d with pv := d'.pv }
  closed : ∀ v < n, S v → ∀ nb, d.gReverse.cellNeighbourhood (v : Int) = .ok nb → ∀ e ∈ nb, S e.1.toNat
  le : ∀ (v : Nat) (p p' : R), d.pv[v]? = some p → d'.pv[v]? = some p' → Arith.lt p' p = false
  slow : ∀ v < n, S v → ∀ i s p p', d.influx[v]? = some i → d.sourceTerm[v]? = some s → d.pv[v]? = some p →
    d'.pv[v]? = some p' → Arith.lt (Arith.add i s) (Arith.div p' maxTof) = Arith.lt (Arith.add i s) (Arith.div p maxTof)

variable {K : Type} [Field K] [LinearOrder K] [IsStrictOrderedRing K] (ρ : Rounded R K)
include ρ

theorem mul_mono {a b c : R} (h : Arith.lt b a = false) (hc : NotNegative c) :
    Arith.lt (Arith.mul b c) (Arith.mul a c) = false := by
  rw [notNegative_iff ρ] at hc
  rw [ρ.lt] at *
  rw [ρ.mul, ρ.mul]
  exact rnd_lt ρ (X.mul_larger h hc)

theorem div_mul_mono {a b t c : R} (h : Arith.lt b a = false) (ht : NotNegative t) (hne : Arith.eq t Arith.zero = false)
    (hc : Arith.lt Arith.zero c = true) :
    Arith.lt (Arith.div b (Arith.mul t c)) (Arith.div a (Arith.mul t c)) = false := by
  by_cases hn : ρ.val t = X.nan
  · have hm : ρ.val (Arith.mul t c) = X.nan := by rw [ρ.mul, hn]; simp [X.mul, ρ.rnd_nan]
    have e : ∀ x : R, ρ.val (Arith.div x (Arith.mul t c)) = X.nan := fun x => by
      rw [ρ.div _ _ (by rw [hm]; simp), hm]
      cases ρ.val x <;> simp [X.div, ρ.rnd_nan]
    rw [ρ.lt, e, e]; rfl
  · have hpos : X.lt (X.fin 0) (ρ.val t) = true := by
      rw [notNegative_iff ρ] at ht
      rw [ρ.eq, val_zero'] at hne
      cases hv : ρ.val t <;> simp_all [X.lt, X.eq]
      exact lt_of_le_of_ne ht fun e => hne e.symm
    have hc' : X.lt (X.fin 0) (ρ.val c) = true := by rw [ρ.lt, val_zero'] at hc; exact hc
    rw [ρ.lt, ρ.div_mul _ _ _ hpos hc', ρ.div_mul _ _ _ hpos hc']
    rw [ρ.lt] at h
    have := mul_notNegative ρ ht (pos_notNegative ρ hc)
    rw [notNegative_iff ρ] at this
    exact rnd_lt ρ (X.div_larger h this)

omit [IsStrictOrderedRing K] in
theorem min_mono {a b m : R} (h : Arith.lt b a = false) : Arith.lt (Arith.min b m) (Arith.min a m) = false := by
  unfold Arith.min
  have hirr := lt_irrefl ρ m
  split
  · split
    · exact hirr
    · rename_i h2
      simpa using h2
  · rename_i h1
    split
    · rename_i h2
      rw [ρ.lt] at *
      cases ha : ρ.val a <;> cases hb : ρ.val b <;> cases hm : ρ.val m <;> simp_all [X.lt]
      rename_i x y z
      exact absurd (h2.trans_le h) (not_lt.mpr h1)
    · exact h

theorem cellTof_mono {pv pv' total c up up' : R} (hpv : Arith.lt pv' pv = false) (hup : Arith.lt up' up = false)
    (ht : NotNegative total) (hz : Arith.eq total Arith.zero = true → c = Arith.zero)
    (hslow : Arith.lt total (Arith.div pv' maxTof) = Arith.lt total (Arith.div pv maxTof)) :
    Arith.lt (cellTof pv' total c up') (cellTof pv total c up) = false := by
  unfold cellTof
  simp only [hslow]
  split
  · exact lt_irrefl ρ _
  · split
    · rename_i hpos
      have hne : Arith.eq total Arith.zero = false := by
        by_contra hh
        rw [Bool.not_eq_false] at hh
        rw [hz hh, lt_irrefl ρ] at hpos
        cases hpos
      exact div_mul_mono ρ (add_mono ρ (mul_mono ρ hpv (pos_notNegative ρ hpos)) hup) ht hne hpos
    · exact lt_irrefl ρ _

/-- The accumulation over the upwind connections. -/
theorem upwind_mono {tof tof' tracer : List R} {S : Nat → Prop} (hb : Below S (tof, tracer) (tof', tracer))
    (hc : ∀ c ∈ tracer, NotNegative c) {p : Prop} :
    ∀ {nb : List (Int × R)}, (∀ e ∈ nb, NotNegative e.2) → (p → ∀ e ∈ nb, S (sizeOfInt e.1)) → ∀ {a a' up : R × R},
      a'.2 = a.2 → (p → Arith.lt a'.1 a.1 = false) → forEach nb a (addUpwind tof tracer) = .ok up →
      ∃ up', forEach nb a' (addUpwind tof' tracer) = .ok up' ∧ up'.2 = up.2 ∧ (p → Arith.lt up'.1 up.1 = false)
  | [], _, _, a, a', up, h1, h2, h => by
    cases h
    exact ⟨a', rfl, h1, h2⟩
  | e :: nb, hw, hS, a, a', up, h1, h2, h => by
    rw [forEach_cons] at h
    obtain ⟨b, hb1, h⟩ := Res.bind_ok_iff.mp h
    unfold addUpwind at hb1
    simp only [Res.bind_eq, Res.pure_eq, Res.bind_ok_iff] at hb1
    obtain ⟨t, ht, c, hcc, e2⟩ := hb1
    cases e2
    rw [rd_iff] at ht hcc
    have hlt : sizeOfInt e.1 < tof'.length := by
      rw [hb.size]; exact (List.getElem?_eq_some_iff.mp ht).1
    obtain ⟨t', ht'⟩ : ∃ t', tof'[sizeOfInt e.1]? = some t' := ⟨_, List.getElem?_eq_getElem hlt⟩
    obtain ⟨up', e1, e2, e3⟩ := upwind_mono hb hc (p := p) (nb := nb) (fun x hx => hw x (List.mem_cons_of_mem _ hx))
      (fun hp x hx => hS hp x (List.mem_cons_of_mem _ hx))
      (a := (Arith.add a.1 (Arith.mul (Arith.mul t c) e.2), Arith.add a.2 (Arith.mul c e.2)))
      (a' := (Arith.add a'.1 (Arith.mul (Arith.mul t' c) e.2), Arith.add a'.2 (Arith.mul c e.2)))
      (by simp only [h1]) (fun hp => add_mono ρ (h2 hp) (mul_mono ρ (mul_mono ρ
        (hb.tof _ t t' (hS hp e List.mem_cons_self) ht ht') (hc c (List.mem_of_getElem? hcc))) (hw e List.mem_cons_self))) h
    refine ⟨up', ?_, e2, e3⟩
    rw [forEach_cons]
    have : addUpwind tof' tracer a' e = .ok (Arith.add a'.1 (Arith.mul (Arith.mul t' c) e.2), Arith.add a'.2 (Arith.mul c e.2)) := by
      unfold addUpwind
      simp only [Res.bind_eq, Res.pure_eq]
      rw [rd_iff.mpr ht', rd_iff.mpr hcc]
      rfl
    rw [this]
    exact e1

/-- What a visit stores. -/
theorem cellVals_mono {d d' : SolverData R} {n : Nat} {S : Nat → Prop} (hd : Fits d n) (hd' : Fits d' n)
    (hL : Data d d' n S) {isStart : List Bool} {ls : List R} {s s' : List R × List R} (hs : Bounded s)
    (hb : Below S s s') {v : Nat} (hv : v < n) {p : R × R} (h : cellVals d isStart ls s v = .ok p) :
    ∃ p', cellVals d' isStart ls s' v = .ok p' ∧ p'.2 = p.2 ∧ (S v → Arith.lt p'.1 p.1 = false) := by
  have hI := hd.int
  have hsz : ∀ x : Nat, x < n → sizeOfInt (x : Int) = x := by
    intro x hx; rw [sizeOfInt_nonneg (by omega) (by omega)]; simp
  obtain ⟨nb, hnb, hr, hw, hin⟩ := hd.row v hv
  obtain ⟨tof, tracer⟩ := s
  obtain ⟨tof', tracer'⟩ := s'
  obtain rfl : tracer' = tracer := hb.tracer
  have e1 : d'.sourceTerm = d.sourceTerm := by rw [hL.data]
  have e2 : d'.influx = d.influx := by rw [hL.data]
  have e3 : d'.gReverse = d.gReverse := by rw [hL.data]
  unfold cellVals at h ⊢
  simp only [hsz v hv, Res.bind_eq, Res.pure_eq, hnb, Res.ok_bind, rd_of_getElem? hin, Res.bind_ok_iff, e1, e2, e3] at h ⊢
  obtain ⟨src, h1, start, h2, up, h3, contrib, h4, _, h7, _, h8, c, h5, pv, h6, e⟩ := h
  cases e
  obtain ⟨up', u1, u2, u3⟩ := upwind_mono ρ hb hs.nonneg (p := S v) hw (fun hSv e he => by
      have := hr e he
      have h4 := hL.closed v hv hSv nb hnb e he
      obtain ⟨x, hx⟩ := Int.eq_ofNat_of_zero_le this.1
      rw [hx] at h4 ⊢
      rw [hsz x (by omega)]
      simpa using h4) (a := (Arith.zero, Arith.zero)) (a' := (Arith.zero, Arith.zero)) rfl (fun _ => lt_irrefl ρ _) h3
  have hlt : v < d'.pv.length := by rw [hd'.pvSize]; exact hv
  have hpv' : d'.pv[v]? = some d'.pv[v] := List.getElem?_eq_getElem hlt
  refine ⟨_, ⟨src, h1, start, h2, up', u1, contrib, by rw [u2]; exact h4, _, h7, _, h8, c, h5, _, rd_iff.mpr hpv', rfl⟩, rfl, ?_⟩
  intro hSv
  rw [rd_iff] at h1 h6
  have hinf : NotNegative ((nb.map fun e => e.2).foldl Arith.add Arith.zero) := foldl_notNegative ρ (by
    intro x hx
    obtain ⟨e, he, rfl⟩ := List.mem_map.mp hx
    exact hw e he) (zero_notNegative ρ)
  have hcs : NotNegative (cellSource src start) := by
    unfold cellSource
    split
    · exact inf_lt ρ _
    · exact hd.source src (List.mem_of_getElem? h1)
  refine cellTof_mono ρ (hL.le v _ _ h6 hpv') (u3 hSv) (add_notNegative ρ hinf hcs) ?_ ?_
  · intro hz
    unfold cellTracer at h5
    rw [if_pos hz] at h5
    simp only [Res.bind_eq, Res.pure_eq, Res.bind_ok_iff] at h5
    obtain ⟨_, _, e⟩ := h5
    cases e; rfl
  · unfold cellSource
    split
    · have hinf' : ∀ x : R, Arith.lt (Arith.add ((nb.map fun e => e.2).foldl Arith.add Arith.zero) Arith.inf) x = false := by
        intro x
        rw [ρ.lt, ρ.add, ρ.inf]
        rw [notNegative_iff ρ] at hinf
        have hri : ρ.rnd X.pinf = X.pinf := by rw [← ρ.inf, ρ.rnd_val]
        cases hv : ρ.val ((nb.map fun e => e.2).foldl Arith.add Arith.zero) <;>
          simp_all [X.add, X.lt, ρ.rnd_nan] <;> cases ρ.val x <;> rfl
      rw [hinf', hinf']
    · exact hL.slow v hv hSv _ _ _ _ hin h1 h6 hpv'

theorem single_mono {d d' : SolverData R} {n : Nat} {S : Nat → Prop} (hd : Fits d n) (hd' : Fits d' n)
    (hL : Data d d' n S) {isStart : List Bool} {ls : List R} {s s' t : List R × List R} (hs : Bounded s)
    (hb : Below S s s') {v : Nat} (hv : v < n) (h : solveSingleCell d isStart ls s v = .ok t) :
    ∃ t', solveSingleCell d' isStart ls s' v = .ok t' ∧ Below S t t' := by
  have hI := hd.int
  have hsz : sizeOfInt (v : Int) = v := by rw [sizeOfInt_nonneg (by omega) (by omega)]; simp
  obtain ⟨p, hp, l1, l2, rfl⟩ := single_ok_iff.mp h
  obtain ⟨p', hp', e1, e2⟩ := cellVals_mono ρ hd hd' hL hs hb hv hp
  refine ⟨_, single_ok_iff.mpr ⟨p', hp', by rw [hb.size]; exact l1, by rw [hb.tracer]; exact l2, rfl⟩, ?_, ?_, ?_⟩
  · simp only [hb.tracer, e1]
  · simp [hb.size]
  · intro u t t' hS h1 h2
    simp only [hsz, List.getElem?_set] at h1 h2
    by_cases huv : v = u
    · subst huv
      rw [hsz] at l1
      rw [if_pos rfl, if_pos l1] at h1
      rw [if_pos rfl, if_pos (by rw [hb.size]; exact l1)] at h2
      cases h1; cases h2
      exact e2 hS
    · rw [if_neg huv] at h1 h2
      exact hb.tof u t t' hS h1 h2

theorem visit_mono {d d' : SolverData R} {n : Nat} {S : Nat → Prop} (hd : Fits d n) (hd' : Fits d' n)
    (hL : Data d d' n S) {isStart : List Bool} {ls : List R} (hl : LocalFits d isStart ls) :
    ∀ {seq : List Nat}, (∀ v ∈ seq, v < n) → ∀ {s s' t : List R × List R}, Bounded s → Below S s s' →
      visit d isStart ls seq s = .ok t → ∃ t', visit d' isStart ls seq s' = .ok t' ∧ Below S t t'
  | [], _, s, s', t, _, hb, h => by
    cases h
    exact ⟨s', rfl, hb⟩
  | v :: seq, hseq, s, s', t, hs, hb, h => by
    rw [visit_cons] at h
    obtain ⟨a, h1, h2⟩ := Res.bind_ok_iff.mp h
    have hv := hseq v List.mem_cons_self
    obtain ⟨a', h3, hb'⟩ := single_mono ρ hd hd' hL hs hb hv h1
    obtain ⟨t', h4, h5⟩ := visit_mono hd hd' hL hl (fun u hu => hseq u (List.mem_cons_of_mem _ hu))
      (single_bounded ρ hd hl hs ⟨by omega, by omega⟩ h1) hb' h2
    exact ⟨t', by rw [visit_cons, h3]; exact h4, h5⟩

theorem solve_mono {d d' : SolverData R} {n : Nat} {S : Nat → Prop} (hd : Fits d n) (hd' : Fits d' n)
    (hL : Data d d' n S) {isStart : List Bool} {ls : List R} (hl : LocalFits d isStart ls) {comps : List (List Nat)}
    (hc : ∀ c ∈ comps, ∃ v, c = [v]) (hn : ∀ v ∈ comps.flatten, v < n) {fuel : Nat} {s s' t : List R × List R}
    (hs : Bounded s) (hb : Below S s s') (h : solve d isStart ls (cellsOf comps) (offsets comps) fuel s = .ok t) :
    ∃ t', solve d' isStart ls (cellsOf comps) (offsets comps) fuel s' = .ok t' ∧ Below S t t' := by
  rw [solve_singles hc] at h ⊢
  obtain ⟨a, h1, h2⟩ := Res.bind_ok_iff.mp h
  cases h2
  obtain ⟨a', h3, hb'⟩ := visit_mono ρ hd hd' hL hl hn hs hb h1
  refine ⟨(a'.1.map fun t => Arith.min t maxTof, a'.2), by rw [h3]; rfl, hb'.tracer, by simp [hb'.size], ?_⟩
  intro u t t' hS h4 h5
  simp only [List.getElem?_map, Option.map_eq_some_iff] at h4 h5
  obtain ⟨x, hx, rfl⟩ := h4
  obtain ⟨x', hx', rfl⟩ := h5
  exact min_mono ρ (hb'.tof u x x' hS hx hx')

omit ρ [Field K] [LinearOrder K] [IsStrictOrderedRing K] in
theorem start_below (S : Nat → Prop) (hirr : ∀ x : R, Arith.lt x x = false) (n : Nat) :
    Below S (List.replicate n (Arith.zero : R), List.replicate n (Arith.zero : R))
      (List.replicate n (Arith.zero : R), List.replicate n (Arith.zero : R)) :=
  ⟨rfl, rfl, fun u t t' _ h1 h2 => by rw [h1] at h2; cases h2; exact hirr _⟩

theorem global_mono {d d' : SolverData R} {n : Nat} {S : Nat → Prop} (hd : Fits d n) (hd' : Fits d' n)
    (hL : Data d d' n S) (hg : GoodGraph d.g n) (hacy : AcyclicGraph d.g n) {fuel : Nat}
    (hfuel : n + numEdges n d.g.startPointers ≤ fuel) {st : SolverState R} {tof : List R}
    (h : (solveGlobal d Alloc.good fuel st).2 = .ok tof) :
    ∃ tof', (solveGlobal d' Alloc.good fuel st).2 = .ok tof' ∧
      ∀ u t t', S u → tof[u]? = some t → tof'[u]? = some t' → Arith.lt t' t = false := by
  obtain ⟨comps, ht, horder⟩ := computeOrdering_spec (hg.isGraph hd.int) hg.size Alloc.good_good
  have e1 : d'.sourceTerm = d.sourceTerm := by rw [hL.data]
  have e2 : d'.g = d.g := by rw [hL.data]
  have e3 : d'.pv.length = d.pv.length := by rw [hd.pvSize, hd'.pvSize]
  unfold solveGlobal prepareForSolve at h ⊢
  simp only [finish_snd, hd.pvSize, Res.bind_ok_iff] at h
  simp only [finish_snd, hd'.pvSize, Res.bind_ok_iff, e1, e2]
  obtain ⟨b, hb, o, ho, f, hf, e⟩ := h
  cases e
  have ho' := ho
  rw [horder fuel hfuel] at ho
  cases ho
  obtain ⟨t', h1, h2⟩ := solve_mono ρ hd hd' hL (isStart := b) (ls := d.sourceTerm) (by
    intro v l s hb hl hs
    rw [hl] at hs; cases hs
    exact ⟨hd.source l (List.mem_of_getElem? hl), lt_irrefl ρ l⟩) (singles_of_acyclic ht hacy)
    (fun v hv => (ht.cover v).mp hv) (initial_bounded ρ n) (start_below S (lt_irrefl ρ) n) hf
  refine ⟨t'.1, ⟨b, ?_, _, ho', t', h1, rfl⟩, h2.tof⟩
  rw [← hb]
  unfold setupStartArrayFromSource
  rw [e1, e3]

omit ρ [Arith R] [Field K] [LinearOrder K] [IsStrictOrderedRing K] in
theorem assign_below {Q : Int → R → R → Prop} {k : Int} {t t' : R} (hq : Q k t t') :
    ∀ {l l' : CellSetValues R}, List.Forall₂ (fun e e' : Int × R => e'.1 = e.1 ∧ Q e.1 e.2 e'.2) l l' →
      List.Forall₂ (fun e e' : Int × R => e'.1 = e.1 ∧ Q e.1 e.2 e'.2) (OMap.assign l k t) (OMap.assign l' k t')
  | _, _, .nil => .cons ⟨rfl, hq⟩ .nil
  | _, _, .cons (a := e) (b := e') h hs => by
    simp only [OMap.assign, h.1]
    split
    · exact .cons ⟨rfl, hq⟩ (.cons h hs)
    · split
      · exact .cons h (assign_below hq hs)
      · rename_i h1 h2
        obtain rfl : k = e.1 := le_antisymm (not_lt.mp h2) (not_lt.mp h1)
        exact .cons ⟨rfl, hq⟩ hs

omit ρ [Field K] [LinearOrder K] [IsStrictOrderedRing K] in
theorem collect_below {s s' : List R × List R} {S : Nat → Prop} (hb : Below S s s') :
    ∀ {cells : List Int} {r r' x : LocalSolution R}, r'.concentration = r.concentration →
      List.Forall₂ (fun e e' : Int × R => e'.1 = e.1 ∧ (S (sizeOfInt e.1) → Arith.lt e'.2 e.2 = false)) r.tof r'.tof →
      forEach cells r (collectCell s.1 s.2) = .ok x →
      ∃ x', forEach cells r' (collectCell s'.1 s'.2) = .ok x' ∧ x'.concentration = x.concentration ∧
        List.Forall₂ (fun e e' : Int × R => e'.1 = e.1 ∧ (S (sizeOfInt e.1) → Arith.lt e'.2 e.2 = false)) x.tof x'.tof
  | [], r, r', x, h1, h2, h => by
    cases h
    exact ⟨r', rfl, h1, h2⟩
  | cell :: cells, r, r', x, h1, h2, h => by
    rw [forEach_cons] at h
    obtain ⟨y, hy, h⟩ := Res.bind_ok_iff.mp h
    unfold collectCell at hy
    simp only [Res.bind_eq, Res.pure_eq, Res.bind_ok_iff] at hy
    obtain ⟨t, ht, c, hc, hy⟩ := hy
    have hlt : sizeOfInt cell < s'.1.length := by
      rw [hb.size]; exact (List.getElem?_eq_some_iff.mp (rd_iff.mp ht)).1
    obtain ⟨t', ht'⟩ : ∃ t', s'.1[sizeOfInt cell]? = some t' := ⟨_, List.getElem?_eq_getElem hlt⟩
    split at hy
    · cases hy
    · rename_i hle
      cases hy
      have hstep : collectCell s'.1 s'.2 r' cell =
          .ok { tof := r'.tof.assign cell t', concentration := r'.concentration.assign cell c } := by
        unfold collectCell
        simp only [Res.bind_eq, Res.pure_eq]
        rw [rd_iff.mpr ht', Res.ok_bind, hb.tracer, hc, Res.ok_bind, if_neg hle]
      rw [forEach_cons, hstep]
      refine collect_below hb (by simp only [h1]) ?_ h
      exact assign_below (Q := fun k t t' => S (sizeOfInt k) → Arith.lt t' t = false)
        (fun hS => hb.tof _ t t' hS (rd_iff.mp ht) ht') h2

theorem local_mono {d d' : SolverData R} {n : Nat} {S : Nat → Prop} (hd : Fits d n) (hd' : Fits d' n)
    (hL : Data d d' n S) (hg : GoodGraph d.g n) (hacy : AcyclicGraph d.g n) {fuel : Nat}
    (hfuel : n + numEdges n d.g.startPointers ≤ fuel) {st : SolverState R} {ss : CellSetValues R}
    (hss : ∀ e ∈ ss, 0 ≤ e.1 ∧ e.1 < n)
    (hsrc : ∀ e ∈ ss, ∀ s, d.sourceTerm[e.1.toNat]? = some s → NotNegative e.2 ∧ Arith.lt s e.2 = false)
    {l : LocalSolution R} (h : (solveLocal d Alloc.good fuel ss st).2 = .ok l) :
    ∃ l', (solveLocal d' Alloc.good fuel ss st).2 = .ok l' ∧ l'.concentration = l.concentration ∧
      List.Forall₂ (fun e e' : Int × R => e'.1 = e.1 ∧ (S (sizeOfInt e.1) → Arith.lt e'.2 e.2 = false)) l.tof l'.tof := by
  have hI := hd.int
  have e2 : d'.g = d.g := by rw [hL.data]
  have hcast : (ss.map fun p => p.1) = (ss.map fun p => p.1.toNat).map fun v : Nat => (v : Int) := by
    rw [List.map_map]
    apply List.map_congr_left
    intro e he
    have := hss e he
    simp only [Function.comp]; omega
  have hlt : ∀ p ∈ ss.map fun p => p.1.toNat, p < n := by
    intro p h
    obtain ⟨e, he, rfl⟩ := List.mem_map.mp h
    have := hss e he
    omega
  have hG := hg.isGraph hI
  obtain ⟨comps, ht, horder⟩ := computeLocalOrdering_spec hG hg.size Alloc.good_good _ hlt
  unfold solveLocal prepareForSolve at h ⊢
  simp only [finish_snd, hd.pvSize, Res.bind_ok_iff, hcast] at h
  simp only [finish_snd, hd'.pvSize, Res.bind_ok_iff, hcast, e2]
  obtain ⟨b, hb, o, ho, ⟨⟩, hls, f, hf, cl, hcl, r, hr, e⟩ := h
  cases e
  have ho' := ho
  rw [horder fuel hfuel] at ho
  cases ho
  obtain ⟨t', h1, h2⟩ := solve_mono ρ hd hd' hL (isStart := b) (by
    intro v x s hbv hx hs
    rcases setupLocalSource_entries (ls' := (setupLocalSource st.localSource ss).1) (by rw [← hls]) hx with
      ⟨e, he, e1, rfl⟩ | ⟨hno, _⟩
    · have := hss e he
      rw [sizeOfInt_nonneg (by omega) (by omega)] at e1
      subst e1
      exact hsrc e he s hs
    · obtain ⟨e, he, e1⟩ := setupStartArray_entries hb hbv
      exact absurd e1 (hno e he)) (singles_of_acyclic ht hacy)
    (fun v hv => by
      obtain ⟨p, hpm, hr⟩ := (ht.cover v).mp hv
      exact reachable_lt hG (hlt p hpm) hr) (initial_bounded ρ n) (start_below S (lt_irrefl ρ) n) hf
  unfold collect at hr ⊢
  simp only [Res.bind_eq, Res.bind_ok_iff] at hr ⊢
  obtain ⟨k, hk, cells, hcells, hr⟩ := hr
  obtain ⟨r', a1, a2, a3⟩ := collect_below h2 rfl .nil hr
  exact ⟨r', ⟨b, hb, _, ho', (), hls, t', h1, cl, hcl, r', ⟨k, hk, cells, hcells, a1⟩, rfl⟩, a2, a3⟩

/-- Two solutions: the same concentrations in the same cells, and no shorter times in the cells of `S`. -/
structure SolutionBelow (S : Nat → Prop) (sol sol' : Solution R) : Prop where
  conc : ∀ i, sol'.concentration i = sol.concentration i
  global : ∀ u t t', S u → sol.timeOfFlight[u]? = some t → sol'.timeOfFlight[u]? = some t' → Arith.lt t' t = false
  tof : ∀ i, List.Forall₂ (fun e e' : Int × R => e'.1 = e.1 ∧ (S (sizeOfInt e.1) → Arith.lt e'.2 e.2 = false))
    (sol.timeOfFlightOf i) (sol'.timeOfFlightOf i)

theorem computeSolution_mono {n : Nat} (hI : n ≤ INT_MAX) {D : List (Int × Int × R)}
    (hD : ∀ c ∈ D, (0 ≤ c.1 ∧ c.1 < n) ∧ (0 ≤ c.2.1 ∧ c.2.1 < n)) (hDn : ∀ c ∈ D, NotNegative c.2.2)
    (hacy : AcyclicGraph (graphsOf n D).1 n)
    {pv pv' : List R} (hpv : pv.length = n) (hpv' : pv'.length = n) (hpvn : ∀ x ∈ pv, NotNegative x)
    (hpvn' : ∀ x ∈ pv', NotNegative x) (hle : ∀ (v : Nat) (p p' : R), pv[v]? = some p → pv'[v]? = some p' → Arith.lt p' p = false)
    {l : List (CellSetID × Int × R)}
    (hl : ∀ e ∈ l, 0 ≤ e.2.1 ∧ e.2.1 < n) (hln : ∀ e ∈ l, NotNegative e.2.2) {S : Nat → Prop}
    (hS : ∀ (u v : Nat) w, ((u : Int), (v : Int), w) ∈ D → S v → S u)
    (hslow : ∀ v < n, S v → ∀ p p', pv[v]? = some p → pv'[v]? = some p' → ∀ total,
      total = Arith.add (((rowOfFlow n (swapEnds D) v).map fun e => e.2).foldl Arith.add Arith.zero)
        (((l.filter fun e => decide (e.2.1 = (v : Int))).map fun e => e.2.2).foldl Arith.add Arith.zero) →
      Arith.lt total (Arith.div p' maxTof) = Arith.lt total (Arith.div p maxTof))
    {starts : List CellSet} {sol : Solution R}
    {fuel : Nat} (hfuel : n + numEdges n (graphsOf n D).1.startPointers ≤ fuel)
    (h : computeSolution (graphsOf n D).1 (graphsOf n D).2 pv (gather l).only (gather l).byId noFailure fuel starts = .ok sol) :
    ∃ sol', computeSolution (graphsOf n D).1 (graphsOf n D).2 pv' (gather l).only (gather l).byId noFailure fuel starts = .ok sol' ∧
      SolutionBelow S sol sol' := by
  obtain ⟨d, st, tof, h1, h2, h3, rfl⟩ := (computeSolution_ok_iff (a := Alloc.good)).mp h
  obtain ⟨hd, hg, hsrc, hfold⟩ := create_fits ρ hI hD hDn hpv hpvn hl hln h1
  have hG : GoodGraph d.g n := hg ▸ (graphsOf_good hI hD).1
  have hA : AcyclicGraph d.g n := hg ▸ hacy
  rw [← hg] at hfuel
  have hcr : Solver.create (graphsOf n D).1 (graphsOf n D).2 pv' (gather l).only = .ok ({ d with pv := pv' }, st) := by
    unfold Solver.create at h1 ⊢
    simp only [Res.bind_eq, Res.pure_eq, Res.bind_ok_iff] at h1 ⊢
    obtain ⟨io, i1, src, i2, e⟩ := h1
    rw [hpv] at i2 e
    rw [hpv']
    refine ⟨io, i1, src, i2, ?_⟩
    cases e
    rfl
  have hpvd : d.pv = pv := by
    unfold Solver.create at h1
    simp only [Res.bind_eq, Res.pure_eq, Res.bind_ok_iff] at h1
    obtain ⟨io, i1, src, i2, e⟩ := h1
    cases e
    rfl
  obtain ⟨hd', _, _, _⟩ := create_fits ρ hI hD hDn hpv' hpvn' hl hln hcr
  have hgr : d.gReverse = (graphsOf n D).2 := by
    unfold Solver.create at h1
    simp only [Res.bind_eq, Res.pure_eq, Res.bind_ok_iff] at h1
    obtain ⟨io, i1, src, i2, e⟩ := h1
    cases e
    rfl
  have hL : Data d { d with pv := pv' } n S := by
    refine ⟨rfl, ?_, ?_, ?_⟩
    · intro v hv hSv nb hnb e he
      rw [hgr, (graphsOf_rows hI hD).2 v hv] at hnb
      cases hnb
      unfold rowOfFlow at he
      obtain ⟨u, hu, rfl⟩ := List.mem_map.mp he
      obtain ⟨w, hw⟩ := joins_iff.mp (List.mem_filter.mp hu).2
      exact hS u v w (mem_swapEnds hw) hSv
    · intro v p p' hp hp'
      rw [hpvd] at hp
      exact hle v p p' hp hp'
    · intro v hv hSv i s p p' hi hs hp hp'
      rw [hpvd] at hp
      rw [(hfold v hv).1] at hi
      rw [(hfold v hv).2] at hs
      cases hi; cases hs
      exact hslow v hv hSv p p' hp hp' _ rfl
  obtain ⟨tof', g1, g2⟩ := global_mono ρ hd hd' hL hG hA hfuel h2
  have hloc : ∀ s ∈ starts, ∃ x x', localOf d st Alloc.good fuel (gather l).byId s.id = .ok x ∧
      localOf { d with pv := pv' } st Alloc.good fuel (gather l).byId s.id = .ok x' ∧ x'.concentration = x.concentration ∧
      List.Forall₂ (fun e e' : Int × R => e'.1 = e.1 ∧ (S (sizeOfInt e.1) → Arith.lt e'.2 e.2 = false)) x.tof x'.tof := by
    intro s hs
    obtain ⟨x, hx⟩ := h3 s hs
    obtain ⟨x', a1, a2, a3⟩ := local_mono ρ hd hd' hL hG hA hfuel ((gather_range hl).2 s.id) (by
      intro e he v hv
      refine ⟨hln _ (byId_mem he), ?_⟩
      have hsome := gather_ids_cells l s.id e he
      obtain ⟨w, hw⟩ := Option.isSome_iff_exists.mp hsome
      have hm := OMap.find_some_mem hw
      have := hsrc _ hm
      simp only at this
      rw [this] at hv; cases hv
      exact (only_ge ρ hln hm).2 s.id e.2 he) hx
    exact ⟨x, x', hx, a1, a2, a3⟩
  refine ⟨_, (computeSolution_ok_iff (a := Alloc.good)).mpr ⟨_, st, tof', hcr, g1, fun s hs => ?_, rfl⟩, ?_⟩
  · obtain ⟨x, x', _, e, _⟩ := hloc s hs
    exact ⟨x', e⟩
  · obtain ⟨r1, r2, r3, _, _⟩ := recordAll_spec (okOf d st Alloc.good fuel (gather l).byId) (starts.map CellSet.id)
      ({ tof := tof } : Solution R)
    obtain ⟨q1, q2, q3, _, _⟩ := recordAll_spec (okOf { d with pv := pv' } st Alloc.good fuel (gather l).byId) (starts.map CellSet.id)
      ({ tof := tof' } : Solution R)
    refine ⟨fun i => ?_, ?_, fun i => ?_⟩
    · unfold Solution.concentration Solution.solutionValues
      rw [r2, q2]
      by_cases hi : i ∈ starts.map CellSet.id
      · obtain ⟨s, hs, rfl⟩ := List.mem_map.mp hi
        obtain ⟨x, x', k1, k2, k3, _⟩ := hloc s hs
        rw [if_pos hi, if_pos hi]
        simp only [okOf, k1, k2]
        exact k3
      · rw [if_neg hi, if_neg hi]
    · unfold Solution.timeOfFlight
      rw [r1, q1]
      exact g2
    · unfold Solution.timeOfFlightOf Solution.solutionValues
      rw [r3, q3]
      by_cases hi : i ∈ starts.map CellSet.id
      · obtain ⟨s, hs, rfl⟩ := List.mem_map.mp hi
        obtain ⟨x, x', k1, k2, _, k4⟩ := hloc s hs
        rw [if_pos hi, if_pos hi]
        simp only [okOf, k1, k2]
        exact k4
      · rw [if_neg hi, if_neg hi]
        exact .nil

end Rounding.Larger
end Verif
