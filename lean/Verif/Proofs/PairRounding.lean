/-
Rounding errors of sums over the cells of two solutions with any concentrations, however small.
-/
import Verif.Proofs.PairAccuracy
import Verif.Proofs.Slack
import Verif.Spec.CyclicDouble

namespace Verif.Rounding
open Verif.Spec Verif.Toolbox Verif.Derived

/-- The positive or the negative part. -/
def part (pos : Bool) (x : ℚ) : ℚ := if pos then max x 0 else max (-x) 0

/-- The number itself or its negation. -/
def turn (pos : Bool) (d : Double) : Double := if pos then d else Arith.neg d

/-- Concentrations are numbers from 0 to 1. -/
def Fractions (T : CellSetValues Double) : Prop := ∀ c d, T.find c = some d → ∃ z : ℚ, d.val = X.fin z ∧ 0 ≤ z ∧ z ≤ 1

/-- What underflow costs, relative to an ordinary number. -/
def under : ℚ := 2 * tiny ℚ * 2 ^ 100

theorem part_nonneg (pos : Bool) (x : ℚ) : 0 ≤ part pos x := by
  unfold part; split <;> exact le_max_right _ _

theorem under_nonneg : 0 ≤ under := by unfold under tiny; positivity

theorem under_le : under ≤ 1 / 2 ^ 900 := by
  unfold under tiny
  rw [show (1001 : ℕ) = 1 + 100 + 900 by norm_num, pow_add, pow_add]
  have h1 : (0 : ℚ) < 2 ^ 100 := by positivity
  have h2 : (0 : ℚ) < 2 ^ 900 := by positivity
  generalize (2 : ℚ) ^ 100 = a at *
  generalize (2 : ℚ) ^ 900 = b at *
  rw [show 2 * (1 / (2 ^ 1 * a * b)) * a = 1 / b by field_simp]

theorem turn_val {pos : Bool} {d : Double} {x : ℚ} (h : d.val = X.fin x) : (turn pos d).val = X.fin (if pos then x else -x) := by
  unfold turn
  cases pos
  · show (Double.neg d).val = _
    rw [Double.val_neg', h]; rfl
  · exact h

theorem val_turn {pos : Bool} {d : Double} {x : ℚ} (h : (turn pos d).val = X.fin x) : d.val = X.fin (if pos then x else -x) := by
  unfold turn at h
  cases pos
  · change (Double.neg d).val = _ at h
    rw [Double.val_neg'] at h
    cases hd : d.val with
    | fin y =>
      rw [hd] at h
      simp only [X.neg, X.fin.injEq] at h
      rw [← h]; simp
    | pinf => rw [hd] at h; cases h
    | ninf => rw [hd] at h; cases h
    | nan => rw [hd] at h; cases h
  · exact h

theorem turn_rnd (pos : Bool) {d : Double} {x : ℚ} (h : d.val = Double.rounded.rnd (X.fin x)) :
    Double.rounded.val (turn pos d) = Double.rounded.rnd (X.fin (if pos then x else -x)) := by
  unfold turn
  cases pos
  · show (Double.neg d).val = _
    rw [Double.val_neg', h]
    exact (rnd_neg_fin x).symm
  · exact h

theorem turn_add {pos : Bool} {a b : Double} {x y : ℚ} (ha : a.val = X.fin x) (hb : b.val = X.fin y) :
    Double.rounded.val (turn pos (Arith.add a b)) = Double.rounded.val (Arith.add (turn pos a) (turn pos b)) := by
  have h1 : (Arith.add a b : Double).val = Double.rounded.rnd (X.fin (x + y)) := by
    have := Double.rounded.add a b
    rw [show Double.rounded.val a = X.fin x from ha, show Double.rounded.val b = X.fin y from hb] at this
    exact this
  rw [turn_rnd pos h1, Double.rounded.add, show Double.rounded.val (turn pos a) = _ from turn_val ha,
    show Double.rounded.val (turn pos b) = _ from turn_val hb]
  congr 1
  show X.fin _ = X.fin _
  congr 1
  cases pos
  · simp; ring
  · simp

theorem turn_mul {pos : Bool} {a b : Double} {x y : ℚ} (ha : a.val = X.fin x) (hb : b.val = X.fin y) :
    Double.rounded.val (turn pos (Arith.mul a b)) = Double.rounded.val (Arith.mul (turn pos a) b) := by
  have h1 : (Arith.mul a b : Double).val = Double.rounded.rnd (X.fin (x * y)) := by
    have := Double.rounded.mul a b
    rw [show Double.rounded.val a = X.fin x from ha, show Double.rounded.val b = X.fin y from hb] at this
    exact this
  rw [turn_rnd pos h1, Double.rounded.mul, show Double.rounded.val (turn pos a) = _ from turn_val ha,
    show Double.rounded.val b = _ from hb]
  congr 1
  show X.fin _ = X.fin _
  congr 1
  cases pos <;> simp

theorem nearE_congr {q e y : ℚ} {k : Nat} {a b : Double} (h : Double.rounded.val a = Double.rounded.val b)
    (hb : NearE Double.rounded q k e b y) : NearE Double.rounded q k e a y := by
  obtain ⟨x, h1, h2⟩ := hb
  exact ⟨x, h.trans h1, h2⟩

theorem doubleAt_some {T : CellSetValues Double} {v : Nat} {d : Double} {z : ℚ} (h : T.find (v : Int) = some d) (hz : d.val = X.fin z) :
    doubleAt T v = z := by
  unfold doubleAt; rw [h, Option.map_some, hz]

theorem doubleAt_none {T : CellSetValues Double} {v : Nat} (h : T.find (v : Int) = none) : doubleAt T v = 0 := by
  unfold doubleAt; rw [h]; rfl

theorem tiny_le_one : tiny ℚ ≤ 1 := by
  unfold tiny
  rw [div_le_iff₀ (by positivity), one_mul]
  exact one_le_pow₀ (by norm_num)

theorem big_le {j : Nat} (hj : j ≤ 2 ^ 32) : (j : ℚ) * 2 ^ 101 ≤ 2 ^ 1000 := by
  have : (j : ℚ) ≤ 2 ^ 32 := by exact_mod_cast hj
  calc (j : ℚ) * 2 ^ 101 ≤ 2 ^ 32 * 2 ^ 101 := mul_le_mul_of_nonneg_right this (by positivity)
    _ ≤ 2 ^ 1000 := by rw [← pow_add]; exact pow_le_pow_right₀ (by norm_num) (by norm_num)

theorem two_tiny_le {x : ℚ} (h : 1 / 2 ^ 100 ≤ x) : tiny ℚ + tiny ℚ ≤ under * x := by
  have h1 : 1 ≤ x * 2 ^ 100 := by rwa [div_le_iff₀ (by positivity)] at h
  have h2 := tiny_pos (K := ℚ)
  unfold under
  have e : 2 * tiny ℚ * 2 ^ 100 * x = (tiny ℚ + tiny ℚ) * (x * 2 ^ 100) := by ring
  rw [e]
  exact le_mul_of_one_le_right (by linarith) h1

/-- Sum of what enters (or leaves), weighted with concentrations. -/
theorem flux_fold (pos : Bool) {T : CellSetValues Double} (hT : Fractions T) {f : Nat → ℚ} : ∀ {cells : List Nat} {a : CellSetValues Double},
    FluxesStored a (valuesOf cells f) → ∀ (m : Nat) (acc : Double) (s σ : ℚ) (j : Nat), 1 ≤ m → m + a.length ≤ 2 ^ 51 →
      NearE Double.rounded q52 m σ (turn pos acc) s → 0 ≤ σ → 0 ≤ s → s + σ ≤ j * 2 ^ 101 → j + a.length ≤ 2 ^ 32 →
      NearE Double.rounded q52 (m + a.length) (σ + under * (cells.map fun v => part pos (f v)).sum)
        (turn pos (a.foldl (addPairFlux T pos) acc)) (s + (cells.map fun v => part pos (f v) * doubleAt T v).sum) := by
  have hp := Double.precise
  intro cells
  induction cells with
  | nil =>
    intro a h m acc s σ j _ _ h1 _ _ _ _
    cases h
    simpa using h1
  | cons v cells ih =>
    intro a h m acc s σ j hm hlen hacc hσ hs hsb hj
    obtain ⟨x, l1, h1, h2, rfl⟩ : ∃ x l1, (x.1 = (v : Int) ∧ ∃ q : ℚ, x.2.val = X.fin q ∧ X.fin (f v) = X.fin q ∧ Ordinary q) ∧
        FluxesStored l1 (valuesOf cells f) ∧ a = x :: l1 := by
      cases h with
      | cons h1 h2 => exact ⟨_, _, h1, h2, rfl⟩
    obtain ⟨e, q, ex, ey, hq⟩ := h1
    simp only [X.fin.injEq] at ey
    subst ey
    simp only [List.length_cons] at hlen hj ⊢
    rw [List.foldl_cons, List.map_cons, List.map_cons, List.sum_cons, List.sum_cons]
    have hu := under_nonneg
    have hpn := part_nonneg pos (f v)
    -- a step that adds nothing
    have skip : ∀ acc', NearE Double.rounded q52 m σ (turn pos acc') s → part pos (f v) * doubleAt T v = 0 →
        NearE Double.rounded q52 (m + (l1.length + 1)) (σ + under * (part pos (f v) + (cells.map fun v => part pos (f v)).sum))
          (turn pos (l1.foldl (addPairFlux T pos) acc')) (s + (part pos (f v) * doubleAt T v + (cells.map fun v => part pos (f v) * doubleAt T v).sum)) := by
      intro acc' hacc' e1
      rw [e1, zero_add]
      have := ih h2 m acc' s σ j hm (by omega) hacc' hσ hs hsb (by omega)
      have hsum : 0 ≤ (cells.map fun v => part pos (f v) * doubleAt T v).sum := List.sum_nonneg fun y hy => by
        obtain ⟨c, _, rfl⟩ := List.mem_map.mp hy
        refine mul_nonneg (part_nonneg _ _) ?_
        cases hc : T.find (c : Int) with
        | none => rw [doubleAt_none hc]
        | some d =>
          obtain ⟨z, hz, h0, _⟩ := hT _ _ hc
          rw [doubleAt_some hc hz]; exact h0
      have hsum' : 0 ≤ (cells.map fun v => part pos (f v)).sum := List.sum_nonneg fun y hy => by
        obtain ⟨c, _, rfl⟩ := List.mem_map.mp hy
        exact part_nonneg _ _
      refine this.mono hp (add_nonneg hs hsum) (add_nonneg hσ (mul_nonneg hu hsum')) (by omega) ?_
      have := mul_nonneg hu hpn
      rw [mul_add]; linarith
    have hx1 : x.1 = (v : Int) := e
    cases hfind : T.find (v : Int) with
    | none =>
      have e1 : addPairFlux T pos acc x = acc := by unfold addPairFlux; rw [hx1, hfind]
      rw [e1]
      exact skip acc hacc (by rw [doubleAt_none hfind, mul_zero])
    | some d =>
      obtain ⟨z, hz, hz0, hz1⟩ := hT _ _ hfind
      have hdz := doubleAt_some hfind hz
      have hlt := lt_zero_val ex
      by_cases hside : decide (0 < f v) = pos
      · have e1 : addPairFlux T pos acc x = Arith.add acc (Arith.mul x.2 d) := by
          unfold addPairFlux
          rw [hx1, hfind]
          simp only [hlt, hside, beq_self_eq_true, if_true]
        have hpart : part pos (f v) = if pos then f v else -f v := by
          unfold part
          cases pos
          · simp only [Bool.false_eq_true, if_false]
            exact max_eq_left (by linarith [not_lt.mp (of_decide_eq_false hside)])
          · simp only [if_true]
            exact max_eq_left (of_decide_eq_true hside).le
        obtain ⟨acc0, hacc0, _⟩ := id hacc
        have haccv := val_turn hacc0
        have hmulv := turn_mul (pos := pos) ex hz
        rw [e1]
        by_cases h0 : f v = 0
        · have hm0 : Double.rounded.val (Arith.mul x.2 d) = X.fin 0 := by
            rw [Double.rounded.mul, show Double.rounded.val x.2 = X.fin (f v) from ex, h0, show Double.rounded.val d = X.fin z from hz]
            show Double.rounded.rnd (X.fin (0 * z)) = _
            rw [zero_mul]; exact Double.rounded.rnd_zero
          have hadd : Double.rounded.val (Arith.add acc (Arith.mul x.2 d)) = Double.rounded.val acc := by
            rw [Double.rounded.add, hm0, show Double.rounded.val acc = _ from haccv]
            show Double.rounded.rnd (X.fin (_ + 0)) = _
            rw [add_zero, ← show Double.rounded.val acc = _ from haccv]
            exact Double.rounded.rnd_val acc
          refine skip _ (nearE_congr ?_ hacc) (by rw [hpart, h0]; simp)
          rw [show Double.rounded.val (turn pos (Arith.add acc (Arith.mul x.2 d))) = _ from turn_val (hadd.trans haccv),
            show Double.rounded.val (turn pos acc) = _ from turn_val haccv]
        · have hpos : 0 < part pos (f v) := by
            refine lt_of_le_of_ne hpn ?_
            rw [hpart]
            cases pos <;> simp [eq_comm, h0]
          have hord : 1 / 2 ^ 100 ≤ part pos (f v) ∧ part pos (f v) ≤ 2 ^ 100 := by
            have : |f v| = part pos (f v) := by
              rw [← abs_of_pos hpos, hpart]
              cases pos <;> simp
            rcases hq with h | h
            · exact absurd h h0
            · rwa [this] at h
          set p := part pos (f v) with hpdef
          have hturn : Double.rounded.val (turn pos x.2) = X.fin p := by
            rw [hpart]; exact turn_val ex
          have hpz : p * z ≤ 2 ^ 100 := (mul_le_of_le_one_right hpos.le hz1).trans hord.2
          have hpz0 : 0 ≤ p * z := mul_nonneg hpos.le hz0
          have hb1000 : (2 : ℚ) ^ 100 ≤ 2 ^ 1000 := pow_le_pow_right₀ (by norm_num) (by norm_num)
          have n1 : NearE Double.rounded q52 1 (tiny ℚ) (Arith.mul (turn pos x.2) d) (p * z) :=
            nearE_mul hp (k := 0) (by norm_num) hturn (near_exact hz) hpos.le hz0 (hpz.trans hb1000)
          have ht := tiny_pos (K := ℚ)
          have ht1 := tiny_le_one
          have h101 : (2 : ℚ) ^ 101 = 2 ^ 100 + 2 ^ 100 := by rw [pow_succ]; ring
          have hP100 : (1 : ℚ) + 1 ≤ 2 ^ 100 := by norm_num
          have hnew : s + p * z + (σ + tiny ℚ + tiny ℚ) ≤ ((j + 1 : Nat) : ℚ) * 2 ^ 101 := by
            push_cast
            rw [add_mul, one_mul]
            generalize (2 : ℚ) ^ 101 = A at *
            generalize (2 : ℚ) ^ 100 = B at *
            linarith
          have n2 : NearE Double.rounded q52 (m + 1) (σ + tiny ℚ + tiny ℚ) (Arith.add (turn pos acc) (Arith.mul (turn pos x.2) d)) (s + p * z) := by
            refine nearE_add hp (Double.pow_le_two (by omega)) hacc (n1.mono hp hpz0 ht.le hm le_rfl) hσ ht.le ?_
            refine le_trans ?_ (big_le (j := j + 1) (by omega))
            exact le_trans (by linarith) hnew
          have n3 : NearE Double.rounded q52 (m + 1) (σ + tiny ℚ + tiny ℚ) (turn pos (Arith.add acc (Arith.mul x.2 d))) (s + p * z) := by
            obtain ⟨y, hy, _⟩ := id n1
            have hmulv' : (turn pos (Arith.mul x.2 d)).val = X.fin y := hmulv.trans hy
            refine nearE_congr ?_ n2
            rw [turn_add haccv (val_turn hmulv'), Double.rounded.add, Double.rounded.add, hmulv]
          have := ih h2 (m + 1) _ (s + p * z) (σ + tiny ℚ + tiny ℚ) (j + 1) (by omega) (by omega) n3 (by linarith) (by linarith) hnew (by omega)
          have hsum : 0 ≤ (cells.map fun v => part pos (f v) * doubleAt T v).sum := List.sum_nonneg fun y hy => by
            obtain ⟨c, _, rfl⟩ := List.mem_map.mp hy
            refine mul_nonneg (part_nonneg _ _) ?_
            cases hc : T.find (c : Int) with
            | none => rw [doubleAt_none hc]
            | some d =>
              obtain ⟨z, hz, h0, _⟩ := hT _ _ hc
              rw [doubleAt_some hc hz]; exact h0
          have hsum' : 0 ≤ (cells.map fun v => part pos (f v)).sum := List.sum_nonneg fun y hy => by
            obtain ⟨c, _, rfl⟩ := List.mem_map.mp hy
            exact part_nonneg _ _
          rw [hdz, ← add_assoc s, show m + (l1.length + 1) = m + 1 + l1.length by omega]
          refine this.mono hp (add_nonneg (by linarith) hsum) (add_nonneg (by linarith) (mul_nonneg hu hsum')) le_rfl ?_
          have := two_tiny_le hord.1
          rw [mul_add]
          linarith
      · have e1 : addPairFlux T pos acc x = acc := by
          unfold addPairFlux
          rw [hx1, hfind]
          simp only [hlt]
          rw [if_neg]
          simpa using hside
        rw [e1]
        refine skip acc hacc ?_
        have : part pos (f v) = 0 := by
          unfold part
          cases pos
          · simp only [Bool.not_eq_false, decide_eq_true_eq] at hside
            simp only [Bool.false_eq_true, if_false]
            exact max_eq_right (by linarith)
          · simp only [Bool.not_eq_true, decide_eq_false_iff_not, not_lt] at hside
            simp only [if_true]
            exact max_eq_right hside
        rw [this, zero_mul]

/-- From relative and tiny absolute errors to absolute ones. -/
theorem nearE_abs {k : Nat} (hk : k ≤ 2 ^ 51) {e y : ℚ} {a : Double} (h : NearE Double.rounded q52 k e a y) (hy : 0 ≤ y) (he : 0 ≤ e) :
    ∃ x, a.val = X.fin x ∧ 0 ≤ x ∧ |x - y| ≤ k / 2 ^ 51 * y + 2 * e := by
  obtain ⟨x, h1, h2, h3, h4⟩ := h
  refine ⟨x, h1, h2, ?_⟩
  have hp := Double.pow_le k hk
  have hp2 := Double.pow_le_two hk
  have hp1 : (1 : ℚ) ≤ q52 ^ k := one_le_pow₀ (by norm_num)
  change (q52 : ℚ) ^ k ≤ _ at hp
  change (q52 : ℚ) ^ k ≤ _ at hp2
  set t := (q52 : ℚ) ^ k
  have e1 : e * t ≤ e * 2 := mul_le_mul_of_nonneg_left hp2 he
  have e2 : y * t ≤ y * (1 + k / 2 ^ 51) := mul_le_mul_of_nonneg_left hp hy
  rw [abs_le]
  constructor
  · by_cases hxy : x ≤ y
    · have e3 : x * (t - 1) ≤ y * (t - 1) := mul_le_mul_of_nonneg_right hxy (by linarith)
      linarith
    · have : 0 ≤ (k : ℚ) / 2 ^ 51 * y := by positivity
      linarith
  · linarith

/-- The number that a `double` stands for; 0 if it stands for none. -/
def num (d : Double) : ℚ := match d.val with
  | X.fin x => x
  | _ => 0

theorem num_eq {d : Double} {x : ℚ} (h : d.val = X.fin x) : num d = x := by unfold num; rw [h]

/-- Scaling an approximate number with a known one. -/
theorem nearE_scale {k : Nat} (hk : k ≤ 2 ^ 51) {a b : Double} {y z e : ℚ} (ha : NearE Double.rounded q52 k e a y) (hb : b.val = X.fin z)
    (hz0 : 0 ≤ z) (hz1 : z ≤ 1) (hy : 0 ≤ y) (he : 0 ≤ e) (h : y + e ≤ 2 ^ 1000) :
    NearE Double.rounded q52 (k + 1) (e + tiny ℚ) (Arith.mul a b) (y * z) := by
  have hp := Double.precise
  obtain ⟨x, h1, h2, h3⟩ := ha
  have h4 := h3.scale hz0
  have h5 : z * y + z * e ≤ y + e := add_le_add (mul_le_of_le_one_left hy hz1) (mul_le_of_le_one_left he hz1)
  have := nearE_rnd hp (Double.pow_le_two hk) (a := Arith.mul a b) (x := z * x)
    (by rw [Double.rounded.mul, h1, show Double.rounded.val b = X.fin z from hb]
        show _ = Double.rounded.rnd (X.fin (z * x))
        rw [mul_comm z x]; rfl) (mul_nonneg hz0 h2) h4
    (mul_nonneg hz0 he) (h5.trans h)
  rw [mul_comm y z]
  exact this.mono hp (mul_nonneg hz0 hy) (add_nonneg (mul_nonneg hz0 he) tiny_pos.le) le_rfl
    (by have := mul_le_of_le_one_left he hz1; linarith)

/-- Sum of pore volumes times both concentrations. -/
theorem volume_slack {n : Nat} (hn : n ≤ INT_MAX) {pv : List Double} {f : Nat → ℚ} (hpv : pv.map Double.val = arr n f)
    (hf : ∀ v < n, Ordinary (f v)) (hf0 : ∀ v < n, 0 ≤ f v) {T : CellSetValues Double} (hT : Fractions T) : ∀ {S : CellSetValues Double},
    (∀ e ∈ S, 0 ≤ e.1 ∧ e.1 < n) → (∀ e ∈ S, ∃ x : ℚ, e.2.val = X.fin x ∧ 0 ≤ x ∧ x ≤ 1) →
    ∀ (m : Nat) (acc : Double) (s σ : ℚ) (j : Nat), 2 ≤ m → m + S.length ≤ 2 ^ 51 →
      NearE Double.rounded q52 m σ acc s → 0 ≤ σ → 0 ≤ s → s + σ ≤ j * 2 ^ 101 → j + S.length ≤ 2 ^ 32 →
      ∃ V, forEach S acc (addPairVolume T pv) = .ok V ∧
        NearE Double.rounded q52 (m + S.length) (σ + 2 * under * (S.map fun e => f e.1.toNat).sum) V
          (s + (S.map fun e => f e.1.toNat * num e.2 * doubleAt T e.1.toNat).sum) := by
  have hp := Double.precise
  have hu := under_nonneg
  intro S
  induction S with
  | nil =>
    intro _ _ m acc s σ j _ _ h1 _ _ _ _
    exact ⟨acc, rfl, by simpa using h1⟩
  | cons e S ih =>
    intro hr hx m acc s σ j hm hlen hacc hσ hs hsb hj
    obtain ⟨c0, c1⟩ := hr e List.mem_cons_self
    obtain ⟨x, ex, x0, x1⟩ := hx e List.mem_cons_self
    have hr' : ∀ e ∈ S, 0 ≤ e.1 ∧ e.1 < n := fun e he => hr e (List.mem_cons_of_mem _ he)
    have hx' : ∀ e ∈ S, ∃ x : ℚ, e.2.val = X.fin x ∧ 0 ≤ x ∧ x ≤ 1 := fun e he => hx e (List.mem_cons_of_mem _ he)
    obtain ⟨v, hv⟩ : ∃ v : Nat, e.1 = v := ⟨e.1.toNat, (Int.toNat_of_nonneg c0).symm⟩
    have hvn : v < n := by omega
    simp only [List.length_cons] at hlen hj ⊢
    rw [List.map_cons, List.map_cons, List.sum_cons, List.sum_cons, hv, Int.toNat_natCast, num_eq ex]
    have hfv := hf0 v hvn
    have hTn : ∀ c : Nat, 0 ≤ doubleAt T c := by
      intro c
      cases hc : T.find (c : Int) with
      | none => rw [doubleAt_none hc]
      | some d =>
        obtain ⟨z, hz, h0, _⟩ := hT _ _ hc
        rw [doubleAt_some hc hz]; exact h0
    have hsum : 0 ≤ (S.map fun e => f e.1.toNat * num e.2 * doubleAt T e.1.toNat).sum := List.sum_nonneg fun y hy => by
      obtain ⟨c, hc, rfl⟩ := List.mem_map.mp hy
      obtain ⟨y, ey, y0, _⟩ := hx' c hc
      have := hr' c hc
      exact mul_nonneg (mul_nonneg (hf0 _ (by omega)) (by rw [num_eq ey]; exact y0)) (hTn _)
    have hsum' : 0 ≤ (S.map fun e => f e.1.toNat).sum := List.sum_nonneg fun y hy => by
      obtain ⟨c, hc, rfl⟩ := List.mem_map.mp hy
      have := hr' c hc
      exact hf0 _ (by omega)
    have skip : ∀ acc', addPairVolume T pv acc e = .ok acc' → NearE Double.rounded q52 m σ acc' s → f v * x * doubleAt T v = 0 →
        ∃ V, forEach (e :: S) acc (addPairVolume T pv) = .ok V ∧
          NearE Double.rounded q52 (m + (S.length + 1)) (σ + 2 * under * (f v + (S.map fun e => f e.1.toNat).sum)) V
            (s + (f v * x * doubleAt T v + (S.map fun e => f e.1.toNat * num e.2 * doubleAt T e.1.toNat).sum)) := by
      intro acc' h1 hacc' e1
      obtain ⟨V, i1, i2⟩ := ih hr' hx' m acc' s σ j hm (by omega) hacc' hσ hs hsb (by omega)
      refine ⟨V, by rw [forEach, h1]; exact i1, ?_⟩
      rw [e1, zero_add]
      refine i2.mono hp (add_nonneg hs hsum) (add_nonneg hσ (mul_nonneg (by linarith) hsum')) (by omega) ?_
      have := mul_nonneg hu hfv
      rw [mul_add]; linarith
    obtain ⟨p, hpv1, hpv2⟩ : ∃ p, pv[v]? = some p ∧ p.val = X.fin (f v) := by
      have : (pv.map Double.val)[v]? = some (X.fin (f v)) := by
        rw [hpv]; unfold arr
        rw [List.getElem?_map, List.getElem?_range hvn]; rfl
      rw [List.getElem?_map] at this
      exact Option.map_eq_some_iff.mp this
    have hrd : rd pv (sizeOfInt (v : Int)) = .ok p := by
      have hI : INT_MAX = 2 ^ 31 - 1 := rfl
      have : sizeOfInt (v : Int) = v := by
        unfold sizeOfInt; omega
      rw [this]; unfold rd; rw [hpv1]
    cases hfind : T.find (v : Int) with
    | none =>
      refine skip acc ?_ hacc (by rw [doubleAt_none hfind, mul_zero])
      unfold addPairVolume; rw [hv, hfind]
    | some d =>
      obtain ⟨z, hz, hz0, hz1⟩ := hT _ _ hfind
      have hdz := doubleAt_some hfind hz
      have hstep : addPairVolume T pv acc e = .ok (Arith.add acc (Arith.mul (Arith.mul p e.2) d)) := by
        unfold addPairVolume; rw [hv, hfind]
        show (rd pv (sizeOfInt (v : Int))).bind _ = _
        rw [hrd]; rfl
      by_cases h0 : f v = 0
      · refine skip _ hstep ?_ (by rw [h0, zero_mul, zero_mul])
        obtain ⟨acc0, hacc0, _⟩ := id hacc
        have hm0 : Double.rounded.val (Arith.mul p e.2) = X.fin 0 := by
          rw [Double.rounded.mul, show Double.rounded.val p = _ from hpv2, h0, show Double.rounded.val e.2 = X.fin x from ex]
          show Double.rounded.rnd (X.fin (0 * x)) = _
          rw [zero_mul]; exact Double.rounded.rnd_zero
        have hm1 : Double.rounded.val (Arith.mul (Arith.mul p e.2) d) = X.fin 0 := by
          rw [Double.rounded.mul, hm0, show Double.rounded.val d = X.fin z from hz]
          show Double.rounded.rnd (X.fin (0 * z)) = _
          rw [zero_mul]; exact Double.rounded.rnd_zero
        refine nearE_congr ?_ hacc
        rw [Double.rounded.add, hm1, hacc0]
        show Double.rounded.rnd (X.fin (_ + 0)) = _
        rw [add_zero, ← hacc0]
        exact Double.rounded.rnd_val acc
      · have hord : 1 / 2 ^ 100 ≤ f v ∧ f v ≤ 2 ^ 100 := by
          rcases hf v hvn with h | h
          · exact absurd h h0
          · rwa [abs_of_nonneg hfv] at h
        have hb1000 : (2 : ℚ) ^ 101 ≤ 2 ^ 1000 := pow_le_pow_right₀ (by norm_num) (by norm_num)
        have h101 : (2 : ℚ) ^ 101 = 2 ^ 100 + 2 ^ 100 := by rw [pow_succ]; ring
        have hP100 : (1 : ℚ) + 1 + 1 ≤ 2 ^ 100 := by norm_num
        have ht := tiny_pos (K := ℚ)
        have ht1 := tiny_le_one
        have hpx : f v * x ≤ 2 ^ 100 := (mul_le_of_le_one_right hfv x1).trans hord.2
        have hpx0 : 0 ≤ f v * x := mul_nonneg hfv x0
        have n1 : NearE Double.rounded q52 1 (tiny ℚ) (Arith.mul p e.2) (f v * x) :=
          nearE_mul hp (k := 0) (by norm_num) hpv2 (near_exact ex) hfv x0 (by
            generalize (2 : ℚ) ^ 1000 = C at *
            generalize (2 : ℚ) ^ 101 = A at *
            generalize (2 : ℚ) ^ 100 = B at *
            linarith)
        have n2 : NearE Double.rounded q52 2 (tiny ℚ + tiny ℚ) (Arith.mul (Arith.mul p e.2) d) (f v * x * z) :=
          nearE_scale (by norm_num) n1 hz hz0 hz1 hpx0 ht.le (by
            generalize (2 : ℚ) ^ 1000 = C at *
            generalize (2 : ℚ) ^ 101 = A at *
            generalize (2 : ℚ) ^ 100 = B at *
            linarith)
        have hpz0 : 0 ≤ f v * x * z := mul_nonneg hpx0 hz0
        have hpz : f v * x * z ≤ 2 ^ 100 := (mul_le_of_le_one_right hpx0 hz1).trans hpx
        have hnew : s + f v * x * z + (σ + (tiny ℚ + tiny ℚ) + tiny ℚ) ≤ ((j + 1 : Nat) : ℚ) * 2 ^ 101 := by
          push_cast
          rw [add_mul, one_mul]
          generalize (2 : ℚ) ^ 1000 = C at *
          generalize (2 : ℚ) ^ 101 = A at *
          generalize (2 : ℚ) ^ 100 = B at *
          linarith
        have n3 : NearE Double.rounded q52 (m + 1) (σ + (tiny ℚ + tiny ℚ) + tiny ℚ) (Arith.add acc (Arith.mul (Arith.mul p e.2) d)) (s + f v * x * z) := by
          refine nearE_add hp (Double.pow_le_two (by omega)) hacc (n2.mono hp hpz0 (by linarith) hm le_rfl) hσ (by linarith) ?_
          refine le_trans ?_ (big_le (j := j + 1) (by omega))
          exact le_trans (by linarith) hnew
        obtain ⟨V, i1, i2⟩ := ih hr' hx' (m + 1) _ (s + f v * x * z) (σ + (tiny ℚ + tiny ℚ) + tiny ℚ) (j + 1) (by omega) (by omega) n3
          (by linarith) (by linarith) hnew (by omega)
        refine ⟨V, by rw [forEach, hstep]; exact i1, ?_⟩
        rw [hdz, ← add_assoc s, show m + (S.length + 1) = m + 1 + S.length by omega]
        refine i2.mono hp (add_nonneg (by linarith) hsum) (add_nonneg (by linarith) (mul_nonneg (by linarith) hsum')) le_rfl ?_
        have := two_tiny_le hord.1
        rw [mul_add]
        linarith

/-- A sum over the entries of a map is one over all cells. -/
theorem sum_entries {n : Nat} (g : Nat → ℚ) : ∀ {S : CellSetValues Double}, S.Pairwise (fun a b => a.1 < b.1) → (∀ e ∈ S, 0 ≤ e.1 ∧ e.1 < n) →
    (S.map fun e => g e.1.toNat * num e.2).sum = ∑ v ∈ Finset.range n, g v * doubleAt S v := by
  intro S
  induction S with
  | nil =>
    intro _ _
    refine (Finset.sum_eq_zero fun v _ => ?_).symm
    rw [doubleAt_none rfl, mul_zero]
  | cons e S ih =>
    intro hs hr
    obtain ⟨h1, h2⟩ := List.pairwise_cons.mp hs
    obtain ⟨c0, c1⟩ := hr e List.mem_cons_self
    obtain ⟨w, hw⟩ : ∃ v : Nat, e.1 = v := ⟨e.1.toNat, (Int.toNat_of_nonneg c0).symm⟩
    rw [List.map_cons, List.sum_cons, ih h2 fun e he => hr e (List.mem_cons_of_mem _ he)]
    have hnone : OMap.find S (w : Int) = none := by
      rw [← Option.not_isSome_iff_eq_none, OMap.find_isSome_iff, List.mem_map]
      rintro ⟨a, ha, e1⟩
      have := h1 a ha
      omega
    have hat : ∀ v : Nat, doubleAt (e :: S) v = (if v = w then num e.2 else 0) + doubleAt S v := by
      intro v
      have hc : OMap.find (e :: S) (v : Int) = if e.1 = (v : Int) then some e.2 else OMap.find S (v : Int) := OMap.find_cons ..
      by_cases hvw : v = w
      · subst hvw
        rw [if_pos rfl, doubleAt_none hnone, add_zero]
        unfold doubleAt num
        rw [hc, if_pos hw, Option.map_some]
        cases Double.val e.2 <;> rfl
      · rw [if_neg hvw, zero_add]
        unfold doubleAt
        rw [hc, if_neg (by omega)]
    have hmem : w ∈ Finset.range n := Finset.mem_range.mpr (by omega)
    have : ∑ v ∈ Finset.range n, g v * doubleAt (e :: S) v
        = (∑ v ∈ Finset.range n, if v = w then g v * num e.2 else 0) + ∑ v ∈ Finset.range n, g v * doubleAt S v := by
      rw [← Finset.sum_add_distrib]
      refine Finset.sum_congr rfl fun v _ => ?_
      rw [hat v]
      split <;> ring
    rw [this, Finset.sum_ite_eq' (Finset.range n) w, if_pos hmem, hw, Int.toNat_natCast]

end Verif.Rounding
