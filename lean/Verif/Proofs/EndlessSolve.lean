/-
A solve with `double`s that never returns.
-/
import Verif.Proofs.EndlessRing
import Verif.Proofs.EndlessOrder

namespace Verif.Endless
open Verif.Solver Verif.Spec Verif.Tarjan Double

section
variable {R : Type} [Arith R] {d : SolverData R} {isStart : List Bool} {ls : List R}

/-- A solve that visits single cells and then iterates for ever does not return. -/
theorem solve_endless {pre : List Nat} {c : List Nat} {post : List (List Nat)} (hc : 2 ≤ c.length) (fuel : Nat)
    {s s' : List R × List R} (hpre : visit d isStart ls pre s = .ok s')
    (hdiv : solveMultiCell d isStart ls fuel s' (c.map fun v : Nat => (v : Int)) = .diverge) :
    solve d isStart ls (cellsOf (pre.map (fun v => [v]) ++ c :: post)) (offsets (pre.map (fun v => [v]) ++ c :: post)) fuel s
      = .diverge := by
  set comps := pre.map (fun v => [v]) ++ c :: post with hcomps
  have hlen : comps.length = pre.length + (post.length + 1) := by simp [hcomps]
  have hk : ∀ (k : Nat) (l : List Nat) (s : List R × List R), comps[k]? = some l →
      solveComponent d isStart ls (cellsOf comps) (offsets comps) fuel s k
        = match l.map fun v : Nat => (v : Int) with
          | [cell] => solveSingleCell d isStart ls s cell
          | cells => solveMultiCell d isStart ls fuel s cells := by
    intro k l s hl
    have hk : k < comps.length := by
      by_contra h; rw [List.getElem?_eq_none (by omega)] at hl; cases hl
    unfold solveComponent
    simp only [Res.bind_eq, rd_of_getElem? (offsets_getElem? comps (k := k + 1) (by omega)),
      rd_of_getElem? (offsets_getElem? comps (k := k) (by omega)), Res.ok_bind, off_succ hl,
      Nat.add_sub_cancel_left, readCells_comp hl]
    rfl
  have hloop : ∀ k ≤ pre.length, forEach (List.range k) s (solveComponent d isStart ls (cellsOf comps) (offsets comps) fuel)
      = visit d isStart ls (pre.take k) s := by
    intro k
    induction k with
    | zero => intro _; rfl
    | succ k ih =>
      intro hkl
      have hck : comps[k]? = some [pre[k]] := by
        rw [hcomps, List.getElem?_append_left (by rw [List.length_map]; omega)]
        rw [List.getElem?_map, List.getElem?_eq_getElem (by omega)]; rfl
      rw [List.range_succ, forEach_append, ih (by omega), List.take_succ_eq_append_getElem (by omega)]
      unfold visit
      rw [List.map_append, forEach_append]
      congr 1; funext t
      simp only [forEach_cons, forEach_nil, List.map_cons, List.map_nil]
      rw [hk k _ t hck]
      rfl
  unfold solve
  simp only [Res.bind_eq, offsets_length, Nat.add_sub_cancel, hlen]
  rw [List.range_add, forEach_append, hloop _ (le_refl _), List.take_length, hpre, Res.ok_bind, List.range_succ_eq_map,
    List.map_cons, forEach_cons]
  have hcc : comps[pre.length + 0]? = some c := by
    rw [hcomps, Nat.add_zero, List.getElem?_append_right (by simp)]
    simp
  rw [hk _ c s' hcc]
  match c, hc, hdiv with
  | a :: b :: l, _, hdiv =>
    simp only [List.map_cons] at hdiv ⊢
    rw [hdiv]; rfl

end

/-! ### The chain -/

theorem cell_first : cellFrom (ofNat 0) (ofNat 19) true (ofNat 85500000000) [] = .ok (ofNat 4500000000, ofNat 1) := by
  have h1 : cellFrom (ofNat 0) (ofNat 19) true (ofNat 85500000000) []
      = (assertThat (Arith.le Arith.zero (Arith.add (ofNat 0) (cellSource (ofNat 19) true)))).bind fun _ =>
        (assertThat (Arith.le Arith.zero (Arith.add Arith.zero (ofNat 19)))).bind fun _ =>
        (cellTracer (Arith.add (ofNat 0) (cellSource (ofNat 19) true)) (Arith.add Arith.zero (ofNat 19))).bind fun c =>
        .ok (cellTof (ofNat 85500000000) (Arith.add (ofNat 0) (cellSource (ofNat 19) true)) c Arith.zero, c) := rfl
  rw [h1]
  have h2 : Arith.add (ofNat 0) (cellSource (ofNat 19) true) = ofNat 19 := by decide +kernel
  have h3 : Arith.add Arith.zero (ofNat 19) = ofNat 19 := by decide +kernel
  rw [h2, h3, zero_eq, le_ofNat (by norm_num) (by norm_num)]
  have h4 : cellTracer (ofNat 19) (ofNat 19) = .ok (ofNat 1) := by
    unfold cellTracer
    rw [zero_eq, eq_ofNat (by norm_num) (by norm_num)]
    have : Arith.div (ofNat 19) (ofNat 19) = ofNat 1 := by decide +kernel
    rw [this]; rfl
  have h5 : cellTof (ofNat 85500000000) (ofNat 19) (ofNat 1) (ofNat 0) = ofNat 4500000000 := by decide +kernel
  rw [h4, Res.ok_bind, h5]
  rfl

theorem cell_next {k : Nat} (hk : k ≤ 10000) :
    cellFrom (ofNat 19) (ofNat 0) false (ofNat 85500000000) [((ofNat (k * 4500000000), ofNat 1), ofNat 19)]
      = .ok (ofNat ((k + 1) * 4500000000), ofNat 1) := by
  have h1 : cellFrom (ofNat 19) (ofNat 0) false (ofNat 85500000000) [((ofNat (k * 4500000000), ofNat 1), ofNat 19)]
      = (assertThat (Arith.le Arith.zero (Arith.add (ofNat 19) (cellSource (ofNat 0) false)))).bind fun _ =>
        (assertThat (Arith.le Arith.zero (Arith.add Arith.zero (Arith.mul (ofNat 1) (ofNat 19))))).bind fun _ =>
        (cellTracer (Arith.add (ofNat 19) (cellSource (ofNat 0) false))
          (Arith.add Arith.zero (Arith.mul (ofNat 1) (ofNat 19)))).bind fun c =>
        .ok (cellTof (ofNat 85500000000) (Arith.add (ofNat 19) (cellSource (ofNat 0) false)) c
          (Arith.add Arith.zero (Arith.mul (Arith.mul (ofNat (k * 4500000000)) (ofNat 1)) (ofNat 19))), c) := rfl
  rw [h1]
  have h2 : Arith.add (ofNat 19) (cellSource (ofNat 0) false) = ofNat 19 := by decide +kernel
  have h3 : Arith.add Arith.zero (Arith.mul (ofNat 1) (ofNat 19)) = ofNat 19 := by decide +kernel
  have h6 : Arith.add Arith.zero (Arith.mul (Arith.mul (ofNat (k * 4500000000)) (ofNat 1)) (ofNat 19))
      = ofNat (k * 4500000000 * 19) := by
    rw [mul_ofNat (by omega) (by norm_num), Nat.mul_one, mul_ofNat (by omega) (by norm_num), zero_eq,
      add_ofNat (by norm_num) (by omega), Nat.zero_add]
  rw [h2, h3, h6, zero_eq, le_ofNat (by norm_num) (by norm_num)]
  have h4 : cellTracer (ofNat 19) (ofNat 19) = .ok (ofNat 1) := by
    unfold cellTracer
    rw [zero_eq, eq_ofNat (by norm_num) (by norm_num)]
    have : Arith.div (ofNat 19) (ofNat 19) = ofNat 1 := by decide +kernel
    rw [this]; rfl
  have h7 : Arith.lt (ofNat 19) (Arith.div (ofNat 85500000000) maxTof) = false := by decide +kernel
  have h5 : cellTof (ofNat 85500000000) (ofNat 19) (ofNat 1) (ofNat (k * 4500000000 * 19)) = ofNat ((k + 1) * 4500000000) := by
    unfold cellTof
    simp only
    rw [h7, zero_eq, lt_ofNat (by norm_num) (by norm_num)]
    simp only [Nat.zero_lt_one, decide_true, if_true, Bool.false_eq_true, if_false]
    rw [mul_ofNat (by norm_num) (by norm_num), mul_ofNat (by norm_num) (by norm_num), add_ofNat (by norm_num) (by omega),
      show 85500000000 * 1 + k * 4500000000 * 19 = (k + 1) * 4500000000 * (19 * 1) by omega,
      div_ofNat (by omega) (by norm_num) (by norm_num)]
  rw [h4, Res.ok_bind, h5]
  rfl

section
variable {N : Nat} {d : SolverData Double} {isStart : List Bool} {ls : List Double}

/-- The values after the first `k` cells of the chain. -/
def partway (N k : Nat) : List Double × List Double :=
  ((List.range (N + 3)).map fun v => if v < k then ofNat ((v + 1) * 4500000000) else ofNat 0,
   (List.range (N + 3)).map fun v => if v < k then ofNat 1 else ofNat 0)

theorem visit_chain (hd : IsChainRing N d isStart ls) (hN : N ≤ 10000) :
    visit d isStart ls (List.range N) (partway N 0) = .ok (partway N N) := by
  have hI := hd.int
  have hN1 := hd.pos
  have key : ∀ k ≤ N, visit d isStart ls (List.range k) (partway N 0) = .ok (partway N k) := by
    intro k
    induction k with
    | zero => intro _; rfl
    | succ k ih =>
      intro hk
      have hl1 : k < (partway N k).1.length := by simp [partway]; omega
      have hl2 : k < (partway N k).2.length := by simp [partway]; omega
      have hcell : solveSingleCell d isStart ls (partway N k) (k : Int) = .ok (partway N (k + 1)) := by
        have hset : ((partway N k).1.set k (ofNat ((k + 1) * 4500000000)), (partway N k).2.set k (ofNat 1)) = partway N (k + 1) := by
          unfold partway
          refine Prod.ext ?_ ?_
          · apply List.ext_getElem?
            intro i
            simp only [List.getElem?_set, List.getElem?_map]
            by_cases hi : i < N + 3
            · rw [List.getElem?_range hi]
              simp only [List.length_map, List.length_range, Option.map_some]
              by_cases e : k = i
              · subst e; simp [hi]
              · rw [if_neg e]
                by_cases e2 : i < k
                · rw [if_pos e2, if_pos (by omega)]
                · rw [if_neg e2, if_neg (by omega)]
            · rw [if_neg (by omega), List.getElem?_eq_none (by simp; omega)]; rfl
          · apply List.ext_getElem?
            intro i
            simp only [List.getElem?_set, List.getElem?_map]
            by_cases hi : i < N + 3
            · rw [List.getElem?_range hi]
              simp only [List.length_map, List.length_range, Option.map_some]
              by_cases e : k = i
              · subst e; simp [hi]
              · rw [if_neg e]
                by_cases e2 : i < k
                · rw [if_pos e2, if_pos (by omega)]
                · rw [if_neg e2, if_neg (by omega)]
            · rw [if_neg (by omega), List.getElem?_eq_none (by simp; omega)]; rfl
        have hpv : pvAt N k = ofNat 85500000000 := by unfold pvAt; rw [if_pos (by omega)]
        rcases Nat.eq_zero_or_pos k with rfl | hk0
        · rw [single_from (by omega) hl1 hl2 (hd.source 0 (by omega)) (hd.start 0 (by omega))
            (by rw [hd.localSource]; exact hd.source 0 (by omega)) (hd.influx 0 (by omega)) (hd.pv 0 (by omega)) []
            (by rw [hd.row 0 (by omega)]; rfl) (by simp)]
          rw [hpv, show influxAt N 0 = ofNat 0 from rfl, show srcAt N 0 = ofNat 19 from rfl,
            show decide ((0 : Nat) = 0 ∨ 0 = N + 1) = true by simp, List.map_nil, cell_first, Res.ok_bind]
          simp only [Nat.zero_add, Nat.one_mul] at hset
          rw [hset]
        · rw [single_from (by omega) hl1 hl2 (hd.source k (by omega)) (hd.start k (by omega))
            (by rw [hd.localSource]; exact hd.source k (by omega)) (hd.influx k (by omega)) (hd.pv k (by omega))
            [(k - 1, (ofNat (k * 4500000000), ofNat 1), ofNat 19)]
            (by
              rw [hd.row k (by omega)]
              have h0 : k ≠ 0 := by omega
              have h1 : k < N := by omega
              simp [rowAt, h0, h1])
            (by
              simp only [List.mem_singleton]; rintro u rfl
              refine ⟨by simp only; omega, ?_, ?_⟩
              · unfold partway
                simp only
                rw [List.getElem?_map, List.getElem?_range (by omega), Option.map_some, if_pos (by omega),
                  show k - 1 + 1 = k by omega]
              · unfold partway
                simp only
                rw [List.getElem?_map, List.getElem?_range (by omega), Option.map_some, if_pos (by omega)])]
          have h0 : k ≠ 0 := by omega
          have h1 : k < N := by omega
          have h2 : k ≠ N + 1 := by omega
          rw [hpv, show influxAt N k = ofNat 19 by simp [influxAt, h0, h1], show srcAt N k = ofNat 0 by simp [srcAt, h0, h2],
            show decide (k = 0 ∨ k = N + 1) = false by simp [h0, h2], List.map_cons, List.map_nil]
          rw [cell_next (by omega), Res.ok_bind]
          simp only
          rw [hset]
      have : visit d isStart ls (List.range (k + 1)) (partway N 0)
          = (visit d isStart ls (List.range k) (partway N 0)).bind fun s => solveSingleCell d isStart ls s (k : Int) := by
        unfold visit
        rw [List.range_succ, List.map_append, forEach_append]
        congr 1; funext s
        simp only [List.map_cons, List.map_nil, forEach_cons, forEach_nil]
        cases solveSingleCell d isStart ls s (k : Int) <;> rfl
      rw [this, ih (by omega), Res.ok_bind, hcell]
  exact key N (le_refl _)

theorem partway_holds (hN : 1 ≤ N) : Holds N (ofNat (N * 4500000000)) (partway N N) blank where
  len1 := by simp [partway]
  len2 := by simp [partway]
  up := by
    unfold partway
    simp only
    rw [List.getElem?_map, List.getElem?_map, List.getElem?_range (by omega), Option.map_some, if_pos (by omega),
      show N - 1 + 1 = N by omega]
    simp only [Option.map_some, if_pos (show N - 1 < N by omega), and_self]
  r1 := by
    unfold partway blank
    simp only
    rw [List.getElem?_map, List.getElem?_map, List.getElem?_range (by omega), zero_eq]
    simp
  r2 := by
    unfold partway blank
    simp only
    rw [List.getElem?_map, List.getElem?_map, List.getElem?_range (by omega), zero_eq]
    simp
  r3 := by
    unfold partway blank
    simp only
    rw [List.getElem?_map, List.getElem?_map, List.getElem?_range (by omega), zero_eq]
    simp

end

/-- The solve of the whole chain and ring. -/
theorem solve_chainRing {d : SolverData Double} {isStart : List Bool} {ls : List Double} (hd : IsChainRing 10000 d isStart ls)
    (fuel : Nat) {comps : List (List Nat)} (hc : comps = (List.range 10000).map (fun v => [v]) ++ [[10002, 10001, 10000]]) :
    solve d isStart ls (cellsOf comps) (offsets comps) fuel (partway 10000 0) = .diverge := by
  rw [hc]
  refine solve_endless (by decide) fuel (visit_chain hd (le_refl _)) ?_
  refine gaussSeidel_endless hd fuel (partway_holds (by omega)) (by simpa using never_ends) _ ?_
  decide +kernel

end Verif.Endless
