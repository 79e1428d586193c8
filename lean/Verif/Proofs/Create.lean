/- `create` and `compress` meet the adjacency specification. -/
import Verif.Proofs.Condense
import Verif.Spec.Graph

namespace Verif
open Spec

namespace CSR
variable {R : Type}

theorem getD_map_range {m r : Nat} (f : Nat → Nat) (h : r < m) :
    ((List.range m).map f).getD r 0 = f r := by
  simp [List.getD_eq_getElem?_getD, h]

theorem rowOf_rows {rows : List (List Int)} {r : Nat} (h : r < rows.length) :
    rowOf ((List.range (rows.length + 1)).map (off rows)) rows.flatten r = rows[r] := by
  unfold rowOf
  rw [getD_map_range _ (by omega), getD_map_range _ (by omega), off_succ h]
  have h1 : rows = rows.take r ++ rows[r] :: rows.drop (r + 1) := by
    rw [← List.drop_eq_getElem_cons, List.take_append_drop]
  have h2 : rows.flatten = (rows.take r).flatten ++ (rows[r] ++ (rows.drop (r + 1)).flatten) := by
    conv_lhs => rw [h1]
    rw [List.flatten_append, List.flatten_cons]
  rw [h2]
  have : off rows r = (rows.take r).flatten.length := rfl
  rw [this, List.drop_left, Nat.add_sub_cancel_left, List.take_left]

/-- Rows with the right contents give the adjacency structure. -/
theorem isAdjacency_of_rows {rows : List (List Int)} {E : Int → Int → Prop}
    (hs : ∀ row ∈ rows, row.Pairwise (· < ·))
    (hm : ∀ r (h : r < rows.length), ∀ j, j ∈ rows[r] ↔ E r j) :
    IsAdjacency rows.length E ((List.range (rows.length + 1)).map (off rows)) rows.flatten := by
  refine ⟨by simp, by simp, ?_, ?_, ?_, ?_⟩
  · rw [List.pairwise_map]
    exact List.pairwise_lt_range.imp fun h => off_mono rows (Nat.le_of_lt h)
  · simp [off_length]
  · intro r hr; rw [rowOf_rows hr]; exact hs _ (List.getElem_mem hr)
  · intro r hr j; rw [rowOf_rows hr]; exact hm r hr j

theorem castL_toNat {l : List Int} (h : ∀ x ∈ l, 0 ≤ x) : l = castL (l.map Int.toNat) := by
  induction l with
  | nil => rfl
  | cons x xs ih =>
    have h0 := h x (by simp)
    simp only [List.map_cons, castL] at ih ⊢
    rw [← ih (fun y hy => h y (by simp [hy]))]
    simp [h0]

theorem off_append_replicate (rows : List (List Int)) (k : Nat) :
    (List.range (rows.length + k + 1)).map (off (rows ++ List.replicate k []))
      = (List.range (rows.length + 1)).map (off rows) ++ List.replicate k rows.flatten.length := by
  apply List.ext_getElem
  · simp; omega
  · intro i h1 h2
    simp at h1
    by_cases hi : i < rows.length + 1
    · rw [List.getElem_append_left (by simpa using hi)]
      simp [off_append_left (show i ≤ rows.length by omega)]
    · rw [List.getElem_append_right (by simp; omega)]
      simp only [List.getElem_map, List.getElem_range, List.getElem_replicate, off]
      rw [List.take_append, List.flatten_append, List.length_append, List.take_of_length_le (by omega)]
      simp [List.take_replicate]

variable [Arith R]

/-- Correctness of `create` from an arbitrary earlier state of the object. -/
theorem create_spec (g : CSR R) (c : Connections R) (es : List (Int × Int)) (n : Nat)
    (hi : c.i = es.map Prod.fst) (hj : c.j = es.map Prod.snd)
    (h0 : ∀ e ∈ es, 0 ≤ e.1 ∧ 0 ≤ e.2) (hM : -1 ≤ c.maxI ∧ c.maxI < INT_MAX)
    (hM' : -1 ≤ c.maxJ ∧ c.maxJ < INT_MAX) (hle : ∀ e ∈ es, e.1 ≤ c.maxI ∧ e.2 ≤ c.maxJ)
    (hn : es ≠ [] → c.maxI < n) (hv : c.v = [] ∨ c.v.length = es.length) :
    ∃ g', create g c n = .ok g' ∧
      IsAdjacency (max (c.maxI + 1).toNat n) (fun i j => (i, j) ∈ es) g'.ia g'.ja ∧
      (c.v = [] → g'.sa = g.sa) ∧
      (∀ ws : List (Int × Int × R), es = ws.map (fun w => (w.1, w.2.1)) →
        c.v = ws.map (fun w => w.2.2) → c.v ≠ [] →
        HasWeights (max (c.maxI + 1).toNat n) ws g'.ia g'.ja g'.sa) := by
  obtain ⟨m, hm⟩ : ∃ m : Nat, c.maxI + 1 = m := ⟨(c.maxI + 1).toNat, by omega⟩
  obtain ⟨m', hm'⟩ : ∃ m' : Nat, c.maxJ + 1 = m' := ⟨(c.maxJ + 1).toNat, by omega⟩
  set ns := (es.map Prod.fst).map Int.toNat with hns
  set cs := (es.map Prod.snd).map Int.toNat with hcs
  have hnsl : ns.length = es.length := by simp [hns]
  have hcsl : cs.length = ns.length := by simp [hns, hcs]
  have hci : c.i = castL ns := by
    rw [hi]; apply castL_toNat; intro x hx
    obtain ⟨e, he, rfl⟩ := List.mem_map.mp hx; exact (h0 e he).1
  have hcj : c.j = castL cs := by
    rw [hj]; apply castL_toNat; intro x hx
    obtain ⟨e, he, rfl⟩ := List.mem_map.mp hx; exact (h0 e he).2
  have hnsm : ∀ x ∈ ns, x < m := by
    intro x hx; rw [hns] at hx
    obtain ⟨y, hy, rfl⟩ := List.mem_map.mp hx; obtain ⟨e, he, rfl⟩ := List.mem_map.mp hy
    have := h0 _ he; have := hle _ he; omega
  have hcsm : ∀ x ∈ cs, x < m' := by
    intro x hx; rw [hcs] at hx
    obtain ⟨y, hy, rfl⟩ := List.mem_map.mp hx; obtain ⟨e, he, rfl⟩ := List.mem_map.mp hy
    have := h0 _ he; have := hle _ he; omega
  have hne : ∀ k : Nat, ∀ i : Nat, ns[k]? = some i → ∀ j : Nat, cs[k]? = some j →
      es[k]? = some ((i : Int), (j : Int)) := by
    intro k i hk1 j hk2
    rw [hns, List.getElem?_map, List.getElem?_map] at hk1
    rw [hcs, List.getElem?_map, List.getElem?_map] at hk2
    cases hek : es[k]? with
    | none => rw [hek] at hk1; simp at hk1
    | some e =>
      rw [hek] at hk1 hk2
      simp only [Option.map_some, Option.some.injEq] at hk1 hk2
      obtain ⟨hk, he⟩ := List.getElem?_eq_some_iff.mp hek
      have := h0 e (by rw [← he]; exact List.getElem_mem hk)
      have h1 : (i : Int) = e.1 := by omega
      have h2 : (j : Int) = e.2 := by omega
      rw [h1, h2]
  have hem : ∀ (i j : Nat), ((i : Int), (j : Int)) ∈ es ↔ ∃ k : Nat, ns[k]? = some i ∧ cs[k]? = some j := by
    intro i j
    constructor
    · intro h
      obtain ⟨k, hk⟩ := List.mem_iff_getElem?.mp h
      exact ⟨k, by simp [hns, hk], by simp [hcs, hk]⟩
    · rintro ⟨k, hk1, hk2⟩
      exact List.mem_iff_getElem?.mpr ⟨k, hne k i hk1 j hk2⟩
  have hmI : m ≤ INT_MAX := by omega
  have hmI' : m' ≤ INT_MAX := by omega
  obtain ⟨g1, j1, e1, r1, s1⟩ := assemble_spec g hci hcj hcsl hm hm' hmI hmI' hnsm hcsm
  obtain ⟨g2, p2, j2, e2, r2, so2, s2⟩ := sort_spec r1 hmI hmI'
  obtain ⟨g3, rows, e3, a3, s3⟩ := condenseDuplicates_spec r2 so2
  have hrl : rows.length = m := a3.len
  -- optional weights
  have hw : ∃ sa, applyWeights g3 c = .ok { g3 with sa := sa } ∧ (c.v = [] → sa = g.sa) ∧
      (c.v ≠ [] → sa.length = g3.ja.length ∧ ∀ r (hr : r < rows.length) (t j : Nat),
        rows[r][t]? = some (j : Int) →
        sa[off rows r + t]? = some ((weightsAt ns cs c.v r j).foldl Arith.add Arith.zero)) := by
    rcases eq_or_ne c.v [] with hv0 | hv0
    · refine ⟨g3.sa, by simp [applyWeights, Connections.isWeighted, hv0], fun _ => by rw [s3, s2, s1], ?_⟩
      intro h; exact absurd hv0 h
    · have hvl : c.v.length = ns.length := by
        rcases hv with h | h
        · exact absurd h hv0
        · rw [h, hnsl]
      obtain ⟨sa, e4, l4, w4⟩ := a3.weights hcsl hvl
      refine ⟨sa, by simp [applyWeights, Connections.isWeighted, hv0, e4], fun h => absurd h hv0, fun _ => ⟨l4, w4⟩⟩
  obtain ⟨sa, e4, sa0, saw⟩ := hw
  have hthrow : (!c.isEmpty && decide (n ≤ sizeOfInt c.maxI)) = false := by
    by_cases hes : es = []
    · simp [Connections.isEmpty, hi, hes]
    · have h1 := hn hes
      obtain ⟨e, he⟩ := List.exists_mem_of_ne_nil _ hes
      have h2 := (hle e he).1; have h3 := (h0 e he).1
      have : sizeOfInt c.maxI = c.maxI.toNat := sizeOfInt_nonneg (by omega) (by omega)
      rw [this]
      have : ¬ n ≤ c.maxI.toNat := by omega
      simp [this]
  have hmm : (c.maxI + 1).toNat = m := by omega
  -- the rows after extension
  set rows' := rows ++ List.replicate (n - m) [] with hrows'
  have hl' : rows'.length = max m n := by simp [hrows', hrl]; omega
  have hia3 : g3.ia.length - 1 = m := by rw [a3.ia]; simp
  have hlast : g3.ia[m]? = some g3.ja.length := by
    rw [a3.ia, a3.ja]; simp [← hrl, off_length]
  have hia' : g3.ia ++ List.replicate (n - m) g3.ja.length
      = (List.range (rows'.length + 1)).map (off rows') := by
    have := off_append_replicate rows (n - m)
    rw [← hrows', show rows.length + (n - m) + 1 = rows'.length + 1 by simp [hrows']] at this
    rw [this, a3.ia, a3.ja, hrl]
  have hja' : g3.ja = rows'.flatten := by rw [a3.ja, hrows']; simp
  refine ⟨{ g3 with sa := sa, ia := (List.range (rows'.length + 1)).map (off rows') }, ?_, ?_, ?_, ?_⟩
  · unfold create
    simp only [hthrow, Bool.false_eq_true, if_false, Res.bind_eq, e1, Res.ok_bind, e2, e3, e4]
    unfold extendRows
    simp only [hia3]
    by_cases hlt : m < n
    · simp only [hlt, if_true, Res.bind_eq, rd_of_getElem? hlast, Res.ok_bind, Res.pure_eq, hia']
    · simp only [hlt, if_false]
      congr 2
      rw [← hia', show n - m = 0 by omega]; simp
  · simp only [hja', hmm, ← hl']
    apply isAdjacency_of_rows
    · intro row hrow
      rcases List.mem_append.mp hrow with h | h
      · exact a3.sorted row h
      · simp [List.mem_replicate] at h; simp [h.2]
    · intro r hr j
      by_cases hrm : r < rows.length
      · have : rows'[r] = rows[r] := by simp [hrows', List.getElem_append_left hrm]
        rw [this, a3.mem r hrm j]
        constructor
        · rintro ⟨e, j, rfl, h1, h2⟩; exact (hem r j).mpr ⟨e, h1, h2⟩
        · intro h
          have hj0 := (h0 _ h).2
          simp only at hj0
          have hjj : j = (j.toNat : Int) := by omega
          rw [hjj] at h
          obtain ⟨k, k1, k2⟩ := (hem r j.toNat).mp h
          exact ⟨k, j.toNat, hjj, k1, k2⟩
      · have : rows'[r] = [] := by simp [hrows', List.getElem_append_right (not_lt.mp hrm)]
        rw [this]
        constructor
        · intro h; simp at h
        · intro h
          have := (hle _ h).1
          simp only at this; omega
  · intro h; exact sa0 h
  · intro ws hws hwv hv0
    obtain ⟨sal, sav⟩ := saw hv0
    refine ⟨sal, ?_⟩
    simp only [hmm, ← hl']
    intro r hr q q1 q2 j hj
    rw [getD_map_range _ (by omega)] at q1 q2
    have hsucc := off_succ hr
    rw [hsucc] at q2
    have hrm : r < rows.length := by
      by_contra hc
      have : rows'[r] = [] := by simp [hrows', List.getElem_append_right (not_lt.mp hc)]
      rw [this] at q2; simp at q2; omega
    have hrr : rows'[r] = rows[r] := by simp [hrows', List.getElem_append_left hrm]
    have hoff : off rows' r = off rows r := off_append_left (by omega) _
    rw [hoff] at q1 q2
    rw [hrr] at q2
    have ht : q - off rows r < rows[r].length := by omega
    have hfl := flatten_getElem? hrm ht
    rw [show off rows r + (q - off rows r) = q by omega, ← a3.ja, hj] at hfl
    simp only [Option.some.injEq] at hfl
    have hjm : j ∈ rows[r] := by rw [hfl]; exact List.getElem_mem ht
    obtain ⟨e, jn, rfl, _, _⟩ := (a3.mem r hrm j).mp hjm
    have := sav r hrm (q - off rows r) jn (by rw [List.getElem?_eq_getElem ht, ← hfl])
    rw [show off rows r + (q - off rows r) = q by omega] at this
    rw [this]
    congr 2
    -- both selections of weights agree
    unfold weightsAt weightsOf
    have hz : (ns.zip cs).zip c.v = ws.map fun w => ((w.1.toNat, w.2.1.toNat), w.2.2) := by
      rw [hwv, hns, hcs, hws]
      simp [List.zip_map', List.map_map, Function.comp_def]
    rw [hz, List.filter_map, List.map_map]
    simp only [Function.comp_def]
    congr 1
    apply List.filter_congr
    intro w hw
    have hwe : (w.1, w.2.1) ∈ es := by rw [hws]; exact List.mem_map_of_mem hw
    have := h0 _ hwe
    simp only at this
    rw [Bool.eq_iff_iff]
    simp only [beq_iff_eq, Prod.mk.injEq, Bool.and_eq_true]
    omega

end CSR
end Verif
