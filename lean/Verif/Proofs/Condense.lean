/- Correctness of `condenseDuplicates`, `accumulateConnWeights` and `create`. -/
import Verif.Proofs.Transpose

namespace Verif.CSR
variable {R : Type}

/-- `uniqueFrom` on an ascending continuation of a non-empty output. -/
theorem uniqueFrom_spec (xs : List Int) : ∀ (last : Int) (a : List Int) (b : List Nat),
    (last :: xs).Pairwise (· ≤ ·) →
    ∃ D ix, uniqueFrom last (a ++ [last], b) xs = (a ++ last :: D, b ++ ix) ∧
      (last :: D).Pairwise (· < ·) ∧ (∀ x, x ∈ last :: D ↔ x ∈ last :: xs) ∧
      ix.length = xs.length ∧
      ∀ k (h : k < xs.length), ∃ t, ix[k]? = some (a.length + t) ∧ (last :: D)[t]? = some xs[k] := by
  induction xs with
  | nil => intro last a b _; exact ⟨[], [], by simp [uniqueFrom]⟩
  | cons x xs ih =>
    intro last a b hs
    have hlx : last ≤ x := (List.pairwise_cons.mp hs).1 x (by simp)
    have hxs : (x :: xs).Pairwise (· ≤ ·) := (List.pairwise_cons.mp hs).2
    unfold uniqueFrom
    by_cases hx : x = last
    · subst hx
      obtain ⟨D, ix, e, h1, h2, h3, h4⟩ := ih x a (b ++ [(a ++ [x]).length - 1]) hxs
      refine ⟨D, ((a ++ [x]).length - 1) :: ix, ?_, h1, ?_, by simp [h3], ?_⟩
      · simp only [if_true]; rw [e]; simp
      · intro y; rw [h2 y]; simp
      · intro k hk
        rcases k with _ | k
        · exact ⟨0, by simp⟩
        · simpa using h4 k (by simpa using hk)
    · obtain ⟨D, ix, e, h1, h2, h3, h4⟩ := ih x (a ++ [last]) (b ++ [(a ++ [last]).length]) hxs
      refine ⟨x :: D, (a ++ [last]).length :: ix, ?_, ?_, ?_, by simp [h3], ?_⟩
      · simp only [hx, if_false]; rw [e]; simp
      · rw [List.pairwise_cons]
        refine ⟨?_, h1⟩
        intro y hy
        have hlt : last < x := lt_of_le_of_ne hlx (fun h => hx h.symm)
        rcases List.mem_cons.mp hy with rfl | hy'
        · exact hlt
        · exact lt_trans hlt ((List.pairwise_cons.mp h1).1 y hy')
      · intro y; rw [List.mem_cons, h2 y]; simp
      · intro k hk
        rcases k with _ | k
        · exact ⟨1, by simp⟩
        · obtain ⟨t, ht1, ht2⟩ := h4 k (by simpa using hk)
          refine ⟨t + 1, ?_, ?_⟩
          · simp at ht1 ⊢; rw [ht1]; congr 1; omega
          · simpa using ht2

theorem unique_spec (s : List Int × List Nat) (seg : List Int) (hs : seg.Pairwise (· ≤ ·)) :
    ∃ D ix, unique s seg = (s.1 ++ D, s.2 ++ ix) ∧ D.Pairwise (· < ·) ∧ (∀ x, x ∈ D ↔ x ∈ seg) ∧
      ix.length = seg.length ∧
      ∀ k (h : k < seg.length), ∃ t, ix[k]? = some (s.1.length + t) ∧ D[t]? = some seg[k] := by
  cases seg with
  | nil => exact ⟨[], [], by simp [unique]⟩
  | cons x xs =>
    obtain ⟨D, ix, e, h1, h2, h3, h4⟩ := uniqueFrom_spec xs x s.1 (s.2 ++ [s.1.length]) hs
    refine ⟨x :: D, s.1.length :: ix, ?_, h1, h2, by simp [h3], ?_⟩
    · simp only [unique]; rw [e]; simp
    · intro k hk
      rcases k with _ | k
      · exact ⟨0, by simp⟩
      · simpa using h4 k (by simpa using hk)

/-- Offset of row `r`. -/
def off (rows : List (List Int)) (r : Nat) : Nat := (rows.take r).flatten.length

@[simp] theorem off_zero (rows : List (List Int)) : off rows 0 = 0 := by simp [off]

theorem off_append_left {rows : List (List Int)} {r : Nat} (h : r ≤ rows.length)
    (l : List (List Int)) : off (rows ++ l) r = off rows r := by
  simp [off, List.take_append_of_le_length h]

theorem off_length (rows : List (List Int)) : off rows rows.length = rows.flatten.length := by
  simp [off]

theorem off_succ {rows : List (List Int)} {r : Nat} (h : r < rows.length) :
    off rows (r + 1) = off rows r + rows[r].length := by
  simp only [off, List.take_succ_eq_append_getElem h, List.flatten_append, List.length_append,
    List.flatten_cons, List.flatten_nil, List.append_nil]

theorem flatten_getElem? {rows : List (List Int)} {r t : Nat} (h : r < rows.length)
    (ht : t < rows[r].length) : rows.flatten[off rows r + t]? = some rows[r][t] := by
  have h1 : rows = rows.take r ++ rows[r] :: rows.drop (r + 1) := by
    rw [← List.drop_eq_getElem_cons, List.take_append_drop]
  have h2 : rows.flatten = (rows.take r).flatten ++ (rows[r] ++ (rows.drop (r + 1)).flatten) := by
    conv_lhs => rw [h1]
    rw [List.flatten_append, List.flatten_cons]
  rw [h2, List.getElem?_append_right (by simp [off])]
  simp only [off, Nat.add_sub_cancel_left]
  rw [List.getElem?_append_left ht]
  simp [ht]

/-- State of the condensation loop after the rows before `r`. -/
structure CondInv (ns jn : List Nat) (m r : Nat) (ia : List Nat) (s : List Nat × Nat × List Int × List Nat)
    (rows : List (List Int)) : Prop where
  len : rows.length = r
  ilen : s.1.length = ia.length
  done : ∀ r' < r, s.1[r']? = some (off rows r')
  todo : ∀ r', r ≤ r' → s.1[r']? = ia[r']?
  cur : s.2.1 = start ns r
  ja : s.2.2.1 = rows.flatten
  elen : s.2.2.2.length = start ns r
  sorted : ∀ row ∈ rows, row.Pairwise (· < ·)
  mem : ∀ r' (h : r' < rows.length), ∀ x, x ∈ rows[r'] ↔
    ∃ q, start ns r' ≤ q ∧ q < start ns (r' + 1) ∧ (castL jn)[q]? = some x
  elm : ∀ r' (h : r' < rows.length), ∀ q, start ns r' ≤ q → q < start ns (r' + 1) →
    ∃ t, s.2.2.2[q]? = some (off rows r' + t) ∧ rows[r'][t]? = (castL jn)[q]?

theorem condenseRow_spec {ns jn : List Nat} {m r : Nat} {s rows}
    (hlen : jn.length = ns.length) (hr : r < m) (hso : RowsSorted ns jn m)
    (h : CondInv ns jn m r ((List.range (m + 1)).map (start ns)) s rows) :
    ∃ s' row, condenseRow (castL jn) s r = .ok s' ∧
      CondInv ns jn m (r + 1) ((List.range (m + 1)).map (start ns)) s' (rows ++ [row]) := by
  obtain ⟨ia, cur, ja, elm⟩ := s
  obtain ⟨h1, h2, h3, h4, h5, h6, h7, h8, h9, h10⟩ := h
  simp only at h2 h3 h4 h5 h6 h7 h10
  have hb : ia[r]? = some (start ns r) := by
    rw [h4 r (le_refl r)]; simp [show r < m + 1 by omega]
  have he : ia[r + 1]? = some (start ns (r + 1)) := by
    rw [h4 (r + 1) (by omega)]; simp [hr]
  have hmono : start ns r ≤ start ns (r + 1) := start_mono ns (by omega)
  have hle : start ns (r + 1) ≤ jn.length := by rw [hlen]; exact start_le_length _ _
  have hcur : cur + (start ns (r + 1) - start ns r) = start ns (r + 1) := by omega
  have hnl : ¬ (castL jn).length < start ns (r + 1) := by simp [castL]; omega
  let seg := ((castL jn).drop cur).take (start ns (r + 1) - cur)
  have hsegl : seg.length = start ns (r + 1) - start ns r := by
    simp [seg, castL, h5]; omega
  have hsegv : ∀ k < start ns (r + 1) - start ns r, seg[k]? = (castL jn)[start ns r + k]? := by
    intro k hk
    simp only [seg, h5]
    rw [List.getElem?_take_of_lt (by omega), List.getElem?_drop]
  have hsegs : seg.Pairwise (· ≤ ·) := by
    rw [List.pairwise_iff_getElem]
    intro a b ha hb hab
    have va := hsegv a (by omega)
    have vb := hsegv b (by omega)
    rw [List.getElem?_eq_getElem ha] at va
    rw [List.getElem?_eq_getElem hb] at vb
    have hs := hso r hr (start ns r + a) (start ns r + b) (by omega) (by omega) (by omega)
    have hal : start ns r + a < jn.length := by omega
    have hbl : start ns r + b < jn.length := by omega
    simp only [castL, List.getElem?_map, List.getElem?_eq_getElem hal, List.getElem?_eq_getElem hbl,
      Option.map_some, Option.some.injEq] at va vb
    simp only [List.getD_eq_getElem?_getD, List.getElem?_eq_getElem hal,
      List.getElem?_eq_getElem hbl, Option.getD_some] at hs
    rw [va, vb]; exact_mod_cast hs
  obtain ⟨D, ix, eu, hD, hmem, hixl, hix⟩ := unique_spec (ja, elm) seg hsegs
  have hltr : r < ia.length := by rw [h2]; simp; omega
  refine ⟨(ia.set r ja.length, start ns (r + 1), ja ++ D, elm ++ ix), D, ?_, ?_⟩
  · unfold condenseRow
    simp only [Res.bind_eq, rd_of_getElem? hb, rd_of_getElem? he, Res.ok_bind, hcur, hnl, if_false,
      wr_ok hltr, Res.pure_eq]
    simp only [seg] at eu
    rw [eu]
  have hoff : off (rows ++ [D]) r = ja.length := by
    rw [off_append_left (by omega), ← h1, off_length, h6]
  have hDr : (rows ++ [D])[r]'(by simp; omega) = D := by simp [← h1]
  constructor
  · simp [h1]
  · simpa using h2
  · intro r' hr'
    simp only
    by_cases hrr : r' = r
    · subst hrr; rw [hoff]; simp [hltr]
    · rw [List.getElem?_set_ne (by omega), off_append_left (by omega)]
      exact h3 r' (by omega)
  · intro r' hr'
    simp only
    rw [List.getElem?_set_ne (by omega)]; exact h4 r' (by omega)
  · rfl
  · simp [h6]
  · simp [h7, hixl, hsegl]; omega
  · intro row hrow
    rcases List.mem_append.mp hrow with hh | hh
    · exact h8 row hh
    · simp at hh; subst hh; exact hD
  · intro r' hr' x
    by_cases hrr : r' = r
    · subst hrr
      rw [hDr, hmem x, List.mem_iff_getElem?]
      constructor
      · rintro ⟨k, hk⟩
        have hkl : k < seg.length := by
          by_contra hc; rw [List.getElem?_eq_none (by omega)] at hk; simp at hk
        rw [hsegv k (by omega)] at hk
        exact ⟨start ns r' + k, by omega, by omega, hk⟩
      · rintro ⟨q, q1, q2, q3⟩
        refine ⟨q - start ns r', ?_⟩
        rw [hsegv _ (by omega)]
        rwa [show start ns r' + (q - start ns r') = q by omega]
    · have hlt : r' < rows.length := by simp at hr'; omega
      rw [List.getElem_append_left hlt]
      exact h9 r' hlt x
  · intro r' hr' q q1 q2
    by_cases hrr : r' = r
    · subst hrr
      obtain ⟨t, t1, t2⟩ := hix (q - start ns r') (by omega)
      refine ⟨t, ?_, ?_⟩
      · simp only
        rw [List.getElem?_append_right (by omega), h7, t1, hoff]
      · rw [hDr, t2, ← List.getElem?_eq_getElem, hsegv _ (by omega)]
        rw [show start ns r' + (q - start ns r') = q by omega]
    · have hlt : r' < rows.length := by simp at hr'; omega
      obtain ⟨t, t1, t2⟩ := h10 r' hlt q q1 q2
      refine ⟨t, ?_, ?_⟩
      · have : start ns (r' + 1) ≤ start ns r := start_mono ns (by omega)
        simp only
        rw [List.getElem?_append_left (by omega), t1, off_append_left (by omega)]
      · rw [List.getElem_append_left hlt]; exact t2

/-- `g` stores the rows `rows`, and entry `e` of the input is stored in the slot of its
    (row, column) pair. -/
structure Assembled (g : CSR R) (ns cs : List Nat) (m : Nat) (rows : List (List Int)) : Prop where
  len : rows.length = m
  ia : g.ia = (List.range (m + 1)).map (off rows)
  ja : g.ja = rows.flatten
  sorted : ∀ row ∈ rows, row.Pairwise (· < ·)
  mem : ∀ r (h : r < rows.length), ∀ x, x ∈ rows[r] ↔
    ∃ e : Nat, ∃ j : Nat, x = j ∧ ns[e]? = some r ∧ cs[e]? = some j
  elen : g.elmIdx.length = ns.length
  elm : ∀ (e r j : Nat), ns[e]? = some r → cs[e]? = some j →
    ∃ (h : r < rows.length) (t : Nat), g.elmIdx[e]? = some (off rows r + t) ∧
      rows[r][t]? = some (j : Int)

theorem condenseDuplicates_spec {g : CSR R} {ns cs m m' p jn} (h : Rep g ns cs m m' p jn)
    (hso : RowsSorted ns jn m) :
    ∃ g' rows, condenseDuplicates g = .ok g' ∧ Assembled g' ns cs m rows ∧ g'.sa = g.sa := by
  obtain ⟨gia, gja, gsa, gelm, gnr, gnc⟩ := g
  obtain rfl : gja = castL jn := h.ja
  obtain rfl : gelm = (List.range ns.length).map p := h.elm
  obtain rfl : gia = (List.range (m + 1)).map (start ns) := h.ia
  obtain ⟨⟨ia, cur, ja, elm⟩, e1, rows, hrows⟩ := forEach_range_inv (n := m)
    (s := ((List.range (m + 1)).map (start ns), 0, ([] : List Int), ([] : List Nat)))
    (f := condenseRow (castL jn))
    (fun r s => ∃ rows, CondInv ns jn m r ((List.range (m + 1)).map (start ns)) s rows)
    ⟨[], by constructor <;> simp⟩
    (by
      rintro r s hr ⟨rows, hrows⟩
      obtain ⟨s', row, e, hi⟩ := condenseRow_spec h.jlen hr hso hrows
      exact ⟨s', e, _, hi⟩)
  obtain ⟨h1, h2, h3, h4, h5, h6, h7, h8, h9, h10⟩ := hrows
  simp only at h2 h3 h4 h5 h6 h7 h10
  have hn : start ns m = ns.length := start_eq_length h.rowLt
  have helm : elm = (List.range ns.length).map (fun q => elm.getD q 0) := by
    apply List.ext_getElem
    · simp [h7, hn]
    · intro i hi hi2; simp [hi]
  have e2 := remapElementIndex_spec (R := R) ⟨ia, ja, gsa, elm, gnr, gnc⟩
    ((List.range ns.length).map p) (fun q => elm.getD q 0) ns.length helm (by
      intro x hx; simp at hx; obtain ⟨a, ha, rfl⟩ := hx; exact h.lt a ha)
  have hil : ia.length = m + 1 := by rw [h2]; simp
  have hlast : ia.length - 1 < ia.length := by omega
  refine ⟨⟨ia.set (ia.length - 1) ja.length, ja, gsa,
      ((List.range ns.length).map p).map (fun q => elm.getD q 0), gnr, gnc⟩, rows, ?_, ?_, rfl⟩
  · unfold condenseDuplicates
    simp only [List.length_map, List.length_range, Nat.add_sub_cancel, Res.bind_eq, e1, Res.ok_bind,
      e2, wr_ok hlast, Res.pure_eq]
  · constructor
    · exact h1
    · apply List.ext_getElem?
      intro i
      simp only
      rw [List.getElem?_set]
      by_cases hi : i = m
      · subst hi
        rw [if_pos (by omega), if_pos (by omega)]
        simp [← h1, off_length, h6]
      · rw [if_neg (by omega)]
        by_cases hi2 : i < m
        · rw [h3 i hi2]; simp [show i < m + 1 by omega]
        · rw [List.getElem?_eq_none (by omega), List.getElem?_eq_none (by simp; omega)]
    · exact h6
    · exact h8
    · intro r hr x
      rw [h9 r hr x]
      constructor
      · rintro ⟨q, q1, q2, q3⟩
        have hq : q < ns.length := lt_of_lt_of_le q2 (start_le_length _ _)
        obtain ⟨e, he, rfl⟩ := surj_of_inj h.lt h.inj q hq
        have hv := h.jval e he
        have hce : e < cs.length := by rw [h.len]; exact he
        rw [List.getElem?_eq_getElem hce] at hv
        refine ⟨e, cs[e], ?_, ?_, by simp⟩
        · simp [castL, hv] at q3; exact q3.symm
        · have hlo := h.lo e he; have hhi := h.hi e he
          have : ns[e] = r := by
            by_contra hne
            rcases Nat.lt_or_ge ns[e] r with hlt | hge
            · have := start_mono ns (show ns[e] + 1 ≤ r by omega); omega
            · have := start_mono ns (show r + 1 ≤ ns[e] by omega); omega
          simp [he, this]
      · rintro ⟨e, j, rfl, hr', hj⟩
        obtain ⟨he, hre⟩ := List.getElem?_eq_some_iff.mp hr'
        refine ⟨p e, ?_, ?_, ?_⟩
        · have := h.lo e he; rwa [hre] at this
        · have := h.hi e he; rwa [hre] at this
        · simp [castL, h.jval e he, hj]
    · simp
    · intro e r j hr hj
      obtain ⟨he, hre⟩ := List.getElem?_eq_some_iff.mp hr
      have hrm : r < rows.length := by rw [h1, ← hre]; exact h.rowLt _ (List.getElem_mem he)
      obtain ⟨t, t1, t2⟩ := h10 r hrm (p e) (by have := h.lo e he; rwa [hre] at this)
        (by have := h.hi e he; rwa [hre] at this)
      refine ⟨hrm, t, ?_, ?_⟩
      · simp [he, t1]
      · rw [t2]; simp [castL, h.jval e he, hj]

theorem off_mono (rows : List (List Int)) {a b : Nat} (h : a ≤ b) : off rows a ≤ off rows b := by
  unfold off
  have : rows.take a = (rows.take b).take a := by rw [List.take_take]; congr 1; omega
  rw [this]
  generalize rows.take b = l
  conv_rhs => rw [← List.take_append_drop a l, List.flatten_append, List.length_append]
  omega

/-- A slot determines its row and its place in the row. -/
theorem off_inj {rows : List (List Int)} {r r' t t' : Nat} (h : r < rows.length)
    (h' : r' < rows.length) (ht : t < rows[r].length) (ht' : t' < rows[r'].length)
    (he : off rows r + t = off rows r' + t') : r = r' ∧ t = t' := by
  have a1 := off_succ h
  have a2 := off_succ h'
  have : r = r' := by
    by_contra hne
    rcases Nat.lt_or_ge r r' with hlt | hge
    · have := off_mono rows (show r + 1 ≤ r' by omega); omega
    · have := off_mono rows (show r' + 1 ≤ r by omega); omega
  subst this
  exact ⟨rfl, by omega⟩

/-- Every slot belongs to some row. -/
theorem off_surj (rows : List (List Int)) : ∀ q < rows.flatten.length,
    ∃ r, ∃ h : r < rows.length, ∃ t, t < rows[r].length ∧ q = off rows r + t := by
  intro q hq
  rw [← off_length] at hq
  suffices H : ∀ k ≤ rows.length, q < off rows k →
      ∃ r, ∃ h : r < rows.length, ∃ t, t < rows[r].length ∧ q = off rows r + t from
    H _ (le_refl _) hq
  intro k
  induction k with
  | zero => intro _ h; simp at h
  | succ k ih =>
    intro hk h
    by_cases hlt : q < off rows k
    · exact ih (by omega) hlt
    · have := off_succ (rows := rows) (r := k) (by omega)
      exact ⟨k, by omega, q - off rows k, by omega, by omega⟩

section weights
variable [Arith R]

theorem accumulateConnWeights_spec {g : CSR R} {v : List R} (hl : v.length = g.elmIdx.length)
    (hlt : ∀ q ∈ g.elmIdx, q < g.ja.length) :
    ∃ sa, accumulateConnWeights g v = .ok { g with sa := sa } ∧ sa.length = g.ja.length ∧
      ∀ q < g.ja.length, sa[q]? = some
        ((((g.elmIdx.zip v).filter fun e => e.1 == q).map Prod.snd).foldl Arith.add Arith.zero) := by
  obtain ⟨sa, e, h1, h2⟩ := forEach_inv (xs := g.elmIdx.zip v)
    (s := List.replicate g.ja.length (Arith.zero : R))
    (f := fun sa e => do
      let x ← rd sa e.1
      wr sa e.1 (Arith.add x e.2))
    (fun pre sa => sa.length = g.ja.length ∧ ∀ q < g.ja.length, sa[q]? = some
      (((pre.filter fun e => e.1 == q).map Prod.snd).foldl Arith.add Arith.zero))
    ⟨by simp, by intro q hq; simp [hq]⟩
    (by
      rintro pre ⟨k, x⟩ post sa hx ⟨hl, hv⟩
      have hk : k < g.ja.length := by
        apply hlt
        have : (k, x) ∈ g.elmIdx.zip v := by rw [hx]; simp
        exact (List.of_mem_zip this).1
      have hk' : k < sa.length := by omega
      simp only [Res.bind_eq, rd_of_getElem? (hv k hk), Res.ok_bind, wr_ok hk']
      refine ⟨_, rfl, by simpa using hl, ?_⟩
      intro q hq
      rw [List.getElem?_set]
      by_cases hkq : k = q
      · subst hkq; simp [hk']
      · rw [if_neg hkq, hv q hq]
        simp [List.filter_append, hkq])
  refine ⟨sa, ?_, h1, h2⟩
  unfold accumulateConnWeights
  simp only [hl, ne_eq, not_true, if_false, Res.bind_eq, Res.pure_eq]
  simp only [Res.bind_eq] at e
  simp only [e, Res.ok_bind]

/-- Weights of the entries `(r, j)`, in order. -/
def weightsAt (ns cs : List Nat) (v : List R) (r j : Nat) : List R :=
  (((ns.zip cs).zip v).filter fun e => e.1 == (r, j)).map Prod.snd

theorem filter_zip_congr {α β γ : Type} (p : α → Bool) (q : β → Bool) :
    ∀ (as : List α) (bs : List β) (vs : List γ), as.length = bs.length →
    (∀ i (h : i < as.length) (h' : i < bs.length), p as[i] = q bs[i]) →
    ((as.zip vs).filter fun e => p e.1).map Prod.snd = ((bs.zip vs).filter fun e => q e.1).map Prod.snd
  | [], [], _, _, _ => by simp
  | [], _ :: _, _, h, _ => by simp at h
  | _ :: _, [], _, h, _ => by simp at h
  | a :: as, b :: bs, [], _, _ => by simp
  | a :: as, b :: bs, v :: vs, h, hp => by
    have h0 : p a = q b := hp 0 (by simp) (by simp)
    have ih := filter_zip_congr p q as bs vs (by simpa using h)
      (fun i hi hi' => hp (i + 1) (by simpa using hi) (by simpa using hi'))
    simp only [List.zip_cons_cons, List.filter_cons, h0]
    by_cases hq : q b = true <;> simp [hq, ih]

omit [Arith R] in
theorem Assembled.lt {g : CSR R} {ns cs m rows} (h : Assembled g ns cs m rows)
    (hl : cs.length = ns.length) : ∀ q ∈ g.elmIdx, q < g.ja.length := by
  intro q hq
  obtain ⟨e, he, rfl⟩ := List.getElem_of_mem hq
  have he' : e < ns.length := by rw [← h.elen]; exact he
  obtain ⟨hr, t, t1, t2⟩ := h.elm e ns[e] (cs[e]'(by omega)) (by simp [he']) (by simp [hl, he'])
  rw [List.getElem?_eq_getElem he] at t1
  obtain ⟨ht, _⟩ := List.getElem?_eq_some_iff.mp t2
  have := flatten_getElem? hr ht
  obtain ⟨hf, _⟩ := List.getElem?_eq_some_iff.mp this
  rw [h.ja]
  simp only [Option.some.injEq] at t1
  omega

theorem Assembled.weights {g : CSR R} {ns cs m rows} (h : Assembled g ns cs m rows)
    (hl : cs.length = ns.length) {v : List R} (hv : v.length = ns.length) :
    ∃ sa, accumulateConnWeights g v = .ok { g with sa := sa } ∧ sa.length = g.ja.length ∧
      ∀ r (hr : r < rows.length) (t j : Nat), rows[r][t]? = some (j : Int) →
        sa[off rows r + t]? = some ((weightsAt ns cs v r j).foldl Arith.add Arith.zero) := by
  obtain ⟨sa, e, h1, h2⟩ := accumulateConnWeights_spec (g := g) (v := v) (by rw [h.elen, hv])
    (h.lt hl)
  refine ⟨sa, e, h1, ?_⟩
  intro r hr t j hj
  obtain ⟨ht, hjt⟩ := List.getElem?_eq_some_iff.mp hj
  obtain ⟨hf, _⟩ := List.getElem?_eq_some_iff.mp (flatten_getElem? hr ht)
  rw [h2 _ (by rw [h.ja]; exact hf)]
  congr 2
  unfold weightsAt
  apply filter_zip_congr (fun k => k == off rows r + t) (fun e => e == (r, j))
  · simp [h.elen, hl]
  · intro i hi hi'
    have hin : i < ns.length := by rw [← h.elen]; exact hi
    have hic : i < cs.length := by omega
    obtain ⟨hr', t', t1, t2⟩ := h.elm i ns[i] cs[i] (by simp [hin]) (by simp [hic])
    rw [List.getElem?_eq_getElem hi] at t1
    simp only [Option.some.injEq] at t1
    obtain ⟨ht', hj'⟩ := List.getElem?_eq_some_iff.mp t2
    rw [List.getElem_zip, t1]
    rw [Bool.eq_iff_iff]
    simp only [beq_iff_eq, Prod.mk.injEq]
    constructor
    · intro heq
      obtain ⟨a, b⟩ := off_inj hr' hr ht' ht heq
      refine ⟨a, ?_⟩
      subst b
      have : rows[ns[i]][t'] = rows[r][t'] := by congr 1; congr 1
      rw [hj', hjt] at this; exact_mod_cast this
    · rintro ⟨rfl, rfl⟩
      have hnd : rows[ns[i]].Nodup :=
        (h.sorted _ (List.getElem_mem hr')).imp (fun h => ne_of_lt h)
      have := (List.Nodup.getElem_inj_iff hnd (hi := ht') (hj := ht)).mp (by rw [hj', hjt])
      rw [this]

end weights

end Verif.CSR
