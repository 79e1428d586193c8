/- Correctness of `transpose` and of sorting by transposing twice. -/
import Verif.Proofs.CountingSort

namespace Verif.CSR
variable {R : Type}

/-- `g` stores the entries `(ns[e], cs[e])`, entry `e` at position `p e`. -/
structure Rep (g : CSR R) (ns cs : List Nat) (m m' : Nat) (p : Nat → Nat) (jn : List Nat) : Prop where
  len : cs.length = ns.length
  rowLt : ∀ x ∈ ns, x < m
  colLt : ∀ x ∈ cs, x < m'
  ia : g.ia = (List.range (m + 1)).map (start ns)
  elm : g.elmIdx = (List.range ns.length).map p
  ja : g.ja = castL jn
  jlen : jn.length = ns.length
  jval : ∀ e < ns.length, jn[p e]? = cs[e]?
  inj : ∀ a b, a < ns.length → b < ns.length → p a = p b → a = b
  lo : ∀ e (h : e < ns.length), start ns ns[e] ≤ p e
  hi : ∀ e (h : e < ns.length), p e < start ns (ns[e] + 1)
  nr : g.numRows = m
  nc : g.numCols = m'

theorem Rep.lt {g : CSR R} {ns cs m m' p jn} (h : Rep g ns cs m m' p jn) :
    ∀ e < ns.length, p e < ns.length :=
  fun e he => lt_of_lt_of_le (h.hi e he) (start_le_length _ _)

theorem Rep.perm {g : CSR R} {ns cs m m' p jn} (h : Rep g ns cs m m' p jn) : jn.Perm cs := by
  have h1 : cs = ((List.range ns.length).map p).map (fun q => jn.getD q 0) := by
    apply List.ext_getElem
    · simp [h.len]
    · intro i hi hi2
      have hi' : i < ns.length := by rw [← h.len]; exact hi
      have h3 := h.jval i hi'
      have h2 : p i < jn.length := by rw [h.jlen]; exact h.lt i hi'
      rw [List.getElem?_eq_getElem h2, List.getElem?_eq_getElem hi] at h3
      simpa [h2] using h3.symm
  have h2 : jn = (List.range ns.length).map (fun q => jn.getD q 0) := by
    apply List.ext_getElem
    · simp [h.jlen]
    · intro i hi hi2; simp [hi]
  have hnd : ((List.range ns.length).map p).Nodup := by
    refine List.Nodup.map_on ?_ List.nodup_range
    intro a ha b hb; exact h.inj a b (by simpa using ha) (by simpa using hb)
  have hsub : ((List.range ns.length).map p) ⊆ List.range ns.length := by
    intro x hx; simp at hx ⊢; obtain ⟨a, ha, rfl⟩ := hx; exact h.lt a ha
  have hperm : ((List.range ns.length).map p).Perm (List.range ns.length) :=
    (List.subperm_of_subset hnd hsub).perm_of_length_le (by simp)
  rw [h1]; conv_lhs => rw [h2]
  exact (hperm.map _).symm

/-- Rows expanded from the offsets: row `r` repeated as often as it has entries. -/
def expand (ns : List Nat) (m : Nat) : List Nat :=
  (List.range m).flatMap fun r => List.replicate (ns.count r) r

theorem expand_succ (ns : List Nat) (m : Nat) :
    expand ns (m + 1) = expand ns m ++ List.replicate (ns.count m) m := by
  simp [expand, List.range_succ]

theorem length_expand (ns : List Nat) (m : Nat) : (expand ns m).length = start ns m := by
  induction m with
  | zero => simp [expand]
  | succ m ih => rw [expand_succ, start_succ]; simp [ih]

theorem expand_getElem? (ns : List Nat) {m r q : Nat} (hr : r < m) (h1 : start ns r ≤ q)
    (h2 : q < start ns (r + 1)) : (expand ns m)[q]? = some r := by
  induction m with
  | zero => omega
  | succ m ih =>
    rw [expand_succ]
    by_cases hrm : r < m
    · have : start ns (r + 1) ≤ start ns m := start_mono ns hrm
      rw [List.getElem?_append_left (by rw [length_expand]; omega)]
      exact ih hrm
    · have : r = m := by omega
      subst this
      rw [start_succ] at h2
      rw [List.getElem?_append_right (by rw [length_expand]; omega), length_expand]
      rw [List.getElem?_replicate]; simp; omega

theorem expand_sorted (ns : List Nat) (m : Nat) : (expand ns m).Pairwise (· ≤ ·) := by
  induction m with
  | zero => simp [expand]
  | succ m ih =>
    rw [expand_succ, List.pairwise_append]
    refine ⟨ih, by simp [List.pairwise_replicate], ?_⟩
    intro a ha b hb
    simp [expand] at ha
    simp at hb
    omega

theorem expand_lt (ns : List Nat) (m : Nat) : ∀ x ∈ expand ns m, x < m := by
  intro a ha; simp [expand] at ha; omega

theorem expandStartPointers_spec (ns : List Nat) (m : Nat) :
    expandStartPointers ((List.range (m + 1)).map (start ns)) = .ok (castL (expand ns m)) := by
  unfold expandStartPointers
  obtain ⟨s, e, h⟩ := forEach_range_inv (n := ((List.range (m + 1)).map (start ns)).length - 1)
    (s := ([] : List Int))
    (f := fun rows i => do
      let b ← rd ((List.range (m + 1)).map (start ns)) i
      let e ← rd ((List.range (m + 1)).map (start ns)) (i + 1)
      pure (rows ++ List.replicate (e - b) (i : Int)))
    (fun k s => s = castL (expand ns k)) (by simp [expand])
    (by
      intro i s hi hs
      simp at hi
      have h1 : ((List.range (m + 1)).map (start ns))[i]? = some (start ns i) := by
        simp [show i < m + 1 by omega]
      have h2 : ((List.range (m + 1)).map (start ns))[i + 1]? = some (start ns (i + 1)) := by
        simp [show i < m by omega]
      simp only [Res.bind_eq, rd_of_getElem? h1, rd_of_getElem? h2, Res.ok_bind, Res.pure_eq]
      refine ⟨_, rfl, ?_⟩
      rw [hs, expand_succ, start_succ]
      simp [castL])
  rw [e, h]; simp

theorem remapElementIndex_spec (g : CSR R) (elm : List Nat) (f : Nat → Nat) (n : Nat)
    (h : g.elmIdx = (List.range n).map f) (hlt : ∀ x ∈ elm, x < n) :
    remapElementIndex g elm = .ok { g with elmIdx := elm.map f } := by
  unfold remapElementIndex
  have := forEach_eq_foldl (xs := elm) (s := ([] : List Nat))
    (f := fun acc i => do let k ← rd g.elmIdx i; pure (acc ++ [k]))
    (fun acc i => acc ++ [f i]) (by
      intro s x hx
      have : g.elmIdx[x]? = some (f x) := by rw [h]; simp [hlt x hx]
      simp [rd_of_getElem? this])
  simp only [Res.bind_eq, Res.pure_eq] at this
  simp only [Res.bind_eq, Res.pure_eq, this, Res.ok_bind]
  congr 2
  generalize elm = l
  suffices H : ∀ acc : List Nat, l.foldl (fun acc i => acc ++ [f i]) acc = acc ++ l.map f by
    simpa using H []
  intro acc
  induction l generalizing acc with
  | nil => simp
  | cons x xs ih => simp [ih]

/-- Rows of a graph in which each row's columns are ascending. -/
def RowsSorted (ns jn : List Nat) (m : Nat) : Prop :=
  ∀ r < m, ∀ q q', start ns r ≤ q → q ≤ q' → q' < start ns (r + 1) → jn.getD q 0 ≤ jn.getD q' 0

theorem transpose_spec {g : CSR R} {ns cs m m' p jn} (h : Rep g ns cs m m' p jn)
    (hm : m ≤ INT_MAX) (hm' : m' ≤ INT_MAX) :
    ∃ g' jn', transpose g = .ok g' ∧ Rep g' cs ns m' m (fun e => pos jn (p e)) jn' ∧
      RowsSorted cs jn' m' ∧ g'.sa = g.sa := by
  obtain ⟨gia, gja, gsa, gelm, gnr, gnc⟩ := g
  obtain rfl : gja = castL jn := h.ja
  obtain rfl : gnc = m' := h.nc
  obtain rfl : gia = _ := h.ia
  have hperm := h.perm
  have hjlt : ∀ x ∈ jn, x < m' := fun x hx => h.colLt x (hperm.mem_iff.mp hx)
  obtain ⟨ia, e1, hl, h0, hs⟩ := accumulateRowEntries_spec (R := R)
    ⟨(List.range (m + 1)).map (start ns), castL jn, gsa, gelm, gnr, (m' : Int)⟩ hm' hjlt
  have hel : (expand ns m).length = jn.length := by
    rw [length_expand, start_eq_length h.rowLt, h.jlen]
  obtain ⟨ja, e2, hjl, hjv⟩ := createGraph_spec (R := R)
    ⟨ia, castL jn, gsa, gelm, gnr, (m' : Int)⟩ (cs := expand ns m) hm' hjlt
    hel hl h0 hs
  have hst : ∀ r, start jn r = start cs r := fun r => start_perm hperm r
  have e3 := remapElementIndex_spec (R := R)
      ⟨(List.range (m' + 1)).map (start jn), castL ja, gsa, (List.range jn.length).map (pos jn),
        gnr, (m' : Int)⟩ gelm (pos jn) jn.length rfl (by
        obtain rfl : gelm = _ := h.elm
        intro x hx; simp at hx; obtain ⟨a, ha, rfl⟩ := hx
        rw [h.jlen]; exact h.lt a ha)
  have hrn : ∀ e < ns.length, (expand ns m)[p e]? = ns[e]? := by
    intro e he
    rw [expand_getElem? ns (h.rowLt _ (List.getElem_mem he)) (h.lo e he) (h.hi e he)]
    simp [he]
  have hjp : ∀ e (he : e < cs.length), ∃ hp : p e < jn.length, jn[p e] = cs[e] := by
    intro e he
    have he' : e < ns.length := by rw [← h.len]; exact he
    have hp : p e < jn.length := by rw [h.jlen]; exact h.lt e he'
    have := h.jval e he'
    rw [List.getElem?_eq_getElem hp, List.getElem?_eq_getElem he] at this
    exact ⟨hp, by simpa using this⟩
  refine ⟨⟨(List.range (m' + 1)).map (start jn), castL ja, gsa, gelm.map (pos jn), m', gnr⟩,
          ja, ?_, ?_, ?_, rfl⟩
  · unfold transpose
    simp only [Res.bind_eq, expandStartPointers_spec, Res.ok_bind, e1, e2, e3, Res.pure_eq]
  · constructor
    · exact h.len.symm
    · exact h.colLt
    · exact h.rowLt
    · simp only; congr 1; funext r; exact hst r
    · obtain rfl : gelm = _ := h.elm
      simp only [h.len, List.map_map]; rfl
    · rfl
    · rw [hjl, h.jlen, h.len]
    · intro e he
      obtain ⟨hp, _⟩ := hjp e he
      rw [hjv _ hp]; exact hrn e (by rw [← h.len]; exact he)
    · intro a b ha hb hab
      obtain ⟨hpa, _⟩ := hjp a ha
      obtain ⟨hpb, _⟩ := hjp b hb
      rw [h.len] at ha hb
      exact h.inj a b ha hb (pos_inj hpa hpb hab)
    · intro e he
      obtain ⟨hp, hv⟩ := hjp e he
      rw [← hst, ← hv]; exact pos_ge hp
    · intro e he
      obtain ⟨hp, hv⟩ := hjp e he
      rw [← hst, ← hv]; exact pos_lt hp
    · exact h.nc
    · exact h.nr
  · intro r hr q q' h1 h2 h3
    have hq'l : q' < jn.length := lt_of_lt_of_le (by rw [hst]; exact h3) (start_le_length jn (r + 1))
    obtain ⟨a, ha, rfl⟩ := pos_surj jn q (by omega)
    obtain ⟨b, hb, rfl⟩ := pos_surj jn q' hq'l
    rw [← hst] at h1 h3
    have hra : jn[a] = r := by
      have g1 := pos_ge ha; have g2 := pos_lt ha
      by_contra hne
      rcases Nat.lt_or_ge jn[a] r with hlt | hge
      · have := start_mono jn (show jn[a] + 1 ≤ r by omega); omega
      · have := start_mono jn (show r + 1 ≤ jn[a] by omega); omega
    have hrb : jn[b] = r := by
      have g1 := pos_ge hb; have g2 := pos_lt hb
      by_contra hne
      rcases Nat.lt_or_ge jn[b] r with hlt | hge
      · have := start_mono jn (show jn[b] + 1 ≤ r by omega); omega
      · have := start_mono jn (show r + 1 ≤ jn[b] by omega); omega
    have hab : a ≤ b := by
      by_contra hc
      have := pos_lt_pos_of_row_eq (e := b) (f := a) ha (by omega) (by rw [hra, hrb]); omega
    have va := hjv a ha
    have vb := hjv b hb
    have ha' : a < (expand ns m).length := by omega
    have hb' : b < (expand ns m).length := by omega
    have hle : (expand ns m)[a] ≤ (expand ns m)[b] := by
      rcases Nat.lt_or_ge a b with hlt | hge
      · exact List.pairwise_iff_getElem.mp (expand_sorted ns m) a b ha' hb' hlt
      · have : a = b := by omega
        subst this; exact le_refl _
    simpa [List.getD_eq_getElem?_getD, va, vb, ha', hb'] using hle

/-- First assembly. -/
theorem assemble_spec (g : CSR R) {c : Connections R} {ns cs : List Nat} {m m' : Nat}
    (hi : c.i = castL ns) (hj : c.j = castL cs) (hl : cs.length = ns.length)
    (hmi : c.maxI + 1 = m) (hmj : c.maxJ + 1 = m') (hm : m ≤ INT_MAX) (hm' : m' ≤ INT_MAX)
    (hns : ∀ x ∈ ns, x < m) (hcs : ∀ x ∈ cs, x < m') :
    ∃ g' jn, assemble g c = .ok g' ∧ Rep g' ns cs m m' (pos ns) jn ∧ g'.sa = g.sa := by
  obtain ⟨ia, e1, hl1, h0, hs⟩ := accumulateRowEntries_spec g hm hns
  obtain ⟨ja, e2, hjl, hjv⟩ := createGraph_spec { g with ia := ia } (cs := cs) hm hns hl hl1 h0 hs
  have s1 : intSucc c.maxI = .ok (m : Int) := by
    unfold intSucc; rw [hmi]; rw [if_pos (by exact_mod_cast hm)]
  have s2 : intSucc c.maxJ = .ok (m' : Int) := by
    unfold intSucc; rw [hmj]; rw [if_pos (by exact_mod_cast hm')]
  refine ⟨{ g with
            ia := (List.range (m + 1)).map (start ns), ja := castL ja,
            elmIdx := (List.range ns.length).map (pos ns), numRows := m, numCols := m' },
          ja, ?_, ?_, rfl⟩
  · unfold assemble
    simp only [Res.bind_eq, s1, Res.ok_bind, hi, hj, e1, e2, s2, Res.pure_eq]
  · exact ⟨hl, hns, hcs, rfl, rfl, rfl, hjl, hjv, fun a b ha hb h => pos_inj ha hb h,
      fun e h => pos_ge h, fun e h => pos_lt h, rfl, rfl⟩

theorem sort_spec {g : CSR R} {ns cs m m' p jn} (h : Rep g ns cs m m' p jn)
    (hm : m ≤ INT_MAX) (hm' : m' ≤ INT_MAX) :
    ∃ g' p' jn', sort g = .ok g' ∧ Rep g' ns cs m m' p' jn' ∧ RowsSorted ns jn' m ∧
      g'.sa = g.sa := by
  obtain ⟨g1, j1, e1, r1, _, s1⟩ := transpose_spec h hm hm'
  obtain ⟨g2, j2, e2, r2, so, s2⟩ := transpose_spec r1 hm' hm
  refine ⟨g2, _, j2, ?_, r2, so, s2.trans s1⟩
  unfold sort
  simp only [Res.bind_eq, e1, Res.ok_bind, e2]

end Verif.CSR
