/- Negative and too large indices: building the graph goes out of bounds. -/
import Verif.Proofs.Create

namespace Verif

namespace CSR
variable {R : Type}

theorem rowSlot_neg_one : rowSlot (-1) = 0 := by decide

theorem rowSlot_neg {x : Int} (h1 : -2147483648 ≤ x) (h2 : x < -1) :
    18446744071562067968 < rowSlot x := by
  unfold rowSlot sizeOfInt
  have : x % 18446744073709551616 = x + 18446744073709551616 := by omega
  rw [this]; omega

/-- A normal return or an access out of bounds. -/
def OkOrOob {α : Type} (x : Res α) : Prop := (∃ a, x = .ok a) ∨ x = .ub .outOfBounds

theorem OkOrOob.bind {α β : Type} {x : Res α} {f : α → Res β} (h : OkOrOob x)
    (hf : ∀ a, x = .ok a → OkOrOob (f a)) : OkOrOob (x.bind f) := by
  rcases h with ⟨a, rfl⟩ | rfl
  · exact hf a rfl
  · exact Or.inr rfl

theorem OkOrOob.ok {α : Type} (a : α) : OkOrOob (Res.ok a) := Or.inl ⟨a, rfl⟩

theorem rd_okOrOob {α : Type} (v : List α) (i : Nat) : OkOrOob (rd v i) := by
  unfold rd; split <;> first | exact .ok _ | exact Or.inr rfl

theorem wr_okOrOob {α : Type} (v : List α) (i : Nat) (x : α) : OkOrOob (wr v i x) := by
  unfold wr; split <;> first | exact .ok _ | exact Or.inr rfl

theorem forEach_okOrOob {α σ : Type} {f : σ → α → Res σ} {xs : List α} {s : σ}
    (h : ∀ s, ∀ x ∈ xs, OkOrOob (f s x)) : OkOrOob (forEach xs s f) := by
  induction xs generalizing s with
  | nil => exact .ok _
  | cons x xs ih =>
    rw [forEach_cons]
    exact (h s x (by simp)).bind fun a _ => ih fun s y hy => h s y (by simp [hy])

theorem accumulateRowEntries_okOrOob (g : CSR R) {nr : Int} (hnr : 0 ≤ nr) (rows : List Int) :
    OkOrOob (accumulateRowEntries g nr rows) := by
  unfold accumulateRowEntries countRows prefixSums
  rw [assertThat_ok (by simpa using hnr)]
  refine (forEach_okOrOob fun s x _ => (rd_okOrOob _ _).bind fun _ _ => wr_okOrOob _ _ _).bind
    fun _ _ => ?_
  refine (forEach_okOrOob fun s x _ => (rd_okOrOob _ _).bind fun _ _ => (rd_okOrOob _ _).bind
    fun _ _ => (wr_okOrOob _ _ _).bind fun _ _ => wr_okOrOob _ _ _).bind fun _ _ => ?_
  exact .ok _

theorem createGraph_okOrOob (g : CSR R) (rows cols : List Int) (h : g.ia[0]? = some rows.length) :
    OkOrOob (createGraph g rows cols) := by
  unfold createGraph insertEntry
  rw [rd_eq_ok_iff.mpr h]
  simp only [Res.bind_eq, Res.ok_bind, beq_self_eq_true, assertThat_true]
  split
  · exact Or.inr rfl
  refine (forEach_okOrOob fun s x _ => (rd_okOrOob _ _).bind fun _ _ => (wr_okOrOob _ _ _).bind
    fun _ _ => (wr_okOrOob _ _ _).bind fun _ _ => .ok _).bind fun _ _ => ?_
  exact (wr_okOrOob _ _ _).bind fun _ _ => .ok _

theorem sum_set_succ {l : List Nat} {i n : Nat} (h : l[i]? = some n) : (l.set i (n + 1)).sum = l.sum + 1 := by
  induction l generalizing i with
  | nil => simp at h
  | cons x l ih =>
    cases i with
    | zero => simp at h; subst h; simp; omega
    | succ i => simp at h; simp [ih h]; omega

theorem countRows_sum {rows : List Int} {ia ia' : List Nat} (h : countRows ia rows = .ok ia') :
    ia'.sum = ia.sum + rows.length := by
  unfold countRows at h
  induction rows generalizing ia with
  | nil => simp at h; subst h; rfl
  | cons r rows ih =>
    rw [forEach_cons, Res.bind_ok_iff] at h
    obtain ⟨t, ht, h⟩ := h
    simp only [Res.bind_eq, Res.bind_ok_iff, rd_eq_ok_iff, wr_eq_ok_iff] at ht
    obtain ⟨n, hn, _, rfl⟩ := ht
    rw [ih h, sum_set_succ hn]
    simp; omega

theorem prefixSums_total {j : Nat} : ∀ {k s : Nat} {ia ia' : List Nat}, ia[0]? = some s →
    forEach (List.range' (k + 1) j) ia (fun ia i => do
      let s ← rd ia 0
      let c ← rd ia i
      let ia ← wr ia 0 (s + c)
      wr ia i (s + c - c)) = .ok ia' → ia.length = k + 1 + j → ia'[0]? = some (s + (ia.drop (k + 1)).sum) := by
  induction j with
  | zero =>
    intro k s ia ia' h0 h hl
    simp at h; subst h
    rw [List.drop_eq_nil_of_le (by omega)]
    simpa using h0
  | succ j ih =>
    intro k s ia ia' h0 h hl
    rw [List.range'_succ, forEach_cons, Res.bind_ok_iff] at h
    obtain ⟨t, ht, h⟩ := h
    simp only [Res.bind_eq, Res.bind_ok_iff, rd_eq_ok_iff, wr_eq_ok_iff] at ht
    obtain ⟨s', h1, c, h2, _, ⟨h3, rfl⟩, h4, rfl⟩ := ht
    rw [h0] at h1; cases h1
    have := ih (k := k + 1) (s := s + c) (ia := (ia.set 0 (s + c)).set (k + 1) (s + c - c)) (ia' := ia')
      (by rw [List.getElem?_set_ne (by omega), List.getElem?_set_self h3]) h (by simp; omega)
    rw [this]
    have hd : ia.drop (k + 1) = c :: ia.drop (k + 2) := by
      obtain ⟨hk, e⟩ := List.getElem?_eq_some_iff.mp h2
      rw [List.drop_eq_getElem_cons hk, e]
    have hd2 : ((ia.set 0 (s + c)).set (k + 1) (s + c - c)).drop (k + 1 + 1) = ia.drop (k + 2) := by
      rw [List.drop_set_of_lt (by omega), List.drop_set_of_lt (by omega)]
    rw [hd, hd2, List.sum_cons]
    congr 1; omega

/-- After the rows have been counted without access out of bounds, entry 0 is the number of connections. -/
theorem accumulateRowEntries_total {g g' : CSR R} {nr : Int} {rows : List Int}
    (h : accumulateRowEntries g nr rows = .ok g') : g'.ia[0]? = some rows.length := by
  unfold accumulateRowEntries at h
  simp only [Res.bind_eq, Res.bind_ok_iff, Res.pure_eq] at h
  obtain ⟨_, _, ia, h1, ia', h2, h3⟩ := h
  simp only [Res.ok.injEq] at h3
  have hs := countRows_sum h1
  have l1 : ia.length = sizeOfInt nr + 1 := by
    unfold countRows at h1
    exact (forEach_ok (fun ia => ia.length = sizeOfInt nr + 1) (by simp) (by
      intro s s' x _ hs hf
      simp only [Res.bind_eq, Res.bind_ok_iff, wr_eq_ok_iff] at hf
      obtain ⟨_, _, _, rfl⟩ := hf; simpa using hs) h1).1
  unfold prefixSums at h2
  cases ia with
  | nil => simp at l1
  | cons s ia =>
    have := prefixSums_total (k := 0) (s := s) (ia := s :: ia) rfl h2 (by rw [l1]; omega)
    rw [← h3, this]
    simp at hs ⊢
    omega

theorem accumulateRowEntries_length {g g' : CSR R} {nr : Int} {rows : List Int}
    (h : accumulateRowEntries g nr rows = .ok g') : g'.ia.length = sizeOfInt nr + 1 := by
  unfold accumulateRowEntries at h
  simp only [Res.bind_eq, Res.bind_ok_iff, Res.pure_eq] at h
  obtain ⟨_, _, ia, h1, ia', h2, h3⟩ := h
  unfold countRows at h1
  unfold prefixSums at h2
  have l1 := (forEach_ok (fun ia => ia.length = sizeOfInt nr + 1) (by simp) (by
    intro s s' x _ hs hf
    simp only [Res.bind_eq, Res.bind_ok_iff, wr_eq_ok_iff] at hf
    obtain ⟨_, _, _, rfl⟩ := hf; simpa using hs) h1).1
  have l2 := (forEach_ok (fun ia => ia.length = sizeOfInt nr + 1) l1 (by
    intro s s' x _ hs hf
    simp only [Res.bind_eq, Res.bind_ok_iff, wr_eq_ok_iff] at hf
    obtain ⟨_, _, _, _, _, ⟨_, rfl⟩, _, rfl⟩ := hf; simpa using hs) h2).1
  simp only [Res.ok.injEq] at h3
  rw [← h3]; exact l2

/-- A negative row index makes the counting sort go out of bounds, whatever else the
    input contains. -/
theorem negative_row_ub (g : CSR R) {nr : Int} {rows : List Int} (cols : List Int)
    (hnr : 0 ≤ nr) (hnr' : nr ≤ INT_MAX) {x : Int} (hx : x ∈ rows) (hlo : -2147483648 ≤ x)
    (hneg : x < 0) :
    ((accumulateRowEntries g nr rows).bind fun g => createGraph g rows cols) = .ub .outOfBounds := by
  have hou : OkOrOob ((accumulateRowEntries g nr rows).bind fun g => createGraph g rows cols) :=
    (accumulateRowEntries_okOrOob _ hnr _).bind fun _ h => createGraph_okOrOob _ _ _ (accumulateRowEntries_total h)
  rcases hou with ⟨g2, hok⟩ | h
  swap
  · exact h
  exfalso
  rw [Res.bind_ok_iff] at hok
  obtain ⟨g1, h1, h2⟩ := hok
  have hlen := accumulateRowEntries_length h1
  rw [sizeOfInt_nonneg hnr hnr'] at hlen
  unfold createGraph at h2
  simp only [Res.bind_eq, Res.bind_ok_iff] at h2
  obtain ⟨ia0, hia0, _, has, h2⟩ := h2
  have ha : ia0 = rows.length := by
    unfold assertThat at has; split at has <;> simp_all
  subst ha
  rw [rd_eq_ok_iff] at hia0
  split at h2
  · simp at h2
  rename_i hcl
  rw [Res.bind_ok_iff] at h2
  obtain ⟨s', hfe, _⟩ := h2
  -- every entry was inserted successfully, with `ia[0]` at least the number of entries
  have := (forEach_ok (f := insertEntry)
    (fun s => (∃ k, s.1[0]? = some k ∧ rows.length ≤ k) ∧ s.1.length = nr.toNat + 1 ∧
      s.2.1.length = rows.length)
    ⟨⟨_, hia0, le_refl _⟩, hlen, length_resize _ _ _⟩
    (by
      rintro ⟨ia, ja, elm⟩ s' e _ ⟨⟨k, hk, hkl⟩, hl, hjl⟩ hf
      simp only at hk hl hjl
      unfold insertEntry at hf
      simp only [Res.bind_eq, Res.bind_ok_iff, rd_eq_ok_iff, wr_eq_ok_iff, Res.pure_eq] at hf
      obtain ⟨k', hk', ia', ⟨hlt, rfl⟩, ja', ⟨hlt', rfl⟩, hs'⟩ := hf
      simp only [Res.ok.injEq] at hs'
      subst hs'
      refine ⟨?_, by simpa using hl, by simpa using hjl⟩
      simp only
      by_cases h0 : rowSlot e.1 = 0
      · rw [h0] at hk' hlt ⊢
        rw [hk] at hk'
        simp only [Option.some.injEq] at hk'
        exact ⟨k' + 1, by simp [hlt], by omega⟩
      · exact ⟨k, by rw [List.getElem?_set_ne h0]; exact hk, hkl⟩) hfe).2
  obtain ⟨i, hi, rfl⟩ := List.getElem_of_mem hx
  have hi' : i < cols.length := by omega
  obtain ⟨⟨ia, ja, elm⟩, t', ⟨⟨k, hk, hkl⟩, hl, hjl⟩, hf⟩ := this (rows[i], cols[i]) (by
    rw [List.mem_iff_getElem]
    exact ⟨i, by simp; omega, by simp⟩)
  simp only at hk hl hjl
  unfold insertEntry at hf
  simp only [Res.bind_eq, Res.bind_ok_iff, rd_eq_ok_iff, wr_eq_ok_iff, Res.pure_eq] at hf
  obtain ⟨k', hk', _, ⟨hlt, _⟩, _, ⟨hlt', _⟩, _⟩ := hf
  by_cases hm1 : rows[i] = -1
  · rw [hm1, rowSlot_neg_one, hk] at hk'
    simp only [Option.some.injEq] at hk'
    omega
  · have := rowSlot_neg hlo (by omega)
    unfold INT_MAX at hnr'
    omega

variable [Arith R]

/-- `create` with indices outside `[0, INT_MAX)` that passed the first check. -/
theorem create_ub (g : CSR R) (c : Connections R) (es : List (Int × Int)) (n : Nat)
    (hi : c.i = es.map Prod.fst) (hj : c.j = es.map Prod.snd)
    (hM : -1 ≤ c.maxI) (hM' : -1 ≤ c.maxJ)
    (hrange : ∀ e ∈ es, -2147483648 ≤ e.1 ∧ -2147483648 ≤ e.2)
    (hle : ∀ e ∈ es, e.1 ≤ c.maxI ∧ e.2 ≤ c.maxJ)
    (hcheck : (!c.isEmpty && decide (n ≤ sizeOfInt c.maxI)) = false)
    (hbad : (∃ e ∈ es, e.1 < 0 ∨ e.2 < 0) ∨ (INT_MAX : Int) ≤ c.maxI ∨ (INT_MAX : Int) ≤ c.maxJ) :
    ∃ u, create g c n = .ub u ∧ (c.maxI < INT_MAX → c.maxJ < INT_MAX → u = .outOfBounds) := by
  unfold create
  simp only [hcheck, Bool.false_eq_true, if_false, Res.bind_eq]
  by_cases hI : (INT_MAX : Int) ≤ c.maxI
  · have : intSucc c.maxI = .ub .overflow := by unfold intSucc; rw [if_neg (by omega)]
    refine ⟨.overflow, ?_, fun h => absurd h (by omega)⟩
    unfold assemble
    simp [this]
  have s1 : intSucc c.maxI = .ok (c.maxI + 1) := by unfold intSucc; rw [if_pos (by omega)]
  by_cases hneg : ∃ e ∈ es, e.1 < 0
  · obtain ⟨e, he, hlt⟩ := hneg
    have hu := negative_row_ub g (nr := c.maxI + 1) (rows := c.i) c.j (by omega) (by omega)
      (x := e.1) (by rw [hi]; exact List.mem_map_of_mem he) (hrange e he).1 hlt
    refine ⟨.outOfBounds, ?_, fun _ _ => rfl⟩
    unfold assemble
    simp only [Res.bind_eq, s1, Res.ok_bind]
    cases ha : accumulateRowEntries g (c.maxI + 1) c.i with
    | ok g1 =>
      rw [ha] at hu
      simp only [Res.ok_bind] at hu
      simp [hu]
    | ub u' => rw [ha] at hu; simp at hu; simp [hu]
    | throw e => rw [ha] at hu; simp at hu
    | diverge => rw [ha] at hu; simp at hu
  -- the first counting sort succeeds
  have hnn : ∀ e ∈ es, 0 ≤ e.1 := by
    intro e he; by_contra hc; exact hneg ⟨e, he, by omega⟩
  obtain ⟨m, hm⟩ : ∃ m : Nat, c.maxI + 1 = m := ⟨(c.maxI + 1).toNat, by omega⟩
  set ns := (es.map Prod.fst).map Int.toNat with hns
  have hci : c.i = castL ns := by
    rw [hi]; apply castL_toNat; intro x hx
    obtain ⟨e, he, rfl⟩ := List.mem_map.mp hx; exact hnn e he
  have hnsm : ∀ x ∈ ns, x < m := by
    intro x hx; rw [hns] at hx
    obtain ⟨y, hy, rfl⟩ := List.mem_map.mp hx; obtain ⟨e, he, rfl⟩ := List.mem_map.mp hy
    have := hnn _ he; have := hle _ he; omega
  obtain ⟨ia, e1, hl1, h0, hs⟩ := accumulateRowEntries_spec g (m := m) (by omega) hnsm
  obtain ⟨ja, e2, hjl, hjv⟩ := createGraph_int_spec { g with ia := ia } (cs := c.j) (m := m)
    (by omega) hnsm (by rw [hj, hns]; simp) hl1 h0 hs
  unfold assemble
  rw [hci, s1, hm]
  simp only [Res.bind_eq, Res.ok_bind, e1, e2]
  by_cases hJ : (INT_MAX : Int) ≤ c.maxJ
  · have : intSucc c.maxJ = .ub .overflow := by unfold intSucc; rw [if_neg (by omega)]
    exact ⟨.overflow, by simp [this], fun _ h => absurd h (by omega)⟩
  have s2 : intSucc c.maxJ = .ok (c.maxJ + 1) := by unfold intSucc; rw [if_pos (by omega)]
  have hneg2 : ∃ e ∈ es, e.2 < 0 := by
    rcases hbad with ⟨e, he, h | h⟩ | h | h
    · exact absurd ⟨e, he, h⟩ hneg
    · exact ⟨e, he, h⟩
    · exact absurd h hI
    · exact absurd h hJ
  obtain ⟨e, he, hlt⟩ := hneg2
  have hmemja : e.2 ∈ ja := by
    obtain ⟨k, hk⟩ := List.mem_iff_getElem?.mp he
    have hkl : k < ns.length := by
      obtain ⟨h, _⟩ := List.getElem?_eq_some_iff.mp hk; rw [hns]; simpa using h
    have := hjv k hkl
    rw [hj, List.getElem?_map, hk] at this
    exact List.mem_iff_getElem?.mpr ⟨_, this⟩
  have hu := negative_row_ub (R := R)
    ⟨(List.range (m + 1)).map (start ns), ja, g.sa, (List.range ns.length).map (pos ns),
      m, c.maxJ + 1⟩ (nr := c.maxJ + 1) (rows := ja) (castL (expand ns m)) (by omega) (by omega)
    (x := e.2) hmemja (hrange e he).2 hlt
  refine ⟨.outOfBounds, ?_, fun _ _ => rfl⟩
  simp only [s2, Res.ok_bind, Res.pure_eq]
  unfold sort transpose
  simp only [Res.bind_eq, expandStartPointers_spec, Res.ok_bind]
  revert hu
  generalize accumulateRowEntries _ _ _ = x
  intro hu
  cases x with
  | ok g1 => simp only [Res.ok_bind] at hu ⊢; simp [hu]
  | ub u' => simp at hu; simp [hu]
  | throw e => simp at hu
  | diverge => simp at hu

end CSR
end Verif
