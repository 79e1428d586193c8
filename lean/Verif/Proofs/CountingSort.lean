/- Correctness of the counting sort in `accumulateRowEntries`/`createGraph`. -/
import Verif.Model.AssembledConnections
import Verif.Proofs.Res
import Mathlib.Data.List.Count
import Mathlib.Tactic.Linarith
import Mathlib.Data.List.Range
import Mathlib.Data.List.Nodup
import Mathlib.Data.List.Perm.Subperm

namespace Verif.CSR

theorem rowSlot_natCast {r : Nat} (h : r ≤ INT_MAX) : rowSlot (r : Int) = r + 1 := by
  unfold rowSlot
  rw [sizeOfInt_nonneg (by omega) (by exact_mod_cast h)]
  unfold INT_MAX at h
  simp; omega

/-- Number of entries in rows before `r`. -/
def start (ns : List Nat) (r : Nat) : Nat := ns.countP (fun x => decide (x < r))

/-- Position of entry `e` after a stable sort by row. -/
def pos (ns : List Nat) (e : Nat) : Nat :=
  start ns (ns.getD e 0) + (ns.take e).count (ns.getD e 0)

@[simp] theorem start_zero (ns : List Nat) : start ns 0 = 0 := by
  simp [start]

theorem start_succ (ns : List Nat) (r : Nat) : start ns (r + 1) = start ns r + ns.count r := by
  induction ns with
  | nil => rfl
  | cons x xs ih =>
    simp only [start, List.countP_cons, List.count_cons] at ih ⊢
    rw [ih]
    by_cases h1 : x < r
    · have : x < r + 1 := by omega
      have h3 : ¬ x = r := by omega
      simp [h1, this, h3]; omega
    · by_cases h2 : x = r
      · subst h2; simp; omega
      · have : ¬ x < r + 1 := by omega
        simp [h1, this, h2]

theorem start_mono (ns : List Nat) {a b : Nat} (h : a ≤ b) : start ns a ≤ start ns b := by
  induction b, h using Nat.le_induction with
  | base => exact Nat.le_refl _
  | succ b _ ih => rw [start_succ]; omega

theorem start_le_length (ns : List Nat) (r : Nat) : start ns r ≤ ns.length :=
  List.countP_le_length

theorem start_eq_length {ns : List Nat} {m : Nat} (h : ∀ x ∈ ns, x < m) :
    start ns m = ns.length := by
  unfold start
  rw [List.countP_eq_length]
  intro a ha; simpa using h a ha

theorem start_perm {ns ms : List Nat} (h : ns.Perm ms) (r : Nat) : start ns r = start ms r :=
  h.countP_eq _

theorem count_take_succ {ns : List Nat} {e : Nat} (h : e < ns.length) (r : Nat) :
    (ns.take (e + 1)).count r = (ns.take e).count r + if ns[e] = r then 1 else 0 := by
  rw [List.take_succ_eq_append_getElem h, List.count_append, List.count_singleton]
  simp

theorem count_take_lt {ns : List Nat} {e : Nat} (h : e < ns.length) :
    (ns.take e).count ns[e] + 1 ≤ ns.count ns[e] := by
  have h1 : (ns.take (e + 1)).count ns[e] = (ns.take e).count ns[e] + 1 := by
    rw [count_take_succ h]; simp
  have h2 : (ns.take (e + 1)).count ns[e] ≤ ns.count ns[e] :=
    (List.take_sublist _ _).count_le _
  omega

theorem pos_ge {ns : List Nat} {e : Nat} (h : e < ns.length) : start ns ns[e] ≤ pos ns e := by
  simp [pos, h]

theorem pos_lt {ns : List Nat} {e : Nat} (h : e < ns.length) :
    pos ns e < start ns (ns[e] + 1) := by
  have := count_take_lt h
  rw [start_succ]
  simp [pos, h]; omega

theorem pos_lt_length {ns : List Nat} {e : Nat} (h : e < ns.length) : pos ns e < ns.length :=
  lt_of_lt_of_le (pos_lt h) (start_le_length _ _)

/-- Order of positions: by row, then by entry number (stability). -/
theorem pos_lt_pos_of_row_lt {ns : List Nat} {e f : Nat} (he : e < ns.length) (hf : f < ns.length)
    (h : ns[e] < ns[f]) : pos ns e < pos ns f :=
  lt_of_lt_of_le (pos_lt he) (le_trans (start_mono ns h) (pos_ge hf))

theorem count_take_mono {ns : List Nat} {e f r : Nat} (h : e ≤ f) :
    (ns.take e).count r ≤ (ns.take f).count r := by
  have : (ns.take e) = (ns.take f).take e := by rw [List.take_take]; congr 1; omega
  rw [this]; exact (List.take_sublist _ _).count_le _

theorem pos_lt_pos_of_row_eq {ns : List Nat} {e f : Nat} (hf : f < ns.length) (hef : e < f)
    (h : ns[e]'(by omega) = ns[f]) : pos ns e < pos ns f := by
  have he : e < ns.length := by omega
  have h1 : (ns.take (e + 1)).count ns[e] = (ns.take e).count ns[e] + 1 := by
    rw [count_take_succ he]; simp
  have h2 := count_take_mono (ns := ns) (e := e + 1) (f := f) (r := ns[e]) (by omega)
  simp [pos, he, hf, ← h]; omega

theorem pos_inj {ns : List Nat} {e f : Nat} (he : e < ns.length) (hf : f < ns.length)
    (h : pos ns e = pos ns f) : e = f := by
  rcases lt_trichotomy ns[e] ns[f] with hr | hr | hr
  · have := pos_lt_pos_of_row_lt he hf hr; omega
  · rcases lt_trichotomy e f with h' | h' | h'
    · have := pos_lt_pos_of_row_eq hf h' hr; omega
    · exact h'
    · have := pos_lt_pos_of_row_eq he h' hr.symm; omega
  · have := pos_lt_pos_of_row_lt hf he hr; omega

/-- An injective map of `[0, n)` into itself is onto. -/
theorem surj_of_inj {n : Nat} {f : Nat → Nat} (hlt : ∀ e < n, f e < n)
    (hinj : ∀ a b, a < n → b < n → f a = f b → a = b) : ∀ p < n, ∃ e < n, f e = p := by
  intro p hp
  have hnd : ((List.range n).map f).Nodup := by
    refine List.Nodup.map_on ?_ List.nodup_range
    intro a ha b hb; exact hinj a b (by simpa using ha) (by simpa using hb)
  have hsub : ((List.range n).map f) ⊆ List.range n := by
    intro x hx; simp at hx ⊢; obtain ⟨a, ha, rfl⟩ := hx; exact hlt a ha
  have hperm : ((List.range n).map f).Perm (List.range n) :=
    (List.subperm_of_subset hnd hsub).perm_of_length_le (by simp)
  have : p ∈ (List.range n).map f := hperm.mem_iff.mpr (by simpa using hp)
  simpa using this

theorem pos_surj (ns : List Nat) : ∀ p < ns.length, ∃ e < ns.length, pos ns e = p :=
  surj_of_inj (fun _ h => pos_lt_length h) (fun _ _ ha hb h => pos_inj ha hb h)

/-! ### The loops -/

abbrev castL (ns : List Nat) : List Int := ns.map (fun (n : Nat) => (n : Int))

theorem countRows_spec {m : Nat} {ns : List Nat} (hm : m ≤ INT_MAX + 1) (h : ∀ x ∈ ns, x < m) :
    ∃ ia, countRows (List.replicate (m + 1) 0) (castL ns) = .ok ia ∧ ia.length = m + 1 ∧
      ia[0]? = some 0 ∧ ∀ r < m, ia[r + 1]? = some (ns.count r) := by
  unfold countRows castL
  obtain ⟨ia, h1, h2⟩ := forEach_inv
    (xs := ns.map (fun (n : Nat) => (n : Int))) (s := List.replicate (m + 1) 0)
    (f := fun ia row => do
      let n ← rd ia (rowSlot row)
      wr ia (rowSlot row) (n + 1))
    (fun pre ia => ia.length = m + 1 ∧ ia[0]? = some 0 ∧
      ∀ r < m, ia[r + 1]? = some (pre.count (r : Int)))
    (by refine ⟨by simp, by simp, ?_⟩; intro r hr; simp [hr])
    (by
      rintro pre x post ia hx ⟨hl, h0, hc⟩
      have hx' : x ∈ ns.map (fun (n : Nat) => (n : Int)) := by rw [hx]; simp
      obtain ⟨n, hn, rfl⟩ := List.mem_map.mp hx'
      have hnm := h n hn
      have hs : rowSlot (n : Int) = n + 1 := rowSlot_natCast (by omega)
      have hlt : n + 1 < ia.length := by omega
      rw [hs]
      simp only [Res.bind_eq, rd_of_getElem? (hc n hnm), Res.ok_bind, wr_ok hlt]
      refine ⟨_, rfl, by simpa using hl, by simpa using h0, ?_⟩
      intro r hr
      rw [List.getElem?_set]
      by_cases hnr : n = r
      · subst hnr; simp [hlt]
      · have : ¬ (n : Int) = r := by omega
        simp [hnr, hc r hr, List.count_append, this])
  refine ⟨ia, h1, h2.1, h2.2.1, ?_⟩
  intro r hr
  rw [h2.2.2 r hr, List.count_map_of_injective _ _ (by intro a b; simp)]

theorem prefixSums_spec {m : Nat} {ns ia : List Nat} (hl : ia.length = m + 1)
    (h0 : ia[0]? = some 0) (hc : ∀ r < m, ia[r + 1]? = some (ns.count r)) :
    ∃ ia', prefixSums ia m = .ok ia' ∧ ia'.length = m + 1 ∧ ia'[0]? = some (start ns m) ∧
      ∀ r < m, ia'[r + 1]? = some (start ns r) := by
  unfold prefixSums
  have key : ∀ k ≤ m, ∃ ia', forEach (List.range' 1 k) ia (fun ia i => do
      let s ← rd ia 0
      let c ← rd ia i
      let ia ← wr ia 0 (s + c)
      wr ia i (s + c - c)) = .ok ia' ∧ ia'.length = m + 1 ∧ ia'[0]? = some (start ns k) ∧
      (∀ r < k, ia'[r + 1]? = some (start ns r)) ∧
      (∀ r, k ≤ r → r < m → ia'[r + 1]? = some (ns.count r)) := by
    intro k
    induction k with
    | zero => intro _; exact ⟨ia, rfl, hl, by simpa using h0, by simp, fun r _ hr => hc r hr⟩
    | succ k ih =>
      intro hk
      obtain ⟨ia', e1, hl', h0', hs, hc'⟩ := ih (by omega)
      rw [List.range'_concat, forEach_append, e1]
      have hk' : ia'[k + 1]? = some (ns.count k) := hc' k (le_refl _) (by omega)
      have e2 : (1 : Nat) + 1 * k = k + 1 := by omega
      have hlt0 : 0 < ia'.length := by omega
      have hltk : k + 1 < (ia'.set 0 (start ns k + ns.count k)).length := by simp; omega
      simp only [Res.ok_bind, forEach_cons, forEach_nil, Res.bind_eq, e2, rd_of_getElem? h0',
        rd_of_getElem? hk', wr_ok hlt0, wr_ok hltk]
      refine ⟨_, rfl, by simp [hl'], ?_, ?_, ?_⟩
      · rw [start_succ]; simp [hlt0]
      · intro r hr
        by_cases hrk : r = k
        · subst hrk; rw [List.getElem?_set_self hltk]; simp
        · have := hs r (by omega)
          rw [List.getElem?_set_ne (by omega), List.getElem?_set_ne (by omega), this]
      · intro r hr1 hr2
        rw [List.getElem?_set_ne (by omega), List.getElem?_set_ne (by omega)]
        exact hc' r (by omega) hr2
  obtain ⟨ia', e, a, b, c, _⟩ := key m (le_refl m)
  exact ⟨ia', e, a, b, c⟩

theorem accumulateRowEntries_spec {R : Type} (g : CSR R) {m : Nat} {ns : List Nat}
    (hm : m ≤ INT_MAX) (h : ∀ x ∈ ns, x < m) :
    ∃ ia, accumulateRowEntries g (m : Int) (castL ns) = .ok { g with ia := ia } ∧
      ia.length = m + 1 ∧ ia[0]? = some ns.length ∧ ∀ r < m, ia[r + 1]? = some (start ns r) := by
  obtain ⟨ia, e1, hl, h0, hc⟩ := countRows_spec (by omega) h
  obtain ⟨ia', e2, hl', h0', hs⟩ := prefixSums_spec hl h0 hc
  refine ⟨ia', ?_, hl', ?_, hs⟩
  · unfold accumulateRowEntries
    have : sizeOfInt (m : Int) = m := by
      rw [sizeOfInt_nonneg (by omega) (by exact_mod_cast hm)]; simp
    simp [this, e1, e2]
  · rw [h0', start_eq_length h]

theorem length_resize {α : Type} (v : List α) (n : Nat) (x : α) : (resize v n x).length = n := by
  simp [resize]; omega

/-- Result of `createGraph`: `ia` are the row offsets, entry `e` is stored at `pos ns e`. -/
theorem createGraph_int_spec {R : Type} (g : CSR R) {m : Nat} {ns : List Nat} {cs : List Int}
    (hm : m ≤ INT_MAX) (h : ∀ x ∈ ns, x < m) (hcs : cs.length = ns.length)
    (hl : g.ia.length = m + 1) (h0 : g.ia[0]? = some ns.length)
    (hs : ∀ r < m, g.ia[r + 1]? = some (start ns r)) :
    ∃ ja, createGraph g (castL ns) cs = .ok { g with
          ia := (List.range (m + 1)).map (start ns), ja := ja,
          elmIdx := (List.range ns.length).map (pos ns) } ∧
      ja.length = ns.length ∧ ∀ e < ns.length, ja[pos ns e]? = cs[e]? := by
  have hzip : (castL ns).zip cs = (List.range ns.length).map
      fun e => (((ns.getD e 0 : Nat) : Int), cs.getD e 0) := by
    apply List.ext_getElem
    · simp [castL, hcs]
    · intro i h1 h2
      have : i < ns.length := by simpa using h2
      have h3 : i < cs.length := by omega
      simp [castL, this, h3]
  have hloop := forEach_inv (xs := (castL ns).zip cs)
    (s := (g.ia, resize g.ja (castL ns).length 0, ([] : List Nat))) (f := insertEntry)
    (fun pre s => s.1.length = m + 1 ∧
      (∀ r < m, s.1[r + 1]? = some (start ns r + (ns.take pre.length).count r)) ∧
      s.2.1.length = ns.length ∧
      (∀ e < pre.length, s.2.1[pos ns e]? = some (cs.getD e 0)) ∧
      s.2.2 = (List.range pre.length).map (pos ns))
    (by
      refine ⟨hl, ?_, by simp [length_resize, castL], by simp, by simp⟩
      intro r hr; simpa using hs r hr)
    (by
      rintro pre x post ⟨ia, ja, elm⟩ hx ⟨hl1, hia, hja, hjv, helm⟩
      simp only at hl1 hia hja hjv helm
      have hpre : pre.length < ns.length := by
        have := congrArg List.length hx; simp [castL, hcs] at this; omega
      have hxv : x = (((ns.getD pre.length 0 : Nat) : Int), cs.getD pre.length 0) := by
        have h1 : ((castL ns).zip cs)[pre.length]? = some x := by rw [hx]; simp
        rw [hzip] at h1; simp [hpre] at h1; simp [hpre, ← h1]
      have hrow : ns[pre.length] < m := h _ (List.getElem_mem _)
      have hslot : rowSlot ((ns[pre.length] : Nat) : Int) = ns[pre.length] + 1 :=
        rowSlot_natCast (by omega)
      have hpos : start ns ns[pre.length] + (ns.take pre.length).count ns[pre.length]
          = pos ns pre.length := by simp [pos, hpre]
      have hrd := hia _ hrow
      rw [hpos] at hrd
      have hltia : ns[pre.length] + 1 < ia.length := by omega
      have hltja : pos ns pre.length < ja.length := by rw [hja]; exact pos_lt_length hpre
      subst hxv
      unfold insertEntry
      have hg : ns.getD pre.length 0 = ns[pre.length] := by simp [hpre]
      simp only [hg, Res.bind_eq, hslot, rd_of_getElem? hrd, Res.ok_bind, wr_ok hltia, wr_ok hltja,
        Res.pure_eq]
      refine ⟨_, rfl, by simpa using hl1, ?_, by simpa using hja, ?_, ?_⟩
      · intro r hr
        have htk : (ns.take (pre.length + 1)).count r
            = (ns.take pre.length).count r + if ns[pre.length] = r then 1 else 0 := by
          exact count_take_succ hpre r
        simp only [List.length_append, List.length_singleton]
        rw [htk, List.getElem?_set]
        by_cases hr' : ns[pre.length] = r
        · subst hr'
          rw [if_pos rfl, if_pos hltia]
          simp only [if_true, Option.some.injEq]
          omega
        · rw [if_neg (by omega)]; simp only [hr', if_false, Nat.add_zero]
          exact hia r hr
      · intro e he
        simp only [List.length_append, List.length_singleton] at he
        rw [List.getElem?_set]
        by_cases hee : e = pre.length
        · subst hee; simp [hltja]
        · have hne : pos ns pre.length ≠ pos ns e := by
            intro hc; exact hee (pos_inj (by omega) hpre hc.symm)
          rw [if_neg hne]; exact hjv e (by omega)
      · simp [helm, List.range_succ])
  obtain ⟨⟨ia, ja, elm⟩, e1, hl1, hia, hja, hjv, helm⟩ := hloop
  have hzl : ((castL ns).zip cs).length = ns.length := by simp [castL, hcs]
  simp only [hzl] at hl1 hia hja hjv helm
  refine ⟨ja, ?_, hja, ?_⟩
  rotate_left 1
  · intro e he
    have h3 : e < cs.length := by omega
    simp [hjv e he, h3]
  unfold createGraph
  have ha : ((g.ia[0]?).getD 0 == (castL ns).length) = true := by simp [h0, castL]
  have hlen : ¬ cs.length < (castL ns).length := by simp [castL, hcs]
  have hlt0 : 0 < ia.length := by omega
  have hb : (ns.length == (castL ns).length) = true := by simp [castL]
  simp only [Res.bind_eq, rd_of_getElem? h0, Res.ok_bind, hb, assertThat_true, hlen, if_false, e1,
    wr_ok hlt0, Res.pure_eq]
  congr 2
  apply List.ext_getElem?
  intro i
  rw [List.getElem?_set]
  rcases i with _ | r
  · simp [hlt0]
  · simp only [if_false, show (0 = r + 1) = False by simp]
    by_cases hr : r < m
    · rw [hia r hr]
      simp [start_succ, hr]
    · rw [List.getElem?_eq_none (by omega), List.getElem?_eq_none (by simp; omega)]

/-- The same for columns that are natural numbers. -/
theorem createGraph_spec {R : Type} (g : CSR R) {m : Nat} {ns cs : List Nat}
    (hm : m ≤ INT_MAX) (h : ∀ x ∈ ns, x < m) (hcs : cs.length = ns.length)
    (hl : g.ia.length = m + 1) (h0 : g.ia[0]? = some ns.length)
    (hs : ∀ r < m, g.ia[r + 1]? = some (start ns r)) :
    ∃ ja, createGraph g (castL ns) (castL cs) = .ok { g with
          ia := (List.range (m + 1)).map (start ns), ja := castL ja,
          elmIdx := (List.range ns.length).map (pos ns) } ∧
      ja.length = ns.length ∧ ∀ e < ns.length, ja[pos ns e]? = cs[e]? := by
  obtain ⟨ja, e1, hja, hjv⟩ := createGraph_int_spec g (cs := castL cs) hm h (by simp [hcs]) hl h0 hs
  have hcast : ja = castL (ja.map Int.toNat) := by
    apply List.ext_getElem
    · simp [castL]
    · intro p h1 h2
      obtain ⟨e, he, rfl⟩ := pos_surj ns p (by omega)
      have := hjv e he
      have hc : e < cs.length := by omega
      rw [List.getElem?_eq_getElem h1] at this
      simp [castL, hc] at this
      simp [castL, this]
  refine ⟨ja.map Int.toNat, by rw [e1, ← hcast], by simp [hja], ?_⟩
  intro e he
  have hc : e < cs.length := by omega
  simp [hjv e he, hc]

end Verif.CSR
