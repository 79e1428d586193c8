/-
Refinement of the storage manipulated by tarjan.c to the ghost state of
`Proofs/TarjanInv.lean`: every round of the main loop is memory-safe, performs one
ghost step and decreases a measure by one.
-/
import Verif.Model.Tarjan
import Verif.Proofs.Res
import Verif.Proofs.TarjanInv
import Mathlib.Algebra.BigOperators.Group.Finset.Basic

namespace Verif.Tarjan

/-- `ia`, `ja` is a compressed representation of the graph with successor lists `adj`. -/
structure Csr (nv : Nat) (adj : Nat → List Nat) (ia : List Nat) (ja : List Int) : Prop where
  row : ∀ u < nv, ∃ b, ia[u]? = some b ∧ ia[u + 1]? = some (b + (adj u).length) ∧
    ∀ k v : Nat, (adj u)[k]? = some v → ja[b + k]? = some (v : Int)
  deg : ∀ u < nv, (adj u).length ≤ INT_MAX
  lt : ∀ u < nv, ∀ v ∈ adj u, v < nv
  nv_le : nv ≤ INT_MAX

def off (done : List (List Nat)) (k : Nat) : Nat := (done.take k).flatten.length

theorem off_length (done : List (List Nat)) : off done done.length = done.flatten.length := by
  simp [off]

theorem off_append_of_le {done : List (List Nat)} {c : List Nat} {k : Nat} (h : k ≤ done.length) :
    off (done ++ [c]) k = off done k := by
  simp only [off]; rw [List.take_append_of_le_length h]

theorem off_append_last (done : List (List Nat)) (c : List Nat) :
    off (done ++ [c]) (done.length + 1) = done.flatten.length + c.length := by
  have := off_length (done ++ [c])
  simp only [List.length_append, List.length_cons, List.length_nil, List.flatten_append,
    List.flatten_cons, List.flatten_nil, List.append_nil] at this
  exact this

def vs (g : Ghost) : List Nat := g.pend.toList ++ g.frames.map (·.1)

/-- Storage and ghost state agree; the vertex stack holds `vl`. -/
structure Rel (N : Nat) (s : Run) (g : Ghost) (vl : List Nat) : Prop where
  nvert : s.work.nvert = N
  lenStatus : s.work.status.length = N
  lenLink : s.work.link.length = N
  lenTime : s.work.time.length = N
  lenStart : s.scc.start.length = N + 1
  lenVert : s.scc.vert.length = N
  vbase : s.scc.vbase = N + 1
  cbase : s.scc.cbase = N
  status : ∀ v < N, s.work.status[v]? = some (some (g.st v))
  link : ∀ v ∈ stk g.frames, s.work.link[v]? = some (some (g.lk v))
  time : ∀ v ∈ stk g.frames, s.work.time[v]? = some (some (g.tm v))
  ncomp : s.scc.ncomp = g.done.length
  start : ∀ k ≤ g.done.length, s.scc.start[k]? = some (some (off g.done k))
  vert : ∀ (k v : Nat), g.done.flatten[k]? = some v → s.scc.vert[k]? = some (some (v : Int))
  ctop : s.scc.ctop + (stk g.frames).length = N
  cstack : ∀ (k v : Nat), (stk g.frames)[k]? = some v →
    s.scc.vert[s.scc.ctop + k]? = some (some (v : Int))
  vtop : s.scc.vtop + vl.length = N + 1
  vstack : ∀ k v : Nat, vl[k]? = some v → s.scc.start[s.scc.vtop + k]? = some (some v)

def remSum (nv : Nat) (adj : Nat → List Nat) (st : Nat → Int) : Nat :=
  ∑ v ∈ Finset.range nv, if st v = -1 then (adj v).length + 1 else 0

/-- Rounds of the main loop still to be made. -/
def measure (nv : Nat) (adj : Nat → List Nat) (g : Ghost) : Nat :=
  remSum nv adj g.st + (g.frames.map fun f => (g.st f.1).toNat + 1).sum

theorem remSum_congr {nv adj} {st st' : Nat → Int} (h : ∀ v < nv, st v = -1 ↔ st' v = -1) :
    remSum nv adj st = remSum nv adj st' := by
  unfold remSum
  refine Finset.sum_congr rfl fun v hv => ?_
  have := h v (Finset.mem_range.mp hv)
  by_cases h1 : st v = -1
  · rw [if_pos h1, if_pos (this.mp h1)]
  · rw [if_neg h1, if_neg (fun h2 => h1 (this.mpr h2))]

theorem remSum_discover {nv adj} {st : Nat → Int} {c : Nat} (hc : c < nv) (h : st c = -1) {x : Int}
    (hx : 0 ≤ x) : remSum nv adj st = remSum nv adj (Function.update st c x) + ((adj c).length + 1) := by
  unfold remSum
  rw [← Finset.add_sum_erase _ _ (Finset.mem_range.mpr hc),
    ← Finset.add_sum_erase _ (fun v => if Function.update st c x v = -1 then _ else _)
      (Finset.mem_range.mpr hc)]
  rw [if_pos h]
  simp only [Function.update_self]
  rw [if_neg (by omega)]
  have : ∑ v ∈ (Finset.range nv).erase c, (if st v = -1 then (adj v).length + 1 else 0)
      = ∑ v ∈ (Finset.range nv).erase c,
        (if Function.update st c x v = -1 then (adj v).length + 1 else 0) := by
    refine Finset.sum_congr rfl fun v hv => ?_
    rw [Function.update_of_ne (Finset.ne_of_mem_erase hv)]
  omega

section
variable {nv N : Nat} {adj : Nat → List Nat} {Rch : Nat → Prop} {g : Ghost} {s : Run}
  {ia : List Nat} {ja : List Int}

theorem Inv.done_len (h : Inv nv adj Rch g) : g.done.length ≤ g.done.flatten.length := by
  have : ∀ l : List (List Nat), (∀ c ∈ l, c ≠ []) → l.length ≤ l.flatten.length := by
    intro l hl
    induction l with
    | nil => simp
    | cons c l ih =>
      have h1 := ih fun d hd => hl d (by simp [hd])
      have h2 : 0 < c.length := List.length_pos_of_ne_nil (hl c (by simp))
      simp only [List.length_cons, List.flatten_cons, List.length_append]; omega
  exact this _ fun c hc => (h.conn c hc).1

theorem frames_len (fr : List (Nat × List Nat)) : fr.length ≤ (stk fr).length := by
  induction fr with
  | nil => simp
  | cons f fr ih => simp only [stk_cons, List.length_append, List.length_cons]; omega

theorem Inv.vs_len (h : Inv nv adj Rch g) : g.done.length + (vs g).length ≤ nv := by
  have h1 := h.done_len
  have h2 := frames_len g.frames
  unfold vs
  cases hp : g.pend with
  | none => have := h.card_le; simp; omega
  | some p => have := h.card_lt hp; simp; omega

/-- tarjan.c:208-220 on ghost data. -/
theorem discover_spec (hC : Csr nv adj ia ja) (hN : nv ≤ N) (h : Inv nv adj Rch g)
    {c : Nat} (hp : g.pend = some c) (hr : Rel N s g (vs g)) :
    ∃ s', discoverVertex c ia g.clock s = .ok (s', (g.discover adj c).clock) ∧
      Rel N s' (g.discover adj c) (vs (g.discover adj c)) := by
  obtain ⟨hst, hclt, _⟩ := h.pend_ok c hp
  obtain ⟨b, hb, he, _⟩ := hC.row c hclt
  have hcard := h.card_lt hp
  have hclk := h.clock_le
  have hdeg := hC.deg c hclt
  have hnv := hC.nv_le
  have hctop : s.scc.ctop ≠ 0 := by have := hr.ctop; omega
  have hcS : c ∉ stk g.frames := fun hc => by have := (h.st_stk c).mpr hc; omega
  have hne : ∀ v ∈ stk g.frames, v ≠ c := fun v hv e => hcS (e ▸ hv)
  have hcN : c < N := by omega
  have hvs : vs (g.discover adj c) = vs g := by simp [vs, Ghost.discover, hp]
  refine ⟨{ work := { s.work with
              status := s.work.status.set c (some ((adj c).length : Int))
              link := s.work.link.set c (some g.clock)
              time := s.work.time.set c (some g.clock) }
            scc := { s.scc with
              vert := s.scc.vert.set (s.scc.ctop - 1) (some (c : Int))
              ctop := s.scc.ctop - 1 } }, ?_, ?_⟩
  · unfold discoverVertex
    have e1 : sizeSub (b + (adj c).length) b = (adj c).length := by simp [sizeSub]
    simp only [Res.bind_eq, Res.pure_eq, rd_of_getElem? he, rd_of_getElem? hb, Res.ok_bind, e1,
      intOfSize, if_pos hdeg, wrM_ok (show c < s.work.status.length by rw [hr.lenStatus]; exact hcN),
      wrM_ok (show c < s.work.link.length by rw [hr.lenLink]; exact hcN),
      wrM_ok (show c < s.work.time.length by rw [hr.lenTime]; exact hcN), intSucc,
      if_pos (show g.clock + 1 ≤ (INT_MAX : Int) by omega), if_pos (show c ≤ INT_MAX by omega),
      pushC, if_neg hctop,
      wrM_ok (show s.scc.ctop - 1 < s.scc.vert.length by rw [hr.lenVert]; have := hr.ctop; omega)]
    rfl
  · have hctopeq := hr.ctop
    have hlen : (stk (g.discover adj c).frames).length = (stk g.frames).length + 1 := by
      simp [Ghost.discover]
    have hfr : stk (g.discover adj c).frames = c :: stk g.frames := by simp [Ghost.discover]
    refine ⟨hr.nvert, by simp [hr.lenStatus], by simp [hr.lenLink], by simp [hr.lenTime],
      hr.lenStart, by simp [hr.lenVert], hr.vbase, hr.cbase, ?_, ?_, ?_, hr.ncomp, hr.start, ?_, ?_, ?_,
      ?_, ?_⟩
    · intro v hv
      by_cases hvc : v = c
      · subst hvc; simp [Ghost.discover, hr.lenStatus, hv]
      · simp [Ghost.discover, List.getElem?_set_ne (Ne.symm hvc), hvc, hr.status v hv]
    · intro v hv
      rw [hfr] at hv
      rcases List.mem_cons.mp hv with rfl | hv
      · simp [Ghost.discover, hr.lenLink, hcN]
      · simp [Ghost.discover, List.getElem?_set_ne (Ne.symm (hne v hv)), hne v hv, hr.link v hv]
    · intro v hv
      rw [hfr] at hv
      rcases List.mem_cons.mp hv with rfl | hv
      · simp [Ghost.discover, hr.lenTime, hcN]
      · simp [Ghost.discover, List.getElem?_set_ne (Ne.symm (hne v hv)), hne v hv, hr.time v hv]
    · intro k v hk
      have hk' : k < g.done.flatten.length := by
        by_contra hcon
        rw [List.getElem?_eq_none (by simpa [Ghost.discover] using hcon)] at hk; simp at hk
      simp only
      rw [List.getElem?_set_ne (by omega)]
      exact hr.vert k v hk
    · simp only [hlen]; omega
    · intro k v hk
      rw [hfr] at hk
      cases k with
      | zero =>
        simp at hk; subst hk
        simp only [Nat.add_zero]
        rw [List.getElem?_set_self (by rw [hr.lenVert]; omega)]
      | succ k =>
        simp at hk
        simp only
        rw [List.getElem?_set_ne (by omega), show s.scc.ctop - 1 + (k + 1) = s.scc.ctop + k by omega]
        exact hr.cstack k v hk
    · rw [hvs]; exact hr.vtop
    · rw [hvs]; exact hr.vstack

theorem pushV_spec {x : Nat} {vl : List Nat} (hr : Rel N s g vl)
    (hlen : g.done.length + vl.length < N) : ∃ scc, pushV s.scc x = .ok scc ∧
      Rel N { s with scc := scc } g (x :: vl) := by
  have hv := hr.vtop
  refine ⟨{ s.scc with start := s.scc.start.set (s.scc.vtop - 1) (some x), vtop := s.scc.vtop - 1 },
    ?_, ?_⟩
  · unfold pushV
    rw [if_neg (by omega), wrM_ok (by rw [hr.lenStart]; omega)]; rfl
  · refine ⟨hr.nvert, hr.lenStatus, hr.lenLink, hr.lenTime, by simp [hr.lenStart], hr.lenVert,
      hr.vbase, hr.cbase, hr.status, hr.link, hr.time, hr.ncomp, ?_, hr.vert, hr.ctop, hr.cstack,
      ?_, ?_⟩
    · intro k hk
      simp only
      rw [List.getElem?_set_ne (by omega)]; exact hr.start k hk
    · simp only [List.length_cons]; omega
    · intro k v hk
      cases k with
      | zero =>
        simp at hk; subst hk
        simp only [Nat.add_zero]
        rw [List.getElem?_set_self (by rw [hr.lenStart]; omega)]
      | succ k =>
        simp at hk
        simp only
        rw [List.getElem?_set_ne (by omega), show s.scc.vtop - 1 + (k + 1) = s.scc.vtop + k by omega]
        exact hr.vstack k v hk

theorem min_eq_ite (a b : Int) : (if a < b then a else b) = min a b := by
  split <;> omega

/-- tarjan.c:180-206 on ghost data. -/
theorem descend_spec (hC : Csr nv adj ia ja) (hN : nv ≤ N) (h : Inv nv adj Rch g)
    {c : Nat} {seg rest} (hfr : g.frames = (c, seg) :: rest) (hp : g.pend = none)
    {k : Nat} (hk : g.st c = (k : Int) + 1) (hr : Rel N s g (vs g)) :
    ∃ s' child, (adj c)[k]? = some child ∧ dfsFromDescendant c ia ja s = .ok s' ∧
      Rel N s' (g.descend c k child) (vs (g.descend c k child)) := by
  have hcS : c ∈ stk g.frames := by rw [hfr]; simp
  have hclt := (h.lt c (Or.inr hcS)).1
  have hcN : c < N := by omega
  obtain ⟨b, hb, _, hja⟩ := hC.row c hclt
  have hkl : k < (adj c).length := by have := h.st_le c hcS; omega
  obtain ⟨child, hch⟩ : ∃ child, (adj c)[k]? = some child := ⟨_, List.getElem?_eq_getElem hkl⟩
  have hchlt : child < nv := hC.lt c hclt child (List.mem_of_getElem? hch)
  have hsz : sizeOfInt (child : Int) = child := by
    have := hC.nv_le
    rw [sizeOfInt_nonneg (by omega) (by omega)]; rfl
  -- the state after the descendant count was decremented
  have hr1 : Rel N { s with work := { s.work with status := s.work.status.set c (some (k : Int)) } }
      { g with st := Function.update g.st c k } (vs g) := by
    refine ⟨hr.nvert, by simp [hr.lenStatus], hr.lenLink, hr.lenTime, hr.lenStart, hr.lenVert,
      hr.vbase, hr.cbase, ?_, hr.link, hr.time, hr.ncomp, hr.start, hr.vert, hr.ctop, hr.cstack,
      hr.vtop, hr.vstack⟩
    intro v hv
    by_cases hvc : v = c
    · subst hvc; simp [hr.lenStatus, hv]
    · simp [List.getElem?_set_ne (Ne.symm hvc), hvc, hr.status v hv]
  have hstch := hr1.status child (by omega)
  simp only at hstch
  have hstep : dfsFromDescendant c ia ja s = visitChild c child
      { s with work := { s.work with status := s.work.status.set c (some (k : Int)) } } := by
    unfold dfsFromDescendant
    have hst2 : g.st c - 1 = (k : Int) := by omega
    simp only [Res.bind_eq, rdM_of_getElem? (hr.status c hcN), Res.ok_bind,
      assertThat_ok (show decide (g.st c > 0) = true by simp; omega), rd_of_getElem? hb, Int.toNat_natCast, hst2,
      rd_of_getElem? (hja k child hch), hsz,
      wrM_ok (show c < s.work.status.length by rw [hr.lenStatus]; exact hcN)]
  have hcase : Function.update g.st c (k : Int) child = if child = c then (k : Int) else g.st child := by
    by_cases e : child = c
    · subst e; simp
    · rw [Function.update_of_ne e, if_neg e]
  refine (fun ⟨s', h1, h2⟩ => ⟨s', child, hch, h1, h2⟩ : (∃ s', dfsFromDescendant c ia ja s = .ok s' ∧
      Rel N s' (g.descend c k child) (vs (g.descend c k child))) → _) ?_
  rw [hstep]
  unfold visitChild Ghost.descend
  simp only [Res.bind_eq, rdM_of_getElem? hstch, Res.ok_bind]
  have hstge := h.st_ge child
  by_cases hrem : g.st child = -1
  · have e : child ≠ c := by rintro rfl; omega
    rw [Function.update_of_ne e, if_pos (by exact hrem), if_pos hrem]
    have hlen : g.done.length + (vs g).length < N := by
      have h1 := h.done_len
      have h2 := frames_len g.frames
      have hnd : (child :: (g.done.flatten ++ stk g.frames)).Nodup := by
        rw [List.nodup_cons]
        refine ⟨?_, h.nodupAll⟩
        intro hv
        rcases List.mem_append.mp hv with hv | hv
        · have := (h.st_done _).mpr hv; omega
        · have := (h.st_stk _).mpr hv; omega
      have := List.Subperm.length_le (List.subperm_of_subset hnd (l₂ := List.range nv) (by
        intro v hv; rw [List.mem_range]
        rcases List.mem_cons.mp hv with rfl | hv
        · exact hchlt
        · exact (h.lt v (List.mem_append.mp hv)).1))
      simp only [List.length_cons, List.length_append, List.length_range] at this
      simp only [vs, hp, Option.toList_none, List.nil_append, List.length_map]
      omega
    obtain ⟨scc, e1, e2⟩ := pushV_spec (x := child) hr1 hlen
    simp only at e1
    refine ⟨_, by rw [e1]; rfl, ?_⟩
    have hvs : vs { g with pend := some child, st := Function.update g.st c (k : Int) } = child :: vs g := by
      simp [vs, hp]
    rw [hvs]
    exact ⟨e2.nvert, e2.lenStatus, e2.lenLink, e2.lenTime, e2.lenStart, e2.lenVert, e2.vbase, e2.cbase,
      e2.status, e2.link, e2.time, e2.ncomp, e2.start, e2.vert, e2.ctop, e2.cstack, e2.vtop, e2.vstack⟩
  by_cases hge : 0 ≤ g.st child
  · have hchS := (h.st_stk child).mp hge
    have hup : 0 ≤ Function.update g.st c (k : Int) child := by
      rw [hcase]; split <;> omega
    rw [if_neg (by show ¬ _ = (-1 : Int); omega), if_neg hrem, if_pos hge]
    simp only [ge_iff_le, if_pos hup, Res.pure_eq, rdM_of_getElem? (hr.link c hcS), Res.ok_bind,
      rdM_of_getElem? (hr.time child hchS),
      wrM_ok (show c < s.work.link.length by rw [hr.lenLink]; exact hcN), min_eq_ite]
    refine ⟨_, rfl, ?_⟩
    have hvs : vs { g with
        st := Function.update g.st c (k : Int)
        lk := Function.update g.lk c (min (g.lk c) (g.tm child)) } = vs g := rfl
    rw [hvs]
    refine ⟨hr1.nvert, hr1.lenStatus, by simp [hr.lenLink], hr1.lenTime, hr1.lenStart, hr1.lenVert,
      hr1.vbase, hr1.cbase, hr1.status, ?_, hr1.time, hr1.ncomp, hr1.start, hr1.vert, hr1.ctop,
      hr1.cstack, hr1.vtop, hr1.vstack⟩
    intro v hv
    by_cases hvc : v = c
    · subst hvc; simp [hr.lenLink, hcN]
    · have := hr.link v hv
      simp [List.getElem?_set_ne (Ne.symm hvc), hvc, this]
  · have hd : g.st child = -2 := by omega
    have e : child ≠ c := by rintro rfl; omega
    rw [Function.update_of_ne e, if_neg (by show ¬ _ = (-1 : Int); omega), if_neg hrem, if_neg hge]
    rw [if_neg (by omega), assertThat_ok (by rw [hd]; rfl)]
    exact ⟨_, rfl, hr1⟩

/-- tarjan.c:141-151 on ghost data: the loop moves the top `l` of the component stack to the
    component under construction. -/
theorem captureLoop_spec (c : Nat) (N : Nat) (hN : N ≤ 18446744073709551616) (l : List Nat) :
    ∀ (rounds : Nat) (s : Run) (e : Nat), l.length + 1 ≤ rounds → (∀ v ∈ l, v < N ∧ v ≠ c) → c < N →
    s.work.status.length = N → s.scc.vert.length = N → s.scc.cbase = N →
    s.scc.ctop + l.length + 1 ≤ N → e ≤ s.scc.ctop →
    s.scc.start[s.scc.ncomp + 1]? = some (some e) →
    (∀ (k v : Nat), (l ++ [c])[k]? = some v → s.scc.vert[s.scc.ctop + k]? = some (some (v : Int))) →
    ∃ status vert, captureLoop c rounds s = .ok
        { work := { s.work with status := status }
          scc := { s.scc with
            start := s.scc.start.set (s.scc.ncomp + 1) (some (e + l.length + 1))
            vert := vert
            ctop := s.scc.ctop + l.length + 1 } } ∧
      status.length = N ∧ vert.length = N ∧
      (∀ v, status[v]? = if v ∈ l ++ [c] then some (some DONE) else s.work.status[v]?) ∧
      (∀ k < e, vert[k]? = s.scc.vert[k]?) ∧
      (∀ (k v : Nat), (l ++ [c])[k]? = some v → vert[e + k]? = some (some (v : Int))) ∧
      (∀ k, s.scc.ctop + l.length < k → vert[k]? = s.scc.vert[k]?) := by
  induction l with
  | nil =>
    intro rounds s e hround _ hc h1 h2 h3 h4 he hs hv
    obtain ⟨rounds, rfl⟩ : ∃ r, rounds = r + 1 := ⟨rounds - 1, by simp at hround; omega⟩
    simp only [List.length_nil] at h4 ⊢
    have htop := hv 0 c rfl
    rw [Nat.add_zero] at htop
    have hslen : s.scc.ncomp + 1 < s.scc.start.length := by
      by_contra hcon; rw [List.getElem?_eq_none (by omega)] at hs; simp at hs
    have hsz : sizeOfInt (c : Int) = c := by
      unfold sizeOfInt; rw [Int.emod_eq_of_lt (by omega) (by omega)]; rfl
    refine ⟨s.work.status.set c (some DONE), s.scc.vert.set e (some (c : Int)), ?_, by simp [h1], by simp [h2],
      ?_, ?_, ?_, ?_⟩
    · unfold captureLoop
      simp only [Res.bind_eq, Res.pure_eq, assertThat_ok (show (s.scc.ctop != s.scc.cbase) = true by simp; omega),
        Res.ok_bind, rdM_of_getElem? htop, hsz, wrM_ok (show c < s.work.status.length by omega),
        rdM_of_getElem? hs, wrM_ok hslen, wrM_ok (show e < s.scc.vert.length by omega)]
      simp
    · intro v
      by_cases hvc : v = c
      · subst hvc; simp [h1, hc]
      · simp [List.getElem?_set_ne (Ne.symm hvc), hvc]
    · intro k hk; rw [List.getElem?_set_ne (by omega)]
    · intro k v hk
      cases k with
      | zero =>
        simp at hk; subst hk
        rw [Nat.add_zero, List.getElem?_set_self (by omega)]
      | succ k => simp at hk
    · intro k hk; rw [List.getElem?_set_ne (by omega)]
  | cons x l ih =>
    intro rounds s e hround hl hc h1 h2 h3 h4 he hs hv
    obtain ⟨rounds, rfl⟩ : ∃ r, rounds = r + 1 := ⟨rounds - 1, by simp at hround; omega⟩
    simp only [List.length_cons] at h4 hround ⊢
    have htop := hv 0 x rfl
    rw [Nat.add_zero] at htop
    have hslen : s.scc.ncomp + 1 < s.scc.start.length := by
      by_contra hcon; rw [List.getElem?_eq_none (by omega)] at hs; simp at hs
    obtain ⟨hxN, hxc⟩ := hl x (by simp)
    have hsz : sizeOfInt (x : Int) = x := by
      unfold sizeOfInt; rw [Int.emod_eq_of_lt (by omega) (by omega)]; rfl
    let s1 : Run := { work := { s.work with status := s.work.status.set x (some DONE) }
                      scc := { s.scc with
                        start := s.scc.start.set (s.scc.ncomp + 1) (some (e + 1))
                        vert := s.scc.vert.set e (some (x : Int))
                        ctop := s.scc.ctop + 1 } }
    obtain ⟨status, vert, e1, l1, l2, p1, p2, p3, p4⟩ := ih rounds s1 (e + 1) (by omega)
      (fun v hv' => hl v (by simp [hv'])) hc (by simp [s1, h1]) (by simp [s1, h2]) h3
      (by simp only [s1]; omega) (by simp only [s1]; omega)
      (by simp only [s1]; rw [List.getElem?_set_self hslen])
      (by
        intro k v hk
        simp only [s1]
        rw [List.getElem?_set_ne (by omega), show s.scc.ctop + 1 + k = s.scc.ctop + (k + 1) by omega]
        exact hv (k + 1) v (by simpa using hk))
    refine ⟨status, vert, ?_, l1, l2, ?_, ?_, ?_, ?_⟩
    · unfold captureLoop
      simp only [Res.bind_eq, Res.pure_eq, assertThat_ok (show (s.scc.ctop != s.scc.cbase) = true by simp; omega),
        Res.ok_bind, rdM_of_getElem? htop, hsz, wrM_ok (show x < s.work.status.length by omega),
        rdM_of_getElem? hs, wrM_ok hslen, wrM_ok (show e < s.scc.vert.length by omega)]
      rw [if_pos hxc]
      refine e1.trans ?_
      simp only [s1, List.set_set]
      congr 3
      · congr 2; omega
      · omega
    · intro v
      rw [p1 v]
      simp only [s1, List.cons_append, List.mem_cons]
      by_cases hvx : v = x
      · subst hvx
        simp [h1, hxN]
      · simp [List.getElem?_set_ne (Ne.symm hvx), hvx]
    · intro k hk
      rw [p2 k (by omega)]; simp only [s1]; rw [List.getElem?_set_ne (by omega)]
    · intro k v hk
      cases k with
      | zero =>
        simp at hk; subst hk
        rw [p2 (e + 0) (by omega)]; simp only [s1, Nat.add_zero]
        rw [List.getElem?_set_self (by omega)]
      | succ k =>
        rw [show e + (k + 1) = e + 1 + k by omega]
        exact p3 k v (by simpa using hk)
    · intro k hk
      rw [p4 k (by simp only [s1]; omega)]; simp only [s1]; rw [List.getElem?_set_ne (by omega)]

/-- tarjan.c:126-156 on ghost data.  The slot of `c` on the vertex stack may be overwritten. -/
theorem capture_spec (hN : nv ≤ N) (hN64 : N ≤ 18446744073709551616) (h : Inv nv adj Rch g)
    {c : Nat} {seg rest} (hf : Finishing adj g c seg rest) (hr : Rel N s g (vs g)) :
    ∃ s', captureScc c s = .ok s' ∧ s'.scc.vtop = s.scc.vtop ∧
      Rel N { s' with scc := { s'.scc with vtop := s.scc.vtop + 1 } } (g.capture c seg rest)
        (rest.map (·.1)) ∧
      (∀ v ∈ seg ++ [c], s'.work.link[v]? = s.work.link[v]?) := by
  have hfr := hf.frames
  have hvs : vs g = c :: rest.map (·.1) := by simp [vs, hf.pend, hfr]
  have hcard := h.card_le
  have hdl := h.done_len
  have hvl := h.vs_len
  have hvt := hr.vtop
  have hct := hr.ctop
  have hS : stk g.frames = seg ++ c :: stk rest := by rw [hfr, stk_cons]
  have hnd := h.nodupS
  rw [hvs] at hvl hvt
  rw [hS] at hcard hct hnd
  simp only [List.length_append, List.length_cons] at hcard hct hvl hvt
  have hlt : ∀ v ∈ seg ++ [c], v < N := by
    intro v hv
    have := (h.lt v (Or.inr (by
      rw [hS]
      rcases List.mem_append.mp hv with hv | hv
      · simp [hv]
      · simp at hv; simp [hv]))).1
    omega
  have hcseg : c ∉ seg := fun hc => (List.nodup_append.mp hnd).2.2 c hc c (by simp) rfl
  have hs0 := hr.start g.done.length (le_refl _)
  rw [off_length] at hs0
  have hnc := hr.ncomp
  have hslen : s.scc.ncomp + 1 < s.scc.start.length := by rw [hr.lenStart]; omega
  obtain ⟨status, vert, e1, l1, l2, p1, p2, p3, p4⟩ := captureLoop_spec c N hN64 seg
    (s.scc.cbase - s.scc.ctop + 1)
    { s with scc := { s.scc with
      start := s.scc.start.set (s.scc.ncomp + 1) (some g.done.flatten.length) } }
    g.done.flatten.length (by rw [hr.cbase]; omega)
    (fun v hv => ⟨hlt v (by simp [hv]), fun e => hcseg (e ▸ hv)⟩) (hlt c (by simp))
    hr.lenStatus hr.lenVert hr.cbase (by simp only; omega) (by simp only; omega)
    (by simp only; rw [List.getElem?_set_self hslen])
    (by
      intro k v hk
      refine hr.cstack k v ?_
      have hk' : k < (seg ++ [c]).length := by
        by_contra hcon; rw [List.getElem?_eq_none (by omega)] at hk; simp at hk
      rw [hS, show seg ++ c :: stk rest = (seg ++ [c]) ++ stk rest by simp, List.getElem?_append_left hk']
      exact hk)
  refine ⟨{ work := { s.work with status := status }
            scc := { s.scc with
              ncomp := s.scc.ncomp + 1
              start := (s.scc.start.set (s.scc.ncomp + 1) (some g.done.flatten.length)).set
                (s.scc.ncomp + 1) (some (g.done.flatten.length + seg.length + 1))
              vert := vert
              ctop := s.scc.ctop + seg.length + 1 } }, ?_, rfl, ?_, fun v _ => rfl⟩
  · unfold captureScc
    simp only [Res.bind_eq, Res.pure_eq]
    rw [hnc, rdM_of_getElem? hs0, Res.ok_bind, ← hnc, wrM_ok hslen, Res.ok_bind, e1, Res.ok_bind]
  · have hD : (g.done ++ [seg ++ [c]]).flatten = g.done.flatten ++ (seg ++ [c]) := by simp
    refine ⟨hr.nvert, l1, hr.lenLink, hr.lenTime, by simp [hr.lenStart], l2, hr.vbase, hr.cbase, ?_, ?_, ?_,
      ?_, ?_, ?_, ?_, ?_, ?_, ?_⟩
    · intro v hv
      simp only [Ghost.capture]
      rw [p1 v]
      by_cases hv' : v ∈ seg ++ [c]
      · rw [if_pos hv', if_pos hv']; rfl
      · rw [if_neg hv', if_neg hv']; exact hr.status v hv
    · intro v hv
      exact hr.link v (by rw [hS]; simp only [Ghost.capture] at hv; simp [hv])
    · intro v hv
      exact hr.time v (by rw [hS]; simp only [Ghost.capture] at hv; simp [hv])
    · simp [Ghost.capture, hnc]
    · intro k hk
      simp only [Ghost.capture, List.length_append, List.length_cons, List.length_nil, List.set_set] at hk ⊢
      rcases Nat.lt_or_ge k (g.done.length + 1) with hk1 | hk1
      · rw [List.getElem?_set_ne (by omega), off_append_of_le (by omega)]
        exact hr.start k (by omega)
      · obtain rfl : k = g.done.length + 1 := by omega
        rw [← hnc, List.getElem?_set_self hslen, hnc, off_append_last]
        simp only [List.length_append, List.length_cons, List.length_nil]
        rfl
    · intro k v hk
      simp only [Ghost.capture, hD] at hk
      simp only
      rcases Nat.lt_or_ge k g.done.flatten.length with hk1 | hk1
      · rw [List.getElem?_append_left hk1] at hk
        rw [p2 k hk1]; exact hr.vert k v hk
      · rw [List.getElem?_append_right hk1] at hk
        have := p3 (k - g.done.flatten.length) v hk
        rwa [show g.done.flatten.length + (k - g.done.flatten.length) = k by omega] at this
    · simp only [Ghost.capture]; omega
    · intro k v hk
      simp only [Ghost.capture] at hk
      simp only
      rw [p4 (s.scc.ctop + seg.length + 1 + k) (by simp only; omega)]
      have := hr.cstack (seg.length + 1 + k) v (by
        rw [hS, List.getElem?_append_right (by omega), show seg.length + 1 + k - seg.length = k + 1 by omega]
        simpa using hk)
      rwa [show s.scc.ctop + (seg.length + 1 + k) = s.scc.ctop + seg.length + 1 + k by omega] at this
    · simp only [List.length_map] at hvt ⊢; omega
    · intro k v hk
      simp only [List.set_set]
      rw [List.getElem?_set_ne (by omega), show s.scc.vtop + 1 + k = s.scc.vtop + (k + 1) by omega]
      exact hr.vstack (k + 1) v (by rw [hvs]; simpa using hk)

theorem pop_nil {c : Nat} (h : s.scc.vtop + 1 = s.scc.vbase) :
    popVertex c s = .ok { s with scc := { s.scc with vtop := s.scc.vtop + 1 } } := by
  unfold popVertex; simp [h]

theorem pop_cons {c p : Nat} {lp lc : Int} (h : s.scc.vtop + 1 ≠ s.scc.vbase)
    (h1 : s.scc.start[s.scc.vtop + 1]? = some (some p)) (h2 : s.work.link[p]? = some (some lp))
    (h3 : s.work.link[c]? = some (some lc)) :
    popVertex c s = .ok { work := { s.work with link := s.work.link.set p (some (min lp lc)) }
                          scc := { s.scc with vtop := s.scc.vtop + 1 } } := by
  have hp : p < s.work.link.length := by
    by_contra hcon; rw [List.getElem?_eq_none (by omega)] at h2; simp at h2
  unfold popVertex
  simp only [ne_eq, h, not_false_eq_true, if_true, Res.bind_eq, Res.pure_eq, rdM_of_getElem? h1,
    rdM_of_getElem? h2, rdM_of_getElem? h3, Res.ok_bind, wrM_ok hp, min_eq_ite]

/-- tarjan.c:158-178 on ghost data. -/
theorem complete_spec (hN : nv ≤ N) (hN64 : N ≤ 18446744073709551616) (h : Inv nv adj Rch g)
    {c : Nat} {seg rest} (hf : Finishing adj g c seg rest) (hr : Rel N s g (vs g)) :
    ∃ s' g', completeDfsFromVertex c s = .ok s' ∧ Inv nv adj Rch g' ∧ Rel N s' g' (vs g') ∧
      measure nv adj g = measure nv adj g' + 1 ∧ g'.clock = g.clock ∧
      (∀ v, g.st v ≠ -1 → g'.st v ≠ -1) ∧ g' = g.finish := by
  have hfr := hf.frames
  have hcS : c ∈ stk g.frames := by rw [hfr]; simp
  have hvs : vs g = c :: rest.map (·.1) := by simp [vs, hf.pend, hfr]
  have hvt := hr.vtop
  rw [hvs] at hvt
  simp only [List.length_cons, List.length_map] at hvt
  obtain ⟨t1, t2, t3⟩ := h.time_facts hfr
  unfold completeDfsFromVertex captureIfRoot
  simp only [Res.bind_eq, Res.pure_eq, rdM_of_getElem? (hr.link c hcS), rdM_of_getElem? (hr.time c hcS),
    Res.ok_bind]
  by_cases hroot : g.lk c = g.tm c
  · rw [if_pos hroot]
    obtain ⟨s1, e1, v1, r1, hl⟩ := capture_spec hN hN64 h hf hr
    rw [e1, Res.ok_bind]
    have hI := h.capture hf hroot
    have hvs' : vs (g.capture c seg rest) = rest.map (·.1) := by simp [vs, Ghost.capture, hf.pend]
    have hcap : ∀ v, g.st v ≠ -1 → (g.capture c seg rest).st v ≠ -1 := by
      intro v hv
      simp only [Ghost.capture]
      split
      · omega
      · exact hv
    have hmeas : measure nv adj g = measure nv adj (g.capture c seg rest) + 1 := by
      unfold measure
      have hrem : remSum nv adj g.st = remSum nv adj (g.capture c seg rest).st := by
        apply remSum_congr
        intro v _
        constructor
        · intro hv
          simp only [Ghost.capture]
          split
          · rename_i hm
            have : v ∈ stk g.frames := by
              rw [hfr, stk_cons]
              rcases List.mem_append.mp hm with hm | hm
              · simp [hm]
              · simp at hm; simp [hm]
            have := (h.st_stk v).mpr this; omega
          · exact hv
        · intro hv; by_contra hcon; exact hcap v hcon hv
      have hsum : (rest.map fun f => ((g.capture c seg rest).st f.1).toNat + 1)
          = rest.map fun f => (g.st f.1).toNat + 1 := by
        apply List.map_congr_left
        intro f hf'
        have : f.1 ∉ seg ++ [c] := fun hm => t3 f.1 hm (mem_stk.mpr ⟨f, hf', Or.inl rfl⟩)
        simp only [Ghost.capture, if_neg this]
      rw [hrem, hfr]
      simp only [List.map_cons, List.sum_cons, hf.st]
      have : (g.capture c seg rest).frames = rest := rfl
      rw [this, hsum]
      simp; omega
    cases rest with
    | nil =>
      simp only [List.length_nil] at hvt
      have hvb : s1.scc.vtop + 1 = s1.scc.vbase := by
        have := r1.vbase; simp only at this; rw [this, v1]; omega
      refine ⟨_, _, pop_nil hvb, hI, ?_, hmeas, rfl, hcap, by simp [Ghost.finish, hfr, hroot]⟩
      rw [hvs', v1]; exact r1
    | cons q rest' =>
      obtain ⟨p, segp⟩ := q
      simp only [List.length_cons] at hvt
      have hvb : s1.scc.vtop + 1 ≠ s1.scc.vbase := by
        have := r1.vbase; simp only at this; rw [this, v1]; omega
      have hpS : p ∈ stk (g.capture c seg ((p, segp) :: rest')).frames := by simp [Ghost.capture]
      have hlp := r1.link p hpS
      have hlc : s1.work.link[c]? = some (some (g.lk c)) := by rw [hl c (by simp)]; exact hr.link c hcS
      have hst := r1.vstack 0 p (by simp)
      simp only [Nat.add_zero] at hst hlp
      have hmin : min ((g.capture c seg ((p, segp) :: rest')).lk p) (g.lk c)
          = (g.capture c seg ((p, segp) :: rest')).lk p := by
        simp only [Ghost.capture]
        have h1 := h.link_le (p, segp) (by rw [hfr]; simp)
        have h2 := t2 p (by simp)
        simp only at h1
        omega
      refine ⟨_, _, pop_cons hvb (by rw [v1]; exact hst) hlp hlc, hI, ?_, hmeas, rfl, hcap, by simp [Ghost.finish, hfr, hroot]⟩
      rw [hvs', hmin]
      have hset : s1.work.link.set p (some ((g.capture c seg ((p, segp) :: rest')).lk p)) = s1.work.link := by
        apply List.ext_getElem?
        intro i
        by_cases hi : p = i
        · subst hi
          have hp : p < s1.work.link.length := by
            by_contra hcon; rw [List.getElem?_eq_none (by omega)] at hlp; simp at hlp
          rw [List.getElem?_set_self hp, hlp]
        · rw [List.getElem?_set_ne hi]
      rw [hset, v1]
      exact r1
  · rw [if_neg hroot, Res.ok_bind]
    obtain ⟨p, segp, rest', rfl, hcp⟩ := h.not_root hf hroot
    have hI := h.merge hf hcp
    simp only [List.length_cons] at hvt
    have hvb : s.scc.vtop + 1 ≠ s.scc.vbase := by rw [hr.vbase]; omega
    have hpS : p ∈ stk g.frames := by rw [hfr]; simp
    have hst := hr.vstack 1 p (by rw [hvs]; simp)
    have hpN : p < s.work.link.length := by rw [hr.lenLink]; have := (h.lt p (Or.inr hpS)).1; omega
    have hS : stk (g.merge c seg p segp rest').frames = stk g.frames := by rw [hfr]; simp [Ghost.merge]
    refine ⟨_, _, pop_cons hvb hst (hr.link p hpS) (hr.link c hcS), hI, ?_, ?_, rfl,
      fun v hv => hv, by simp [Ghost.finish, hfr, hroot]⟩
    · have hvs' : vs (g.merge c seg p segp rest') = p :: rest'.map (·.1) := by
        simp [vs, Ghost.merge, hf.pend]
      rw [hvs']
      refine ⟨hr.nvert, hr.lenStatus, by simp [hr.lenLink], hr.lenTime, hr.lenStart, hr.lenVert, hr.vbase,
        hr.cbase, hr.status, ?_, ?_, hr.ncomp, hr.start, hr.vert, ?_, ?_, ?_, ?_⟩
      · rw [hS]
        intro v hv
        simp only [Ghost.merge]
        by_cases hvp : v = p
        · subst hvp; rw [List.getElem?_set_self hpN, Function.update_self]
        · rw [List.getElem?_set_ne (Ne.symm hvp), Function.update_of_ne hvp]; exact hr.link v hv
      · rw [hS]; exact hr.time
      · rw [hS]; exact hr.ctop
      · rw [hS]; exact hr.cstack
      · simp only [List.length_cons, List.length_map]; omega
      · intro k v hk
        simp only
        rw [show s.scc.vtop + 1 + k = s.scc.vtop + (k + 1) by omega]
        exact hr.vstack (k + 1) v (by rw [hvs]; simpa using hk)
    · unfold measure
      rw [hfr]
      simp only [Ghost.merge, List.map_cons, List.sum_cons, hf.st]
      simp; omega

theorem discover_measure (h : Inv nv adj Rch g) {c : Nat} (hp : g.pend = some c) :
    measure nv adj (g.discover adj c) = measure nv adj g := by
  obtain ⟨hst, hlt, _⟩ := h.pend_ok c hp
  unfold measure
  rw [remSum_discover hlt hst (x := (adj c).length) (by omega)]
  have hsum : (g.frames.map fun f => (Function.update g.st c ((adj c).length : Int) f.1).toNat + 1)
      = g.frames.map fun f => (g.st f.1).toNat + 1 := by
    apply List.map_congr_left
    intro f hf
    have : f.1 ≠ c := by
      rintro rfl
      have := (h.st_stk f.1).mpr (mem_stk.mpr ⟨f, hf, Or.inl rfl⟩); omega
    rw [Function.update_of_ne this]
  simp only [Ghost.discover, List.map_cons, List.sum_cons, Function.update_self, hsum]
  simp; omega

theorem descend_measure (h : Inv nv adj Rch g) {c : Nat} {seg rest} (hfr : g.frames = (c, seg) :: rest)
    {k : Nat} (hk : g.st c = (k : Int) + 1) (child : Nat) :
    measure nv adj g = measure nv adj (g.descend c k child) + 1 ∧
    (g.descend c k child).clock = g.clock ∧
    (∀ v, g.st v ≠ -1 → (g.descend c k child).st v ≠ -1) := by
  have hst : (g.descend c k child).st = Function.update g.st c (k : Int) := by
    unfold Ghost.descend; split
    · rfl
    · split <;> rfl
  have hfr' : (g.descend c k child).frames = g.frames := by
    unfold Ghost.descend; split
    · rfl
    · split <;> rfl
  have hnd := h.nodupS
  refine ⟨?_, ?_, ?_⟩
  · unfold measure
    rw [hst, hfr', hfr]
    have hrem : remSum nv adj g.st = remSum nv adj (Function.update g.st c (k : Int)) := by
      apply remSum_congr
      intro v _
      by_cases hv : v = c
      · subst hv; rw [Function.update_self]; omega
      · rw [Function.update_of_ne hv]
    have hsum : (rest.map fun f => (Function.update g.st c (k : Int) f.1).toNat + 1)
        = rest.map fun f => (g.st f.1).toNat + 1 := by
      apply List.map_congr_left
      intro f hf
      have : f.1 ≠ c := by
        intro e
        rw [hfr, stk_cons] at hnd
        exact (List.nodup_cons.mp (List.nodup_append.mp hnd).2.1).1 (mem_stk.mpr ⟨f, hf, Or.inl e.symm⟩)
      rw [Function.update_of_ne this]
    rw [hrem]
    simp only [List.map_cons, List.sum_cons, Function.update_self, hsum, hk]
    omega
  · unfold Ghost.descend; split
    · rfl
    · split <;> rfl
  · intro v hv
    rw [hst]
    by_cases hvc : v = c
    · subst hvc; rw [Function.update_self]; omega
    · rw [Function.update_of_ne hvc]; exact hv

/-- One round of the main loop. -/
theorem body_spec (hC : Csr nv adj ia ja) (hN : nv ≤ N) (hN64 : N ≤ 18446744073709551616)
    (hcl : ∀ u, Rch u → ∀ v ∈ adj u, v < nv ∧ Rch v)
    (h : Inv nv adj Rch g) (hr : Rel N s g (vs g)) (hne : vs g ≠ []) :
    ∃ s' g', localBody ia ja s g.clock = .ok (s', g'.clock) ∧ Inv nv adj Rch g' ∧
      Rel N s' g' (vs g') ∧ measure nv adj g = measure nv adj g' + 1 ∧
      (∀ v, g.st v ≠ -1 → g'.st v ≠ -1) ∧ (∀ p, g.pend = some p → g'.st p ≠ -1) ∧
      g' = g.step adj := by
  -- the head of the vertex stack, and the state once it has been discovered
  obtain ⟨c, hc0, hcN, hcd, s1, g1, seg, rest, e1, I1, R1, m1, hp1, hf1, hs1, hs2, hg1⟩ : ∃ c, (vs g)[0]? = some c ∧
      c < N ∧ g.st c ≠ -2 ∧ ∃ s1 g1 seg rest, discoverIfRemaining c ia g.clock s = .ok (s1, g1.clock) ∧
      Inv nv adj Rch g1 ∧ Rel N s1 g1 (vs g1) ∧ measure nv adj g1 = measure nv adj g ∧
      g1.pend = none ∧ g1.frames = (c, seg) :: rest ∧ (∀ v, g.st v ≠ -1 → g1.st v ≠ -1) ∧
      (∀ p, g.pend = some p → g1.st p ≠ -1) ∧ g.step adj = g1.act adj := by
    cases hp : g.pend with
    | some c =>
      obtain ⟨hst, hlt, _⟩ := h.pend_ok c hp
      obtain ⟨s1, e1, r1⟩ := discover_spec hC hN h hp hr
      refine ⟨c, by simp [vs, hp], by omega, by omega, s1, g.discover adj c, [], g.frames, ?_, h.discover hp, r1,
        discover_measure h hp, rfl, rfl, ?_, ?_, by simp [Ghost.step, hp]⟩
      · unfold discoverIfRemaining
        simp only [Res.bind_eq, rdM_of_getElem? (hr.status c (by omega)), Res.ok_bind]
        rw [if_pos (by rw [hst]; rfl)]; exact e1
      · intro v hv
        simp only [Ghost.discover]
        by_cases hvc : v = c
        · subst hvc; rw [Function.update_self]; omega
        · rw [Function.update_of_ne hvc]; exact hv
      · intro p hp'; simp at hp'; subst hp'
        simp only [Ghost.discover, Function.update_self]; omega
    | none =>
      cases hfr : g.frames with
      | nil => simp [vs, hp, hfr] at hne
      | cons f rest =>
        obtain ⟨c, seg⟩ := f
        have hcS : c ∈ stk g.frames := by rw [hfr]; simp
        have hlt := (h.lt c (Or.inr hcS)).1
        have hge := (h.st_stk c).mpr hcS
        refine ⟨c, by simp [vs, hp, hfr], by omega, by omega, s, g, seg, rest, ?_, h, hr, rfl, hp, hfr,
          fun v hv => hv, by simp, by simp [Ghost.step, hp]⟩
        unfold discoverIfRemaining
        simp only [Res.bind_eq, rdM_of_getElem? (hr.status c (by omega)), Res.ok_bind]
        rw [if_neg (by show ¬ _ = (-1 : Int); omega)]; rfl
  have hcS : c ∈ stk g1.frames := by rw [hf1]; simp
  have hge := (I1.st_stk c).mpr hcS
  have hst := h.st_ge c
  -- the rest of the round
  obtain ⟨s2, g2, e2, I2, R2, m2, k2, hs3, hg2⟩ : ∃ s2 g2, completeOrDescend c ia ja s1 = .ok s2 ∧
      Inv nv adj Rch g2 ∧ Rel N s2 g2 (vs g2) ∧ measure nv adj g1 = measure nv adj g2 + 1 ∧
      g2.clock = g1.clock ∧ (∀ v, g1.st v ≠ -1 → g2.st v ≠ -1) ∧ g2 = g1.act adj := by
    unfold completeOrDescend
    simp only [Res.bind_eq, rdM_of_getElem? (R1.status c hcN), Res.ok_bind]
    by_cases h0 : g1.st c = 0
    · rw [if_pos h0]
      obtain ⟨s2, g2, e2, I2, R2, m2, k2, hs3, hg2⟩ := complete_spec hN hN64 I1 ⟨hf1, hp1, h0⟩ R1
      exact ⟨s2, g2, e2, I2, R2, m2, k2, hs3, by simp [Ghost.act, hf1, h0, hg2]⟩
    · rw [if_neg h0]
      obtain ⟨k, hk⟩ : ∃ k : Nat, g1.st c = (k : Int) + 1 := ⟨(g1.st c - 1).toNat, by omega⟩
      obtain ⟨s2, child, hch, e2, R2⟩ := descend_spec hC hN I1 hf1 hp1 hk R1
      obtain ⟨m2, k2, hs3⟩ := descend_measure I1 hf1 hk child
      exact ⟨s2, _, e2, I1.descend hcl hf1 hp1 hk hch, R2, m2, k2, hs3, by
        have hkk : (g1.st c - 1).toNat = k := by omega
        simp [Ghost.act, hf1, h0, hkk, hch]⟩
  refine ⟨s2, g2, ?_, I2, R2, by omega, fun v hv => hs3 v (hs1 v hv), fun p hp => hs3 p (hs2 p hp),
    by rw [hg1, hg2]⟩
  unfold localBody
  have hv0 := hr.vstack 0 c hc0
  rw [Nat.add_zero] at hv0
  simp only [Res.bind_eq, Res.pure_eq, rdM_of_getElem? hv0, rdM_of_getElem? (hr.status c hcN), Res.ok_bind,
    assertThat_ok (show (g.st c != DONE) = true by simpa [DONE] using hcd),
    assertThat_ok (show decide (g.st c ≥ -2) = true by simpa using hst), e1, e2, k2]

/-- The main loop, with exactly as many rounds as the measure says. -/
theorem localLoop_spec (hC : Csr nv adj ia ja) (hN : nv ≤ N) (hN64 : N ≤ 18446744073709551616)
    (hcl : ∀ u, Rch u → ∀ v ∈ adj u, v < nv ∧ Rch v) (m : Nat) :
    ∀ (g : Ghost) (s : Run), measure nv adj g = m → Inv nv adj Rch g → Rel N s g (vs g) →
    ∃ s' g', (∀ k, localLoop ia ja (measure nv adj g + k) s g.clock = .ok (s', measure nv adj g' + k)) ∧
      Inv nv adj Rch g' ∧ Rel N s' g' (vs g') ∧ g'.frames = [] ∧ g'.pend = none ∧
      (∀ v, g.st v ≠ -1 → g'.st v ≠ -1) ∧ (∀ p, g.pend = some p → g'.st p ≠ -1) ∧
      g' = g.run adj m := by
  induction m with
  | zero =>
    intro g s hm h hr
    by_cases hne : vs g = []
    · have hf0 : g.frames = [] := by cases hf : g.frames <;> simp [vs, hf] at hne ⊢
      have hp0 : g.pend = none := by cases hf : g.pend <;> simp [vs, hf] at hne ⊢
      refine ⟨s, g, ?_, h, hr, hf0, hp0, fun v hv => hv, ?_, by simp [Ghost.run]⟩
      · intro k
        unfold localLoop
        have := hr.vtop; rw [hne] at this
        rw [if_pos (by rw [hr.vbase]; simpa using this)]
      · intro p hp; simp [vs, hp] at hne
    · obtain ⟨s1, g1, _, _, _, m1, _⟩ := body_spec hC hN hN64 hcl h hr hne
      omega
  | succ m ih =>
    intro g s hm h hr
    by_cases hne : vs g = []
    · have hf0 : g.frames = [] := by cases hf : g.frames <;> simp [vs, hf] at hne ⊢
      have hp0 : g.pend = none := by cases hf : g.pend <;> simp [vs, hf] at hne ⊢
      refine ⟨s, g, ?_, h, hr, hf0, hp0, fun v hv => hv, ?_, by simp [Ghost.run, hf0, hp0]⟩
      · intro k
        unfold localLoop
        have := hr.vtop; rw [hne] at this
        rw [if_pos (by rw [hr.vbase]; simpa using this)]
      · intro p hp; simp [vs, hp] at hne
    · obtain ⟨s1, g1, e1, I1, R1, m1, hs1, hs2, hg1⟩ := body_spec hC hN hN64 hcl h hr hne
      obtain ⟨s2, g2, e2, I2, R2, f2, p2, hs3, hs4, hg2⟩ := ih g1 s1 (by omega) I1 R1
      refine ⟨s2, g2, ?_, I2, R2, f2, p2, fun v hv => hs3 v (hs1 v hv), fun p hp => hs3 p (hs2 p hp), ?_⟩
      rotate_left
      · have hnv : ¬ (g.pend = none ∧ g.frames = []) := fun hh => hne (by simp [vs, hh.1, hh.2])
        rw [Ghost.run, if_neg hnv, ← hg1]; exact hg2
      intro k
      unfold localLoop
      have hvb : ¬ s.scc.vtop = s.scc.vbase := by
        have := hr.vtop; rw [hr.vbase]
        have := List.length_pos_of_ne_nil hne; omega
      rw [if_neg hvb, show measure nv adj g + k = (measure nv adj g1 + k) + 1 by omega]
      simp only [e1, Res.ok_bind]
      exact e2 k

/-- tarjan.c:255-294 on ghost data. -/
theorem local_spec (hC : Csr nv adj ia ja) (hN : nv ≤ N) (hN64 : N ≤ 18446744073709551616)
    (hcl : ∀ u, Rch u → ∀ v ∈ adj u, v < nv ∧ Rch v)
    (h : Inv nv adj Rch g) (hr : Rel N s g []) (hf : g.frames = []) {start : Nat}
    (hs : start < nv) (hrs : Rch start) (hd : g.st start ≠ -2) :
    ∃ s' g', (∀ k, tarjanLocal start ia ja s (measure nv adj g + k) = .ok (s', measure nv adj g' + k)) ∧
      Inv nv adj Rch g' ∧ Rel N s' g' [] ∧ g'.frames = [] ∧ g'.pend = none ∧
      (∀ v, g.st v ≠ -1 → g'.st v ≠ -1) ∧ g'.st start = -2 ∧
      g' = (g.begin start).run adj (measure nv adj g) := by
  have hI := h.begin hf hs hrs hd
  have hlen := hI.vs_len
  obtain ⟨scc, e1, r1⟩ := pushV_spec (x := start) hr (by
    simp [vs, Ghost.begin] at hlen; simp; omega)
  have hvs : vs (g.begin start) = [start] := by simp [vs, Ghost.begin, hf]
  have r2 : Rel N { s with scc := scc } (g.begin start) (vs (g.begin start)) := by
    rw [hvs]
    exact ⟨r1.nvert, r1.lenStatus, r1.lenLink, r1.lenTime, r1.lenStart, r1.lenVert, r1.vbase, r1.cbase,
      r1.status, r1.link, r1.time, r1.ncomp, r1.start, r1.vert, r1.ctop, r1.cstack, r1.vtop, r1.vstack⟩
  obtain ⟨s2, g2, e2, I2, R2, f2, p2, hs3, hs4, hg2⟩ := localLoop_spec hC hN hN64 hcl _ (g.begin start) _ rfl hI r2
  have hvs2 : vs g2 = [] := by simp [vs, f2, p2]
  refine ⟨s2, g2, ?_, I2, hvs2 ▸ R2, f2, p2, hs3, ?_, hg2⟩
  · intro k
    unfold tarjanLocal
    have hm : measure nv adj g = measure nv adj (g.begin start) := rfl
    have hc : (s2.scc.ctop == s2.scc.cbase) = true := by
      have := R2.ctop; rw [f2] at this; rw [R2.cbase]; simpa using this
    simp only [Res.bind_eq, Res.pure_eq, e1, Res.ok_bind, hm]
    have := e2 k
    simp only [Ghost.begin] at this ⊢
    rw [this, Res.ok_bind]
    simp only [assertThat_ok hc, Res.ok_bind]
  · have h1 := hs4 start rfl
    have h2 := I2.st_ge start
    have h3 := I2.st_stk start
    rw [f2] at h3; simp at h3; omega

end

end Verif.Tarjan
