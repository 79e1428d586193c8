/-
Abstract correctness argument for the depth-first search of tarjan.c: the search
as a transition system on ghost data, and the invariant kept by its steps.
-/
import Mathlib.Logic.Relation
import Mathlib.Logic.Function.Basic
import Mathlib.Data.List.Nodup
import Mathlib.Data.List.Perm.Subperm
import Mathlib.Algebra.Order.Group.Int
import Mathlib.Data.List.Range
import Mathlib.Tactic.Common

namespace Verif.Tarjan

/-- Ghost state of a search: completed components (oldest first), the frames of the
    depth-first path (innermost first), each with the finished but unassigned vertices above
    it on the component stack, a child that was pushed but not discovered, and the
    contents of the three work arrays. -/
structure Ghost where
  done : List (List Nat)
  frames : List (Nat × List Nat)
  pend : Option Nat
  st : Nat → Int
  lk : Nat → Int
  tm : Nat → Int
  clock : Int

def stk (fr : List (Nat × List Nat)) : List Nat := fr.flatMap fun f => f.2 ++ [f.1]

@[simp] theorem stk_nil : stk [] = [] := rfl
@[simp] theorem stk_cons (f : Nat × List Nat) (fr) : stk (f :: fr) = f.2 ++ f.1 :: stk fr := by
  simp [stk]

theorem mem_stk {fr : List (Nat × List Nat)} {v : Nat} :
    v ∈ stk fr ↔ ∃ f ∈ fr, v = f.1 ∨ v ∈ f.2 := by
  simp only [stk, List.mem_flatMap, List.mem_append, List.mem_singleton]
  constructor <;> rintro ⟨f, hf, h⟩ <;> exact ⟨f, hf, h.symm⟩

def Edge (adj : Nat → List Nat) (u v : Nat) : Prop := v ∈ adj u
abbrev Reach (adj : Nat → List Nat) : Nat → Nat → Prop := Relation.ReflTransGen (Edge adj)

/-- Every vertex of `c` but the last has an edge coming in from a vertex listed later. -/
def Backed (adj : Nat → List Nat) (c : List Nat) : Prop :=
  ∀ pre u post, c = pre ++ u :: post → post ≠ [] → ∃ p ∈ post, Edge adj p u

theorem Backed.single (adj : Nat → List Nat) (c : Nat) : Backed adj [c] := by
  intro pre u post e hp
  have := congrArg List.length e
  simp only [List.length_append, List.length_cons, List.length_nil] at this
  exact absurd (List.length_eq_zero_iff.mp (by omega)) hp

/-- Joining two such lists when the last vertex of the second leads to the last of the first. -/
theorem Backed.append {adj : Nat → List Nat} {l l' : List Nat} {c p : Nat} (h : Backed adj (l ++ [c]))
    (h' : Backed adj (l' ++ [p])) (he : Edge adj p c) : Backed adj (l ++ c :: (l' ++ [p])) := by
  intro pre u post e hp
  rw [show l ++ c :: (l' ++ [p]) = (l ++ [c]) ++ (l' ++ [p]) by simp] at e
  rcases List.append_eq_append_iff.mp e with ⟨a, e1, e2⟩ | ⟨b, e1, e2⟩
  · exact h' a u post e2 hp
  · cases b with
    | nil =>
      rw [List.nil_append] at e2
      exact h' [] u post (by rw [List.nil_append]; exact e2.symm) hp
    | cons x b =>
      rw [List.cons_append, List.cons.injEq] at e2
      obtain ⟨rfl, e2⟩ := e2
      by_cases hb : b = []
      · subst hb
        have hu : c = u := by
          have := List.append_inj' e1 rfl
          simpa using this.2
        subst hu
        exact ⟨p, by rw [e2]; simp, he⟩
      · obtain ⟨q, hq, hE⟩ := h pre u b e1 hb
        exact ⟨q, by rw [e2]; exact List.mem_append.mpr (Or.inl hq), hE⟩

structure Inv (nv : Nat) (adj : Nat → List Nat) (Rch : Nat → Prop) (g : Ghost) : Prop where
  nodupD : g.done.flatten.Nodup
  lt : ∀ v, v ∈ g.done.flatten ∨ v ∈ stk g.frames → v < nv ∧ Rch v
  pend_ok : ∀ p, g.pend = some p → g.st p = -1 ∧ p < nv ∧ Rch p
  st_done : ∀ v, g.st v = -2 ↔ v ∈ g.done.flatten
  st_stk : ∀ v, 0 ≤ g.st v ↔ v ∈ stk g.frames
  st_ge : ∀ v, -2 ≤ g.st v
  st_le : ∀ v ∈ stk g.frames, g.st v ≤ (adj v).length
  st_seg : ∀ f ∈ g.frames, ∀ u ∈ f.2, g.st u = 0
  closed : ∀ pre c post, g.done = pre ++ c :: post → ∀ u ∈ c, ∀ v ∈ adj u, v ∈ pre.flatten ∨ v ∈ c
  conn : ∀ c ∈ g.done, c ≠ [] ∧ ∀ u ∈ c, ∀ v ∈ c, Reach adj u v
  seg : ∀ f ∈ g.frames, ∀ u ∈ f.2, Reach adj f.1 u ∧ Reach adj u f.1
  path : g.frames.IsChain fun a b => Edge adj b.1 a.1
  pendEdge : ∀ p, g.pend = some p → ∀ f ∈ g.frames.head?, Edge adj f.1 p
  times : (stk g.frames).Pairwise fun a b => g.tm b < g.tm a
  clock_gt : ∀ v ∈ stk g.frames, g.tm v < g.clock
  clock_le : 0 ≤ g.clock ∧ g.clock ≤ (g.done.flatten.length : Int) + (stk g.frames).length
  link_le : ∀ f ∈ g.frames, g.lk f.1 ≤ g.tm f.1
  link_wit : ∀ f ∈ g.frames, ∃ w ∈ stk g.frames, g.tm w = g.lk f.1 ∧ Reach adj f.1 w
  proc : ∀ f ∈ g.frames, ∀ u, u = f.1 ∨ u ∈ f.2 → ∀ v ∈ (adj u).drop (g.st u).toNat,
    v ∈ g.done.flatten ∨ (v ∈ stk g.frames ∧ g.lk f.1 ≤ g.tm v) ∨ g.pend = some v
  back : ∀ f ∈ g.frames, Backed adj (f.2 ++ [f.1])
  backD : ∀ c ∈ g.done, Backed adj c

section
variable {nv : Nat} {adj : Nat → List Nat} {Rch : Nat → Prop} {g : Ghost}

namespace Inv

theorem nodupS (h : Inv nv adj Rch g) : (stk g.frames).Nodup :=
  h.times.imp fun h => by rintro rfl; omega

theorem disj (h : Inv nv adj Rch g) {v : Nat} (h1 : v ∈ g.done.flatten) (h2 : v ∈ stk g.frames) :
    False := by
  have := (h.st_done v).mpr h1; have := (h.st_stk v).mpr h2; omega

theorem nodupAll (h : Inv nv adj Rch g) : (g.done.flatten ++ stk g.frames).Nodup := by
  rw [List.nodup_append]
  exact ⟨h.nodupD, h.nodupS, fun a ha b hb hab => h.disj ha (hab ▸ hb)⟩

theorem card_le (h : Inv nv adj Rch g) :
    g.done.flatten.length + (stk g.frames).length ≤ nv := by
  have := List.Subperm.length_le (List.subperm_of_subset h.nodupAll (l₂ := List.range nv) (by
    intro v hv; rw [List.mem_range]; exact (h.lt v (List.mem_append.mp hv)).1))
  simpa using this

theorem card_lt (h : Inv nv adj Rch g) {p : Nat} (hp : g.pend = some p) :
    g.done.flatten.length + (stk g.frames).length < nv := by
  obtain ⟨h1, h2, _⟩ := h.pend_ok p hp
  have hnd : (p :: (g.done.flatten ++ stk g.frames)).Nodup := by
    rw [List.nodup_cons]
    refine ⟨?_, h.nodupAll⟩
    intro hv
    rcases List.mem_append.mp hv with hv | hv
    · have := (h.st_done p).mpr hv; omega
    · have := (h.st_stk p).mpr hv; omega
  have := List.Subperm.length_le (List.subperm_of_subset hnd (l₂ := List.range nv) (by
    intro v hv; rw [List.mem_range]
    rcases List.mem_cons.mp hv with rfl | hv
    · exact h2
    · exact (h.lt v (List.mem_append.mp hv)).1))
  simp only [List.length_cons, List.length_append, List.length_range] at this; omega

end Inv

/-- Discovery of the pending vertex. -/
def Ghost.discover (adj : Nat → List Nat) (g : Ghost) (c : Nat) : Ghost :=
  { done := g.done, frames := (c, []) :: g.frames, pend := none
    st := Function.update g.st c (adj c).length
    lk := Function.update g.lk c g.clock
    tm := Function.update g.tm c g.clock
    clock := g.clock + 1 }

theorem Inv.discover (h : Inv nv adj Rch g) {c : Nat} (hp : g.pend = some c) :
    Inv nv adj Rch (g.discover adj c) := by
  obtain ⟨hst, hlt, hr⟩ := h.pend_ok c hp
  have hcS : c ∉ stk g.frames := fun hc => by have := (h.st_stk c).mpr hc; omega
  have hcD : c ∉ g.done.flatten := fun hc => by have := (h.st_done c).mpr hc; omega
  have hne : ∀ v ∈ stk g.frames, v ≠ c := fun v hv e => hcS (e ▸ hv)
  have hneD : ∀ v ∈ g.done.flatten, v ≠ c := fun v hv e => hcD (e ▸ hv)
  have hf : ∀ f ∈ g.frames, f.1 ≠ c := fun f hf => hne _ (mem_stk.mpr ⟨f, hf, Or.inl rfl⟩)
  have hf2 : ∀ f ∈ g.frames, ∀ u ∈ f.2, u ≠ c := fun f hf u hu =>
    hne _ (mem_stk.mpr ⟨f, hf, Or.inr hu⟩)
  have hcl := h.clock_gt
  unfold Ghost.discover
  constructor
  · exact h.nodupD
  · intro v hv
    simp only [stk_cons, List.nil_append, List.mem_cons] at hv
    rcases hv with hv | rfl | hv
    · exact h.lt v (Or.inl hv)
    · exact ⟨hlt, hr⟩
    · exact h.lt v (Or.inr hv)
  · intro p hp'; simp at hp'
  · intro v
    by_cases hv : v = c
    · subst hv; simp only [Function.update_self]; exact ⟨fun h => by omega, fun h => absurd h hcD⟩
    · simp only [Function.update_of_ne hv]; exact h.st_done v
  · intro v
    by_cases hv : v = c
    · subst hv; simp
    · simp [hv, h.st_stk v]
  · intro v
    by_cases hv : v = c
    · subst hv; simp only [Function.update_self]; omega
    · simp only [Function.update_of_ne hv]; exact h.st_ge v
  · intro v hv
    by_cases hv' : v = c
    · subst hv'; simp
    · simp only [Function.update_of_ne hv']
      simp only [stk_cons, List.nil_append, List.mem_cons, hv', false_or] at hv
      exact h.st_le v hv
  · intro f hf' u hu
    rcases List.mem_cons.mp hf' with rfl | hf'
    · simp at hu
    · simp only [Function.update_of_ne (hf2 f hf' u hu)]; exact h.st_seg f hf' u hu
  · exact h.closed
  · exact h.conn
  · intro f hf' u hu
    rcases List.mem_cons.mp hf' with rfl | hf'
    · simp at hu
    · exact h.seg f hf' u hu
  · simp only [List.isChain_cons]
    refine ⟨?_, h.path⟩
    intro f hf'
    exact h.pendEdge c hp f hf'
  · intro p hp'; simp at hp'
  · simp only [stk_cons, List.nil_append, List.pairwise_cons, Function.update_self]
    constructor
    · intro v hv
      rw [Function.update_of_ne (hne v hv)]; exact hcl v hv
    · refine List.Pairwise.imp_of_mem ?_ h.times
      intro a b ha hb hab
      rw [Function.update_of_ne (hne a ha), Function.update_of_ne (hne b hb)]; exact hab
  · intro v hv
    simp only [stk_cons, List.nil_append, List.mem_cons] at hv
    rcases hv with rfl | hv
    · simp only [Function.update_self]; omega
    · simp only [Function.update_of_ne (hne v hv)]
      have := hcl v hv; omega
  · have := h.clock_le
    simp only [stk_cons, List.nil_append, List.length_cons]; omega
  · intro f hf'
    rcases List.mem_cons.mp hf' with rfl | hf'
    · simp
    · simp only [Function.update_of_ne (hf f hf')]; exact h.link_le f hf'
  · intro f hf'
    rcases List.mem_cons.mp hf' with rfl | hf'
    · exact ⟨c, by simp, by simp, Relation.ReflTransGen.refl⟩
    · obtain ⟨w, hw, h1, h2⟩ := h.link_wit f hf'
      refine ⟨w, by simp [hw], ?_, h2⟩
      simp only [Function.update_of_ne (hne w hw), Function.update_of_ne (hf f hf')]; exact h1
  · intro f hf' u hu v hv
    rcases List.mem_cons.mp hf' with rfl | hf'
    · simp at hu; subst hu; simp at hv
    · have huc : u ≠ c := by
        rcases hu with rfl | hu
        · exact hf f hf'
        · exact hf2 f hf' u hu
      simp only [Function.update_of_ne huc] at hv
      rcases h.proc f hf' u hu v hv with h1 | ⟨h1, h2⟩ | h1
      · exact Or.inl h1
      · refine Or.inr (Or.inl ⟨by simp [h1], ?_⟩)
        simp only [Function.update_of_ne (hne v h1), Function.update_of_ne (hf f hf')]; exact h2
      · rw [hp] at h1; simp only [Option.some.injEq] at h1; subst h1
        refine Or.inr (Or.inl ⟨by simp, ?_⟩)
        simp only [Function.update_self, Function.update_of_ne (hf f hf')]
        have := h.link_le f hf'
        have := hcl f.1 (mem_stk.mpr ⟨f, hf', Or.inl rfl⟩)
        omega
  · intro f hf'
    rcases List.mem_cons.mp hf' with rfl | hf'
    · exact Backed.single adj _
    · exact h.back f hf'
  · exact h.backD

/-- The innermost frame takes its next edge. -/
def Ghost.descend (g : Ghost) (c : Nat) (k : Nat) (child : Nat) : Ghost :=
  if g.st child = -1 then
    { g with pend := some child, st := Function.update g.st c k }
  else if 0 ≤ g.st child then
    { g with
      st := Function.update g.st c k
      lk := Function.update g.lk c (min (g.lk c) (g.tm child)) }
  else { g with st := Function.update g.st c k }

theorem Inv.descend (h : Inv nv adj Rch g) (hcl : ∀ u, Rch u → ∀ v ∈ adj u, v < nv ∧ Rch v)
    {c : Nat} {seg rest} (hfr : g.frames = (c, seg) :: rest)
    (hp : g.pend = none) {k : Nat} (hk : g.st c = (k : Int) + 1) {child : Nat}
    (hch : (adj c)[k]? = some child) : Inv nv adj Rch (g.descend c k child) := by
  have hcS : c ∈ stk g.frames := by rw [hfr]; simp
  have hchild : child ∈ adj c := List.mem_of_getElem? hch
  have hrc := (h.lt c (Or.inr hcS)).2
  obtain ⟨hclt, hcr⟩ := hcl c hrc child hchild
  have hklt : k < (adj c).length := by
    by_contra hcon; rw [List.getElem?_eq_none (by omega)] at hch; simp at hch
  have hnS := h.nodupS
  have hcseg : c ∉ seg ∧ c ∉ stk rest := by
    rw [hfr, stk_cons, List.nodup_append] at hnS
    constructor
    · intro hc; exact hnS.2.2 c hc c (by simp) rfl
    · have := hnS.2.1; rw [List.nodup_cons] at this; exact this.1
  have hsegne : ∀ f ∈ g.frames, ∀ u ∈ f.2, u ≠ c := by
    rw [hfr]
    intro f hf u hu e
    subst e
    rcases List.mem_cons.mp hf with rfl | hf
    · exact hcseg.1 hu
    · exact hcseg.2 (mem_stk.mpr ⟨f, hf, Or.inr hu⟩)
  have hfne : ∀ f ∈ rest, f.1 ≠ c := by
    intro f hf e
    exact hcseg.2 (mem_stk.mpr ⟨f, hf, Or.inl e.symm⟩)
  -- facts about the updated status that all three cases share
  have s1 : ∀ v, Function.update g.st c (k : Int) v = -2 ↔ v ∈ g.done.flatten := by
    intro v
    by_cases hv : v = c
    · subst hv; simp only [Function.update_self]
      exact ⟨fun h => by omega, fun hd => (h.disj hd hcS).elim⟩
    · rw [Function.update_of_ne hv]; exact h.st_done v
  have s2 : ∀ v, 0 ≤ Function.update g.st c (k : Int) v ↔ v ∈ stk g.frames := by
    intro v
    by_cases hv : v = c
    · subst hv; simp [hcS]
    · rw [Function.update_of_ne hv]; exact h.st_stk v
  have s3 : ∀ v, -2 ≤ Function.update g.st c (k : Int) v := by
    intro v
    by_cases hv : v = c
    · subst hv; simp only [Function.update_self]; omega
    · rw [Function.update_of_ne hv]; exact h.st_ge v
  have s4 : ∀ v ∈ stk g.frames, Function.update g.st c (k : Int) v ≤ (adj v).length := by
    intro v hvS
    by_cases hv : v = c
    · subst hv; simp only [Function.update_self]; omega
    · rw [Function.update_of_ne hv]; exact h.st_le v hvS
  have s5 : ∀ f ∈ g.frames, ∀ u ∈ f.2, Function.update g.st c (k : Int) u = 0 := by
    intro f hf u hu
    rw [Function.update_of_ne (hsegne f hf u hu)]; exact h.st_seg f hf u hu
  have hdrop : (adj c).drop k = child :: (adj c).drop (k + 1) := by
    rw [List.drop_eq_getElem_cons hklt]
    rw [List.getElem?_eq_getElem hklt] at hch; simp at hch; rw [hch]
  have hkk : (g.st c).toNat = k + 1 := by omega
  have hproc : ∀ f ∈ g.frames, ∀ u, u = f.1 ∨ u ∈ f.2 →
      ∀ v ∈ (adj u).drop (Function.update g.st c (k : Int) u).toNat,
      (v = child ∧ f.1 = c) ∨ v ∈ g.done.flatten ∨ (v ∈ stk g.frames ∧ g.lk f.1 ≤ g.tm v) := by
    intro f hf u hu v hv
    by_cases huc : u = c
    · subst huc
      simp only [Function.update_self, Int.toNat_natCast] at hv
      rw [hdrop] at hv
      have hfu : f.1 = u := by
        rcases hu with rfl | hu
        · rfl
        · exact absurd rfl (hsegne f hf u hu)
      rcases List.mem_cons.mp hv with rfl | hv
      · exact Or.inl ⟨rfl, hfu⟩
      · rcases h.proc f hf u hu v (by rw [hkk]; exact hv) with h1 | h1 | h1
        · exact Or.inr (Or.inl h1)
        · exact Or.inr (Or.inr h1)
        · rw [hp] at h1; simp at h1
    · rw [Function.update_of_ne huc] at hv
      rcases h.proc f hf u hu v hv with h1 | h1 | h1
      · exact Or.inr (Or.inl h1)
      · exact Or.inr (Or.inr h1)
      · rw [hp] at h1; simp at h1
  have hst := h.st_ge child
  unfold Ghost.descend
  split
  · rename_i hrem
    have hcc : child ≠ c := by rintro rfl; rw [hk] at hrem; omega
    refine ⟨h.nodupD, h.lt, ?_, s1, s2, s3, s4, s5, h.closed, h.conn, h.seg, h.path, ?_, h.times,
      h.clock_gt, h.clock_le, h.link_le, h.link_wit, ?_, h.back, h.backD⟩
    · intro p hp'; simp only [Option.some.injEq] at hp'; subst hp'
      simp only [Function.update_of_ne hcc]
      exact ⟨hrem, hclt, hcr⟩
    · intro p hp' f hf; simp only [Option.some.injEq] at hp'; subst hp'
      simp only [hfr, List.head?_cons, Option.mem_def, Option.some.injEq] at hf
      subst hf; exact hchild
    · intro f hf u hu v hv
      rcases hproc f hf u hu v hv with ⟨rfl, _⟩ | h1 | h1
      · exact Or.inr (Or.inr rfl)
      · exact Or.inl h1
      · exact Or.inr (Or.inl h1)
  split
  · rename_i hrem hge
    have hcS' := (h.st_stk child).mp hge
    have hlk : ∀ f ∈ g.frames,
        Function.update g.lk c (min (g.lk c) (g.tm child)) f.1 ≤ g.lk f.1 := by
      intro f hf
      by_cases hfc : f.1 = c
      · rw [hfc, Function.update_self]; exact min_le_left _ _
      · rw [Function.update_of_ne hfc]
    refine ⟨h.nodupD, h.lt, ?_, s1, s2, s3, s4, s5, h.closed, h.conn, h.seg, h.path, h.pendEdge, h.times,
      h.clock_gt, h.clock_le, ?_, ?_, ?_, h.back, h.backD⟩
    · intro p hp'; simp only [hp] at hp'; simp at hp'
    · intro f hf; exact le_trans (hlk f hf) (h.link_le f hf)
    · intro f hf
      by_cases hfc : f.1 = c
      · simp only [hfc, Function.update_self]
        rcases min_cases (g.lk c) (g.tm child) with ⟨e, _⟩ | ⟨e, _⟩
        · rw [e, ← hfc]; exact h.link_wit f hf
        · rw [e]; exact ⟨child, hcS', rfl, Relation.ReflTransGen.single hchild⟩
      · simp only [Function.update_of_ne hfc]; exact h.link_wit f hf
    · intro f hf u hu v hv
      rcases hproc f hf u hu v hv with ⟨rfl, h2⟩ | h1 | h1
      · refine Or.inr (Or.inl ⟨hcS', ?_⟩)
        simp only [h2, Function.update_self]; exact min_le_right _ _
      · exact Or.inl h1
      · exact Or.inr (Or.inl ⟨h1.1, le_trans (hlk f hf) h1.2⟩)
  · rename_i hrem hge
    have hd : child ∈ g.done.flatten := (h.st_done child).mp (by omega)
    refine ⟨h.nodupD, h.lt, ?_, s1, s2, s3, s4, s5, h.closed, h.conn, h.seg, h.path, h.pendEdge, h.times,
      h.clock_gt, h.clock_le, h.link_le, h.link_wit, ?_, h.back, h.backD⟩
    · intro p hp'; simp only [hp] at hp'; simp at hp'
    · intro f hf u hu v hv
      rcases hproc f hf u hu v hv with ⟨rfl, h2⟩ | h1 | h1
      · exact Or.inl hd
      · exact Or.inl h1
      · exact Or.inr (Or.inl h1)

/-- The innermost frame is the root of a component, which is recorded. -/
def Ghost.capture (g : Ghost) (c : Nat) (seg : List Nat) (rest : List (Nat × List Nat)) : Ghost :=
  { g with
    done := g.done ++ [seg ++ [c]]
    frames := rest
    st := fun v => if v ∈ seg ++ [c] then -2 else g.st v }

/-- What holds when the innermost frame `c` has no edges left. -/
structure Finishing (adj : Nat → List Nat) (g : Ghost) (c : Nat) (seg : List Nat)
    (rest : List (Nat × List Nat)) : Prop where
  frames : g.frames = (c, seg) :: rest
  pend : g.pend = none
  st : g.st c = 0

theorem Inv.time_facts (h : Inv nv adj Rch g) {c seg rest} (hfr : g.frames = (c, seg) :: rest) :
    (∀ u ∈ seg ++ [c], g.tm c ≤ g.tm u) ∧ (∀ v ∈ stk rest, g.tm v < g.tm c) ∧
    (∀ u ∈ seg ++ [c], u ∉ stk rest) := by
  have ht := h.times
  rw [hfr, stk_cons, List.pairwise_append, List.pairwise_cons] at ht
  obtain ⟨h1, ⟨h2, h3⟩, h4⟩ := ht
  refine ⟨?_, h2, ?_⟩
  · intro u hu
    rcases List.mem_append.mp hu with hu | hu
    · exact le_of_lt (h4 u hu c (by simp))
    · simp at hu; rw [hu]
  · intro u hu hr
    have := h2 u hr
    rcases List.mem_append.mp hu with hu | hu
    · have := h4 u hu u (by simp [hr]); omega
    · simp at hu; subst hu; simp only at this; omega

/-- All edges of the finished vertices go to completed or stacked vertices. -/
theorem Inv.finished_edges (h : Inv nv adj Rch g) {c seg rest} (hf : Finishing adj g c seg rest) :
    ∀ u ∈ seg ++ [c], ∀ v ∈ adj u, v ∈ g.done.flatten ∨ (v ∈ stk g.frames ∧ g.lk c ≤ g.tm v) := by
  intro u hu v hv
  have hmem : (c, seg) ∈ g.frames := by rw [hf.frames]; simp
  have hst : g.st u = 0 := by
    rcases List.mem_append.mp hu with hu | hu
    · exact h.st_seg _ hmem u hu
    · simp at hu; rw [hu]; exact hf.st
  have hu' : u = c ∨ u ∈ seg := by
    rcases List.mem_append.mp hu with hu | hu
    · exact Or.inr hu
    · simp at hu; exact Or.inl hu
  rcases h.proc _ hmem u hu' v (by rw [hst]; simpa using hv) with h1 | h1 | h1
  · exact Or.inl h1
  · exact Or.inr h1
  · rw [hf.pend] at h1; simp at h1

theorem Inv.capture (h : Inv nv adj Rch g) {c seg rest} (hf : Finishing adj g c seg rest)
    (hroot : g.lk c = g.tm c) : Inv nv adj Rch (g.capture c seg rest) := by
  obtain ⟨t1, t2, t3⟩ := h.time_facts hf.frames
  have hedge := h.finished_edges hf
  have hfr := hf.frames
  have hmem : (c, seg) ∈ g.frames := by rw [hfr]; simp
  have hS : ∀ v, v ∈ stk g.frames ↔ v ∈ seg ++ [c] ∨ v ∈ stk rest := by
    intro v; rw [hfr, stk_cons]; simp [or_assoc]
  have hsub : ∀ f ∈ rest, f ∈ g.frames := fun f hf' => by rw [hfr]; exact List.mem_cons_of_mem _ hf'
  have hD : (g.done ++ [seg ++ [c]]).flatten = g.done.flatten ++ (seg ++ [c]) := by simp
  have hcompS : ∀ v ∈ seg ++ [c], v ∈ stk g.frames := fun v hv => (hS v).mpr (Or.inl hv)
  have hrestS : ∀ v ∈ stk rest, v ∈ stk g.frames := fun v hv => (hS v).mpr (Or.inr hv)
  have hnc : ∀ v ∈ stk rest, v ∉ seg ++ [c] := fun v hv hv' => t3 v hv' hv
  have hfst : ∀ f ∈ rest, f.1 ∈ stk rest := fun f hf => mem_stk.mpr ⟨f, hf, Or.inl rfl⟩
  have hsnd : ∀ f ∈ rest, ∀ u ∈ f.2, u ∈ stk rest := fun f hf u hu => mem_stk.mpr ⟨f, hf, Or.inr hu⟩
  have hreach : ∀ u ∈ seg ++ [c], Reach adj c u ∧ Reach adj u c := by
    intro u hu
    rcases List.mem_append.mp hu with hu | hu
    · exact h.seg _ hmem u hu
    · simp at hu; subst hu; exact ⟨.refl, .refl⟩
  unfold Ghost.capture
  constructor
  · show (g.done ++ [seg ++ [c]]).flatten.Nodup
    rw [hD, List.nodup_append]
    refine ⟨h.nodupD, ?_, fun a ha b hb e => h.disj ha (hcompS a (e ▸ hb))⟩
    have hn := h.nodupS
    rw [hfr, stk_cons, show seg ++ c :: stk rest = (seg ++ [c]) ++ stk rest by simp] at hn
    exact (List.nodup_append.mp hn).1
  · intro v hv
    simp only [hD, List.mem_append] at hv
    rcases hv with (hv | hv) | hv
    · exact h.lt v (Or.inl hv)
    · exact h.lt v (Or.inr (hcompS v (List.mem_append.mpr hv)))
    · exact h.lt v (Or.inr (hrestS v hv))
  · intro p hp; simp only [hf.pend] at hp; simp at hp
  · intro v
    simp only [hD]
    rw [List.mem_append (s := g.done.flatten)]
    by_cases hv : v ∈ seg ++ [c]
    · rw [if_pos hv]; simp only [hv, or_true]
    · rw [if_neg hv, h.st_done v]; simp only [hv, or_false]
  · intro v
    by_cases hv : v ∈ seg ++ [c]
    · simp only [if_pos hv]; exact ⟨fun h => by omega, fun h' => absurd h' (t3 v hv)⟩
    · simp only [if_neg hv]; rw [h.st_stk v, hS v]; simp only [hv, false_or]
  · intro v
    by_cases hv : v ∈ seg ++ [c]
    · simp only [if_pos hv]; omega
    · simp only [if_neg hv]; exact h.st_ge v
  · intro v hv
    simp only [if_neg (hnc v hv)]; exact h.st_le v (hrestS v hv)
  · intro f hf' u hu
    simp only [if_neg (hnc u (hsnd f hf' u hu))]; exact h.st_seg f (hsub f hf') u hu
  · intro pre d post he u hu v hv
    by_cases hpost : post = []
    · subst hpost
      obtain ⟨he1, he2⟩ := List.append_inj' he rfl
      simp only [List.cons.injEq, and_true] at he2
      subst he1; subst he2
      rcases hedge u hu v hv with h1 | ⟨h1, h2⟩
      · exact Or.inl h1
      · rcases (hS v).mp h1 with h1 | h1
        · exact Or.inr h1
        · have := t2 v h1; omega
    · obtain ⟨post', x, rfl⟩ := List.eq_nil_or_concat post |>.resolve_left hpost
      rw [List.concat_eq_append, ← List.cons_append, ← List.append_assoc] at he
      obtain ⟨he1, _⟩ := List.append_inj' he rfl
      exact h.closed pre d post' he1 u hu v hv
  · intro d hd
    rcases List.mem_append.mp hd with hd | hd
    · exact h.conn d hd
    · simp only [List.mem_singleton] at hd; subst hd
      refine ⟨by simp, fun u hu v hv => ?_⟩
      exact (hreach u hu).2.trans (hreach v hv).1
  · intro f hf' u hu; exact h.seg f (hsub f hf') u hu
  · have := h.path; rw [hfr] at this
    exact (List.isChain_cons.mp this).2
  · intro p hp; simp only [hf.pend] at hp; simp at hp
  · have := h.times
    rw [hfr, stk_cons, List.pairwise_append, List.pairwise_cons] at this
    exact this.2.1.2
  · intro v hv; exact h.clock_gt v (hrestS v hv)
  · have := h.clock_le
    rw [hfr, stk_cons] at this
    simp only [hD, List.length_append, List.length_cons, List.length_nil] at this ⊢
    omega
  · intro f hf'; exact h.link_le f (hsub f hf')
  · intro f hf'
    obtain ⟨w, hw, h1, h2⟩ := h.link_wit f (hsub f hf')
    refine ⟨w, ?_, h1, h2⟩
    rcases (hS w).mp hw with hw | hw
    · have := t1 w hw
      have := t2 f.1 (hfst f hf')
      have := h.link_le f (hsub f hf')
      omega
    · exact hw
  · intro f hf' u hu v hv
    have huS : u ∈ stk rest := by
      rcases hu with rfl | hu
      · exact hfst f hf'
      · exact hsnd f hf' u hu
    simp only [if_neg (hnc u huS)] at hv
    rcases h.proc f (hsub f hf') u hu v hv with h1 | ⟨h1, h2⟩ | h1
    · refine Or.inl ?_; simp only [hD]; exact List.mem_append.mpr (Or.inl h1)
    · rcases (hS v).mp h1 with h1 | h1
      · refine Or.inl ?_; simp only [hD]; exact List.mem_append.mpr (Or.inr h1)
      · exact Or.inr (Or.inl ⟨h1, h2⟩)
    · rw [hf.pend] at h1; simp at h1
  · intro f hf'; exact h.back f (hsub f hf')
  · intro d hd
    rcases List.mem_append.mp hd with hd | hd
    · exact h.backD d hd
    · simp only [List.mem_singleton] at hd; subst hd
      exact h.back _ hmem

/-- The innermost frame is not a root: its vertices are handed to the parent frame. -/
def Ghost.merge (g : Ghost) (c : Nat) (seg : List Nat) (p : Nat) (segp : List Nat)
    (rest : List (Nat × List Nat)) : Ghost :=
  { g with
    frames := (p, seg ++ c :: segp) :: rest
    lk := Function.update g.lk p (min (g.lk p) (g.lk c)) }

/-- From any path vertex every earlier path vertex leads to it. -/
theorem path_reach {a : Nat × List Nat} {fr : List (Nat × List Nat)}
    (h : (a :: fr).IsChain fun a b => Edge adj b.1 a.1) : ∀ f ∈ a :: fr, Reach adj f.1 a.1 := by
  induction fr generalizing a with
  | nil => intro f hf; simp at hf; subst hf; exact .refl
  | cons b fr ih =>
    intro f hf
    rw [List.isChain_cons_cons] at h
    rcases List.mem_cons.mp hf with rfl | hf
    · exact .refl
    · exact (ih h.2 f hf).tail h.1

/-- A frame that is not a root has a parent, from which it can be reached and which it reaches. -/
theorem Inv.not_root (h : Inv nv adj Rch g) {c seg rest} (hf : Finishing adj g c seg rest)
    (hroot : g.lk c ≠ g.tm c) : ∃ p segp rest', rest = (p, segp) :: rest' ∧ Reach adj c p := by
  obtain ⟨t1, t2, t3⟩ := h.time_facts hf.frames
  have hfr := hf.frames
  have hmem : (c, seg) ∈ g.frames := by rw [hfr]; simp
  obtain ⟨w, hw, h1, h2⟩ := h.link_wit _ hmem
  have hle := h.link_le _ hmem
  simp only at h1 h2 hle
  have hwr : w ∈ stk rest := by
    rw [hfr, stk_cons] at hw
    rcases List.mem_append.mp hw with hw | hw
    · have := t1 w (by simp [hw]); omega
    · rcases List.mem_cons.mp hw with rfl | hw
      · omega
      · exact hw
  obtain ⟨f, hfm, hwf⟩ := mem_stk.mp hwr
  cases rest with
  | nil => simp at hfm
  | cons q rest' =>
    obtain ⟨p, segp⟩ := q
    refine ⟨p, segp, rest', rfl, ?_⟩
    have hpath := h.path
    rw [hfr, List.isChain_cons_cons] at hpath
    have hfp := path_reach hpath.2 f hfm
    have hwf' : Reach adj w f.1 := by
      rcases hwf with rfl | hwf
      · exact .refl
      · exact (h.seg f (by rw [hfr]; exact List.mem_cons_of_mem _ hfm) w hwf).2
    exact h2.trans (hwf'.trans hfp)

theorem Inv.merge (h : Inv nv adj Rch g) {c seg p segp rest}
    (hf : Finishing adj g c seg ((p, segp) :: rest)) (hcp : Reach adj c p) :
    Inv nv adj Rch (g.merge c seg p segp rest) := by
  have hfr := hf.frames
  have hmem : (c, seg) ∈ g.frames := by rw [hfr]; simp
  have hmemp : (p, segp) ∈ g.frames := by rw [hfr]; simp
  have hedge := h.finished_edges hf
  have hS : stk ((p, seg ++ c :: segp) :: rest) = stk g.frames := by rw [hfr]; simp
  have hsub : ∀ f ∈ rest, f ∈ g.frames := fun f hf' => by rw [hfr]; simp [hf']
  have hpath := h.path
  rw [hfr, List.isChain_cons_cons] at hpath
  have hpc : Reach adj p c := .single hpath.1
  have hnp : ∀ f ∈ rest, f.1 ≠ p := by
    intro f hf' e
    have hn := h.nodupS
    rw [hfr, stk_cons, stk_cons] at hn
    have h3 := (List.nodup_append.mp (List.nodup_cons.mp (List.nodup_append.mp hn).2.1).2).2.1
    have h4 := (List.nodup_cons.mp h3).1
    exact h4 (mem_stk.mpr ⟨f, hf', Or.inl e.symm⟩)
  have hlkp : ∀ f ∈ g.frames, Function.update g.lk p (min (g.lk p) (g.lk c)) f.1 ≤ g.lk f.1 := by
    intro f _
    by_cases e : f.1 = p
    · rw [e, Function.update_self]; exact min_le_left _ _
    · rw [Function.update_of_ne e]
  unfold Ghost.merge
  refine ⟨h.nodupD, ?_, h.pend_ok, h.st_done, ?_, h.st_ge, ?_, ?_, h.closed, h.conn, ?_, ?_, ?_, ?_,
    ?_, ?_, ?_, ?_, ?_, ?_, h.backD⟩
  · simp only [hS]; exact h.lt
  · simp only [hS]; exact h.st_stk
  · simp only [hS]; exact h.st_le
  · intro f hf' u hu
    rcases List.mem_cons.mp hf' with rfl | hf'
    · rcases List.mem_append.mp hu with hu | hu
      · exact h.st_seg _ hmem u hu
      · rcases List.mem_cons.mp hu with rfl | hu
        · exact hf.st
        · exact h.st_seg _ hmemp u hu
    · exact h.st_seg f (hsub f hf') u hu
  · intro f hf' u hu
    rcases List.mem_cons.mp hf' with rfl | hf'
    · rcases List.mem_append.mp hu with hu | hu
      · have := h.seg _ hmem u hu
        exact ⟨hpc.trans this.1, this.2.trans hcp⟩
      · rcases List.mem_cons.mp hu with rfl | hu
        · exact ⟨hpc, hcp⟩
        · exact h.seg _ hmemp u hu
    · exact h.seg f (hsub f hf') u hu
  · have := hpath.2
    rw [List.isChain_cons] at this ⊢
    exact this
  · intro q hq; simp only [hf.pend] at hq; simp at hq
  · simp only [hS]; exact h.times
  · simp only [hS]; exact h.clock_gt
  · simp only [hS]; exact h.clock_le
  · intro f hf'
    rcases List.mem_cons.mp hf' with rfl | hf'
    · exact le_trans (hlkp (p, segp) hmemp) (h.link_le (p, segp) hmemp)
    · exact le_trans (hlkp _ (hsub f hf')) (h.link_le _ (hsub f hf'))
  · intro f hf'
    rw [hS]
    rcases List.mem_cons.mp hf' with rfl | hf'
    · simp only [Function.update_self]
      rcases min_cases (g.lk p) (g.lk c) with ⟨e, _⟩ | ⟨e, _⟩
      · rw [e]; exact h.link_wit _ hmemp
      · rw [e]
        obtain ⟨w, hw, h1, h2⟩ := h.link_wit _ hmem
        exact ⟨w, hw, h1, hpc.trans h2⟩
    · simp only [Function.update_of_ne (hnp f hf')]; exact h.link_wit f (hsub f hf')
  · intro f hf' u hu v hv
    rw [hS]
    rcases List.mem_cons.mp hf' with rfl | hf'
    · simp only [Function.update_self]
      have hcase : u ∈ seg ++ [c] ∨ (u = p ∨ u ∈ segp) := by
        rcases hu with rfl | hu
        · exact Or.inr (Or.inl rfl)
        · rcases List.mem_append.mp hu with hu | hu
          · exact Or.inl (by simp [hu])
          · rcases List.mem_cons.mp hu with rfl | hu
            · exact Or.inl (by simp)
            · exact Or.inr (Or.inr hu)
      rcases hcase with hu | hu
      · rcases hedge u hu v (List.mem_of_mem_drop hv) with h1 | ⟨h1, h2⟩
        · exact Or.inl h1
        · exact Or.inr (Or.inl ⟨h1, le_trans (min_le_right _ _) h2⟩)
      · rcases h.proc _ hmemp u hu v hv with h1 | ⟨h1, h2⟩ | h1
        · exact Or.inl h1
        · exact Or.inr (Or.inl ⟨h1, le_trans (min_le_left _ _) h2⟩)
        · exact Or.inr (Or.inr h1)
    · simp only [Function.update_of_ne (hnp f hf')]
      exact h.proc f (hsub f hf') u hu v hv
  · intro f hf'
    rcases List.mem_cons.mp hf' with rfl | hf'
    · have := (h.back _ hmem).append (h.back _ hmemp) hpath.1
      simpa using this
    · exact h.back f (hsub f hf')

/-- The state in which a depth-first search from `start` begins. -/
def Ghost.begin (g : Ghost) (start : Nat) : Ghost :=
  { g with pend := some start, clock := 0 }

theorem Inv.begin (h : Inv nv adj Rch g) (hfr : g.frames = []) {start : Nat}
    (hs : start < nv) (hr : Rch start) (hd : g.st start ≠ -2) : Inv nv adj Rch (g.begin start) := by
  have hst : g.st start = -1 := by
    have h1 := h.st_ge start
    have h2 := h.st_stk start
    rw [hfr] at h2; simp at h2; omega
  unfold Ghost.begin
  refine ⟨h.nodupD, h.lt, ?_, h.st_done, h.st_stk, h.st_ge, h.st_le, h.st_seg, h.closed, h.conn,
    h.seg, h.path, ?_, h.times, ?_, ?_, h.link_le, h.link_wit, ?_, h.back, h.backD⟩
  · intro p hp; simp only [Option.some.injEq] at hp; subst hp; exact ⟨hst, hs, hr⟩
  · intro p _ f hf; simp [hfr] at hf
  · intro v hv; simp [hfr] at hv
  · constructor
    · exact le_refl _
    · show (0 : Int) ≤ (g.done.flatten.length : Int) + (stk g.frames).length; omega
  · intro f hf; simp [hfr] at hf

/-- Completion of the innermost frame. -/
def Ghost.finish (g : Ghost) : Ghost :=
  match g.frames with
  | (c, seg) :: rest =>
    if g.lk c = g.tm c then g.capture c seg rest
    else match rest with
      | (p, segp) :: rest' => g.merge c seg p segp rest'
      | [] => g
  | [] => g

/-- Completion of, or next edge out of, the innermost frame. -/
def Ghost.act (adj : Nat → List Nat) (g : Ghost) : Ghost :=
  match g.frames with
  | (c, _) :: _ =>
    if g.st c = 0 then g.finish
    else match (adj c)[(g.st c - 1).toNat]? with
      | some child => g.descend c (g.st c - 1).toNat child
      | none => g
  | [] => g

/-- One round of the main loop. -/
def Ghost.step (adj : Nat → List Nat) (g : Ghost) : Ghost :=
  match g.pend with
  | some c => (g.discover adj c).act adj
  | none => g.act adj

/-- At most `m` rounds of the main loop. -/
def Ghost.run (adj : Nat → List Nat) : Nat → Ghost → Ghost
  | 0, g => g
  | m + 1, g => if g.pend = none ∧ g.frames = [] then g else run adj m (g.step adj)

end

end Verif.Tarjan
