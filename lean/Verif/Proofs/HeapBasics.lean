/-
Reasoning about the heap: what a call changes, and what `create`, `destroy`, `load` and
`store` do to the structures of tarjan.c.
-/
import Verif.Spec.Heap
import Mathlib.Data.List.Perm.Basic
import Mathlib.Tactic.Tauto

namespace Verif.Heap
open Verif.Tarjan Verif.Solver

/-- What every call does. -/
structure Step (h h' : Heap) : Prop where
  fails : h'.fails = h.fails
  valid : h.Valid → h'.Valid

theorem Step.refl (h : Heap) : Step h h := ⟨rfl, id⟩

theorem Step.trans {h k l : Heap} (a : Step h k) (b : Step k l) : Step h l :=
  ⟨b.fails.trans a.fails, fun v => b.valid (a.valid v)⟩

theorem Step.noFail {h k : Heap} (a : Step h k) (n : h.NoFail) : k.NoFail := by
  intro j; rw [a.fails]; exact n j

/-- The blocks `f` become the blocks `g`; of those concerned, `F` lived before and `G`
    live afterwards. -/
structure Change (f g : Nat → Option Obj) (F G : List Nat) : Prop where
  nodup : G.Nodup
  fresh : ∀ y ∈ G, y ∈ F ∨ f y = none
  frame : ∀ y, y ∉ F → y ∉ G → g y = f y
  freed : ∀ y ∈ F, y ∉ G → g y = none

theorem Change.refl {f : Nat → Option Obj} {F : List Nat} (h : F.Nodup) : Change f f F F :=
  ⟨h, fun _ hy => .inl hy, fun _ _ _ => rfl, fun _ hy hn => absurd hy hn⟩

theorem Change.trans {f g k : Nat → Option Obj} {F G K : List Nat} (a : Change f g F G)
    (b : Change g k G K) : Change f k F K := by
  refine ⟨b.nodup, ?_, ?_, ?_⟩
  · intro y hy
    by_cases hF : y ∈ F
    · exact .inl hF
    · by_cases hG : y ∈ G
      · exact a.fresh y hG
      · rcases b.fresh y hy with h | h
        · exact absurd h hG
        · rw [a.frame y hF hG] at h; exact .inr h
  · intro y hF hK
    by_cases hG : y ∈ G
    · rw [b.freed y hG hK]
      rcases a.fresh y hG with h | h
      · exact absurd h hF
      · exact h.symm
    · rw [b.frame y hG hK, a.frame y hF hG]
  · intro y hF hK
    by_cases hG : y ∈ G
    · exact b.freed y hG hK
    · rw [b.frame y hG hK, a.freed y hF hG]

theorem Change.extend {f g : Nat → Option Obj} {F G X : List Nat} (a : Change f g F G)
    (hX : X.Nodup) (hd : ∀ y ∈ X, y ∉ G) : Change f g (X ++ F) (X ++ G) := by
  refine ⟨?_, ?_, ?_, ?_⟩
  · rw [List.nodup_append]
    exact ⟨hX, a.nodup, fun x hx y hy hxy => hd x hx (hxy ▸ hy)⟩
  · intro y hy
    rw [List.mem_append] at hy
    rcases hy with h | h
    · exact .inl (List.mem_append_left _ h)
    · rcases a.fresh y h with h | h
      · exact .inl (List.mem_append_right _ h)
      · exact .inr h
  · intro y hF hG
    simp only [List.mem_append, not_or] at hF hG
    exact a.frame y hF.2 hG.2
  · intro y hF hG
    simp only [List.mem_append, not_or] at hF hG
    exact a.freed y (hF.resolve_left hG.1) hG.2

theorem Change.perm {f g : Nat → Option Obj} {F G F' G' : List Nat} (a : Change f g F G)
    (hF : F.Perm F') (hG : G.Perm G') : Change f g F' G' :=
  ⟨hG.nodup_iff.1 a.nodup,
   fun y hy => (a.fresh y (hG.mem_iff.2 hy)).imp hF.mem_iff.1 id,
   fun y h1 h2 => a.frame y (fun h => h1 (hF.mem_iff.1 h)) (fun h => h2 (hG.mem_iff.1 h)),
   fun y h1 h2 => a.freed y (hF.mem_iff.2 h1) (fun h => h2 (hG.mem_iff.1 h))⟩

/-- Nothing is left of what was allocated. -/
theorem Change.eq {f g : Nat → Option Obj} (a : Change f g [] []) : g = f :=
  funext fun y => a.frame y (by simp) (by simp)

/-- A workspace at `a`, with its arrays at `b`. -/
structure WorkAt (f : Nat → Option Obj) (a b : Nat) (x : WorkSpace) : Prop where
  str : f a = some (.work ⟨x.nvert, some b⟩)
  arr : f b = some (.threeInts x.status x.link x.time)

/-- A result at `a`, with its arrays at `b` and `c`. -/
structure SccAt (f : Nat → Option Obj) (a b c : Nat) (x : SCCResult) : Prop where
  str : f a = some (.scc ⟨x.ncomp, some b, some c, x.vtop, x.vbase, x.ctop, x.cbase⟩)
  start : f b = some (.sizes x.start)
  vert : f c = some (.ints x.vert)

theorem WorkAt.ne {f : Nat → Option Obj} {a b : Nat} {x : WorkSpace} (w : WorkAt f a b x) :
    a ≠ b := by
  rintro rfl; have := w.str.symm.trans w.arr; simp at this

theorem WorkAt.nodup {f : Nat → Option Obj} {a b : Nat} {x : WorkSpace} (w : WorkAt f a b x) :
    [a, b].Nodup := by simp [w.ne]

theorem SccAt.ne₁ {f : Nat → Option Obj} {a b c : Nat} {x : SCCResult} (w : SccAt f a b c x) :
    a ≠ b := by
  rintro rfl; have := w.str.symm.trans w.start; simp at this

theorem SccAt.ne₂ {f : Nat → Option Obj} {a b c : Nat} {x : SCCResult} (w : SccAt f a b c x) :
    a ≠ c := by
  rintro rfl; have := w.str.symm.trans w.vert; simp at this

theorem SccAt.ne₃ {f : Nat → Option Obj} {a b c : Nat} {x : SCCResult} (w : SccAt f a b c x) :
    b ≠ c := by
  rintro rfl; have := w.start.symm.trans w.vert; simp at this

theorem SccAt.nodup {f : Nat → Option Obj} {a b c : Nat} {x : SCCResult} (w : SccAt f a b c x) :
    [a, b, c].Nodup := by simp [w.ne₁, w.ne₂, w.ne₃]

theorem WorkAt.congr {f g : Nat → Option Obj} {a b : Nat} {x : WorkSpace} (w : WorkAt f a b x)
    (h : ∀ y ∈ [a, b], g y = f y) : WorkAt g a b x :=
  ⟨(h a (by simp)).trans w.str, (h b (by simp)).trans w.arr⟩

theorem SccAt.congr {f g : Nat → Option Obj} {a b c : Nat} {x : SCCResult}
    (w : SccAt f a b c x) (h : ∀ y ∈ [a, b, c], g y = f y) : SccAt g a b c x :=
  ⟨(h a (by simp)).trans w.str, (h b (by simp)).trans w.start, (h c (by simp)).trans w.vert⟩

theorem WorkAt.live {f : Nat → Option Obj} {a b : Nat} {x : WorkSpace} (w : WorkAt f a b x) :
    ∀ y ∈ [a, b], f y ≠ none := by
  intro y hy
  simp only [List.mem_cons, List.not_mem_nil, or_false] at hy
  rcases hy with rfl | rfl
  · simp [w.str]
  · simp [w.arr]

theorem SccAt.live {f : Nat → Option Obj} {a b c : Nat} {x : SCCResult} (w : SccAt f a b c x) :
    ∀ y ∈ [a, b, c], f y ≠ none := by
  intro y hy
  simp only [List.mem_cons, List.not_mem_nil, or_false] at hy
  rcases hy with rfl | rfl | rfl
  · simp [w.str]
  · simp [w.start]
  · simp [w.vert]

/-- The arrays of a workspace and of a result are different blocks. -/
theorem WorkAt.disjoint {f : Nat → Option Obj} {a b a' b' c' : Nat} {x : WorkSpace}
    {y : SCCResult} (w : WorkAt f a b x) (s : SccAt f a' b' c' y) :
    ∀ z ∈ [a, b], z ∉ [a', b', c'] := by
  intro z hz hz'
  simp only [List.mem_cons, List.not_mem_nil, or_false] at hz hz'
  rcases hz with rfl | rfl <;> rcases hz' with h | h | h <;> rw [h] at w
  all_goals first
    | (have := w.str.symm.trans s.str; simp at this; done)
    | (have := w.str.symm.trans s.start; simp at this; done)
    | (have := w.str.symm.trans s.vert; simp at this; done)
    | (have := w.arr.symm.trans s.str; simp at this; done)
    | (have := w.arr.symm.trans s.start; simp at this; done)
    | (have := w.arr.symm.trans s.vert; simp at this; done)

theorem bind_eq {α β : Type} (m : H α) (f : α → H β) : (m >>= f) = H.bind m f := rfl
theorem pure_eq {α : Type} (a : α) : (pure a : H α) = H.pure a := rfl

theorem bind_ok {α β : Type} {m : H α} {f : α → H β} {h h' : Heap} {a : α}
    (e : m h = some (h', .ok a)) : H.bind m f h = f a h' := by
  simp [H.bind, e]

theorem bind_throw {α β : Type} {m : H α} {f : α → H β} {h h' : Heap} {x : Exc}
    (e : m h = some (h', .throw x)) : H.bind m f h = some (h', .throw x) := by
  simp [H.bind, e]

theorem bind_ub {α β : Type} {m : H α} {f : α → H β} {h h' : Heap} {x : UB}
    (e : m h = some (h', .ub x)) : H.bind m f h = some (h', .ub x) := by
  simp [H.bind, e]

theorem bind_diverge {α β : Type} {m : H α} {f : α → H β} {h h' : Heap}
    (e : m h = some (h', .diverge)) : H.bind m f h = some (h', .diverge) := by
  simp [H.bind, e]

/-! ### One structure -/

theorem loadWork_eq {h : Heap} {a b : Nat} {x : WorkSpace} (w : WorkAt h.block a b x) :
    loadWork (some a) h = some (h, .ok x) := by
  simp [loadWork, loadWorkStruct, load, bind_eq, pure_eq, H.bind, H.pure, w.str, w.arr]

theorem loadScc_eq {h : Heap} {a b c : Nat} {x : SCCResult} (w : SccAt h.block a b c x) :
    loadScc (some a) h = some (h, .ok x) := by
  simp [loadScc, loadSccStruct, load, bind_eq, pure_eq, H.bind, H.pure, w.str, w.start, w.vert]

theorem storeWork_spec {h : Heap} {a b : Nat} {x : WorkSpace} (w : WorkAt h.block a b x)
    (z : WorkSpace) : ∃ h', storeWork (some a) z h = some (h', .ok ()) ∧ Step h h' ∧
      WorkAt h'.block a b z ∧ Change h.block h'.block [a, b] [a, b] := by
  have hne := w.ne
  refine ⟨{ h with block := fun y =>
      if y = a then some (.work ⟨z.nvert, some b⟩)
      else if y = b then some (.threeInts z.status z.link z.time) else h.block y }, by
    simp [storeWork, loadWorkStruct, load, store, bind_eq, pure_eq, H.bind, H.pure, w.str, w.arr,
      hne], ⟨rfl, ?_⟩, ⟨?_, ?_⟩, ⟨w.nodup, fun y hy => .inl hy, ?_, fun y hy hn => absurd hy hn⟩⟩
  · intro hv y hy
    have ha := hv a; have hb := hv b
    have : y ≠ a := fun e => w.live a (by simp) (hv a (e ▸ hy))
    have : y ≠ b := fun e => w.live b (by simp) (hv b (e ▸ hy))
    simp [*, hv y hy]
  · simp
  · simp [hne.symm]
  · intro y hy _
    simp at hy
    simp [hy.1, hy.2]

theorem storeScc_spec {h : Heap} {a b c : Nat} {x : SCCResult} (w : SccAt h.block a b c x)
    (z : SCCResult) : ∃ h', storeScc (some a) z h = some (h', .ok ()) ∧ Step h h' ∧
      SccAt h'.block a b c z ∧ Change h.block h'.block [a, b, c] [a, b, c] := by
  have h1 := w.ne₁; have h2 := w.ne₂; have h3 := w.ne₃
  refine ⟨{ h with block := fun y =>
      if y = a then some (.scc ⟨z.ncomp, some b, some c, z.vtop, z.vbase, z.ctop, z.cbase⟩)
      else if y = c then some (.ints z.vert)
      else if y = b then some (.sizes z.start) else h.block y }, by
    simp [storeScc, loadSccStruct, load, store, bind_eq, pure_eq, H.bind, H.pure, w.str, w.start,
      w.vert, h1, h2, h3.symm], ⟨rfl, ?_⟩, ⟨?_, ?_, ?_⟩,
    ⟨w.nodup, fun y hy => .inl hy, ?_, fun y hy hn => absurd hy hn⟩⟩
  · intro hv y hy
    have : y ≠ a := fun e => w.live a (by simp) (hv a (e ▸ hy))
    have : y ≠ b := fun e => w.live b (by simp) (hv b (e ▸ hy))
    have : y ≠ c := fun e => w.live c (by simp) (hv c (e ▸ hy))
    simp [*, hv y hy]
  · simp
  · simp [h1.symm, h3]
  · simp [h2.symm]
  · intro y hy _
    simp at hy
    simp [hy.1, hy.2]

theorem destroyWorkspace_spec {h : Heap} {a b : Nat} {x : WorkSpace} (w : WorkAt h.block a b x) :
    ∃ h', destroyWorkspace (some a) h = some (h', .ok ()) ∧ Step h h' ∧
      Change h.block h'.block [a, b] [] := by
  have hne := w.ne
  refine ⟨{ h with block := fun y => if y = a then none else if y = b then none else h.block y }, by
    simp [destroyWorkspace, loadWorkStruct, load, free, bind_eq, pure_eq, H.bind, H.pure, w.str,
      w.arr, hne], ⟨rfl, ?_⟩, ⟨by simp, by simp, ?_, ?_⟩⟩
  · intro hv y hy
    simp [hv y hy]
  · intro y hy _
    simp at hy
    simp [hy.1, hy.2]
  · intro y hy _
    simp at hy
    rcases hy with rfl | rfl <;> simp

theorem destroyWorkspace_null (h : Heap) : destroyWorkspace none h = some (h, .ok ()) := by
  simp [destroyWorkspace, free, bind_eq, pure_eq, H.bind, H.pure]

theorem destroySccResult_spec {h : Heap} {a b c : Nat} {x : SCCResult}
    (w : SccAt h.block a b c x) :
    ∃ h', destroySccResult (some a) h = some (h', .ok ()) ∧ Step h h' ∧
      Change h.block h'.block [a, b, c] [] := by
  have h1 := w.ne₁; have h2 := w.ne₂; have h3 := w.ne₃
  refine ⟨{ h with block := fun y =>
      if y = a then none else if y = b then none else if y = c then none else h.block y }, by
    simp [destroySccResult, loadSccStruct, load, free, bind_eq, pure_eq, H.bind, H.pure, w.str,
      w.start, w.vert, h1, h2, h3], ⟨rfl, ?_⟩, ⟨by simp, by simp, ?_, ?_⟩⟩
  · intro hv y hy
    simp [hv y hy]
  · intro y hy _
    simp at hy
    simp [hy.1, hy.2]
  · intro y hy _
    simp at hy
    rcases hy with rfl | rfl | rfl <;> simp

theorem destroySccResult_null (h : Heap) : destroySccResult none h = some (h, .ok ()) := by
  simp [destroySccResult, free, bind_eq, pure_eq, H.bind, H.pure]

end Verif.Heap
