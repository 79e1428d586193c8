/-
Heaps a call may be made on.
-/
import Verif.Model.TarjanHeap

namespace Verif.Heap

/-- No block lives at an address that was not handed out yet. -/
def Heap.Valid (h : Heap) : Prop := ∀ a, h.next ≤ a → h.block a = none

/-- Every allocation succeeds. -/
def Heap.NoFail (h : Heap) : Prop := ∀ k, h.fails k = false

/-- A heap without blocks, on which the allocations end as `fails` says. -/
def emptyHeap (fails : Nat → Bool) : Heap := ⟨fun _ => none, 0, 0, fails, fun _ => 0⟩

theorem emptyHeap_valid (fails : Nat → Bool) : (emptyHeap fails).Valid := fun _ _ => rfl

end Verif.Heap
