/-
Specification vocabulary for the small classes: what a user of these classes
keeps in mind about the objects.  Nothing here refers to the classes' data members.
-/
import Verif.Model.Solution
import Verif.Model.RandomVector

namespace Verif.Spec

/-- The last value that `f` picks out of a list, in list order. -/
def lastSome {α β : Type} (f : α → Option β) (l : List α) : Option β := l.reverse.findSome? f

/-- What was assigned to a `Solution` object. -/
inductive Assigned (R : Type) where
  | global (t : List R)
  | tof (id : CellSetID) (x : CellSetValues R)
  | conc (id : CellSetID) (x : CellSetValues R)

namespace Assigned
variable {R : Type}

/-- The field assigned, if the event assigns the global field. -/
def global? : Assigned R → Option (List R)
  | .global t => some t
  | _ => none

/-- The field assigned, if the event assigns the time-of-flight of `i`. -/
def tof? (i : CellSetID) : Assigned R → Option (CellSetValues R)
  | .tof j x => if j = i then some x else none
  | _ => none

/-- The field assigned, if the event assigns the concentration of `i`. -/
def conc? (i : CellSetID) : Assigned R → Option (CellSetValues R)
  | .conc j x => if j = i then some x else none
  | _ => none

end Assigned

/-- What a user knows about each `Solution` object: everything assigned to it since its
    construction, a copy starting with what was assigned to the original; an object that
    was moved from (`some none`) or destroyed (`none`) is unusable. -/
abbrev Logs (R : Type) := List (Option (Option (List (Assigned R))))

/-- Note that something was assigned to object `k`. -/
def note {R : Type} (l : Logs R) (k : Nat) (e : Assigned R) : Option (Logs R) :=
  match l[k]? with
  | some (some (some L)) => some (l.set k (some (some (L ++ [e]))))
  | _ => none

/-- Effect of one operation; `none` if the operation is not allowed. -/
def logStep {R : Type} (l : Logs R) : SolutionOp R → Option (Logs R)
  | .create => some (l ++ [some (some [])])
  | .copy k => match l[k]? with
    | some (some (some L)) => some (l ++ [some (some L)])
    | _ => none
  | .move k => match l[k]? with
    | some (some p) => some (l.set k (some none) ++ [some p])
    | _ => none
  | .destroy k => match l[k]? with
    | some (some _) => some (l.set k none)
    | _ => none
  | .assignGlobalToF k t => note l k (.global t)
  | .assignToF k i x => note l k (.tof i x)
  | .assignConc k i x => note l k (.conc i x)

/-- Effect of a program. -/
def logRun {R : Type} (ops : List (SolutionOp R)) : Option (Logs R) :=
  ops.foldlM logStep []

/-- The object that holds, after a program, what one object held before it: moving hands it over to the new
    object, destruction ends it.  `n` is the number of objects constructed so far. -/
def holder {R : Type} : Nat → Option Nat → List (SolutionOp R) → Option Nat
  | _, o, [] => o
  | n, o, .create :: ops => holder (n + 1) o ops
  | n, o, .copy _ :: ops => holder (n + 1) o ops
  | n, o, .move k :: ops => holder (n + 1) (if o = some k then some n else o) ops
  | n, o, .destroy k :: ops => holder n (if o = some k then none else o) ops
  | n, o, .assignGlobalToF _ _ :: ops => holder n o ops
  | n, o, .assignToF _ _ _ :: ops => holder n o ops
  | n, o, .assignConc _ _ _ :: ops => holder n o ops

/-- The objects that are neither destroyed nor moved from. -/
def usable {R : Type} (l : Logs R) : Nat := (l.filter fun o => o.join.isSome).length

end Verif.Spec
