/-
`std::map`, `std::unordered_set<int>` and `std::string` keys.

The model of `std::map<K, V>` is the list of its elements in iteration order,
that is, in strictly ascending key order.  Only the operations used by the
library are modelled.
-/

namespace Verif

/-- Contents of a `std::map` in iteration order.
    CellSetValues.hpp:29, Solution.cpp:58, Toolbox.cpp:69-70. -/
abbrev OMap (κ α : Type) := List (κ × α)

namespace OMap
variable {κ α : Type} [LT κ] [DecidableLT κ]

/-- `m.find(k)`: the value, or `none` for `end()`.  Keys are compared with `<` only.
    Solution.cpp:140, Toolbox.cpp:144 and 184, DerivedQuantities.cpp:214, 236, 274 and 278. -/
def find (m : OMap κ α) (k : κ) : Option α :=
  match m with
  | [] => none
  | e :: m => if ¬ e.1 < k ∧ ¬ k < e.1 then some e.2 else find m k

/-- `m[k] = v`.  TracerTofSolver.cpp:149-150, Solution.cpp:132. -/
def assign (m : OMap κ α) (k : κ) (v : α) : OMap κ α :=
  match m with
  | [] => [(k, v)]
  | e :: m =>
    if k < e.1 then (k, v) :: e :: m
    else if e.1 < k then e :: assign m k v
    else (e.1, v) :: m

/-- `m.insert({k, v})`: an existing element is kept.  Toolbox.cpp:125 and 128. -/
def insert (m : OMap κ α) (k : κ) (v : α) : OMap κ α :=
  match find m k with
  | some _ => m
  | none => assign m k v

/-- `m[k]` as a value: the element present, or the value-initialised `dflt`.
    Toolbox.cpp:124-125, 127-128, 166 and 206. -/
def at_ (m : OMap κ α) (k : κ) (dflt : α) : α := (find m k).getD dflt

/-- `m.count(k)`.  Toolbox.cpp:148 and 188. -/
def count (m : OMap κ α) (k : κ) : Nat := if (find m k).isSome then 1 else 0

/-- The representation is that of some `std::map`: keys strictly ascending.
    CellSetValues.hpp:29, Solution.cpp:58. -/
def Sorted (m : OMap κ α) : Prop := m.Pairwise fun a b => a.1 < b.1

end OMap

/-- `std::unordered_set<int>::insert`; the list order stands for some iteration
    order, which the standard leaves open.  CellSet.hpp:57, CellSet.cpp:73-77. -/
def setInsert (s : List Int) (x : Int) : List Int := if x ∈ s then s else s ++ [x]

/-- Contents of a `std::string`, as bytes.  CellSet.hpp:37. -/
abbrev Str := List UInt8

/-- `operator<` of `std::string`: lexicographic comparison of the bytes
    (`char_traits<char>` compares as `unsigned char`).  CellSet.cpp:49-53. -/
def strLt : Str → Str → Bool
  | _, [] => false
  | [], _ :: _ => true
  | a :: as, b :: bs => if a < b then true else if b < a then false else strLt as bs

end Verif
