/-
Model of opm/utility/numeric/RandomVector.{hpp,cpp}.
Line numbers refer to RandomVector.cpp.

The generator `std::mt19937` and the two distributions are parameters: a state
type with its default-constructed value, and for each distribution a function
that draws one value and may keep a cached value (`std::normal_distribution`
may produce two variates at a time).  The only contract used is that of
`std::uniform_int_distribution(min, max)`: drawn values lie in `[min, max]`.
-/
import Verif.Model.Res

namespace Verif

/-- The parts of `<random>` that are used.  RandomVector.cpp:41-43, 50 and 67. -/
structure RandomLib (R : Type) where
  /-- `std::mt19937` -/
  Gen : Type
  /-- state after default construction (fixed seed) -/
  init : Gen
  /-- state of a `std::normal_distribution` object -/
  NState : Type
  /-- a new distribution object with mean and standard deviation -/
  normalNew : R → R → NState
  /-- `distr(gen)` -/
  normalDraw : NState → Gen → R × NState × Gen
  /-- `std::uniform_int_distribution<>{min, max}(gen)`; the object has no state -/
  uniformDraw : Int → Int → Gen → Int × Gen

namespace RandomVector
variable {R : Type} (L : RandomLib R)

/-- RandomVector.cpp:55-57, the loop of `normal`. -/
def normalLoop (d : L.NState) (g : L.Gen) : Nat → List R × L.Gen
  | 0 => ([], g)
  | n + 1 =>
    let (x, d', g') := L.normalDraw d g
    let (xs, g'') := normalLoop d' g' n
    (x :: xs, g'')

/-- RandomVector.cpp:46-60 and 88-94, `normal(n, mean, stdev)`. -/
def normal (g : L.Gen) (n : Nat) (mean stdev : R) : List R × L.Gen :=
  normalLoop L (L.normalNew mean stdev) g n

/-- RandomVector.cpp:72-74, the loop of `integer`. -/
def integerLoop (min max : Int) (g : L.Gen) : Nat → List Int × L.Gen
  | 0 => ([], g)
  | n + 1 =>
    let (x, g') := L.uniformDraw min max g
    let (xs, g'') := integerLoop min max g' n
    (x :: xs, g'')

/-- RandomVector.cpp:96-100 and 62-77, `index(n, maxIdx)`.  `uniform_int_distribution` requires
    `min <= max`. -/
def index (g : L.Gen) (n : Nat) (maxIdx : Int) : Res (List Int × L.Gen) :=
  if maxIdx < 0 then .ub .assertFail else .ok (integerLoop L 0 maxIdx g n)

/-- A request to a `RandomVector` object.  RandomVector.cpp:88-100. -/
inductive Request (R : Type) where
  | normal (n : Nat) (mean stdev : R)
  | index (n : Nat) (maxIdx : Int)

/-- The answer.  RandomVector.cpp:88-100. -/
inductive Answer (R : Type) where
  | sample (x : List R)
  | indices (x : List Int)

/-- Serve one request.  RandomVector.cpp:88-100. -/
def serve (g : L.Gen) : Request R → Res (Answer R × L.Gen)
  | .normal n m s => let r := normal L g n m s; .ok (.sample r.1, r.2)
  | .index n k => (index L g n k).bind fun r => .ok (.indices r.1, r.2)

/-- An object's answers to a sequence of requests; RandomVector.cpp:81-83: a new object holds a
    default-constructed generator. -/
def session (reqs : List (Request R)) : Res (List (Answer R) × L.Gen) :=
  forEach reqs ([], L.init) fun s r => (serve L s.2 r).bind fun a => .ok (s.1 ++ [a.1], a.2)

/-- Several objects used side by side: the generator state of each (the class is
    not copyable, RandomVector.hpp:38-42, so objects never share an `Impl`), and the
    answers given so far, tagged with the object.  `none` creates an object,
    `some (k, r)` asks object `k`. -/
def world (prog : List (Option (Nat × Request R))) : Res (List L.Gen × List (Nat × Answer R)) :=
  forEach prog ([], []) fun s op =>
    match op with
    | none => .ok (s.1 ++ [L.init], s.2)
    | some (k, r) => do
      let g ← rd s.1 k
      let a ← serve L g r
      let gens ← wr s.1 k a.2
      pure (gens, s.2 ++ [(k, a.1)])

end RandomVector

end Verif
