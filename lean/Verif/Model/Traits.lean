/-!
Model of the variadic metaprograms of `estl/type_traits.hpp`,
`estl/utility.hpp` and `estl/tuple.hpp`: template specialisations become
equations, type lists become lists. `Ts::value` of a trait is its Boolean.
-/

namespace Verif.Traits

/-- `conditional_t<b, x, y>`, estl/type_traits.hpp:316-327; used by `or_`/`and_`. -/
def conditional {α : Type} (b : Bool) (x y : α) : α := if b then x else y

/-- `or_<Ts...>::value`, estl/type_traits.hpp:431-447. -/
def or_ : List Bool → Bool
  | [] => false
  | [t] => t
  | [t1, t2] => conditional t1 t1 t2
  | t1 :: t2 :: t3 :: args => conditional t1 t1 (or_ (t2 :: t3 :: args))

/-- `and_<Ts...>::value`, estl/type_traits.hpp:449-465 (as written: the same
selection as `or_`). -/
def and_ : List Bool → Bool
  | [] => true
  | [t] => t
  | [t1, t2] => conditional t1 t1 t2
  | t1 :: t2 :: t3 :: args => conditional t1 t1 (and_ (t2 :: t3 :: args))

/-- `not_`, estl/type_traits.hpp:467-468. -/
def not_ (t : Bool) : Bool := !t

/-- `conjunction_v`, estl/type_traits.hpp:494-495, 500-501. -/
def conjunction_v (ts : List Bool) : Bool := and_ ts

/-- `disconjunction_v`, estl/type_traits.hpp:497-498, 503-504. -/
def disconjunction_v (ts : List Bool) : Bool := or_ ts

/-- `make_integer_sequence_helper<T, N, I...>::type`, estl/utility.hpp:54-61. -/
def seqHelper : Nat → List Nat → List Nat
  | 0, is => is
  | n + 1, is => seqHelper n (n :: is)

/-- `make_index_sequence<N>`, estl/utility.hpp:63-67. -/
def makeIndexSequence (n : Nat) : List Nat := seqHelper n []

/-- `nth_type<N, I, T, Args...>::type`, estl/type_traits.hpp:623-631. `none`: no
such specialisation (ill-formed program). -/
def nthType {α : Type} : Nat → Nat → List α → Option α
  | _, _, [] => none
  | n, i, t :: args => if n = i then some t else nthType (n + 1) i args

/-- `nth_type_t<I, Args...>`, estl/type_traits.hpp:651-652. -/
def nth_type_t {α : Type} (i : Nat) (ts : List α) : Option α := nthType 0 i ts

/-- A tuple object: its base-class subobjects `tuple_value<I, T>` with their
values, estl/tuple.hpp:86-87, 117-120, 162. Values of all component types are
drawn from one type `α`. -/
abbrev Tuple (α : Type) := List (Nat × α)

/-- Constructor from values, estl/tuple.hpp:96-97, 125, 129: the pack expansion
`tuple_value<I, T>(values)...` pairs the index sequence with the values. -/
def mk {α : Type} (vs : List α) : Tuple α := (makeIndexSequence vs.length).zip vs

/-- `get<I>`, estl/tuple.hpp:165-173: the `tuple_value<I, _>` subobject. -/
def tget {α : Type} (i : Nat) : Tuple α → Option α
  | [] => none
  | (j, v) :: t => if j = i then some v else tget i t

/-- Assignment through the reference returned by `get<I>` (estl/tuple.hpp:165-173). -/
def put {α : Type} (i : Nat) (v : α) : Tuple α → Tuple α
  | [] => []
  | (j, w) :: t => if j = i then (j, v) :: t else (j, w) :: put i v t

/-- `swap(get<I>(lhs), get<I>(rhs))`, estl/utility.hpp:36-41. -/
def swapAt {α : Type} (i : Nat) (p : Tuple α × Tuple α) : Tuple α × Tuple α :=
  match tget i p.1, tget i p.2 with
  | some x, some y => (put i y p.1, put i x p.2)
  | _, _ => p

/-- `swap(tuple&, tuple&)` through `swap_impl`, estl/tuple.hpp:31-34, 187-190:
the braced list evaluates the component swaps from left to right. -/
def swap {α : Type} (n : Nat) (a b : Tuple α) : Tuple α × Tuple α :=
  (makeIndexSequence n).foldl (fun p i => swapAt i p) (a, b)

end Verif.Traits
