/-!
Model of the comparison operators of `estl/pair.hpp` and of
`estl/algorithm.hpp` min/max, over types given by their Boolean `<` and `==`.
-/

namespace Verif.Pair

/-- A type with the two operators the code uses: `a < b` and `a == b`
(used in estl/pair.hpp:45-79). -/
structure Ops (α : Type) where
  lt : α → α → Bool
  eq : α → α → Bool

variable {α β : Type}

/-- `operator==`, estl/pair.hpp:45-48. -/
def eq (A : Ops α) (B : Ops β) (l r : α × β) : Bool := A.eq l.1 r.1 && B.eq l.2 r.2

/-- `operator<`, estl/pair.hpp:50-53 (as written: the second test is reached
whenever the first components are not `<`). -/
def lt (A : Ops α) (B : Ops β) (l r : α × β) : Bool :=
  if A.lt l.1 r.1 then A.lt l.1 r.1 else B.lt l.2 r.2

/-- `operator<=`, estl/pair.hpp:55-58. -/
def le (A : Ops α) (B : Ops β) (l r : α × β) : Bool := lt A B l r || eq A B l r

/-- `operator!=`, estl/pair.hpp:60-63. -/
def ne (A : Ops α) (B : Ops β) (l r : α × β) : Bool := !(eq A B l r)

/-- `operator>`, estl/pair.hpp:65-68. -/
def gt (A : Ops α) (B : Ops β) (l r : α × β) : Bool := lt A B r l

/-- `operator>=`, estl/pair.hpp:70-73. -/
def ge (A : Ops α) (B : Ops β) (l r : α × β) : Bool := !(lt A B l r)

end Verif.Pair
