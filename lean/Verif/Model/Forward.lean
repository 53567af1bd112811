import Verif.Model.CxxType

/-!
Model of `forward`, `move` and `declval` (estl/utility.hpp:6-23, estl/type_traits.hpp:429) and of function
templates that pass their argument on. An expression is its type and its value category; `none` is a
program that is rejected. Simplification: a reference binds to an expression of exactly the type
referred to (no added qualifiers, no bases, no conversions).
-/

namespace Verif.Cxx

/-- The value categories (no code; of the arguments of estl/utility.hpp:7-23). -/
inductive Cat where
  | lvalue | xvalue | prvalue
  deriving DecidableEq

/-- An expression: its type, which is never a reference, and its category (no code; of the arguments of
estl/utility.hpp:7-23). -/
structure Expr where
  ty : Ty
  cat : Cat
  deriving DecidableEq

/-- A function type (for the rules about references to functions, which apply at estl/utility.hpp:8, 16, 21). -/
def Ty.function : Ty → Bool
  | .fn .. => true
  | _ => false

/-- A parameter of reference type `p` is initialised with `e`; the expression that names it is an lvalue
(the parameters `t` of estl/utility.hpp:7, 12, 20). -/
def bind (p : Ty) (e : Expr) : Option Expr :=
  match p with
  | .lref a => if e.ty = a ∧ e.cat = .lvalue then some ⟨a, .lvalue⟩ else none
  | .rref a => if e.ty = a ∧ (e.cat ≠ .lvalue ∨ a.function = true) then some ⟨a, .lvalue⟩ else none
  | _ => none

/-- The call of a function with return type `r`, or a cast to `r` (estl/utility.hpp:7, 12, 20): rvalue
references to functions give lvalues. -/
def result : Ty → Expr
  | .lref a => ⟨a, .lvalue⟩
  | .rref a => ⟨a, if a.function then .lvalue else .xvalue⟩
  | a => ⟨a, .prvalue⟩

/-- `static_cast<r>(e)` for a reference type `r` (estl/utility.hpp:8, 16, 21). -/
def castRef (r : Ty) (e : Expr) : Option Expr :=
  match r with
  | .lref a => if e.ty = a ∧ e.cat = .lvalue then some (result (.lref a)) else none
  | .rref a => if e.ty = a then some (result (.rref a)) else none
  | _ => none

/-- `return static_cast<r>(x)` in a function that returns `r`, and the call (estl/utility.hpp:8, 16, 21). -/
def castReturn (r : Ty) (x : Expr) : Option Expr := do
  let y ← castRef r x
  let _ ← bind r y
  some (result r)

/-- The template argument deduced for a parameter `T&&` (estl/utility.hpp:20 and every `Args&&...` in estl). -/
def deduce (e : Expr) : Option Ty :=
  match e.cat with
  | .lvalue => e.ty.mkLref
  | _ => some e.ty

/-- `forward<T>(e)`, estl/utility.hpp:6-17: the first overload if its parameter binds to `e` (it is preferred for
functions), else the second, with its `static_assert`. -/
def forward (t : Ty) (e : Expr) : Option Expr :=
  match (remove_reference t).mkLref with
  | none => none
  | some p =>
    match bind p e with
    | some x => do
      let r ← t.mkRref
      castReturn r x
    | none => do
      let p ← (remove_reference t).mkRref
      let x ← bind p e
      if is_lvalue_reference t then none else do
        let r ← t.mkRref
        castReturn r x

/-- `move(e)`, estl/utility.hpp:19-22. -/
def move (e : Expr) : Option Expr := do
  let t ← deduce e
  let p ← t.mkRref
  let x ← bind p e
  let r ← (remove_reference t).mkRref
  castReturn r x

/-- `declval<T>()`, estl/type_traits.hpp:428-429. -/
def declval (t : Ty) : Option Expr := (add_rvalue_reference t).map result

/-- How a function template hands on its parameter `u` of type `U&&`: `forward<U>(u)`, `move(u)` or `u`
(e.g. estl/vector.hpp, estl/memory.hpp, estl/invoke.hpp, which use estl/utility.hpp:6-22). -/
inductive How where
  | forward | move | name
  deriving DecidableEq

/-- `template <typename U> g(U&& u)` called with `e`: the expression it hands on (uses of estl/utility.hpp:6-22). -/
def pass (h : How) (e : Expr) : Option Expr := do
  let t ← deduce e
  let p ← t.mkRref
  let u ← bind p e
  match h with
  | .forward => Cxx.forward t u
  | .move => Cxx.move u
  | .name => some u

/-- Calls nested in each other: what the innermost one gets (uses of estl/utility.hpp:6-22). -/
def passAll : List How → Expr → Option Expr
  | [], e => some e
  | h :: hs, e => do
    let e' ← pass h e
    passAll hs e'

/-- The functions that make an object from arguments of their caller (estl/vector.hpp:138, 197, estl/deque.hpp:239, 252,
estl/list.hpp:361, 369, estl/stack.hpp:61, estl/queue.hpp:45, estl/set.hpp:81, 229, estl/memory.hpp:267, 781,
estl/any.hpp:64, 113), and `invoke` of functions and function objects (estl/functional.hpp:55). -/
inductive Api where
  | vectorEmplace | vectorEmplaceBack | dequeEmplaceBack | dequeEmplaceFront | listEmplaceBack | listEmplaceFront
  | stackEmplace | queueEmplace | setEmplace | multisetEmplace | makeUnique | makeShared | anyEmplace | makeAny
  | invoke
  deriving DecidableEq

/-- How the arguments get from the call to the constructor, or to the function called: one entry per function
template on the way. `stack` and `queue` are taken with a container whose `emplace_back` is that of `deque`. For
one argument of the type held, `Holder` has further constructors (estl/any.hpp:79-83), which give it on with
the same category. -/
def route : Api → List How
  /- estl/vector.hpp:151, estl/allocator.hpp:8 -/
  | .vectorEmplace => [.forward, .forward]
  /- estl/vector.hpp:199, estl/allocator.hpp:8 -/
  | .vectorEmplaceBack => [.forward, .forward]
  /- estl/deque.hpp:246, estl/allocator.hpp:8 -/
  | .dequeEmplaceBack => [.forward, .forward]
  /- estl/deque.hpp:259, estl/allocator.hpp:8 -/
  | .dequeEmplaceFront => [.forward, .forward]
  /- estl/list.hpp:362, 469, 95 -/
  | .listEmplaceBack => [.forward, .forward, .forward]
  /- estl/list.hpp:370, 469, 95 -/
  | .listEmplaceFront => [.forward, .forward, .forward]
  /- estl/stack.hpp:62, estl/deque.hpp:246, estl/allocator.hpp:8 -/
  | .stackEmplace => [.forward, .forward, .forward]
  /- estl/queue.hpp:46, estl/deque.hpp:246, estl/allocator.hpp:8 -/
  | .queueEmplace => [.forward, .forward, .forward]
  /- estl/set.hpp:82, estl/rb_tree.hpp:723, 994, 80 -/
  | .setEmplace => [.forward, .forward, .forward, .forward]
  /- estl/set.hpp:230, estl/rb_tree.hpp:716, 994, 80 -/
  | .multisetEmplace => [.forward, .forward, .forward, .forward]
  /- estl/memory.hpp:268 -/
  | .makeUnique => [.forward]
  /- estl/memory.hpp:782 -/
  | .makeShared => [.forward]
  /- estl/any.hpp:66, 87 -/
  | .anyEmplace => [.forward, .forward]
  /- estl/any.hpp:114, 28, 87 -/
  | .makeAny => [.forward, .forward, .forward]
  /- estl/functional.hpp:56, 11 or 18 -/
  | .invoke => [.forward, .forward]

end Verif.Cxx
