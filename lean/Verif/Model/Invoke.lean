import Verif.Model.CxxType

/-!
Model of `invoke` of `estl/functional.hpp`, on the types of `Verif.Model.CxxType`. The types of callee and arguments are
those deduced for `Fn&&` and `Args&&`: `T&` for an lvalue of type `T`, `T` for an rvalue. Simplified: arguments
are taken to fit the parameters; classes are unrelated (no inheritance) and have at most one `operator()` and no other
overloaded operators or conversions.
-/

namespace Verif.Cxx

/-- The type of `operator()` of each class, if it has one (no code; the operand of estl/functional.hpp:11). -/
abbrev Classes := Nat → Option Ty

/-- What a call does, estl/functional.hpp:11, 18, 26, 32: call a function; `operator()` of an object of class `k`; a
member function of class `k` on an object given directly or by a pointer; (never here:) read a data member. -/
inductive Effect where
  | function
  | functor (k : Nat)
  | member (k : Nat) (byPointer : Bool)
  | data (k : Nat) (byPointer : Bool)
  deriving DecidableEq

/-- May a member function of type `f` be called on an object with qualifiers `c`, `v`, an lvalue or not? The language rule for
the calls in estl/functional.hpp:11, 18, 26, 32. -/
def callableOn (f : Ty) (c v lvalue : Bool) : Bool :=
  match f with
  | .fn _ _ fc fv q _ => (!c || fc) && (!v || fv) &&
    (match q with
     | .none => true
     | .l => lvalue || (fc && !fv)
     | .r => !lvalue)
  | _ => false

/-- The expression `e(...)` for an expression of type `t` that is no reference: functions and objects with `operator()`,
estl/functional.hpp:11, 18. Calling through a pointer to a function is `*` and this. -/
def callExpr (cs : Classes) (t : Ty) (lvalue : Bool) : Option Effect :=
  match t with
  | .fn .. => some .function
  | .ptr _ _ (.fn ..) => some .function
  | .base c v (.cls k) =>
    match cs k with
    | some f => if callableOn f c v lvalue then some (.functor k) else none
    | none => none
  | _ => none

/-- `invoke_function<Fn>::call`, estl/functional.hpp:7-20. The parameter `const Fn& fn` is an lvalue; `const` is
dropped if `Fn` is a reference. The specialisation for pointers dereferences first. -/
def invoke_function (cs : Classes) (fn : Ty) : Option Effect :=
  let obj := if is_reference fn then remove_reference fn else add_const fn
  if (decay fn).any is_pointer then
    match obj with
    | .ptr _ _ t => callExpr cs t true
    | .fn .. => callExpr cs obj true
    | .arr t _ => callExpr cs t true
    | _ => none
  else callExpr cs obj true

/-- `invoke_member_function::call`, estl/functional.hpp:22-34: `obj.*fn` or `obj->*fn`, whichever is an
expression; `fn` and `obj` are names and so lvalues. -/
def invoke_member_function (fn obj : Ty) : Option Effect :=
  match remove_reference fn, remove_reference obj with
  | .mem _ _ f k, .base c v (.cls k') => if k = k' && callableOn f c v true then some (.member k false) else none
  | .mem _ _ f k, .ptr _ _ (.base c v (.cls k')) => if k = k' && callableOn f c v true then some (.member k true) else none
  | _, _ => none

/-- `invoke_helper`, estl/functional.hpp:36-43. -/
def invoke_helper (cs : Classes) (fn obj : Ty) : Option Effect :=
  match is_member_function_pointer fn, is_member_object_pointer obj with
  | false, false => invoke_function cs fn
  | _, _ => invoke_member_function fn obj

/-- `invoke`, estl/functional.hpp:45-57: `none` if the call does not compile. -/
def invoke (cs : Classes) (fn : Ty) : List Ty → Option Effect
  | [] => invoke_function cs fn
  | obj :: _ => invoke_helper cs fn obj

end Verif.Cxx
