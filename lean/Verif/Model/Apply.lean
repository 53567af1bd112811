import Verif.Model.Invoke
import Verif.Model.Traits

/-!
Model of `get` of `estl/tuple.hpp` for every kind of tuple expression and of `apply` of `estl/functional.hpp`, on the types of
`Verif.Model.CxxType`. A tuple expression is given by its element types, whether it is const and whether it is an lvalue. `none`
is an ill-formed program. Simplified as `Verif.Model.Invoke`: arguments are taken to fit the parameters. `t.size()` as
template argument in estl/functional.hpp:67 is taken to be a constant (P2280R4, a defect report; compilers
that do not implement it reject every call of `apply`).
-/

namespace Verif.Cxx

/-- A tuple expression: element types, const or not, lvalue or rvalue. The parameters of estl/tuple.hpp:166, 171, 176 and
of estl/functional.hpp:60, 65. -/
structure TupleExpr where
  types : List Ty
  const : Bool
  lvalue : Bool

/-- May a reference of type `T&&` or `T&` be initialised directly with an lvalue of a class type (the `tuple_impl`) that has
no conversion functions? Only a `T&` to the class itself, which no element type is (an element would contain the tuple);
otherwise a temporary would be needed, and a reference member must not be bound to one. estl/tuple.hpp:46, 179. -/
def refFromImpl : Ty → Bool
  | .rref _ => false
  | .lref _ => false
  | _ => true

/-- `get<I>(t)`, estl/tuple.hpp:165-180: type of the expression as deduced by a forwarding reference. The overload for
rvalues makes a `tuple_value<I, T&&>` from the whole `tuple_impl` (line 179), initialising its reference member (line 46).
A const rvalue binds to the overload of line 171. -/
def getExpr (i : Nat) (e : TupleExpr) : Option Ty := do
  let t ← Traits.nth_type_t i e.types
  if e.const then (add_const t).mkLref
  else if e.lvalue then t.mkLref
  else
    let type ← t.mkRref
    if refFromImpl type then some t else none

/-- `apply_impl`, estl/functional.hpp:59-62: `fn` and `t` are names and so lvalues. The call made, and the elements
passed with the types of the expressions. -/
def apply_impl (cs : Classes) (fn : Ty) (e : TupleExpr) (is : List Nat) : Option (Effect × List (Nat × Ty)) := do
  let args ← is.mapM fun i => getExpr i ⟨e.types, e.const, true⟩
  let eff ← invoke cs (← fn.mkLref) args
  return (eff, is.zip args)

/-- `apply`, estl/functional.hpp:64-68; `fn` is the type deduced for `Fn`. -/
def apply (cs : Classes) (fn : Ty) (e : TupleExpr) : Option (Effect × List (Nat × Ty)) :=
  apply_impl cs fn e (Traits.makeIndexSequence e.types.length)

end Verif.Cxx
