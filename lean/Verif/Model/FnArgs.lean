import Verif.Model.Forward

/-!
Model of the way of an argument through `function<R(Args...)>::operator()` to the stored target
(estl/functional.hpp:71-128), as a type and a value category.
-/

namespace Verif.Cxx

/-- A call with a parameter of type `const A&` (estl/functional.hpp:74, 93): qualifiers on a reference are
dropped, references collapse, and a reference to `const` also binds to an lvalue without `const`. The
expression that names the parameter. -/
def bindConst (a : Ty) (e : Expr) : Option Expr := do
  let p ← a.mkConst.mkLref
  match bind p e with
  | some x => some x
  | none => bind p ⟨e.ty.mkConst, e.cat⟩

/-- `args` in `operator()(Args... args)`, estl/functional.hpp:125: names of parameters. -/
def param (a : Ty) : Expr := ⟨remove_reference a, .lvalue⟩

/-- What the target is called with for a parameter `a` of the signature: `invoke(impl_, args...)`
(estl/functional.hpp:127; impl_ is a pointer, 18), `operator()(const Args&...)` and `invoke(f_, args...)` (93-94). -/
def functionArg (a : Ty) : Option Expr := do
  let e ← passAll (route .invoke) (param a)
  let x ← bindConst a e
  passAll (route .invoke) x

/-- Whether a target with a parameter of type `p` can be called with `e` (the call at estl/functional.hpp:11, 18):
references to `const` bind to every expression of the type; a parameter by value is copied, or moved if `e` is
an rvalue without `const`. `copy`, `mv`: whether objects of the type can be copied and moved. -/
def callable (copy mv : Bool) (p : Ty) (e : Expr) : Bool :=
  match p with
  | .lref t => (bind (.lref t) e).isSome || (bind (.lref t) ⟨e.ty.mkConst, .lvalue⟩).isSome
  | .rref t => (bind (.rref t) e).isSome
  | t => decide (t = remove_const e.ty) && (if e.cat = .lvalue ∨ is_const e.ty = true then copy else copy || mv)

end Verif.Cxx
