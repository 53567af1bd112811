/-!
Model of the conversions between smart pointers and between default deleters for different types (`estl/memory.hpp`), with the
rules of the language they rely on: implicit conversions of pointers, casts, `__is_base_of` and `delete`. A program has any
class hierarchy. Simplified: pointers point to `void`, to fundamental types or to classes (not to pointers or arrays); no
class makes the library its friend; `unique_ptr`s have their default deleter; which classes derive
from `enable_shared_from_this` is a parameter; reference counts are left to `Model/SmartPtr.lean`, here is what the pointers and the control block hold.
-/

namespace Verif.Convert

/-! ### Types and classes -/

/-- What a pointer points to, without qualifiers: the arguments of the templates of estl/memory.hpp:7-47, 89-177, 546-728.
Fundamental types and classes are numbered. -/
inductive Core where
  | void
  | fund (n : Nat)
  | cls (n : Nat)
  deriving DecidableEq

/-- The type argument `T` or `U` of a smart pointer, with qualifiers const and volatile. estl/memory.hpp:89, 546. -/
structure OT where
  c : Bool
  v : Bool
  core : Core
  deriving DecidableEq

/-- How a base class is inherited (language; operands of estl/type_traits.hpp:599-600). -/
inductive Access where
  | pub | prot | priv
  deriving DecidableEq

/-- A direct base class (language; operands of estl/type_traits.hpp:599-600). -/
structure Edge where
  cls : Nat
  acc : Access
  virt : Bool
  deriving DecidableEq

/-- A class: its direct bases and whether its destructor is declared virtual (operands of estl/memory.hpp:20-24). -/
structure Class where
  bases : List Edge
  vdtor : Bool
  deriving DecidableEq

/-- The classes of a program, in the order of their definitions (operands of estl/type_traits.hpp:599-600). -/
abbrev Hier := List Class

/-- The direct bases of class `c` (language; see estl/type_traits.hpp:599-600). -/
def bases (H : Hier) (c : Nat) : List Edge := (H.getD c ⟨[], false⟩).bases

/-- Base classes are defined before the classes derived from them (language; see estl/type_traits.hpp:599-600). -/
def WF (H : Hier) : Prop := ∀ c < H.length, ∀ e ∈ bases H c, e.cls < c

instance (H : Hier) : Decidable (WF H) := inferInstanceAs (Decidable (∀ c < H.length, _))

/-- A way from class `c` through direct bases to class `b` (language; see estl/type_traits.hpp:599-600). -/
inductive Path (H : Hier) : Nat → List Edge → Nat → Prop where
  | nil (c : Nat) : Path H c [] c
  | cons {c b : Nat} {e : Edge} {p : List Edge} : e ∈ bases H c → Path H e.cls p b → Path H c (e :: p) b

/-- Base class subobjects (language; the targets of estl/memory.hpp:111, 574, 580, 584): those inherited without `virtual` are
named by the classes on the way to them, a virtual base class is there once. From the subobject `(r, l)` the way `p`
leads to this one. -/
def sub (r : Nat) (l : List Nat) : List Edge → Nat × List Nat
  | [] => (r, l)
  | e :: p => if e.virt then sub e.cls [] p else sub r (l ++ [e.cls]) p

/-- `b` is a base class of `d`, whatever the access (language; estl/type_traits.hpp:600). -/
def IsBase (H : Hier) (d b : Nat) : Prop := ∃ p, p ≠ [] ∧ Path H d p b

/-- `d` has one subobject of its base class `b` (language; used by estl/memory.hpp:111, 574, 580, 584). -/
def Unambig (H : Hier) (d b : Nat) : Prop :=
  ∀ p q, Path H d p b → Path H d q b → sub d [] p = sub d [] q

/-- The base class `b` of `d` is accessible for everybody (language; used by estl/memory.hpp:111, 574, 580, 584). -/
def Accessible (H : Hier) (d b : Nat) : Prop := ∃ p, Path H d p b ∧ ∀ e ∈ p, e.acc = .pub

/-- `b` is no virtual base class of `d` and no base class of one (language; used by estl/type_traits.hpp:474). -/
def NonVirtual (H : Hier) (d b : Nat) : Prop := ∀ p, Path H d p b → ∀ e ∈ p, e.virt = false

/-- `U*` converts implicitly to `T*` (language; what the constructors of estl/memory.hpp:111, 566, 574, 580, 584, 690, 695 do
with the pointers). -/
def PtrConv (H : Hier) (U T : OT) : Prop :=
  (U.c = true → T.c = true) ∧ (U.v = true → T.v = true) ∧
  (U.core = T.core ∨ T.core = .void ∨
    ∃ d b, U.core = .cls d ∧ T.core = .cls b ∧ IsBase H d b ∧ Unambig H d b ∧ Accessible H d b)

/-- The expression `B*(a)` with an `a` of type `A*` is well-formed: a cast as in C, i.e. a `static_cast` between related classes,
whatever the access, a `reinterpret_cast` otherwise, with any change of qualifiers (language; the expression of
estl/type_traits.hpp:474). -/
def CastOK (H : Hier) (A B : OT) : Prop :=
  ∀ a b, A.core = .cls a → B.core = .cls b →
    (IsBase H a b → Unambig H a b) ∧ (IsBase H b a → Unambig H b a ∧ NonVirtual H b a)

/-! ### Traits -/

/-- `is_base_of_v<T, U>`, estl/type_traits.hpp:599-603: for classes, the same or a base class; qualifiers do not matter. -/
def is_base_of (H : Hier) (T U : OT) : Prop := ∃ b d, T.core = .cls b ∧ U.core = .cls d ∧ (b = d ∨ IsBase H d b)

/-- `is_convertible_v<U*, T*>`, estl/type_traits.hpp:470-480: `U*(declval<T*>())` is well-formed. -/
def is_convertible_ptr (H : Hier) (U T : OT) : Prop := CastOK H T U

/-- `is_convertible_v<U (*)[], T (*)[]>`, estl/type_traits.hpp:470-480: pointers to arrays are never related as classes are, so
the cast is a `const_cast` or a `reinterpret_cast` and well-formed; there are no arrays of `void`. -/
def is_convertible_arr (U T : OT) : Prop := U.core ≠ .void ∧ T.core ≠ .void

/-! ### Deleters -/

/-- `default_deleter<T>` can be made from a `default_deleter<U>`: the copy constructor or estl/memory.hpp:17-18. -/
def DelConv (H : Hier) (U T : OT) : Prop := U = T ∨ is_convertible_ptr H U T

/-- `default_deleter<T[]>` can be made from a `default_deleter<U[]>`: the copy constructor or estl/memory.hpp:40-41. -/
def DelConvArr (U T : OT) : Prop := (U = T ∧ T.core ≠ .void) ∨ is_convertible_arr U T

/-! ### Which conversions of smart pointers compile -/

/-- `shared_ptr<T>` is a class: not for `void`, which has no references, estl/memory.hpp:550. Also for `weak_ptr`, line 675. -/
def ClassOK (T : OT) : Prop := T.core ≠ .void

/-- A `shared_ptr<U>` is accepted by overload resolution, and so by `is_constructible_v`, for making a `shared_ptr<T>`:
the copy and move constructors, or one of estl/memory.hpp:578-586; for assignment lines 588-599. -/
def SharedDeclared (H : Hier) (U T : OT) : Prop := ClassOK U ∧ ClassOK T ∧ (U = T ∨ is_base_of H T U)

/-- A `shared_ptr<T>` can be made from a `shared_ptr<U>` (copy, move, estl/memory.hpp:556-562, 578-586) or assigned one
(lines 588-599): also the initialisation `ptr_(rhs.ptr_)` or assignment `ptr_ = rhs.ptr_` is well-formed. -/
def SharedConv (H : Hier) (U T : OT) : Prop := SharedDeclared H U T ∧ PtrConv H U T

/-- A `weak_ptr<T>` can be made from a `shared_ptr<U>`: estl/memory.hpp:689-695. -/
def WeakFromShared (H : Hier) (U T : OT) : Prop :=
  ClassOK U ∧ ClassOK T ∧ (U = T ∨ is_base_of H T U) ∧ PtrConv H U T

/-- A `weak_ptr<T>` can be made from a `weak_ptr<U>`: only copied and moved, estl/memory.hpp:681-687. -/
def WeakFromWeak (U T : OT) : Prop := ClassOK T ∧ U = T

/-- A `unique_ptr<U>` is accepted by overload resolution for making a `unique_ptr<T>`: the move constructor or
estl/memory.hpp:109-111. -/
def UniqueDeclared (H : Hier) (U T : OT) : Prop := (U = T ∧ T.core ≠ .void) ∨ is_base_of H T U

/-- A `unique_ptr<T>` can be made from a `unique_ptr<U>`: the move constructor, or estl/memory.hpp:109-111: also the pointer
converts for the parameter of line 70, and the deleter for the one constructor of `tuple<T*, default_deleter<T>>` that can
take an lvalue `p`, estl/tuple.hpp:125. Assignment (lines 123-127) converts the same way. The destructor (line 22) is for no
`void`. -/
def UniqueConv (H : Hier) (U T : OT) : Prop :=
  (U = T ∧ T.core ≠ .void) ∨ (is_base_of H T U ∧ PtrConv H U T ∧ DelConv H U T)

/-- `construct_shared_from_this<V>()` in a `shared_ptr<T>` is well-formed, estl/memory.hpp:657-664, 543-544: `E d` is the `X` of
the `enable_shared_from_this<X>` class `d` derives from, if any. If there is one for `V`, then `T` must have a member
`M_weak_this_`, not const, to which the pointer can be assigned (lines 709-712). -/
def WeakThisOK (H : Hier) (E : Nat → Option Nat) (V T : OT) : Prop :=
  ∀ d, V.core = .cls d → E d ≠ none →
    T.c = false ∧ T.v = false ∧ ∃ b x, T.core = .cls b ∧ E b = some x ∧ WeakFromShared H T ⟨false, false, .cls x⟩

/-- `shared_ptr<T>(p)` with a `U*` takes the first constructor, estl/memory.hpp:564-568: the second one, lines 570-576, wins whenever it
is there, unless `U` is `T`. -/
def FirstCtor (H : Hier) (U T : OT) : Prop := U = T ∨ ¬ is_base_of H T U

/-- `shared_ptr<T>(p)` with a `U*`, estl/memory.hpp:564-576: both constructors convert the pointer. -/
def SharedFromPtr (H : Hier) (E : Nat → Option Nat) (U T : OT) : Prop :=
  ClassOK T ∧ PtrConv H U T ∧ (FirstCtor H U T → WeakThisOK H E T T) ∧ (¬ FirstCtor H U T → WeakThisOK H E U T)

/-- `unique_ptr<T>(p)` with a `U*`, estl/memory.hpp:99-100, and its destructor (line 22 for the default deleter). -/
def UniqueFromPtr (H : Hier) (U T : OT) : Prop := T.core ≠ .void ∧ PtrConv H U T

/-- `unique_ptr<T[]>(p)` with a `U*`, estl/memory.hpp:188-189: `pointer` is `T*`, lines 50-53. -/
def ArrayFromPtr (H : Hier) (U T : OT) : Prop := T.core ≠ .void ∧ PtrConv H U T

/-! ### What the pointers hold -/

/-- Value of a pointer: null, or a subobject of an object (the values of estl/memory.hpp:63, 380, 551). For objects that are no
class the subobject is the object itself. -/
inductive PVal where
  | null
  | at (o : Nat) (r : Nat) (l : List Nat)
  deriving DecidableEq

/-- Conversion of a pointer value along a way to a base class (language; estl/memory.hpp:111, 566, 574, 580, 584, 690, 695). -/
def along (p : List Edge) : PVal → PVal
  | .null => .null
  | .at o r l => .at o (sub r l p).1 (sub r l p).2

/-- The implicit conversion from `U*` to `T*` turns `v` into `w` (language; estl/memory.hpp:111, 566, 574, 580, 584, 690, 695). -/
def ConvVal (H : Hier) (U T : OT) (v w : PVal) : Prop :=
  (U.core = T.core ∧ w = v) ∨ (T.core = .void ∧ w = v) ∨
  ∃ d b p, U.core = .cls d ∧ T.core = .cls b ∧ p ≠ [] ∧ Path H d p b ∧ w = along p v

/-- `count_impl<U, default_deleter<D>>`, estl/memory.hpp:375-400: the pointer handed over and the type its deleter is for. -/
structure Ctrl where
  ty : OT
  ptr : PVal
  del : OT
  deriving DecidableEq

/-- A `shared_ptr<ty>` or `weak_ptr<ty>`: `ptr_` and `refcount_`, estl/memory.hpp:667-668, 726-727. -/
structure SP where
  ty : OT
  ptr : PVal
  ctrl : Option Ctrl
  deriving DecidableEq

/-- Making a `shared_ptr<T>` from a `U*`, with the default deleter. estl/memory.hpp:564-576, 416-418. -/
inductive NewShared (H : Hier) (E : Nat → Option Nat) (U T : OT) (v : PVal) : SP → Prop where
  /- lines 564-568: the pointer is converted for the parameter -/
  | own {w : PVal} : SharedFromPtr H E U T → FirstCtor H U T → ConvVal H U T v w →
      NewShared H E U T v ⟨T, w, some ⟨T, w, T⟩⟩
  /- lines 570-576: the control block is for `U` -/
  | other {w : PVal} : SharedFromPtr H E U T → ¬ FirstCtor H U T → ConvVal H U T v w →
      NewShared H E U T v ⟨T, w, some ⟨U, v, U⟩⟩

/-- What can be done with a `shared_ptr` or `weak_ptr` to get another one for the same object: copy, move and assignment of
shared_ptrs (estl/memory.hpp:556-562, 578-599), making a weak_ptr (681-695), `lock` of one that has not expired (705-707,
653-655). The Booleans tell whether the pointer is a `weak_ptr`, before and after. -/
inductive Step (H : Hier) : Bool × SP → Bool × SP → Prop where
  | shared {s : SP} {T : OT} {w : PVal} : SharedConv H s.ty T → ConvVal H s.ty T s.ptr w →
      Step H (false, s) (false, ⟨T, w, s.ctrl⟩)
  | weak {s : SP} {T : OT} {w : PVal} : WeakFromShared H s.ty T → ConvVal H s.ty T s.ptr w →
      Step H (false, s) (true, ⟨T, w, s.ctrl⟩)
  | weakCopy {s : SP} {T : OT} : WeakFromWeak s.ty T → Step H (true, s) (true, ⟨T, s.ptr, s.ctrl⟩)
  | lock {s : SP} : Step H (true, s) (false, ⟨s.ty, s.ptr, s.ctrl⟩)

/-- Any number of such steps, with the types gone through. estl/memory.hpp:546-728. -/
inductive Steps (H : Hier) : Bool × SP → List OT → Bool × SP → Prop where
  | refl (x : Bool × SP) : Steps H x [] x
  | step {x y z : Bool × SP} {l : List OT} : Step H x y → Steps H y l z → Steps H x (y.2.ty :: l) z

/-- A chain of conversions of `unique_ptr`s, starting with a `unique_ptr<U>` that holds `v`: the types gone through and the
pointer held in the end. estl/memory.hpp:109-114, 123-127. -/
inductive USteps (H : Hier) : OT → PVal → List OT → OT → PVal → Prop where
  | refl (U : OT) (v : PVal) : USteps H U v [] U v
  | step {U M T : OT} {v w x : PVal} {l : List OT} : UniqueConv H U M → ConvVal H U M v w → USteps H M w l T x →
      USteps H U v (M :: l) T x

/-! ### Deleting -/

/-- The destructor of class `b` is virtual, by itself or because one of its bases' is (language; estl/memory.hpp:23). -/
def VirtualDtor (H : Hier) (b : Nat) : Prop := ∃ p a, Path H b p a ∧ (H.getD a ⟨[], false⟩).vdtor = true

/-- What `delete` does: nothing, destroys an object, or is undefined (language; estl/memory.hpp:23, 46). -/
inductive Del where
  | nothing
  | destroys (o : Nat)
  | undefined
  deriving DecidableEq

/-- `delete p` for a `p` of type `T*` and value `v`; `k o` is the type of the complete object `o` (language;
estl/memory.hpp:23). Only a complete object of that type, or a class with a virtual destructor, can be deleted. -/
inductive Delete (H : Hier) (k : Nat → Core) (T : OT) : PVal → Del → Prop where
  | null : Delete H k T .null .nothing
  | whole {o r : Nat} : T.core ≠ .void → k o = T.core → (∀ n, k o = .cls n → r = n) → Delete H k T (.at o r []) (.destroys o)
  | virt {o r b : Nat} {l : List Nat} : T.core = .cls b → VirtualDtor H b → Delete H k T (.at o r l) (.destroys o)
  | other {o r : Nat} {l : List Nat} : ¬ (T.core ≠ .void ∧ k o = T.core ∧ (∀ n, k o = .cls n → r = n) ∧ l = []) →
      (∀ b, T.core = .cls b → ¬ VirtualDtor H b) → Delete H k T (.at o r l) .undefined

/-- The object of a control block is disposed of: `deleter_(ptr_)`, estl/memory.hpp:388-392, 20-24; the argument converts to
the deleter's type. -/
def Dispose (H : Hier) (k : Nat → Core) (c : Ctrl) (r : Del) : Prop :=
  ∃ w, ConvVal H c.ty c.del c.ptr w ∧ Delete H k c.del w r

/-- `delete[] p` for a `p` of type `T*` to the first element of an array of `n` (language; estl/memory.hpp:46): defined for
arrays of that type only, whatever the destructor. -/
def DeleteArrayOK (k T : OT) : Prop := k.core = T.core

end Verif.Convert
