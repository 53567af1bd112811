/-!
Model of the traits of `estl/type_traits.hpp` that inspect or change one type, and of `invoke`. C++ types are terms;
template specialisations become equations. Types are in normal form: qualifiers are kept only where C++ has
them (on arrays they belong to the elements, on references and functions they are dropped).
`none` is an ill-formed program. The language is C++17 (kernel/Makefile:2): `noexcept` belongs to the
type of a function. Parameter lists of functions (with or without `...`) and classes are just numbered.
-/

namespace Verif.Cxx

/-- Fundamental and user defined types (the operands of estl/type_traits.hpp:506-585; the aliases of
estl/type.hpp:4-21 are among them). -/
inductive Base where
  | void | bool | char | schar | uchar | short | ushort | int | uint | long | ulong | llong | ullong
  | wchar | char16 | char32 | float | double | ldouble | nullptr
  | cls (k : Nat) | enum (k : Nat) | union (k : Nat)
  deriving DecidableEq

/-- Reference qualifier of a function type, estl/type_traits.hpp:29-99. -/
inductive RefQ where
  | none | l | r
  deriving DecidableEq

/-- C++ types, as matched by estl/type_traits.hpp:26-397. `c`, `v`: const, volatile; `ne`: noexcept. -/
inductive Ty where
  | base (c v : Bool) (b : Base)
  | ptr (c v : Bool) (t : Ty)
  | mem (c v : Bool) (t : Ty) (cls : Nat)
  | lref (t : Ty)
  | rref (t : Ty)
  | arr (t : Ty) (n : Option Nat)
  | fn (res : Ty) (params : Nat) (c v : Bool) (rq : RefQ) (ne : Bool)
  deriving DecidableEq

/-- `T const`, as used in estl/type_traits.hpp:181. -/
def Ty.mkConst : Ty → Ty
  | .base _ v b => .base true v b
  | .ptr _ v t => .ptr true v t
  | .mem _ v t k => .mem true v t k
  | .arr t n => .arr t.mkConst n
  | t => t

/-- `T volatile`, as used in estl/type_traits.hpp:189. -/
def Ty.mkVolatile : Ty → Ty
  | .base c _ b => .base c true b
  | .ptr c _ t => .ptr c true t
  | .mem c _ t k => .mem c true t k
  | .arr t n => .arr t.mkVolatile n
  | t => t

/-- A function type to which there are no pointers or references: one with qualifiers (the types of
estl/type_traits.hpp:32-36, 41-99). -/
def Ty.abominable : Ty → Bool
  | .fn _ _ c v rq _ => c || v || rq != .none
  | _ => false

/-- `void` with any qualifiers, the operand of estl/type_traits.hpp:578-582. -/
def Ty.void : Ty → Bool
  | .base _ _ .void => true
  | _ => false

/-- `T&` with collapsing of references, as used in estl/type_traits.hpp:347. -/
def Ty.mkLref : Ty → Option Ty
  | .lref t => some (.lref t)
  | .rref t => some (.lref t)
  | t => if t.void || t.abominable then none else some (.lref t)

/-- `T&&` with collapsing of references, as used in estl/type_traits.hpp:334. -/
def Ty.mkRref : Ty → Option Ty
  | .lref t => some (.lref t)
  | .rref t => some (.rref t)
  | t => if t.void || t.abominable then none else some (.rref t)

/-- `T*`, as used in estl/type_traits.hpp:360, 412. -/
def Ty.mkPtr : Ty → Option Ty
  | .lref _ => none
  | .rref _ => none
  | t => if t.abominable then none else some (.ptr false false t)

/-- Matching with `T const`, estl/type_traits.hpp:109, 130: the `T` deduced. -/
def matchConst : Ty → Option Ty
  | .base true v b => some (.base false v b)
  | .ptr true v t => some (.ptr false v t)
  | .mem true v t k => some (.mem false v t k)
  | .arr t n => (matchConst t).map fun u => .arr u n
  | _ => none

/-- Matching with `T volatile`, estl/type_traits.hpp:119, 144. -/
def matchVolatile : Ty → Option Ty
  | .base c true b => some (.base c false b)
  | .ptr c true t => some (.ptr c false t)
  | .mem c true t k => some (.mem c false t k)
  | .arr t n => (matchVolatile t).map fun u => .arr u n
  | _ => none

/-- `is_function_v`, estl/type_traits.hpp:26-102: one specialisation per combination of `...`, const,
volatile and reference qualifier; none for `noexcept`. -/
def is_function : Ty → Bool
  | .fn _ _ false false .none false => true
  | .fn _ _ false false .l false => true
  | .fn _ _ false false .r false => true
  | .fn _ _ true false .none false => true
  | .fn _ _ true false .l false => true
  | .fn _ _ true false .r false => true
  | .fn _ _ false true .none false => true
  | .fn _ _ false true .l false => true
  | .fn _ _ false true .r false => true
  | .fn _ _ true true .none false => true
  | .fn _ _ true true .l false => true
  | .fn _ _ true true .r false => true
  | _ => false

/-- `is_const_v`, estl/type_traits.hpp:105-112. -/
def is_const (t : Ty) : Bool := (matchConst t).isSome

/-- `is_volatile_v`, estl/type_traits.hpp:115-122. -/
def is_volatile (t : Ty) : Bool := (matchVolatile t).isSome

/-- `remove_const_t`, estl/type_traits.hpp:124-135. -/
def remove_const (t : Ty) : Ty := (matchConst t).getD t

/-- `remove_volatile_t`, estl/type_traits.hpp:138-149. -/
def remove_volatile (t : Ty) : Ty := (matchVolatile t).getD t

/-- `remove_cv_t`, estl/type_traits.hpp:152-158. -/
def remove_cv (t : Ty) : Ty := remove_const (remove_volatile t)

/-- `remove_reference_t`, estl/type_traits.hpp:160-176. -/
def remove_reference : Ty → Ty
  | .lref t => t
  | .rref t => t
  | t => t

/-- `add_const_t`, estl/type_traits.hpp:179-185. -/
def add_const (t : Ty) : Ty := t.mkConst

/-- `add_volatile_t`, estl/type_traits.hpp:187-193. -/
def add_volatile (t : Ty) : Ty := t.mkVolatile

/-- `add_cv_t`, estl/type_traits.hpp:196-202. -/
def add_cv (t : Ty) : Ty := add_volatile (add_const t)

/-- `is_lvalue_reference_v`, estl/type_traits.hpp:204-211. -/
def is_lvalue_reference : Ty → Bool
  | .lref _ => true
  | _ => false

/-- `is_rvalue_reference_v`, estl/type_traits.hpp:213-220. -/
def is_rvalue_reference : Ty → Bool
  | .rref _ => true
  | _ => false

/-- `is_pointer_helper`, estl/type_traits.hpp:231-235 (matches an unqualified pointer). -/
def is_pointer_helper : Ty → Bool
  | .ptr false false _ => true
  | _ => false

/-- `is_pointer_v`, estl/type_traits.hpp:237-241. -/
def is_pointer (t : Ty) : Bool := is_pointer_helper (remove_cv t)

/-- `is_reference_v`, estl/type_traits.hpp:243-253. -/
def is_reference : Ty → Bool
  | .lref _ => true
  | .rref _ => true
  | _ => false

/-- `is_array_v`, estl/type_traits.hpp:255-265. -/
def is_array : Ty → Bool
  | .arr _ none => true
  | .arr _ (some _) => true
  | _ => false

/-- `is_member_pointer_helper`, estl/type_traits.hpp:267-271. -/
def is_member_pointer_helper : Ty → Bool
  | .mem false false _ _ => true
  | _ => false

/-- `is_member_pointer_v`, estl/type_traits.hpp:273-277. -/
def is_member_pointer (t : Ty) : Bool := is_member_pointer_helper (remove_cv t)

/-- `is_member_object_pointer_helper`, estl/type_traits.hpp:280-284. -/
def is_member_object_pointer_helper : Ty → Bool
  | .mem false false t _ => !is_function t
  | _ => false

/-- `is_member_object_pointer_v`, estl/type_traits.hpp:286-290. -/
def is_member_object_pointer (t : Ty) : Bool := is_member_object_pointer_helper (remove_cv t)

/-- `is_member_function_pointer_helper`, estl/type_traits.hpp:293-297. -/
def is_member_function_pointer_helper : Ty → Bool
  | .mem false false t _ => is_function t
  | _ => false

/-- `is_member_function_pointer_v`, estl/type_traits.hpp:299-303. -/
def is_member_function_pointer (t : Ty) : Bool := is_member_function_pointer_helper (remove_cv t)

/-- `add_rvalue_reference_t`, estl/type_traits.hpp:332-343. -/
def add_rvalue_reference (t : Ty) : Option Ty := if is_rvalue_reference t then some t else t.mkRref

/-- `add_lvalue_reference_t`, estl/type_traits.hpp:345-356. -/
def add_lvalue_reference (t : Ty) : Option Ty := if is_lvalue_reference t then some t else t.mkLref

/-- `add_pointer_t`, estl/type_traits.hpp:358-364. -/
def add_pointer (t : Ty) : Option Ty := (remove_reference t).mkPtr

/-- `remove_extent_t`, estl/type_traits.hpp:366-382. -/
def remove_extent : Ty → Ty
  | .arr t none => t
  | .arr t (some _) => t
  | t => t

/-- `remove_all_extent_t`, estl/type_traits.hpp:384-400. -/
def remove_all_extent : Ty → Ty
  | .arr t none => remove_all_extent t
  | .arr t (some _) => remove_all_extent t
  | t => t

/-- `decay_selector<T>::type`, estl/type_traits.hpp:402-418; there is no selector for a type that is both an
array and a function. -/
def decay_selector (t : Ty) : Option Ty :=
  match is_array t, is_function t with
  | false, false => some (remove_cv t)
  | true, false => (remove_extent t).mkPtr
  | false, true => add_pointer t
  | true, true => none

/-- `decay_t`, estl/type_traits.hpp:420-426. -/
def decay (t : Ty) : Option Ty := decay_selector (remove_reference t)

/-- `is_enum_v`, `is_class_v` and `is_union_v`, estl/type_traits.hpp:506-522 (built into the compiler). -/
def is_enum : Ty → Bool
  | .base _ _ (.enum _) => true
  | _ => false
/-- `is_class_v`, estl/type_traits.hpp:509-510. -/
def is_class : Ty → Bool
  | .base _ _ (.cls _) => true
  | _ => false
/-- `is_union_v`, estl/type_traits.hpp:512-513. -/
def is_union : Ty → Bool
  | .base _ _ (.union _) => true
  | _ => false

/-- `is_integral_helper`, estl/type_traits.hpp:524-549, with the aliases of estl/type.hpp:4-7, 18-21:
`int8_t` is `char`, `int64_t` is `long long`. -/
def is_integral_helper : Ty → Bool
  | .base false false .char => true
  | .base false false .short => true
  | .base false false .int => true
  | .base false false .llong => true
  | .base false false .uchar => true
  | .base false false .ushort => true
  | .base false false .uint => true
  | .base false false .ullong => true
  | _ => false

/-- `is_integral_v`, estl/type_traits.hpp:551-555. -/
def is_integral (t : Ty) : Bool := is_integral_helper (remove_cv t)

/-- `is_float_helper`, estl/type_traits.hpp:557-567. -/
def is_float_helper : Ty → Bool
  | .base false false .float => true
  | .base false false .double => true
  | .base false false .ldouble => true
  | _ => false

/-- `is_float_v`, estl/type_traits.hpp:569-573. -/
def is_float (t : Ty) : Bool := is_float_helper (remove_cv t)

/-- `is_void_helper`, estl/type_traits.hpp:575-579. -/
def is_void_helper : Ty → Bool
  | .base false false .void => true
  | _ => false

/-- `is_void_v`, estl/type_traits.hpp:581-585. -/
def is_void (t : Ty) : Bool := is_void_helper (remove_cv t)

end Verif.Cxx
