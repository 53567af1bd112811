import Verif.Model.CxxType

/-! Property C94: type traits, for all types. -/

set_option backward.isDefEq.respectTransparency false

namespace Verif.Cxx

/-- Types that exist in C++: no references to references or `void`, no pointers to references, no arrays of
references, functions, `void` or arrays of unknown bound, no functions returning arrays or functions, no pointers
or references to functions with qualifiers, no pointers to members of reference or void type. -/
def WF : Ty → Bool
  | .base _ _ _ => true
  | .ptr _ _ t => WF t && !is_reference t && !t.abominable
  | .mem _ _ t _ => WF t && !is_reference t && !t.void
  | .lref t => WF t && !is_reference t && !t.void && !t.abominable
  | .rref t => WF t && !is_reference t && !t.void && !t.abominable
  | .arr t _ => WF t && !is_reference t && !t.void && (match t with | .fn .. => false | .arr _ none => false | _ => true)
  | .fn r _ _ _ _ _ => WF r && (match r with | .fn .. => false | .arr .. => false | _ => true)

/-- The primary type categories of the C++ standard ([meta.unary.cat]). -/
inductive Category where
  | void | nullPointer | integral | floatingPoint | array | pointer | lvalueReference | rvalueReference
  | memberObjectPointer | memberFunctionPointer | enum | union | class_ | function
  deriving DecidableEq

/-- A function type. -/
def isFn : Ty → Bool
  | .fn .. => true
  | _ => false

/-- The category of a type. -/
def category : Ty → Category
  | .base _ _ b =>
    match b with
    | .void => .void
    | .nullptr => .nullPointer
    | .float | .double | .ldouble => .floatingPoint
    | .cls _ => .class_
    | .enum _ => .enum
    | .union _ => .union
    | _ => .integral
  | .ptr .. => .pointer
  | .mem _ _ t _ => if isFn t then .memberFunctionPointer else .memberObjectPointer
  | .lref _ => .lvalueReference
  | .rref _ => .rvalueReference
  | .arr .. => .array
  | .fn .. => .function

/-- The integral types `is_integral` does not know. -/
def unlisted : Ty → Bool
  | .base _ _ b => b == .bool || b == .schar || b == .long || b == .ulong || b == .wchar || b == .char16 || b == .char32
  | _ => false

/-- A function type with `noexcept`. -/
def isNoexcept : Ty → Bool
  | .fn _ _ _ _ _ ne => ne
  | _ => false

/-- Function types with `noexcept` and pointers to such members. -/
def touchesNoexcept : Ty → Bool
  | .mem _ _ t _ => isNoexcept t
  | t => isNoexcept t

theorem is_function_eq (t : Ty) : is_function t = (isFn t && !isNoexcept t) := by
  cases t with
  | fn r p c v q ne => cases c <;> cases v <;> cases q <;> cases ne <;> rfl
  | _ => rfl

/-- Unqualified types are left alone. -/
theorem matchConst_none {t : Ty} : matchConst t = none ↔ is_const t = false := by
  simp [is_const]

/-- Elements of arrays in turn. -/
theorem remove_cv_base (c v : Bool) (b : Base) : remove_cv (.base c v b) = .base false false b := by cases c <;> cases v <;> rfl
theorem remove_cv_ptr (c v : Bool) (t : Ty) : remove_cv (.ptr c v t) = .ptr false false t := by cases c <;> cases v <;> rfl
theorem remove_cv_mem (c v : Bool) (t : Ty) (k : Nat) : remove_cv (.mem c v t k) = .mem false false t k := by cases c <;> cases v <;> rfl

theorem remove_const_arr (t : Ty) (n : Option Nat) : remove_const (.arr t n) = .arr (remove_const t) n := by
  simp only [remove_const, matchConst]
  cases matchConst t <;> rfl
theorem remove_volatile_arr (t : Ty) (n : Option Nat) : remove_volatile (.arr t n) = .arr (remove_volatile t) n := by
  simp only [remove_volatile, matchVolatile]
  cases matchVolatile t <;> rfl
theorem remove_cv_arr (t : Ty) (n : Option Nat) : remove_cv (.arr t n) = .arr (remove_cv t) n := by
  simp only [remove_cv, remove_volatile_arr, remove_const_arr]

theorem remove_cv_lref (t : Ty) : remove_cv (.lref t) = .lref t := rfl
theorem remove_cv_rref (t : Ty) : remove_cv (.rref t) = .rref t := rfl
theorem remove_cv_fn (r : Ty) (p : Nat) (c v : Bool) (q : RefQ) (ne : Bool) : remove_cv (.fn r p c v q ne) = .fn r p c v q ne := rfl
theorem is_array_arr (t : Ty) (n : Option Nat) : is_array (.arr t n) = true := by cases n <;> rfl

/-- C94, categories: on every type the classifying traits agree with the standard, except that
`is_integral` misses the seven types `bool`, `signed char`, `long`, `unsigned long`, `wchar_t`, `char16_t` and
`char32_t`, and that `noexcept` functions and members are not recognised. Missing: these types
(`C94_integral_violated`, `C94_noexcept_violated`); there is no trait for `nullptr_t`. -/
theorem C94_categories_partial (t : Ty) (hi : unlisted t = false) (hn : touchesNoexcept t = false) :
    (is_void t = true ↔ category t = .void) ∧ (is_integral t = true ↔ category t = .integral) ∧ (is_float t = true ↔ category t = .floatingPoint) ∧
    (is_array t = true ↔ category t = .array) ∧ (is_pointer t = true ↔ category t = .pointer) ∧
    (is_lvalue_reference t = true ↔ category t = .lvalueReference) ∧ (is_rvalue_reference t = true ↔ category t = .rvalueReference) ∧
    (is_member_object_pointer t = true ↔ category t = .memberObjectPointer) ∧ (is_member_function_pointer t = true ↔ category t = .memberFunctionPointer) ∧
    (is_enum t = true ↔ category t = .enum) ∧ (is_union t = true ↔ category t = .union) ∧ (is_class t = true ↔ category t = .class_) ∧
    (is_function t = true ↔ category t = .function) ∧
    (is_member_pointer t = true ↔ category t = .memberObjectPointer ∨ category t = .memberFunctionPointer) ∧
    (is_reference t = true ↔ category t = .lvalueReference ∨ category t = .rvalueReference) := by
  cases t with
  | base c v b =>
    simp only [is_void, is_integral, is_float, is_pointer, is_member_object_pointer, is_member_function_pointer, is_member_pointer, remove_cv_base]
    cases b <;> first | (exact absurd hi (by decide)) | decide | simp [category, is_void_helper, is_integral_helper, is_float_helper, is_array, is_pointer_helper, is_lvalue_reference,
      is_rvalue_reference, is_member_object_pointer_helper, is_member_function_pointer_helper, is_enum, is_union, is_class, is_function, is_member_pointer_helper, is_reference]
    all_goals (simp [unlisted] at hi)
  | ptr c v t =>
    simp only [is_void, is_integral, is_float, is_pointer, is_member_object_pointer, is_member_function_pointer, is_member_pointer, remove_cv_ptr]
    simp [category, is_void_helper, is_integral_helper, is_float_helper, is_array, is_pointer_helper, is_lvalue_reference,
      is_rvalue_reference, is_member_object_pointer_helper, is_member_function_pointer_helper, is_enum, is_union, is_class, is_function, is_member_pointer_helper, is_reference]
  | mem c v t k =>
    have hn' : isNoexcept t = false := hn
    simp only [is_void, is_integral, is_float, is_pointer, is_member_object_pointer, is_member_function_pointer, is_member_pointer, remove_cv_mem]
    cases hf : isFn t <;>
    simp [category, is_void_helper, is_integral_helper, is_float_helper, is_array, is_pointer_helper, is_lvalue_reference, is_function_eq, hf, hn',
      is_rvalue_reference, is_member_object_pointer_helper, is_member_function_pointer_helper, is_enum, is_union, is_class, is_member_pointer_helper, is_reference]
    all_goals simp [isFn]
  | lref t =>
    simp only [is_void, is_integral, is_float, is_pointer, is_member_object_pointer, is_member_function_pointer, is_member_pointer, remove_cv_lref]
    simp [category, is_void_helper, is_integral_helper, is_float_helper, is_array, is_pointer_helper, is_lvalue_reference,
      is_rvalue_reference, is_member_object_pointer_helper, is_member_function_pointer_helper, is_enum, is_union, is_class, is_function, is_member_pointer_helper, is_reference]
  | rref t =>
    simp only [is_void, is_integral, is_float, is_pointer, is_member_object_pointer, is_member_function_pointer, is_member_pointer, remove_cv_rref]
    simp [category, is_void_helper, is_integral_helper, is_float_helper, is_array, is_pointer_helper, is_lvalue_reference,
      is_rvalue_reference, is_member_object_pointer_helper, is_member_function_pointer_helper, is_enum, is_union, is_class, is_function, is_member_pointer_helper, is_reference]
  | arr t n =>
    simp only [is_void, is_integral, is_float, is_pointer, is_member_object_pointer, is_member_function_pointer, is_member_pointer, remove_cv_arr]
    simp [category, is_void_helper, is_integral_helper, is_float_helper, is_array_arr, is_pointer_helper, is_lvalue_reference,
      is_rvalue_reference, is_member_object_pointer_helper, is_member_function_pointer_helper, is_enum, is_union, is_class, is_function, is_member_pointer_helper, is_reference]
  | fn r p c v q ne =>
    have hn' : ne = false := hn
    simp only [is_void, is_integral, is_float, is_pointer, is_member_object_pointer, is_member_function_pointer, is_member_pointer, remove_cv_fn]
    simp [category, is_void_helper, is_integral_helper, is_float_helper, is_array, is_pointer_helper, is_lvalue_reference,
      is_rvalue_reference, is_member_object_pointer_helper, is_member_function_pointer_helper, is_enum, is_union, is_class, is_function_eq, isFn, isNoexcept, hn', is_member_pointer_helper, is_reference]

/-- `volatile char* const (&)[3]` and friends; a pointer to a member function with qualifiers. -/
example : unlisted (.mem true false (.fn (.base false false .int) 0 true false .l false) 0) = false ∧
    touchesNoexcept (.mem true false (.fn (.base false false .int) 0 true false .l false) 0) = false ∧
    category (.mem true false (.fn (.base false false .int) 0 true false .l false) 0) = .memberFunctionPointer := by decide

/-- C94 is violated: exactly these seven integral types, with any qualifiers, are not recognised by
`is_integral`; `uintptr_t` (`unsigned long`) is one of them. -/
theorem C94_integral_violated (t : Ty) (h : category t = .integral) : is_integral t = !unlisted t := by
  cases t with
  | base c v b =>
    simp only [is_integral, remove_cv_base]
    cases b <;> first | rfl | cases h
  | mem c v t k => simp only [category] at h; split at h <;> cases h
  | _ => cases h

example : category (.base true false .ulong) = .integral ∧ is_integral (.base true false .ulong) = false := by decide

/-- C94 is violated: a function type with `noexcept` is in no category at all, and `decay` leaves it a
function instead of making it a pointer; a pointer to such a member function is classified as pointer to
a data member. -/
theorem C94_noexcept_violated (r : Ty) (p k : Nat) (c v c' v' : Bool) (q : RefQ) :
    is_function (.fn r p c v q true) = false ∧ decay (.fn r p c v q true) = some (.fn r p c v q true) ∧
    is_member_function_pointer (.mem c' v' (.fn r p c v q true) k) = false ∧ is_member_object_pointer (.mem c' v' (.fn r p c v q true) k) = true := by
  have h : is_function (.fn r p c v q true) = false := by rw [is_function_eq]; rfl
  refine ⟨h, ?_, ?_, ?_⟩
  · simp only [decay, remove_reference, decay_selector, h]; rfl
  · simp only [is_member_function_pointer, remove_cv_mem, is_member_function_pointer_helper, h]
  · simp only [is_member_object_pointer, remove_cv_mem, is_member_object_pointer_helper, h]; rfl

/-- `int() noexcept`. -/
example : decay (.fn (.base false false .int) 0 false false .none true) = some (.fn (.base false false .int) 0 false false .none true) :=
  (C94_noexcept_violated (.base false false .int) 0 0 false false false false .none).2.1

/-- A type with qualifiers added. -/
def qual (c v : Bool) (t : Ty) : Ty :=
  let t := if c then add_const t else t
  if v then add_volatile t else t

theorem qual_base (c v c' v' : Bool) (b : Base) : qual c v (.base c' v' b) = .base (c || c') (v || v') b := by
  cases c <;> cases v <;> rfl
theorem qual_ptr (c v c' v' : Bool) (t : Ty) : qual c v (.ptr c' v' t) = .ptr (c || c') (v || v') t := by
  cases c <;> cases v <;> rfl
theorem qual_mem (c v c' v' : Bool) (t : Ty) (k : Nat) : qual c v (.mem c' v' t k) = .mem (c || c') (v || v') t k := by
  cases c <;> cases v <;> rfl
theorem qual_arr (c v : Bool) (t : Ty) (n : Option Nat) : qual c v (.arr t n) = .arr (qual c v t) n := by
  cases c <;> cases v <;> rfl

theorem is_const_arr (t : Ty) (n : Option Nat) : is_const (.arr t n) = is_const t := by simp [is_const, matchConst]
theorem is_volatile_arr (t : Ty) (n : Option Nat) : is_volatile (.arr t n) = is_volatile t := by simp [is_volatile, matchVolatile]

/-- C94, qualifiers: for every type `remove_cv` yields the unique type without qualifiers from which the type
is obtained by adding qualifiers; `is_const` and `is_volatile` tell which had to be added. -/
theorem C94_remove_cv (t : Ty) : is_const (remove_cv t) = false ∧ is_volatile (remove_cv t) = false ∧ t = qual (is_const t) (is_volatile t) (remove_cv t) ∧
    ∀ u c v, is_const u = false → is_volatile u = false → t = qual c v u → u = remove_cv t := by
  induction t with
  | base c v b =>
    rw [remove_cv_base]
    refine ⟨rfl, rfl, by cases c <;> cases v <;> rfl, fun u c' v' h1 h2 h3 => ?_⟩
    cases u with
    | base c2 v2 b2 =>
      rw [qual_base] at h3
      cases h3
      cases c2 <;> cases v2 <;> first | rfl | (cases h1; done) | (cases h2; done)
    | arr t n => rw [qual_arr] at h3; cases h3
    | ptr _ _ _ => rw [qual_ptr] at h3; cases h3
    | mem _ _ _ _ => rw [qual_mem] at h3; cases h3
    | _ => cases c' <;> cases v' <;> cases h3
  | ptr c v b =>
    rw [remove_cv_ptr]
    refine ⟨rfl, rfl, by cases c <;> cases v <;> rfl, fun u c' v' h1 h2 h3 => ?_⟩
    cases u with
    | ptr c2 v2 b2 =>
      rw [qual_ptr] at h3
      cases h3
      cases c2 <;> cases v2 <;> first | rfl | (cases h1; done) | (cases h2; done)
    | arr t n => rw [qual_arr] at h3; cases h3
    | base _ _ _ => rw [qual_base] at h3; cases h3
    | mem _ _ _ _ => rw [qual_mem] at h3; cases h3
    | _ => cases c' <;> cases v' <;> cases h3
  | mem c v b k =>
    rw [remove_cv_mem]
    refine ⟨rfl, rfl, by cases c <;> cases v <;> rfl, fun u c' v' h1 h2 h3 => ?_⟩
    cases u with
    | mem c2 v2 b2 k2 =>
      rw [qual_mem] at h3
      cases h3
      cases c2 <;> cases v2 <;> first | rfl | (cases h1; done) | (cases h2; done)
    | arr t n => rw [qual_arr] at h3; cases h3
    | base _ _ _ => rw [qual_base] at h3; cases h3
    | ptr _ _ _ => rw [qual_ptr] at h3; cases h3
    | _ => cases c' <;> cases v' <;> cases h3
  | arr t n ih =>
    rw [remove_cv_arr, is_const_arr, is_volatile_arr, is_const_arr, is_volatile_arr, qual_arr]
    refine ⟨ih.1, ih.2.1, by rw [← ih.2.2.1], fun u c' v' h1 h2 h3 => ?_⟩
    cases u with
    | arr t2 n2 =>
      rw [qual_arr] at h3
      injection h3 with h3 h4
      subst h4
      rw [is_const_arr] at h1
      rw [is_volatile_arr] at h2
      rw [← ih.2.2.2 t2 c' v' h1 h2 h3]
    | base _ _ _ => rw [qual_base] at h3; cases h3
    | ptr _ _ _ => rw [qual_ptr] at h3; cases h3
    | mem _ _ _ _ => rw [qual_mem] at h3; cases h3
    | _ => cases c' <;> cases v' <;> cases h3
  | lref t =>
    refine ⟨rfl, rfl, rfl, fun u c' v' h1 h2 h3 => ?_⟩
    cases u with
    | arr t n => rw [qual_arr] at h3; cases h3
    | base _ _ _ => rw [qual_base] at h3; cases h3
    | ptr _ _ _ => rw [qual_ptr] at h3; cases h3
    | mem _ _ _ _ => rw [qual_mem] at h3; cases h3
    | _ => cases c' <;> cases v' <;> cases h3 <;> rfl
  | rref t =>
    refine ⟨rfl, rfl, rfl, fun u c' v' h1 h2 h3 => ?_⟩
    cases u with
    | arr t n => rw [qual_arr] at h3; cases h3
    | base _ _ _ => rw [qual_base] at h3; cases h3
    | ptr _ _ _ => rw [qual_ptr] at h3; cases h3
    | mem _ _ _ _ => rw [qual_mem] at h3; cases h3
    | _ => cases c' <;> cases v' <;> cases h3 <;> rfl
  | fn r p c v q ne =>
    refine ⟨rfl, rfl, rfl, fun u c' v' h1 h2 h3 => ?_⟩
    cases u with
    | arr t n => rw [qual_arr] at h3; cases h3
    | base _ _ _ => rw [qual_base] at h3; cases h3
    | ptr _ _ _ => rw [qual_ptr] at h3; cases h3
    | mem _ _ _ _ => rw [qual_mem] at h3; cases h3
    | _ => cases c' <;> cases v' <;> cases h3 <;> rfl

/-- `const volatile int[2][3]` and `int[2][3]`. -/
example : remove_cv (.arr (.arr (.base true true .int) (some 3)) (some 2)) = .arr (.arr (.base false false .int) (some 3)) (some 2) := rfl

/-- C94, references: adding a reference to any type but `void` and functions with qualifiers gives the reference the
collapsing rules prescribe; removing it gives back the type. Missing: for these types the standard leaves
the type as it is; here the program is ill-formed (`C94_void_violated`). -/
theorem C94_reference_partial (t : Ty) (hw : WF t = true) (hv : t.void = false) (ha : t.abominable = false) :
    is_reference (remove_reference t) = false ∧ (is_reference t = false → remove_reference t = t) ∧
    add_lvalue_reference t = some (.lref (remove_reference t)) ∧
    add_rvalue_reference t = some (if is_lvalue_reference t then t else .rref (remove_reference t)) ∧
    add_pointer t = some (.ptr false false (remove_reference t)) := by
  cases t with
  | lref u =>
    simp only [WF, Bool.and_eq_true, Bool.not_eq_true'] at hw
    refine ⟨hw.1.1.2, nofun, rfl, rfl, ?_⟩
    simp only [add_pointer, remove_reference]
    cases u with
    | lref _ => cases hw.1.1.2
    | rref _ => cases hw.1.1.2
    | _ => simp only [Ty.mkPtr, hw.2]; rfl
  | rref u =>
    simp only [WF, Bool.and_eq_true, Bool.not_eq_true'] at hw
    refine ⟨hw.1.1.2, nofun, rfl, rfl, ?_⟩
    simp only [add_pointer, remove_reference]
    cases u with
    | lref _ => cases hw.1.1.2
    | rref _ => cases hw.1.1.2
    | _ => simp only [Ty.mkPtr, hw.2]; rfl
  | _ => refine ⟨rfl, fun _ => rfl, ?_, ?_, ?_⟩ <;> simp [add_lvalue_reference, add_rvalue_reference, add_pointer, is_lvalue_reference, is_rvalue_reference, remove_reference, Ty.mkLref, Ty.mkRref, Ty.mkPtr, hv, ha]

/-- `char(&&)[4]`. -/
example : WF (.rref (.arr (.base false false .char) (some 4))) = true ∧
    add_lvalue_reference (.rref (.arr (.base false false .char) (some 4))) = some (.lref (.arr (.base false false .char) (some 4))) := by decide

/-- C94, functions: there are references and pointers to a function type exactly if it has no qualifiers. -/
theorem C94_functions (r : Ty) (n : Nat) (c v : Bool) (q : RefQ) (ne : Bool) :
    ((add_lvalue_reference (.fn r n c v q ne)).isSome ↔ c = false ∧ v = false ∧ q = .none) ∧
    ((add_rvalue_reference (.fn r n c v q ne)).isSome ↔ c = false ∧ v = false ∧ q = .none) ∧
    ((add_pointer (.fn r n c v q ne)).isSome ↔ c = false ∧ v = false ∧ q = .none) := by
  cases c <;> cases v <;> cases q <;>
    simp [add_lvalue_reference, add_rvalue_reference, add_pointer, is_lvalue_reference, is_rvalue_reference, remove_reference,
      Ty.mkLref, Ty.mkRref, Ty.mkPtr, Ty.void, Ty.abominable]

/-- `int (&)()`, and nothing for `int () const`. -/
example : add_lvalue_reference (.fn (.base false false .int) 0 false false .none false) =
      some (.lref (.fn (.base false false .int) 0 false false .none false)) ∧
    add_pointer (.fn (.base false false .int) 0 true false .none false) = none := by decide

/-- C94 is violated: adding a reference to `void` or to a function type with qualifiers is an ill-formed program,
so that `declval<void>()` cannot be named; the standard leaves such types unchanged. -/
theorem C94_void_violated (t : Ty) (h : t.void = true ∨ t.abominable = true) : add_lvalue_reference t = none ∧ add_rvalue_reference t = none := by
  cases t with
  | base c v b =>
    rcases h with h | h
    · simp [add_lvalue_reference, add_rvalue_reference, is_lvalue_reference, is_rvalue_reference, Ty.mkLref, Ty.mkRref, h]
    · cases h
  | fn r p c v q ne =>
    rcases h with h | h
    · cases h
    · simp [add_lvalue_reference, add_rvalue_reference, is_lvalue_reference, is_rvalue_reference, Ty.mkLref, Ty.mkRref, h]
  | _ => rcases h with h | h <;> cases h

example : (Ty.base true false .void).void = true ∧ (Ty.fn (.base false false .int) 0 true false .none false).abominable = true := by decide

/-- The type of a variable that holds a value: no reference, array or function, no qualifiers. -/
def Value (t : Ty) : Prop := is_reference t = false ∧ is_array t = false ∧ isFn t = false ∧ is_const t = false ∧ is_volatile t = false

/-- C94, decay: for every type other than functions with qualifiers or `noexcept` (and references to the latter) `decay`
yields the type of a variable initialised with a value of the type: a value type; the same for references and
qualified types; unchanged for value types; for arrays the pointer to the element, for functions the
pointer to the function. Missing: `noexcept` (`C94_noexcept_violated`), qualified functions
(ill-formed instead of unchanged). -/
theorem C94_decay_partial (t : Ty) (hw : WF t = true) (ha : (remove_reference t).abominable = false) (hn : isNoexcept (remove_reference t) = false) :
    ∃ d, decay t = some d ∧ Value d ∧ decay (remove_reference t) = some d ∧ (is_array (remove_reference t) = false → decay (qual true true (remove_reference t)) = some d) ∧
      (Value t → d = t) ∧
      (∀ u n, remove_reference t = .arr u n → d = .ptr false false u) ∧ (isFn (remove_reference t) = true → d = .ptr false false (remove_reference t)) := by
  have hr : is_reference (remove_reference t) = false ∧ WF (remove_reference t) = true ∧ remove_reference (remove_reference t) = remove_reference t := by
    cases t with
    | lref u =>
      simp only [WF, Bool.and_eq_true, Bool.not_eq_true'] at hw
      refine ⟨hw.1.1.2, hw.1.1.1, ?_⟩
      cases u with
      | lref _ => cases hw.1.1.2
      | rref _ => cases hw.1.1.2
      | _ => rfl
    | rref u =>
      simp only [WF, Bool.and_eq_true, Bool.not_eq_true'] at hw
      refine ⟨hw.1.1.2, hw.1.1.1, ?_⟩
      cases u with
      | lref _ => cases hw.1.1.2
      | rref _ => cases hw.1.1.2
      | _ => rfl
    | _ => exact ⟨rfl, hw, rfl⟩
  have hv : Value t → remove_reference t = t := by
    intro h
    cases t with
    | lref _ => cases h.1
    | rref _ => cases h.1
    | _ => rfl
  rw [decay, decay, hr.2.2]
  have hw2 := hr.2.1
  have hr1 := hr.1
  clear hr
  revert hv
  generalize remove_reference t = u at *
  intro hv
  cases u with
  | lref _ => cases hr1
  | rref _ => cases hr1
  | base c v b =>
    refine ⟨.base false false b, by simp [decay_selector, is_array, is_function, remove_cv_base], ⟨rfl, rfl, rfl, rfl, rfl⟩, by simp [decay_selector, is_array, is_function, remove_cv_base], fun _ => ?_, fun h => ?_, nofun, nofun⟩
    · rw [qual_base]; simp [decay, remove_reference, decay_selector, is_array, is_function, remove_cv_base]
    · have := hv h
      subst this
      obtain ⟨_, _, _, h4, h5⟩ := h
      cases c <;> cases v <;> first | rfl | (cases h4; done) | (cases h5; done)
  | ptr c v b =>
    refine ⟨.ptr false false b, by simp [decay_selector, is_array, is_function, remove_cv_ptr], ⟨rfl, rfl, rfl, rfl, rfl⟩, by simp [decay_selector, is_array, is_function, remove_cv_ptr], fun _ => ?_, fun h => ?_, nofun, nofun⟩
    · rw [qual_ptr]; simp [decay, remove_reference, decay_selector, is_array, is_function, remove_cv_ptr]
    · have := hv h
      subst this
      obtain ⟨_, _, _, h4, h5⟩ := h
      cases c <;> cases v <;> first | rfl | (cases h4; done) | (cases h5; done)
  | mem c v b k =>
    refine ⟨.mem false false b k, by simp [decay_selector, is_array, is_function, remove_cv_mem], ⟨rfl, rfl, rfl, rfl, rfl⟩, by simp [decay_selector, is_array, is_function, remove_cv_mem], fun _ => ?_, fun h => ?_, nofun, nofun⟩
    · rw [qual_mem]; simp [decay, remove_reference, decay_selector, is_array, is_function, remove_cv_mem]
    · have := hv h
      subst this
      obtain ⟨_, _, _, h4, h5⟩ := h
      cases c <;> cases v <;> first | rfl | (cases h4; done) | (cases h5; done)
  | arr u n =>
    have e : decay_selector (.arr u n) = some (.ptr false false u) := by
      simp only [WF, Bool.and_eq_true, Bool.not_eq_true'] at hw2
      have h1 : is_array (.arr u n) = true := by cases n <;> rfl
      have h2 : remove_extent (.arr u n) = u := by cases n <;> rfl
      simp only [decay_selector, h1, h2, is_function]
      cases u with
      | lref _ => cases hw2.1.1.2
      | rref _ => cases hw2.1.1.2
      | fn _ _ _ _ _ _ => cases hw2.2
      | _ => rfl
    refine ⟨_, e, ⟨rfl, rfl, rfl, rfl, rfl⟩, e, fun h => ?_, fun h => ?_, fun u' n' h => ?_, nofun⟩
    · cases n <;> cases h
    · have := hv h
      subst this
      have := h.2.1
      cases n <;> cases this
    · cases h; rfl
  | fn r p c v q ne =>
    have hne : ne = false := hn
    subst hne
    have hf : is_function (.fn r p c v q false) = true := by rw [is_function_eq]; rfl
    have e : decay_selector (.fn r p c v q false) = some (.ptr false false (.fn r p c v q false)) := by
      simp only [decay_selector, hf, is_array, add_pointer, remove_reference, Ty.mkPtr, ha]; rfl
    refine ⟨_, e, ⟨rfl, rfl, rfl, rfl, rfl⟩, e, fun _ => e, fun h => ?_, nofun, fun _ => rfl⟩
    have := hv h
    subst this
    cases h.2.2.1

/-- `const int (&)[2][3]` decays to `const int (*)[3]`. -/
example : WF (.lref (.arr (.arr (.base true false .int) (some 3)) (some 2))) = true ∧
    decay (.lref (.arr (.arr (.base true false .int) (some 3)) (some 2))) = some (.ptr false false (.arr (.base true false .int) (some 3))) := by decide

/-- The number of dimensions of an array. -/
def rank : Ty → Nat
  | .arr t _ => rank t + 1
  | _ => 0

/-- C94, extents: `remove_extent` takes away one dimension, `remove_all_extent` all of them; qualifiers of the
elements stay. -/
theorem C94_extent (t : Ty) : rank (remove_extent t) = rank t - 1 ∧ rank (remove_all_extent t) = 0 ∧
    is_const (remove_all_extent t) = is_const t ∧ is_volatile (remove_all_extent t) = is_volatile t ∧ remove_all_extent (remove_cv t) = remove_cv (remove_all_extent t) ∧
    Nat.repeat remove_extent (rank t) t = remove_all_extent t := by
  induction t with
  | arr t n ih =>
    have h1 : remove_extent (.arr t n) = t := by cases n <;> rfl
    have h2 : ∀ u : Ty, remove_all_extent (.arr u n) = remove_all_extent u := by intro u; cases n <;> rfl
    have h3 : ∀ (k : Nat) (u : Ty), Nat.repeat remove_extent (k + 1) u = Nat.repeat remove_extent k (remove_extent u) := by
      intro k
      induction k with
      | zero => intro u; rfl
      | succ k ih => intro u; show remove_extent (Nat.repeat remove_extent (k + 1) u) = _; rw [ih]; rfl
    obtain ⟨_, a2, a3, a4, a5, a6⟩ := ih
    rw [h1, h2, remove_cv_arr, h2, is_const_arr, is_volatile_arr]
    exact ⟨by simp [rank], a2, a3, a4, a5, by rw [rank, h3, h1, a6]⟩
  | base c v b => rw [remove_cv_base]; exact ⟨rfl, rfl, rfl, rfl, by rw [remove_all_extent, remove_all_extent, remove_cv_base] <;> nofun, rfl⟩
  | ptr c v b => rw [remove_cv_ptr]; exact ⟨rfl, rfl, rfl, rfl, by rw [remove_all_extent, remove_all_extent, remove_cv_ptr] <;> nofun, rfl⟩
  | mem c v b k => rw [remove_cv_mem]; exact ⟨rfl, rfl, rfl, rfl, by rw [remove_all_extent, remove_all_extent, remove_cv_mem] <;> nofun, rfl⟩
  | _ => exact ⟨rfl, rfl, rfl, rfl, rfl, rfl⟩

/-- `const int[2][3][]`. -/
example : remove_all_extent (.arr (.arr (.arr (.base true false .int) (some 3)) (some 2)) none) = .base true false .int ∧
    rank (.arr (.arr (.arr (.base true false .int) (some 3)) (some 2)) none) = 3 := by decide

end Verif.Cxx
