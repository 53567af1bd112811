import Verif.Model.FnArgs
import Verif.Props.Forward

/-! Property C126: calls through `function` hand the arguments on as the signature says. -/

set_option backward.isDefEq.respectTransparency false

namespace Verif.Cxx

/-- A type that a parameter by value can have: no reference, array, function or `void`, and without `const`,
which a signature does not keep. -/
structure ByValue (t : Ty) : Prop where
  object : is_reference t = false
  some : t.void = false
  arr : is_array t = false
  fn : isFn t = false
  cst : is_const t = false

theorem ByValue.mkConst {t : Ty} (h : ByValue t) :
    is_reference t.mkConst = false ∧ t.mkConst.void = false ∧ t.mkConst.abominable = false ∧
    isFn t.mkConst = false ∧ remove_const t.mkConst = t ∧ is_const t.mkConst = true ∧ t ≠ t.mkConst := by
  obtain ⟨h1, h2, h3, h4, h5⟩ := h
  cases t with
  | base c v b =>
    cases c
    · cases b <;> simp_all [Ty.mkConst, is_reference, Ty.void, Ty.abominable, isFn, remove_const, matchConst, is_const]
    · simp [is_const, matchConst] at h5
  | ptr c v t =>
    cases c
    · simp [Ty.mkConst, is_reference, Ty.void, Ty.abominable, isFn, remove_const, matchConst, is_const]
    · simp [is_const, matchConst] at h5
  | mem c v t k =>
    cases c
    · simp [Ty.mkConst, is_reference, Ty.void, Ty.abominable, isFn, remove_const, matchConst, is_const]
    · simp [is_const, matchConst] at h5
  | lref t => simp [is_reference] at h1
  | rref t => simp [is_reference] at h1
  | arr t n => cases n <;> simp [is_array] at h3
  | fn r p c v q e => simp [isFn] at h4

theorem ByValue.plain {t : Ty} (h : ByValue t) : t.abominable = false := by
  obtain ⟨h1, h2, h3, h4, h5⟩ := h
  cases t <;> simp_all [Ty.abominable, isFn]

theorem ByValue.argument {t : Ty} (h : ByValue t) (c : Cat) : Argument ⟨t, c⟩ :=
  ⟨h.object, h.some, h.plain, fun hf => by rw [h.fn] at hf; cases hf⟩

theorem invoke_lvalue {t : Ty} (h : Argument ⟨t, .lvalue⟩) :
    passAll (route .invoke) ⟨t, .lvalue⟩ = some ⟨t, .lvalue⟩ := C125_library h .invoke

/-- For a parameter `T&` of the signature the target gets the very lvalue, as in a direct call, and a target that
takes `T&` can be called. -/
theorem C126_lvalue_partial {t : Ty} (h : Argument ⟨t, .lvalue⟩) (copy mv : Bool) :
    functionArg (.lref t) = some ⟨t, .lvalue⟩ ∧ forward (.lref t) (param (.lref t)) = some ⟨t, .lvalue⟩ ∧
    callable copy mv (.lref t) ⟨t, .lvalue⟩ = true := by
  refine ⟨?_, forward_lref h.object h.some h.plain, ?_⟩
  · simp [functionArg, param, remove_reference, invoke_lvalue h, bindConst, Ty.mkConst, Ty.mkLref, bind]
  · simp [callable, bind]

/-- `const C&` -/
example : Argument ⟨.base true false (.cls 0), .lvalue⟩ := ⟨rfl, rfl, rfl, by decide⟩

/-- For a parameter `T` the target gets a `const` lvalue: it can be called if it takes `const T&`, or if it takes
`T` and objects of the type can be copied. -/
theorem C126_value_partial {t : Ty} (h : ByValue t) (copy mv : Bool) :
    functionArg t = some ⟨t.mkConst, .lvalue⟩ ∧ callable copy mv t ⟨t.mkConst, .lvalue⟩ = copy ∧
    callable copy mv (.lref t.mkConst) ⟨t.mkConst, .lvalue⟩ = true := by
  obtain ⟨h1, h2, h3, h4, h5, h6, h7⟩ := h.mkConst
  have hl : Argument ⟨t.mkConst, .lvalue⟩ := ⟨h1, h2, h3, fun _ => rfl⟩
  refine ⟨?_, ?_, ?_⟩
  · simp [functionArg, param, remove_reference_of h.object, invoke_lvalue (h.argument .lvalue), bindConst,
      mkLref_of h1 h2 h3, bind, h7, invoke_lvalue hl]
  · have ho := h.object
    cases t <;> simp_all [callable, is_reference]
  · simp [callable, bind]

/-- `int` -/
example : ByValue (.base false false .int) ∧ functionArg (.base false false .int) =
    some ⟨.base true false .int, .lvalue⟩ := ⟨⟨rfl, rfl, rfl, rfl, by decide⟩, by decide⟩

/-- Violated: an object that can be moved but not copied, like a `unique_ptr`, cannot be handed to a target that
takes it by value, and no object to one that takes `T&`, because of the `const`; a direct call moves it. -/
theorem C126_violated_value {t : Ty} (h : ByValue t) :
    ∃ x y, functionArg t = some x ∧ forward t (param t) = some y ∧
      callable false true t x = false ∧ callable false true t y = true ∧
      ∀ copy mv, callable copy mv (.lref t) x = false := by
  obtain ⟨h1, h2, h3, h4, h5, h6, h7⟩ := h.mkConst
  obtain ⟨e1, e2, -⟩ := C126_value_partial h false true
  refine ⟨_, ⟨t, .xvalue⟩, e1, ?_, e2, ?_, ?_⟩
  · rw [param, remove_reference_of h.object]
    exact forward_obj h.object h.some h.plain h.fn _
  · have ho := h.object
    have hc := h.cst
    have hr : remove_const t = t := by
      cases hm : matchConst t
      · simp [remove_const, hm]
      · simp [is_const, hm] at hc
    cases t <;> simp_all [callable, is_reference]
  · intro copy mv
    have hm : t.mkConst.mkConst = t.mkConst := by
      have ha := h.arr
      cases t with
      | arr t n => cases n <;> simp [is_array] at ha
      | _ => rfl
    simp [callable, bind, hm, h7.symm]

/-- a class like `unique_ptr<int>` -/
example : ByValue (.base false false (.cls 0)) := ⟨rfl, rfl, rfl, rfl, by decide⟩

/-- Violated: for a parameter `T&&` the target gets an lvalue, so one that takes `T&&` cannot be called. -/
theorem C126_violated_rvalue {t : Ty} (h : Argument ⟨t, .lvalue⟩) (ho : isFn t = false) (copy mv : Bool) :
    ∃ x y, functionArg (.rref t) = some x ∧ forward (.rref t) (param (.rref t)) = some y ∧
      callable copy mv (.rref t) x = false ∧ callable copy mv (.rref t) y = true := by
  refine ⟨⟨t, .lvalue⟩, ⟨t, .xvalue⟩, ?_, ?_, ?_, ?_⟩
  · simp [functionArg, param, remove_reference, invoke_lvalue h, bindConst, Ty.mkConst, Ty.mkLref, bind]
  · exact (C125_explicit h ho).1 _ (.inr rfl)
  · simp [callable, bind, function_eq, ho]
  · simp [callable, bind]

/-- `std::vector<int>&&`, say -/
example : Argument ⟨.base false false (.cls 0), .lvalue⟩ ∧ isFn (.base false false (.cls 0)) = false :=
  ⟨⟨rfl, rfl, rfl, by decide⟩, rfl⟩

end Verif.Cxx
