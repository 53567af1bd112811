import Verif.Model.Invoke
import Verif.Props.CxxType

/-! Property C95: `invoke` calls what the standard's `INVOKE` calls. -/

set_option backward.isDefEq.respectTransparency false

namespace Verif.Cxx

/-- `INVOKE(f, a, ...)` of the C++17 standard ([func.require]): members of an object given directly (with its value category)
or by a pointer, data members (one argument), otherwise `f(a, ...)`, `f` with its value category. -/
def std (cs : Classes) (fn : Ty) (args : List Ty) : Option Effect :=
  match remove_reference fn, args with
  | .mem _ _ _ _, [] => none
  | .mem _ _ f k, obj :: rest =>
    match remove_reference obj with
    | .base c v (.cls k') =>
      if k ≠ k' then none
      else if isFn f then (if callableOn f c v (is_lvalue_reference obj) then some (.member k false) else none)
      else if rest = [] then some (.data k false) else none
    | .ptr _ _ (.base c v (.cls k')) =>
      if k ≠ k' then none
      else if isFn f then (if callableOn f c v true then some (.member k true) else none)
      else if rest = [] then some (.data k true) else none
    | _ => none
  | f, _ => callExpr cs f (is_lvalue_reference fn)

/-- The callee is a function, a pointer or reference to one, or an lvalue of a class. -/
def plain (fn : Ty) : Bool :=
  match remove_reference fn with
  | .fn .. => true
  | .ptr _ _ (.fn ..) => true
  | .base _ _ (.cls _) => is_lvalue_reference fn
  | _ => false
theorem decay_ptr (c v : Bool) (t : Ty) : decay (.ptr c v t) = some (.ptr false false t) := by
  simp [decay, remove_reference, decay_selector, is_array, is_function, remove_cv_ptr]

theorem decay_base (c v : Bool) (b : Base) : decay (.base c v b) = some (.base false false b) := by
  simp [decay, remove_reference, decay_selector, is_array, is_function, remove_cv_base]

theorem is_pointer_ptr (t : Ty) (c v : Bool) : is_pointer (.ptr c v t) = true := by
  simp [is_pointer, remove_cv_ptr, is_pointer_helper]

theorem is_pointer_base (b : Base) (c v : Bool) : is_pointer (.base c v b) = false := by
  simp [is_pointer, remove_cv_base, is_pointer_helper]

theorem is_mfp_mem (c v : Bool) (t : Ty) (k : Nat) : is_member_function_pointer (.mem c v t k) = (isFn t && !isNoexcept t) := by
  simp [is_member_function_pointer, remove_cv_mem, is_member_function_pointer_helper, is_function_eq]

theorem is_mop_mem (c v : Bool) (t : Ty) (k : Nat) : is_member_object_pointer (.mem c v t k) = !(isFn t && !isNoexcept t) := by
  simp [is_member_object_pointer, remove_cv_mem, is_member_object_pointer_helper, is_function_eq]

/-- Only pointers to members are pointers to member functions. -/
theorem is_mfp_inv {t : Ty} (h : is_member_function_pointer t = true) : ∃ c v u k, t = .mem c v u k := by
  cases t with
  | mem c v u k => exact ⟨_, _, _, _, rfl⟩
  | base c v b => rw [is_member_function_pointer, remove_cv_base] at h; cases h
  | ptr c v b => rw [is_member_function_pointer, remove_cv_ptr] at h; cases h
  | arr c v => rw [is_member_function_pointer, remove_cv_arr] at h; cases h
  | _ => cases h

theorem is_mop_inv {t : Ty} (h : is_member_object_pointer t = true) : ∃ c v u k, t = .mem c v u k := by
  cases t with
  | mem c v u k => exact ⟨_, _, _, _, rfl⟩
  | base c v b => rw [is_member_object_pointer, remove_cv_base] at h; cases h
  | ptr c v b => rw [is_member_object_pointer, remove_cv_ptr] at h; cases h
  | arr c v => rw [is_member_object_pointer, remove_cv_arr] at h; cases h
  | _ => cases h

theorem invoke_eq {cs : Classes} {fn : Ty} {args : List Ty} (h : is_member_function_pointer fn = false)
    (hd : ∀ a, args.head? = some a → is_member_object_pointer a = false) : invoke cs fn args = invoke_function cs fn := by
  cases args with
  | nil => rfl
  | cons a l => rw [invoke, invoke_helper, h, hd a rfl]

theorem callExpr_mem (cs : Classes) (c v : Bool) (t : Ty) (k : Nat) (l : Bool) : callExpr cs (.mem c v t k) l = none := rfl

/-- A pointer to a member is not called like a function. -/
theorem invoke_function_mem (cs : Classes) (fn : Ty) (c v : Bool) (t : Ty) (k : Nat) (h : remove_reference fn = .mem c v t k) :
    invoke_function cs fn = none := by
  have hd : (decay fn).any is_pointer = false := by
    rw [decay, h]
    simp [decay_selector, is_array, is_function, remove_cv_mem, is_pointer, is_pointer_helper]
  have : (if is_reference fn then remove_reference fn else add_const fn) = .mem c v t k ∨
      (if is_reference fn then remove_reference fn else add_const fn) = .mem true v t k := by
    cases fn with
    | lref u => left; rw [← h]; rfl
    | rref u => left; rw [← h]; rfl
    | mem c v u k => cases h; right; rfl
    | _ => cases h
  rw [invoke_function]
  simp only [hd]
  rcases this with e | e <;> rw [e] <;> rfl

/-- C95, functions and function objects: functions, pointers to functions (`noexcept` or not) and lvalues of classes are called as
by the standard's INVOKE, whatever the arguments, if the first one is not an rvalue pointer to a data member. Missing: rvalues
of classes (`C95_rvalue_violated`), that argument (`C95_argument_violated`). -/
theorem C95_function_partial (cs : Classes) (fn : Ty) (args : List Ty) (hw : WF fn = true) (hf : plain fn = true) (hr : is_rvalue_reference fn = false)
    (ha : isFn fn = false) (hd : ∀ a, args.head? = some a → is_member_object_pointer a = false) : invoke cs fn args = std cs fn args := by
  have hm : is_member_function_pointer fn = false := by
    cases h : is_member_function_pointer fn with
    | false => rfl
    | true => obtain ⟨c, v, u, k, rfl⟩ := is_mfp_inv h; cases hf
  rw [invoke_eq hm hd]
  cases fn with
  | rref _ => cases hr
  | fn _ _ _ _ _ _ => cases ha
  | arr _ _ => cases hf
  | mem _ _ _ _ => cases hf
  | base c v b => cases b <;> cases hf
  | ptr c v t =>
    cases t with
    | fn r p c' v' q ne =>
      rw [invoke_function, decay_ptr]
      simp only [Option.any, is_pointer_ptr]
      rfl
    | _ => cases hf
  | lref t =>
    simp only [WF, Bool.and_eq_true, Bool.not_eq_true'] at hw
    cases t with
    | lref _ => cases hw.1.1.2
    | rref _ => cases hw.1.1.2
    | arr _ _ => cases hf
    | mem _ _ _ _ => cases hf
    | fn r p c v q ne =>
      rw [invoke_function]
      show (if _ then some Effect.function else some Effect.function) = _
      split <;> rfl
    | ptr c v t =>
      cases t with
      | fn r p c' v' q ne =>
        have : decay (.lref (.ptr c v (.fn r p c' v' q ne))) = decay (.ptr c v (.fn r p c' v' q ne)) := rfl
        rw [invoke_function, this, decay_ptr]
        simp only [Option.any, is_pointer_ptr]
        rfl
      | _ => cases hf
    | base c v b =>
      cases b with
      | cls k =>
        have : decay (.lref (.base c v (.cls k))) = decay (.base c v (.cls k)) := rfl
        rw [invoke_function, this, decay_base]
        simp only [Option.any, is_pointer_base]
        rfl
      | _ => cases hf

/-- A `noexcept` function called by name with a class object, and a mutable functor. -/
example (cs : Classes) : std cs (.lref (.fn (.base false false .int) 1 false false .none true)) [.base false false (.cls 3)] = some .function ∧
    plain (.lref (.fn (.base false false .int) 1 false false .none true)) = true ∧ plain (.lref (.base false false (.cls 1))) = true := ⟨rfl, rfl, rfl⟩

/-- `invoke_member_function` for a pointer to a member and an object or pointer. -/
def memberCall (f : Ty) (k : Nat) (o : Ty) : Option Effect :=
  match o with
  | .base c v (.cls k') => if k = k' && callableOn f c v true then some (.member k false) else none
  | .ptr _ _ (.base c v (.cls k')) => if k = k' && callableOn f c v true then some (.member k true) else none
  | _ => none

theorem member_mem (c v : Bool) (f : Ty) (k : Nat) (obj : Ty) :
    invoke_member_function (.mem c v f k) obj = memberCall f k (remove_reference obj) := by
  unfold invoke_member_function memberCall
  generalize remove_reference obj = o
  cases o with
  | base c' v' b => cases b <;> rfl
  | ptr c' v' t =>
    cases t with
    | base c2 v2 b => cases b <;> rfl
    | _ => rfl
  | _ => rfl

theorem std_mem (cs : Classes) (fn : Ty) (c v : Bool) (f : Ty) (k : Nat) (obj : Ty) (rest : List Ty) (h : remove_reference fn = .mem c v f k) :
    std cs fn (obj :: rest) = (match remove_reference obj with
    | .base c v (.cls k') =>
      if k ≠ k' then none
      else if isFn f then (if callableOn f c v (is_lvalue_reference obj) then some (.member k false) else none)
      else if rest = [] then some (.data k false) else none
    | .ptr _ _ (.base c v (.cls k')) =>
      if k ≠ k' then none
      else if isFn f then (if callableOn f c v true then some (.member k true) else none)
      else if rest = [] then some (.data k true) else none
    | _ => none) := by
  unfold std
  rw [h]

/-- C95, member functions: an rvalue pointer to a member function (not `noexcept`) is called on the object or through the pointer
as by the standard's INVOKE, if the object is an lvalue or the member function has no `&` or `&&`. Missing: lvalue
pointers (`C95_lvalue_violated`), `noexcept`, data members (`C95_data_violated`). -/
theorem C95_member_partial (cs : Classes) (c v : Bool) (f : Ty) (k : Nat) (args : List Ty) (hf : isFn f = true) (hn : isNoexcept f = false)
    (hq : ∀ a, args.head? = some a → is_class (remove_reference a) = true → is_lvalue_reference a = false → ∃ r p fc fv, f = .fn r p fc fv .none false) :
    invoke cs (.mem c v f k) args = std cs (.mem c v f k) args := by
  cases args with
  | nil => exact invoke_function_mem cs _ c v f k rfl
  | cons obj rest =>
    have hm : is_member_function_pointer (.mem c v f k) = true := by rw [is_mfp_mem, hf, hn]; rfl
    have e : invoke cs (.mem c v f k) (obj :: rest) = invoke_member_function (.mem c v f k) obj := by
      rw [invoke, invoke_helper, hm]
    rw [e]
    have ha : is_class (remove_reference obj) = true → ∀ c v, callableOn f c v (is_lvalue_reference obj) = callableOn f c v true := by
      intro h c v
      cases hl : is_lvalue_reference obj with
      | true => rfl
      | false => obtain ⟨r, p, fc, fv, rfl⟩ := hq obj rfl h hl; rfl
    revert ha
    rw [std_mem cs (.mem c v f k) c v f k obj rest rfl, hf]
    rw [member_mem]
    generalize remove_reference obj = o
    intro ha
    cases o with
    | base c' v' b =>
      cases b with
      | cls k' =>
        simp only [ha rfl, memberCall]
        by_cases hk : k = k' <;> simp [hk]
      | _ => rfl
    | ptr c' v' t =>
      cases t with
      | base c2 v2 b =>
        cases b with
        | cls k' => by_cases hk : k = k' <;> simp [hk, memberCall]
        | _ => rfl
      | _ => rfl
    | _ => rfl

/-- `invoke(&C::f, &c, ...)` with a const member function and a pointer to a const object. -/
example (cs : Classes) : isFn (.fn (.base false false .int) 1 true false .none false) = true ∧
    invoke cs (.mem false false (.fn (.base false false .int) 1 true false .none false) 4) [.ptr false false (.base true false (.cls 4)), .base false false .int] = some (.member 4 true) :=
  ⟨rfl, rfl⟩

theorem callableOn_fn {f : Ty} {c v l : Bool} (h : callableOn f c v l = true) : isFn f = true := by
  cases f with
  | fn _ _ _ _ _ _ => rfl
  | _ => cases h

theorem member_inv {fn obj : Ty} {e : Effect} (h : invoke_member_function fn obj = some e) :
    ∃ c v f k, remove_reference fn = .mem c v f k ∧ memberCall f k (remove_reference obj) = some e := by
  cases hf : remove_reference fn with
  | mem c v f k =>
    have : invoke_member_function fn obj = invoke_member_function (.mem c v f k) obj := by
      unfold invoke_member_function; rw [hf]; rfl
    rw [this, member_mem] at h
    exact ⟨c, v, f, k, rfl, h⟩
  | _ => unfold invoke_member_function at h; rw [hf] at h; cases h

/-- C95, safety: whatever the callee and the arguments, if a call of `invoke` compiles then the standard's INVOKE does the same
or does not compile at all (as for pointers to function objects). -/
theorem C95_sound (cs : Classes) (fn : Ty) (args : List Ty) (e : Effect) (h : invoke cs fn args = some e) :
    std cs fn args = some e ∨ std cs fn args = none := by
  have hF : ∀ args, invoke_function cs fn = some e → std cs fn args = some e ∨ std cs fn args = none := by
    intro args h
    have hm : ∀ c v f k, remove_reference fn ≠ .mem c v f k := by
      intro c v f k he
      rw [invoke_function_mem cs fn c v f k he] at h
      cases h
    have hs : std cs fn args = callExpr cs (remove_reference fn) (is_lvalue_reference fn) := by
      unfold std
      cases hu : remove_reference fn with
      | mem _ _ _ _ => exact absurd hu (hm _ _ _ _)
      | _ => rfl
    rw [hs]
    have hL : ∀ u : Ty, remove_reference fn = u → (is_reference fn = true ∨ u = fn) := by
      intro u hu
      cases fn with
      | lref _ => exact .inl rfl
      | rref _ => exact .inl rfl
      | _ => exact .inr hu.symm
    cases hu : remove_reference fn with
    | mem _ _ _ _ => exact absurd hu (hm _ _ _ _)
    | lref _ => exact .inr rfl
    | rref _ => exact .inr rfl
    | arr _ _ => exact .inr rfl
    | fn r p c v q ne =>
      left
      rw [invoke_function, hu] at h
      have : (if is_reference fn then Ty.fn r p c v q ne else add_const fn) = Ty.fn r p c v q ne := by
        rcases hL _ hu with e | e
        · rw [e]; rfl
        · rw [← e]; rfl
      rw [this] at h
      dsimp only at h
      split at h <;> exact h
    | ptr c v t =>
      have : ∃ c', (if is_reference fn then Ty.ptr c v t else add_const fn) = Ty.ptr c' v t := by
        rcases hL _ hu with e | e
        · exact ⟨c, by rw [e]; rfl⟩
        · exact ⟨true, by rw [← e]; rfl⟩
      obtain ⟨c', e'⟩ := this
      rw [invoke_function, hu, e'] at h
      dsimp only at h
      cases t with
      | fn r p c2 v2 q ne =>
        left
        split at h <;> exact h
      | _ => exact .inr rfl
    | base c v b =>
      cases b with
      | cls k =>
        have : ∃ c', (if is_reference fn then Ty.base c v (.cls k) else add_const fn) = Ty.base c' v (.cls k) := by
          rcases hL _ hu with e | e
          · exact ⟨c, by rw [e]; rfl⟩
          · exact ⟨true, by rw [← e]; rfl⟩
        obtain ⟨c', e'⟩ := this
        rw [invoke_function, hu, e'] at h
        dsimp only at h
        split at h
        · cases h
        · simp only [callExpr] at h ⊢
          cases hk : cs k with
          | none => exact .inr rfl
          | some f =>
            rw [hk] at h
            dsimp only at h ⊢
            split at h
            · rw [← h]
              split
              · exact .inl rfl
              · exact .inr rfl
            · cases h
      | _ => exact .inr rfl
  have hM : ∀ obj rest, invoke_member_function fn obj = some e → std cs fn (obj :: rest) = some e ∨ std cs fn (obj :: rest) = none := by
    intro obj rest h
    obtain ⟨c, v, f, k, h1, h2⟩ := member_inv h
    rw [std_mem cs fn c v f k obj rest h1]
    cases ho : remove_reference obj with
    | base c' v' b =>
      cases b with
      | cls k' =>
        rw [ho] at h2
        simp only [memberCall, Bool.and_eq_true, decide_eq_true_eq] at h2
        split at h2
        · rename_i hk
          simp only [callableOn_fn hk.2, hk.1]
          rw [hk.1] at h2
          split
          · exact absurd rfl ‹_›
          · simp only [if_true]
            split
            · exact .inl h2
            · exact .inr rfl
        · cases h2
      | _ => exact .inr rfl
    | ptr c' v' t =>
      cases t with
      | base c2 v2 b =>
        cases b with
        | cls k' =>
          rw [ho] at h2
          simp only [memberCall, Bool.and_eq_true, decide_eq_true_eq] at h2
          split at h2
          · rename_i hk
            simp only [callableOn_fn hk.2, hk.1]
            rw [hk.1] at h2
            split
            · exact absurd rfl ‹_›
            · simp only [if_true]
              split
              · exact .inl h2
              · exact .inr rfl
          · cases h2
        | _ => exact .inr rfl
      | _ => exact .inr rfl
    | _ => exact .inr rfl
  cases args with
  | nil => exact hF [] h
  | cons obj rest =>
    rw [invoke, invoke_helper] at h
    split at h
    · exact hF _ h
    · exact hM _ _ h

/-- A lambda called as lvalue; the pointer to an object with `operator()`, which the standard rejects. -/
example : invoke (fun _ => some (.fn (.base false false .int) 0 true false .none false)) (.lref (.base false false (.cls 0))) [] = some (.functor 0) ∧
    invoke (fun _ => some (.fn (.base false false .int) 0 true false .none false)) (.ptr false false (.base false false (.cls 0))) [] = some (.functor 0) ∧
    std (fun _ => some (.fn (.base false false .int) 0 true false .none false)) (.ptr false false (.base false false (.cls 0))) [] = none := by decide

/-- C95 is violated: no pointer to a data member can be invoked. -/
theorem C95_data_violated (cs : Classes) (fn : Ty) (c v : Bool) (t : Ty) (k : Nat) (args : List Ty) (h : remove_reference fn = .mem c v t k) (ht : isFn t = false) :
    invoke cs fn args = none := by
  cases hi : invoke cs fn args with
  | none => rfl
  | some e =>
    cases args with
    | nil => rw [← hi]; exact invoke_function_mem cs fn c v t k h
    | cons obj rest =>
      rw [invoke, invoke_helper] at hi
      split at hi
      · rw [invoke_function_mem cs fn c v t k h] at hi; cases hi
      · obtain ⟨c1, v1, f, k1, h1, h2⟩ := member_inv hi
        rw [h] at h1
        cases h1
        unfold memberCall at h2
        have hf : ∀ c v, callableOn t c v true = false := by
          intro c v
          cases hA : callableOn t c v true with
          | false => rfl
          | true => rw [callableOn_fn hA] at ht; cases ht
        split at h2 <;> simp [hf] at h2

/-- `invoke(&C::x, c)`. -/
example : std (fun _ => none) (.mem false false (.base false false .int) 1) [.lref (.base false false (.cls 1))] = some (.data 1 false) := by decide

/-- C95 is violated: a pointer to a member function held in a variable cannot be invoked, nor one to a `noexcept` function,
whatever the arguments. -/
theorem C95_lvalue_violated (cs : Classes) (fn : Ty) (c v : Bool) (t : Ty) (k : Nat) (args : List Ty) (h : remove_reference fn = .mem c v t k)
    (hl : is_reference fn = true ∨ isNoexcept t = true) : invoke cs fn args = none := by
  have hm : is_member_function_pointer fn = false := by
    cases hm : is_member_function_pointer fn with
    | false => rfl
    | true =>
      obtain ⟨c, v, u, k, rfl⟩ := is_mfp_inv hm
      cases h
      rw [is_mfp_mem] at hm
      rcases hl with hl | hl
      · cases hl
      · rw [hl] at hm; simp at hm
  cases args with
  | nil => exact invoke_function_mem cs fn c v t k h
  | cons obj rest =>
    rw [invoke, invoke_helper, hm]
    cases hd : is_member_object_pointer obj with
    | false => exact invoke_function_mem cs fn c v t k h
    | true =>
      obtain ⟨c, v, u, k, rfl⟩ := is_mop_inv hd
      cases hi : invoke_member_function fn (.mem c v u k) with
      | none => rfl
      | some e =>
        obtain ⟨_, _, _, _, _, h2⟩ := member_inv hi
        cases h2

/-- `auto p = &C::f; invoke(p, c)`. -/
example : std (fun _ => none) (.lref (.mem false false (.fn (.base false false .int) 0 false false .none false) 1)) [.lref (.base false false (.cls 1))] = some (.member 1 false) := by decide

/-- C95 is violated: nothing at all can be invoked with an rvalue pointer to a data member as first argument. -/
theorem C95_argument_violated (cs : Classes) (fn : Ty) (c v : Bool) (t : Ty) (k : Nat) (rest : List Ty) (ht : isFn t = false) :
    invoke cs fn (.mem c v t k :: rest) = none := by
  have : is_member_object_pointer (.mem c v t k) = true := by rw [is_mop_mem, ht]; rfl
  rw [invoke, invoke_helper, this]
  have hn : invoke_member_function fn (.mem c v t k) = none := by
    cases hi : invoke_member_function fn (.mem c v t k) with
    | none => rfl
    | some e =>
      obtain ⟨_, _, _, _, _, h2⟩ := member_inv hi
      cases h2
  cases is_member_function_pointer fn <;> exact hn

/-- `invoke(f, &C::x)` for a function `f(int C::*)`. -/
example : std (fun _ => none) (.lref (.fn (.base false false .int) 0 false false .none false)) [.mem false false (.base false false .int) 1] = some .function := by decide

/-- C95 is violated: an rvalue of a class whose `operator()` is not const, such as a mutable lambda, cannot be invoked. -/
theorem C95_rvalue_violated (cs : Classes) (c v : Bool) (k : Nat) (args : List Ty) (r : Ty) (p : Nat) (fv : Bool) (q : RefQ) (ne : Bool)
    (h : cs k = some (.fn r p false fv q ne)) : invoke cs (.base c v (.cls k)) args = none := by
  have h1 : invoke_function cs (.base c v (.cls k)) = none := by
    rw [invoke_function, decay_base]
    simp only [Option.any, is_pointer_base]
    show callExpr cs (.base true v (.cls k)) true = none
    simp [callExpr, h, callableOn]
  cases args with
  | nil => exact h1
  | cons obj rest =>
    have hm : is_member_function_pointer (.base c v (.cls k)) = false := by
      rw [is_member_function_pointer, remove_cv_base]; rfl
    rw [invoke, invoke_helper, hm]
    cases is_member_object_pointer obj with
    | false => exact h1
    | true => rfl

/-- `invoke([n]() mutable { ... })`. -/
example : std (fun _ => some (.fn (.base false false .int) 0 false false .none false)) (.base false false (.cls 0)) [] = some (.functor 0) := by decide

end Verif.Cxx
