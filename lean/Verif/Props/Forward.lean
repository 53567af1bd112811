import Verif.Model.Forward
import Verif.Props.CxxType

/-! Property C125: perfect forwarding. -/

set_option backward.isDefEq.respectTransparency false

namespace Verif.Cxx

/-- An argument that a function can be called with: there are references to its type, and expressions of
function type are lvalues. -/
structure Argument (e : Expr) : Prop where
  object : is_reference e.ty = false
  some : e.ty.void = false
  plain : e.ty.abominable = false
  fn : isFn e.ty = true → e.cat = .lvalue

theorem function_eq (t : Ty) : t.function = isFn t := by cases t <;> rfl

theorem mkLref_of {t : Ty} (h1 : is_reference t = false) (h2 : t.void = false) (h3 : t.abominable = false) :
    t.mkLref = some (.lref t) := by
  cases t <;> simp_all [Ty.mkLref, is_reference]

theorem mkRref_of {t : Ty} (h1 : is_reference t = false) (h2 : t.void = false) (h3 : t.abominable = false) :
    t.mkRref = some (.rref t) := by
  cases t <;> simp_all [Ty.mkRref, is_reference]

theorem mkRref_lref (t : Ty) : (Ty.lref t).mkRref = some (.lref t) := rfl

theorem mkRref_rref (t : Ty) : (Ty.rref t).mkRref = some (.rref t) := rfl

theorem remove_reference_of {t : Ty} (h1 : is_reference t = false) : remove_reference t = t := by
  cases t <;> simp_all [remove_reference, is_reference]

theorem is_lvalue_of {t : Ty} (h1 : is_reference t = false) : is_lvalue_reference t = false := by
  cases t <;> simp_all [is_lvalue_reference, is_reference]

/-- `forward<T&>` of an lvalue is that lvalue. -/
theorem forward_lref {t : Ty} (h1 : is_reference t = false) (h2 : t.void = false) (h3 : t.abominable = false) :
    forward (.lref t) ⟨t, .lvalue⟩ = some ⟨t, .lvalue⟩ := by
  simp [forward, remove_reference, mkLref_of h1 h2 h3, bind, Ty.mkRref, castReturn, castRef, result]

/-- A cast to an rvalue reference to an object makes an xvalue. -/
theorem castReturn_rref {t : Ty} (h : isFn t = false) (c : Cat) :
    castReturn (.rref t) ⟨t, c⟩ = some ⟨t, .xvalue⟩ := by
  simp [castReturn, castRef, result, bind, function_eq, h]

theorem castReturn_fn {t : Ty} (h : isFn t = true) (c : Cat) :
    castReturn (.rref t) ⟨t, c⟩ = some ⟨t, .lvalue⟩ := by
  simp [castReturn, castRef, result, bind, function_eq, h]

/-- `forward<T>` for an object type makes an xvalue, of lvalues and of rvalues. -/
theorem forward_obj {t : Ty} (h1 : is_reference t = false) (h2 : t.void = false) (h3 : t.abominable = false)
    (h : isFn t = false) (c : Cat) : forward t ⟨t, c⟩ = some ⟨t, .xvalue⟩ := by
  rw [forward, remove_reference_of h1, mkLref_of h1 h2 h3]
  cases c <;> simp [bind, mkRref_of h1 h2 h3, is_lvalue_of h1, castReturn_rref h]

/-- The parameter of a forwarding function, whatever it is called with, is an lvalue of the type of the
argument, and its type is a reference that tells lvalues from rvalues. -/
theorem deduce_bind {e : Expr} (ha : Argument e) :
    (e.cat = .lvalue ∧ deduce e = some (.lref e.ty) ∨ e.cat ≠ .lvalue ∧ isFn e.ty = false ∧ deduce e = some e.ty) ∧
    ∃ t p, deduce e = some t ∧ t.mkRref = some p ∧ bind p e = some ⟨e.ty, .lvalue⟩ := by
  obtain ⟨t, c⟩ := e
  obtain ⟨h1, h2, h3, h4⟩ := ha
  simp only at h1 h2 h3 h4
  have hf : c ≠ .lvalue → isFn t = false := by
    intro hc
    cases h : isFn t
    · rfl
    · exact absurd (h4 h) hc
  cases c
  · exact ⟨.inl ⟨rfl, mkLref_of h1 h2 h3⟩, _, _, mkLref_of h1 h2 h3, rfl, by simp [bind]⟩
  · exact ⟨.inr ⟨by simp, hf (by simp), rfl⟩, _, _, rfl, mkRref_of h1 h2 h3, by simp [bind]⟩
  · exact ⟨.inr ⟨by simp, hf (by simp), rfl⟩, _, _, rfl, mkRref_of h1 h2 h3, by simp [bind]⟩

/-- `move` of any argument of object type. -/
theorem move_obj {e : Expr} (ha : Argument e) (h : isFn e.ty = false) : move e = some ⟨e.ty, .xvalue⟩ := by
  obtain ⟨hd, t, p, e1, e2, e3⟩ := deduce_bind ha
  have hr : remove_reference t = e.ty := by
    rcases hd with ⟨_, hd⟩ | ⟨_, _, hd⟩
    · rw [e1] at hd; injection hd with hd; rw [hd]; rfl
    · rw [e1] at hd; injection hd with hd; rw [hd, remove_reference_of ha.object]
  simp [move, e1, e2, e3, hr, mkRref_of ha.object ha.some ha.plain, castReturn_rref h]

theorem pass_forward {e : Expr} (ha : Argument e) :
    pass .forward e = some ⟨e.ty, if e.cat = .lvalue then .lvalue else .xvalue⟩ := by
  obtain ⟨hd, t, p, e1, e2, e3⟩ := deduce_bind ha
  simp only [pass, e1, e2, e3, Option.bind_eq_bind, Option.bind_some]
  rcases hd with ⟨hc, hd⟩ | ⟨hc, hf, hd⟩
  · rw [e1] at hd; injection hd with hd
    rw [hd, if_pos hc, forward_lref ha.object ha.some ha.plain]
  · rw [e1] at hd; injection hd with hd
    rw [hd, if_neg hc, forward_obj ha.object ha.some ha.plain hf]

theorem pass_name {e : Expr} (ha : Argument e) : pass .name e = some ⟨e.ty, .lvalue⟩ := by
  obtain ⟨_, t, p, e1, e2, e3⟩ := deduce_bind ha
  simp [pass, e1, e2, e3]

theorem lvalue_argument {e : Expr} (ha : Argument e) : Argument ⟨e.ty, .lvalue⟩ :=
  ⟨ha.object, ha.some, ha.plain, fun _ => rfl⟩

theorem pass_move {e : Expr} (ha : Argument e) (h : isFn e.ty = false) :
    pass .move e = some ⟨e.ty, .xvalue⟩ := by
  obtain ⟨_, t, p, e1, e2, e3⟩ := deduce_bind ha
  simp [pass, e1, e2, e3, move_obj (lvalue_argument ha) h]

/-- Through any number of functions that hand on their parameter with `forward`, the innermost gets the argument
with its type, qualifiers included, as an lvalue if it was one and as an rvalue if it was one. -/
theorem C125_forward {e : Expr} (ha : Argument e) (n : Nat) :
    ∃ c, passAll (List.replicate n .forward) e = some ⟨e.ty, c⟩ ∧ (c = .lvalue ↔ e.cat = .lvalue) := by
  induction n generalizing e with
  | zero => exact ⟨e.cat, rfl, Iff.rfl⟩
  | succ n ih =>
    obtain ⟨t, k⟩ := e
    have hp := pass_forward ha
    rw [List.replicate_succ, passAll, hp]
    by_cases hk : k = .lvalue
    · subst hk
      exact ih ha
    · have ha' : Argument ⟨t, .xvalue⟩ := ⟨ha.object, ha.some, ha.plain, fun h => absurd (ha.fn h) hk⟩
      obtain ⟨c, h1, h2⟩ := ih ha'
      refine ⟨c, ?_, ?_⟩
      · show passAll _ (⟨t, if k = .lvalue then .lvalue else .xvalue⟩ : Expr) = _
        rw [if_neg hk]; exact h1
      · rw [h2]; simp [hk]

/-- a `const` lvalue, an rvalue `int`, and an lvalue array, through three functions -/
example : Argument ⟨.base true false (.cls 0), .lvalue⟩ ∧ Argument ⟨.base false false .int, .prvalue⟩ ∧
    Argument ⟨.arr (.base false false .char) (some 4), .lvalue⟩ ∧
    passAll [.forward, .forward, .forward] ⟨.base true false (.cls 0), .lvalue⟩ =
      some ⟨.base true false (.cls 0), .lvalue⟩ ∧
    passAll [.forward, .forward, .forward] ⟨.base false false .int, .prvalue⟩ =
      some ⟨.base false false .int, .xvalue⟩ := by
  refine ⟨⟨rfl, rfl, rfl, by decide⟩, ⟨rfl, rfl, rfl, by decide⟩, ⟨rfl, rfl, rfl, by decide⟩, by decide, by decide⟩

theorem replicate_forward (n : Nat) {t : Ty} {c : Cat} (hc : c = .lvalue ∨ c = .xvalue) (ha : Argument ⟨t, c⟩) :
    passAll (List.replicate n .forward) ⟨t, c⟩ = some ⟨t, c⟩ := by
  induction n with
  | zero => rfl
  | succ n ih =>
    rw [List.replicate_succ, passAll, pass_forward ha]
    rcases hc with rfl | rfl <;> exact ih

theorem route_forward (f : Api) : ∃ n, 0 < n ∧ route f = List.replicate n .forward := by
  cases f
  all_goals first
    | exact ⟨1, by decide, rfl⟩
    | exact ⟨2, by decide, rfl⟩
    | exact ⟨3, by decide, rfl⟩
    | exact ⟨4, by decide, rfl⟩

/-- The functions of the library that make an object from their caller's arguments give the constructor each
argument as it was given to them: lvalues are not moved from, rvalues are not copied, `const` stays. A temporary
has then an identity: it arrives as an xvalue. -/
theorem C125_library {e : Expr} (ha : Argument e) (f : Api) :
    passAll (route f) e = some ⟨e.ty, if e.cat = .lvalue then .lvalue else .xvalue⟩ := by
  obtain ⟨n, hn, hr⟩ := route_forward f
  obtain ⟨m, rfl⟩ : ∃ m, n = m + 1 := ⟨n - 1, by omega⟩
  obtain ⟨t, k⟩ := e
  rw [hr, List.replicate_succ, passAll, pass_forward ha]
  by_cases hk : k = .lvalue
  · subst hk
    exact replicate_forward m (.inl rfl) ha
  · simp only [if_neg hk]
    exact replicate_forward m (.inr rfl) ⟨ha.object, ha.some, ha.plain, fun h => absurd (ha.fn h) hk⟩

/-- a `const` lvalue put into a set, and a temporary put into a stack -/
example : Argument ⟨.base true false (.cls 0), .lvalue⟩ ∧
    passAll (route .setEmplace) ⟨.base true false (.cls 0), .lvalue⟩ = some ⟨.base true false (.cls 0), .lvalue⟩ ∧
    passAll (route .stackEmplace) ⟨.base false false (.cls 1), .prvalue⟩ =
      some ⟨.base false false (.cls 1), .xvalue⟩ := by
  refine ⟨⟨rfl, rfl, rfl, by decide⟩, by decide, by decide⟩

/-- In general what arrives is settled by the last function that does not forward: a plain name makes an
lvalue, also of an argument that was moved before, and `move` an rvalue, also of one that was an lvalue. No chain
of such calls on an object is rejected, and none changes the type. -/
theorem C125_chain {e : Expr} (ha : Argument e) (ho : isFn e.ty = false) (hs : List How) (n : Nat) :
    passAll (hs ++ .name :: List.replicate n .forward) e = some ⟨e.ty, .lvalue⟩ ∧
    passAll (hs ++ .move :: List.replicate n .forward) e = some ⟨e.ty, .xvalue⟩ := by
  have hfw : ∀ c, c = Cat.lvalue ∨ c = .xvalue →
      passAll (List.replicate n .forward) ⟨e.ty, c⟩ = some ⟨e.ty, c⟩ := fun c hc =>
    replicate_forward n hc ⟨ha.object, ha.some, ha.plain, fun h => by rw [ho] at h; cases h⟩
  induction hs generalizing e with
  | nil =>
    constructor
    · rw [List.nil_append, passAll, pass_name ha]; exact hfw _ (.inl rfl)
    · rw [List.nil_append, passAll, pass_move ha ho]; exact hfw _ (.inr rfl)
  | cons h hs ih =>
    have ha' : ∀ c, Argument ⟨e.ty, c⟩ := fun c =>
      ⟨ha.object, ha.some, ha.plain, fun h => by rw [ho] at h; cases h⟩
    rw [List.cons_append, List.cons_append, passAll, passAll]
    cases h
    · rw [pass_forward ha]; exact ih (ha' _) ho hfw
    · rw [pass_move ha ho]; exact ih (ha' _) ho hfw
    · rw [pass_name ha]; exact ih (ha' _) ho hfw

/-- a `const` class object moved on, named, and moved again; the `const` stays -/
example : Argument ⟨.base true false (.cls 0), .prvalue⟩ ∧ isFn (.base true false (.cls 0)) = false ∧
    passAll [.move, .name, .forward] ⟨.base true false (.cls 0), .prvalue⟩ =
      some ⟨.base true false (.cls 0), .lvalue⟩ ∧
    passAll [.name, .move, .forward] ⟨.base true false (.cls 0), .prvalue⟩ =
      some ⟨.base true false (.cls 0), .xvalue⟩ := by
  refine ⟨⟨rfl, rfl, rfl, by decide⟩, by decide, by decide, by decide⟩

/-- `forward` with an explicit `T`: an lvalue results exactly for `T&`, and an rvalue cannot be forwarded as an
lvalue: that program is rejected. -/
theorem C125_explicit {e : Expr} (ha : Argument e) (ho : isFn e.ty = false) :
    (∀ t, t = e.ty ∨ t = .rref e.ty → forward t e = some ⟨e.ty, .xvalue⟩) ∧
    (e.cat = .lvalue → forward (.lref e.ty) e = some ⟨e.ty, .lvalue⟩) ∧
    (e.cat ≠ .lvalue → forward (.lref e.ty) e = none) := by
  obtain ⟨t, c⟩ := e
  obtain ⟨h1, h2, h3, -⟩ := ha
  simp only at h1 h2 h3 ho
  refine ⟨?_, ?_, ?_⟩
  · rintro u (rfl | rfl)
    · exact forward_obj h1 h2 h3 ho c
    · simp only [forward, remove_reference, mkLref_of h1 h2 h3]
      cases c <;> simp [bind, mkRref_of h1 h2 h3, mkRref_rref, is_lvalue_reference, castReturn_rref ho]
  · intro hc
    simp only at hc
    subst hc
    exact forward_lref h1 h2 h3
  · intro hc
    simp only at hc
    simp [forward, remove_reference, mkLref_of h1 h2 h3, mkRref_of h1 h2 h3, bind, hc, is_lvalue_reference]

/-- an rvalue `int` -/
example : Argument ⟨.base false false .int, .prvalue⟩ ∧ isFn (.base false false .int) = false ∧
    forward (.lref (.base false false .int)) ⟨.base false false .int, .prvalue⟩ = none ∧
    forward (.rref (.base false false .int)) ⟨.base false false .int, .prvalue⟩ =
      some ⟨.base false false .int, .xvalue⟩ := by
  refine ⟨⟨rfl, rfl, rfl, by decide⟩, by decide, by decide, by decide⟩

/-- A function stays an lvalue, whether it is forwarded, moved or named. -/
theorem C125_function {e : Expr} (ha : Argument e) (hf : isFn e.ty = true) (hs : List How) :
    passAll hs e = some e := by
  obtain ⟨t, c⟩ := e
  have hc : c = .lvalue := ha.fn hf
  subst hc
  have hm : move ⟨t, .lvalue⟩ = some ⟨t, .lvalue⟩ := by
    have e1 := mkLref_of ha.object ha.some ha.plain
    have e2 := mkRref_of ha.object ha.some ha.plain
    simp only at e1 e2 hf
    simp [move, deduce, e1, mkRref_lref, bind, remove_reference, e2, castReturn_fn hf]
  induction hs with
  | nil => rfl
  | cons h hs ih =>
    rw [passAll]
    cases h
    · rw [pass_forward ha]; exact ih
    · obtain ⟨_, u, p, e1, e2, e3⟩ := deduce_bind ha
      have : pass .move ⟨t, .lvalue⟩ = some ⟨t, .lvalue⟩ := by simp [pass, e1, e2, e3, hm]
      rw [this]; exact ih
    · rw [pass_name ha]; exact ih

/-- `void f()` -/
example : Argument ⟨.fn (.base false false .void) 0 false false .none false, .lvalue⟩ ∧
    isFn (.fn (.base false false .void) 0 false false .none false) = true := by
  refine ⟨⟨rfl, rfl, rfl, by decide⟩, by decide⟩

/-- `declval<T>()` stands for an argument of every kind: an lvalue for `T&`, an rvalue for `T` and `T&&`. -/
theorem C125_declval {t : Ty} (h1 : is_reference t = false) (h2 : t.void = false) (h3 : t.abominable = false)
    (ho : isFn t = false) :
    declval (.lref t) = some ⟨t, .lvalue⟩ ∧ declval (.rref t) = some ⟨t, .xvalue⟩ ∧
    declval t = some ⟨t, .xvalue⟩ := by
  have hr : is_rvalue_reference t = false := by cases t <;> simp_all [is_rvalue_reference, is_reference]
  refine ⟨?_, ?_, ?_⟩
  · simp [declval, add_rvalue_reference, is_rvalue_reference, Ty.mkRref, result]
  · simp [declval, add_rvalue_reference, is_rvalue_reference, result, function_eq, ho]
  · simp [declval, add_rvalue_reference, hr, mkRref_of h1 h2 h3, result, function_eq, ho]

/-- `const C` -/
example : is_reference (.base true false (.cls 0)) = false ∧ (Ty.base true false (.cls 0)).void = false ∧
    (Ty.base true false (.cls 0)).abominable = false ∧ isFn (.base true false (.cls 0)) = false ∧
    declval (.base false false .void) = none := by
  decide

end Verif.Cxx
