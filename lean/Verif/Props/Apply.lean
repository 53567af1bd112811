import Verif.Model.Apply
import Verif.Props.Invoke
import Verif.Props.Traits

/-! Property C114: `apply` calls a function with the elements of a tuple, and `get` gives the element of any tuple expression. -/

set_option backward.isDefEq.respectTransparency false

namespace Verif.Cxx

/-- The expression `get<i>(t)` of the C++ standard ([tuple.elem]): the element, with the constness and the value category of
the tuple (references are followed). As deduced by a forwarding reference. -/
def stdElem (e : TupleExpr) (t : Ty) : Option Ty :=
  match t with
  | .lref u => some (.lref u)
  | .rref u => some (if e.lvalue then .lref u else u)
  | t => if e.lvalue then some (.lref (if e.const then t.mkConst else t)) else some (if e.const then t.mkConst else t)

/-- `std::apply` of the C++17 standard ([tuple.apply]): INVOKE with the callee and the elements, all with their
value categories. -/
def stdApply (cs : Classes) (fn : Ty) (e : TupleExpr) : Option (Effect × List (Nat × Ty)) := do
  let args ← e.types.mapM (stdElem e)
  let eff ← std cs fn args
  return (eff, (List.range e.types.length).zip args)

/-- An element type: an object type or a reference. -/
def elemType (t : Ty) : Bool := !t.void && !isFn t

theorem mkLref_elem {t : Ty} (h : elemType t = true) (c : Bool) :
    (if c then add_const t else t).mkLref = stdElem ⟨[], c, true⟩ t := by
  simp only [elemType, Bool.and_eq_true, Bool.not_eq_true'] at h
  cases t with
  | fn _ _ _ _ _ _ => cases h.2
  | base c' v b =>
    have : b ≠ .void := by rintro rfl; cases h.1
    cases b <;> first | exact absurd rfl this | cases c <;> rfl
  | _ => cases c <;> rfl

theorem stdElem_types (ts us : List Ty) (c l : Bool) : stdElem ⟨ts, c, l⟩ = stdElem ⟨us, c, l⟩ := by
  funext t; cases t <;> rfl

/-- C114, `get` on lvalues: the element itself, const if the tuple is. The same for const rvalues, see
`C114_get_violated`. -/
theorem C114_get_partial (ts : List Ty) (c : Bool) (i : Nat) (hi : i < ts.length) (he : elemType ts[i] = true) :
    getExpr i ⟨ts, c, true⟩ = stdElem ⟨ts, c, true⟩ ts[i] := by
  rw [stdElem_types ts [], ← mkLref_elem he c]
  simp only [getExpr, Props.Traits.C70_nth_type, List.getElem?_eq_getElem hi]
  cases c <;> rfl

/-- `get<1>` of a `const tuple<int, char>`. -/
example : getExpr 1 ⟨[.base false false .int, .base false false .char], true, true⟩ = some (.lref (.base true false .char)) := rfl

/-- C114 is violated: `get` of an rvalue such as `make_tuple(...)` never compiles; `get` of a const rvalue is an lvalue. -/
theorem C114_get_violated (ts : List Ty) (i : Nat) :
    getExpr i ⟨ts, false, false⟩ = none ∧ (∀ t, getExpr i ⟨ts, true, false⟩ = some t → is_lvalue_reference t = true) := by
  have hl : ∀ t u : Ty, t.mkLref = some u → is_lvalue_reference u = true := by
    intro t u h
    cases t <;> simp only [Ty.mkLref] at h <;> first | (cases h; rfl) | (split at h <;> cases h; rfl)
  have hr : ∀ t u : Ty, t.mkRref = some u → refFromImpl u = false := by
    intro t u h
    cases t <;> simp only [Ty.mkRref] at h <;> first | (cases h; rfl) | (split at h <;> cases h; rfl)
  simp only [getExpr, Props.Traits.C70_nth_type]
  cases ts[i]? with
  | none => exact ⟨rfl, by intro t h; cases h⟩
  | some t =>
    refine ⟨?_, fun u h => hl _ u h⟩
    show (t.mkRref.bind fun type => if refFromImpl type then some t else none) = none
    cases hm : t.mkRref with
    | none => rfl
    | some u => show (if refFromImpl u then some t else none) = none; rw [hr t u hm]; rfl

/-- The standard has an expression for it: `get<0>(make_tuple(1))`. -/
example : stdElem ⟨[.base false false .int], false, false⟩ (.base false false .int) = some (.base false false .int) := rfl

theorem mapM_range {α β : Type} (f : α → Option β) (l : List α) :
    (List.range l.length).mapM (fun i => l[i]?.bind f) = l.mapM f := by
  have : ∀ (l pre : List α), (List.range' pre.length l.length).mapM (fun i => (pre ++ l)[i]?.bind f) = l.mapM f := by
    intro l
    induction l with
    | nil => intro pre; rfl
    | cons a l ih =>
      intro pre
      have h := ih (pre ++ [a])
      simp only [List.length_append, List.length_cons, List.length_nil, Nat.zero_add, List.append_assoc, List.singleton_append] at h
      rw [List.length_cons, List.range'_succ, List.mapM_cons, List.mapM_cons, h]
      simp
  have h := this l []
  rw [List.range_eq_range']
  simpa using h

theorem args_eq (ts : List Ty) (c : Bool) (he : ts.all elemType = true) :
    (Traits.makeIndexSequence ts.length).mapM (fun i => getExpr i ⟨ts, c, true⟩) = ts.mapM (stdElem ⟨ts, c, true⟩) := by
  rw [Props.Traits.C70_index_sequence, ← mapM_range (stdElem ⟨ts, c, true⟩) ts]
  congr 1
  funext i
  by_cases hi : i < ts.length
  · rw [C114_get_partial ts c i hi (List.all_eq_true.mp he _ (List.getElem_mem hi)), List.getElem?_eq_getElem hi]; rfl
  · simp only [getExpr, Props.Traits.C70_nth_type, List.getElem?_eq_none (Nat.le_of_not_lt hi)]; rfl

/-- What compiles of a call of `apply`: the elements in order, each once, as lvalues. -/
theorem apply_inv {cs : Classes} {fn : Ty} {e : TupleExpr} {r : Effect × List (Nat × Ty)} (h : apply cs fn e = some r) :
    ∃ f args, fn.mkLref = some f ∧ (List.range e.types.length).mapM (fun i => getExpr i ⟨e.types, e.const, true⟩) = some args ∧
      invoke cs f args = some r.1 ∧ r.2 = (List.range e.types.length).zip args := by
  unfold apply apply_impl at h
  rw [Props.Traits.C70_index_sequence] at h
  cases ha : (List.range e.types.length).mapM (fun i => getExpr i ⟨e.types, e.const, true⟩) with
  | none => rw [ha] at h; cases h
  | some args =>
    rw [ha] at h
    cases hf : fn.mkLref with
    | none => rw [hf] at h; cases h
    | some f =>
      rw [hf] at h
      cases hi : invoke cs f args with
      | none => simp [hi] at h
      | some eff =>
        simp [hi] at h
        exact ⟨f, args, rfl, rfl, by rw [← h]; exact hi, by rw [← h]⟩

theorem mapM_get {α β : Type} {f : α → Option β} : ∀ {l : List α} {r : List β}, l.mapM f = some r →
    r.length = l.length ∧ ∀ (i : Nat) (a : α) (b : β), l[i]? = some a → r[i]? = some b → f a = some b := by
  intro l
  induction l with
  | nil => intro r h; cases h; exact ⟨rfl, by simp⟩
  | cons x l ih =>
    intro r h
    rw [List.mapM_cons] at h
    cases hx : f x with
    | none => rw [hx] at h; cases h
    | some y =>
      cases hl : l.mapM f with
      | none => rw [hx, hl] at h; cases h
      | some ys =>
        rw [hx, hl] at h
        cases h
        have := ih hl
        refine ⟨by simp [this.1], ?_⟩
        intro i a b h1 h2
        cases i with
        | zero => simp at h1 h2; rw [← h1, ← h2]; exact hx
        | succ i => simp at h1 h2; exact this.2 i a b h1 h2

/-- C114, what is passed: whenever a call of `apply` compiles, it passes the elements of the tuple in order, each exactly
once, as references to the elements themselves, const if the tuple is; and the standard's INVOKE of the callee, as an lvalue, with
the same arguments does the same or does not compile (as for pointers to function objects, see C95). -/
theorem C114_order (cs : Classes) (fn : Ty) (e : TupleExpr) (eff : Effect) (args : List (Nat × Ty))
    (h : apply cs fn e = some (eff, args)) :
    args.map Prod.fst = List.range e.types.length ∧
    (∀ i t, (i, t) ∈ args → ∃ u, e.types[i]? = some u ∧ (if e.const then u.mkConst else u).mkLref = some t) ∧
    ∃ f, fn.mkLref = some f ∧ (std cs f (args.map Prod.snd) = some eff ∨ std cs f (args.map Prod.snd) = none) := by
  obtain ⟨f, as, hf, ha, hi, hz⟩ := apply_inv h
  obtain ⟨hlen, hget⟩ := mapM_get ha
  simp only [List.length_range] at hlen
  dsimp only at hz
  subst hz
  have h2 : ((List.range e.types.length).zip as).map Prod.snd = as := by
    apply List.map_snd_zip; simp [hlen]
  refine ⟨by apply List.map_fst_zip; simp [hlen], ?_, f, hf, ?_⟩
  · intro i t hm
    obtain ⟨k, hk, hk2⟩ := List.mem_iff_getElem.mp hm
    simp only [List.getElem_zip, List.getElem_range, Prod.mk.injEq] at hk2
    simp only [List.length_zip, List.length_range, hlen, Nat.min_self] at hk
    obtain ⟨rfl, hk2⟩ := hk2
    have := hget k k t (by simp [hk]) (by rw [← hk2]; simp)
    simp only [getExpr, Props.Traits.C70_nth_type, List.getElem?_eq_getElem hk] at this
    refine ⟨_, List.getElem?_eq_getElem hk, ?_⟩
    cases hc : e.const <;> rw [hc] at this <;> exact this
  · rw [h2]; exact C95_sound cs f as eff hi

/-- `apply(func, t)` for a `tuple<int, int> t` (estl/test/functional_test.cpp:44-45). -/
example : apply (fun _ => none) (.lref (.fn (.base false false .int) 0 false false .none false)) ⟨[.base false false .int, .base false false .int], false, true⟩ =
    some (.function, [(0, .lref (.base false false .int)), (1, .lref (.base false false .int))]) := rfl

/-- Callees that `apply` treats as the standard does: functions and pointers to functions, lvalues of classes, and rvalues
of classes whose `operator()` has neither `&` nor `&&`. -/
def fineCallee (cs : Classes) (fn : Ty) : Bool :=
  match fn with
  | .lref t => plain (.lref t)
  | .ptr _ _ (.fn ..) => true
  | .base _ _ (.cls k) => match cs k with
    | some (.fn _ _ _ _ q _) => q == .none
    | _ => true
  | _ => false

/-- C114, the part that holds: on an lvalue tuple, const or not, `apply` does exactly what the standard's does, for functions, pointers
to functions, lvalues of classes, and rvalues of classes whose `operator()` has neither `&` nor `&&`. Missing: rvalue tuples
(`C114_rvalue_violated`), pointers to members (`C114_member_violated`), other rvalues of classes
(`C114_callee_violated`). -/
theorem C114_apply_partial (cs : Classes) (fn : Ty) (ts : List Ty) (c : Bool) (hw : WF fn = true) (hf : fineCallee cs fn = true)
    (he : ts.all elemType = true) : apply cs fn ⟨ts, c, true⟩ = stdApply cs fn ⟨ts, c, true⟩ := by
  have hL : ∃ f, fn.mkLref = some f ∧ WF f = true ∧ plain f = true ∧ is_rvalue_reference f = false ∧ isFn f = false ∧
      ∀ args, std cs f args = std cs fn args := by
    cases fn with
    | lref t => exact ⟨.lref t, rfl, hw, hf, rfl, rfl, fun _ => rfl⟩
    | ptr c v t =>
      cases t with
      | fn r p c' v' q ne => exact ⟨_, rfl, by simp only [WF, Bool.and_eq_true] at hw ⊢; exact ⟨⟨⟨hw, rfl⟩, rfl⟩, rfl⟩, rfl, rfl, rfl, fun _ => rfl⟩
      | _ => cases hf
    | base c v b =>
      cases b with
      | cls k =>
        refine ⟨_, rfl, rfl, rfl, rfl, rfl, fun _ => ?_⟩
        show callExpr cs (.base c v (.cls k)) true = callExpr cs (.base c v (.cls k)) false
        simp only [callExpr]
        simp only [fineCallee] at hf
        cases hk : cs k with
        | none => rfl
        | some g =>
          rw [hk] at hf
          cases g with
          | fn r p c' v' q ne =>
            have : q = .none := by simpa using hf
            subst this
            rfl
          | _ => rfl
      | _ => cases hf
    | _ => cases hf
  obtain ⟨f, h1, h2, h3, h4, h5, h6⟩ := hL
  have hlv : ∀ t u, stdElem ⟨ts, c, true⟩ t = some u → is_lvalue_reference u = true := by
    intro t u h
    cases t <;> simp only [stdElem] at h <;> cases h <;> rfl
  unfold apply apply_impl stdApply
  rw [args_eq ts c he, Props.Traits.C70_index_sequence]
  dsimp only
  cases ha : ts.mapM (stdElem ⟨ts, c, true⟩) with
  | none => rfl
  | some args =>
    have hd : ∀ a, args.head? = some a → is_member_object_pointer a = false := by
      intro a h
      rw [List.head?_eq_getElem?] at h
      have hm := mapM_get ha
      have hlt : 0 < ts.length := by
        have := (List.getElem?_eq_some_iff.mp h).1
        omega
      have := hlv _ a (hm.2 0 _ a (List.getElem?_eq_getElem hlt) h)
      cases a <;> first | rfl | cases this
    have hi : invoke cs f args = std cs fn args := by rw [C95_function_partial cs f args h2 h3 h4 h5 hd, h6]
    simp [h1, hi]

/-- A mutable lambda given by name and a const tuple. -/
example : fineCallee (fun _ => some (.fn (.base false false .int) 0 false false .none false)) (.lref (.base false false (.cls 0))) = true ∧
    stdApply (fun _ => some (.fn (.base false false .int) 0 false false .none false)) (.lref (.base false false (.cls 0))) ⟨[.base false false .int, .base false false (.cls 3)], true, true⟩ =
      some (.functor 0, [(0, .lref (.base true false .int)), (1, .lref (.base true false (.cls 3)))]) := ⟨rfl, rfl⟩

/-- C114 is violated: from an rvalue tuple of objects the elements are passed as lvalues, so that a parameter by value is copied
instead of moved and one of type `T&&` cannot be used; no call that compiles agrees with the standard. -/
theorem C114_rvalue_violated (cs : Classes) (fn : Ty) (ts : List Ty) (c : Bool) (h0 : ts ≠ [])
    (hr : ts.all (fun t => !is_reference t) = true) (r : Effect × List (Nat × Ty)) (h : apply cs fn ⟨ts, c, false⟩ = some r) :
    (∀ i t, (i, t) ∈ r.2 → is_lvalue_reference t = true) ∧ stdApply cs fn ⟨ts, c, false⟩ ≠ some r := by
  have hl : ∀ t u : Ty, t.mkLref = some u → is_lvalue_reference u = true := by
    intro t u h
    cases t <;> simp only [Ty.mkLref] at h <;> first | (cases h; rfl) | (split at h <;> cases h; rfl)
  have ho := C114_order cs fn _ r.1 r.2 h
  have h1 : ∀ i t, (i, t) ∈ r.2 → is_lvalue_reference t = true := by
    intro i t hm
    obtain ⟨u, _, hu⟩ := ho.2.1 i t hm
    exact hl _ _ hu
  refine ⟨h1, fun hs => ?_⟩
  unfold stdApply at hs
  dsimp only at hs
  cases ha : ts.mapM (stdElem ⟨ts, c, false⟩) with
  | none => rw [ha] at hs; cases hs
  | some args =>
    rw [ha] at hs
    have hz : r.2 = (List.range ts.length).zip args := by
      cases hi : std cs fn args with
      | none => simp [hi] at hs
      | some eff => simp [hi] at hs; rw [← hs]
    obtain ⟨hlen, hget⟩ := mapM_get ha
    cases ts with
    | nil => exact h0 rfl
    | cons t ts =>
      cases args with
      | nil => cases hlen
      | cons a args =>
        have e1 := hget 0 t a rfl rfl
        have e2 : is_lvalue_reference a = true := h1 0 a (by rw [hz, List.length_cons, List.range_succ_eq_map]; simp)
        simp only [List.all_cons, Bool.and_eq_true, Bool.not_eq_true'] at hr
        have hr := hr.1
        cases t with
        | lref _ => cases hr
        | rref _ => cases hr
        | _ => cases c <;> cases e1 <;> cases e2

/-- `apply(f, make_tuple(1))` compiles for a function `f`. -/
example : apply (fun _ => none) (.lref (.fn (.base false false .int) 0 false false .none false)) ⟨[.base false false .int], false, false⟩ =
    some (.function, [(0, .lref (.base false false .int))]) := rfl

/-- C114 is violated: pointers to members cannot be applied at all, whatever the tuple. -/
theorem C114_member_violated (cs : Classes) (fn : Ty) (c v : Bool) (t : Ty) (k : Nat) (e : TupleExpr) (h : remove_reference fn = .mem c v t k) :
    apply cs fn e = none := by
  cases ha : apply cs fn e with
  | none => rfl
  | some r =>
    obtain ⟨f, args, hf, _, hi, _⟩ := apply_inv ha
    have : f = .lref (.mem c v t k) := by
      cases fn with
      | lref u => cases h; cases hf; rfl
      | rref u => cases h; cases hf; rfl
      | mem _ _ _ _ => cases h; cases hf; rfl
      | _ => cases h
    rw [this, C95_lvalue_violated cs _ c v t k args rfl (.inl rfl)] at hi
    cases hi

/-- `apply(&C::f, t)` for a `tuple<C, int> t`. -/
example : stdApply (fun _ => none) (.mem false false (.fn (.base false false .int) 0 false false .none false) 1) ⟨[.base false false (.cls 1), .base false false .int], false, true⟩ =
    some (.member 1 false, [(0, .lref (.base false false (.cls 1))), (1, .lref (.base false false .int))]) := rfl

/-- C114 is violated: an rvalue of a class whose `operator()` has `&&` cannot be applied. -/
theorem C114_callee_violated (cs : Classes) (c v : Bool) (k : Nat) (r : Ty) (p : Nat) (fc fv ne : Bool) (e : TupleExpr)
    (h : cs k = some (.fn r p fc fv .r ne)) : apply cs (.base c v (.cls k)) e = none := by
  cases ha : apply cs (.base c v (.cls k)) e with
  | none => rfl
  | some x =>
    obtain ⟨f, args, hf, _, hi, _⟩ := apply_inv ha
    cases hf
    exfalso
    have hn : invoke_function cs (.lref (.base c v (.cls k))) = none := by
      have : decay (.lref (.base c v (.cls k))) = decay (.base c v (.cls k)) := rfl
      rw [invoke_function, this, decay_base]
      simp only [Option.any, is_pointer_base]
      show callExpr cs (.base c v (.cls k)) true = none
      simp [callExpr, h, callableOn]
    cases args with
    | nil => rw [invoke, hn] at hi; cases hi
    | cons a l =>
      rw [invoke, invoke_helper] at hi
      split at hi
      · rw [hn] at hi; cases hi
      · obtain ⟨_, _, _, _, h1, _⟩ := member_inv hi; cases h1

/-- The standard calls it. -/
example : stdApply (fun _ => some (.fn (.base false false .int) 0 false false .r false)) (.base false false (.cls 0)) ⟨[.base false false .int], false, true⟩ =
    some (.functor 0, [(0, .lref (.base false false .int))]) := rfl

end Verif.Cxx
