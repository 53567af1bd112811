import Verif.Lemmas.Access
set_option backward.isDefEq.respectTransparency false
/-!
C100: access to elements respects `const` (model: Verif/Model/Access.lean).
-/

namespace Verif.Access
open Verif.Cxx (Ty Base)

/-- The accessors a class offers to its users. -/
def offered : Cls → List Meth
  | .array => [.begin, .end, .data, .front, .back, .index]
  | .vector => [.begin, .end, .data, .front, .back, .index]
  | .deque => [.begin, .end, .front, .back, .index]
  | .list => [.begin, .end, .front, .back]
  | .stack => [.top]
  | .queue => [.front]
  | .set => [.begin, .end, .find, .lowerBound, .upperBound]
  | .multiset => [.begin, .end, .find, .lowerBound, .upperBound]
  | .view => [.begin, .end, .index, .at, .front, .back, .data]
  | .normIt _ => [.deref, .arrow, .inc, .incP, .dec, .decP, .index, .plus, .minus]
  | .revIt _ => [.deref, .arrow, .inc, .incP, .dec, .decP, .index, .plus, .minus]
  | .deqIt _ => [.deref, .arrow, .inc, .incP, .dec, .decP, .plus, .minus]
  | .listIt => [.deref, .arrow, .inc, .incP, .dec, .decP]
  | .listCIt => [.deref, .arrow, .inc, .incP, .dec, .decP]
  | .treeIt => [.deref, .arrow, .inc, .incP, .dec, .decP]
  | .treeCIt => [.deref, .arrow, .inc, .incP, .dec, .decP]
  | _ => []

/-- Nothing is left out: every public member of the model is offered, or compares, or gives the base iterator, or is the
misspelt `uppper_bound`. -/
theorem offered_all (T : Ty) (k : Cls)
    (hk : k ≠ .tree ∧ k ≠ .nodeBase ∧ k ≠ .listNode ∧ k ≠ .treeBase ∧ k ≠ .treeNode) (M : Member)
    (hM : M ∈ methods T k) (hp : M.name ≠ .objPointer) :
    M.name ∈ offered k ∨ M.name = .eq ∨ M.name = .base ∨ M.name = .uppperBound := by
  cases k
  all_goals
    simp only [methods, arrayMembers, vectorMembers, dequeMembers, listMembers, stackMembers, queueMembers, setMembers,
      viewMembers, normMembers, revMembers, deqItMembers, listItMembers, treeItMembers, List.mem_cons, List.not_mem_nil,
      or_false] at hM
  all_goals first
    | (simp at hk; done)
    | skip
  all_goals
    repeat' first
      | (rcases hM with rfl | hM)
      | subst hM
  all_goals first
    | (simp [offered]; done)
    | (simp at hp; done)

example : Member.name ⟨.begin, false, it .treeCIt, .call (me .tree_) .begin⟩ ∈ offered .set := by decide

/-- Operators that change an iterator, which a `const` iterator cannot have. -/
def moves : Meth → Bool
  | .inc | .incP | .dec | .decP => true
  | _ => false

/-- The element an accessor leads to, as an expression on the object `x`: `*x.begin()`, `*--e` with `e = x.end()`,
`*x.data()`, `x.front()`, `*(x + n)`, `*x++`, `*x.operator->()`, ... -/
def element (x : Expr) : Meth → Expr
  | .end => Expr.deref (.call (.copy (.call x .end)) .dec)
  | .front => .call x .front
  | .back => .call x .back
  | .index => .call x .index
  | .at => .call x .at
  | .top => .call x .top
  | .deref => .call x .deref
  | m => Expr.deref (.call x m)

/-- Which elements must not be written: those of a `const` container, of a set or string_view, or behind a
const_iterator (whether or not the iterator itself is `const`). -/
def fixed (k : Cls) (c : Bool) : Bool :=
  match k with
  | .set | .multiset | .view | .listCIt | .treeCIt => true
  | .normIt b | .revIt b | .deqIt b => b
  | .listIt | .treeIt => false
  | _ => c

/-- One variable, of class `k`, `const` or not. -/
def one (c : Bool) (k : Cls) : Nat → Option X := fun _ => some (.obj c k)

/-- The accessor compiles and gives an element, `const` exactly if it must not be written. -/
def Right (T : Ty) (k : Cls) (c : Bool) (m : Meth) : Prop :=
  ∃ n, ty T n (one c k) (element (.var 0) m) = some ⟨true, .elem (if fixed k c then T.mkConst else T)⟩

/-- The accessors of the code that do not. -/
def wrong : Cls → Bool → Meth → Bool
  | .array, _, .data => true
  | .vector, true, .data => true
  | .stack, true, .top => true
  | .queue, true, .front => true
  | .listIt, true, .deref => true
  | .listCIt, _, .arrow => true
  | .treeIt, true, .deref => true
  | .treeIt, true, .arrow => true
  | .treeCIt, true, .deref => true
  | .treeCIt, true, .arrow => true
  | .deqIt _, true, .plus => true
  | .deqIt _, true, .minus => true
  | _, _, _ => false

/-- Finds the declared type of a member, of a field or of the parameter of a constructor. -/
macro "declared" F:term : tactic => `(tactic| first
  | with_reducible rfl
  | with_reducible exact Facts.r $F
  | with_reducible exact Facts.p $F
  | with_reducible exact Facts.cr $F
  | with_reducible exact Facts.cp $F
  | with_reducible exact Facts.rA $F true
  | with_reducible exact Facts.rA $F false
  | with_reducible exact Facts.pA $F true
  | with_reducible exact Facts.pA $F false
  | with_reducible exact Facts.lr $F
  | with_reducible exact Facts.ap $F
  | with_reducible exact Facts.lrA $F true
  | with_reducible exact Facts.lrC $F true
  | with_reducible exact Facts.lrC $F false
  | with_reducible exact Facts.apA $F true
  | with_reducible exact Facts.apC $F true
  | with_reducible exact Facts.apC $F false
  | with_reducible exact Facts.dq $F _
  | with_reducible exact Facts.dqp $F _
  | exact rfl)

/-- Checks a conversion. -/
macro "converts" F:term : tactic => `(tactic| first
  | with_reducible exact Facts.f1 $F
  | with_reducible exact Facts.f2 $F
  | with_reducible exact Facts.f3 $F
  | with_reducible exact Facts.g1 $F _ _ _
  | with_reducible exact Facts.g2 $F _ _ _
  | with_reducible exact Facts.g3 $F _ _ _
  | with_reducible exact Facts.g4 $F _ _
  | with_reducible exact Facts.g5 $F _ _
  | with_reducible exact Facts.g6 $F
  | with_reducible exact Facts.g7 $F
  | with_reducible exact Facts.p1 $F _ _ _
  | with_reducible exact Facts.p2 $F _ _ _
  | with_reducible exact Facts.p3 $F _ _ _
  | exact rfl)

/-- Finds the type of an expression step by step. -/
syntax "typing " term : tactic
macro_rules
  | `(tactic| typing $F) => `(tactic| first
    | with_reducible exact self_ok rfl
    | (with_reducible apply var_ok
       · exact rfl)
    | (with_reducible apply field_ok
       · typing $F
       · with_reducible exact rfl
       · declared $F
       · with_reducible constructor)
    | (with_reducible apply calls_ok
       · typing $F
       · first
         | (with_reducible apply Calls.op
            · with_reducible exact rfl
            · exact rfl)
         | (with_reducible apply Calls.member
            · with_reducible exact rfl
            · exact rfl
            · declared $F
            · with_reducible exact rfl
            · with_reducible exact rfl
            · typing $F
            · converts $F
            · with_reducible constructor))
    | (with_reducible apply addr_ok
       · typing $F
       · with_reducible exact rfl)
    | (with_reducible apply copies_ok
       · typing $F
       · first
         | (with_reducible apply Copies.it
            · with_reducible exact rfl
            · exact rfl)
         | (with_reducible apply Copies.ptr
            · with_reducible exact rfl))
    | (with_reducible apply mk_ok
       · typing $F
       · declared $F
       · converts $F)
    | (with_reducible apply cast_ok
       · typing $F
       · exact rfl)
    | (with_reducible apply assign_ok
       · typing $F
       · typing $F
       · exact rfl
       · exact rfl)
    | (with_reducible apply seq_ok
       · typing $F
       · typing $F))

set_option maxHeartbeats 4000000 in
/-- Full statement: for every element type, every accessor of every container and iterator, called on an object that is
`const` or not (but `++` and `--` not on a `const` iterator), compiles and gives an element that can be written exactly
if neither the container is `const` nor the iterator a const_iterator. Proved except for the accessors in `wrong`. -/
theorem C100_accessors_partial (T : Ty) (hT : Plain T = true) (k : Cls) (c : Bool) (m : Meth) (hm : m ∈ offered k)
    (hc : ¬ (c = true ∧ moves m = true)) (hw : wrong k c m = false) : Right T k c m := by
  have F := facts hT
  refine ⟨6, ?_⟩
  cases k
  all_goals first
    | (simp [offered] at hm; done)
    | skip
  all_goals
    simp only [offered, List.mem_cons, List.not_mem_nil, or_false] at hm
  all_goals
    repeat' first
      | (rcases hm with rfl | hm)
      | subst hm
  all_goals cases c
  all_goals first
    | (simp [wrong] at hw; done)
    | (simp [moves] at hc; done)
    | skip
  all_goals first
    | (rename_i c'; cases c')
    | skip
  all_goals
    simp only [ty, element, fixed, if_true, if_false, Bool.false_eq_true]
    typing F

/-- On a `const vector<int>`, `front()` gives a `const int&`; on a `vector<int>` that is not `const`, an `int&`. -/
example : Plain (.base false false .int) = true ∧ .front ∈ offered .vector ∧
    ty (.base false false .int) 6 (one true .vector) (.call (.var 0) .front) = some ⟨true, .elem (.base true false .int)⟩ ∧
    ty (.base false false .int) 6 (one false .vector) (.call (.var 0) .front) =
      some ⟨true, .elem (.base false false .int)⟩ := by decide +kernel

/-- What a call of a member on a variable gives: its declared result, if the body compiles and fits. -/
theorem called {T : Ty} {n : Nat} {c : Bool} {k : Cls} {m : Meth} {b : Val}
    (h : ty T n (one c k) (.call (.var 0) m) = some b) :
    ∃ k' M r b', resolve T k c m = some (k', M) ∧ M.ret = some r ∧ bodyTy T n k' M = some b' ∧ fits b' r = true ∧
      b = r.toVal := by
  obtain ⟨v, hv, h⟩ := check_call h
  simp only [check, one, Option.map_some, Option.some.injEq] at hv
  subst hv
  rcases h with ⟨c', k', k1, M, r, b', h1, h2, h3, h4, h5, h6⟩ | ⟨h, -⟩
  · injection h1 with h1 h1'; subst h1 h1'
    exact ⟨k1, M, r, b', h2, h3, h4, h5, h6⟩
  · exact absurd rfl (h _ _)

theorem deref_called {T : Ty} {n : Nat} {c : Bool} {k : Cls} {m : Meth} {b : Val}
    (h : ty T n (one c k) (Expr.deref (.call (.var 0) m)) = some b) :
    ∃ k' M r b', resolve T k c m = some (k', M) ∧ M.ret = some r ∧ bodyTy T n k' M = some b' ∧ fits b' r = true ∧
      ((∃ q k, r.toVal.x = .obj q k) ∨ builtin .deref r.toVal = some b) := by
  obtain ⟨v, hv, h⟩ := check_call h
  obtain ⟨k', M, r, b', h1, h2, h3, h4, rfl⟩ := called hv
  refine ⟨k', M, r, b', h1, h2, h3, h4, ?_⟩
  rcases h with ⟨c', k', k1, M, r, b', h1, -⟩ | ⟨-, h⟩
  · exact .inl ⟨_, _, h1⟩
  · exact .inr h

/-- The accessors in `wrong` are wrong for every element type: they do not compile, or give an element that is `const`
although it may be written, or one that is not although it must not. -/
theorem C100_accessors_violated (T : Ty) (hT : Plain T = true) (k : Cls) (c : Bool) (m : Meth)
    (hw : wrong k c m = true) : ¬ Right T k c m := by
  rintro ⟨n, h⟩
  have f1 := rT hT
  have f2 := pT hT
  have f3 := crT hT
  have f4 := cpT hT
  have f5 := neC hT
  have f6 := isc hT
  have f7 := iscC hT
  unfold wrong at hw
  split at hw
  all_goals simp only [element, fixed, if_true, if_false, Bool.false_eq_true] at h
  case h_1 =>
    obtain ⟨k', M, r, b', h1, h2, h3, h4, h5⟩ := deref_called h
    have nw := no_write_body hT n k' M b'
    cases c <;> simp [resolve, methods, arrayMembers, pick] at h1 <;> obtain ⟨rfl, rfl⟩ := h1
    · simp only [f4, Option.some.injEq] at h2
      subst h2
      simp [Ret.toVal, X.bare, builtin, decay, f5] at h5
    · simp only [f2, Option.some.injEq] at h2
      subst h2
      rcases nw (by simp) h3 with e | e | e <;> simp_all [fits, initable, decay, qual, X.bare, X.isConst]
  case h_2 =>
    obtain ⟨k', M, r, b', h1, h2, h3, h4, h5⟩ := deref_called h
    simp [resolve, methods, vectorMembers, pick] at h1
    obtain ⟨rfl, rfl⟩ := h1
    injection h2 with h2
    subst h2
    simp [Ret.toVal, X.bare, builtin, decay, f5.symm] at h5
  case h_3 =>
    obtain ⟨k', M, r, b', h1, h2, h3, h4, h5⟩ := called h
    have nw := no_write_body hT n k' M b'
    simp [resolve, methods, stackMembers, pick] at h1
    obtain ⟨rfl, rfl⟩ := h1
    simp only [f1, Option.some.injEq] at h2
    subst h2
    simp [Ret.toVal, f5] at h5
  case h_4 =>
    obtain ⟨k', M, r, b', h1, h2, h3, h4, h5⟩ := called h
    simp [resolve, methods, queueMembers, pick] at h1
    obtain ⟨rfl, rfl⟩ := h1
    simp only [f1, Option.some.injEq] at h2
    subst h2
    simp [Ret.toVal, f5] at h5
  case h_5 =>
    obtain ⟨k', M, r, b', h1, h2, h3, h4, h5⟩ := called h
    simp [resolve, methods, listItMembers, pick] at h1
    obtain ⟨rfl, rfl⟩ := h1
    simp only [f3, Option.some.injEq] at h2
    subst h2
    simp [Ret.toVal, f5.symm] at h5
  case h_6 =>
    obtain ⟨k', M, r, b', h1, h2, h3, h4, h5⟩ := deref_called h
    have nw := no_write_body hT n k' M b'
    cases c <;> simp [resolve, methods, listItMembers, pick] at h1 <;> obtain ⟨rfl, rfl⟩ := h1
    all_goals
      simp only [f2, Option.some.injEq] at h2
      subst h2
      rcases nw (by simp) h3 with e | e | e <;> simp_all [fits, initable, decay, qual, X.bare, X.isConst]
  case h_13 => cases hw
  all_goals
    first
    | (obtain ⟨k', M, r, b', h1, -⟩ := deref_called h
       simp [resolve, methods, treeItMembers, deqItMembers, pick] at h1)
    | (obtain ⟨k', M, r, b', h1, -⟩ := called h
       simp [resolve, methods, treeItMembers, pick] at h1)

/-- `array::data` of an array that is not `const` gives a pointer to `const`, `vector::data() const` one for writing. -/
example : wrong .array false .data = true ∧ wrong .vector true .data = true ∧
    ty (.base false false .int) 6 (one false .array) (Expr.deref (.call (.var 0) .data)) =
      some ⟨true, .elem (.base true false .int)⟩ ∧
    ty (.base false false .int) 6 (one true .vector) (Expr.deref (.call (.var 0) .data)) =
      some ⟨true, .elem (.base false false .int)⟩ := by decide +kernel

/-- Those of the accessors in `wrong` that no program can call at all. -/
def uncallable : Cls → Bool → Meth → Bool
  | .array, true, .data => true
  | .stack, true, .top => true
  | .queue, true, .front => true
  | .listCIt, _, .arrow => true
  | .treeIt, true, .deref => true
  | .treeIt, true, .arrow => true
  | .treeCIt, true, .deref => true
  | .treeCIt, true, .arrow => true
  | .deqIt _, true, .plus => true
  | .deqIt _, true, .minus => true
  | _, _, _ => false

/-- A program that calls `data()` of a `const array`, `top()` of a `const stack`, `front()` of a `const queue`, `->` of a
`const_iterator` of a list, `*` or `->` of a `const` iterator of a set, or `+` or `-` of a `const` iterator of a deque does not
compile, whatever the element type. -/
theorem C100_violated_uncallable (T : Ty) (hT : Plain T = true) (k : Cls) (c : Bool) (m : Meth)
    (hw : uncallable k c m = true) (n : Nat) : ty T n (one c k) (.call (.var 0) m) = none := by
  cases h : ty T n (one c k) (.call (.var 0) m) with
  | none => rfl
  | some b =>
  exfalso
  have f1 := rT hT
  have f2 := pT hT
  have f5 := neC hT
  have f6 := isc hT
  have f7 := iscC hT
  obtain ⟨k', M, r, b', h1, h2, h3, h4, -⟩ := called h
  have nw := no_write_body hT n k' M b'
  unfold uncallable at hw
  split at hw
  case h_11 => cases hw
  case h_4 =>
    cases c <;> simp [resolve, methods, listItMembers, pick] at h1 <;> obtain ⟨rfl, rfl⟩ := h1
    all_goals
      simp only [f2, Option.some.injEq] at h2
      subst h2
      rcases nw (by simp) h3 with e | e | e <;> simp_all [fits, initable, decay, qual, X.bare, X.isConst]
  all_goals
    first
    | (simp [resolve, methods, treeItMembers, deqItMembers, pick] at h1; done)
    | skip
  all_goals
    simp [resolve, methods, arrayMembers, stackMembers, queueMembers, pick] at h1
    obtain ⟨rfl, rfl⟩ := h1
    simp only [f1, f2, Option.some.injEq] at h2
    subst h2
    rcases nw (by simp) h3 with e | e | e <;> simp_all [fits, initable, decay, qual, X.bare, X.isConst]

example : uncallable .stack true .top = true ∧ uncallable .treeCIt true .deref = true := ⟨rfl, rfl⟩

/-- The types of variables through which no element must be written: containers that are `const`, sets, views,
const_iterators, and pointers to `const T`. -/
def sealing (T : Ty) : X → Bool
  | .obj c k => fixed k c
  | .ptr _ (.elem t) => t == T.mkConst
  | _ => false

/-- An assignment to an element. -/
def writes (v : Val) : Bool :=
  match v.x with
  | .elem _ => true
  | _ => false

/-- Full statement: a program whose variables are `const` containers, sets, views, const_iterators and pointers to `const T`
cannot assign to an element, whatever expression it writes, and every element it reaches is `const`. Proved for programs
without the public member `node` of the iterators of sets, and without `data()` if there are vectors. -/
theorem C100_sealed_partial (T : Ty) (hT : Plain T = true) (d : Bool) (n : Nat) (Γ : Nat → Option X)
    (hΓ : ∀ i x, Γ i = some x → sealing T x = true ∧ (d = true → ∀ c, x ≠ .obj c .vector)) (e : Expr)
    (he : ofUser d e = true) (v : Val) (hv : ty T n Γ e = some v) :
    (∀ t, v.x = .elem t → Cxx.is_const t = true) ∧
    (∀ c t, v.x = .ptr c (.elem t) → Cxx.is_const t = true) ∧
    (∀ a b, e = .assign a b → writes v = false) := by
  have hΓ' : ∀ i x, Γ i = some x → readOnly d x = true := by
    intro i x hx
    obtain ⟨h1, h2⟩ := hΓ i x hx
    cases x with
    | elem t => cases h1
    | arr x => cases h1
    | num => cases h1
    | ptr c x =>
      cases x <;> simp [sealing] at h1
      subst h1
      exact iscC hT
    | obj c k =>
      cases k <;> simp only [sealing, fixed, readOnly, Bool.false_eq_true, Bool.and_eq_true] at h1 ⊢ <;> try exact h1
      refine ⟨h1, ?_⟩
      cases d
      · rfl
      · exact absurd rfl (h2 rfl c)
  have hro := readOnly_check hT n Γ hΓ' e he v hv
  refine ⟨fun t ht => ?_, fun c t ht => ?_, ?_⟩
  · rw [ht] at hro; exact hro
  · rw [ht] at hro; exact hro
  · rintro a b rfl
    unfold writes
    split
    · rename_i t ht
      rw [ht] at hro
      have hc : Cxx.is_const t = true := hro
      simp only [ty, check, Option.bind_eq_some_iff] at hv
      obtain ⟨w, hw, u, hu, hv⟩ := hv
      split at hv
      · rename_i ha
        injection hv with hv; subst hv
        simp [assignable, ht, X.isConst, hc] at ha
      · cases hv
    · rfl

/-- In a function with `const vector<int>& v` and `set<int>& s`, the expression `*s.begin()` compiles and is `const`, the
assignment `v.front() = *s.begin()` does not compile, and for a `vector<int>& v` it does. -/
example :
    let Γ (c : Bool) : Nat → Option X := fun i => some (if i = 0 then .obj c .vector else .obj false .set)
    let a : Expr := .assign (.call (.var 0) .front) (Expr.deref (.call (.var 1) .begin))
    (∀ x ∈ [Γ true 0, Γ true 1], ∃ y, x = some y ∧ sealing (.base false false .int) y = true) ∧ ofUser false a = true ∧
    ty (.base false false .int) 6 (Γ true) (Expr.deref (.call (.var 1) .begin)) =
      some ⟨true, .elem (.base true false .int)⟩ ∧
    ty (.base false false .int) 6 (Γ true) a = none ∧
    (ty (.base false false .int) 6 (Γ false) a).map writes = some true := by
  refine ⟨?_, ?_, ?_, ?_, ?_⟩
  · intro x hx
    simp only [List.mem_cons, List.not_mem_nil, or_false] at hx
    rcases hx with rfl | rfl
    · exact ⟨_, rfl, rfl⟩
    · exact ⟨_, rfl, rfl⟩
  all_goals decide +kernel

/-- Through `data()` an element of a `const vector` can be assigned to. -/
theorem C100_violated_vector_data (T : Ty) (hT : Plain T = true) :
    ∃ n e a, ofUser true e = true ∧ e = .assign a (.call (.var 0) .front) ∧
      ty T n (one true .vector) e = some ⟨true, .elem T⟩ := by
  have F := facts hT
  refine ⟨6, _, Expr.deref (.call (.var 0) .data), ?_, rfl, ?_⟩
  · rfl
  · have h1 : ty T 6 (one true .vector) (Expr.deref (.call (.var 0) .data)) = some ⟨true, .elem T⟩ := by
      simp only [ty]
      typing F
    have h2 : ty T 6 (one true .vector) (.call (.var 0) .front) = some ⟨true, .elem T.mkConst⟩ := by
      simp only [ty]
      typing F
    simp only [ty] at h1 h2
    simp only [ty, check.eq_11, h1, h2, Option.bind_some]
    simp [assignable, takes, X.isConst, X.bare, isc hT, rc hT, rcC hT]

example : Plain (.ptr false false (.base false false .char)) = true := rfl

/-- Through the public member `node` of its iterators an element of a `const set` can be assigned to:
`s.begin().node->get_driver_ptr()->value`. -/
theorem C100_violated_set_node (T : Ty) (hT : Plain T = true) (k : Cls) (hk : k = .set ∨ k = .multiset) :
    ∃ n a, a = .assign (.field (Expr.deref (.call (Expr.deref (.field (.call (.var 0) .begin) .node)) .driver)) .value)
        (Expr.deref (.call (.var 0) .begin)) ∧
      ty T n (one true k) a = some ⟨true, .elem T⟩ := by
  have F := facts hT
  refine ⟨6, _, rfl, ?_⟩
  have h1 : ty T 6 (one true k) (.field (Expr.deref (.call (Expr.deref (.field (.call (.var 0) .begin) .node)) .driver)) .value)
      = some ⟨true, .elem T⟩ := by
    rcases hk with rfl | rfl <;>
    · simp only [ty]
      typing F
  have h2 : ty T 6 (one true k) (Expr.deref (.call (.var 0) .begin)) = some ⟨true, .elem T.mkConst⟩ := by
    rcases hk with rfl | rfl <;>
    · simp only [ty]
      typing F
  simp only [ty] at h1 h2
  simp only [ty, check.eq_11, h1, h2, Option.bind_some]
  simp [assignable, takes, X.isConst, X.bare, isc hT, rc hT, rcC hT]

example : Plain (.base false false (.cls 3)) = true := rfl

/-- Iterators that can be compared although they are `const`; full statement: all. -/
def comparable : Cls → Bool
  | .normIt _ | .revIt _ | .treeIt => true
  | _ => false

/-- Full statement: `it == jt` compiles for every iterator, `const` or not. Proved for all that are not `const`, and among
the `const` ones for those of vectors and `rb_tree_iterator`. -/
theorem C100_compare_partial (T : Ty) (hT : Plain T = true) (k : Cls) (hk : isIter k = true) (c : Bool)
    (hc : c = true → comparable k = true) :
    ∃ n, ty T n (one c k) (.call (.var 0) .eq) = some ⟨false, .num⟩ := by
  have F := facts hT
  refine ⟨6, ?_⟩
  cases k
  all_goals first
    | (simp [isIter] at hk; done)
    | skip
  all_goals first
    | (rename_i c'; cases c')
    | skip
  all_goals cases c
  all_goals first
    | (simp [comparable] at hc; done)
    | skip
  all_goals
    simp only [ty]
    typing F

example : isIter (.revIt true) = true ∧ comparable (.revIt true) = true := ⟨rfl, rfl⟩

/-- A `const` iterator of a list, a deque or a set cannot be compared. -/
theorem C100_violated_compare (T : Ty) (k : Cls) (hk : isIter k = true) (hc : comparable k = false) (n : Nat) :
    ty T n (one true k) (.call (.var 0) .eq) = none := by
  cases h : ty T n (one true k) (.call (.var 0) .eq) with
  | none => rfl
  | some b =>
  exfalso
  obtain ⟨k', M, r, b', h1, -⟩ := called h
  cases k
  all_goals first
    | (simp [isIter] at hk; done)
    | (simp [comparable] at hc; done)
    | (simp [resolve, methods, listItMembers, treeItMembers, deqItMembers, pick] at h1; done)

example : isIter .listCIt = true ∧ comparable .listCIt = false := ⟨rfl, rfl⟩

end Verif.Access
