import Verif.Model.Access
set_option backward.isDefEq.respectTransparency false
/-! Facts about element types and about members that keep `const` (model: Verif/Model/Access.lean). -/

namespace Verif.Access
open Verif.Cxx (Ty Base)

/-- A type elements of containers can have: an object type without `const` and `volatile`. -/
def Plain : Ty → Bool
  | .base c v b => !c && !v && b != .void
  | .ptr c v _ => !c && !v
  | .mem c v _ _ => !c && !v
  | .arr t _ => Plain t
  | _ => false

theorem Plain.facts (t : Ty) (h : Plain t = true) :
    Cxx.matchConst t = none ∧ Cxx.matchVolatile t = none ∧ Cxx.matchConst t.mkConst = some t ∧
    Cxx.matchVolatile t.mkConst = none ∧ t.mkConst ≠ t ∧
    t.void = false ∧ t.mkConst.void = false ∧ t.abominable = false ∧ t.mkConst.abominable = false ∧
    Cxx.is_reference t = false ∧ Cxx.is_reference t.mkConst = false := by
  induction t with
  | base c v b =>
    simp only [Plain, Bool.and_eq_true, Bool.not_eq_true'] at h
    obtain ⟨⟨rfl, rfl⟩, hb⟩ := h
    have hb' : b ≠ .void := by simpa using hb
    refine ⟨rfl, rfl, rfl, rfl, ?_, ?_, ?_, rfl, rfl, rfl, rfl⟩
    · simp [Ty.mkConst]
    · cases b <;> first | rfl | exact absurd rfl hb'
    · cases b <;> first | rfl | exact absurd rfl hb'
  | ptr c v t ih =>
    simp only [Plain, Bool.and_eq_true, Bool.not_eq_true'] at h
    obtain ⟨rfl, rfl⟩ := h
    exact ⟨rfl, rfl, rfl, rfl, by simp [Ty.mkConst], rfl, rfl, rfl, rfl, rfl, rfl⟩
  | mem c v t k ih =>
    simp only [Plain, Bool.and_eq_true, Bool.not_eq_true'] at h
    obtain ⟨rfl, rfl⟩ := h
    exact ⟨rfl, rfl, rfl, rfl, by simp [Ty.mkConst], rfl, rfl, rfl, rfl, rfl, rfl⟩
  | lref t ih => simp [Plain] at h
  | rref t ih => simp [Plain] at h
  | arr t n ih =>
    obtain ⟨h1, h2, h3, h4, h5, -⟩ := ih (by simpa [Plain] using h)
    refine ⟨?_, ?_, ?_, ?_, ?_, rfl, rfl, rfl, rfl, rfl, rfl⟩
    · simp [Cxx.matchConst, h1]
    · simp [Cxx.matchVolatile, h2]
    · simp [Cxx.matchConst, Ty.mkConst, h3]
    · simp [Cxx.matchVolatile, Ty.mkConst, h4]
    · simp [Ty.mkConst, h5]
  | fn r p c v q ne ih => simp [Plain] at h

/-- `R`, `P` and the traits on `t`, for a type that is neither reference, void nor a function. -/
theorem refs (t : Ty) (hr : Cxx.is_reference t = false) (hv : t.void = false) (ha : t.abominable = false) :
    R t = some (.ref (.elem t)) ∧ P t = some (.val (.ptr false (.elem t))) ∧
    Cxx.add_lvalue_reference t = some (.lref t) ∧ Cxx.add_pointer t = some (.ptr false false t) := by
  cases t <;> simp_all [R, P, Ty.mkLref, Ty.mkPtr, toRet, Cxx.add_lvalue_reference, Cxx.add_pointer,
    Cxx.is_lvalue_reference, Cxx.remove_reference, Cxx.is_reference]

section
variable {T : Ty} (h : Plain T = true)
include h

theorem isc : Cxx.is_const T = false := by simp [Cxx.is_const, (Plain.facts T h).1]
theorem iscC : Cxx.is_const T.mkConst = true := by simp [Cxx.is_const, (Plain.facts T h).2.2.1]
theorem rc : Cxx.remove_const T = T := by simp [Cxx.remove_const, (Plain.facts T h).1]
theorem rcC : Cxx.remove_const T.mkConst = T := by simp [Cxx.remove_const, (Plain.facts T h).2.2.1]
theorem rcv : Cxx.remove_cv T = T := by
  simp [Cxx.remove_cv, Cxx.remove_volatile, (Plain.facts T h).2.1, rc h]
theorem rcvC : Cxx.remove_cv T.mkConst = T := by
  simp [Cxx.remove_cv, Cxx.remove_volatile, (Plain.facts T h).2.2.2.1, rcC h]
theorem neC : T.mkConst ≠ T := (Plain.facts T h).2.2.2.2.1
theorem rT : R T = some (.ref (.elem T)) := by
  obtain ⟨-, -, -, -, -, a, -, b, -, c, -⟩ := Plain.facts T h; exact (refs T c a b).1
theorem pT : P T = some (.val (.ptr false (.elem T))) := by
  obtain ⟨-, -, -, -, -, a, -, b, -, c, -⟩ := Plain.facts T h; exact (refs T c a b).2.1
theorem alr : Cxx.add_lvalue_reference T = some (.lref T) := by
  obtain ⟨-, -, -, -, -, a, -, b, -, c, -⟩ := Plain.facts T h; exact (refs T c a b).2.2.1
theorem apt : Cxx.add_pointer T = some (.ptr false false T) := by
  obtain ⟨-, -, -, -, -, a, -, b, -, c, -⟩ := Plain.facts T h; exact (refs T c a b).2.2.2
theorem crT : CR T = some (.ref (.elem T.mkConst)) := by
  obtain ⟨-, -, -, -, -, -, a, -, b, -, c⟩ := Plain.facts T h; exact (refs _ c a b).1
theorem cpT : CP T = some (.val (.ptr false (.elem T.mkConst))) := by
  obtain ⟨-, -, -, -, -, -, a, -, b, -, c⟩ := Plain.facts T h; exact (refs _ c a b).2.1
theorem rC : R T.mkConst = some (.ref (.elem T.mkConst)) := crT h
theorem pC : P T.mkConst = some (.val (.ptr false (.elem T.mkConst))) := cpT h
theorem alrC : Cxx.add_lvalue_reference T.mkConst = some (.lref T.mkConst) := by
  obtain ⟨-, -, -, -, -, -, a, -, b, -, c⟩ := Plain.facts T h; exact (refs _ c a b).2.2.1
theorem aptC : Cxx.add_pointer T.mkConst = some (.ptr false false T.mkConst) := by
  obtain ⟨-, -, -, -, -, -, a, -, b, -, c⟩ := Plain.facts T h; exact (refs _ c a b).2.2.2

end

theorem mkConst_idem (t : Ty) : t.mkConst.mkConst = t.mkConst := by
  induction t with
  | arr t n ih => simp [Ty.mkConst, ih]
  | _ => rfl

/-- What cannot be written through: the elements behind a variable or expression of such a type are `const`. `d`: the
member `data` may be called, so that it must not be a `vector`. -/
def readOnly (d : Bool) : X → Bool
  | .elem t => Cxx.is_const t
  | .ptr _ x => readOnly d x
  | .arr x => readOnly d x
  | .num => true
  | .obj c k => match k with
    | .array | .deque | .list | .stack | .queue | .tree | .nodeBase | .listNode | .treeBase | .treeNode => c
    | .vector => c && !d
    | .set | .multiset | .view | .listCIt | .treeCIt => true
    | .normIt b | .revIt b | .deqIt b => b
    | .listIt | .treeIt => false

/-- Expressions users can write: no private members (`get_obj_pointer`, `min_node`, all fields but `current_` and `node`),
and without `node`; `data` only if `d`. -/
def ofUser (d : Bool) : Expr → Bool
  | .self => false
  | .var _ => true
  | .field e f => f == .current_ && ofUser d e
  | .call e m => m != .objPointer && m != .minNode && (m != .data || d) && ofUser d e
  | .addr e => ofUser d e
  | .konst e => ofUser d e
  | .copy e => ofUser d e
  | .conv e _ => ofUser d e
  | .mk _ e => ofUser d e
  | .cast _ e => ofUser d e
  | .assign a b => ofUser d a && ofUser d b
  | .seq a b => ofUser d a && ofUser d b

theorem is_const_mkConst {t : Ty} (h : Cxx.is_const t = true) : Cxx.is_const t.mkConst = true := by
  induction t with
  | base c v b => rfl
  | ptr c v t ih => rfl
  | mem c v t k ih => rfl
  | arr t n ih =>
    simp only [Cxx.is_const, Cxx.matchConst, Ty.mkConst, Option.isSome_map] at h ⊢
    exact ih h
  | lref t ih => exact h
  | rref t ih => exact h
  | fn r p c v q ne ih => exact h

theorem readOnly_konst {d : Bool} (x : X) (h : readOnly d x = true) : readOnly d x.konst = true := by
  induction x with
  | elem t => exact is_const_mkConst h
  | obj c k => cases k <;> simp_all [readOnly, X.konst]
  | ptr c x ih => exact h
  | arr x ih => exact ih h
  | num => rfl

theorem readOnly_bare_ptr {d : Bool} (x y : X) (h : readOnly d x = true)
    (hb : x.bare = y.bare) (hc : x.isConst = true → y.isConst = true) : readOnly d y = true := by
  induction x generalizing y with
  | elem t =>
    cases y <;> simp_all [X.bare, readOnly, X.isConst]
  | obj c k =>
    cases y with
    | obj c' k' =>
      simp only [X.bare, X.obj.injEq, true_and] at hb
      subst hb
      cases k <;> simp_all [readOnly, X.isConst]
    | _ => simp [X.bare] at hb
  | ptr c x ih =>
    cases y with
    | ptr c' y =>
      simp only [X.bare, X.ptr.injEq, true_and] at hb
      subst hb; exact h
    | _ => simp [X.bare] at hb
  | arr x ih =>
    cases y with
    | arr y =>
      simp only [X.bare, X.arr.injEq] at hb
      exact ih y h hb hc
    | _ => simp [X.bare] at hb
  | num => cases y <;> simp_all [X.bare, readOnly]

theorem readOnly_qual {d : Bool} (k : Bool) (x y : X) (h : readOnly d x = true) (hq : qual k x y = true) :
    readOnly d y = true := by
  induction x generalizing k y with
  | ptr c x ih =>
    cases y with
    | ptr c' y =>
      simp only [qual, Bool.and_eq_true] at hq
      exact ih _ y h hq.2
    | _ =>
      simp only [qual, Bool.and_eq_true, beq_iff_eq] at hq
      simp [X.bare] at hq
  | _ =>
    simp only [qual, Bool.and_eq_true, beq_iff_eq, Bool.or_eq_true, Bool.not_eq_true'] at hq
    refine readOnly_bare_ptr _ y h hq.1.1 fun hx => ?_
    rcases hq.1.2 with h1 | h1
    · rw [hx] at h1; cases h1
    · exact h1

theorem readOnly_decay {d : Bool} (x : X) (h : readOnly d x = true) : readOnly d (decay x) = true := by
  cases x <;> exact h

theorem readOnly_convClass {d : Bool} (c c' : Bool) (k k' : Cls) (hi : isIter k = true)
    (h : readOnly d (.obj c k) = true) (hk : convClass k k' = true) : readOnly d (.obj c' k') = true := by
  unfold convClass at hk
  split at hk
  · cases h
  · cases h
  · cases h
  · rw [beq_iff_eq] at hk; subst hk
    cases k <;> first | exact h | simp [isIter] at hi

theorem readOnly_initable {d : Bool} (v : Val) (x : X) (h : readOnly d v.x = true) (hi : initable v x = true) :
    readOnly d x = true := by
  cases x with
  | elem t => simp [initable] at hi
  | obj c k' =>
    simp only [initable] at hi
    split at hi
    · rename_i c0 k0 hx
      rw [Bool.and_eq_true] at hi
      rw [hx] at h
      exact readOnly_convClass c0 c k0 k' hi.1 h hi.2
    · rename_i b hx
      rw [hx] at h
      simp [readOnly] at h
    · cases hi
  | ptr c y =>
    simp only [initable] at hi
    have hd := readOnly_decay v.x h
    split at hi
    · rename_i b x hx
      rw [hx] at hd
      exact readOnly_qual true x y hd hi
    · cases hi
  | arr x => simp [initable] at hi
  | num => rfl

theorem readOnly_bare {d : Bool} (v : Val) (x : X) (hf : fits v (.val x) = true) (h : readOnly d x = true) :
    readOnly d (Ret.val x).toVal.x = true := by
  cases x with
  | elem t => simp [fits, initable] at hf
  | obj c k =>
    have hk : isIter k = true := by
      simp only [fits, initable] at hf
      split at hf
      · rename_i c0 k0 hx
        rw [Bool.and_eq_true] at hf
        revert hf
        unfold convClass
        split <;> intro hf
        · rfl
        · rfl
        · rfl
        · rw [beq_iff_eq] at hf
          rw [← hf.2]; exact hf.1
      · cases k <;> simp_all [isIter]
      · cases hf
    cases k <;> first | exact h | simp [isIter] at hk
  | ptr c y => exact h
  | arr x => simp [fits, initable] at hf
  | num => rfl

/-- The type a result refers to. -/
def Ret.x : Ret → X
  | .val x => x
  | .ref x => x

/-- A call that is typed has the declared type of a member found, whose body compiles; or it is built in. -/
theorem check_call {T : Ty} {Γ : Nat → Option X} {body : Cls → Member → Option Val} {self : Option X} {e : Expr}
    {m : Meth} {b : Val} (h : check T Γ body self (.call e m) = some b) :
    ∃ v, check T Γ body self e = some v ∧
      ((∃ c k k' M r b', v.x = .obj c k ∧ resolve T k c m = some (k', M) ∧ M.ret = some r ∧ body k' M = some b' ∧
        fits b' r = true ∧ b = r.toVal) ∨ ((∀ c k, v.x ≠ .obj c k) ∧ builtin m v = some b)) := by
  simp only [check, Option.bind_eq_some_iff] at h
  obtain ⟨v, hv, h⟩ := h
  refine ⟨v, hv, ?_⟩
  split at h
  · rename_i c k hx
    simp only [Option.bind_eq_some_iff] at h
    obtain ⟨kM, h1, r, h2, b', h3, h4⟩ := h
    split at h4
    · rename_i hf
      injection h4 with h4
      exact .inl ⟨c, k, kM.1, kM.2, r, b', hx, h1, h2, h3, hf, h4.symm⟩
    · cases h4
  · rename_i hx
    exact .inr ⟨hx, h⟩

/-- Members that promise write access from a `const` object although their bodies have none do not compile. -/
theorem no_write_body {T : Ty} (hT : Plain T = true) (n : Nat) (k : Cls) (M : Member) (b : Val)
    (hM : (k = .array ∧ M = ⟨.data, true, P T, me .data_⟩) ∨
      (k = .stack ∧ M = ⟨.top, true, R T, .call (me .container_) .back⟩) ∨
      (k = .queue ∧ M = ⟨.front, true, R T, .call (me .container_) .front⟩) ∨
      (k = .listCIt ∧ M = ⟨.arrow, true, P T, .addr (.call (me .current_).deref .getValue)⟩))
    (hb : bodyTy T n k M = some b) : b.x = .arr (.elem T.mkConst) ∨ b.x = .elem T.mkConst ∨
      b.x = .ptr false (.elem T.mkConst) := by
  cases n with
  | zero => cases hb
  | succ n =>
  simp only [bodyTy] at hb
  rcases hM with ⟨rfl, rfl⟩ | ⟨rfl, rfl⟩ | ⟨rfl, rfl⟩ | ⟨rfl, rfl⟩
  · simp [me, check, fieldType, X.konst] at hb
    subst hb; exact .inl rfl
  · obtain ⟨v, hv, h⟩ := check_call hb
    simp [me, check, fieldType, X.konst] at hv
    subst hv
    rcases h with ⟨c, k, k', M, r, b', h1, h2, h3, h4, h5, h6⟩ | ⟨h, -⟩
    · injection h1 with h1 h1'; subst h1 h1'
      simp [resolve, methods, dequeMembers, pick, super] at h2
      obtain ⟨rfl, rfl⟩ := h2
      simp only [crT hT, Option.some.injEq] at h3
      subst h3 h6; exact .inr (.inl rfl)
    · exact absurd rfl (h _ _)
  · obtain ⟨v, hv, h⟩ := check_call hb
    simp [me, check, fieldType, X.konst] at hv
    subst hv
    rcases h with ⟨c, k, k', M, r, b', h1, h2, h3, h4, h5, h6⟩ | ⟨h, -⟩
    · injection h1 with h1 h1'; subst h1 h1'
      simp [resolve, methods, dequeMembers, pick, super] at h2
      obtain ⟨rfl, rfl⟩ := h2
      simp only [crT hT, Option.some.injEq] at h3
      subst h3 h6; exact .inr (.inl rfl)
    · exact absurd rfl (h _ _)
  · simp only [check, Option.bind_eq_some_iff] at hb
    obtain ⟨w, hw, hb⟩ := hb
    split at hb
    · injection hb with hb; subst hb
      have hw' : check T (fun _ => none) (bodyTy T n) (some (.obj true .listCIt))
          (.call (me .current_).deref .getValue) = some w := by
        simp only [check, Option.bind_eq_some_iff]; exact hw
      obtain ⟨v, hv, h⟩ := check_call hw'
      simp [me, Expr.deref, check, fieldType, X.konst, builtin, decay] at hv
      subst hv
      rcases h with ⟨c, k, k', M, r, b', h1, h2, h3, h4, h5, h6⟩ | ⟨h, -⟩
      · injection h1 with h1 h1'; subst h1 h1'
        simp [resolve, methods, listNodeMembers, pick, super] at h2
        obtain ⟨rfl, rfl⟩ := h2
        simp only [crT hT, Option.some.injEq] at h3
        subst h3 h6; exact .inr (.inr rfl)
      · exact absurd rfl (h _ _)
    · cases hb

/-- The members users can call lead from types that cannot be written through to such types. -/
theorem readOnly_member {T : Ty} (hT : Plain T = true) {d : Bool} (n : Nat) (k : Cls) (c : Bool) (M : Member) (r : Ret)
    (b : Val) (hM : M ∈ methods T k) (hc : c = true → M.cst = true)
    (hu : M.name ≠ .objPointer ∧ M.name ≠ .minNode ∧ (M.name = .data → d = true))
    (h : readOnly d (.obj c k) = true) (hr : M.ret = some r) (hb : bodyTy T n k M = some b) (hf : fits b r = true) :
    readOnly d r.x = true := by
  have f0 := isc hT
  have f1 := rT hT
  have f2 := pT hT
  have f3 := crT hT
  have f4 := cpT hT
  have f5 := rC hT
  have f6 := pC hT
  have f7 := alr hT
  have f8 := apt hT
  have f9 := alrC hT
  have f10 := aptC hT
  have f11 := iscC hT
  have nw := no_write_body hT n k M b
  cases k
  all_goals first
    | (cases h; done)
    | (rename_i c'
       have hc' : c' = true := h
       subst hc')
    | skip
  all_goals
    simp only [methods, arrayMembers, vectorMembers, dequeMembers, listMembers, stackMembers, queueMembers, setMembers,
      viewMembers, treeMembers, normMembers, revMembers, deqItMembers, listItMembers, treeItMembers, nodeBaseMembers,
      listNodeMembers, treeBaseMembers, List.mem_cons, List.not_mem_nil, or_false] at hM
  all_goals
    repeat' first
      | (rcases hM with rfl | hM)
      | subst hM
  all_goals
    simp only [readOnly, it, itRef, bool, arg, f1, f2, f3, f4, f5, f6, f7, f8, f9, f10, toRet, Option.bind_some,
      Option.map_some, Option.some.injEq, Cxx.add_const, Ty.mkConst, if_true] at hr h hc hu
  all_goals first
    | (subst hr; simp_all [readOnly, Ret.x]; done)
    | (simp_all [readOnly, Ret.x]; done)
    | (subst hr
       have nw' := nw (by simp) hb
       rcases nw' with e | e | e <;> simp_all [fits, initable, decay, qual, X.bare, X.isConst])

theorem pick_some {ms : List Member} {c : Bool} {m : Meth} {M : Member} (h : pick ms c m = some M) :
    M ∈ ms ∧ M.name = m ∧ (c = true → M.cst = true) := by
  have key : ∀ q : Bool, ms.find? (fun M => M.name == m && (M.cst == q)) = some M → M ∈ ms ∧ M.name = m ∧ M.cst = q := by
    intro q hq
    have h1 := List.mem_of_find?_eq_some hq
    have h2 := List.find?_some hq
    simp only [Bool.and_eq_true, beq_iff_eq] at h2
    exact ⟨h1, h2⟩
  have e1 : (fun M : Member => M.name == m && M.cst) = fun M => M.name == m && (M.cst == true) := by
    funext M; simp
  have e2 : (fun M : Member => M.name == m && !M.cst) = fun M => M.name == m && (M.cst == false) := by
    funext M; simp
  unfold pick at h
  rw [e1, e2] at h
  split at h
  · obtain ⟨a, b, c⟩ := key _ h; exact ⟨a, b, fun _ => c⟩
  · rename_i hc
    rw [Option.or_eq_some_iff] at h
    rcases h with h | ⟨-, h⟩
    · obtain ⟨a, b, -⟩ := key _ h; exact ⟨a, b, fun hc' => absurd hc' hc⟩
    · obtain ⟨a, b, -⟩ := key _ h; exact ⟨a, b, fun hc' => absurd hc' hc⟩

theorem resolve_some {T : Ty} {k k' : Cls} {c : Bool} {m : Meth} {M : Member} (h : resolve T k c m = some (k', M)) :
    (k' = k ∨ super k = some k') ∧ M ∈ methods T k' ∧ M.name = m ∧ (c = true → M.cst = true) := by
  unfold resolve at h
  split at h
  · simp only [Option.map_eq_some_iff, Prod.mk.injEq] at h
    obtain ⟨a, h1, rfl, rfl⟩ := h
    exact ⟨.inl rfl, pick_some h1⟩
  · simp only [Option.bind_eq_some_iff, Option.map_eq_some_iff, Prod.mk.injEq] at h
    obtain ⟨k1, h0, a, h1, rfl, rfl⟩ := h
    exact ⟨.inr h0, pick_some h1⟩

theorem readOnly_super {d c : Bool} {k k' : Cls} (h : readOnly d (.obj c k) = true) (hk : super k = some k') :
    readOnly d (.obj c k') = true := by
  cases k <;> simp [super] at hk
  all_goals (subst hk; exact h)

theorem readOnly_builtin {d : Bool} {m : Meth} {v b : Val} (h : readOnly d v.x = true) (hb : builtin m v = some b) :
    readOnly d b.x = true := by
  have hd := readOnly_decay v.x h
  unfold builtin at hb
  split at hb <;> rename_i hx <;> first
    | (rw [hx] at hd; injection hb with hb; subst hb; exact hd)
    | (injection hb with hb; subst hb; rfl)
    | (rw [hx] at hd
       split at hb
       · injection hb with hb; subst hb; exact hd
       · cases hb)
    | cases hb

/-- Whatever users write, starting from variables that cannot be written through, cannot be written through. -/
theorem readOnly_check {T : Ty} (hT : Plain T = true) {d : Bool} (n : Nat) (Γ : Nat → Option X)
    (hΓ : ∀ i x, Γ i = some x → readOnly d x = true) (e : Expr) (he : ofUser d e = true) (v : Val)
    (hv : check T Γ (bodyTy T n) none e = some v) : readOnly d v.x = true := by
  induction e generalizing v with
  | self => cases he
  | var i =>
    simp only [check, Option.map_eq_some_iff] at hv
    obtain ⟨x, hx, rfl⟩ := hv
    exact hΓ i x hx
  | field e f ih =>
    simp only [ofUser, Bool.and_eq_true, beq_iff_eq] at he
    obtain ⟨rfl, he⟩ := he
    simp only [check, Option.bind_eq_some_iff] at hv
    obtain ⟨w, hw, hv⟩ := hv
    have hro := ih he w hw
    split at hv
    · rename_i c k hx
      rw [hx] at hro
      cases k <;> simp [fieldType] at hv
      · subst hv
        cases c <;> exact hro
      · subst hv
        simp [readOnly] at hro
      · subst hv
        cases c <;> rfl
    · cases hv
  | call e m ih =>
    simp only [ofUser, Bool.and_eq_true, bne_iff_ne, Bool.or_eq_true] at he
    obtain ⟨⟨⟨h1, h2⟩, h3⟩, he⟩ := he
    obtain ⟨w, hw, h⟩ := check_call hv
    have hro := ih he w hw
    rcases h with ⟨c, k, k', M, r, b', e1, e2, e3, e4, e5, rfl⟩ | ⟨-, h⟩
    · rw [e1] at hro
      obtain ⟨hk, hM, rfl, hc⟩ := resolve_some e2
      have hro' : readOnly d (.obj c k') = true := by
        rcases hk with rfl | hk
        · exact hro
        · exact readOnly_super hro hk
      have hr := readOnly_member hT n k' c M r b' hM hc
        ⟨h1, h2, fun hd => h3.resolve_left (fun hn => hn hd)⟩ hro' e3 e4 e5
      cases r with
      | val x => exact readOnly_bare b' x e5 hr
      | ref x => exact hr
    · exact readOnly_builtin hro h
  | addr e ih =>
    simp only [check, Option.bind_eq_some_iff] at hv
    obtain ⟨w, hw, hv⟩ := hv
    split at hv
    · injection hv with hv; subst hv; exact ih he w hw
    · cases hv
  | konst e ih =>
    simp only [check, Option.map_eq_some_iff] at hv
    obtain ⟨w, hw, rfl⟩ := hv
    exact readOnly_konst _ (ih he w hw)
  | copy e ih =>
    simp only [check, Option.bind_eq_some_iff] at hv
    obtain ⟨w, hw, hv⟩ := hv
    have hro := ih he w hw
    split at hv
    · rename_i c k hx
      rw [hx] at hro
      split at hv
      · rename_i hk
        injection hv with hv; subst hv
        cases k <;> first | exact hro | simp [isIter] at hk
      · cases hv
    · rename_i c x hx
      rw [hx] at hro
      injection hv with hv; subst hv; exact hro
    · cases hv
  | conv e k ih =>
    simp only [check, Option.bind_eq_some_iff] at hv
    obtain ⟨w, hw, hv⟩ := hv
    split at hv
    · rename_i hi
      injection hv with hv; subst hv
      exact readOnly_initable w _ (ih he w hw) hi
    · cases hv
  | mk k e ih =>
    simp only [check, Option.bind_eq_some_iff] at hv
    obtain ⟨w, hw, x, hx, hv⟩ := hv
    split at hv
    · rename_i hi
      injection hv with hv; subst hv
      have hro := readOnly_initable w x (ih he w hw) hi
      cases k <;> simp [ctorParam, fieldType] at hx
      · rename_i c
        subst hx
        cases c
        · simp [readOnly, arg, isc hT] at hro
        · rfl
      · subst hx; exact hro
      · rename_i c
        obtain ⟨-, rfl⟩ := hx
        cases c
        · simp [readOnly, arg, isc hT] at hro
        · rfl
      · subst hx; simp [readOnly] at hro
      · rfl
      · subst hx; simp [readOnly] at hro
      · rfl
    · cases hv
  | cast x e ih =>
    simp only [check, Option.bind_eq_some_iff] at hv
    obtain ⟨w, hw, hv⟩ := hv
    have hro := ih he w hw
    split at hv
    · rename_i hc
      injection hv with hv; subst hv
      unfold castable at hc
      split at hc
      · rename_i hx
        rw [hx] at hro
        simp only [readOnly] at hro
        subst hro
        simpa [readOnly] using hc
      · rename_i hx
        rw [hx] at hro
        simp only [readOnly] at hro
        subst hro
        simpa [readOnly] using hc
      · cases hc
    · cases hv
  | assign a b iha ihb =>
    simp only [ofUser, Bool.and_eq_true] at he
    simp only [check, Option.bind_eq_some_iff] at hv
    obtain ⟨w, hw, u, hu, hv⟩ := hv
    split at hv
    · injection hv with hv; subst hv; exact iha he.1 w hw
    · cases hv
  | seq a b iha ihb =>
    simp only [ofUser, Bool.and_eq_true] at he
    simp only [check, Option.bind_eq_some_iff] at hv
    obtain ⟨w, hw, hv⟩ := hv
    exact ihb he.2 v hv

/-! Typing step by step: one lemma per kind of expression, the type as a variable to be found. -/
section steps
variable {T : Ty} {Γ : Nat → Option X} {n : Nat} {self : Option X} {body : Cls → Member → Option Val}

/-- The type of a member in an object that is `const` or not. -/
inductive Konst : Bool → X → X → Prop
  | no {x : X} : Konst false x x
  | elem {t : Ty} : Konst true (.elem t) (.elem t.mkConst)
  | obj {c : Bool} {k : Cls} : Konst true (.obj c k) (.obj true k)
  | ptr {c : Bool} {x : X} : Konst true (.ptr c x) (.ptr true x)
  | arr {t : Ty} : Konst true (.arr (.elem t)) (.arr (.elem t.mkConst))

/-- The expression a call is. -/
inductive Result : Ret → Val → Prop
  | ref {x : X} : Result (.ref x) ⟨true, x⟩
  | ptr {c : Bool} {x : X} : Result (.val (.ptr c x)) ⟨false, .ptr false x⟩
  | obj {c : Bool} {k : Cls} : Result (.val (.obj c k)) ⟨false, .obj false k⟩
  | num : Result (.val .num) ⟨false, .num⟩

theorem Result.eq {r : Ret} {w : Val} (h : Result r w) : w = r.toVal := by
  cases h <;> rfl

theorem self_ok {x : X} (h : self = some x) : check T Γ body self .self = some ⟨true, x⟩ := by
  simp [check, h]
theorem var_ok {i : Nat} {x : X} (h : Γ i = some x) : check T Γ body self (.var i) = some ⟨true, x⟩ := by
  simp [check, h]
theorem field_ok {e : Expr} {f : Fld} {v : Val} {c : Bool} {k : Cls} {x : X} (he : check T Γ body self e = some v)
    (hv : v.x = .obj c k) (hf : fieldType T k f = some x) {y : X} (hy : Konst c x y) :
    check T Γ body self (.field e f) = some ⟨true, y⟩ := by
  have hy' : (if c then x.konst else x) = y := by cases hy <;> rfl
  simp [check, he, hv, hf, hy']
theorem call_ok {e : Expr} {m : Meth} {v b w : Val} {c : Bool} {k k' : Cls} {M : Member} {r : Ret}
    (he : check T Γ (bodyTy T (n + 1)) self e = some v) (hv : v.x = .obj c k) (hM : resolve T k c m = some (k', M))
    (hr : M.ret = some r) (hb : check T (fun _ => none) (bodyTy T n) (some (.obj M.cst k')) M.body = some b)
    (hf : fits b r = true) (hw : w = r.toVal) : check T Γ (bodyTy T (n + 1)) self (.call e m) = some w := by
  have hb' : bodyTy T (n + 1) k' M = some b := hb
  simp only [check, he, hv, hM, hr, hb', hf, hw, Option.bind_some, if_true]
/-- What a call of `m` on `v` gives: built in, or by a member. -/
inductive Calls (T : Ty) (n : Nat) (m : Meth) (v w : Val) : Prop
  | op (hx : (match v.x with | .obj _ _ => false | _ => true) = true) (hw : builtin m v = some w) : Calls T n m v w
  | member {c : Bool} {k k' : Cls} {M : Member} {r : Ret} {b : Val} (hv : v.x = .obj c k)
      (hM : resolve T k c m = some (k', M)) (hr : M.ret = some r)
      {a : Expr} {q : Bool} (ha : M.body = a) (hq : M.cst = q)
      (hb : check T (fun _ => none) (bodyTy T n) (some (.obj q k')) a = some b)
      (hf : fits b r = true) (hw : Result r w) : Calls T n m v w
theorem calls_ok {e : Expr} {m : Meth} {v w : Val} (he : check T Γ (bodyTy T (n + 1)) self e = some v)
    (h : Calls T n m v w) : check T Γ (bodyTy T (n + 1)) self (.call e m) = some w := by
  cases h with
  | op hx hw =>
    simp only [check, he, Option.bind_some]
    split
    · rename_i h; rw [h] at hx; cases hx
    · exact hw
  | member hv hM hr ha hq hb hf hw => subst ha hq; exact call_ok he hv hM hr hb hf hw.eq
/-- What a copy of `v` is. -/
inductive Copies (v : Val) : Val → Prop
  | it {c : Bool} {k : Cls} (hv : v.x = .obj c k) (hk : isIter k = true) : Copies v ⟨true, .obj false k⟩
  | ptr {c : Bool} {x : X} (hv : v.x = .ptr c x) : Copies v ⟨true, .ptr false x⟩
theorem copies_ok {e : Expr} {v w : Val} (he : check T Γ body self e = some v) (h : Copies v w) :
    check T Γ body self (.copy e) = some w := by
  cases h with
  | it hv hk => simp [check, he, hv, hk]
  | ptr hv => simp [check, he, hv]
theorem addr_ok {e : Expr} {v : Val} (he : check T Γ body self e = some v) (hl : v.lv = true) :
    check T Γ body self (.addr e) = some ⟨false, .ptr false v.x⟩ := by
  simp [check, he, hl]
theorem mk_ok {e : Expr} {k : Cls} {v : Val} {x : X} (he : check T Γ body self e = some v)
    (hx : ctorParam T k = some x) (hi : initable v x = true) :
    check T Γ body self (.mk k e) = some ⟨false, .obj false k⟩ := by
  simp [check, he, hx, hi]
theorem cast_ok {e : Expr} {v : Val} {x : X} (he : check T Γ body self e = some v) (hc : castable v.x x = true) :
    check T Γ body self (.cast x e) = some ⟨false, .ptr false x⟩ := by
  simp [check, he, hc]
theorem assign_ok {a b : Expr} {v w : Val} (ha : check T Γ body self a = some v) (hb : check T Γ body self b = some w)
    (h : assignable v = true) (ht : takes w v.x = true) : check T Γ body self (.assign a b) = some v := by
  simp [check, ha, hb, h, ht]
theorem seq_ok {a b : Expr} {v w : Val} (ha : check T Γ body self a = some v) (hb : check T Γ body self b = some w) :
    check T Γ body self (.seq a b) = some w := by
  simp [check, ha, hb]

end steps

/-- What is needed to know of an element type. -/
structure Facts (T : Ty) : Prop where
  isc : Cxx.is_const T = false
  iscC : Cxx.is_const T.mkConst = true
  rc : Cxx.remove_const T = T
  rcC : Cxx.remove_const T.mkConst = T
  r : R T = some (.ref (.elem T))
  p : P T = some (.val (.ptr false (.elem T)))
  cr : CR T = some (.ref (.elem T.mkConst))
  cp : CP T = some (.val (.ptr false (.elem T.mkConst)))
  rA (c : Bool) : R (arg T c) = some (.ref (.elem (arg T c)))
  pA (c : Bool) : P (arg T c) = some (.val (.ptr false (.elem (arg T c))))
  lr : (Cxx.add_lvalue_reference T).bind toRet = some (.ref (.elem T))
  ap : (Cxx.add_pointer T).bind toRet = some (.val (.ptr false (.elem T)))
  lrA (c : Bool) : (Cxx.add_lvalue_reference (arg T c)).bind toRet = some (.ref (.elem (arg T c)))
  lrC (c : Bool) : ((Cxx.add_lvalue_reference (arg T c)).map Cxx.add_const).bind toRet = some (.ref (.elem (arg T c)))
  apA (c : Bool) : (Cxx.add_pointer (arg T c)).bind toRet = some (.val (.ptr false (.elem (arg T c))))
  apC (c : Bool) : ((Cxx.add_pointer (arg T c)).map Ty.mkConst).bind toRet = some (.val (.ptr true (.elem (arg T c))))
  dq (c : Bool) : fieldType T (.deqIt c) .deque_ = some (.ptr false (.obj c .deque))
  dqp (c : Bool) : ctorParam T (.deqIt c) = some (.ptr false (.obj c .deque))
  f1 : fits ⟨true, .elem T⟩ (.ref (.elem T)) = true
  f2 : fits ⟨true, .elem T⟩ (.ref (.elem T.mkConst)) = true
  f3 : fits ⟨true, .elem T.mkConst⟩ (.ref (.elem T.mkConst)) = true
  g1 (l c d : Bool) : fits ⟨l, .ptr c (.elem T)⟩ (.val (.ptr d (.elem T))) = true
  g2 (l c d : Bool) : fits ⟨l, .ptr c (.elem T)⟩ (.val (.ptr d (.elem T.mkConst))) = true
  g3 (l c d : Bool) : fits ⟨l, .ptr c (.elem T.mkConst)⟩ (.val (.ptr d (.elem T.mkConst))) = true
  g4 (l d : Bool) : fits ⟨l, .arr (.elem T)⟩ (.val (.ptr d (.elem T))) = true
  g5 (l d : Bool) : fits ⟨l, .arr (.elem T.mkConst)⟩ (.val (.ptr d (.elem T.mkConst))) = true
  g6 : fits ⟨true, .ptr true (.elem T)⟩ (.ref (.ptr true (.elem T))) = true
  g7 : fits ⟨true, .ptr true (.elem T.mkConst)⟩ (.ref (.ptr true (.elem T.mkConst))) = true
  p1 (l c d : Bool) : initable ⟨l, .ptr c (.elem T)⟩ (.ptr d (.elem T)) = true
  p2 (l c d : Bool) : initable ⟨l, .ptr c (.elem T)⟩ (.ptr d (.elem T.mkConst)) = true
  p3 (l c d : Bool) : initable ⟨l, .ptr c (.elem T.mkConst)⟩ (.ptr d (.elem T.mkConst)) = true

theorem facts {T : Ty} (h : Plain T = true) : Facts T := by
  refine ⟨isc h, iscC h, rc h, rcC h, rT h, pT h, crT h, cpT h, ?_, ?_, ?_, ?_, ?_, ?_, ?_, ?_, ?_, ?_, ?_, ?_, ?_, ?_, ?_, ?_,
    ?_, ?_, ?_, ?_, ?_, ?_, ?_⟩
  · intro c; cases c
    · exact rT h
    · exact rC h
  · intro c; cases c
    · exact pT h
    · exact pC h
  · simp [alr h, toRet]
  · simp [apt h, toRet]
  · intro c; cases c <;> simp [arg, alr h, alrC h, toRet]
  · intro c; cases c <;> simp [arg, alr h, alrC h, toRet, Cxx.add_const, Ty.mkConst]
  · intro c; cases c <;> simp [arg, apt h, aptC h, toRet]
  · intro c; cases c <;> simp [arg, apt h, aptC h, toRet, Ty.mkConst]
  · intro c; cases c <;> simp [fieldType, arg, rcv h, rcvC h, isc h, iscC h]
  · intro c; cases c <;> simp [ctorParam, fieldType, arg, rcv h, rcvC h, isc h, iscC h]
  all_goals simp [fits, initable, decay, qual, X.bare, X.isConst, isc h, iscC h, rc h, rcC h]

end Verif.Access
