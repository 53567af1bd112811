import Verif.Lemmas.Convert

/-!
C105: smart pointers convert where plain pointers do, to the same subobject, and what they dispose of stays the same.
-/

set_option backward.isDefEq.respectTransparency false

namespace Verif.Convert

/-! ## Classes for the examples -/

/-- Qualifiers none, class `n`. -/
def C (n : Nat) : OT := ⟨false, false, .cls n⟩

/-- `const`, class `n`. -/
def KC (n : Nat) : OT := ⟨true, false, .cls n⟩

/-- `struct A {}; struct B : A {}; struct V { virtual ~V(); }; struct W : virtual V {}; struct X : virtual V {};
struct D : W, X {}; class P : A {}; struct B2 : A {}; struct Amb : B, B2 {}; struct S : B {}; struct M { }; struct Z : M, S {};` -/
def zoo : Hier :=
  [ ⟨[], false⟩, ⟨[⟨0, .pub, false⟩], false⟩, ⟨[], true⟩, ⟨[⟨2, .pub, true⟩], false⟩, ⟨[⟨2, .pub, true⟩], false⟩,
    ⟨[⟨3, .pub, false⟩, ⟨4, .pub, false⟩], false⟩, ⟨[⟨0, .priv, false⟩], false⟩, ⟨[⟨0, .pub, false⟩], false⟩,
    ⟨[⟨1, .pub, false⟩, ⟨7, .pub, false⟩], false⟩, ⟨[⟨1, .pub, false⟩], false⟩, ⟨[], false⟩,
    ⟨[⟨10, .pub, false⟩, ⟨9, .pub, false⟩], false⟩ ]

theorem zoo_wf : WF zoo := by decide

/-- `Z*` to `A*`. -/
theorem zoo_ZA : PtrConv zoo (C 11) (C 0) := (ptrConv_cls zoo_wf rfl rfl).2 (by decide)

/-- `D*` to `V*`: the base class is virtual and there twice on the way, but once in the object. -/
theorem zoo_DV : PtrConv zoo (C 5) (C 2) := (ptrConv_cls zoo_wf rfl rfl).2 (by decide)

/-! ## Which conversions compile -/

theorem isBaseOf_of_ptrConv {H : Hier} {U T : OT} {b : Nat} (hT : T.core = .cls b) (h : PtrConv H U T) : is_base_of H T U := by
  rcases h.2.2 with h | h | ⟨d, b', hd, hb', hB, _, _⟩
  · exact ⟨b, b, hT, h.trans hT, .inl rfl⟩
  · rw [hT] at h; cases h
  · exact ⟨b', d, hb', hd, .inr hB⟩

theorem PtrConv.refl (H : Hier) (U : OT) : PtrConv H U U := ⟨id, id, .inl rfl⟩

/-- C105, part (classes only): for all classes with all qualifiers, a `shared_ptr<U>` can be used to make or assign a
`shared_ptr<T>`, or to make a `weak_ptr<T>`, exactly if `U*` converts implicitly to `T*`. -/
theorem C105_shared_partial {H : Hier} {U T : OT} {d b : Nat} (hU : U.core = .cls d) (hT : T.core = .cls b) :
    (SharedConv H U T ↔ PtrConv H U T) ∧ (WeakFromShared H U T ↔ PtrConv H U T) := by
  have hu : ClassOK U := by unfold ClassOK; rw [hU]; simp
  have ht : ClassOK T := by unfold ClassOK; rw [hT]; simp
  exact ⟨⟨fun h => h.2, fun h => ⟨⟨hu, ht, .inr (isBaseOf_of_ptrConv hT h)⟩, h⟩⟩,
    ⟨fun h => h.2.2.2, fun h => ⟨hu, ht, .inr (isBaseOf_of_ptrConv hT h), h⟩⟩⟩

example : SharedConv zoo (C 11) (C 0) ∧ SharedConv zoo (C 5) (KC 2) ∧ ¬ SharedConv zoo (KC 5) (C 2) ∧
    ¬ SharedConv zoo (C 6) (C 0) ∧ ¬ SharedConv zoo (C 8) (C 0) := by
  rw [(C105_shared_partial rfl rfl).1, (C105_shared_partial rfl rfl).1, (C105_shared_partial rfl rfl).1,
    (C105_shared_partial rfl rfl).1, (C105_shared_partial rfl rfl).1]
  rw [ptrConv_cls zoo_wf rfl rfl, ptrConv_cls zoo_wf rfl rfl, ptrConv_cls zoo_wf rfl rfl, ptrConv_cls zoo_wf rfl rfl,
    ptrConv_cls zoo_wf rfl rfl]
  refine ⟨?_, ?_, ?_, ?_, ?_⟩ <;> decide

/-- C105, what holds for all types: every conversion of smart pointers that compiles is one of plain pointers. -/
theorem C105_sound {H : Hier} {U T : OT} :
    (SharedConv H U T → PtrConv H U T) ∧ (WeakFromShared H U T → PtrConv H U T) ∧ (WeakFromWeak U T → PtrConv H U T) ∧
    (UniqueConv H U T → PtrConv H U T) := by
  refine ⟨fun h => h.2, fun h => h.2.2.2, fun h => h.2 ▸ PtrConv.refl H U, ?_⟩
  rintro (⟨rfl, _⟩ | h)
  · exact PtrConv.refl H U
  · exact h.2.1

example : UniqueConv zoo (C 11) (C 0) :=
  .inr ⟨isBaseOf_of_ptrConv rfl zoo_ZA, zoo_ZA, .inr fun a b ha hb => by
    cases ha; cases hb
    rw [isBase_iff zoo_wf, isBase_iff zoo_wf, unambig_iff zoo_wf, unambig_iff zoo_wf, nonVirtual_iff zoo_wf]
    refine ⟨?_, fun _ => ⟨?_, ?_⟩⟩ <;> decide⟩

/-- C105, exactly which conversions of `shared_ptr`s compile, for all types. -/
theorem C105_shared_exact {H : Hier} {U T : OT} :
    SharedConv H U T ↔ PtrConv H U T ∧ T.core ≠ .void ∧ (U = T ∨ ∃ b, T.core = .cls b) := by
  constructor
  · rintro ⟨⟨_, ht, h⟩, hp⟩
    exact ⟨hp, ht, h.imp_right fun ⟨b, _, hb, _⟩ => ⟨b, hb⟩⟩
  · rintro ⟨hp, ht, h⟩
    refine ⟨⟨?_, ht, ?_⟩, hp⟩
    · intro hu
      rcases hp.2.2 with e | e | ⟨d, _, hd, _⟩
      · exact ht (e ▸ hu)
      · exact ht e
      · rw [hu] at hd; cases hd
    · exact h.imp_right fun ⟨b, hb⟩ => isBaseOf_of_ptrConv hb hp

example : SharedConv zoo ⟨false, false, .fund 3⟩ ⟨false, false, .fund 3⟩ ∧ SharedConv zoo (C 11) (C 0) :=
  ⟨C105_shared_exact.2 ⟨PtrConv.refl _ _, by simp, .inl rfl⟩, C105_shared_exact.2 ⟨zoo_ZA, by simp [C], .inr ⟨0, rfl⟩⟩⟩

/-- The deleter of a derived class becomes that of a base class exactly if the base is not virtual. -/
theorem delConv_iff {H : Hier} (hw : WF H) {U T : OT} {d b : Nat} (hU : U.core = .cls d) (hT : T.core = .cls b)
    (hp : PtrConv H U T) : DelConv H U T ↔ U = T ∨ d = b ∨ NonVirtual H d b := by
  unfold DelConv is_convertible_ptr CastOK
  refine or_congr_right ?_
  constructor
  · intro h
    by_cases hdb : d = b
    · exact .inl hdb
    · have hB : IsBase H d b := by
        rcases hp.2.2 with e | e | ⟨d', b', h1, h2, h3, _⟩
        · rw [hU, hT] at e; cases e; exact absurd rfl hdb
        · rw [hT] at e; cases e
        · rw [hU] at h1; rw [hT] at h2; cases h1; cases h2; exact h3
      exact .inr ((h b d hT hU).2 hB).2
  · intro h a c ha hc
    rw [hT] at ha; rw [hU] at hc; cases ha; cases hc
    refine ⟨fun hB => ?_, fun hB => ?_⟩
    · exfalso
      have h1 := hB.lt hw
      rcases hp.2.2 with e | e | ⟨d', b', h1', h2', h3, _⟩
      · rw [hU, hT] at e; cases e; omega
      · rw [hT] at e; cases e
      · rw [hU] at h1'; rw [hT] at h2'; cases h1'; cases h2'
        have := h3.lt hw; omega
    · have hlt := hB.lt hw
      rcases hp.2.2 with e | e | ⟨d', b', h1', h2', _, hu, _⟩
      · rw [hU, hT] at e; cases e; omega
      · rw [hT] at e; cases e
      · rw [hU] at h1'; rw [hT] at h2'; cases h1'; cases h2'
        refine ⟨hu, ?_⟩
        rcases h with rfl | h
        · omega
        · exact h

/-- C105 for `unique_ptr`, exactly which conversions between classes compile: those of the plain pointers, unless the base class
is virtual or a base class of a virtual one. -/
theorem C105_unique_exact {H : Hier} (hw : WF H) {U T : OT} {d b : Nat} (hU : U.core = .cls d) (hT : T.core = .cls b) :
    UniqueConv H U T ↔ PtrConv H U T ∧ (d = b ∨ NonVirtual H d b) := by
  constructor
  · rintro (⟨rfl, _⟩ | ⟨_, hp, hd⟩)
    · rw [hU] at hT; cases hT; exact ⟨PtrConv.refl H U, .inl rfl⟩
    · refine ⟨hp, ?_⟩
      rcases (delConv_iff hw hU hT hp).1 hd with rfl | h
      · rw [hU] at hT; cases hT; exact .inl rfl
      · exact h
  · rintro ⟨hp, h⟩
    exact .inr ⟨isBaseOf_of_ptrConv hT hp, hp, (delConv_iff hw hU hT hp).2 (.inr h)⟩

example : UniqueConv zoo (C 11) (KC 0) ∧ ¬ UniqueConv zoo (C 6) (C 0) := by
  rw [C105_unique_exact zoo_wf rfl rfl, C105_unique_exact zoo_wf rfl rfl, ptrConv_cls zoo_wf rfl rfl,
    ptrConv_cls zoo_wf rfl rfl, nonVirtual_iff zoo_wf, nonVirtual_iff zoo_wf]
  refine ⟨⟨?_, ?_⟩, ?_⟩ <;> decide

/-- C105 for `unique_ptr`, part (classes, without virtual inheritance on the way): the conversions are those of the plain
pointers. -/
theorem C105_unique_partial {H : Hier} (hw : WF H) {U T : OT} {d b : Nat} (hU : U.core = .cls d) (hT : T.core = .cls b)
    (hv : NonVirtual H d b) : UniqueConv H U T ↔ PtrConv H U T :=
  ⟨fun h => C105_sound.2.2.2 h, fun h => (C105_unique_exact hw hU hT).2 ⟨h, .inr hv⟩⟩

example : NonVirtual zoo 11 0 := by rw [nonVirtual_iff zoo_wf]; decide

/-- C105 for plain pointers handed to a `shared_ptr`, part (`U` does not derive from `enable_shared_from_this`, or is `T` itself without
qualifiers and derives from `enable_shared_from_this<U>`): for all types but `void`, a `shared_ptr<T>` takes a `U*` exactly if it
converts to `T*`; a `unique_ptr<T>` in any case. -/
theorem C105_from_ptr_partial {H : Hier} {E : Nat → Option Nat} {U T : OT} (hT : T.core ≠ .void)
    (hE : (∀ d, U.core = .cls d → E d = none) ∨ ∃ d, U = ⟨false, false, .cls d⟩ ∧ E d = some d ∧ T = U) :
    (SharedFromPtr H E U T ↔ PtrConv H U T) ∧ (UniqueFromPtr H U T ↔ PtrConv H U T) := by
  refine ⟨⟨fun h => h.2.1, fun hp => ⟨hT, hp, ?_, ?_⟩⟩, fun h => h.2, fun h => ⟨hT, h⟩⟩
  · intro hf d hd hne
    rcases hE with hE | ⟨d', rfl, hE, rfl⟩
    · exfalso
      rcases hf with rfl | hf
      · exact hne (hE d hd)
      · exact hf (isBaseOf_of_ptrConv hd hp)
    · cases hd
      exact ⟨rfl, rfl, d, d, rfl, hE, hT, hT, .inl rfl, PtrConv.refl H _⟩
  · intro hf d hd hne
    rcases hE with hE | ⟨d', rfl, hE, rfl⟩
    · exact absurd (hE d hd) hne
    · exact absurd (.inl rfl) hf

example : (∀ d, (C 11).core = .cls d → (fun n => if n = 5 then some 5 else none : Nat → Option Nat) d = none) ∧
    PtrConv zoo (C 11) (C 0) := ⟨fun d h => by cases h; rfl, zoo_ZA⟩

/-- C105 violated: an object of a class that derives from `enable_shared_from_this` can be handed to no `shared_ptr` of a base class
that does not, and to no `shared_ptr` of const, although the pointers convert. -/
theorem C105_violated_shared_from_this {H : Hier} {E : Nat → Option Nat} {U T : OT} {d b : Nat} (hU : U.core = .cls d)
    (hT : T.core = .cls b) (hE : E d ≠ none) (hne : U ≠ T) (h : E b = none ∨ T.c = true ∨ T.v = true) :
    ¬ SharedFromPtr H E U T := by
  rintro ⟨_, hp, _, h2⟩
  have hf : ¬ FirstCtor H U T := by
    rintro (hf | hf)
    · exact hne hf
    · exact hf (isBaseOf_of_ptrConv hT hp)
  obtain ⟨hc, hv, b', x, hb', hx, _⟩ := h2 hf d hU hE
  rw [hT] at hb'; cases hb'
  rcases h with h | h | h
  · rw [h] at hx; cases hx
  · rw [h] at hc; cases hc
  · rw [h] at hv; cases hv

example : (fun n => if n = 11 then some 11 else none : Nat → Option Nat) 11 ≠ none ∧ C 11 ≠ C 0 ∧ C 11 ≠ KC 11 ∧
    PtrConv zoo (C 11) (C 0) ∧ PtrConv zoo (C 11) (KC 11) := by
  refine ⟨by decide, by decide, by decide, zoo_ZA, ?_⟩
  rw [ptrConv_cls zoo_wf rfl rfl]; decide

/-! ## Where the pointers point -/

/-- What plain pointers do: converted implicitly from type to type, `v` becomes `w`. -/
inductive Plain (H : Hier) : OT → PVal → List OT → OT → PVal → Prop where
  | refl (U : OT) (v : PVal) : Plain H U v [] U v
  | step {U M T : OT} {v w x : PVal} {l : List OT} : PtrConv H U M → ConvVal H U M v w → Plain H M w l T x →
      Plain H U v (M :: l) T x

/-- C105: after any number of copies, moves, assignments and conversions between `shared_ptr`s and `weak_ptr`s of different
types, `get()` is what plain pointers would hold after the same conversions, and the control block is the same. -/
theorem C105_steps {H : Hier} {x y : Bool × SP} {l : List OT} (h : Steps H x l y) :
    Plain H x.2.ty x.2.ptr l y.2.ty y.2.ptr ∧ y.2.ctrl = x.2.ctrl := by
  induction h with
  | refl x => exact ⟨.refl _ _, rfl⟩
  | step hs _ ih =>
    cases hs with
    | shared hc hv => exact ⟨.step (C105_sound.1 hc) hv ih.1, ih.2⟩
    | weak hc hv => exact ⟨.step (C105_sound.2.1 hc) hv ih.1, ih.2⟩
    | weakCopy hc => exact ⟨.step (C105_sound.2.2.1 hc) (.inl ⟨by rw [hc.2], rfl⟩) ih.1, ih.2⟩
    | lock => exact ⟨.step (PtrConv.refl H _) (.inl ⟨rfl, rfl⟩) ih.1, ih.2⟩

/-- `shared_ptr<Z>` to `shared_ptr<S>` to `weak_ptr<A>`, locked: the `A` in the `B` in the `S` in the `Z`. -/
example : Steps zoo (false, ⟨C 11, .at 7 11 [], some ⟨C 11, .at 7 11 [], C 11⟩⟩) [C 9, C 0, C 0]
    (false, ⟨C 0, .at 7 11 [9, 1, 0], some ⟨C 11, .at 7 11 [], C 11⟩⟩) := by
  refine .step (y := (false, ⟨C 9, .at 7 11 [9], some ⟨C 11, .at 7 11 [], C 11⟩⟩)) (.shared ?_ ?_)
    (.step (y := (true, ⟨C 0, .at 7 11 [9, 1, 0], some ⟨C 11, .at 7 11 [], C 11⟩⟩)) (.weak ?_ ?_) (.step (.lock) (.refl _)))
  · rw [(C105_shared_partial rfl rfl).1, ptrConv_cls zoo_wf rfl rfl]; decide
  · exact .inr (.inr ⟨11, 9, [⟨9, .pub, false⟩], rfl, rfl, by simp, .cons (by decide) (.nil _), rfl⟩)
  · rw [(C105_shared_partial rfl rfl).2, ptrConv_cls zoo_wf rfl rfl]; decide
  · exact .inr (.inr ⟨9, 0, [⟨1, .pub, false⟩, ⟨0, .pub, false⟩], rfl, rfl, by simp,
      .cons (by decide) (.cons (by decide) (.nil _)), rfl⟩)

/-- C105: the same for chains of `unique_ptr`s. -/
theorem C105_unique_steps {H : Hier} {U T : OT} {v w : PVal} {l : List OT} (h : USteps H U v l T w) : Plain H U v l T w := by
  induction h with
  | refl => exact .refl _ _
  | step hc hv _ ih => exact .step (C105_sound.2.2.2 hc) hv ih

theorem Plain.conv {H : Hier} {U T : OT} {v w : PVal} {l : List OT} (h : Plain H U v l T w) (hU : U.core ≠ .void)
    (hl : ∀ M ∈ l, M.core ≠ .void) : ConvVal H U T v w ∧ T.core ≠ .void := by
  induction h with
  | refl => exact ⟨.inl ⟨rfl, rfl⟩, hU⟩
  | @step U M T v w x l hp hv _ ih =>
    obtain ⟨h1, h2⟩ := ih (hl M (by simp)) fun N hN => hl N (by simp [hN])
    exact ⟨convVal_trans (hl M (by simp)) h2 hv h1, h2⟩

theorem steps_nonvoid {H : Hier} {x y : Bool × SP} {l : List OT} (h : Steps H x l y) (hx : x.2.ty.core ≠ .void) :
    ∀ M ∈ l, M.core ≠ .void := by
  induction h with
  | refl => simp
  | @step x y z l hs _ ih =>
    have hy : y.2.ty.core ≠ .void := by
      cases hs with
      | shared hc _ => exact hc.1.2.1
      | weak hc _ => exact hc.2.1
      | weakCopy hc => exact hc.1
      | lock => exact hx
    intro M hM
    rcases List.mem_cons.mp hM with rfl | hM
    · exact hy
    · exact ih hy M hM

/-- C105: ways do not matter. If a pointer of the first type converts implicitly to the last type, then any chain of conversions of
`shared_ptr`s and `weak_ptr`s from the first to the last type ends at the subobject the direct conversion of `get()` gives. -/
theorem C105_ways_agree {H : Hier} (hw : WF H) {x y : Bool × SP} {l : List OT} (h : Steps H x l y)
    (hx : x.2.ty.core ≠ .void) (hd : PtrConv H x.2.ty y.2.ty) {w : PVal} (hv : ConvVal H x.2.ty y.2.ty x.2.ptr w) :
    y.2.ptr = w :=
  convVal_unique hw hd ((C105_steps h).1.conv hx (steps_nonvoid h hx)).1 hv

/-- The ways from `D` to `V` through `W` and through `X`. -/
example : ∀ m ∈ [3, 4], ∃ y : Bool × SP, Steps zoo (false, ⟨C 5, .at 7 5 [], none⟩) [C m, C 2] y ∧ y.2.ty = C 2 ∧ y.2.ptr = .at 7 2 [] := by
  intro m hm
  refine ⟨(false, ⟨C 2, .at 7 2 [], none⟩), ?_, rfl, rfl⟩
  have h : m = 3 ∨ m = 4 := by simpa using hm
  refine .step (y := (false, ⟨C m, .at 7 5 [m], none⟩)) (.shared ?_ ?_)
    (.step (y := (false, ⟨C 2, .at 7 2 [], none⟩)) (.shared ?_ ?_) (.refl _))
  · rw [(C105_shared_partial rfl rfl).1, ptrConv_cls zoo_wf rfl rfl]; rcases h with rfl | rfl <;> decide
  · refine .inr (.inr ⟨5, m, [⟨m, .pub, false⟩], rfl, rfl, by simp, .cons ?_ (.nil _), rfl⟩)
    rcases h with rfl | rfl <;> decide
  · rw [(C105_shared_partial rfl rfl).1, ptrConv_cls zoo_wf rfl rfl]; rcases h with rfl | rfl <;> decide
  · refine .inr (.inr ⟨m, 2, [⟨2, .pub, true⟩], rfl, rfl, by simp, .cons ?_ (.nil _), rfl⟩)
    rcases h with rfl | rfl <;> decide

theorem usteps_nonvoid {H : Hier} {U T : OT} {v w : PVal} {l : List OT} (h : USteps H U v l T w) :
    ∀ M ∈ l, M.core ≠ .void := by
  induction h with
  | refl => simp
  | step hc _ _ ih =>
    intro M hM
    rcases List.mem_cons.mp hM with rfl | hM
    · rcases hc with ⟨_, h⟩ | ⟨⟨b, _, hb, _⟩, _⟩
      · exact h
      · rw [hb]; simp
    · exact ih M hM

/-- C105: the same for `unique_ptr`. -/
theorem C105_unique_ways_agree {H : Hier} (hw : WF H) {U T : OT} {v w : PVal} {l : List OT} (h : USteps H U v l T w)
    (hU : U.core ≠ .void) (hd : PtrConv H U T) {w' : PVal} (hv : ConvVal H U T v w') : w = w' :=
  convVal_unique hw hd ((C105_unique_steps h).conv hU (usteps_nonvoid h)).1 hv

/-- `unique_ptr<Z>` to `unique_ptr<S>` to `unique_ptr<A>`. -/
theorem zoo_usteps : USteps zoo (C 11) (.at 7 11 []) [C 9, C 0] (C 0) (.at 7 11 [9, 1, 0]) := by
  refine .step (w := .at 7 11 [9]) ?_ ?_ (.step (w := .at 7 11 [9, 1, 0]) ?_ ?_ (.refl _ _))
  · rw [C105_unique_exact zoo_wf rfl rfl, ptrConv_cls zoo_wf rfl rfl, nonVirtual_iff zoo_wf]; decide
  · exact .inr (.inr ⟨11, 9, [⟨9, .pub, false⟩], rfl, rfl, by simp, .cons (by decide) (.nil _), rfl⟩)
  · rw [C105_unique_exact zoo_wf rfl rfl, ptrConv_cls zoo_wf rfl rfl, nonVirtual_iff zoo_wf]; decide
  · exact .inr (.inr ⟨9, 0, [⟨1, .pub, false⟩, ⟨0, .pub, false⟩], rfl, rfl, by simp,
      .cons (by decide) (.cons (by decide) (.nil _)), rfl⟩)

example : ConvVal zoo (C 11) (C 0) (.at 7 11 []) (.at 7 11 [9, 1, 0]) :=
  ((C105_unique_steps zoo_usteps).conv (by simp [C]) (usteps_nonvoid zoo_usteps)).1

/-! ## What is disposed of -/

theorem delete_core {H : Hier} {k : Nat → Core} {T U : OT} (h : T.core = U.core) {v : PVal} {r : Del}
    (hd : Delete H k T v r) : Delete H k U v r := by
  cases hd with
  | null => exact .null
  | whole h1 h2 h3 => exact .whole (h ▸ h1) (h ▸ h2) h3
  | virt h1 h2 => exact .virt (h ▸ h1) h2
  | other h1 h2 => rw [h] at h1; rw [h] at h2; exact .other h1 h2

/-- The effect of `delete` is determined. -/
theorem delete_unique {H : Hier} {k : Nat → Core} {T : OT} {v : PVal} {r r' : Del} (h : Delete H k T v r)
    (h' : Delete H k T v r') : r = r' := by
  cases h with
  | null => cases h'; rfl
  | whole h1 h2 h3 =>
    cases h' with
    | whole => rfl
    | virt => rfl
    | other g1 _ => exact absurd ⟨h1, h2, h3, rfl⟩ g1
  | virt h1 h2 =>
    cases h' with
    | whole => rfl
    | virt => rfl
    | other _ g2 => exact absurd h2 (g2 _ h1)
  | other h1 h2 =>
    cases h' with
    | whole g1 g2 g3 => exact absurd ⟨g1, g2, g3, rfl⟩ h1
    | virt g1 g2 => exact absurd g2 (h2 _ g1)
    | other => rfl

theorem convVal_self {H : Hier} (hw : WF H) {U : OT} {v w : PVal} (h : ConvVal H U U v w) : w = v :=
  convVal_unique hw (PtrConv.refl H U) h (.inl ⟨rfl, rfl⟩)

/-- C105: whatever `shared_ptr<T>` a plain pointer `v` of type `U*` is handed to, and through whatever `shared_ptr`s and `weak_ptr`s of
other types it goes, in the end it is disposed of as by `delete v`: with the type and the value it was handed over with. -/
theorem C105_dispose {H : Hier} (hw : WF H) {k : Nat → Core} {U T : OT} {v : PVal} {s : SP} {E : Nat → Option Nat} (hn : NewShared H E U T v s)
    {l : List OT} {y : Bool × SP} (h : Steps H (false, s) l y) :
    ∃ c, y.2.ctrl = some c ∧ ∀ r, Dispose H k c r ↔ Delete H k U v r := by
  have hc := (C105_steps h).2
  simp only at hc
  cases hn with
  | @own w hf hsel hv =>
    have hcore : U.core = T.core := by
      rcases hf.2.1.2.2 with e | e | ⟨d, b, hd, hb, hB, _⟩
      · exact e
      · exact absurd e hf.1
      · rcases hsel with rfl | hs
        · rfl
        · exact absurd ⟨b, d, hb, hd, .inr hB⟩ hs
    have hwv : w = v := convVal_unique hw hf.2.1 hv (.inl ⟨hcore, rfl⟩)
    subst hwv
    refine ⟨_, hc, fun r => ⟨?_, fun hd => ⟨w, .inl ⟨rfl, rfl⟩, delete_core hcore hd⟩⟩⟩
    rintro ⟨w', hw', hd⟩
    cases convVal_self hw hw'
    exact delete_core hcore.symm hd
  | @other w hf hne hv =>
    refine ⟨_, hc, fun r => ⟨?_, fun hd => ⟨v, .inl ⟨rfl, rfl⟩, hd⟩⟩⟩
    rintro ⟨w', hw', hd⟩
    cases convVal_self hw hw'
    exact hd

theorem zoo_first : ¬ FirstCtor zoo (C 11) (C 0) := by
  rintro (h | h)
  · revert h; decide
  · exact h (isBaseOf_of_ptrConv rfl zoo_ZA)

theorem zoo_new : NewShared zoo (fun _ => none) (C 11) (C 0) (.at 7 11 [])
    ⟨C 0, .at 7 11 [9, 1, 0], some ⟨C 11, .at 7 11 [], C 11⟩⟩ :=
  .other ⟨by simp [ClassOK, C], zoo_ZA, fun h => absurd h zoo_first, fun _ _ _ h => absurd rfl h⟩ zoo_first
    (.inr (.inr ⟨11, 0, [⟨9, .pub, false⟩, ⟨1, .pub, false⟩, ⟨0, .pub, false⟩], rfl, rfl, by simp,
      .cons (by decide) (.cons (by decide) (.cons (by decide) (.nil _))), rfl⟩))

/-- C105: an object handed to a `shared_ptr` of a base class as what it is, is destroyed as a whole, also without virtual
destructors. -/
theorem C105_dispose_whole {H : Hier} (hw : WF H) {k : Nat → Core} {U T : OT} {o n : Nat} (hk : k o = .cls n)
    (hU : U.core = .cls n) {s : SP} {E : Nat → Option Nat} (hn : NewShared H E U T (.at o n []) s) {l : List OT} {y : Bool × SP}
    (h : Steps H (false, s) l y) : ∃ c, y.2.ctrl = some c ∧ Dispose H k c (.destroys o) ∧ ∀ r, Dispose H k c r → r = .destroys o := by
  obtain ⟨c, hc, hd⟩ := C105_dispose (k := k) hw hn h
  have h1 : Delete H k U (.at o n []) (.destroys o) :=
    .whole (by rw [hU]; simp) (hk.trans hU.symm) (fun m hm => by rw [hk] at hm; cases hm; rfl)
  exact ⟨c, hc, (hd _).2 h1, fun r hr => delete_unique ((hd r).1 hr) h1⟩

example : Steps zoo (false, ⟨C 0, .at 7 11 [9, 1, 0], some ⟨C 11, .at 7 11 [], C 11⟩⟩) [KC 0]
    (false, ⟨KC 0, .at 7 11 [9, 1, 0], some ⟨C 11, .at 7 11 [], C 11⟩⟩) := by
  refine .step (y := (false, ⟨KC 0, .at 7 11 [9, 1, 0], some ⟨C 11, .at 7 11 [], C 11⟩⟩)) (.shared ?_ (.inl ⟨rfl, rfl⟩)) (.refl _)
  rw [(C105_shared_partial rfl rfl).1, ptrConv_cls zoo_wf rfl rfl]; decide

/-- C105 for `unique_ptr`: an object handed over as what it is and converted through any chain of types is destroyed as a whole
exactly if the last type is its own (but for qualifiers) or has a virtual destructor; otherwise the end of the last
`unique_ptr` is undefined. -/
theorem C105_unique_dispose {H : Hier} (hw : WF H) {k : Nat → Core} {U T₀ T : OT} {o n b : Nat} (hk : k o = .cls n)
    (hU : U.core = .cls n) (hT : T.core = .cls b) (hf : UniqueFromPtr H U T₀) {v w : PVal} (hv : ConvVal H U T₀ (.at o n []) v)
    {l : List OT} (h : USteps H T₀ v l T w) :
    (Delete H k T w (.destroys o) ↔ b = n ∨ VirtualDtor H b) ∧ (Delete H k T w .undefined ↔ ¬ (b = n ∨ VirtualDtor H b)) := by
  have hc := ((Plain.step hf.2 hv (C105_unique_steps h)).conv (by rw [hU]; simp) (by
    intro M hM
    rcases List.mem_cons.mp hM with rfl | hM
    · exact hf.1
    · exact usteps_nonvoid h M hM)).1
  obtain ⟨r, l', hw'⟩ : ∃ r l', w = .at o r l' := by
    rcases hc with ⟨_, rfl⟩ | ⟨_, rfl⟩ | ⟨_, _, p, _, _, _, _, rfl⟩
    · exact ⟨_, _, rfl⟩
    · exact ⟨_, _, rfl⟩
    · exact ⟨_, _, rfl⟩
  have hself : b = n → w = .at o n [] := by
    rintro rfl
    rcases hc with ⟨_, e⟩ | ⟨_, e⟩ | ⟨d, b', p, hd, hb, hp, path, _⟩
    · exact e
    · exact e
    · rw [hU] at hd; rw [hT] at hb; cases hd; cases hb
      exact absurd (path.nil_of_self hw) hp
  have hyes : b = n ∨ VirtualDtor H b → Delete H k T w (.destroys o) := by
    rintro (e | hv)
    · rw [hself e]
      exact .whole (by rw [hT]; simp) (by rw [hk, hT, e]) (fun m hm => by rw [hk] at hm; cases hm; rfl)
    · rw [hw']; exact .virt hT hv
  have hno : ¬ (b = n ∨ VirtualDtor H b) → Delete H k T w .undefined := by
    intro hn
    rw [hw']
    refine .other ?_ ?_
    · rintro ⟨_, e, _⟩
      rw [hk, hT] at e; cases e; exact hn (.inl rfl)
    · intro b' hb' hv
      rw [hT] at hb'; cases hb'; exact hn (.inr hv)
  constructor
  · refine ⟨fun hd => Classical.byContradiction fun hn => ?_, hyes⟩
    have := delete_unique hd (hno hn); cases this
  · refine ⟨fun hd hn => ?_, hno⟩
    have := delete_unique hd (hyes hn); cases this

/-- Without virtual destructors, from `Z` to `A`. -/
example : UniqueFromPtr zoo (C 11) (C 11) ∧ ConvVal zoo (C 11) (C 11) (.at 7 11 []) (.at 7 11 []) ∧
    USteps zoo (C 11) (.at 7 11 []) [C 9, C 0] (C 0) (.at 7 11 [9, 1, 0]) ∧ ¬ (0 = 11 ∨ VirtualDtor zoo 0) := by
  refine ⟨⟨by decide, PtrConv.refl _ _⟩, .inl ⟨rfl, rfl⟩, zoo_usteps, ?_⟩
  rw [virtualDtor_iff zoo_wf]; decide

/-! ## Violated -/

/-- C105 violated for `unique_ptr`: a `unique_ptr<U>` does not convert to a `unique_ptr<T>` for any virtual base class `T` of `U` (or
base class of a virtual one), although the pointers do: the guard of the deleter asks for the cast from `T*` to `U*`. -/
theorem C105_violated_virtual_base {H : Hier} (hw : WF H) {U T : OT} {d b : Nat} (hU : U.core = .cls d) (hT : T.core = .cls b)
    (hp : PtrConv H U T) {p : List Edge} (path : Path H d p b) (hv : ∃ e ∈ p, e.virt = true) :
    ¬ UniqueConv H U T ∧ UniqueDeclared H U T ∧ ¬ DelConv H U T ∧ SharedConv H U T := by
  obtain ⟨e, he, hev⟩ := hv
  have hne : d ≠ b := by
    rintro rfl
    rw [path.nil_of_self hw] at he; simp at he
  have hnv : ¬ NonVirtual H d b := fun h => by rw [h p path e he] at hev; simp at hev
  have hUT : U ≠ T := by rintro rfl; rw [hU] at hT; cases hT; exact hne rfl
  refine ⟨?_, .inr (isBaseOf_of_ptrConv hT hp), ?_, (C105_shared_partial hU hT).1.2 hp⟩
  · rw [C105_unique_exact hw hU hT]
    rintro ⟨_, h | h⟩
    · exact hne h
    · exact hnv h
  · rw [delConv_iff hw hU hT hp]
    rintro (h | h | h)
    · exact hUT h
    · exact hne h
    · exact hnv h

example : PtrConv zoo (C 5) (C 2) ∧ Path zoo 5 [⟨4, .pub, false⟩, ⟨2, .pub, true⟩] 2 :=
  ⟨zoo_DV, .cons (by decide) (.cons (by decide) (.nil _))⟩

/-- C105 violated: a smart pointer to a fundamental type does not become one to the same type with more qualifiers, although
the pointer does. -/
theorem C105_violated_fundamental {H : Hier} {U T : OT} {n : Nat} (hU : U.core = .fund n) (hne : U ≠ T) :
    ¬ SharedConv H U T ∧ ¬ WeakFromShared H U T ∧ ¬ UniqueConv H U T := by
  have hb : ¬ is_base_of H T U := by
    rintro ⟨_, d, _, hd, _⟩; rw [hU] at hd; cases hd
  refine ⟨?_, ?_, ?_⟩
  · rintro ⟨⟨_, _, h | h⟩, _⟩
    · exact hne h
    · exact hb h
  · rintro ⟨_, _, h | h, _⟩
    · exact hne h
    · exact hb h
  · rintro (⟨h, _⟩ | ⟨h, _⟩)
    · exact hne h
    · exact hb h

example : PtrConv zoo ⟨false, false, .fund 3⟩ ⟨true, false, .fund 3⟩ := ⟨by simp, by simp, .inl rfl⟩

/-- C105 violated for `weak_ptr`: it never converts to one of another type. -/
theorem C105_violated_weak {U T : OT} (hne : U ≠ T) : ¬ WeakFromWeak U T := fun h => hne h.2

example : C 11 ≠ C 0 ∧ PtrConv zoo (C 11) (C 0) := ⟨by decide, zoo_ZA⟩

/-- C105 violated: overload resolution and `is_constructible` accept a conversion from `U` to the same or a base class exactly by
`is_base_of`; where the pointers do not convert (fewer qualifiers, an inaccessible or ambiguous base class) the program is then
ill-formed instead of the conversion not being there. -/
theorem C105_violated_trait {H : Hier} {U T : OT} {d b : Nat} (hU : U.core = .cls d) (hT : T.core = .cls b)
    (hB : d = b ∨ IsBase H d b) (hne : U ≠ T) (hn : ¬ PtrConv H U T) :
    SharedDeclared H U T ∧ ¬ SharedConv H U T ∧ UniqueDeclared H U T ∧ ¬ UniqueConv H U T := by
  have hb : is_base_of H T U := ⟨b, d, hT, hU, hB.imp_left Eq.symm⟩
  refine ⟨⟨by unfold ClassOK; rw [hU]; simp, by unfold ClassOK; rw [hT]; simp, .inr hb⟩, fun h => hn h.2, .inr hb, ?_⟩
  rintro (⟨h, _⟩ | h)
  · exact hne h
  · exact hn h.2.1

example : (¬ PtrConv zoo (KC 5) (C 5)) ∧ (IsBase zoo 6 0 ∧ ¬ PtrConv zoo (C 6) (C 0)) ∧ IsBase zoo 8 0 ∧ ¬ PtrConv zoo (C 8) (C 0) := by
  rw [ptrConv_cls zoo_wf rfl rfl, ptrConv_cls zoo_wf rfl rfl, ptrConv_cls zoo_wf rfl rfl, isBase_iff zoo_wf, isBase_iff zoo_wf]
  refine ⟨?_, ⟨?_, ?_⟩, ?_, ?_⟩ <;> decide

/-- C105 violated for deleters: `default_deleter<U>` becomes `default_deleter<T>` for any two types that are not both classes one
of which is derived from the other, whether or not `U*` converts to `T*`. -/
theorem C105_violated_deleter {H : Hier} {U T : OT}
    (h : ∀ d b, U.core = .cls d → T.core = .cls b → ¬ IsBase H d b ∧ ¬ IsBase H b d) : DelConv H U T :=
  .inr fun a b ha hb => ⟨fun hB => absurd hB (h b a hb ha).2, fun hB => absurd hB (h b a hb ha).1⟩

example : (∀ d b, (C 2).core = .cls d → (C 0).core = .cls b → ¬ IsBase zoo d b ∧ ¬ IsBase zoo b d) ∧ ¬ PtrConv zoo (C 2) (C 0) := by
  refine ⟨?_, ?_⟩
  · intro d b hd hb; cases hd; cases hb
    rw [isBase_iff zoo_wf, isBase_iff zoo_wf]; decide
  · rw [ptrConv_cls zoo_wf rfl rfl]; decide

/-- C105 violated for arrays: for every accessible unambiguous base class `T` of `U`, `unique_ptr<T[]>` takes a pointer to an array
of `U`, whose disposal is then undefined, and the deleter for arrays of `U` becomes one for arrays of `T`. -/
theorem C105_violated_array {H : Hier} (hw : WF H) {U T : OT} {d b : Nat} (hU : U.core = .cls d) (hT : T.core = .cls b)
    (hB : IsBase H d b) (hp : PtrConv H U T) : ArrayFromPtr H U T ∧ ¬ DeleteArrayOK U T ∧ DelConvArr U T := by
  refine ⟨⟨by rw [hT]; simp, hp⟩, ?_, .inr ⟨by rw [hU]; simp, by rw [hT]; simp⟩⟩
  unfold DeleteArrayOK
  rw [hU, hT]
  intro h
  cases h
  have := hB.lt hw; omega

example : IsBase zoo 11 0 ∧ PtrConv zoo (C 11) (C 0) := ⟨by rw [isBase_iff zoo_wf]; decide, zoo_ZA⟩

/-- C105 for arrays, part (the array is of the type named, with at most its qualifiers): it is taken and disposed of as
what it is. -/
theorem C105_array_partial {H : Hier} {U T : OT} (hc : U.core = T.core) (hv : T.core ≠ .void) (h1 : U.c = true → T.c = true)
    (h2 : U.v = true → T.v = true) : ArrayFromPtr H U T ∧ DeleteArrayOK U T :=
  ⟨⟨hv, h1, h2, .inl hc⟩, hc⟩

example : ArrayFromPtr zoo (C 5) (KC 5) ∧ DeleteArrayOK (C 5) (KC 5) := C105_array_partial rfl (by decide) (by decide) (by decide)

end Verif.Convert
