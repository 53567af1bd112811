import Verif.Model.Iter
set_option backward.isDefEq.respectTransparency false

/-!
Positions, and the simulation between programs with iterators and programs with positions.
-/

namespace Verif.IterSpec
open Verif Verif.Iter

/-! ### The specification: positions -/

/-- A position: how many elements come before it in the order of traversal. -/
structure Pos where
  con : Nat
  pos : Int
deriving DecidableEq

/-- The element at a position: counted from the front, or from the back. -/
def place (len : Nat → Nat) (back : Bool) (a : Nat) (i : Int) : Nat × Nat :=
  (a, if back then ((len a : Int) - 1 - i).toNat else i.toNat)

/-- Moving by `n`: defined within the container and to the place behind the last element. -/
def move (len : Nat → Nat) (p : Pos) (n : Int) : Res Pos :=
  if 0 ≤ p.pos + n ∧ p.pos + n ≤ len p.con then .ok ⟨p.con, p.pos + n⟩ else .ub

/-- The element `n` further on. -/
def peek (len : Nat → Nat) (back : Bool) (p : Pos) (n : Int) : Res (Nat × Nat) :=
  if 0 ≤ p.pos + n ∧ p.pos + n < len p.con then .ok (place len back p.con (p.pos + n)) else .ub

/-- All operators, on positions; two positions have to do with each other only in one container. -/
def spec (len : Nat → Nat) (back : Bool) : Ops Pos where
  first a := ⟨a, 0⟩
  past a := ⟨a, len a⟩
  deref p := peek len back p 0
  index := some (peek len back)
  preInc p := move len p 1
  preDec p := move len p (-1)
  postInc p := move len p 1 >>= fun q => .ok (p, q)
  postDec p := move len p (-1) >>= fun q => .ok (p, q)
  addEq p n := move len p n
  subEq p n := move len p (-n)
  add p n := move len p n
  sub p n := move len p (-n)
  addLeft := some fun p n => move len p n
  diff := some fun p q => if p.con = q.con then .ok (p.pos - q.pos) else .ub
  cmp c := some fun p q => if p.con = q.con then
      .ok (match c with
        | .eq => decide (p.pos = q.pos)
        | .ne => decide (p.pos ≠ q.pos)
        | .lt => decide (p.pos < q.pos)
        | .le => decide (p.pos ≤ q.pos)
        | .gt => decide (q.pos < p.pos)
        | .ge => decide (q.pos ≤ p.pos))
    else .ub

/-- What a program leaves behind: the elements and the output. -/
def obs {I : Type} (s : St I) : (Nat → Nat → Int) × List Int := (s.mem, s.out)

/-- What a run leaves behind, if it ends. -/
def robs {I : Type} : Res (St I) → Res ((Nat → Nat → Int) × List Int)
  | .ok s => .ok (obs s)
  | .ub => .ub
  | .oof => .oof

/-- The start of a program: all variables are `begin()` of container 0. -/
def init {I : Type} (O : Ops I) (mem : Nat → Nat → Int) : St I := ⟨fun _ => O.first 0, mem, []⟩

/-- The program compares only with `==` and `!=`. -/
def Unordered : Prog → Prop
  | .seq p q => Unordered p ∧ Unordered q
  | .ite c _ _ p q => (c = .eq ∨ c = .ne) ∧ Unordered p ∧ Unordered q
  | .loop c _ _ p => (c = .eq ∨ c = .ne) ∧ Unordered p
  | _ => True

/-- The program does not subtract iterators. -/
def NoDiff : Prog → Prop
  | .seq p q => NoDiff p ∧ NoDiff q
  | .ite _ _ _ p q => NoDiff p ∧ NoDiff q
  | .loop _ _ _ p => NoDiff p
  | .diff .. => False
  | _ => True

/-- The program does not use `n + it`. -/
def NoLeft : Prog → Prop
  | .seq p q => NoLeft p ∧ NoLeft q
  | .ite _ _ _ p q => NoLeft p ∧ NoLeft q
  | .loop _ _ _ p => NoLeft p
  | .addLeft .. => False
  | _ => True

/-- The program does not use `it[n]`. -/
def NoIndex : Prog → Prop
  | .seq p q => NoIndex p ∧ NoIndex q
  | .ite _ _ _ p q => NoIndex p ∧ NoIndex q
  | .loop _ _ _ p => NoIndex p
  | .loadAt .. => False
  | .storeAt .. => False
  | _ => True

/-! ### Simulation -/

/-- The result `r` agrees with the result `r'` of the specification; if `ex`, also in being
undefined. -/
def Agree {A B : Type} (ex : Prop) (R : A → B → Prop) (r : Res A) : Res B → Prop
  | .ok b => ∃ a, r = .ok a ∧ R a b
  | .ub => ex → r = .ub
  | .oof => r = .oof

theorem Agree.bind {A B A' B' : Type} {ex : Prop} {R : A → B → Prop} {R' : A' → B' → Prop}
    {r : Res A} {r' : Res B} {f : A → Res A'} {f' : B → Res B'} (h : Agree ex R r r')
    (hf : ∀ a b, R a b → Agree ex R' (f a) (f' b)) : Agree ex R' (r >>= f) (r' >>= f') := by
  cases r' with
  | ok b =>
    obtain ⟨a, rfl, hab⟩ := h
    exact hf a b hab
  | ub =>
    intro e
    rw [h e]; rfl
  | oof =>
    have : r = .oof := h
    rw [this]; rfl

theorem Agree.ok {A B : Type} {ex : Prop} {R : A → B → Prop} {a : A} {b : B} (h : R a b) :
    Agree ex R (.ok a) (.ok b) := ⟨a, rfl, h⟩

/-- The operators agree, as far as they exist and (comparisons) are `good`. -/
structure Sim {I J : Type} (ex : Prop) (R : I → J → Prop) (good : Cmp → Prop) (O : Ops I)
    (S : Ops J) : Prop where
  first : ∀ a, R (O.first a) (S.first a)
  past : ∀ a, R (O.past a) (S.past a)
  deref : ∀ i j, R i j → Agree ex Eq (O.deref i) (S.deref j)
  index : ∀ g, O.index = some g → ∃ g', S.index = some g' ∧
    ∀ i j n, R i j → Agree ex Eq (g i n) (g' j n)
  preInc : ∀ i j, R i j → Agree ex R (O.preInc i) (S.preInc j)
  preDec : ∀ i j, R i j → Agree ex R (O.preDec i) (S.preDec j)
  postInc : ∀ i j, R i j →
    Agree ex (fun x y => R x.1 y.1 ∧ R x.2 y.2) (O.postInc i) (S.postInc j)
  postDec : ∀ i j, R i j →
    Agree ex (fun x y => R x.1 y.1 ∧ R x.2 y.2) (O.postDec i) (S.postDec j)
  addEq : ∀ i j n, R i j → Agree ex R (O.addEq i n) (S.addEq j n)
  subEq : ∀ i j n, R i j → Agree ex R (O.subEq i n) (S.subEq j n)
  add : ∀ i j n, R i j → Agree ex R (O.add i n) (S.add j n)
  sub : ∀ i j n, R i j → Agree ex R (O.sub i n) (S.sub j n)
  addLeft : ∀ g, O.addLeft = some g → ∃ g', S.addLeft = some g' ∧
    ∀ i j n, R i j → Agree ex R (g i n) (g' j n)
  diff : ∀ g, O.diff = some g → ∃ g', S.diff = some g' ∧
    ∀ i j i' j', R i j → R i' j' → Agree ex Eq (g i i') (g' j j')
  cmp : ∀ c g, good c → O.cmp c = some g → ∃ g', S.cmp c = some g' ∧
    ∀ i j i' j', R i j → R i' j' → Agree ex Eq (g i i') (g' j j')

/-- All comparisons of the program are `good`. -/
def CmpIn (good : Cmp → Prop) : Prog → Prop
  | .seq p q => CmpIn good p ∧ CmpIn good q
  | .ite c _ _ p q => good c ∧ CmpIn good p ∧ CmpIn good q
  | .loop c _ _ p => good c ∧ CmpIn good p
  | _ => True

/-- States agree. -/
def StR {I J : Type} (R : I → J → Prop) (s : St I) (t : St J) : Prop :=
  (∀ x, R (s.var x) (t.var x)) ∧ s.mem = t.mem ∧ s.out = t.out

theorem StR.set {I J : Type} {R : I → J → Prop} {s : St I} {t : St J} (h : StR R s t) (x : Nat)
    {i : I} {j : J} (hij : R i j) : StR R (s.set x i) (t.set x j) := by
  refine ⟨?_, h.2.1, h.2.2⟩
  intro y
  simp only [St.set]
  split
  · exact hij
  · exact h.1 y

theorem StR.push {I J : Type} {R : I → J → Prop} {s : St I} {t : St J} (h : StR R s t) (v : Int) :
    StR R { s with out := v :: s.out } { t with out := v :: t.out } :=
  ⟨h.1, h.2.1, by rw [h.2.2]⟩

theorem StR.write {I J : Type} {R : I → J → Prop} {s : St I} {t : St J} (h : StR R s t)
    (m : Nat → Nat → Int) : StR R { s with mem := m } { t with mem := m } :=
  ⟨h.1, rfl, h.2.2⟩

theorem sim_run {I J : Type} {ex : Prop} {R : I → J → Prop} {good : Cmp → Prop} {O : Ops I}
    {S : Ops J} (H : Sim ex R good O S) (f : Nat) : ∀ (p : Prog) (s : St I) (t : St J),
      p.Compiles O → CmpIn good p → StR R s t → Agree ex (StR R) (run O f p s) (run S f p t) := by
  induction f with
  | zero => intro p s t _ _ _; rfl
  | succ f ih =>
    intro p s t hc hg hst
    cases p with
    | skip => exact Agree.ok hst
    | seq p q =>
      unfold run
      exact Agree.bind (ih p s t hc.1 hg.1 hst) fun s t h => ih q s t hc.2 hg.2 h
    | first x a => exact Agree.ok (hst.set x (H.first a))
    | past x a => exact Agree.ok (hst.set x (H.past a))
    | copy y x => exact Agree.ok (hst.set y (hst.1 x))
    | preInc x =>
      unfold run
      exact Agree.bind (H.preInc _ _ (hst.1 x)) fun i j h => Agree.ok (hst.set x h)
    | preDec x =>
      unfold run
      exact Agree.bind (H.preDec _ _ (hst.1 x)) fun i j h => Agree.ok (hst.set x h)
    | postInc y x =>
      unfold run
      exact Agree.bind (H.postInc _ _ (hst.1 x)) fun i j h =>
        Agree.ok ((hst.set x h.2).set y h.1)
    | postDec y x =>
      unfold run
      exact Agree.bind (H.postDec _ _ (hst.1 x)) fun i j h =>
        Agree.ok ((hst.set x h.2).set y h.1)
    | addEq x n =>
      unfold run
      exact Agree.bind (H.addEq _ _ n (hst.1 x)) fun i j h => Agree.ok (hst.set x h)
    | subEq x n =>
      unfold run
      exact Agree.bind (H.subEq _ _ n (hst.1 x)) fun i j h => Agree.ok (hst.set x h)
    | add y x n =>
      unfold run
      exact Agree.bind (H.add _ _ n (hst.1 x)) fun i j h => Agree.ok (hst.set y h)
    | sub y x n =>
      unfold run
      exact Agree.bind (H.sub _ _ n (hst.1 x)) fun i j h => Agree.ok (hst.set y h)
    | addLeft y n x =>
      obtain ⟨g, hgo⟩ := Option.isSome_iff_exists.mp (show O.addLeft.isSome from hc)
      obtain ⟨g', hgs, hgg⟩ := H.addLeft g hgo
      unfold run
      simp only [hgo, hgs]
      exact Agree.bind (hgg _ _ n (hst.1 x)) fun i j h => Agree.ok (hst.set y h)
    | load x =>
      unfold run
      refine Agree.bind (H.deref _ _ (hst.1 x)) fun i j h => ?_
      subst h
      exact Agree.ok ⟨hst.1, hst.2.1, by simp only [hst.2.1, hst.2.2]⟩
    | loadAt x n =>
      obtain ⟨g, hgo⟩ := Option.isSome_iff_exists.mp (show O.index.isSome from hc)
      obtain ⟨g', hgs, hgg⟩ := H.index g hgo
      unfold run
      simp only [hgo, hgs]
      refine Agree.bind (hgg _ _ n (hst.1 x)) fun i j h => ?_
      subst h
      exact Agree.ok ⟨hst.1, hst.2.1, by simp only [hst.2.1, hst.2.2]⟩
    | diff x y =>
      obtain ⟨g, hgo⟩ := Option.isSome_iff_exists.mp (show O.diff.isSome from hc)
      obtain ⟨g', hgs, hgg⟩ := H.diff g hgo
      unfold run
      simp only [hgo, hgs]
      refine Agree.bind (hgg _ _ _ _ (hst.1 x) (hst.1 y)) fun i j h => ?_
      subst h
      exact Agree.ok (hst.push _)
    | store x y =>
      unfold run
      refine Agree.bind (H.deref _ _ (hst.1 y)) fun i j h => ?_
      subst h
      refine Agree.bind (H.deref _ _ (hst.1 x)) fun i j h => ?_
      subst h
      rw [← hst.2.1]
      exact Agree.ok (hst.write _)
    | storeAt x n y =>
      obtain ⟨g, hgo⟩ := Option.isSome_iff_exists.mp (show O.index.isSome from hc)
      obtain ⟨g', hgs, hgg⟩ := H.index g hgo
      unfold run
      simp only [hgo, hgs]
      refine Agree.bind (H.deref _ _ (hst.1 y)) fun i j h => ?_
      subst h
      refine Agree.bind (hgg _ _ n (hst.1 x)) fun i j h => ?_
      subst h
      rw [← hst.2.1]
      exact Agree.ok (hst.write _)
    | ite c x y p q =>
      obtain ⟨g, hgo⟩ := Option.isSome_iff_exists.mp hc.1
      obtain ⟨g', hgs, hgg⟩ := H.cmp c g hg.1 hgo
      unfold run
      simp only [hgo, hgs]
      refine Agree.bind (hgg _ _ _ _ (hst.1 x) (hst.1 y)) fun i j h => ?_
      subst h
      cases i
      · exact ih q s t hc.2.2 hg.2.2 hst
      · exact ih p s t hc.2.1 hg.2.1 hst
    | loop c x y p =>
      obtain ⟨g, hgo⟩ := Option.isSome_iff_exists.mp hc.1
      obtain ⟨g', hgs, hgg⟩ := H.cmp c g hg.1 hgo
      unfold run
      simp only [hgo, hgs]
      refine Agree.bind (hgg _ _ _ _ (hst.1 x) (hst.1 y)) fun i j h => ?_
      subst h
      cases i
      · exact Agree.ok hst
      · exact Agree.bind (ih p s t hc.2 hg.2 hst) fun s t h => ih (.loop c x y p) s t hc hg h

theorem agree_robs {I J : Type} {R : I → J → Prop} {ex : Prop} {r : Res (St I)} {r' : Res (St J)}
    (h : Agree ex (StR R) r r') (hu : r' = .ub → ex) : robs r = robs r' := by
  cases r' with
  | ok t =>
    obtain ⟨s, rfl, hs⟩ := h
    simp only [robs, obs, hs.2.1, hs.2.2]
  | ub => rw [h (hu rfl)]; rfl
  | oof =>
    have : r = .oof := h
    rw [this]; rfl

theorem init_rel {I J : Type} {ex : Prop} {R : I → J → Prop} {good : Cmp → Prop} {O : Ops I}
    {S : Ops J} (H : Sim ex R good O S) (mem : Nat → Nat → Int) :
    StR R (init O mem) (init S mem) := ⟨fun _ => H.first 0, rfl, rfl⟩

/-! ### The three classes -/

/-- A pointer at a position. -/
def RN (len : Nat → Nat) (i : Ptr) (p : Pos) : Prop :=
  i.arr = p.con ∧ (i.off : Int) = p.pos ∧ p.pos ≤ len p.con

/-- The pointer of a reverse iterator at a position. -/
def RR (len : Nat → Nat) (i : Ptr) (p : Pos) : Prop :=
  i.arr = p.con ∧ (i.off : Int) = len p.con - p.pos ∧ 0 ≤ p.pos

/-- The index of a `deque_iterator` at a position. -/
def RD (len start : Nat → Nat) (i : DIt) (p : Pos) : Prop :=
  i.deque = p.con ∧ i.index = BitVec.ofInt 64 (start p.con + p.pos) ∧ 0 ≤ p.pos ∧
    p.pos ≤ len p.con

theorem require_bind {A : Type} (b : Bool) (r : Res A) :
    (Res.require b >>= fun _ => r) = if b then r else .ub := by
  cases b <;> rfl

theorem padd_eq (len : Nat → Nat) (p : Ptr) (n : Int) : padd len p n =
    if 0 ≤ (p.off : Int) + n ∧ (p.off : Int) + n ≤ len p.arr then
      .ok ⟨p.arr, ((p.off : Int) + n).toNat⟩ else .ub := by
  unfold padd
  rw [require_bind]
  by_cases h : 0 ≤ (p.off : Int) + n ∧ (p.off : Int) + n ≤ len p.arr <;> simp [h]

theorem pderef_eq (len : Nat → Nat) (p : Ptr) : pderef len p =
    if p.off < len p.arr then .ok (p.arr, p.off) else .ub := by
  unfold pderef
  rw [require_bind]
  by_cases h : p.off < len p.arr <;> simp [h]

theorem normal_move {len : Nat → Nat} {i : Ptr} {p : Pos} (h : RN len i p) (n : Int) :
    Agree True (RN len) (padd len i n) (move len p n) := by
  obtain ⟨h1, h2, h3⟩ := h
  rw [padd_eq]
  unfold move
  rw [h2, h1]
  split
  · rename_i hh
    exact Agree.ok ⟨rfl, by simp only; omega, by simp only; omega⟩
  · exact fun _ => rfl

theorem normal_peek {len : Nat → Nat} {i : Ptr} {p : Pos} (h : RN len i p) (n : Int) :
    Agree True Eq (padd len i n >>= fun q => pderef len q) (peek len false p n) := by
  obtain ⟨h1, h2, h3⟩ := h
  rw [padd_eq]
  unfold peek
  rw [h2, h1]
  by_cases hh : 0 ≤ p.pos + n ∧ p.pos + n ≤ len p.con
  · rw [if_pos hh, Res.ok_bind, pderef_eq]
    by_cases hl : p.pos + n < len p.con
    · rw [if_pos (by simp only; omega), if_pos ⟨hh.1, hl⟩]
      exact Agree.ok rfl
    · rw [if_neg (by simp only; omega), if_neg (fun x => hl x.2)]
      exact fun _ => rfl
  · rw [if_neg hh, if_neg (fun x => hh ⟨x.1, by omega⟩)]
    exact fun _ => rfl

theorem normal_deref {len : Nat → Nat} {i : Ptr} {p : Pos} (h : RN len i p) :
    Agree True Eq (pderef len i) (peek len false p 0) := by
  obtain ⟨h1, h2, h3⟩ := h
  rw [pderef_eq]
  unfold peek
  by_cases hl : p.pos < len p.con
  · rw [if_pos (by rw [h1]; omega), if_pos (by omega)]
    refine Agree.ok ?_
    simp only [place, h1, Bool.false_eq_true, if_false, Int.add_zero, Prod.mk.injEq, true_and]
    omega
  · rw [if_neg (by rw [h1]; omega), if_neg (by omega)]
    exact fun _ => rfl

theorem normal_cmp {len : Nat → Nat} (c : Cmp) {i i' : Ptr} {p p' : Pos} (h : RN len i p)
    (h' : RN len i' p') (g' : Pos → Pos → Res Bool) (hg : (spec len false).cmp c = some g') :
    Agree True Eq (pcmp c i i') (g' p p') := by
  obtain ⟨h1, h2, h3⟩ := h
  obtain ⟨h1', h2', h3'⟩ := h'
  cases hg
  unfold pcmp
  rw [require_bind, h1, h1', h2, h2']
  by_cases e : p.con = p'.con
  · simp only [e, decide_true, if_true]
    refine Agree.ok ?_
    cases c <;> rfl
  · simp only [e, decide_false, if_false]
    exact fun _ => rfl

theorem normal_sim (len : Nat → Nat) :
    Sim True (RN len) (fun _ => True) (normal len) (spec len false) where
  first a := ⟨rfl, rfl, Int.natCast_nonneg _⟩
  past a := ⟨rfl, rfl, Int.le_refl _⟩
  deref i j h := normal_deref h
  index g hg := ⟨_, rfl, by cases hg; exact fun i j n h => normal_peek h n⟩
  preInc i j h := normal_move h 1
  preDec i j h := normal_move h (-1)
  postInc i j h := Agree.bind (normal_move h 1) fun a b hab => Agree.ok ⟨h, hab⟩
  postDec i j h := Agree.bind (normal_move h (-1)) fun a b hab => Agree.ok ⟨h, hab⟩
  addEq i j n h := normal_move h n
  subEq i j n h := normal_move h (-n)
  add i j n h := normal_move h n
  sub i j n h := normal_move h (-n)
  addLeft g hg := ⟨_, rfl, by cases hg; exact fun i j n h => normal_move h n⟩
  diff g hg := by
    refine ⟨_, rfl, ?_⟩
    cases hg
    intro i j i' j' h h'
    unfold pdiff
    rw [require_bind, h.1, h'.1, h.2.1, h'.2.1]
    by_cases e : j.con = j'.con
    · simp only [e, decide_true, if_true]
      exact Agree.ok rfl
    · simp only [e, decide_false, if_false]
      exact fun _ => rfl
  cmp c g _ hg := by
    refine ⟨_, rfl, ?_⟩
    cases hg
    intro i j i' j' h h'
    exact normal_cmp c h h' _ rfl

theorem reverse_move {len : Nat → Nat} {i : Ptr} {p : Pos} (h : RR len i p) (n m : Int)
    (hm : m = -n) : Agree True (RR len) (padd len i n) (move len p m) := by
  obtain ⟨h1, h2, h3⟩ := h
  rw [padd_eq]
  unfold move
  rw [h2, h1]
  by_cases hh : 0 ≤ p.pos + m ∧ p.pos + m ≤ len p.con
  · rw [if_pos (by omega), if_pos hh]
    exact Agree.ok ⟨rfl, by simp only; omega, by simp only; omega⟩
  · rw [if_neg (by omega), if_neg hh]
    exact fun _ => rfl

theorem reverse_deref {len : Nat → Nat} {i : Ptr} {p : Pos} (h : RR len i p) :
    Agree True Eq ((reverse len).deref i) (peek len true p 0) := by
  obtain ⟨h1, h2, h3⟩ := h
  show Agree True Eq (padd len i (-1) >>= fun q => pderef len q) _
  rw [padd_eq]
  unfold peek
  rw [h1]
  by_cases hh : p.pos < len p.con
  · rw [if_pos (by omega), Res.ok_bind, pderef_eq, if_pos (by simp only; omega), if_pos (by omega)]
    refine Agree.ok ?_
    simp only [place, if_true, Int.add_zero, Prod.mk.injEq, true_and]
    omega
  · rw [if_neg (by omega), if_neg (by omega)]
    exact fun _ => rfl

theorem reverse_peek {len : Nat → Nat} {i : Ptr} {p : Pos} (h : RR len i p) (n : Int) :
    Agree True Eq (padd len i (-n) >>= fun t => (reverse len).deref t) (peek len true p n) := by
  have hm := reverse_move h (-n) n (by omega)
  have hp : peek len true p n = (move len p n >>= fun q => peek len true q 0) := by
    unfold move peek
    by_cases hh : 0 ≤ p.pos + n ∧ p.pos + n ≤ len p.con
    · rw [if_pos hh, Res.ok_bind]
      simp only [Int.add_zero]
    · rw [if_neg hh, if_neg (fun x => hh ⟨x.1, by omega⟩)]
      rfl
  rw [hp]
  exact Agree.bind hm fun a b hab => reverse_deref hab

theorem reverse_sim (len : Nat → Nat) :
    Sim True (RR len) (fun c => c = .eq ∨ c = .ne) (reverse len) (spec len true) where
  first a := ⟨rfl, by simp only [reverse, normal, spec]; omega, Int.le_refl _⟩
  past a := ⟨rfl, by simp only [reverse, normal, spec]; omega, Int.natCast_nonneg _⟩
  deref i j h := reverse_deref h
  index g hg := ⟨_, rfl, by cases hg; exact fun i j n h => reverse_peek h n⟩
  preInc i j h := reverse_move h (-1) 1 (by omega)
  preDec i j h := reverse_move h 1 (-1) (by omega)
  postInc i j h := Agree.bind (reverse_move h (-1) 1 (by omega)) fun a b hab => Agree.ok ⟨h, hab⟩
  postDec i j h := Agree.bind (reverse_move h 1 (-1) (by omega)) fun a b hab => Agree.ok ⟨h, hab⟩
  addEq i j n h := reverse_move h (-n) n (by omega)
  subEq i j n h := reverse_move h n (-n) (by omega)
  add i j n h := reverse_move h (-n) n (by omega)
  sub i j n h := reverse_move h n (-n) (by omega)
  addLeft g hg := by cases hg
  diff g hg := by cases hg
  cmp c g hc hg := by
    refine ⟨_, rfl, ?_⟩
    cases hg
    intro i j i' j' h h'
    obtain ⟨h1, h2, h3⟩ := h
    obtain ⟨h1', h2', h3'⟩ := h'
    unfold pcmp
    rw [require_bind, h1, h1', h2, h2']
    by_cases e : j.con = j'.con
    · simp only [e, decide_true, if_true]
      refine Agree.ok ?_
      rcases hc with rfl | rfl
      · simp only [Cmp.on, decide_eq_decide]; omega
      · simp only [Cmp.on, decide_eq_decide]; omega
    · simp only [e, decide_false, if_false]
      exact fun _ => rfl

/-! ### Deques -/

theorem toInt_ofInt {x : Int} (h0 : 0 ≤ x) (h : x < 2 ^ 63) : (BitVec.ofInt 64 x).toInt = x := by
  rw [BitVec.toInt_ofInt]
  exact Int.bmod_eq_of_le (by omega) (by omega)

theorem toNat_ofInt {x : Int} (h0 : 0 ≤ x) (h : x < 2 ^ 63) :
    (BitVec.ofInt 64 x).toNat = x.toNat := by
  rw [BitVec.toNat_ofInt]
  congr 1
  omega

/-- What is assumed of the deques: not empty, and indices within `int64_t`. -/
def Fits (len start : Nat → Nat) : Prop := ∀ a, 0 < len a ∧ start a + len a < 2 ^ 63

theorem deque_add {len start : Nat → Nat} {i : DIt} {p : Pos} (h : RD len start i p) (n : Int) :
    Agree False (RD len start) (.ok ⟨i.deque, i.index + BitVec.ofInt 64 n⟩) (move len p n) := by
  obtain ⟨h1, h2, h3, h4⟩ := h
  unfold move
  split
  · refine Agree.ok ⟨h1, ?_, by simp only; omega, by simp only; omega⟩
    simp only [h2]
    rw [← BitVec.ofInt_add]
    congr 1
    omega
  · exact fun e => e.elim

theorem deque_sub {len start : Nat → Nat} {i : DIt} {p : Pos} (h : RD len start i p) (n : Int) :
    Agree False (RD len start) (.ok ⟨i.deque, i.index - BitVec.ofInt 64 n⟩) (move len p (-n)) := by
  have := deque_add h (-n)
  rw [BitVec.ofInt_neg, ← BitVec.sub_eq_add_neg] at this
  exact this

theorem deque_step {len start : Nat → Nat} (hf : Fits len start) {i : DIt} {p : Pos}
    (h : RD len start i p) (n : Int) (hn : -1 ≤ n ∧ n ≤ 1) :
    Agree False (RD len start) (step i.index n >>= fun x => .ok ⟨i.deque, x⟩) (move len p n) := by
  obtain ⟨h1, h2, h3, h4⟩ := h
  obtain ⟨f1, f2⟩ := hf p.con
  unfold move
  split
  · have e : i.index.toInt = start p.con + p.pos := by
      rw [h2]; exact toInt_ofInt (by omega) (by omega)
    have : step i.index n = .ok (BitVec.ofInt 64 (start p.con + p.pos + n)) := by
      unfold step
      rw [require_bind, e, if_pos (by simp only [decide_eq_true_eq]; omega)]
    rw [this]
    refine Agree.ok ⟨h1, ?_, by simp only; omega, by simp only; omega⟩
    simp only [Int.add_assoc]
  · exact fun e => e.elim

theorem deque_sim {len start : Nat → Nat} (hf : Fits len start) :
    Sim False (RD len start) (fun _ => True) (deque len start) (spec len false) where
  first a := by
    refine ⟨rfl, ?_, Int.le_refl _, Int.natCast_nonneg _⟩
    simp only [deque, spec, Int.add_zero, BitVec.ofInt_natCast]
  past a := by
    refine ⟨rfl, ?_, Int.natCast_nonneg _, Int.le_refl _⟩
    have := (hf a).1
    simp only [deque, spec]
    rw [show ((start a : Int) + (len a : Int)) = ((start a + (len a - 1) + 1 : Nat) : Int) by omega,
      BitVec.ofInt_natCast]
  deref i p h := by
    obtain ⟨h1, h2, h3, h4⟩ := h
    obtain ⟨f1, f2⟩ := hf p.con
    show Agree False Eq (dderef len start i) (peek len false p 0)
    unfold peek
    split
    · rename_i hh
      have e : i.index.toNat = ((start p.con : Int) + p.pos).toNat := by
        rw [h2]; exact toNat_ofInt (by omega) (by omega)
      unfold dderef
      rw [require_bind, h1, if_pos (by simp only [decide_eq_true_eq]; omega)]
      refine Agree.ok ?_
      simp only [place, Bool.false_eq_true, if_false, Prod.mk.injEq, true_and]
      omega
    · exact fun e => e.elim
  index g hg := by cases hg
  preInc i j h := deque_step hf h 1 (by omega)
  preDec i j h := deque_step hf h (-1) (by omega)
  postInc i j h := by
    have := Agree.bind (deque_step hf h 1 (by omega)) (f := fun q => .ok (i, q))
      (f' := fun q => .ok (j, q)) (R' := fun x y => RD len start x.1 y.1 ∧ RD len start x.2 y.2)
      fun a b hab => Agree.ok ⟨h, hab⟩
    rw [bind_assoc] at this
    exact this
  postDec i j h := by
    have := Agree.bind (deque_step hf h (-1) (by omega)) (f := fun q => .ok (i, q))
      (f' := fun q => .ok (j, q)) (R' := fun x y => RD len start x.1 y.1 ∧ RD len start x.2 y.2)
      fun a b hab => Agree.ok ⟨h, hab⟩
    rw [bind_assoc] at this
    exact this
  addEq i j n h := deque_add h n
  subEq i j n h := deque_sub h n
  add i j n h := deque_add h n
  sub i j n h := deque_sub h n
  addLeft g hg := by cases hg
  diff g hg := by
    refine ⟨_, rfl, ?_⟩
    cases hg
    intro i j i' j' h h'
    obtain ⟨h1, h2, h3, h4⟩ := h
    obtain ⟨h1', h2', h3', h4'⟩ := h'
    obtain ⟨f1, f2⟩ := hf j.con
    by_cases e : j.con = j'.con
    · simp only [e, if_true]
      rw [← e] at h2' h4'
      have e1 : i.index.toInt = start j.con + j.pos := by
        rw [h2]; exact toInt_ofInt (by omega) (by omega)
      have e2 : i'.index.toInt = start j.con + j'.pos := by
        rw [h2']; exact toInt_ofInt (by omega) (by omega)
      unfold step
      rw [require_bind, e1, e2, if_pos (by simp only [decide_eq_true_eq]; omega), Res.ok_bind]
      refine Agree.ok ?_
      rw [BitVec.toInt_ofInt, Int.bmod_eq_of_le (by omega) (by omega)]
      omega
    · simp only [e, if_false]
      exact fun x => x.elim
  cmp c g _ hg := by
    refine ⟨_, rfl, ?_⟩
    have key : ∀ i j i' j', RD len start i j → RD len start i' j' → j.con = j'.con →
        ((i.deque = i'.deque ∧ i.index = i'.index) ↔ j.pos = j'.pos) := by
      intro i j i' j' h h' e
      obtain ⟨h1, h2, h3, h4⟩ := h
      obtain ⟨h1', h2', h3', h4'⟩ := h'
      obtain ⟨f1, f2⟩ := hf j.con
      rw [← e] at h2' h4'
      constructor
      · rintro ⟨_, x⟩
        have y := congrArg BitVec.toInt x
        rw [h2, h2', toInt_ofInt (by omega) (by omega), toInt_ofInt (by omega) (by omega)] at y
        omega
      · intro x
        exact ⟨by rw [h1, h1', e], by rw [h2, h2', x]⟩
    intro i j i' j' h h'
    by_cases e : j.con = j'.con
    · have k := key i j i' j' h h' e
      simp only [e, if_true]
      cases c <;> cases hg
      · refine Agree.ok ?_
        simp only [decide_eq_decide]; exact k
      · refine Agree.ok ?_
        simp only [k, decide_not]
    · simp only [e, if_false]
      exact fun x => x.elim

/-! ### Going through a container -/

/-- `for (x = c.begin(); x != c.end(); ++x) output(*x);` with a comparison of choice. -/
def through (c : Cmp) (a : Nat) : Prog :=
  .seq (.first 0 a) (.seq (.past 1 a) (.loop c 0 1 (.seq (.load 0) (.preInc 0))))

theorem spec_loop (len : Nat → Nat) (back : Bool) (a : Nat) (c : Cmp) (hc : c = .ne ∨ c = .lt)
    (k : Nat) : ∀ (i f : Nat) (s : St Pos), s.var 0 = ⟨a, i⟩ → s.var 1 = ⟨a, len a⟩ →
      i + k = len a → ∃ s', run (spec len back) (k + 3 + f) (.loop c 0 1 (.seq (.load 0) (.preInc 0))) s
        = .ok s' ∧ s'.mem = s.mem ∧ s'.out = ((List.range' i k).map fun (j : Nat) =>
          s.mem (place len back a j).1 (place len back a j).2).reverse ++ s.out := by
  induction k with
  | zero =>
    intro i f s h0 h1 hk
    refine ⟨s, ?_, rfl, rfl⟩
    rw [show 0 + 3 + f = (f + 2) + 1 by omega]
    unfold run
    have e : (i : Int) = len a := by omega
    rcases hc with rfl | rfl <;> simp [spec, h0, h1, e]
  | succ k ih =>
    intro i f s h0 h1 hk
    have hpeek : peek len back ⟨a, i⟩ 0 = .ok (place len back a i) := by
      unfold peek
      simp only [Int.add_zero]
      rw [if_pos (by omega)]
    have hmove : move len ⟨a, i⟩ 1 = .ok ⟨a, ((i + 1 : Nat) : Int)⟩ := by
      unfold move
      simp only
      rw [if_pos (by omega)]
      rfl
    let v := s.mem (place len back a i).1 (place len back a i).2
    let s1 : St Pos := St.set { s with out := v :: s.out } 0 ⟨a, ((i + 1 : Nat) : Int)⟩
    have hbody : ∀ g, run (spec len back) (g + 2) (.seq (.load 0) (.preInc 0)) s = .ok s1 := by
      intro g
      show ((spec len back).deref (s.var 0) >>= fun r => _) >>= _ = _
      rw [h0]
      show (peek len back ⟨a, i⟩ 0 >>= fun r => _) >>= _ = _
      rw [hpeek]
      simp only [Res.ok_bind]
      show (move len (s.var 0) 1 >>= fun i => _) = _
      rw [h0, hmove]
      rfl
    obtain ⟨s', hr, hm, ho⟩ := ih (i + 1) f s1 rfl h1 (by omega)
    refine ⟨s', ?_, hm, ?_⟩
    · rw [show k + 1 + 3 + f = (k + 3 + f) + 1 by omega]
      unfold run
      have hne : (i : Int) ≠ len a := by omega
      have hlt : (i : Int) < len a := by omega
      have hb := hbody (k + 1 + f)
      rw [show k + 1 + f + 2 = k + 3 + f by omega] at hb
      rcases hc with rfl | rfl
      · simp only [spec, h0, h1, ne_eq, hne, not_false_eq_true, decide_true, if_true, Res.ok_bind]
        exact (congrArg (· >>= _) hb).trans hr
      · simp only [spec, h0, h1, hlt, decide_true, if_true, Res.ok_bind]
        exact (congrArg (· >>= _) hb).trans hr
    · rw [ho, List.range'_succ, List.map_cons, List.reverse_cons, List.append_assoc]
      rfl

theorem run_through {I : Type} (O : Ops I) (f : Nat) (c : Cmp) (a : Nat) (s : St I) :
    run O (f + 3) (through c a) s =
      run O (f + 1) (.loop c 0 1 (.seq (.load 0) (.preInc 0)))
        ((s.set 0 (O.first a)).set 1 (O.past a)) := rfl

theorem run_loop {I : Type} (O : Ops I) (f : Nat) (c : Cmp) (x y : Nat) (p : Prog) (s : St I)
    {g : I → I → Res Bool} {b : Bool} (hg : O.cmp c = some g) (hb : g (s.var x) (s.var y) = .ok b) :
    run O (f + 1) (.loop c x y p) s =
      if b then run O f p s >>= fun s => run O f (.loop c x y p) s else .ok s := by
  conv => lhs; unfold run
  simp only [hg, hb, Res.ok_bind]

theorem spec_through (len : Nat → Nat) (back : Bool) (a : Nat) (c : Cmp) (hc : c = .ne ∨ c = .lt)
    (f : Nat) (mem : Nat → Nat → Int) :
    robs (run (spec len back) (len a + 5 + f) (through c a) (init (spec len back) mem)) =
      .ok (mem, ((List.range (len a)).map fun (j : Nat) =>
        mem (place len back a j).1 (place len back a j).2).reverse) := by
  let s : St Pos := ((init (spec len back) mem).set 0 ⟨a, 0⟩).set 1 ⟨a, len a⟩
  obtain ⟨s', hr, hm, ho⟩ := spec_loop len back a c hc (len a) 0 f s rfl rfl (by omega)
  have : run (spec len back) (len a + 5 + f) (through c a) (init (spec len back) mem) = .ok s' := by
    rw [show len a + 5 + f = (len a + 2 + f) + 3 by omega, run_through]
    rw [show len a + 3 + f = (len a + 2 + f) + 1 by omega] at hr
    exact hr
  rw [this]
  simp only [robs, obs, hm, ho]
  rw [List.range_eq_range']
  simp only [s, St.set, init, List.append_nil]

end Verif.IterSpec
