import Verif.Lemmas.Compare
import Verif.Props.RbCmp
import Verif.Props.StringView

/-!
Properties C111 (comparison operators and function objects) and C112 (arithmetic function objects).

`call t op cx cy = some g` says that `x op y` compiles for lvalues of type `t`, const if `cx`, `cy`
say so, and that `g x y` is what it does; `f.call t` is the same for a function object `f`
(`less`, ...), whose parameters are references to const. A value of type `t` is a `t.Val`.
-/

set_option backward.isDefEq.respectTransparency false

namespace Verif.Compare
open Verif
open Verif.Rb (Swo Walk Exists)
open Verif.Box (Slot)

/-! ### C111 -/

/-- C111. `==` and `!=`, wherever they compile, tell exactly different values apart, if no part of
them is an `any` or a `function` and all vectors and lists are shorter than 2^31; only then. -/
theorem C111_equality_partial {t : Ty} {cx cy : Bool} {g : Cmp t.Val} (h : call t .eq cx cy = some g) :
    ((∀ x y, t.small x → t.small y → g x y = .ok (decide (x = y))) ↔ t.hasAny = false) ∧
    ∀ g', call t .ne cx cy = some g' → ∀ x y, t.small x → t.small y → t.hasAny = false → g' x y = .ok (!decide (x = y)) := by
  refine ⟨⟨fun hg => ?_, fun ha x y hx hy => (eq_ok ha hx hy cx cy g).1 h⟩, fun g' h' x y hx hy ha => (eq_ok ha hx hy cx cy g').2 h'⟩
  cases e : t.hasAny with
  | false => rfl
  | true =>
    obtain ⟨x, y, hn, hx, hy, hb⟩ := any_bad e
    have h1 := (hb cx cy g).1 h
    rw [hg x y hx hy] at h1
    injection h1 with h1
    exact absurd (of_decide_eq_true h1) hn

/-- A vector of pairs of numbers and lists of views. -/
def exTy : Ty := .vec (.list (.pair (.int .i32) (.vec .view)))

example : (call exTy .eq true true).isSome = true ∧ exTy.hasAny = false ∧
    exTy.small ([[(1#32, [[97#8], []])], []] : List (List (BitVec 32 × List (List (BitVec 8))))) := by
  refine ⟨rfl, rfl, ?_, ?_⟩
  · show 2 < _; decide
  · intro e he
    simp only [List.mem_cons, List.not_mem_nil, or_false] at he
    rcases he with rfl | rfl
    · refine ⟨by show 1 < _; decide, fun e he => ?_⟩
      rw [List.mem_singleton.1 he]
      refine ⟨trivial, by show 2 < _; decide, fun _ _ => trivial⟩
    · exact smallSeq_nil

/-- C111, violated for `any` and `function`: any two that are not empty compare equal, whatever they
hold, so no two of them are in order. -/
theorem C111_any_violated (u v : Nat) (cx cy : Bool) :
    (∃ g, call .any .eq cx cy = some g ∧ g (some u) (some v) = .ok true) ∧
    (∃ g, call .any .lt cx cy = some g ∧ g (some u) (some v) = .ok false) ∧ ∃ g, Fn.call .less .any = some g ∧ g (some u) (some v) = .ok false :=
  ⟨⟨_, rfl, rfl⟩, ⟨_, rfl, rfl⟩, _, rfl, rfl⟩

example : ∃ g, call .any .eq true true = some g ∧ g (some 1) (some 2) = .ok true := (C111_any_violated 1 2 true true).1

/-- C111, violated for long vectors and lists: comparing one of 2^31 or more elements with a copy of
itself is undefined. -/
theorem C111_long_violated {a : Ty} {cx cy : Bool} {x : List a.Val} (hx : ∀ e ∈ x, a.small e) (hl : 2147483648 ≤ x.length) :
    (∀ g, call (.vec a) .eq cx cy = some g → g x x = .ub) ∧ (∀ g, call (.list a) .eq cx cy = some g → g x x = .ub) := by
  have key : ∀ f, call a .ne false true = some f → seqEq f x x = .ub := by
    intro f e1
    simp only [seqEq, ne_eq, not_true_eq_false, if_false]
    exact seqLoop_ub x 0 (by decide) (by omega) fun e he => (eq_refl (hx e he) false true f).2 e1
  refine ⟨fun g h => ?_, fun g h => ?_⟩
  · obtain ⟨f, e1, rfl⟩ := vec_eq h
    exact key f e1
  · obtain ⟨_, f, e1, rfl⟩ := list_eq h
    exact key f e1

example : ∃ g, call (.vec (.int .u8)) .eq true true = some g ∧ g (List.replicate 2147483648 (0#8)) (List.replicate 2147483648 (0#8)) = .ub := by
  refine ⟨_, rfl, (C111_long_violated (a := .int .u8) (cx := true) (cy := true) (fun _ _ => trivial) ?_).1 _ rfl⟩
  rw [List.length_replicate]
  exact Nat.le_refl _

/-- C111, which const objects have an order: the function objects (and the operators `<`, `<=`, `>`, `>=`
on const objects) compile for numbers, pointers, `unique_ptr`, views, `any`, `function` and pairs of such, and
for nothing else. -/
theorem C111_ordered_types (t : Ty) (f : Fn) : f.call t ≠ none ↔ Ordered t := by
  constructor
  · intro h
    refine ordered_of_lt (op := f.op) ?_ h
    cases f
    · exact .inl rfl
    · exact .inr (.inr (.inl rfl))
    · exact .inr (.inl rfl)
    · exact .inr (.inr (.inr rfl))
  · intro h
    obtain ⟨l, hl, _⟩ := h.lt
    have he := h.eq true true
    cases h with
    | @pair a b ha hb =>
      obtain ⟨l1, h1, _⟩ := ha.lt
      obtain ⟨l2, h2, _⟩ := hb.lt
      cases f
      · show call _ .lt true true ≠ none
        rw [hl]; exact fun h => nomatch h
      · show call _ .gt true true ≠ none
        simp only [call, h1, h2]; exact fun h => nomatch h
      · cases e1 : call a .eq true true with
        | none => exact absurd e1 (ha.eq true true)
        | some g1 =>
          cases e2 : call b .eq true true with
          | none => exact absurd e2 (hb.eq true true)
          | some g2 =>
            show call _ .le true true ≠ none
            simp only [call, h1, h2, e1, e2]; exact fun h => (nomatch h)
      · show call _ .ge true true ≠ none
        simp only [call, h1, h2]; exact fun h => nomatch h
    | _ => exact fun h => nomatch h

example : Fn.greater.call (.pair (.int .u8) .view) ≠ none := (C111_ordered_types _ _).2 (.pair (.int _) .view)

/-- C111, violated: shared pointers have `==`, `<` and the others only when not const, so they cannot be in
a set, and vectors of them cannot be compared; const lists cannot be compared, though vectors of lists can; vectors have no `!=`. -/
theorem C111_const_violated (a : Ty) (cx cy : Bool) :
    (∀ f : Fn, f.call .shared = none) ∧ call (.vec .shared) .eq cx cy = none ∧ (∀ op, call .shared op false false ≠ none) ∧
    (∀ op, call (.list a) op true cy = none) ∧ (call (.list a) .eq false cy ≠ none ↔ call (.vec (.list a)) .eq cx cy ≠ none) ∧
    call (.vec a) .ne cx cy = none ∧ call (.vec (.vec a)) .eq cx cy = none := by
  refine ⟨fun f => by cases f <;> rfl, rfl, fun op h => (by cases op <;> cases h), fun op => by cases op <;> rfl, ?_, rfl, rfl⟩
  simp only [call]
  cases call a .ne false true with
  | none => exact ⟨fun h => absurd rfl h, fun h => absurd rfl h⟩
  | some f => exact ⟨fun _ h => (nomatch h), fun _ h => (nomatch h)⟩

example : call (.list (.int .i32)) .eq false true ≠ none ∧ call (.list (.int .i32)) .eq true true = none := ⟨fun h => (nomatch h), rfl⟩

/-- C111. `<` is defined for all values of every type that has it, and it is a strict weak order exactly
for the types that are not pairs. -/
theorem C111_order_partial {t : Ty} (h : Ordered t) :
    ∃ f : t.Val → t.Val → Bool, (∀ cx cy, call t .lt cx cy = some fun x y => .ok (f x y)) ∧ (Swo f ↔ ∀ a b, t ≠ .pair a b) := by
  by_cases hp : ∀ a b, t ≠ .pair a b
  · obtain ⟨c, h3, _, _, hc⟩ := atom_three (h.atom hp)
    refine ⟨_, fun cx cy => hc .lt cx cy, fun _ => hp, fun _ => ⟨fun x y hx => ?_, fun x y z hx => ?_⟩⟩
    · simp only [Op.num, decide_eq_true_eq, decide_eq_false_iff_not] at hx ⊢
      have := h3.swap x y; omega
    · simp only [Op.num, decide_eq_true_eq] at hx ⊢
      exact h3.trans x y z hx
  · cases h with
    | pair ha hb =>
      rename_i a b
      obtain ⟨f, hf⟩ := (Ordered.pair ha hb).lt
      refine ⟨f, hf.1, fun w => ?_, fun h => absurd h hp⟩
      obtain ⟨f1, h1, x, x', hx⟩ := ha.lt
      obtain ⟨f2, h2, y, y', hy⟩ := hb.lt
      have e := hf.1 true true
      simp only [call, h1, h2] at e
      injection e with e
      have e1 : f (x, y') (x', y) = true := by
        have := congrFun (congrFun e (x, y')) (x', y)
        simp only [pairLt, hx, Res.ok_bind, if_true] at this
        injection this with this
        exact this.symm
      have e2 : f (x', y) (x, y') = true := by
        have := congrFun (congrFun e (x', y)) (x, y')
        simp only [pairLt, hy, Res.ok_bind] at this
        cases h0 : f1 x' x with
        | true => rw [h0] at this; injection this with this; exact this.symm
        | false => rw [h0] at this; injection this with this; exact this.symm
      have := w.asymm _ _ e1
      rw [e2] at this
      cases this
    | _ => exact absurd (fun a b => by simp) hp

example : Ordered .view ∧ ∀ a b, Ty.view ≠ .pair a b := ⟨.view, by simp⟩

/-- C111. For types other than pairs the other operators agree with `<`: `x > y` is `y < x`, `x <= y` and
`x >= y` are their negations, and `x == y` holds if neither is less. -/
theorem C111_operators_partial {t : Ty} (h : Ordered t) (hp : ∀ a b, t ≠ .pair a b) (cx cy : Bool) :
    ∃ f : t.Val → t.Val → Bool, call t .lt cx cy = some (fun x y => .ok (f x y)) ∧ call t .gt cx cy = some (fun x y => .ok (f y x)) ∧
      call t .le cx cy = some (fun x y => .ok (!f y x)) ∧ call t .ge cx cy = some (fun x y => .ok (!f x y)) ∧
      call t .eq cx cy = some (fun x y => .ok (!f x y && !f y x)) ∧ call t .ne cx cy = some (fun x y => .ok (f x y || f y x)) := by
  obtain ⟨c, h3, _, _, hc⟩ := atom_three (h.atom hp)
  have fe : ∀ op (k : t.Val → t.Val → Bool), (∀ x y, op.num (c x y) 0 = k x y) → call t op cx cy = some fun x y => .ok (k x y) := by
    intro op k hk
    rw [hc op cx cy]
    congr 1; funext x y; rw [hk]
  refine ⟨fun x y => decide (c x y < 0), fe _ _ fun x y => rfl, fe _ _ fun x y => ?_, fe _ _ fun x y => ?_, fe _ _ fun x y => ?_, fe _ _ fun x y => ?_, fe _ _ fun x y => ?_⟩
  all_goals
    have s := h3.swap x y
    simp only [Op.num]
    rcases Int.lt_trichotomy (c x y) 0 with l | l | l
    · have : ¬ c y x < 0 := by omega
      have : ¬ c x y > 0 := by omega
      have : ¬ c x y = 0 := by omega
      have : c x y ≤ 0 := by omega
      simp [*]
      try omega
    · have : ¬ c y x < 0 := by omega
      have : ¬ c x y < 0 := by omega
      simp [*]
    · have : c y x < 0 := by omega
      have : ¬ c x y < 0 := by omega
      have : ¬ c x y = 0 := by omega
      have : ¬ c x y ≤ 0 := by omega
      simp [*]
      try omega

example : Ordered (.int .u64) ∧ ∀ a b, Ty.int .u64 ≠ .pair a b := ⟨.int _, by simp⟩

/-- C111, violated for all pairs: there are `x` and `y` with `x < y`, `y < x`, `x <= y` and not `x >= y`. -/
theorem C111_pairs_violated {a b : Ty} (ha : Ordered a) (hb : Ordered b) (cx cy : Bool) :
    ∃ x y lt le ge, call (.pair a b) .lt cx cy = some lt ∧ call (.pair a b) .le cx cy = some le ∧ call (.pair a b) .ge cx cy = some ge ∧
      lt x y = .ok true ∧ lt y x = .ok true ∧ le x y = .ok true ∧ ge x y = .ok false := by
  obtain ⟨f1, h1, x, x', hx⟩ := ha.lt
  obtain ⟨f2, h2, y, y', hy⟩ := hb.lt
  cases e1 : call a .eq true true with
  | none => exact absurd e1 (ha.eq true true)
  | some g1 =>
    cases e2 : call b .eq true true with
    | none => exact absurd e2 (hb.eq true true)
    | some g2 =>
      refine ⟨(x, y'), (x', y), _, _, _, by simp only [call, h1, h2]; rfl, by simp only [call, h1, h2, e1, e2]; rfl, by simp only [call, h1, h2]; rfl, ?_, ?_, ?_, ?_⟩
      · simp [pairLt, hx]
      · simp only [pairLt, hy, Res.ok_bind]
        cases h0 : f1 x' x <;> rfl
      · simp [pairLe, pairLt, hx]
      · simp [notR, pairLt, hx]

example : Ordered (.int .i32) ∧ Ordered (.pair .ptr .view) := ⟨.int _, .pair .ptr .view⟩

/-- C111. `less` and `greater` are fit for sets and multisets of every ordered type other than pairs: whatever
was done with the sets, iteration follows the function object. -/
theorem C111_sets {t : Ty} (h : Ordered t) (hp : ∀ a b, t ≠ .pair a b) {f : Fn} (hf : f = .less ∨ f = .greater) :
    ∃ ap : t.Val → t.Val → Bool, f.call t = some (fun x y => .ok (ap x y)) ∧
      ∀ {multi s k}, RbCmp.Reach (fun _ : Unit => ap) (some ()) multi s → Exists s.t k →
        ∃ l, Walk s.t k l ∧ l.Pairwise fun x y => ap y.2 x.2 = false ∧ (multi = false → ap x.2 y.2 = true) := by
  obtain ⟨c, h3, _, _, hc⟩ := atom_three (h.atom hp)
  refine ⟨_, hc f.op true true, fun {multi s k} hr hx => ?_⟩
  have w : Swo fun x y => f.op.num (c x y) 0 := by
    rcases hf with rfl | rfl
    · refine ⟨fun x y hx => ?_, fun x y z hx => ?_⟩
      · simp only [Fn.op, Op.num, decide_eq_true_eq, decide_eq_false_iff_not] at hx ⊢
        have := h3.swap x y; omega
      · simp only [Fn.op, Op.num, decide_eq_true_eq] at hx ⊢
        exact h3.trans x y z hx
    · refine ⟨fun x y hx => ?_, fun x y z hx => ?_⟩
      · simp only [Fn.op, Op.num, decide_eq_true_eq, decide_eq_false_iff_not] at hx ⊢
        have := h3.swap x y; omega
      · simp only [Fn.op, Op.num, decide_eq_true_eq] at hx ⊢
        have a1 := h3.swap x y
        have a2 := h3.swap y z
        have a3 := h3.swap x z
        have := h3.trans z y x (by omega)
        omega
  obtain ⟨l, hl, ho, hn⟩ := RbCmp.C104_ordered (fun _ => w) hr hx
  refine ⟨l, hl, ?_⟩
  cases e : s.cmp (.user k) with
  | none => cases (hn e).1
  | some u => exact ho u e

/-- A set of `char`, where 255 stands for -1. -/
example : (do
    let (s, _) ← RbCmp.run (fun (_ : Unit) (x y : BitVec 8) => decide (x.toInt < y.toInt)) (some ()) false 40 RbCmp.CSt.init [.make 0, .insertAll 0 [5#8, 255#8, 0#8, 5#8]]
    let a ← Rb.walk 40 s.t (.user 0)
    .ok (a.map (·.2))) = (.ok [255#8, 0#8, 5#8] : Res (List (BitVec 8))) ∧
    Fn.less.call (.int .i8) = some (fun (x y : BitVec 8) => .ok (decide (x.toInt < y.toInt))) := ⟨rfl, rfl⟩

/-- C111, numbers: a `set` of numbers is iterated in increasing order of the numbers, each once, and with
`greater` in decreasing order. -/
theorem C111_set_numbers (n : Num) :
    (∃ ap : BitVec n.bits → BitVec n.bits → Bool, Fn.less.call (.int n) = some (fun x y => .ok (ap x y)) ∧
      ∀ {s k}, RbCmp.Reach (fun _ : Unit => ap) (some ()) false s → Exists s.t k → ∃ l, Walk s.t k l ∧ l.Pairwise fun x y => n.val x.2 < n.val y.2) ∧
    ∃ ap : BitVec n.bits → BitVec n.bits → Bool, Fn.greater.call (.int n) = some (fun x y => .ok (ap x y)) ∧
      ∀ {s k}, RbCmp.Reach (fun _ : Unit => ap) (some ()) false s → Exists s.t k → ∃ l, Walk s.t k l ∧ l.Pairwise fun x y => n.val x.2 > n.val y.2 := by
  refine ⟨?_, ?_⟩
  · obtain ⟨ap, e, h⟩ := C111_sets (.int n) (by simp) (f := .less) (.inl rfl)
    refine ⟨ap, e, fun {s k} hr hx => ?_⟩
    obtain ⟨l, hl, ho⟩ := h hr hx
    refine ⟨l, hl, ho.imp ?_⟩
    intro x y hxy
    have h1 := hxy.2 rfl
    injection e with e
    have := congrFun (congrFun e x.2) y.2
    injection this with this
    rw [h1] at this
    exact of_decide_eq_true this
  · obtain ⟨ap, e, h⟩ := C111_sets (.int n) (by simp) (f := .greater) (.inr rfl)
    refine ⟨ap, e, fun {s k} hr hx => ?_⟩
    obtain ⟨l, hl, ho⟩ := h hr hx
    refine ⟨l, hl, ho.imp ?_⟩
    intro x y hxy
    have h1 := hxy.2 rfl
    injection e with e
    have := congrFun (congrFun e x.2) y.2
    injection this with this
    rw [h1] at this
    exact of_decide_eq_true this

/-- C111. `less_equal` and `greater_equal` are not strict: everything is less or equal to itself, so a set with them
keeps duplicates. -/
theorem C111_not_strict {t : Ty} (h : Ordered t) (hp : ∀ a b, t ≠ .pair a b) {f : Fn} (hf : f = .lessEqual ∨ f = .greaterEqual) (x : t.Val) :
    ∃ g, f.call t = some g ∧ g x x = .ok true := by
  obtain ⟨c, h3, _, _, hc⟩ := atom_three (h.atom hp)
  refine ⟨_, hc f.op true true, ?_⟩
  have := h3.swap x x
  have h0 : c x x = 0 := by omega
  rcases hf with rfl | rfl <;> simp [Fn.op, Op.num, h0]

example : Ordered .uniq ∧ ∀ a b, Ty.uniq ≠ .pair a b := ⟨.uniq, by simp⟩

theorem compareLoop_eq (m : Mem) (x y : StringView.View) : ∀ (a b : List UInt8) (i : Nat), a.length = b.length →
    (∀ j (h : j < a.length), m (x.data + (i + j)) = some a[j]) → (∀ j (h : j < b.length), m (y.data + (i + j)) = some b[j]) →
    StringView.compareLoop m x y a.length i = .ok (viewLoop (a.map UInt8.toBitVec) (b.map UInt8.toBitVec))
  | [], [], _, _, _, _ => rfl
  | c :: a, d :: b, i, hl, ha, hb => by
    have h1 := ha 0 (by simp)
    have h2 := hb 0 (by simp)
    simp only [Nat.add_zero, List.getElem_cons_zero] at h1 h2
    have e : ∀ c : UInt8, BitVec.ofNat 8 c.toNat = c.toBitVec := fun c => BitVec.eq_of_toNat_eq (by simp)
    simp only [List.length_cons, StringView.compareLoop, StringView.charAt, Mem.load, h1, h2, Res.ok_bind, e, List.map_cons, viewLoop]
    have ih := compareLoop_eq m x y a b (i + 1) (by simpa using hl)
      (fun j hj => by have := ha (j + 1) (by simp; omega); simpa [Nat.add_assoc, Nat.add_comm 1] using this)
      (fun j hj => by have := hb (j + 1) (by simp; omega); simpa [Nat.add_assoc, Nat.add_comm 1] using this)
    rw [ih]
    split
    · rfl
    · split <;> rfl

/-- C111, views in memory: the operators of `string_view` on views of the characters `a` and `b` do what they do here on
the characters. -/
theorem C111_views {m : Mem} {x y : StringView.View} {a b : List UInt8} (hx : Props.StringView.Denotes m x a) (hy : Props.StringView.Denotes m y b) :
    ∀ op g, call .view op true true = some g → g (a.map UInt8.toBitVec) (b.map UInt8.toBitVec) =
      (match op with
        | .eq => StringView.eq m x y
        | .ne => StringView.ne m x y
        | .lt => StringView.lt m x y
        | .le => StringView.le m x y
        | .gt => StringView.gt m x y
        | .ge => StringView.ge m x y) := by
  have key : StringView.compare m x y = .ok (viewCompare (a.map UInt8.toBitVec) (b.map UInt8.toBitVec)) := by
    have e1 : (x.size < y.size) = (a.length < b.length) := by rw [BitVec.lt_def, hx.1, hy.1]
    have e2 : (x.size > y.size) = (a.length > b.length) := by
      show (y.size < x.size) = (b.length < a.length)
      rw [BitVec.lt_def, hx.1, hy.1]
    simp only [StringView.compare, viewCompare, e1, e2, List.length_map]
    split
    · rfl
    · split
      · rfl
      · rw [hx.1]
        exact compareLoop_eq m x y a b 0 (by omega) (fun j h => by simpa using hx.2 j h) (fun j h => by simpa using hy.2 j h)
  intro op g h
  injection h with h
  subst h
  cases op
  · simp only [StringView.eq, key, Res.ok_bind]; rfl
  · simp only [StringView.ne, key, Res.ok_bind]; rfl
  · simp only [StringView.lt, key, Res.ok_bind]; rfl
  · simp only [StringView.le, key, Res.ok_bind]; rfl
  · simp only [StringView.gt, key, Res.ok_bind]; rfl
  · simp only [StringView.ge, key, Res.ok_bind]; rfl

example : Props.StringView.Denotes (fun a => if a = 7 then some 200 else none) ⟨7, 1#64⟩ [200] ∧ (call .view .lt true true).isSome = true :=
  ⟨⟨rfl, by decide⟩, rfl⟩

/-! ### C112 -/

/-- The mathematical result of an operation; division truncates. -/
def Arith.exact (f : Arith) (a b : Int) : Int :=
  match f with
  | .plus => a + b
  | .minus => a - b
  | .multiplies => a * b
  | .divides => a.tdiv b
  | .modulus => a.tmod b
  | .negate => -a

/-- `/` and `%`. -/
def Arith.divs : Arith → Bool
  | .divides | .modulus => true
  | _ => false

theorem fit {n : Num} (hs : n.signed = true) {v : Int} (h1 : -2 ^ (n.bits - 1) ≤ v) (h2 : v < 2 ^ (n.bits - 1)) : n.result v = .ok v := by
  simp only [Num.result, hs, if_true]
  rw [if_pos ⟨h1, h2⟩]

theorem tdiv_le (a b : Int) : (a.tdiv b).natAbs ≤ a.natAbs := by
  rw [Int.natAbs_tdiv]
  exact Nat.div_le_self _ _

theorem tmod_le (a b : Int) : (a.tmod b).natAbs ≤ a.natAbs := by
  rw [Int.natAbs_tmod]
  exact Nat.mod_le _ _

/-- Narrow types are computed in `int`, where small operands give small results. -/
theorem narrow_small (f : Arith) {a b : Int} {M : Nat} (ha : a.natAbs ≤ M) (hb : b.natAbs ≤ M) (hM : f = .multiplies → M ≤ 32768) (hM' : M ≤ 65535) :
    -2147483648 ≤ f.exact a b ∧ f.exact a b < 2147483648 := by
  cases f
  · simp only [Arith.exact]; omega
  · simp only [Arith.exact]; omega
  · have h := hM rfl
    have : (a * b).natAbs ≤ 32768 * 32768 := by
      rw [Int.natAbs_mul]
      exact Nat.mul_le_mul (by omega) (by omega)
    simp only [Arith.exact]; omega
  · have := tdiv_le a b
    simp only [Arith.exact]; omega
  · have := tmod_le a b
    simp only [Arith.exact]; omega
  · simp only [Arith.exact]; omega

/-- `operator()` with the mathematical result. -/
theorem arith_eq (f : Arith) (n : Num) (x y : BitVec n.bits) (hd : f.divs = true → n.val y ≠ 0) :
    f.call n x y = (do
      let _ ← if f = .modulus then n.promoted.result ((n.val x).tdiv (n.val y)) else .ok 0
      let v ← n.promoted.result (f.exact (n.val x) (n.val y))
      .ok (n.conv v)) := by
  cases f
  · rfl
  · rfl
  · rfl
  · simp only [Arith.call, if_neg (hd rfl)]; rfl
  · simp only [Arith.call, if_neg (hd rfl)]
    cases n.promoted.result ((n.val x).tdiv (n.val y)) <;> rfl
  · rfl

/-- Division by zero is undefined (and expected to be). -/
theorem div_zero {f : Arith} (hd : f.divs = true) (n : Num) (x y : BitVec n.bits) (h0 : n.val y = 0) : f.call n x y = .ub := by
  cases f with
  | divides => simp only [Arith.call, if_pos h0]; rfl
  | modulus => simp only [Arith.call, if_pos h0]; rfl
  | _ => cases hd

theorem narrow {f : Arith} {n : Num} (hn : n.promoted = .i32) {x y : BitVec n.bits} (hd : f.divs = true → n.val y ≠ 0) {M : Nat}
    (ha : (n.val x).natAbs ≤ M) (hb : (n.val y).natAbs ≤ M) (hM : f = .multiplies → M ≤ 32768) (hM' : M ≤ 65535) :
    f.call n x y = .ok (n.conv (f.exact (n.val x) (n.val y))) := by
  rw [arith_eq f n x y hd, hn]
  obtain ⟨h1, h2⟩ := narrow_small f ha hb hM hM'
  obtain ⟨h3, h4⟩ := narrow_small .divides (a := n.val x) (b := n.val y) ha hb (fun h => nomatch h) hM'
  have e1 : Num.i32.result (f.exact (n.val x) (n.val y)) = .ok (f.exact (n.val x) (n.val y)) := fit rfl h1 h2
  have e2 : Num.i32.result ((n.val x).tdiv (n.val y)) = .ok ((n.val x).tdiv (n.val y)) := fit rfl h3 h4
  rw [e1, e2]
  by_cases h : f = .modulus
  · rw [if_pos h]; rfl
  · rw [if_neg h]; rfl

theorem ofInt_emod (w : Nat) (v : Int) : BitVec.ofInt w (v % 2 ^ w) = BitVec.ofInt w v := by
  apply BitVec.eq_of_toInt_eq
  simp only [BitVec.toInt_ofInt]
  have : ((2 ^ w : Nat) : Int) = 2 ^ w := by simp
  rw [← this, Int.emod_bmod]

/-- C112. On `uint32_t` and `uint64_t` and on the types of 8 and 16 bits, every arithmetic function object is
defined for all operands (except divisors of 0) and gives the mathematical result modulo 2^bits, except
for products of `uint16_t` (`C112_product_violated`). -/
theorem C112_wraps_partial (f : Arith) {n : Num} (hb : n ≠ .bool) (hs : n = .i32 ∨ n = .i64 → False) (hu : n = .u16 → f ≠ .multiplies) (x y : BitVec n.bits)
    (hd : f.divs = true → n.val y ≠ 0) : f.call n x y = .ok (BitVec.ofInt n.bits (f.exact (n.val x) (n.val y))) := by
  have big : n.promoted = n → n.signed = false → (∀ v, n.conv v = BitVec.ofInt n.bits v) → f.call n x y = .ok (BitVec.ofInt n.bits (f.exact (n.val x) (n.val y))) := by
    intro hp hg hc
    rw [arith_eq f n x y hd, hp]
    simp only [Num.result, hg, Bool.false_eq_true, if_false, hc]
    by_cases h : f = .modulus
    · simp only [if_pos h, Res.ok_bind, ofInt_emod]
    · simp only [if_neg h, Res.ok_bind, ofInt_emod]
  cases n
  · exact absurd rfl hb
  · have h1 := x.isLt; have h2 := y.isLt
    simp only [Num.bits] at h1 h2 x y
    exact narrow rfl hd (M := 255) (by show Int.natAbs (x.toNat : Int) ≤ _; omega) (by show Int.natAbs (y.toNat : Int) ≤ _; omega) (fun _ => by decide) (by decide)
  · have h1 := BitVec.toInt_lt (x := x); have h2 := BitVec.toInt_lt (x := y); have h3 := BitVec.le_toInt (x := x); have h4 := BitVec.le_toInt (x := y)
    simp only [Num.bits] at h1 h2 h3 h4 x y
    exact narrow rfl hd (M := 128) (by show Int.natAbs x.toInt ≤ _; omega) (by show Int.natAbs y.toInt ≤ _; omega) (fun _ => by decide) (by decide)
  · have h1 := x.isLt; have h2 := y.isLt
    simp only [Num.bits] at h1 h2 x y
    exact narrow rfl hd (M := 65535) (by show Int.natAbs (x.toNat : Int) ≤ _; omega) (by show Int.natAbs (y.toNat : Int) ≤ _; omega) (fun h => absurd h (hu rfl)) (by decide)
  · have h1 := BitVec.toInt_lt (x := x); have h2 := BitVec.toInt_lt (x := y); have h3 := BitVec.le_toInt (x := x); have h4 := BitVec.le_toInt (x := y)
    simp only [Num.bits] at h1 h2 h3 h4 x y
    exact narrow rfl hd (M := 32768) (by show Int.natAbs x.toInt ≤ _; omega) (by show Int.natAbs y.toInt ≤ _; omega) (fun _ => by decide) (by decide)
  · exact big rfl rfl fun _ => rfl
  · exact (hs (.inl rfl)).elim
  · exact big rfl rfl fun _ => rfl
  · exact (hs (.inr rfl)).elim

example : Arith.minus.call .u32 2#32 5#32 = .ok 4294967293#32 ∧ Arith.divides.call .i8 128#8 255#8 = .ok 128#8 ∧ Arith.modulus.call .i16 (BitVec.ofInt 16 (-7)) 3#16 = .ok (BitVec.ofInt 16 (-1)) := by
  refine ⟨?_, ?_, ?_⟩ <;> rfl

/-- C112, violated for `uint16_t`: a product is undefined exactly if it is 2^31 or more. -/
theorem C112_product_violated (x y : BitVec 16) : Arith.multiplies.call .u16 x y = .ub ↔ 2147483648 ≤ x.toNat * y.toNat := by
  rw [arith_eq _ _ _ _ (fun h => by cases h)]
  have e : Arith.multiplies.exact (Num.u16.val x) (Num.u16.val y) = ((x.toNat * y.toNat : Nat) : Int) := (Int.natCast_mul _ _).symm
  rw [e]
  rw [if_neg (fun h => by cases h), Res.ok_bind]
  simp only [Num.promoted]
  generalize x.toNat * y.toNat = p
  by_cases h : 2147483648 ≤ p
  · refine ⟨fun _ => h, fun _ => ?_⟩
    have : Num.i32.result (p : Int) = .ub := by
      simp only [Num.result, Num.signed, Num.bits, if_true]
      rw [if_neg (by omega)]
    rw [this]; rfl
  · refine ⟨fun h' => ?_, fun h' => absurd h' h⟩
    rw [fit (n := .i32) rfl (show (-2147483648 : Int) ≤ (p : Int) by omega) (show (p : Int) < 2147483648 by omega)] at h'
    cases h'

example : Arith.multiplies.call .u16 65535#16 65535#16 = .ub := (C112_product_violated _ _).2 (by decide)

/-- C112. On `int32_t` and `int64_t` an arithmetic function object is defined exactly if the mathematical result fits
(for `%`: the quotient), and then that is what it gives. -/
theorem C112_signed (f : Arith) {n : Num} (hs : n = .i32 ∨ n = .i64) (x y r : BitVec n.bits) (hd : f.divs = true → y.toInt ≠ 0) :
    f.call n x y = .ok r ↔ r.toInt = f.exact x.toInt y.toInt ∧ (f = .modulus → -2 ^ (n.bits - 1) ≤ x.toInt.tdiv y.toInt ∧ x.toInt.tdiv y.toInt < 2 ^ (n.bits - 1)) := by
  have main : ∀ (n : Num) (x y r : BitVec n.bits), n.signed = true → n.promoted = n → (∀ v, n.conv v = BitVec.ofInt n.bits v) → 0 < n.bits → (f.divs = true → y.toInt ≠ 0) →
      (f.call n x y = .ok r ↔ r.toInt = f.exact x.toInt y.toInt ∧ (f = .modulus → -2 ^ (n.bits - 1) ≤ x.toInt.tdiv y.toInt ∧ x.toInt.tdiv y.toInt < 2 ^ (n.bits - 1))) := by
    intro n x y r hg hp hc h0 hd
    have ex : ∀ z : BitVec n.bits, n.val z = z.toInt := by intro z; simp only [Num.val, hg, if_true]
    rw [arith_eq f n x y (by rw [ex]; exact hd), hp, ex, ex]
    have rv : ∀ v : Int, n.result v = if -2 ^ (n.bits - 1) ≤ v ∧ v < 2 ^ (n.bits - 1) then .ok v else .ub := by
      intro v; simp only [Num.result, hg, if_true]
    have lo := BitVec.le_toInt (x := r)
    have hi := BitVec.toInt_lt (x := r)
    have core : ∀ v : Int, (Res.bind (n.result v) (fun v => Res.ok (n.conv v)) = .ok r) ↔ r.toInt = v := by
      intro v
      rw [rv]
      by_cases h : -2 ^ (n.bits - 1) ≤ v ∧ v < 2 ^ (n.bits - 1)
      · rw [if_pos h]
        show Res.ok (n.conv v) = .ok r ↔ _
        rw [hc]
        have ev : (BitVec.ofInt n.bits v).toInt = v := by
          rw [BitVec.toInt_ofInt]
          have e : (2 : Int) ^ n.bits = 2 * 2 ^ (n.bits - 1) := by
            conv => lhs; rw [show n.bits = (n.bits - 1) + 1 by omega]
            rw [Int.pow_succ]; omega
          have e' : ((2 ^ n.bits : Nat) : Int) = 2 ^ n.bits := by simp
          apply Int.bmod_eq_of_le
          · omega
          · omega
        constructor
        · intro h1; injection h1 with h1; rw [← h1]; exact ev
        · intro h1
          congr 1
          apply BitVec.eq_of_toInt_eq
          rw [ev, h1]
      · rw [if_neg h]
        refine ⟨fun h1 => (by cases h1), fun h1 => absurd ⟨?_, ?_⟩ h⟩
        · rw [← h1]; exact lo
        · rw [← h1]; exact hi
    by_cases hm : f = .modulus
    · subst hm
      rw [if_pos rfl, rv]
      by_cases h : -2 ^ (n.bits - 1) ≤ x.toInt.tdiv y.toInt ∧ x.toInt.tdiv y.toInt < 2 ^ (n.bits - 1)
      · rw [if_pos h]
        exact (core _).trans ⟨fun h1 => ⟨h1, fun _ => h⟩, fun h1 => h1.1⟩
      · rw [if_neg h]
        exact ⟨fun h1 => (nomatch h1), fun h1 => absurd (h1.2 rfl) h⟩
    · rw [if_neg hm]
      exact (core _).trans ⟨fun h1 => ⟨h1, fun h => absurd h hm⟩, fun h1 => h1.1⟩
  rcases hs with rfl | rfl
  · exact main .i32 x y r rfl rfl (fun _ => rfl) (by decide) hd
  · exact main .i64 x y r rfl rfl (fun _ => rfl) (by decide) hd

example : Arith.plus.call .i32 5#32 (BitVec.ofInt 32 (-8)) = .ok (BitVec.ofInt 32 (-3)) ∧ Arith.plus.call .i32 2147483647#32 1#32 = .ub ∧
    Arith.modulus.call .i32 2147483648#32 (BitVec.ofInt 32 (-1)) = .ub := by
  refine ⟨?_, ?_, ?_⟩ <;> rfl

/-- C112. On `bool`, `plus` is or, `minus` is exclusive or, `multiplies` is and, and `negate` changes nothing. -/
theorem C112_bool (x y : BitVec 1) : Arith.plus.call .bool x y = .ok (x ||| y) ∧ Arith.minus.call .bool x y = .ok (x ^^^ y) ∧
    Arith.multiplies.call .bool x y = .ok (x &&& y) ∧ Arith.negate.call .bool x y = .ok x := by
  have hx : x = 0#1 ∨ x = 1#1 := by
    have := x.isLt
    rcases (show x.toNat = 0 ∨ x.toNat = 1 by omega) with h | h
    · exact .inl (BitVec.eq_of_toNat_eq h)
    · exact .inr (BitVec.eq_of_toNat_eq h)
  have hy : y = 0#1 ∨ y = 1#1 := by
    have := y.isLt
    rcases (show y.toNat = 0 ∨ y.toNat = 1 by omega) with h | h
    · exact .inl (BitVec.eq_of_toNat_eq h)
    · exact .inr (BitVec.eq_of_toNat_eq h)
  rcases hx with rfl | rfl <;> rcases hy with rfl | rfl <;> (refine ⟨?_, ?_, ?_, ?_⟩ <;> decide +kernel)

example : Arith.minus.call .bool 0#1 1#1 = .ok 1#1 := (C112_bool 0#1 1#1).2.1

end Verif.Compare
