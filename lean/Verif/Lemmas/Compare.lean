import Verif.Model.Compare
import Verif.Lemmas.RbIter

/-! Lemmas for C111 and C112. -/

set_option backward.isDefEq.respectTransparency false

namespace Verif.Compare
open Verif
open Verif.Rb (Swo)

/-- A three-way comparison that orders. -/
structure Three {α : Type} (c : α → α → Int) : Prop where
  swap : ∀ x y, c y x = - c x y
  trans : ∀ x y z, c x z < 0 → c x y < 0 ∨ c y z < 0

theorem viewLoop_swap : ∀ x y : List (BitVec 8), viewLoop y x = - viewLoop x y
  | [], [] => rfl
  | [], _ :: _ => rfl
  | _ :: _, [] => rfl
  | a :: x, b :: y => by
    simp only [viewLoop]
    have ih := viewLoop_swap x y
    split <;> split <;> first | omega | (split <;> first | omega | (split <;> omega)) | skip
    all_goals first | rfl | omega

theorem viewLoop_trans : ∀ x y z : List (BitVec 8), x.length = y.length → y.length = z.length → viewLoop x z < 0 → viewLoop x y < 0 ∨ viewLoop y z < 0
  | [], [], [], _, _, h => by simp [viewLoop] at h
  | a :: x, b :: y, c :: z, h1, h2, h => by
    simp only [viewLoop] at h ⊢
    have ih := viewLoop_trans x y z (by simpa using h1) (by simpa using h2)
    by_cases p : a.toInt < b.toInt
    · left; rw [if_pos p]; decide
    · by_cases q : b.toInt < c.toInt
      · right; rw [if_pos q]; decide
      · rw [if_neg p, if_neg q]
        have n1 : ¬ a.toInt < c.toInt := by omega
        rw [if_neg n1] at h
        by_cases r : a.toInt > c.toInt
        · rw [if_pos r] at h; exact absurd h (by decide)
        · rw [if_neg r] at h
          have e1 : ¬ a.toInt > b.toInt := by omega
          have e2 : ¬ b.toInt > c.toInt := by omega
          rw [if_neg e1, if_neg e2]
          exact ih h

theorem viewLoop_zero : ∀ x y : List (BitVec 8), x.length = y.length → (viewLoop x y = 0 ↔ x = y)
  | [], [], _ => by simp [viewLoop]
  | a :: x, b :: y, h => by
    have ih := viewLoop_zero x y (by simpa using h)
    simp only [viewLoop]
    have e : a.toInt = b.toInt ↔ a = b := BitVec.toInt_inj
    by_cases p : a.toInt < b.toInt
    · rw [if_pos p]
      refine ⟨fun h0 => absurd h0 (by decide), fun h0 => ?_⟩
      injection h0 with h0 _; have := e.2 h0; omega
    · by_cases q : a.toInt > b.toInt
      · rw [if_neg p, if_pos q]
        refine ⟨fun h0 => absurd h0 (by decide), fun h0 => ?_⟩
        injection h0 with h0 _; have := e.2 h0; omega
      · rw [if_neg p, if_neg q, ih]
        have : a = b := e.1 (by omega)
        subst this
        simp

theorem view_three : Three viewCompare where
  swap := by
    intro x y
    unfold viewCompare
    rcases Nat.lt_trichotomy x.length y.length with h | h | h
    · rw [if_neg (by omega), if_pos h, if_pos h]; rfl
    · rw [if_neg (by omega), if_neg (by omega), if_neg (by omega), if_neg (by omega)]
      exact viewLoop_swap x y
    · rw [if_pos h, if_neg (by omega), if_pos h]
  trans := by
    intro x y z h
    unfold viewCompare at *
    by_cases p : x.length < y.length
    · left; rw [if_pos p]; decide
    · by_cases q : y.length < z.length
      · right; rw [if_pos q]; decide
      · by_cases r : x.length = y.length ∧ y.length = z.length
        · rw [if_neg (by omega), if_neg (by omega)] at h
          rw [if_neg (by omega), if_neg (by omega), if_neg (by omega), if_neg (by omega)]
          exact viewLoop_trans x y z r.1 r.2 h
        · rw [if_neg (by omega), if_pos (by omega)] at h
          exact absurd h (by decide)

theorem viewCompare_zero (x y : List (BitVec 8)) : viewCompare x y = 0 ↔ x = y := by
  unfold viewCompare
  rcases Nat.lt_trichotomy x.length y.length with h | h | h
  · rw [if_pos h]
    exact ⟨fun h0 => absurd h0 (by decide), fun h0 => by subst h0; omega⟩
  · rw [if_neg (by omega), if_neg (by omega)]
    exact viewLoop_zero x y h
  · rw [if_neg (by omega), if_pos h]
    exact ⟨fun h0 => absurd h0 (by decide), fun h0 => by subst h0; omega⟩

theorem three_of_key {α : Type} (k : α → Int) : Three fun x y => k x - k y where
  swap := by intro x y; omega
  trans := by intro x y z h; omega

theorem num_sub (op : Op) (x y : Int) : op.num x y = op.num (x - y) 0 := by
  have h : ∀ {p q : Prop} [Decidable p] [Decidable q], (p ↔ q) → decide p = decide q := by
    intro p q _ _ h; exact decide_eq_decide.2 h
  cases op <;> simp only [Op.num]
  · exact h (by omega)
  · rw [h (show x = y ↔ x - y = 0 by omega)]
  · exact h (by omega)
  · exact h (by omega)
  · exact h (by omega)
  · exact h (by omega)

theorem Num.val_inj {n : Num} {x y : BitVec n.bits} : n.val x = n.val y ↔ x = y := by
  unfold Num.val
  split
  · exact BitVec.toInt_inj
  · constructor
    · intro h; exact BitVec.eq_of_toNat_eq (by omega)
    · rintro rfl; rfl

instance Ty.decVal : (t : Ty) → DecidableEq t.Val
  | .int n => inferInstanceAs (DecidableEq (BitVec n.bits))
  | .ptr => inferInstanceAs (DecidableEq (BitVec 64))
  | .view => inferInstanceAs (DecidableEq (List (BitVec 8)))
  | .pair a b =>
    have := decVal a
    have := decVal b
    inferInstanceAs (DecidableEq (a.Val × b.Val))
  | .uniq => inferInstanceAs (DecidableEq (BitVec 64))
  | .shared => inferInstanceAs (DecidableEq (BitVec 64))
  | .vec a =>
    have := decVal a
    inferInstanceAs (DecidableEq (List a.Val))
  | .list a =>
    have := decVal a
    inferInstanceAs (DecidableEq (List a.Val))
  | .any => inferInstanceAs (DecidableEq (Option Nat))
  | .other => inferInstanceAs (DecidableEq Unit)

/-- Integers, addresses, `string_view`, `any`. -/
def Ty.atom : Ty → Bool
  | .int _ | .ptr | .view | .uniq | .any => true
  | _ => false

/-- Types whose const objects can be compared with `<`. -/
inductive Ordered : Ty → Prop where
  | int (n : Num) : Ordered (.int n)
  | ptr : Ordered .ptr
  | uniq : Ordered .uniq
  | view : Ordered .view
  | any : Ordered .any
  | pair {a b : Ty} : Ordered a → Ordered b → Ordered (.pair a b)

theorem atom_three {t : Ty} (h : t.atom = true) : ∃ c : t.Val → t.Val → Int, Three c ∧ (t ≠ .any → ∀ x y, c x y = 0 ↔ x = y) ∧ (∃ x y, c x y < 0) ∧
    ∀ op cx cy, call t op cx cy = some fun x y => .ok (op.num (c x y) 0) := by
  cases t with
  | int n =>
    refine ⟨fun x y => n.val x - n.val y, three_of_key _, fun _ x y => ?_, ?_, fun op cx cy => ?_⟩
    · have := Num.val_inj (x := x) (y := y)
      rw [← this]; dsimp only; omega
    · cases n
      · exact ⟨0#1, 1#1, by decide⟩
      · exact ⟨0#8, 1#8, by decide⟩
      · exact ⟨0#8, 1#8, by decide⟩
      · exact ⟨0#16, 1#16, by decide⟩
      · exact ⟨0#16, 1#16, by decide⟩
      · exact ⟨0#32, 1#32, by decide⟩
      · exact ⟨0#32, 1#32, by decide⟩
      · exact ⟨0#64, 1#64, by decide⟩
      · exact ⟨0#64, 1#64, by decide⟩
    · simp only [call, ← num_sub]
  | ptr =>
    refine ⟨fun (x y : BitVec 64) => (x.toNat : Int) - y.toNat, three_of_key fun x : BitVec 64 => (x.toNat : Int), fun _ (x y : BitVec 64) => ?_, ⟨0#64, 1#64, by decide⟩, fun op cx cy => ?_⟩
    · dsimp only
      constructor
      · intro h; exact BitVec.eq_of_toNat_eq (by omega)
      · rintro rfl; omega
    · simp only [call, ← num_sub]; rfl
  | uniq =>
    refine ⟨fun (x y : BitVec 64) => (x.toNat : Int) - y.toNat, three_of_key fun x : BitVec 64 => (x.toNat : Int), fun _ (x y : BitVec 64) => ?_, ⟨0#64, 1#64, by decide⟩, fun op cx cy => ?_⟩
    · dsimp only
      constructor
      · intro h; exact BitVec.eq_of_toNat_eq (by omega)
      · rintro rfl; omega
    · simp only [call, ← num_sub]; rfl
  | view => exact ⟨viewCompare, view_three, fun _ x y => viewCompare_zero x y, ⟨[], [0#8], by decide⟩, fun op cx cy => rfl⟩
  | any =>
    refine ⟨fun (x y : Option Nat) => (if x.isSome then 1 else 0) - (if y.isSome then 1 else 0), three_of_key fun x : Option Nat => if x.isSome then 1 else 0,
      fun h => absurd rfl h, ⟨none, some 0, by decide⟩, fun op cx cy => ?_⟩
    simp only [call, ← num_sub]; rfl
  | pair => cases h
  | shared => cases h
  | vec => cases h
  | list => cases h
  | other => cases h

theorem Ordered.atom {t : Ty} (h : Ordered t) (hp : ∀ a b, t ≠ .pair a b) : t.atom = true := by
  cases h with
  | pair => exact absurd rfl (hp _ _)
  | _ => rfl

theorem atom_ordered {t : Ty} (h : t.atom = true) : Ordered t := by
  cases t with
  | int n => exact .int n
  | ptr => exact .ptr
  | view => exact .view
  | uniq => exact .uniq
  | any => exact .any
  | _ => cases h

/-- `<` on an ordered type is defined for all operands, const or not, and orders some values. -/
theorem Ordered.lt {t : Ty} (h : Ordered t) : ∃ f : t.Val → t.Val → Bool, (∀ cx cy, call t .lt cx cy = some fun x y => .ok (f x y)) ∧ ∃ x y, f x y = true := by
  have at' : ∀ {t : Ty}, t.atom = true → ∃ f : t.Val → t.Val → Bool, (∀ cx cy, call t .lt cx cy = some fun x y => .ok (f x y)) ∧ ∃ x y, f x y = true := by
    intro t h
    obtain ⟨c, _, _, ⟨x, y, hxy⟩, hc⟩ := atom_three h
    exact ⟨_, fun cx cy => hc .lt cx cy, x, y, by simpa [Op.num] using hxy⟩
  induction h with
  | pair ha hb iha ihb =>
    obtain ⟨f, hf, a, a', hfa⟩ := iha
    obtain ⟨g, hg, b, b', _⟩ := ihb
    refine ⟨fun x y => f x.1 y.1 || g x.2 y.2, fun cx cy => ?_, (a, b), (a', b), by simp [hfa]⟩
    simp only [call, hf, hg]
    show some _ = _
    congr 1
    funext x y
    simp only [pairLt, Res.ok_bind]
    cases f x.1 y.1 <;> rfl
  | int n => exact at' rfl
  | ptr => exact at' rfl
  | uniq => exact at' rfl
  | view => exact at' rfl
  | any => exact at' rfl

theorem ordered_of_lt {t : Ty} {op : Op} (ho : op = .lt ∨ op = .le ∨ op = .gt ∨ op = .ge) (h : call t op true true ≠ none) : Ordered t := by
  induction t generalizing op with
  | int n => exact .int n
  | ptr => exact .ptr
  | view => exact .view
  | uniq => exact .uniq
  | any => exact .any
  | shared => exact absurd rfl h
  | vec a _ => rcases ho with rfl | rfl | rfl | rfl <;> exact absurd rfl h
  | list a _ => exact absurd rfl h
  | other => exact absurd rfl h
  | pair a b iha ihb =>
    have key : call a .lt true true ≠ none ∧ call b .lt true true ≠ none := by
      refine ⟨fun e => h ?_, fun e => h ?_⟩
      · rcases ho with rfl | rfl | rfl | rfl <;> (simp only [call, e]; rfl)
      · rcases ho with rfl | rfl | rfl | rfl <;> (simp only [call, e]; cases call a .lt true true <;> rfl)
    exact .pair (iha (.inl rfl) key.1) (ihb (.inl rfl) key.2)

/-- All six operators compile on const objects of an ordered type. -/
theorem Ordered.eq {t : Ty} (h : Ordered t) (cx cy : Bool) : call t .eq cx cy ≠ none := by
  induction h generalizing cx cy with
  | pair _ _ iha ihb =>
    have h1 := iha true true
    have h2 := ihb true true
    cases e1 : call _ .eq true true with
    | none => exact absurd e1 h1
    | some f =>
      cases e2 : call _ .eq true true with
      | none => exact absurd e2 h2
      | some g => simp only [call, e1, e2]; exact fun h => nomatch h
  | _ => exact fun h => nomatch h

/-- Some part of the value is an `any` or a `function`. -/
def Ty.hasAny : Ty → Bool
  | .any => true
  | .pair a b => a.hasAny || b.hasAny
  | .vec a | .list a => a.hasAny
  | _ => false

/-- Less than 2^31 elements, all with `P`. -/
def smallSeq {α : Type} (P : α → Prop) (l : List α) : Prop := l.length < 2147483648 ∧ ∀ e ∈ l, P e

theorem smallSeq_nil {α : Type} {P : α → Prop} : smallSeq P [] := ⟨by show 0 < _; decide, fun e he => by cases he⟩

theorem smallSeq_one {α : Type} {P : α → Prop} {x : α} (h : P x) : smallSeq P [x] := ⟨by show 1 < _; decide, fun e he => by rw [List.mem_singleton.1 he]; exact h⟩

/-- All vectors and lists in the value have less than 2^31 elements. -/
def Ty.small : (t : Ty) → t.Val → Prop
  | .pair a b, x => a.small x.1 ∧ b.small x.2
  | .vec a, x => smallSeq a.small x
  | .list a, x => smallSeq a.small x
  | _, _ => True

/-- Some value of the type. -/
def Ty.dflt : (t : Ty) → t.Val
  | .int n => 0#n.bits
  | .ptr => 0#64
  | .view => ([] : List (BitVec 8))
  | .pair a b => (a.dflt, b.dflt)
  | .uniq => 0#64
  | .shared => 0#64
  | .vec a => ([] : List a.Val)
  | .list a => ([] : List a.Val)
  | .any => (none : Option Nat)
  | .other => ()

theorem Ty.small_dflt : ∀ t : Ty, t.small t.dflt
  | .pair a b => ⟨small_dflt a, small_dflt b⟩
  | .vec _ => smallSeq_nil
  | .list _ => smallSeq_nil
  | .int _ | .ptr | .view | .uniq | .shared | .any | .other => trivial

theorem seqLoop_ok {α : Type} [DecidableEq α] {ne : Cmp α} {P : α → Prop} (h : ∀ x y, P x → P y → ne x y = .ok (!decide (x = y))) :
    ∀ (x y : List α) (i : Nat), x.length = y.length → i + x.length < 2147483648 → (∀ e ∈ x, P e) → (∀ e ∈ y, P e) → seqLoop ne i x y = .ok (decide (x = y))
  | [], [], _, _, _, _, _ => by simp [seqLoop]
  | a :: x, b :: y, i, hl, hi, hx, hy => by
    simp only [List.length_cons] at hl hi
    have ih := seqLoop_ok h x y (i + 1) (by omega) (by omega) (fun e he => hx e (by simp [he])) (fun e he => hy e (by simp [he]))
    simp only [seqLoop, h a b (hx a (by simp)) (hy b (by simp)), Res.ok_bind]
    by_cases e : a = b
    · subst e
      simp only [decide_true, Bool.not_true, Bool.false_eq_true, if_false, ih]
      rw [if_neg (by omega)]
      simp
    · simp [e]

theorem seqLoop_refl {α : Type} {ne : Cmp α} : ∀ (x : List α) (i : Nat), i + x.length < 2147483648 → (∀ e ∈ x, ne e e = .ok false) → seqLoop ne i x x = .ok true
  | [], _, _, _ => rfl
  | a :: x, i, hi, hx => by
    simp only [List.length_cons] at hi
    simp only [seqLoop, hx a (by simp), Res.ok_bind, Bool.false_eq_true, if_false]
    rw [if_neg (by omega)]
    exact seqLoop_refl x (i + 1) (by omega) fun e he => hx e (by simp [he])

theorem seqLoop_ub {α : Type} {ne : Cmp α} : ∀ (x : List α) (i : Nat), i < 2147483648 → 2147483648 ≤ i + x.length → (∀ e ∈ x, ne e e = .ok false) → seqLoop ne i x x = .ub
  | [], _, h1, h2, _ => by simp at h2; omega
  | a :: x, i, h1, h2, hx => by
    simp only [List.length_cons] at h2
    simp only [seqLoop, hx a (by simp), Res.ok_bind, Bool.false_eq_true, if_false]
    by_cases e : i = 2147483647
    · rw [if_pos e]
    · rw [if_neg e]
      exact seqLoop_ub x (i + 1) (by omega) (by omega) fun e he => hx e (by simp [he])

theorem notR_ok {α : Type} {g : Cmp α} {x y : α} {b : Bool} (h : g x y = .ok b) : notR g x y = .ok (!b) := by
  simp only [notR, h, Res.ok_bind]

/-- What `==` and `!=` of pairs and sequences are made of. -/
theorem pair_eq {a b : Ty} {cx cy : Bool} {g : Cmp (Ty.pair a b).Val} (h : call (.pair a b) .eq cx cy = some g) :
    ∃ f f', call a .eq true true = some f ∧ call b .eq true true = some f' ∧ g = pairEq f f' := by
  simp only [call] at h
  cases e1 : call a .eq true true with
  | none => rw [e1] at h; cases h
  | some f =>
    cases e2 : call b .eq true true with
    | none => rw [e1, e2] at h; cases h
    | some f' => rw [e1, e2] at h; injection h with h; exact ⟨f, f', rfl, rfl, h.symm⟩

theorem pair_ne {a b : Ty} {cx cy : Bool} {g : Cmp (Ty.pair a b).Val} (h : call (.pair a b) .ne cx cy = some g) :
    ∃ f f', call a .eq true true = some f ∧ call b .eq true true = some f' ∧ g = notR (pairEq f f') := by
  simp only [call] at h
  cases e1 : call a .eq true true with
  | none => rw [e1] at h; cases h
  | some f =>
    cases e2 : call b .eq true true with
    | none => rw [e1, e2] at h; cases h
    | some f' => rw [e1, e2] at h; injection h with h; exact ⟨f, f', rfl, rfl, h.symm⟩

theorem vec_eq {a : Ty} {cx cy : Bool} {g : Cmp (Ty.vec a).Val} (h : call (.vec a) .eq cx cy = some g) :
    ∃ f, call a .ne false true = some f ∧ g = seqEq f := by
  simp only [call] at h
  cases e1 : call a .ne false true with
  | none => rw [e1] at h; cases h
  | some f => rw [e1] at h; injection h with h; exact ⟨f, rfl, h.symm⟩

theorem list_eq {a : Ty} {cx cy : Bool} {g : Cmp (Ty.list a).Val} (h : call (.list a) .eq cx cy = some g) :
    cx = false ∧ ∃ f, call a .ne false true = some f ∧ g = seqEq f := by
  simp only [call] at h
  cases cx with
  | true => cases h
  | false =>
    cases e1 : call a .ne false true with
    | none => rw [e1] at h; cases h
    | some f => rw [e1] at h; injection h with h; exact ⟨rfl, f, rfl, h.symm⟩

theorem list_ne {a : Ty} {cx cy : Bool} {g : Cmp (Ty.list a).Val} (h : call (.list a) .ne cx cy = some g) :
    cx = false ∧ ∃ f, call a .ne false true = some f ∧ g = notR (seqEq f) := by
  simp only [call] at h
  cases cx with
  | true => cases h
  | false =>
    cases e1 : call a .ne false true with
    | none => rw [e1] at h; cases h
    | some f => rw [e1] at h; injection h with h; exact ⟨rfl, f, rfl, h.symm⟩

theorem shared_ok {op : Op} {cx cy : Bool} {g : Cmp Ty.shared.Val} (h : call .shared op cx cy = some g) : g = fun (x y : BitVec 64) => .ok (op.num x.toNat y.toNat) := by
  simp only [call] at h
  split at h
  · cases h
  · injection h with h; exact h.symm

theorem addr_inj {x y : BitVec 64} : (x.toNat : Int) = y.toNat ↔ x = y := by
  constructor
  · intro h; exact BitVec.eq_of_toNat_eq (by omega)
  · rintro rfl; rfl

/-- `==` and `!=` tell values apart, if no `any` is involved. -/
theorem eq_ok {t : Ty} (ha : t.hasAny = false) {x y : t.Val} (hx : t.small x) (hy : t.small y) (cx cy : Bool) (g : Cmp t.Val) :
    (call t .eq cx cy = some g → g x y = .ok (decide (x = y))) ∧ (call t .ne cx cy = some g → g x y = .ok (!decide (x = y))) := by
  have at' : ∀ {t : Ty}, t.atom = true → t.hasAny = false → ∀ (x y : t.Val) (cx cy : Bool) (g : Cmp t.Val),
      (call t .eq cx cy = some g → g x y = .ok (decide (x = y))) ∧ (call t .ne cx cy = some g → g x y = .ok (!decide (x = y))) := by
    intro t h ha x y cx cy g
    obtain ⟨c, _, hz, _, hc⟩ := atom_three h
    have hz := hz (by rintro rfl; cases ha) x y
    refine ⟨fun e => ?_, fun e => ?_⟩
    · rw [hc] at e; injection e with e; subst e
      exact congrArg Res.ok (decide_eq_decide.2 hz)
    · rw [hc] at e; injection e with e; subst e
      exact congrArg (fun b => Res.ok (!b)) (decide_eq_decide.2 hz)
  induction t generalizing cx cy with
  | int n => exact at' rfl ha x y cx cy g
  | ptr => exact at' rfl ha x y cx cy g
  | view => exact at' rfl ha x y cx cy g
  | uniq => exact at' rfl ha x y cx cy g
  | any => cases ha
  | other => exact ⟨fun e => (nomatch e), fun e => (nomatch e)⟩
  | shared =>
    refine ⟨fun e => ?_, fun e => ?_⟩
    · rw [shared_ok e]; exact congrArg Res.ok (decide_eq_decide.2 addr_inj)
    · rw [shared_ok e]; exact congrArg (fun b => Res.ok (!b)) (decide_eq_decide.2 addr_inj)
  | pair a b iha ihb =>
    simp only [Ty.hasAny, Bool.or_eq_false_iff] at ha
    obtain ⟨x1, x2⟩ := x
    obtain ⟨y1, y2⟩ := y
    have key : ∀ f f', call a .eq true true = some f → call b .eq true true = some f' → pairEq f f' (x1, x2) (y1, y2) = .ok (decide (((x1, x2) : a.Val × b.Val) = (y1, y2))) := by
      intro f f' e1 e2
      simp only [pairEq, (iha ha.1 hx.1 hy.1 true true f).1 e1, (ihb ha.2 hx.2 hy.2 true true f').1 e2, Res.ok_bind]
      by_cases h : x1 = y1 <;> simp [h]
    refine ⟨fun e => ?_, fun e => ?_⟩
    · obtain ⟨f, f', e1, e2, rfl⟩ := pair_eq e
      exact key f f' e1 e2
    · obtain ⟨f, f', e1, e2, rfl⟩ := pair_ne e
      exact notR_ok (key f f' e1 e2)
  | vec a ih =>
    refine ⟨fun e => ?_, fun e => (nomatch e)⟩
    obtain ⟨f, e1, rfl⟩ := vec_eq e
    unfold seqEq
    by_cases hl : List.length (α := a.Val) x = List.length (α := a.Val) y
    · rw [if_neg (by simpa using hl)]
      exact seqLoop_ok (P := a.small) (fun u v hu hv => (ih ha hu hv false true f).2 e1) x y 0 hl (by have := hx.1; omega) hx.2 hy.2
    · rw [if_pos hl]
      have : x ≠ y := by rintro rfl; exact hl rfl
      simp [this]
  | list a ih =>
    have key : ∀ f, call a .ne false true = some f → seqEq f x y = .ok (decide (x = y)) := by
      intro f e1
      unfold seqEq
      by_cases hl : List.length (α := a.Val) x = List.length (α := a.Val) y
      · rw [if_neg (by simpa using hl)]
        exact seqLoop_ok (P := a.small) (fun u v hu hv => (ih ha hu hv false true f).2 e1) x y 0 hl (by have := hx.1; omega) hx.2 hy.2
      · rw [if_pos hl]
        have : x ≠ y := by rintro rfl; exact hl rfl
        simp [this]
    refine ⟨fun e => ?_, fun e => ?_⟩
    · obtain ⟨_, f, e1, rfl⟩ := list_eq e
      exact key f e1
    · obtain ⟨_, f, e1, rfl⟩ := list_ne e
      exact notR_ok (key f e1)

/-- A value equals itself. -/
theorem eq_refl {t : Ty} {x : t.Val} (hx : t.small x) (cx cy : Bool) (g : Cmp t.Val) :
    (call t .eq cx cy = some g → g x x = .ok true) ∧ (call t .ne cx cy = some g → g x x = .ok false) := by
  induction t generalizing cx cy with
  | pair a b iha ihb =>
    have key : ∀ f f', call a .eq true true = some f → call b .eq true true = some f' → pairEq f f' x x = .ok true := by
      intro f f' e1 e2
      simp only [pairEq, (iha hx.1 true true f).1 e1, (ihb hx.2 true true f').1 e2, Res.ok_bind, if_true]
    refine ⟨fun e => ?_, fun e => ?_⟩
    · obtain ⟨f, f', e1, e2, rfl⟩ := pair_eq e
      exact key f f' e1 e2
    · obtain ⟨f, f', e1, e2, rfl⟩ := pair_ne e
      exact notR_ok (key f f' e1 e2)
  | vec a ih =>
    refine ⟨fun e => ?_, fun e => (nomatch e)⟩
    obtain ⟨f, e1, rfl⟩ := vec_eq e
    simp only [seqEq, ne_eq, not_true_eq_false, if_false]
    exact seqLoop_refl x 0 (by have := hx.1; omega) fun e he => (ih (hx.2 e he) false true f).2 e1
  | list a ih =>
    have key : ∀ f, call a .ne false true = some f → seqEq f x x = .ok true := by
      intro f e1
      simp only [seqEq, ne_eq, not_true_eq_false, if_false]
      exact seqLoop_refl x 0 (by have := hx.1; omega) fun e he => (ih (hx.2 e he) false true f).2 e1
    refine ⟨fun e => ?_, fun e => ?_⟩
    · obtain ⟨_, f, e1, rfl⟩ := list_eq e
      exact key f e1
    · obtain ⟨_, f, e1, rfl⟩ := list_ne e
      exact notR_ok (key f e1)
  | any =>
    refine ⟨fun e => ?_, fun e => ?_⟩ <;> (injection e with e; subst e; simp [Op.num])
  | _ =>
    have := eq_ok rfl hx hx cx cy g
    simpa using this

/-- With an `any` in them, some different values are taken for equal. -/
theorem any_bad {t : Ty} (ha : t.hasAny = true) : ∃ x y : t.Val, x ≠ y ∧ t.small x ∧ t.small y ∧ ∀ (cx cy : Bool) (g : Cmp t.Val),
    (call t .eq cx cy = some g → g x y = .ok true) ∧ (call t .ne cx cy = some g → g x y = .ok false) := by
  induction t with
  | any =>
    refine ⟨(some 0 : Option Nat), (some 1 : Option Nat), (by decide : (some 0 : Option Nat) ≠ some 1), trivial, trivial, fun cx cy g => ⟨fun e => ?_, fun e => ?_⟩⟩ <;>
      (injection e with e; subst e; simp [Op.num])
  | pair a b iha ihb =>
    have fin : ∀ (x y : (Ty.pair a b).Val), (∀ f f', call a .eq true true = some f → call b .eq true true = some f' → pairEq f f' x y = .ok true) → ∀ (cx cy : Bool) (g : Cmp (Ty.pair a b).Val),
        (call (.pair a b) .eq cx cy = some g → g x y = .ok true) ∧ (call (.pair a b) .ne cx cy = some g → g x y = .ok false) := by
      intro x y key cx cy g
      refine ⟨fun e => ?_, fun e => ?_⟩
      · obtain ⟨f, f', e1, e2, rfl⟩ := pair_eq e
        exact key f f' e1 e2
      · obtain ⟨f, f', e1, e2, rfl⟩ := pair_ne e
        exact notR_ok (key f f' e1 e2)
    simp only [Ty.hasAny, Bool.or_eq_true] at ha
    rcases ha with ha | ha
    · obtain ⟨x, y, hn, hx, hy, h⟩ := iha ha
      refine ⟨(x, b.dflt), (y, b.dflt), fun e => hn (congrArg Prod.fst e), ⟨hx, b.small_dflt⟩, ⟨hy, b.small_dflt⟩, fin _ _ ?_⟩
      intro f f' e1 e2
      simp only [pairEq, (h true true f).1 e1, (eq_refl b.small_dflt true true f').1 e2, Res.ok_bind, if_true]
    · obtain ⟨x, y, hn, hx, hy, h⟩ := ihb ha
      refine ⟨(a.dflt, x), (a.dflt, y), fun e => hn (congrArg Prod.snd e), ⟨a.small_dflt, hx⟩, ⟨a.small_dflt, hy⟩, fin _ _ ?_⟩
      intro f f' e1 e2
      simp only [pairEq, (eq_refl a.small_dflt true true f).1 e1, (h true true f').1 e2, Res.ok_bind, if_true]
  | vec a ih =>
    obtain ⟨x, y, hn, hx, hy, h⟩ := ih ha
    refine ⟨([x] : List a.Val), ([y] : List a.Val), fun e => hn (List.head_eq_of_cons_eq e), smallSeq_one hx, smallSeq_one hy, fun cx cy g => ⟨fun e => ?_, fun e => (nomatch e)⟩⟩
    obtain ⟨f, e1, rfl⟩ := vec_eq e
    have h1 := (h false true f).2 e1
    show seqEq f [x] [y] = .ok true
    simp [seqEq, seqLoop, h1]
  | list a ih =>
    obtain ⟨x, y, hn, hx, hy, h⟩ := ih ha
    have key : ∀ f, call a .ne false true = some f → seqEq f [x] [y] = .ok true := by
      intro f e1
      simp [seqEq, seqLoop, (h false true f).2 e1]
    refine ⟨([x] : List a.Val), ([y] : List a.Val), fun e => hn (List.head_eq_of_cons_eq e), smallSeq_one hx, smallSeq_one hy, fun cx cy g => ⟨fun e => ?_, fun e => ?_⟩⟩
    · obtain ⟨_, f, e1, rfl⟩ := list_eq e
      exact key f e1
    · obtain ⟨_, f, e1, rfl⟩ := list_ne e
      exact notR_ok (key f e1)
  | _ => cases ha

end Verif.Compare
