import Verif.Base.Res

/-!
Model of `estl/algorithm.hpp` (min, max, fill, fill_n), of `reverse_iterator`
(`estl/iterator.hpp`) over random access positions, and of the global
constructor loop (`kernel/include/core/global_obj.hpp`).
-/

namespace Verif.Algorithm
open Verif

/-- `min`, estl/algorithm.hpp:5-8. -/
def min {α : Type} (lt : α → α → Bool) (lhs rhs : α) : α := if lt lhs rhs then lhs else rhs

/-- `max`, estl/algorithm.hpp:10-13 (uses the type's `>`). -/
def max {α : Type} (gt : α → α → Bool) (lhs rhs : α) : α := if gt lhs rhs then lhs else rhs

/-- Elements of type `α` in memory; `none`: not an element that may be assigned
(what `fill` writes to, estl/algorithm.hpp:22-38). -/
abbrev Store (α : Type) := Nat → Option α

/-- `*p = value` (estl/algorithm.hpp:26, 35). -/
def assign {α : Type} (s : Store α) (p : Nat) (v : α) : Res (Store α) :=
  match s p with
  | some _ => .ok (fun x => if x = p then some v else s x)
  | none => .ub

/-- `fill`, estl/algorithm.hpp:22-29: `while (first != end) *(first++) = value`.
The fuel bounds the number of iterations. -/
def fill {α : Type} : Nat → Store α → Nat → Nat → α → Res (Store α)
  | 0, s, first, last, _ => if first ≠ last then .oof else .ok s
  | n + 1, s, first, last, v =>
    if first ≠ last then do
      let s ← assign s first v
      fill n s (first + 1) last v
    else .ok s

/-- `fill_n`, estl/algorithm.hpp:31-38: `while (count-- > 0) *(first++) = value`
with an unsigned 64-bit count. -/
def fillN {α : Type} : Nat → Store α → Nat → BitVec 64 → α → Res (Store α)
  | 0, s, _, count, _ => if count > 0#64 then .oof else .ok s
  | n + 1, s, first, count, v =>
    if count > 0#64 then do
      let s ← assign s first v
      fillN n s (first + 1) (count - 1) v
    else .ok s

/-- `reverse_iterator`, estl/iterator.hpp:200-296; `current` is the position of
the wrapped iterator in its sequence. -/
structure RevIter where
  current : Int

/-- `operator*`, estl/iterator.hpp:228-231: `*--tmp`; undefined outside the sequence. -/
def deref {α : Type} (l : List α) (r : RevIter) : Res α :=
  let tmp := r.current - 1
  if h : 0 ≤ tmp ∧ tmp.toNat < l.length then .ok (l[tmp.toNat]'h.2) else .ub

/-- `operator++`, estl/iterator.hpp:239-242. -/
def RevIter.inc (r : RevIter) : RevIter := ⟨r.current - 1⟩
/-- `operator--`, estl/iterator.hpp:256-259. -/
def RevIter.dec (r : RevIter) : RevIter := ⟨r.current + 1⟩
/-- `operator+`, estl/iterator.hpp:261-263. -/
def RevIter.add (r : RevIter) (n : Int) : RevIter := ⟨r.current - n⟩
/-- `operator-`, estl/iterator.hpp:269-271. -/
def RevIter.sub (r : RevIter) (n : Int) : RevIter := ⟨r.current + n⟩
/-- `operator[]`, estl/iterator.hpp:278-280. -/
def RevIter.index {α : Type} (l : List α) (r : RevIter) (n : Int) : Res α := deref l (r.add n)
/-- `operator==`, estl/iterator.hpp:298-302. -/
def RevIter.eq (x y : RevIter) : Bool := x.current = y.current
/-- `operator!=`, estl/iterator.hpp:304-308. -/
def RevIter.ne (x y : RevIter) : Bool := x.current ≠ y.current
/-- `operator<`, estl/iterator.hpp:310-314 (as written: the order of the bases). -/
def RevIter.lt (x y : RevIter) : Bool := x.current < y.current
/-- `operator>`, estl/iterator.hpp:322-326. -/
def RevIter.gt (x y : RevIter) : Bool := x.current > y.current
/-- `operator<=`, estl/iterator.hpp:316-320. -/
def RevIter.le (x y : RevIter) : Bool := x.current ≤ y.current
/-- `operator>=`, estl/iterator.hpp:328-332. -/
def RevIter.ge (x y : RevIter) : Bool := x.current ≥ y.current
/-- `rbegin()` of a sequence: wraps `end()` (as users of estl/iterator.hpp:200-296 do). -/
def rbegin {α : Type} (l : List α) : RevIter := ⟨l.length⟩
/-- `rend()`: wraps `begin()` (as users of estl/iterator.hpp:200-296 do). -/
def rend : RevIter := ⟨0⟩

/-- The table of constructors as laid out by the linker, kernel/Eospp.lds:21-24:
word address ↦ function. -/
abbrev CtorTable := Nat → Option Nat

/-- `Init`, kernel/include/core/global_obj.hpp:8-11; returns the calls made, in
order. A word outside the table is not a constructor: calling it is undefined. -/
def init (tbl : CtorTable) (endp : Nat) : Nat → Nat → List Nat → Res (List Nat)
  | 0, i, calls => if i ≠ endp then .oof else .ok calls
  | n + 1, i, calls =>
    if i ≠ endp then
      match tbl i with
      | some f => init tbl endp n (i + 1) (calls ++ [f])
      | none => .ub
    else .ok calls

end Verif.Algorithm
