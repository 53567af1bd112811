import Verif.Base.Res

/-!
Model of the comparison operators of values, over all types built from integers, pointers,
`string_view`, `pair`, `unique_ptr`, `shared_ptr`, `vector`, `list`, `any` and `function`, and of the functors of
`estl/utility.hpp:84-153`.

Both operands are lvalues of the same type. Whether an operator compiles depends on which of them
are const, since some parameters are references to non-const and some members are not const; `none`
stands for a program that does not compile. The language is C++17 (kernel/Makefile:2): `a != b` is
not rewritten to `!(a == b)`.

Simplifications.
* Values are compared, not objects: a `string_view` is its characters (C11 relates it to memory), a
  smart pointer is the address it holds, a container is the list of its elements; an `any` or
  `function` is nothing or some contents, told apart by a number.
* Pointers are compared by address. (The C++ standard leaves `<` on pointers into different objects
  unspecified, and `estd::less` has no special rule for them.)
* `char` is signed. Floating point numbers are left out, and so are comparisons with `nullptr`, of operands
  of different types and of iterators (C107).
-/

set_option backward.isDefEq.respectTransparency false

namespace Verif.Compare
open Verif

/-- The integer types, estl/type.hpp:4-21; `char` is `i8`. -/
inductive Num where
  | bool | u8 | i8 | u16 | i16 | u32 | i32 | u64 | i64
  deriving DecidableEq

/-- Number of value bits, estl/type.hpp:4-21. -/
def Num.bits : Num → Nat
  | .bool => 1
  | .u8 | .i8 => 8
  | .u16 | .i16 => 16
  | .u32 | .i32 => 32
  | .u64 | .i64 => 64

/-- Signed types, estl/type.hpp:4-21. -/
def Num.signed : Num → Bool
  | .i8 | .i16 | .i32 | .i64 => true
  | _ => false

/-- The number an object of an integer type stands for (no code) (types of estl/type.hpp:4-21). -/
def Num.val (n : Num) (x : BitVec n.bits) : Int := if n.signed then x.toInt else (x.toNat : Int)

/-- Types of the values compared: integers, pointers, `string_view` (estl/string_view.hpp:104),
`pair` (estl/pair.hpp:5-44), `unique_ptr` and `shared_ptr` (estl/memory.hpp:91, 547), `vector`
(estl/vector.hpp:9), `list` (estl/list.hpp:228), `any` and `function` (estl/any.hpp:5, estl/functional.hpp:107)
and the types without comparison operators: `deque`,
`array`, `tuple`, `set`, `bitset`, `stack`, `queue`, `weak_ptr`, ... (`other`). -/
inductive Ty where
  | int (n : Num)
  | ptr
  | view
  | pair (a b : Ty)
  | uniq
  | shared
  | vec (a : Ty)
  | list (a : Ty)
  | any
  | other
  deriving DecidableEq

/-- The values of a type (no code) (for the types of estl/). -/
def Ty.Val : Ty → Type
  | .int n => BitVec n.bits
  | .ptr => BitVec 64
  | .view => List (BitVec 8)
  | .pair a b => a.Val × b.Val
  | .uniq => BitVec 64
  | .shared => BitVec 64
  | .vec a => List a.Val
  | .list a => List a.Val
  | .any => Option Nat
  | .other => Unit

/-- The six operators (names in estl/pair.hpp:45-73). -/
inductive Op where
  | eq | ne | lt | le | gt | ge
  deriving DecidableEq

/-- A built-in comparison of two numbers (of integers after the usual conversions, of addresses),
as used in estl/utility.hpp:126-153. -/
def Op.num : Op → Int → Int → Bool
  | .eq, x, y => decide (x = y)
  | .ne, x, y => !decide (x = y)
  | .lt, x, y => decide (x < y)
  | .le, x, y => decide (x ≤ y)
  | .gt, x, y => decide (x > y)
  | .ge, x, y => decide (x ≥ y)

/-- The loop of `basic_string_view::compare`, estl/string_view.hpp:86-94. -/
def viewLoop : List (BitVec 8) → List (BitVec 8) → Int
  | a :: x, b :: y => if a.toInt < b.toInt then -1 else if a.toInt > b.toInt then 1 else viewLoop x y
  | _, _ => 0

/-- `basic_string_view::compare`, estl/string_view.hpp:78-95. -/
def viewCompare (x y : List (BitVec 8)) : Int :=
  if x.length < y.length then -1 else if x.length > y.length then 1 else viewLoop x y

/-- The loops of `vector::operator==` and `list::operator==`, estl/vector.hpp:212-217 and
estl/list.hpp:276-283, with `int i`: incrementing it beyond 2^31 - 1 is undefined. -/
def seqLoop {α : Type} (ne : α → α → Res Bool) : Nat → List α → List α → Res Bool
  | i, a :: x, b :: y => do
    if ← ne a b then .ok false
    else if i = 2147483647 then .ub
    else seqLoop ne (i + 1) x y
  | _, _, _ => .ok true

/-- `vector::operator==`, estl/vector.hpp:208-218; `list::operator==`, estl/list.hpp:269-284. -/
def seqEq {α : Type} (ne : α → α → Res Bool) (x y : List α) : Res Bool :=
  if x.length ≠ y.length then .ok false else seqLoop ne 0 x y

/-- What comparing two values with an operator does. -/
abbrev Cmp (α : Type) := α → α → Res Bool

/-- `!`, estl/pair.hpp:62, 72 and estl/list.hpp:286. -/
def notR {α : Type} (g : Cmp α) : Cmp α := fun x y => do
  let b ← g x y
  .ok (!b)

/-- `operator==` of pairs, estl/pair.hpp:45-48. -/
def pairEq {α β : Type} (f : Cmp α) (g : Cmp β) : Cmp (α × β) := fun x y => do
  if ← f x.1 y.1 then g x.2 y.2 else .ok false

/-- `operator<` of pairs, estl/pair.hpp:50-53. -/
def pairLt {α β : Type} (f : Cmp α) (g : Cmp β) : Cmp (α × β) := fun x y => do
  if ← f x.1 y.1 then f x.1 y.1 else g x.2 y.2

/-- `operator<=` of pairs, estl/pair.hpp:55-58, from their `<` and `==`. -/
def pairLe {α : Type} (lt eq : Cmp α) : Cmp α := fun x y => do
  if ← lt x y then .ok true else eq x y

/-- The operator that an expression `x op y` with lvalues of type `t` calls, or `none` if it does not
compile; `cx`, `cy`: the operands are const. Built-in operators; estl/string_view.hpp:106-134;
estl/pair.hpp:45-73 (const references, so the components are const); estl/memory.hpp:296-324
(`unique_ptr`, through the functors of estl/utility.hpp:126-153 on pointers); estl/memory.hpp:750-778 (`shared_ptr`, references
to non-const); estl/vector.hpp:208-218 (the elements on the left come from `data()`, lines 224-226, as
non-const, those on the right as const; no other operator); estl/list.hpp:269-287 (members that are not
const; elements as for `vector`); built-in operators on the results of `operator bool` (estl/any.hpp:51-53,
estl/functional.hpp:144-146, not `explicit`). -/
def call : (t : Ty) → Op → (cx cy : Bool) → Option (Cmp t.Val)
  | .int n, op, _, _ => some fun x y => .ok (op.num (n.val x) (n.val y))
  | .ptr, op, _, _ => some fun (x y : BitVec 64) => .ok (op.num x.toNat y.toNat)
  | .view, op, _, _ => some fun x y => .ok (op.num (viewCompare x y) 0)
  | .pair a b, op, _, _ =>
    let lt := do some (pairLt (← call a .lt true true) (← call b .lt true true))
    let eq := do some (pairEq (← call a .eq true true) (← call b .eq true true))
    match op with
    | .eq => eq
    | .ne => do some (notR (← eq))
    | .lt => lt
    | .le => do some (pairLe (← lt) (← eq))
    | .gt => do
      let g ← lt
      some fun x y => g y x
    | .ge => do some (notR (← lt))
  | .uniq, op, _, _ => some fun (x y : BitVec 64) => .ok (op.num x.toNat y.toNat)
  | .shared, op, cx, cy =>
    if cx || cy then none else some fun (x y : BitVec 64) => .ok (op.num x.toNat y.toNat)
  | .vec a, op, _, _ =>
    match op with
    | .eq => do some (seqEq (← call a .ne false true))
    | _ => none
  | .list a, op, cx, _ =>
    if cx then none else
    match op with
    | .eq => do some (seqEq (← call a .ne false true))
    | .ne => do some (notR (seqEq (← call a .ne false true)))
    | _ => none
  | .any, op, _, _ => some fun (x y : Option Nat) => .ok (op.num (if x.isSome then 1 else 0) (if y.isSome then 1 else 0))
  | .other, _, _, _ => none

/-- The function objects for comparison, estl/utility.hpp:126-153. -/
inductive Fn where
  | less | greater | lessEqual | greaterEqual
  deriving DecidableEq

/-- The operator in the body of a function object, estl/utility.hpp:127-152. -/
def Fn.op : Fn → Op
  | .greater => .gt
  | .less => .lt
  | .greaterEqual => .ge
  | .lessEqual => .le

/-- `operator()` of a function object, estl/utility.hpp:126-153: both parameters are references to
const. -/
def Fn.call (f : Fn) (t : Ty) : Option (Cmp t.Val) := Compare.call t f.op true true

/-- The function objects for arithmetic, estl/utility.hpp:84-124. -/
inductive Arith where
  | plus | minus | multiplies | divides | modulus | negate
  deriving DecidableEq

/-- The type in which an expression of type `n` is computed: integral promotion, which takes all types
narrower than `int` to `int` (C++ rule for the operators in estl/utility.hpp:86-122). -/
def Num.promoted (n : Num) : Num :=
  match n with
  | .bool | .u8 | .i8 | .u16 | .i16 => .i32
  | n => n

/-- A result in the type `n` (which is not narrower than `int`): undefined if it does not fit a signed type,
modulo 2^bits for an unsigned one (C++ rule for the operators in estl/utility.hpp:86-122). -/
def Num.result (n : Num) (v : Int) : Res Int :=
  if n.signed then
    if -2 ^ (n.bits - 1) ≤ v ∧ v < 2 ^ (n.bits - 1) then .ok v else .ub
  else .ok (v % 2 ^ n.bits)

/-- Conversion of a number to the type `n`, on `return` in estl/utility.hpp:84-124: `bool` is `v != 0`, otherwise modulo
2^bits. -/
def Num.conv (n : Num) (v : Int) : BitVec n.bits :=
  match n with
  | .bool => if v = 0 then 0#1 else 1#1
  | n => BitVec.ofInt n.bits v

/-- `operator()` of an arithmetic function object, estl/utility.hpp:84-124; `negate` has one parameter
(the second is not used). Division truncates; a divisor of 0 is undefined, and so are `/` and `%` when the
quotient does not fit. -/
def Arith.call (f : Arith) (n : Num) (x y : BitVec n.bits) : Res (BitVec n.bits) := do
  let p := n.promoted
  let a := n.val x
  let b := n.val y
  let v ← match f with
    | .plus => p.result (a + b)
    | .minus => p.result (a - b)
    | .multiplies => p.result (a * b)
    | .divides => if b = 0 then .ub else p.result (a.tdiv b)
    | .modulus => if b = 0 then .ub else (do
      let _ ← p.result (a.tdiv b)
      p.result (a.tmod b))
    | .negate => p.result (-a)
  .ok (n.conv v)

end Verif.Compare
